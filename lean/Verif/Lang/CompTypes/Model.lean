/-!
# Comparing types at compile time

`src/cxy/lang/middle/eval/eval.c` 11-21 (`comptimeCompareManyTypes`) and 53-101 (`comptimeCompareTypes`), which decide `#T == #U` and
`#T != #U` (`middle/eval/binary.c` 405-410). Names of structures, classes and enumerations stand for such expressions with a link to the
declaration (`middle/eval/path.c` 96-114).

Left out: how the operands are evaluated before.
-/
namespace Verif.CompTypes

/-- Expressions for types. Declarations are numbers. -/
inductive Te where
  | void
  | string
  | auto
  | prim (p : Nat)
  | arr (dim : Nat) (e : Te)
  | tup (es : List Te)
  | ptr (e : Te)
  | refr (e : Te)
  | opt (e : Te)
  /-- the parameters are declarations, `param` -/
  | func (ret : Te) (params : List Te)
  | param (e : Te)
  | enum (d : Nat)
  | struct (d : Nat)
  | cls (d : Nat)
  | fn (d : Nat)
  /-- a type that is known by its number in the table -/
  | typeRef (t : Nat)
  /-- a link to a declaration -/
  | link (e : Te)

def tag : Te → Nat
  | .void => 0 | .string => 1 | .auto => 2 | .prim _ => 3 | .arr .. => 4 | .tup _ => 5 | .ptr _ => 6 | .refr _ => 7 | .opt _ => 8
  | .func .. => 9 | .param _ => 10 | .enum _ => 11 | .struct _ => 12 | .cls _ => 13 | .fn _ => 14 | .typeRef _ => 15 | .link _ => 16

/-- The type of a node; `known` is what was found before for nodes that are not types from the table. -/
def typeOf (known : Te → Option Nat) : Te → Option Nat
  | .typeRef t => some t
  | e => known e

def isTypeRef : Te → Bool
  | .typeRef _ => true
  | _ => false

def isAuto : Te → Bool
  | .auto => true
  | _ => false

/-- eval.c 55-59 for different tags, and 98-99 for tags without a case. -/
def rest (known : Te → Option Nat) (l r : Te) : Bool :=
  if tag l ≠ tag r then
    if isTypeRef l || isTypeRef r then typeOf known l == typeOf known r else isAuto l
  else false

mutual
/-- eval.c 53-101; `name` is the name of a declaration. `none`: a null pointer is followed (84, without parameters). Of two links both
targets are compared; 97 is for an expression that is no link, which has another tag. -/
def cmp (name : Nat → Nat) (known : Te → Option Nat) : Te → Te → Option Bool
  | .void, .void => some true
  | .string, .string => some true
  | .prim p, .prim q => some (p == q)
  | .arr n e, .arr m f => if n == m then cmp name known e f else some false
  | .tup es, .tup fs => cmpMany name known es fs
  | .ptr e, .ptr f => cmp name known e f
  | .refr e, .refr f => cmp name known e f
  | .opt e, .opt f => cmp name known e f
  | .func _ _, .func _ [] => none
  | .func e _, .func _ (p :: _) => cmp name known e p
  | .enum a, .enum b => some (name a == name b)
  | .struct a, .struct b => some (name a == name b)
  | .fn a, .fn b => some (name a == name b)
  | .typeRef t, .typeRef u => some (t == u)
  | .link e, .link f => cmp name known e f
  | l, r => some (rest known l r)
/-- eval.c 11-21 -/
def cmpMany (name : Nat → Nat) (known : Te → Option Nat) : List Te → List Te → Option Bool
  | [], [] => some true
  | [], _ :: _ => some false
  | _ :: _, [] => some false
  | e :: es, f :: fs => match cmp name known e f with
    | none => none
    | some false => some false
    | some true => cmpMany name known es fs
end

/-- `#T == #U` and `#T != #U` (binary.c 408). -/
def eq (name : Nat → Nat) (known : Te → Option Nat) (l r : Te) : Option Bool := (cmp name known l r).map (fun b => true == b)
def ne (name : Nat → Nat) (known : Te → Option Nat) (l r : Te) : Option Bool := (cmp name known l r).map (fun b => true != b)

end Verif.CompTypes
