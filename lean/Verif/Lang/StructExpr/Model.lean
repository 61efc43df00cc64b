/-!
# Model of struct expressions

`src/cxy/lang/middle/sema/struct.c` 60–95 (`preCheckStructMembers`), 295–444 (`checkStructExpr`);
`src/cxy/lang/middle/simplify/simplify.c` 1035–1060 (`visitStructDecl`); `src/cxy/driver/driver.c` 185–212 (a module that is imported goes
through all stages before the one that imports it is checked).

`S{a: 1, b: 2}`: the checker notes which fields are written, then adds the defaults of the others and refuses the expression if a field is
left that has none. It notes a field under the number the field has. While the module with the struct is checked that is the place of the
field among all members; once that module is simplified it is the place among the fields. The loop that adds the defaults counts members.

Simplified: the values are those of the expressions, which are evaluated elsewhere; types are not checked. The struct is not generic.
-/
namespace Verif.StructExpr

variable {V : Type}

/-- A member of a struct: its name, whether it is a field, and the default of the field. -/
structure Member (V : Type) where
  name : Nat
  isField : Bool
  dflt : Option V

/-- struct.c 69 (`imported = false`), simplify.c 1047 (`imported = true`): the number of a field, from `n` on; with the search of 321–322 and
the test of 333. -/
def indexOf (imported : Bool) : Nat → List (Member V) → Nat → Option Nat
  | _, [], _ => none
  | n, m :: ms, x =>
    if m.name = x then (if m.isField then some n else none)
    else indexOf imported (if imported && !m.isField then n else n + 1) ms x

/-- struct.c 396: what is set in `initialized`. -/
def marked (imported : Bool) (S : List (Member V)) (written : List (Nat × V)) (i : Nat) : Bool :=
  written.any fun w => indexOf imported 0 S w.1 == some i

/-- struct.c 405–440: the loop over the members; `none` is an error. -/
def fill (isExtern : Bool) (mark : Nat → Bool) : Nat → List (Member V) → Option (List (Nat × V))
  | _, [] => some []
  | i, m :: ms =>
    if mark i || !m.isField then fill isExtern mark (i + 1) ms
    else match m.dflt with
      | none => if isExtern then fill isExtern mark (i + 1) ms else none
      | some d => (fill isExtern mark (i + 1) ms).map ((m.name, d) :: ·)

/-- struct.c 295–444 `checkStructExpr`: the initialisers that the expression has in the end, in their order. -/
def check (imported isExtern : Bool) (S : List (Member V)) (written : List (Nat × V)) : Option (List (Nat × V)) :=
  if written.all fun w => (indexOf imported 0 S w.1).isSome then
    (fill isExtern (marked imported S written) 0 S).map (written ++ ·)
  else none

/-- What a field has after the initialisers `.a = 1, .b = 2` in C: the last one for it counts; `none` is zero. -/
def valueOf : List (Nat × V) → Nat → Option V
  | [], _ => none
  | w :: ws, x => (valueOf ws x).or (if w.1 = x then some w.2 else none)

end Verif.StructExpr
