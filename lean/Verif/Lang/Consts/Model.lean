import Verif.Lang.Assign.Model
/-!
# Which assignments the type checker accepts

Model of `src/cxy/lang/middle/sema/assign.c` (`checkAssignExpr`), `src/cxy/lang/middle/sema/unary.c` (`checkUnaryExpr`,
`checkPrefixExpr`, `checkPointerOfExpr`), `src/cxy/lang/middle/sema/index.c` (`checkIndexExpr`),
`src/cxy/lang/middle/sema/path.c` (`checkPath`, `checkMember`), `src/cxy/lang/middle/sema/member.c` (`checkMemberExpr`) and
`src/cxy/lang/middle/sema/variables.c` (`checkVarDecl`), for variables, fields, array elements and pointers to these.

The type of an expression and its constant flag are kept apart, as in the code: `node->type`, with the flag of the type,
and `node->flags`.  Left out: references, casts, functions and `this`, classes, tuples, optional types, fields declared
constant, the overloaded operators.
-/
namespace Verif.Consts
open Verif.Assign (Ty assignable isConst unwrap)
open Verif.Prim (Prim)

/-- A variable: declared constant or not, and its type. -/
structure Decl where
  const : Bool
  ty : Ty

/-- The declarations of a program: variables, and the fields of each structure. -/
structure Env where
  var : Nat → Decl
  field : Nat → Nat → Option Ty
  impl : Nat → Nat → Bool

/-- Expressions: numbers, names, `e.f`, `e.[i]`, `*e`, `ptrof e`. -/
inductive Ex where
  | num (p : Prim) (n : Int)
  | var (v : Nat)
  | mem (e : Ex) (f : Nat)
  | idx (e i : Ex)
  | deref (e : Ex)
  | ptrof (e : Ex)

/-- ttable.c 657-681 `stripAll` -/
def stripAll : Ty → Ty
  | .ptr _ t => stripAll t
  | .ref _ t => stripAll t
  | .const t => stripAll t
  | t => t

/-- The flag of the wrapping of a type, ttable.c 1065-1078 `flattenWrappedType`. -/
def wrapped : Ty → Bool
  | .const _ => true
  | _ => false

/-- The type of a declared variable: variables.c 93-95, ttable.c 1023-1031 `makeWrappedType`. -/
def declTy (d : Decl) : Ty := if d.const && !isConst d.ty then .const d.ty else d.ty

/-- types.c `isIntegerType` -/
def isIndex (t : Ty) : Bool :=
  match unwrap t with
  | .prim p => Verif.Prim.isInteger p
  | _ => false

/-- The type and the flag of an expression; `none` if it is refused or not modelled.

* names: path.c 121-152, 158-196 `checkPath`: the flag of the declaration;
* `e.f`: path.c 178-189 and member.c 95-105: all pointers and wrappings are removed, the flag is that of the field, which
  is not declared constant here;
* `e.[i]`: index.c 46-125: the flag of `e`. A pointer to an array is not modelled (78-87 read the wrong type of it);
* `*e`: unary.c 156-187: the flag of `e`; the type is `operand->pointer.pointed`, where a wrapped type has the type that it
  wraps (types.h 174-176, 211-213). On an array the compiler reads the length as a pointer: not modelled;
* `ptrof e`: unary.c 226-237, ttable.c 810-819 `makePointerType`. -/
def check (env : Env) : Ex → Option (Ty × Bool)
  | .num p _ => some (.prim p, false)
  | .var v => some (declTy (env.var v), (env.var v).const)
  | .mem e f =>
    match check env e with
    | some (t, _) =>
      match stripAll t with
      | .struct s => (env.field s f).map fun u => (u, false)
      | _ => none
    | none => none
  | .idx e i =>
    match check env e, check env i with
    | some (t, k), some (ti, _) =>
      if isIndex ti then
        match unwrap t with
        | .arr _ u => some (u, k)
        | .ptr _ u =>
          match stripAll u with
          | .arr _ _ => none
          | _ => some (u, k)
        | _ => none
      else none
    | _, _ => none
  | .deref e =>
    match check env e with
    | some (.ptr _ u, k) => some (u, k)
    | some (.const (.ptr c u), k) => some (.ptr c u, k)
    | _ => none
  | .ptrof e =>
    match check env e with
    | some (t, k) => some (.ptr (k || wrapped t) (unwrap t), k)
    | none => none

/-- Statements: an assignment, `++` or `--`, and the initialisation of a variable. -/
inductive Stmt where
  | assign (l e : Ex)
  | step (l : Ex) (by_ : Int)
  | init (v : Nat) (e : Ex)

/-- assign.c 43-88: the type of the left side and whether a constant flag is seen. For `e.[i]` the expression itself is not
checked, only `e`. -/
def checkLeft (env : Env) : Ex → Option (Ty × Bool)
  | .idx e i =>
    match check env e, check env i with
    | some (t, _), some (ti, _) =>
      if isIndex ti then
        match unwrap t with
        | .arr _ u => some (u, wrapped t)
        | .ptr c u => some (u, wrapped t || c)
        | _ => none
      else none
    | _, _ => none
  | l => check env l

/-- Arrays of a given length. -/
def isArr : Ty → Bool
  | .arr (some _) _ => true
  | _ => false

/-- assign.c 37-131 `checkAssignExpr` (a compound assignment is treated the same); unary.c 52-86 and 258-292 `checkUnaryExpr`;
variables.c 10-95 `checkVarDecl`. -/
def accepts (env : Env) : Stmt → Bool
  | .assign l e =>
    match checkLeft env l, check env e with
    | some (t, k), some (u, _) => !(k || isConst t) && !isArr u && assignable env.impl t u
    | _, _ => false
  | .step l _ =>
    match check env l with
    | some (t, k) => !k && (match unwrap t with | .prim p => Verif.Prim.isNumeric p | _ => false)
    | none => false
  | .init v e =>
    match check env e with
    | some (u, _) => assignable env.impl (env.var v).ty u
    | none => false

/-! ## Running

Memory is kept as a tree of variables, fields and elements: a place is a variable and the way into it. -/

abbrev Loc := Nat × List Nat

inductive Val where
  | num (n : Int)
  | addr (l : Loc)
  deriving DecidableEq

abbrev Mem := Loc → Val

def Mem.set (m : Mem) (l : Loc) (v : Val) : Mem := fun x => if x = l then v else m x

/-- The type of what is found on the way `p` into a value of type `t`. -/
def into (env : Env) : Ty → List Nat → Option Ty
  | t, [] => some t
  | .struct s, f :: p =>
    match env.field s f with
    | some u => into env u p
    | none => none
  | .arr n u, i :: p =>
    match n with
    | some n => if i < n then into env u p else none
    | none => none
  | _, _ => none

/-- The declared type of a place. -/
def locTy (env : Env) (l : Loc) : Option Ty := into env (env.var l.1).ty l.2

/-- An expression is a place or a value. -/
inductive Ref where
  | at (l : Loc)
  | val (v : Val)

/-- The element `n` of the array at `l`. -/
def elem (env : Env) (l : Loc) (n : Int) : Option Loc :=
  match locTy env l with
  | some (.arr (some k) _) => if 0 ≤ n ∧ n < k then some (l.1, l.2 ++ [n.toNat]) else none
  | _ => none

/-- The value at a place; that of an array is the address of its first element (the array is passed as a pointer). -/
def load (env : Env) (m : Mem) : Ref → Option Val
  | .val v => some v
  | .at l =>
    match locTy env l with
    | some (.arr _ _) => (elem env l 0).map .addr
    | some (.struct _) => none
    | some _ => some (m l)
    | none => none

/-- Only numbers and pointers are stored. -/
def store (env : Env) (m : Mem) (l : Loc) (v : Val) : Option Mem :=
  match locTy env l with
  | some (.arr _ _) => none
  | some (.struct _) => none
  | some _ => some (m.set l v)
  | none => none

/-- The structure behind any number of pointers. -/
def chase (m : Mem) : Ty → Loc → Option Loc
  | .ptr _ t, l =>
    match m l with
    | .addr l' => chase m t l'
    | .num _ => none
  | .const t, l => chase m t l
  | _, l => some l

/-- The `n`-th element after the one at `l`; outside of an array the program has no meaning. -/
def shift (env : Env) (l : Loc) (n : Int) : Option Loc :=
  if n = 0 then some l
  else
    match l.2.getLast? with
    | some j =>
      match locTy env (l.1, l.2.dropLast) with
      | some (.arr (some k) _) =>
        if 0 ≤ (j : Int) + n ∧ (j : Int) + n < k then some (l.1, l.2.dropLast ++ [((j : Int) + n).toNat]) else none
      | _ => none
    | none => none

/-- The place or value of an expression; `none` where the program has no meaning. -/
def ev (env : Env) (m : Mem) : Ex → Option Ref
  | .num _ n => some (.val (.num n))
  | .var v => some (.at (v, []))
  | .mem e f =>
    match check env e, ev env m e with
    | some (t, _), some (.at l) =>
      match chase m t l with
      | some l' => some (.at (l'.1, l'.2 ++ [f]))
      | none => none
    | some (.ptr _ t, _), some (.val (.addr l)) =>
      match chase m t l with
      | some l' => some (.at (l'.1, l'.2 ++ [f]))
      | none => none
    | _, _ => none
  | .idx e i =>
    match check env e, ev env m e, ev env m i with
    | some (t, _), some r, some ri =>
      match load env m ri with
      | some (.num n) =>
        match unwrap t, r with
        | .arr _ _, .at l => (elem env l n).map .at
        | .ptr _ _, r =>
          match load env m r with
          | some (.addr l) => (shift env l n).map .at
          | _ => none
        | _, _ => none
      | _ => none
    | _, _, _ => none
  | .deref e =>
    match ev env m e with
    | some r =>
      match load env m r with
      | some (.addr l) => some (.at l)
      | _ => none
    | none => none
  | .ptrof e =>
    match ev env m e with
    | some (.at l) => some (.val (.addr l))
    | _ => none

/-- One statement. -/
def exec (env : Env) (m : Mem) : Stmt → Option Mem
  | .assign l e =>
    match ev env m l, ev env m e with
    | some (.at p), some r =>
      match load env m r with
      | some v => store env m p v
      | none => none
    | _, _ => none
  | .step l d =>
    match ev env m l with
    | some (.at p) =>
      match m p with
      | .num n => store env m p (.num (n + d))
      | .addr _ => none
    | _ => none
  | .init v e =>
    match ev env m e with
    | some r =>
      match load env m r with
      | some x => store env m (v, []) x
      | none => none
    | none => none

/-- Any way through a program is a list of statements. -/
def run (env : Env) : Mem → List Stmt → Option Mem
  | m, [] => some m
  | m, s :: ss =>
    match exec env m s with
    | some m' => run env m' ss
    | none => none

end Verif.Consts
