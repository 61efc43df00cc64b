/-!
# `for` over arrays and strings, and operators of base classes

Sources: `src/cxy/lang/middle/simplify/simplify.c` 191–344 (`simplifyForArrayStmt`), 1062–1069
(`visitForStmt`); `src/cxy/lang/middle/sema/for.c` 10–47 (`findCustomRange`, `findIteratorType`),
353–428 (`checkForStmt`); `src/cxy/lang/frontend/types.h` 162–236 (`Type`) and
`src/cxy/lang/frontend/ttable.c` 508 (the type `string`);
`src/cxy/lang/middle/eval/for.c` 131–167 (`evalForStmtWithString`);
`src/cxy/lang/frontend/types.c` 1159–1169 (`findOverloadMemberUpInheritanceChain`);
`src/cxy/lang/middle/sema/node.c` 443–470 (`transformToTruthyOperator`), 472–491
(`transformToAwaitOperator`), 561–579 (`transformToDerefOperator`);
`src/cxy/lang/middle/sema/index.c` 15–44; `src/cxy/lang/middle/sema/assign.c` 12–36;
`src/cxy/lang/middle/sema/call.c` 207–214; `src/cxy/lang/middle/sema/binary.c` 52–67.

Loops over ranges of numbers are in `Verif/Lang/RangeLoop`, the control flow of the `while` that a
loop becomes in `Verif/Lang/CFlow`.
-/

namespace Verif.ForEach

/-! ## The loop -/

/-- How a run of the body ends: at its end or with `continue`, with `break`, or with `return`. -/
inductive Ctl where
  | next
  | brk
  | ret
  deriving DecidableEq, Repr

/-- The body of the loop: from the element, the index and the state of the program to how it ends,
the index afterwards (which the body can assign if the variables are not `const`) and the state. -/
abbrev Body (α σ : Type) := α → Int → σ → Ctl × Int × σ

/-- simplify.c 244–343: `x; i = 0; _for = range; while (i < len) { x = _for[i]; body } i += 1`.  The
comparison is unsigned (`len` is a `u64` literal, 252–256), so a negative `i` is not below `len`.
`read s i` is element `i` of the array in state `s`, which the body may change; `len` is
`rangeType->array.len`.  The answer is whether the function returned, and the state; `none` is a loop
that has not ended in `fuel` rounds. -/
def run {α σ : Type} (len : Nat) (read : σ → Nat → α) (body : Body α σ) :
    Nat → Int → σ → Option (Bool × σ)
  | 0, _, _ => none
  | fuel + 1, i, s =>
      if 0 ≤ i ∧ i < len then
        match body (read s i.toNat) i s with
        | (.next, j, s') => run len read body fuel (j + 1) s'
        | (.brk, _, s') => some (false, s')
        | (.ret, _, s') => some (true, s')
      else some (false, s)

/-- types.h 172–236, ttable.c 508: the body of a type is a union; that of the type `string` is not
initialised with a length, and the rest of a compound literal is zero. -/
def stringTypeArrayLen : Nat := 0

/-- simplify.c 191–344 for an array of `len` elements. -/
def runArray {α σ : Type} (len : Nat) (read : σ → Nat → α) (body : Body α σ) (fuel : Nat) (s : σ) :
    Option (Bool × σ) :=
  run len read body fuel 0 s

/-- simplify.c 191–344 for a string `str`: the same, with the length that the type `string` has as
an array (254). -/
def runString {σ : Type} (str : List Nat) (body : Body Nat σ) (fuel : Nat) (s : σ) :
    Option (Bool × σ) :=
  run stringTypeArrayLen (fun _ i => str.getD i 0) body fuel 0 s

/-- eval/for.c 138–164: the characters for which the body of a `#for` over a string literal is
written out. -/
def comptimeString (str : List Nat) : List Nat :=
  (List.range (str.takeWhile (· ≠ 0)).length).map fun i => str.getD i 0

/-! ## Operators and inheritance -/

/-- A class and the classes it extends, from itself to the outermost: which function, if any, each
declares for the operator. -/
abbrev Chain := List (Option Nat)

/-- The operators that classes can overload and the compiler looks up in them. -/
inductive Op where
  | binary
  | truthy
  | range
  | index
  | indexAssign
  | call
  | await
  | deref
  deriving DecidableEq, Repr

/-- types.c 1159–1169, and the loop in node.c 452–457 followed by the member call (path.c 64–92). -/
def upChain : Chain → Option Nat
  | [] => none
  | some f :: _ => some f
  | none :: rest => upChain rest

/-- `findMemberInType` or `findStructMemberType` of the class alone. -/
def ownOnly : Chain → Option Nat
  | [] => none
  | f :: _ => f

/-- for.c 10–27: what the class declares is looked up and then, if the class has a base, forgotten
(22–25). -/
def findCustomRange : Chain → Option Nat
  | [] => none
  | [f] => f
  | _ :: rest => findCustomRange rest

/-- The function an operator calls on an object of the class, or `none` if the class is said not to
have the operator: binary operators (binary.c 57–67), conditions (node.c 452–460), `for` (for.c
33–39), `[]` (index.c 22–30), `[]=` (assign.c 18), calls (call.c 213), `await` (node.c 484–486) and
`*` (node.c 572–573). -/
def lookup : Op → Chain → Option Nat
  | .binary, c => upChain c
  | .truthy, c => upChain c
  | .range, c => findCustomRange c
  | .index, c => ownOnly c
  | .indexAssign, c => ownOnly c
  | .call, c => ownOnly c
  | .await, c => ownOnly c
  | .deref, c => ownOnly c

end Verif.ForEach
