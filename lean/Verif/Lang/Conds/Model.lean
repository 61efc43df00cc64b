/-!
# Conditions

`src/cxy/lang/middle/sema/if.c` 7-43 and `src/cxy/lang/middle/sema/check.c` 379-416 (what the checker accepts as a condition of `if` and
`while`), 766-789 (of `?:`), `src/cxy/lang/middle/sema/node.c` 443-470 (`transformToTruthyOperator`),
`src/cxy/lang/middle/sema/unary.c` 124-147 (`!`), `src/cxy/lang/middle/simplify/simplify.c` 400-422 and 1105-1135 (what becomes of a
condition) and `src/cxy/lang/backend/llvm/generate.cpp` 135-138, 487-494 and 653 (the code that is emitted).

Left out: types that are names of others (the checker looks through them, `src/cxy/lang/middle/sema/type.c` 92 and 98), `This`, and conditions
that are evaluated at compile time.
-/
namespace Verif.Conds

/-- `PRIM_TYPE_LIST` (`src/cxy/lang/frontend/types.h` 44-49), by kind. -/
inductive Prim where
  | bool | char | int | float
deriving DecidableEq, Repr

/-- What an operator `!!` returns: a primitive, or something else. -/
inductive Out where
  | prim (p : Prim)
  | other
deriving DecidableEq, Repr

/-- Types. `struct` and `cls` come with their operator `!!`, if any, and `cls` with those of its bases, the closest first. `const` is
`typWrapped`. -/
inductive Ty where
  | prim (p : Prim)
  | ptr (t : Ty)
  | ref (t : Ty)
  | arr (t : Ty)
  | str
  | enumT
  | struct (op : Option Out)
  | cls (own : Option Out) (bases : List (Option Out))
  | other
  | const (t : Ty)
deriving Repr

/-- `src/cxy/lang/frontend/ttable.c` 1048-1063 `unwrapType` -/
def unwrap : Ty → Ty
  | .const t => unwrap t
  | t => t

/-- `src/cxy/lang/frontend/ttable.c` 630-641 `stripReference` -/
def strip : Ty → Ty
  | .ref t => strip t
  | t => t

/-- `src/cxy/lang/frontend/types.c` 459-479 `isIntegerType` -/
def isInteger (t : Ty) : Bool := match unwrap t with
  | .prim .int => true
  | _ => false

/-- `src/cxy/lang/frontend/types.c` 481-508 `isIntegralType` -/
def isIntegral (t : Ty) : Bool := match unwrap t with
  | .prim .float => false
  | .prim _ => true
  | .enumT => true
  | _ => false

/-- `src/cxy/lang/frontend/types.c` 574-594 `isFloatType` -/
def isFloat (t : Ty) : Bool := match unwrap t with
  | .prim .float => true
  | _ => false

/-- `src/cxy/lang/frontend/types.c` 615-626 `isBooleanType` -/
def isBool (t : Ty) : Bool := match unwrap t with
  | .prim .bool => true
  | _ => false

/-- `src/cxy/lang/frontend/types.c` 628-640 `isCharacterType` -/
def isChar (t : Ty) : Bool := match unwrap t with
  | .prim .char => true
  | _ => false

/-- `src/cxy/lang/frontend/types.c` 660-671 `isPointerType` -/
def isPointer (t : Ty) : Bool := match unwrap t with
  | .ptr _ | .arr _ | .str => true
  | _ => false

/-- `src/cxy/lang/frontend/types.c` 737-742 and 766-771 -/
def isObject (t : Ty) : Bool := match unwrap t with
  | .struct _ | .cls _ _ => true
  | _ => false

/-- The part of `isTruthyType` (`src/cxy/lang/frontend/types.c` 1252-1258) on values that are not objects: whether the tag is a pointer's or a
string's is asked without unwrapping. `typOptional` is left out, as no type with this tag is ever made. -/
def isTruthyPlain (t : Ty) : Bool :=
  isIntegral t || isFloat t || match t with
    | .ptr _ | .str => true
    | _ => false

/-- The loop of node.c 451-459 over a type and its bases: the first with the operator. The base of a type that is wrapped is not found
(types.c 1212-1225 `getTypeBase`), though its own members are (`src/cxy/lang/frontend/ttable.c` 1417-1419). -/
def findOp : Ty → Option Out
  | .struct o => o
  | .cls own bases => (own :: bases).findSome? id
  | .const t => match unwrap t with
    | .struct o => o
    | .cls own _ => own
    | _ => none
  | _ => none

/-- node.c 443-470 `transformToTruthyOperator`: the type of the call, if there is one and it is a primitive. -/
def truthyOp (t : Ty) : Option Prim :=
  let u := strip (unwrap t)
  if isObject u then
    match findOp u with
    | some (.prim p) => some p
    | _ => none
  else none

/-- if.c 13-43, check.c 385-416: the type of the condition once checked, or nothing if there is an error. A result that is a primitive
is always truthy. -/
def check (t : Ty) : Option Ty :=
  let c := unwrap t
  if isObject (strip c) then (truthyOp t).map .prim
  else if isTruthyPlain c then some t else none

/-- What a condition becomes. -/
inductive Code where
  | asIs
  | neZero
  | neFloatZero
  | neNull
  | crash
deriving DecidableEq, Repr

/-- simplify.c 400-422 `simplifyCondition` with 1110 and 1130. Comparison with a character is one with an integer. -/
def simplify (t : Ty) : Code :=
  if isBool t then .asIs
  else if isInteger t then .neZero
  else if isFloat t then .neFloatZero
  else if isChar t then .neZero
  else if isPointer t then .neNull
  else .crash

/-- A condition of `if` or `while` from the checker to what is emitted. -/
def cond (t : Ty) : Option Code := (check t).map simplify

/-- Values of conditions. A float is null, not a number, or another. -/
inductive Val where
  | bool (b : Bool)
  | int (n : Int)
  | zero | nan | float
  | addr (n : Nat)
deriving DecidableEq, Repr

/-- Whether the branch is taken; nothing if what is emitted is not valid or there is nothing emitted. `ICmpNE` and `FCmpUNE`
(`src/cxy/lang/backend/llvm/binary.cpp` 199-204). -/
def taken : Code → Val → Option Bool
  | .asIs, .bool b => some b
  | .neZero, .int n => some (n != 0)
  | .neFloatZero, .zero => some false
  | .neFloatZero, .nan => some true
  | .neFloatZero, .float => some true
  | .neNull, .addr n => some (n != 0)
  | _, _ => none

/-! ## `?:` -/

inductive Tern where
  | rejected
  | valid
  | invalid
deriving DecidableEq, Repr

/-- check.c 780 on the type as it is (types.c 1256-1257: an object with its own `!!` is truthy; for objects that are wrapped another member of
the union is read, which is taken for accepted here). -/
def ternOk : Ty → Bool
  | .struct o => o.isSome
  | .cls own _ => own.isSome
  | t => isObject t || isTruthyPlain t

/-- check.c 780-788, then generate.cpp 487-494 and 653: neither the checker nor simplify.c (1412-1439) changes the condition,
and a branch needs a boolean. -/
def ternary (t : Ty) : Tern :=
  if ternOk t then (if isBool t then .valid else .invalid) else .rejected

/-! ## `!` -/

/-- unary.c 124-147: the type of `!x`. Objects behind a reference are not looked at. -/
def notType (t : Ty) : Option Prim :=
  let u := unwrap t
  if isObject u then truthyOp u
  else match u with
    | .prim .bool => some .bool
    | _ => none

/-- generate.cpp 135-138 `CreateNot`: all bits are flipped, with integers read as signed. There is no such operation on
floats. -/
def notVal : Val → Option Val
  | .bool b => some (.bool (!b))
  | .int n => some (.int (-n - 1))
  | _ => none

/-- `if (!x)` where `p` is the type of `!x` and `v` the value of `x`, or of its `!!`. -/
def ifNot (p : Prim) (v : Val) : Option Bool := (notVal v).bind (taken (simplify (.prim p)))

/-- `if (x)` for the same. -/
def ifIs (p : Prim) (v : Val) : Option Bool := taken (simplify (.prim p)) v

end Verif.Conds
