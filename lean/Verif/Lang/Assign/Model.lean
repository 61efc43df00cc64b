import Verif.Lang.Prim.Model
/-!
# Which values the type checker accepts for a type

Model of `src/cxy/lang/frontend/types.c` (`isTypeAssignableFrom`, `isTypeConst`, `implementsInterface`) with the parts of
`src/cxy/lang/frontend/ttable.c` it uses (`unwrapType`, `stripPointer`, `stripAll`, `makePointerType`).

Types are interned, so `to == from` is equality. Left out: type aliases and `This` (resolved to what they stand for),
tuples, unions, slices, maps, result types, exceptions, opaque types, and the extra first parameter of closures.
-/
namespace Verif.Assign
open Verif.Prim (Prim)

/-- types.h 138-330, the types that are modelled. A flag tells whether a pointer or reference is to a constant: the
constructors of both move the flag of the target to the pointer (ttable.c 810-829). A class is given by the numbers of
its declaration and of those it is derived from, nearest first. A function type is `arrow p₁ (arrow p₂ (… (ret r)))`.
`null` occurs only as the target of the type of `null`. -/
inductive Ty where
  | prim (p : Prim)
  | void
  | null
  | str
  | struct (id : Nat)
  | cls (c : List Nat)
  | enum (id : Nat) (base : Prim)
  | iface (id : Nat)
  | ptr (k : Bool) (t : Ty)
  | ref (k : Bool) (t : Ty)
  | arr (len : Option Nat) (t : Ty)
  | opt (t : Ty)
  | const (t : Ty)
  | ret (t : Ty)
  | arrow (p t : Ty)
  deriving DecidableEq, Repr

open Ty

/-- ttable.c 1048-1063 `unwrapType` -/
def unwrap : Ty → Ty
  | const t => unwrap t
  | t => t

/-- types.c 152-157 `isTypeConst`: the flags of the wrapping and of the type itself. -/
def isConst : Ty → Bool
  | const _ => true
  | ptr k _ => k
  | ref k _ => k
  | _ => false

def isPtr : Ty → Bool
  | ptr _ _ => true
  | _ => false

def isOpt : Ty → Bool
  | opt _ => true
  | _ => false

/-- The type of `null`. -/
def isNull : Ty → Bool
  | ptr _ null => true
  | _ => false

/-- The type of `null`, under any number of pointers: ttable.c 617-628 `stripPointer`. -/
def stripsToNull : Ty → Bool
  | null => true
  | ptr _ t => stripsToNull t
  | _ => false

/-- ttable.c 657-681 `stripAll`: whether what is left is a class. -/
def stripsToClass : Ty → Bool
  | cls _ => true
  | ptr _ t => stripsToClass t
  | ref _ t => stripsToClass t
  | const t => stripsToClass t
  | _ => false

/-- types.c 324-333: a class is compared, then its base; at the root the declarations are compared, which are equal only if
the classes are. -/
def derives (to : List Nat) : List Nat → Bool
  | [] => false
  | [d] => to == [d]
  | d :: b :: as => to == d :: b :: as || derives to (b :: as)

theorem sizeOf_unwrap (t : Ty) : sizeOf (unwrap t) ≤ sizeOf t := by
  induction t with
  | const t ih => rw [unwrap]; simp only [Ty.const.sizeOf_spec]; omega
  | _ => exact Nat.le_refl _

mutual

/-- types.c 159-170 `isTypeAssignableFrom`, the beginning; `impl c i` tells whether the class or structure `c` names the
interface `i` in its own declaration (types.c 1227-1240). -/
def assignable (impl : Nat → Nat → Bool) (to frm : Ty) : Bool :=
  if to = frm then true
  else
    match to with
    | opt t =>
      if isOpt frm then core impl (opt t) frm
      else if isNull frm then true
      else core impl t frm
    | t => core impl t frm
termination_by 2 * sizeOf to + 1

/-- types.c 177-351 `isTypeAssignableFrom`, the rest. An optional type is a structure. -/
def core (impl : Nat → Nat → Bool) (to frm : Ty) : Bool :=
  if isConst frm && !isConst to && isPtr (unwrap to) then false
  else if unwrap to = unwrap frm then true
  else
    match _h : unwrap to, unwrap frm with
    | ptr _ t, ptr _ u => t == void || u == null || assignable impl t u
    | ptr _ t, f =>
      if t = void then f == str || (match f with | arr _ _ => true | _ => false) || stripsToClass f
      else
        match f with
        | arr _ u => assignable impl t u
        | _ => false
    | str, f => stripsToNull f
    | prim p, prim q => Verif.Prim.assignable p q
    | prim p, enum _ q => Verif.Prim.assignable p q
    | ref _ t, ref _ u => assignable impl t u
    | arr n t, arr m u => assignable impl t u && (n == none || n == m)
    | enum _ p, enum _ q => Verif.Prim.assignable p q
    | struct _, f => isNull f
    | opt _, f => isNull f
    | cls c, cls d => derives c d
    | cls _, f => isNull f
    | iface i, cls (d :: _) => impl d i
    | iface i, struct d => impl d i
    | arrow p t, arrow q u => assignable impl t u && assignable impl p q
    | ret t, ret u => assignable impl t u
    | arrow _ _, f => stripsToNull f
    | ret _, f => stripsToNull f
    | _, _ => false
termination_by 2 * sizeOf to
decreasing_by
  all_goals
    have := sizeOf_unwrap to
    rw [_h] at this
    simp at this
    omega

end

end Verif.Assign
