import Verif.Lang.Overload.Model

/-!
# Classes and the interfaces they implement

Code modelled: /repo/src/cxy/lang/middle/sema/interface.c, `checkImplements` (10–48) and
`checkTypeImplementsAllMembers` (50–98), called from
/repo/src/cxy/lang/middle/sema/class.c (295, 402); overloads are resolved as in
`Verif.Lang.Overload.Model`.

Simplifications: types are any type with decidable equality, conversions any
predicate, as there.  The functions of one name are given with the type, and no
two of them have the same parameters except one that is `const` beside one that is not.
-/

namespace Verif.Implements
open Verif.Overload

/-- A function of a class. -/
structure Fn (T : Type) where
  isConst : Bool
  variadic : Bool
  defaults : Nat
  params : List T
  ret : T
  deriving DecidableEq

/-- A member: a field, or the functions of one name. -/
inductive Member (T : Type) where
  | field (t : T)
  | funcs (fs : List (Fn T))

/-- A class with its own members and those of the classes it is derived from, nearest
first. -/
structure Class (T : Type) where
  own : List (Nat × Member T)
  bases : List (List (Nat × Member T))

/-- A function an interface asks for. -/
structure Asked (T : Type) where
  name : Nat
  isConst : Bool
  params : List T
  ret : T

/-- function.c 91: a function without the flags that are asked for is skipped. -/
def toDecl {T : Type} (wanted : Bool) (f : Fn T) : Decl T :=
  ⟨wanted && !f.isConst, f.variadic, f.defaults, f.params⟩

/-- The function a declaration came from: the first with that signature. -/
def origin {T : Type} [DecidableEq T] (wanted : Bool) (fs : List (Fn T)) (d : Decl T) : Option (Fn T) :=
  fs.find? fun f => d.skip = (wanted && !f.isConst) ∧ d.variadic = f.variadic ∧
    d.defaults = f.defaults ∧ d.params = f.params

/-- `findStructMember`, types.h 452–457: the members of the class itself. -/
def findMember {T : Type} (ms : List (Nat × Member T)) (n : Nat) : Option (Member T) :=
  (ms.find? (·.1 == n)).map (·.2)

/-- interface.c 59–94, the body of the inner loop: `true` if nothing is reported. -/
def hasOne {T : Type} [DecidableEq T] (conv : T → T → Bool) (c : Class T) (a : Asked T) : Bool :=
  match findMember c.own a.name with
  | some (.funcs fs) =>
    match resolve conv false (fs.map (toDecl a.isConst)) a.params with
    | some d =>
      match origin a.isConst fs d with
      | some f => decide (f.ret = a.ret)
      | none => false
    | none => false
  | _ => false

/-- What can stand behind the colon of a class. -/
inductive Named (T : Type) where
  | interface (key : Nat) (fs : List (Asked T))
  | other

/-- interface.c 15–47: only interfaces, and each once. -/
def checkImplements {T : Type} : List Nat → List (Named T) → Bool
  | _, [] => true
  | seen, .interface k _ :: ns => !seen.contains k && checkImplements (k :: seen) ns
  | _, .other :: _ => false

/-- interface.c 50–98: all functions of all interfaces. -/
def implementsAll {T : Type} [DecidableEq T] (conv : T → T → Bool) (c : Class T) :
    List (Named T) → Bool
  | [] => true
  | .interface _ fs :: ns => fs.all (hasOne conv c) && implementsAll conv c ns
  | .other :: ns => implementsAll conv c ns

/-- Both checks. -/
def accepted {T : Type} [DecidableEq T] (conv : T → T → Bool) (c : Class T) (ns : List (Named T)) : Bool :=
  checkImplements [] ns && implementsAll conv c ns

end Verif.Implements
