/-!
# The end of an object

`src/cxy/lang/middle/sema/builtins.c` 93-146 (`implementCallClassDestructor`), 237-263 (`implementCallClassDeinit`), 357-431
(`implementDestructorFunction`), 433-497 (`implementDestructorForwardFunction`), 673-711 (`implementClassOrStructBuiltins`), and
`sema/class.c` 120-172 (`preCheckClassMembers`, which decides whether a class has a destructor at all); `runtime/builtins.cxy` 148-170
(`__smart_ptr_drop`, which calls the destructor of the class the object was made of).

A class with its base, the base of that and so on is a list, the class of the object first. A field is a number; it is managed if its
type is a class, or a struct, tuple or union that has something to release. Left out: what is inside a managed field
(`Verif.Lang.CopyDrop`, `Verif.Lang.ObjGraph`), what `deinit` does to the fields, other places of inherited fields in objects
(`Verif.Lang.Classes`: the fields are taken to be where the base looks for them).
-/
namespace Verif.ClassEnd

structure Field where
  name : Nat
  managed : Bool

structure Cls where
  /-- the fields declared in the class itself -/
  fields : List Field
  /-- `deinit` -/
  deinit : Option Nat
  /-- a `destructor` that was written, with a body -/
  destructor : Option Nat

/-- class.c 126-134: a field that makes a destructor necessary. -/
def Cls.holds (c : Cls) : Bool := c.fields.any Field.managed

/-- class.c 120-172: the class keeps its destructor. Lines 126-134 see inherited fields too, 164-171 go through the bases; a base is
destructible if it kept its own (builtins.c 683). -/
def kept : List Cls → Bool
  | [] => false
  | c :: bs => c.holds || bs.any Cls.holds || c.deinit.isSome || c.destructor.isSome || kept bs

/-- What the code of destructors does. -/
inductive Ev where
  /-- the body of `deinit` -/
  | deinit (k : Nat)
  /-- the body of a destructor that was written -/
  | written (k : Nat)
  /-- what is in the field is released and the field becomes zero (builtins.c 389-416) -/
  | release (f : Nat)

/-- builtins.c 378-382 -/
def Cls.deinits (c : Cls) : List Ev := match c.deinit with
  | some k => [.deinit k]
  | none => []

/-- builtins.c 384-417: fields of the class itself, `Inherited` ones are skipped. -/
def Cls.releases (c : Cls) : List Ev := (c.fields.filter Field.managed).map (fun f => .release f.name)

/-- The destructor of a class: 684 a written one is taken as it is; 368-377 the destructor of the base, if it kept one; then `deinit`, then
the fields. -/
def destroy : List Cls → List Ev
  | [] => []
  | c :: bs => match c.destructor with
    | some k => [.written k]
    | none =>
      if kept (c :: bs) then (if kept bs then destroy bs else []) ++ c.deinits ++ c.releases
      else []

/-- What happens when it is run: what is in the fields when user code runs, and what is released. -/
inductive Obs where
  | deinit (k : Nat) (sees : Nat → Nat)
  | written (k : Nat) (sees : Nat → Nat)
  | release (v : Nat)

/-- The destructor run on an object; `st` is what the fields hold, 0 is `null` (builtins.cxy 150). -/
def run : List Ev → (Nat → Nat) → List Obs
  | [], _ => []
  | .deinit k :: es, st => .deinit k st :: run es st
  | .written k :: es, st => .written k st :: run es st
  | .release f :: es, st =>
    let rest := run es (fun g => if g = f then 0 else st g)
    if st f = 0 then rest else .release (st f) :: rest

end Verif.ClassEnd
