import Verif.Common.Mem
/-!
# Default values of fields in new objects

`src/cxy/lang/middle/sema/node.c` 151-183 (`createCallDefaultInitializer`), 250-280 (`createInitializerCoverBody`, for classes), 597-628
(`implementCallBaseInitDefaults`), 630-699 (`implementDefaultInitializer`), `sema/class.c` 21-37 (`inheritClassMembers`), 39-75
(`checkBaseDecl`), 313-324 (`checkClassDecl`), `frontend/types.c` 1182-1210 (`findMemberDeclInType`: members of the class itself only, its
base is not searched) and `backend/c/generate.c` 1147-1153 (a new object is zeroed).

A new object is zeroed, then the function `__defaults_init` of its class is called if the class has one, then the constructor. Fields that
are inherited are copied after the base was checked (class.c 42, 69), and by then their default values were taken away (node.c 662), so
they count for nothing in the derived class. A class with its base, the base of that and so on is a list, the class of the object first.
Left out: default values that are more than a number, the constructor itself, the pointer to virtual functions, and that fields are
copied twice when there are two bases or more (for both see `Verif.Lang.Classes`).
-/
namespace Verif.FieldInit

structure Cls where
  /-- the fields declared in the class itself that have a default value -/
  defaults : List (Nat × Nat)
  /-- class.c 313-324: `isVirtual || vTableMember`, the class or the path that names its base is flagged as virtual. Any class may have it
here; how the flag comes about is left out. -/
  virt : Bool

/-- node.c 667: the class gets a `__defaults_init`. -/
def Cls.hasInit (c : Cls) : Bool := c.virt || !c.defaults.isEmpty

/-- What `__defaults_init` of a class assigns, in order; nothing if there is none. node.c 688-690, 605-607, 625-627: that of
the base is called first, if the base itself has one. -/
def assigns : List Cls → List (Nat × Nat)
  | [] => []
  | c :: bs => if c.hasInit then assigns bs ++ c.defaults else []

/-- The fields of a new object before its constructor. -/
def created (ch : List Cls) : Nat → Nat := (assigns ch).foldl (fun st a => upd st a.1 a.2) (fun _ => 0)

end Verif.FieldInit
