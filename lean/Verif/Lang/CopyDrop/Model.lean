/-!
# Copying and destroying values that hold objects

Which types are destroyed at all: `src/cxy/lang/frontend/types.c` 1317-1330 (`isDestructible`), the flags of structs
(`src/cxy/lang/middle/sema/struct.c` 15-54 `evaluateStructMembers`, 56-95 `preCheckStructMembers`, 445-490 `checkStructDecl`,
`sema/builtins.c` 641-677 `implementClassOrStructBuiltins`), of tuples (`sema/tuple.c` 52-144 `checkTupleExpr`, `checkTupleType`) and
of unions (`sema/type.c` 176-190 `checkUnionType`).

What copying and destroying do: `sema/builtins.c` 264-430 (`implementStructCopyFunction`, `implementDestructorFunction`),
`src/cxy/runtime/builtins.cxy` 206-234 (`Optional`), 1128-1204 (`__tuple_dctor`, `__union_dctor`, `__tuple_copy`, `__union_copy`),
`src/cxy/lang/backend/c/generate.c` 1188-1290 (`visitBackendBfiCopy`, `visitBackendBfiDrop`) and `mem/manage.c` 541-588 (values that
are put into tuples, structs, arrays and unions are copied).

Left out: closures, constants, aliases, pointers and references (they are like numbers here). The type of a struct carries the flags
its declaration has. A struct whose destructor is written out is only looked at from outside: what that destructor releases is its
author's affair. `deinit` releases nothing of what the fields hold.
-/
namespace Verif.CopyDrop

mutual
inductive Ty where
  /-- numbers, characters, pointers, ... -/
  | prim
  /-- an object of a class -/
  | cls
  | array (t : Ty)
  | tuple (ts : Tys)
  | union (ts : Tys)
  /-- a struct, with `deinit` or without -/
  | struct (deinit : Bool) (ts : Tys)
  /-- a struct with a destructor and a copy function of its own -/
  | own (ts : Tys)
  /-- `Optional[T]` -/
  | opt (t : Ty)

inductive Tys where
  | nil
  | cons (t : Ty) (ts : Tys)
end

mutual
/-- Whether a type, as the type of an element, gives a tuple (or a struct with its own destructor) the flag `ReferenceMembers`:
tuple.c 70-84, 119-128 and struct.c 41-49. A class does; a struct and a tuple if they have the flag; nothing else. A struct has it
if its destructor is made by the compiler and does something (builtins.c 419-420). -/
def contributes : Ty → Bool
  | .cls => true
  | .tuple ts => contribL ts
  | .struct d ts => d || anyManaged ts
  | .own ts => contribL ts
  | .opt t => contributes t
  | .prim => false
  | .array _ => false
  | .union _ => false

def contribL : Tys → Bool
  | .nil => false
  | .cons t ts => contributes t || contribL ts

/-- `isClassType(type) || isDestructible(type)`, which manage.c 155-164 asks of what has to be copied and destroyed. Structs have the
flag `ImplementsDeinit` if they have a destructor (builtins.c 651), which they keep if struct.c 56-95 finds something to destroy. -/
def managed : Ty → Bool
  | .cls => true
  | .tuple ts => contribL ts
  | .union ts => anyManaged ts
  | .struct d ts => d || anyManaged ts
  | .own _ => true
  | .opt _ => true
  | .prim => false
  | .array _ => false

def anyManaged : Tys → Bool
  | .nil => false
  | .cons t ts => managed t || anyManaged ts
end

mutual
/-- Values: an object (or null), the parts of a tuple, struct or array, one of the types of a union, an optional value. -/
inductive Val where
  | prim
  | ref (a : Option Nat)
  | seq (vs : Vals)
  | alt (i : Nat) (v : Val)
  | opt (ok : Bool) (v : Val)

inductive Vals where
  | nil
  | cons (v : Val) (vs : Vals)
end

def Tys.get : Tys → Nat → Ty
  | .nil, _ => .prim
  | .cons t _, 0 => t
  | .cons _ ts, i + 1 => ts.get i

mutual
/-- The objects that are released when a value is destroyed. -/
def drop : Ty → Val → List Nat
  /- generate.c 1250-1264 -/
  | .cls, .ref (some a) => [a]
  /- builtins.cxy 1129-1138, made only if tuple.c 33 says so -/
  | .tuple ts, .seq vs => if managed (.tuple ts) then dropL ts vs else []
  /- builtins.cxy 1141-1154 -/
  | .union ts, .alt i v => if managed (.union ts) then drop (ts.get i) v else []
  /- builtins.c 384-417 -/
  | .struct d ts, .seq vs => if managed (.struct d ts) then dropL ts vs else []
  /- builtins.cxy 217-224 -/
  | .opt t, .opt true v => drop t v
  | _, _ => []

/-- builtins.cxy 1132-1136, builtins.c 390-411: the parts that have to be destroyed. -/
def dropL : Tys → Vals → List Nat
  | .cons t ts, .cons v vs => (if managed t then drop t v else []) ++ dropL ts vs
  | _, _ => []
end

mutual
/-- The objects that get one more reference when a value is copied. -/
def copy : Ty → Val → List Nat
  /- generate.c 1192-1206 -/
  | .cls, .ref (some a) => [a]
  /- builtins.cxy 1157-1182 -/
  | .tuple ts, .seq vs => if managed (.tuple ts) then copyL ts vs else []
  /- builtins.cxy 1185-1204 -/
  | .union ts, .alt i v => if managed (.union ts) then copy (ts.get i) v else []
  /- builtins.c 276-336; what is written as it is there is copied by manage.c 555-565 -/
  | .struct d ts, .seq vs => if managed (.struct d ts) then copyL ts vs else []
  /- builtins.cxy 227-234: whether there is a value is not asked -/
  | .opt t, .opt _ v => if managed t then copy t v else []
  | _, _ => []

def copyL : Tys → Vals → List Nat
  | .cons t ts, .cons v vs => (if managed t then copy t v else []) ++ copyL ts vs
  | _, _ => []
end

/-- manage.c 541-588: parts given by name are copied into a new tuple, struct or array, whatever that is destroyed like. -/
def build (ts : Tys) (vs : Vals) : List Nat := copyL ts vs

end Verif.CopyDrop
