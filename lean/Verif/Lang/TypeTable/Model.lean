import Verif.Core.HTable.Model
import Verif.Core.Hash.Model
/-!
# Model of `src/cxy/lang/frontend/ttable.c`: hashing, comparing and interning types

A `Type *` is a tree whose root carries the address of the record (`id`), so a component of a type is
the tree of the component. Modelled are the error, auto, void, null, primitive, string, pointer,
reference, optional, array, map, alias, union, untagged union, opaque, tuple, function, enum, class,
interface, wrapped, result and type-information types. Not modelled: literal, container, `this`,
generic, applied, exception, module and struct types (the last because anonymous structs are compared
through their members).

Names are interned, so comparing the pointers is comparing the names (see `StrPool` for the exception).
-/
namespace Verif.TypeTable

open Verif.Hash Verif.HTable

abbrev Name := List Byte

/-- types.h 59-91 `TTag`, the modelled ones except `typWrapped`. -/
inductive Tag where
  | error | auto | void | null | info | primitive | string | pointer | reference | optional | array
  | map | alias | union | untaggedUnion | opaque | tuple | func | enum | class | interface | result
  deriving DecidableEq, Repr

/-- types.h 59-91: the value of the enumerator. -/
def Tag.code : Tag → Nat
  | .error => 0 | .auto => 3 | .void => 4 | .null => 5 | .info => 6 | .primitive => 8 | .string => 9
  | .pointer => 10 | .reference => 11 | .optional => 12 | .array => 13 | .map => 14 | .alias => 15
  | .union => 16 | .untaggedUnion => 17 | .opaque => 18 | .tuple => 19 | .func => 20 | .enum => 21
  | .class => 24 | .interface => 25 | .result => 30

abbrev Flags := BitVec 64

/-- flag.h 26 `flgConst` -/
def flgConst : Flags := 0x100#64

/-- flag.h 55 `flgExtern` -/
def flgExtern : Flags := 0x2000000000#64

/-- flag.h 87-89 `flgTypeApplicable`: bits 37, 8, 41, 12, 45, 15, 43 and 59. -/
def applicable : Flags := 0x800_2a20_0000_9100#64

/-- types.h 143-300: what a record says besides its components. `num` is the primitive id or the array
length, `scope` the parent scope of the declaration of a function (`none` when there is no declaration
or it has no scope). -/
structure Data where
  tag : Tag
  flags : Flags := 0
  num : Nat := 0
  name : Option Name := none
  ns : Option Name := none
  scope : Option Nat := none
  deriving DecidableEq, Repr

/-- types.h 143-300 `Type`. `full` holds the components that are hashed entirely (pointed type, element,
key and value, return type, ...) and `many` those of which only the tag is hashed (members, parameters). -/
inductive Ty where
  | node (id : Nat) (d : Data) (full many : List Ty)
  /-- `typWrapped` -/
  | wrapped (id : Nat) (flags : Flags) (target : Ty)

namespace Ty
/-- The address. -/
def id : Ty → Nat | node i _ _ _ => i | wrapped i _ _ => i
def tagCode : Ty → Nat | node _ d _ _ => d.tag.code | wrapped .. => 28
def flags : Ty → Flags | node _ d _ _ => d.flags | wrapped _ f _ => f
end Ty

/-- ttable.c 96-101: an extern alias stands for its name only. -/
def byName (d : Data) : Bool := d.tag = .alias && decide (d.flags &&& flgExtern ≠ 0)

def hashNum64 (h : BitVec 32) (n : Nat) : BitVec 32 := hashUint64 h (BitVec.ofNat 64 n)

/-- `if (name) hash = hashStr(hash, name)` -/
def hashName (h : BitVec 32) : Option Name → BitVec 32
  | none => h
  | some s => hashRawBytes h s

/-- ttable.c 64-65: the common beginning of `hashType`. -/
def hashHead (h : BitVec 32) (tag : Nat) (f : Flags) : BitVec 32 :=
  hashUint64 (hashUint32 h (BitVec.ofNat 32 tag)) (f &&& applicable)

/-- ttable.c 62-166 `hashType`, the part before the components. -/
def hashData (h : BitVec 32) (d : Data) : BitVec 32 :=
  let h := hashHead h d.tag.code d.flags
  match d.tag with
  | .primitive => hashUint32 h (BitVec.ofNat 32 d.num)
  | .alias => if byName d then hashName h d.name else h
  | .untaggedUnion | .opaque | .func => hashName h d.name
  | .enum => hashName (hashName h d.name) d.ns
  | _ => h                                          -- class and interface: the default case

/-- ttable.c 17-31 `hashTypes`, `hashUnionMembers` -/
def hashTags (h : BitVec 32) : List Ty → BitVec 32
  | [] => h
  | t :: ts => hashTags (hashNum64 h t.tagCode) ts

mutual
/-- ttable.c 62-166 `hashType` -/
def hashType (h : BitVec 32) : Ty → BitVec 32
  | .node _ d full many =>
    let h := hashTags (hashData h d) many
    let h := if byName d then h else hashFull h full
    if d.tag = .array then hashNum64 h d.num else h
  | .wrapped _ f t => hashType (hashHead h 28 f) t
/-- components hashed one after the other -/
def hashFull (h : BitVec 32) : List Ty → BitVec 32
  | [] => h
  | t :: ts => hashFull (hashType h t) ts
end

/-- ttable.c 1048-1062 `unwrapType`: the flags collected on the way and the record below the wrappers. -/
def unwrap (acc : Flags) : Ty → Flags × Nat × Data × List Ty × List Ty
  | .node i d full many => ((acc ||| d.flags) &&& applicable, i, d, full, many)
  | .wrapped _ f t => unwrap (acc ||| f) t

/-- ttable.c 255-372: the part of `compareTypes` that does not look at the components, for two types of
the same tag. Functions: names, and the scopes when both are known. -/
def cmpData (a b : Data) : Bool :=
  match a.tag with
  | .primitive | .array => decide (a.num = b.num)
  | .alias => if byName a then decide (a.name = b.name) else true
  | .untaggedUnion | .opaque => decide (a.name = b.name)
  | .enum | .class | .interface => decide (a.name = b.name) && decide (a.ns = b.ns)
  | .func =>
    decide (a.name = b.name) &&
      (match a.name, a.scope, b.scope with
       | some _, some s, some s' => decide (s = s')
       | _, _, _ => true)
  | _ => true

mutual
/-- ttable.c 243-376 `compareTypes` (183-201 `compareManyTypes`, `compareUnionMembers`); `acc` holds the
flags of the wrappers already removed from the left operand. -/
def cmp (acc : Flags) : Ty → Ty → Bool
  | .wrapped _ f t, b => cmp (acc ||| f) t b
  | .node i d full many, b =>
    let lf := (acc ||| d.flags) &&& applicable
    match unwrap 0 b with
    | (rf, ri, rd, rfull, rmany) =>
      if i = ri then decide (lf = rf)
      else if d.tag ≠ rd.tag ∨ lf ≠ rf then false
      else cmpData d rd && (byName d || cmpMany full rfull) && cmpMany many rmany
/-- equal counts and equal members -/
def cmpMany : List Ty → List Ty → Bool
  | [], [] => true
  | a :: as, b :: bs => cmp 0 a b && cmpMany as bs
  | _, _ => false
end

/-- ttable.c 378-381 `compareTypesWrapper` -/
def compareTypes (a b : Ty) : Bool := cmp 0 a b

/-- ttable.h `TypeTable`: the hash table and the next address of the memory pool. -/
structure State where
  table : Table Ty
  next : Nat

/-- ttable.c 391-411 `getOrInsertTypeScoped` (and 458-463 `getOrInsertType`, which fills in the
namespace) for a record built on the stack. -/
def getOrInsert (s : State) (t : Ty) : Res (Ty × State) :=
  let h := hashType hashInit t
  match find compareTypes s.table t h with
  | .diverge => .diverge
  | .ub => .ub
  | .ok (some x) => .ok (x, s)
  | .ok none =>
    match insert compareTypes s.table t h with
    | .diverge => .diverge
    | .ub => .ub
    | .ok (_, tab) => .ok (t, ⟨tab, s.next + 1⟩)

/-- ttable.c 545-563 `resolveType`, without forward declarations. -/
def resolve : Ty → Ty
  | .node i d [t] many =>
    if d.tag = .alias ∨ d.tag = .info then resolve t else .node i d [t] many
  | t => t

/-- ttable.c 1068-1072: the loop of `flattenWrappedType`. -/
def peel (acc : Flags) : Ty → Flags × Ty
  | .wrapped _ f t => peel (acc ||| f) t
  | t => (acc, t)

/-- ttable.c 1064-1077 `flattenWrappedType` -/
def flatten (flags : Flags) (t : Ty) : Flags × Ty := peel flags (resolve t)

/-- Requests to the table. A component is the position of an earlier answer. -/
inductive Req where
  /-- types without components: ttable.c 483-517 (`newTypeTable`), 868-882 `makeOpaqueTypeWithFlags`,
  907-926 `makeUntaggedUnionType`, 1003-1026 `makeEnum`, class and interface types -/
  | leaf (d : Data)
  /-- 808-842 `makePointerType`, `makeReferenceType`, `makeOptionalType`, 852-866 `makeAliasType` -/
  | flat (tag : Tag) (target : Nat) (flags : Flags) (name : Option Name)
  /-- 792-806 `makeArrayType`, `makeTypeInfo`, 844-850 `makeMapType`, 1049-1053 `makeResultType` -/
  | plain (d : Data) (parts : List Nat)
  /-- 884-905 `makeUnionType`, 947-964 `makeTupleType` -/
  | members (d : Data) (parts : List Nat)
  /-- 972-981 `makeFuncType` -/
  | func (flags : Flags) (name : Option Name) (scope : Option Nat) (ret : Nat) (params : List Nat)
  /-- 1038-1046 `makeWrappedType` -/
  | wrap (target : Nat) (flags : Flags)

/-- The record a request builds: one to be interned, or an existing one returned as it is. -/
inductive Built where
  | ready (t : Ty)
  | intern (t : Ty)

/-- The record built by each request, `next` being its address; `none` when the request names an answer
that does not exist. -/
def build (next : Nat) (outs : List Ty) : Req → Option Built
  | .leaf d => some (.intern (.node next d [] []))
  | .flat tag i flags name =>
    outs[i]?.map fun t =>
      .intern (.node next { tag, flags := (flatten flags t).1, name } [(flatten flags t).2] [])
  | .plain d is => (is.mapM (outs[·]?)).map fun ts => .intern (.node next d ts [])
  | .members d is => (is.mapM (outs[·]?)).map fun ts => .intern (.node next d [] ts)
  | .func flags name scope r ps =>
    outs[r]?.bind fun t => (ps.mapM (outs[·]?)).map fun ts =>
      .intern (.node next { tag := .func, flags, name, scope } [t] ts)
  | .wrap i flags =>
    outs[i]?.map fun t =>
      if t.flags &&& flags = flags then .ready t
      else .intern (.wrapped next (flatten flags t).1 (flatten flags t).2)

/-- One request. -/
def request (s : State) (outs : List Ty) (r : Req) : Option (Res (Ty × State)) :=
  (build s.next outs r).map fun
    | .ready t => .ok (t, s)
    | .intern t => getOrInsert s t

/-- A history of requests, the answers in order. -/
def run (s : State) (outs : List Ty) : List Req → Option (Res (List Ty × State))
  | [] => some (.ok (outs, s))
  | r :: rs =>
    match request s outs r with
    | none => none
    | some (.ok (t, s')) => run s' (outs ++ [t]) rs
    | some .diverge => some .diverge
    | some .ub => some .ub

/-- ttable.c 483-490: the empty table. -/
def empty : State := ⟨new Ty, 0⟩

/-- ttable.c 430-456 `replaceTypeScoped` and 983-990 `changeFunctionRetType`: the record of the function
type is taken out of the table, overwritten and put back; the answer of the insertion is only looked at by
an assertion on a string literal, which always holds. Records that have the function type as a component
see the change as well; here they keep the old tree. -/
def changeFunctionRetType (s : State) (f : Ty) (ret : Ty) : Res (Ty × State) :=
  match f with
  | .wrapped .. => .ub
  | .node _ d _ params =>
    match findIdx compareTypes s.table f (hashType hashInit f) with
    | .diverge => .diverge
    | .ub => .ub
    | .ok none =>
      let t : Ty := .node s.next d [ret] params
      match insert compareTypes s.table t (hashType hashInit t) with
      | .diverge => .diverge
      | .ub => .ub
      | .ok (_, tab) => .ok (t, ⟨tab, s.next + 1⟩)
    | .ok (some i) =>
      match s.table.elems i, remove s.table i with
      | none, _ => .ub
      | _, .ub => .ub
      | _, .diverge => .diverge
      | some x, .ok tab =>
        let t : Ty := .node x.id d [ret] params
        match insert compareTypes tab t (hashType hashInit t) with
        | .diverge => .diverge
        | .ub => .ub
        | .ok (_, tab') => .ok (t, ⟨tab', s.next⟩)

end Verif.TypeTable
