/-!
# Classes: inheritance and virtual functions

Model of `src/cxy/lang/middle/sema/class.c` (`inheritClassMembers`, `checkBaseDecl`, `evalClassMembers`,
`checkClassDecl`), `src/cxy/lang/middle/sema/inheritance.c`, the virtual call of
`src/cxy/lang/middle/simplify/simplify.c` (`isVirtualDispatch`, `virtualDispatch`, `visitCallExpr`), the search for a
member in `src/cxy/lang/middle/sema/path.c` (`resolveMemberUpInheritance`) and the layout of an object in
`src/cxy/lang/backend/llvm/context.cpp` (`createClassType`).

A class has at most one base, so a class is given by the list of the declarations from it up to its root. Types of
fields and parameters are numbers. Left out: static and generic members, interfaces, overloads within one class (the
search is a binary search among members of the same name and finds any of them; the model takes the first), a field with
the name of a virtual function, and classes used before their base is checked.
-/
namespace Verif.Classes

/-- A member function: `sig` stands for its parameters and result. A virtual function may have no body
(parser.c 2293-2300). -/
structure Method where
  name : Nat
  sig : Nat
  virt : Bool
  body : Bool
  deriving DecidableEq, Repr

/-- A class declaration as written, without what is inherited. -/
structure Decl where
  id : Nat
  fields : List Nat
  methods : List Method
  deriving DecidableEq, Repr

/-- A class: its declaration, that of its base, and so on to the root. -/
abbrev Chain := List Decl

/-- A function: the class it is declared in and its declaration. -/
structure Impl where
  owner : Nat
  method : Method
  deriving DecidableEq, Repr

/-- A cell of an object: the pointer to the table of virtual functions, or a field. -/
inductive Cell where
  | vtable
  | field (owner name : Nat)
  deriving DecidableEq, Repr

/-- class.c 106-109 `evalClassMembers`: a class is flagged virtual when one of its own functions is; functions are not
copied from the base. -/
def flagged (d : Decl) : Bool := d.methods.any (·.virt)

/-- The fields of one declaration. -/
def own (d : Decl) : List Cell := d.fields.map (Cell.field d.id)

/-- class.c 21-36 `inheritClassMembers`, given the members of the base after it was checked: first what its own bases
have, then its members, among which `checkBaseDecl` (class.c 68-74) has put clones of the fields it inherits; a clone
is inheritable like any other field (class.c 15-19). The table is not. -/
def inherit : Chain → List Cell
  | [] => []
  | d :: as => inherit as ++ (inherit as ++ own d)

/-- class.c 68-74: the fields of a class in the order of its members. -/
def fields : Chain → List Cell
  | [] => []
  | d :: as => inherit as ++ own d

/-- class.c 313-317: a class has a table when it is flagged, or its base is. The flags of the base are those of the path
that names it, which are the flags of the declaration (path.c 190-202). -/
def hasTable : Chain → Bool
  | [] => false
  | [d] => flagged d
  | d :: b :: _ => flagged d || flagged b

/-- inheritance.c 219-221, 239-241 (the table is the first member); context.cpp 208-232 `createClassType`: the cells of
an object in order. -/
def layout (c : Chain) : List Cell := if hasTable c then Cell.vtable :: fields c else fields c

/-- An entry of a table of virtual functions: its name, its type and the function in it. -/
structure Entry where
  name : Nat
  sig : Nat
  impl : Option Impl
  deriving DecidableEq, Repr

/-- types.c 1144-1157 `findTypeMember`: a member of a class, not of its bases. -/
def member (d : Decl) (n : Nat) : Option Method := d.methods.find? fun m => m.name == n

/-- inheritance.c 148-156: an entry is replaced by a function of the same name. -/
def override (d : Decl) (e : Entry) : Entry :=
  match member d e.name with
  | some m => { e with impl := some ⟨d.id, m⟩ }
  | none => e

/-- inheritance.c 162-192: an entry for a virtual function that has none. -/
def addOne (d : Decl) (t : List Entry) (m : Method) : List Entry :=
  if m.virt && !(t.any fun e => e.name == m.name) then
    t ++ [⟨m.name, m.sig, if m.body then some ⟨d.id, m⟩ else none⟩]
  else t

/-- inheritance.c 138-194 `inheritanceChainBuildVTableType` -/
def table : Chain → List Entry
  | [] => []
  | d :: as =>
    let t := (table as).map (override d)
    if flagged d then d.methods.foldl (addOne d) t else t

/-- inheritance.c 256-272: in a class that is not flagged an entry is replaced by a function of the same name, or by null
if it has no body. -/
def replace (d : Decl) (e : Entry) : Entry :=
  match member d e.name with
  | some m => { e with impl := if m.body then some ⟨d.id, m⟩ else none }
  | none => e

/-- class.c 363-382: the table that the initialiser stores in a new object, after that of the base stored its own
(node.c 688-690 and class.c 208-211). `none` when objects of the class have no cell for it. -/
def tableOf : Chain → Option (List Entry)
  | [] => none
  | d :: as =>
    if flagged d then some (table (d :: as))
    else match as with
      | b :: _ => if flagged b then some ((table as).map (replace d)) else none
      | [] => none

/-- What a call does. `bad`: it reads a field as a table, calls null or a function that has no body, or calls a function
with the arguments of another. -/
inductive Act where
  | runs (i : Impl)
  | bad
  deriving DecidableEq, Repr

/-- path.c 29-62 `resolveMemberUpInheritance`: the nearest class that has the member. -/
def resolve : Chain → Nat → Option (Chain × Impl)
  | [], _ => none
  | d :: as, n =>
    match member d n with
    | some m => some (d :: as, ⟨d.id, m⟩)
    | none => resolve as n

/-- What a function does that was found in a table, under the type `sig`. -/
def enter (sig : Nat) : Option Impl → Act
  | some i => if i.method.body && i.method.sig == sig then .runs i else .bad
  | none => .bad

/-- simplify.c 78-125 `virtualDispatch`: the cell of the table is named by the class that declares the function; at run
time it is the table of the object that is read. -/
def dispatch (declared object : Chain) (n : Nat) : Act :=
  match (table declared).findIdx? (fun e => e.name == n), tableOf object with
  | some k, some t =>
    match t[k]? with
    | some e => enter e.sig e.impl
    | none => .bad
  | _, _ => .bad

/-- simplify.c 725-801 `visitCallExpr`, 68-76 `isVirtualDispatch`: a call of `n` on an expression of class `static`, whose
value is an object of class `object`. The target is turned into a reference to the class of the function (781-783), so
the flag asked for is that of the declaring class. `none` when there is no such function. -/
def call (static object : Chain) (n : Nat) : Option Act :=
  match resolve static n with
  | none => none
  | some (c, i) =>
    if (match c with | d :: _ => flagged d | [] => false) && i.method.virt then some (dispatch c object n)
    else some (.runs i)

/-- simplify.c 725-801 with path.c 143-146: `super.n(…)` in a function of class `c` is a call on `this` as an object of the
base; nothing tells it from another call on such an expression. -/
def callSuper (c object : Chain) (n : Nat) : Option Act :=
  match c with
  | [] => none
  | _ :: as => call as object n

end Verif.Classes
