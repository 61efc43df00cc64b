/-!
# The members of a module

`src/cxy/lang/frontend/module.c` 12-33 (`addDefineToModuleMembers`), 35-51 (`addModuleTypeMember`), 53-82 (`buildModuleType`) and
`frontend/ast.c` 1920-1934 (`countProgramDecls`).

The members are written to an array whose length is counted before; a write behind its end is undefined and has no result here. How a
name is found among the members is `Verif.Lang.Lookup`. The parser puts imports into the first list only (`frontend/parser.c` 3675-3716,
`parseProgram`). Left out: flags and types of members.
-/
namespace Verif.ModMembers

/-- Declarations of a file; names are numbers. -/
inductive Decl where
  | «import» (n : Nat)
  /-- a list of definitions with a name of its own -/
  | defines (n : Nat)
  /-- names with their aliases, without a name for the list -/
  | names (ns : List (Nat × Option Nat))
  /-- C code, or what compile-time code left behind -/
  | skip
  | decl (n : Nat)

/-- ast.c 1920-1934 -/
def countDecls : List Decl → Nat
  | [] => 0
  | .import _ :: ds => countDecls ds
  | .defines _ :: ds => 1 + countDecls ds
  | .names ns :: ds => ns.length + countDecls ds
  | .skip :: ds => 1 + countDecls ds
  | .decl _ :: ds => 1 + countDecls ds

/-- A write to the array at the next index. -/
def put (cap : Nat) (ms : List Nat) (n : Nat) : Option (List Nat) := if ms.length < cap then some (ms ++ [n]) else none

/-- module.c 23-30 -/
def addNames (cap : Nat) : List (Nat × Option Nat) → List Nat → Option (List Nat)
  | [], ms => some ms
  | (v, a) :: ns, ms => (put cap ms (a.getD v)).bind (addNames cap ns)

/-- module.c 35-51 -/
def add (cap : Nat) (ms : List Nat) : Decl → Option (List Nat)
  | .defines n => put cap ms n
  | .names ns => addNames cap ns ms
  | .skip => some ms
  | .decl n => put cap ms n
  | .import n => put cap ms n

/-- module.c 62-67 -/
def addTop (cap : Nat) : List Decl → List Nat → Option (List Nat)
  | [], ms => some ms
  | .import _ :: ds, ms => addTop cap ds ms
  | d :: ds, ms => (add cap ms d).bind (addTop cap ds)

/-- module.c 69-72: imports are not left out -/
def addDecls (cap : Nat) : List Decl → List Nat → Option (List Nat)
  | [], ms => some ms
  | d :: ds, ms => (add cap ms d).bind (addDecls cap ds)

/-- module.c 53-82: the names of the members. -/
def build (top decls : List Decl) : Option (List Nat) :=
  let cap := countDecls decls + countDecls top
  (addTop cap top []).bind (addDecls cap decls)

end Verif.ModMembers
