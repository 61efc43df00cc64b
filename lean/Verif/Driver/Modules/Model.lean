/-! # Compiling the modules of a program

Models `/repo/src/cxy/driver/driver.c` 62-88 (the cache of modules), 402-508 (`compileModule`) and 510-523
(`compileFile`), with `/repo/src/cxy/lang/frontend/parser.c` 3513-3556 (`parseImportDecl`, which compiles the imported
module while the importing file is still being parsed) and `/repo/src/cxy/lang/backend/c/generate.c` 1795-1812
(`visitProgram`: the code of a module goes to the end of the one C file).

Modelled: which files are compiled, how often and in which order their code is written.  A file is a natural number (the
real path the compiler looks it up by); a program is a table from files to the files they import, in order.  `fail` is a
compilation that stops with an error (a file that is not there); `more` is a compiler that has not finished within the
given nesting of imports: the compiler recurses in C, so a compilation that is `more` for every amount runs until its
stack is exhausted.  Simplified: the module with the built-in declarations, which is written first, is left out; the
entities that an import names all exist; C headers are left out; an error in one import ends the compilation at once (the
parser resynchronises, but no further code is written once an error was logged). -/

namespace Verif.Modules

/-- The files: what each one imports, in order; a file that is not in the list does not exist. -/
abbrev Files := List (Nat × List Nat)

/-- `access(path, F_OK)` and the imports the parser meets (driver.c 419-425, parser.c 3513-3556). -/
def Files.get (g : Files) (p : Nat) : Option (List Nat) := g.lookup p

/-- `driver->moduleCache` and the sections of the C file written so far. -/
structure St where
  cache : List Nat
  out : List Nat
  deriving Repr, DecidableEq

inductive R where
  | ok (st : St)
  | fail
  | more
  deriving Repr, DecidableEq

/-- The loop of the parser over the imports of a file (parser.c 3590-3604). -/
def importAll (f : St → Nat → R) : St → List Nat → R
  | st, [] => .ok st
  | st, p :: ps =>
    match f st p with
    | .ok st' => importAll f st' ps
    | .fail => .fail
    | .more => .more

/-- `compileModule` (driver.c 402-508): a module in the cache is not compiled again (415-417); otherwise it is parsed,
which compiles its imports, its code is written (439), and only then it is put in the cache (504-505). -/
def compileModule (g : Files) : Nat → St → Nat → R
  | 0, _, _ => .more
  | n + 1, st, p =>
    if p ∈ st.cache then .ok st
    else
      match g.get p with
      | none => .fail
      | some is =>
        match importAll (compileModule g n) st is with
        | .ok st' => .ok ⟨p :: st'.cache, st'.out ++ [p]⟩
        | .fail => .fail
        | .more => .more

/-- `compileFile` (driver.c 510-523) for the main file: it is never put in the cache. -/
def compileFile (g : Files) (n : Nat) (main : Nat) : R :=
  match g.get main with
  | none => .fail
  | some is =>
    match importAll (compileModule g n) ⟨[], []⟩ is with
    | .ok st => .ok ⟨st.cache, st.out ++ [main]⟩
    | .fail => .fail
    | .more => .more

end Verif.Modules
