/-!
# Model of local names in the C that is generated

`src/cxy/lang/middle/bind/resolve.c` 346–402 (`bindFuncParam`, `bindFunctionDecl`, `bindVarDecl`), 636–668 (`bindBlockStmt`),
`src/cxy/lang/middle/bind/scope.c` 104–132 (`defineSymbol`); `src/cxy/lang/backend/c/generate.c` 640–653 (`generateVariableName`),
834–857 (`visitIdentifier`), 1478–1485 (`visitBlockStmt`), 1639–1682 (`visitVariableDecl`, `visitFuncParamDecl`), 1714–1749
(`visitFuncDecl`).

The compiler resolves every name to a declaration. The C back end prints local variables and parameters under the name they have in the
source, and so the C compiler resolves the names again, by its own rules (C11 6.2.1).

Simplified: a statement is what it reads and declares; conditionals and loops are the reading of a condition followed by blocks. The names
an initialiser reads are those that are left in it when it is printed (a part that was moved in front of the statement, C159, is a
declaration of its own). Names that are not found are those of the module, which are printed with the name of the module in front.
-/
namespace Verif.CNames

/-- Names; 0 is `_`. -/
abbrev Name := Nat

mutual
inductive Stmt where
  | use (xs : List Name)
  | decl (x : Name) (init : List Name)
  | block (b : Stmts)
inductive Stmts where
  | nil
  | cons (s : Stmt) (ss : Stmts)
end

structure Func where
  params : List Name
  body : Stmts

/-- A scope: names and the numbers of their declarations, the last one first. -/
abbrev Scope := List (Name × Nat)

/-- The declaration a name is resolved to; `none` is something outside of the function. -/
def look : List Scope → Name → Option Nat
  | [], _ => none
  | s :: r, x => match s.lookup x with
    | some d => some d
    | none => look r x

def has (s : Scope) (x : Name) : Bool := (s.lookup x).isSome

/-! ## The compiler -/

/-- scope.c 104–132 `defineSymbol`: `_` is not defined, and a second definition in a scope is an error. -/
def define (sc : List Scope) (x : Name) (d : Nat) : Option (List Scope) :=
  if x = 0 then some sc
  else match sc with
    | [] => none
    | s :: r => if has s x then none else some (((x, d) :: s) :: r)

mutual
/-- The declarations the names are resolved to, in the order of the source, the scopes behind the statement, and the number of the next
declaration. An error is `none`; so is the reading of `_`. -/
def bindS : Stmt → List Scope → Nat → Option (List (Option Nat) × List Scope × Nat)
  | .use xs, sc, n => if 0 ∈ xs then none else some (xs.map (look sc), sc, n)
  | .decl x init, sc, n => if 0 ∈ init then none else (define sc x n).map fun sc' => (init.map (look sc), sc', n + 1)
  | .block b, sc, n => (bindB b ([] :: sc) n).map fun r => (r.1, sc, r.2.2)
def bindB : Stmts → List Scope → Nat → Option (List (Option Nat) × List Scope × Nat)
  | .nil, sc, n => some ([], sc, n)
  | .cons s ss, sc, n => (bindS s sc n).bind fun r => (bindB ss r.2.1 r.2.2).map fun q => (r.1 ++ q.1, q.2)
end

/-- resolve.c 346–352, for each parameter. -/
def params : List Name → List Scope → Nat → Option (List Scope × Nat)
  | [], sc, n => some (sc, n)
  | x :: xs, sc, n => (define sc x n).bind fun sc' => params xs sc' (n + 1)

/-- resolve.c 354–377: the body is a scope inside of that of the parameters. -/
def bind (f : Func) : Option (List (Option Nat)) :=
  (params f.params [[]] 0).bind fun p => (bindB f.body ([] :: p.1) p.2).map (·.1)

/-! ## The C compiler -/

/-- `_` is a name like any other. -/
def cdefine (sc : List Scope) (x : Name) (d : Nat) : Option (List Scope) :=
  match sc with
  | [] => none
  | s :: r => if has s x then none else some (((x, d) :: s) :: r)

mutual
/-- C11 6.2.1, 7: the scope of a variable begins in front of its initialiser. -/
def cbindS : Stmt → List Scope → Nat → Option (List (Option Nat) × List Scope × Nat)
  | .use xs, sc, n => some (xs.map (look sc), sc, n)
  | .decl x init, sc, n => (cdefine sc x n).map fun sc' => (init.map (look sc'), sc', n + 1)
  | .block b, sc, n => (cbindB b ([] :: sc) n).map fun r => (r.1, sc, r.2.2)
def cbindB : Stmts → List Scope → Nat → Option (List (Option Nat) × List Scope × Nat)
  | .nil, sc, n => some ([], sc, n)
  | .cons s ss, sc, n => (cbindS s sc n).bind fun r => (cbindB ss r.2.1 r.2.2).map fun q => (r.1 ++ q.1, q.2)
end

def cparams : List Name → List Scope → Nat → Option (List Scope × Nat)
  | [], sc, n => some (sc, n)
  | x :: xs, sc, n => (cdefine sc x n).bind fun sc' => cparams xs sc' (n + 1)

/-- C11 6.2.1, 4: the parameters are in the scope of the outermost block of the body. -/
def cbind (f : Func) : Option (List (Option Nat)) :=
  (cparams f.params [[]] 0).bind fun p => (cbindB f.body p.1 p.2).map (·.1)

end Verif.CNames
