/-!
# Model of declarations of several variables

`src/cxy/lang/middle/shake/shake.c` 18–49 (`makeTupleMemberExpr`), 212–227 (`shakeVariableInitializer`), 373–445 (`shakeVariableDecl`);
`src/cxy/lang/middle/bind/resolve.c` 390–402 (`bindVarDecl`); `src/cxy/lang/middle/sema/member.c` 144–169 (members of tuples).

`var a, _, b = init` becomes a declaration for each variable. An initialiser that is a tuple expression is taken apart, each variable gets
its element; a variable or parameter is read again for each variable; anything else is kept in a variable of the compiler.

Simplified: expressions are literals, variables and calls; a call does with the state what it likes and may not come back. The number of
components of a variable or a value is that of its type. A declaration is seen by the declarations behind it (resolve.c 397–401; for what the
C compiler makes of a variable that is read by its own initialiser see C206). A variable that is left without an
initialiser has a declared type (otherwise its type stays `auto`, variables.c 55–58). Left out: declared types, attributes and constants.
-/
namespace Verif.MultiDecl

mutual
inductive Expr (V : Type) where
  | lit (v : V)
  | var (x : Nat)
  | call (f : Nat) (args : Args V)
inductive Args (V : Type) where
  | nil
  | cons (e : Expr V) (es : Args V)
end

/-- Calls, the components of a tuple, and the value of a variable that is declared without one. -/
structure Prims (V σ : Type) where
  call : Nat → List V → σ → Option (V × σ)
  proj : V → Nat → V
  zero : V

variable {V σ : Type} (P : Prims V σ)

mutual
def eval : Expr V → (Nat → V) → σ → Option (V × σ)
  | .lit v, _, s => some (v, s)
  | .var x, ρ, s => some (ρ x, s)
  | .call f as, ρ, s => (evalArgs as ρ s).bind fun r => P.call f r.1 r.2
def evalArgs : Args V → (Nat → V) → σ → Option (List V × σ)
  | .nil, _, s => some ([], s)
  | .cons e es, ρ, s => (eval e ρ s).bind fun r => (evalArgs es ρ r.2).map fun q => (r.1 :: q.1, q.2)
end

/-- The initialiser; `k` is the number of components. -/
inductive Init (V : Type) where
  | missing
  | tuple (es : List (Expr V))
  | name (x k : Nat)
  | value (e : Expr V) (k : Nat)

/-- What a variable is declared with. `tmp` is the variable of the compiler (`_gi`). -/
inductive Src (V : Type) where
  | nothing
  | expr (e : Expr V)
  | ofVar (x i : Nat)
  | ofTmp (i : Nat)

/-- The declarations made: first that of the variable of the compiler, if there is one. -/
structure Decls (V : Type) where
  tmp : Option (Expr V)
  vars : List (Nat × Src V)

inductive Result (V : Type) where
  | ok (d : Decls V)
  | refused
  /-- The compiler reads through a null pointer. -/
  | crash

/-- shake.c 18–49 `makeTupleMemberExpr` -/
def member (init : Init V) (i : Nat) : Src V :=
  match init with
  | .missing => .nothing
  | .tuple es => match es[i]? with
    | some e => .expr e
    | none => .nothing
  | .name x _ => .ofVar x i
  | .value _ _ => .ofTmp i

/-- shake.c 394–433: the loop over the names; `none` is `_`. -/
def loop (init : Init V) : Nat → List (Option Nat) → List (Nat × Src V)
  | _, [] => []
  | i, none :: ns => loop init (i + 1) ns
  | i, some x :: ns => (x, member init i) :: loop init (i + 1) ns

/-- member.c 154–162: components that do not exist. -/
def inRange (init : Init V) : Nat → List (Option Nat) → Bool
  | _, [] => true
  | i, none :: ns => inRange init (i + 1) ns
  | i, some _ :: ns => (match init with
    | .name _ k => decide (i < k)
    | .value _ k => decide (i < k)
    | _ => true) && inRange init (i + 1) ns

def Init.isMissing : Init V → Bool
  | .missing => true
  | _ => false

/-- shake.c 373–445 `shakeVariableDecl` for two names or more: 404–413, then 435, where `it` is null if there was no name but `_`. -/
def compile (ns : List (Option Nat)) (init : Init V) : Result V :=
  if init.isMissing && decide (none ∈ ns) then .refused
  else if (loop init 0 ns).isEmpty then .crash
  else if inRange init 0 ns then
    .ok { tmp := match init with | .value e _ => some e | _ => none, vars := loop init 0 ns }
  else .refused

/-! ## Running -/

def put (ρ : Nat → V) (x : Nat) (v : V) : Nat → V := fun y => if y = x then v else ρ y

def readSrc (tmp : V) : Src V → (Nat → V) → σ → Option (V × σ)
  | .nothing, _, s => some (P.zero, s)
  | .expr e, ρ, s => eval P e ρ s
  | .ofVar x i, ρ, s => some (P.proj (ρ x) i, s)
  | .ofTmp i, _, s => some (P.proj tmp i, s)

def runVars (tmp : V) : List (Nat × Src V) → (Nat → V) → σ → Option ((Nat → V) × σ)
  | [], ρ, s => some (ρ, s)
  | d :: ds, ρ, s => (readSrc P tmp d.2 ρ s).bind fun r => runVars tmp ds (put ρ d.1 r.1) r.2

/-- The variables behind the declarations, and the state. -/
def run (d : Decls V) (ρ : Nat → V) (s : σ) : Option ((Nat → V) × σ) :=
  match d.tmp with
  | none => runVars P P.zero d.vars ρ s
  | some e => (eval P e ρ s).bind fun r => runVars P r.1 d.vars ρ r.2

end Verif.MultiDecl
