/-!
# Model of default arguments

`src/cxy/lang/middle/sema/call.c` 128–158 (`checkFunctionCallEpilogue`); `src/cxy/lang/middle/sema/function.c` 279–300
(`checkFunctionParam`); `src/cxy/lang/middle/bind/resolve.c` 344–352 (`bindFuncParam`); `src/cxy/lang/backend/c/generate.c` 834–857 (names are
printed as they are).

The default of a parameter is bound where the function is declared; it may read module variables and the parameters before it. A call that
leaves arguments out gets a copy of each default. In the C that is generated a module variable has a name of its own; a parameter is
printed by its name and C looks the name up where the call stands.

Simplified: the arguments that are written are values; they and the defaults are computed from the left (C leaves the order open). Calls
inside a default do with the state what they like and may not come back.
-/
namespace Verif.DefaultArgs

mutual
inductive Expr (V : Type) where
  | lit (v : V)
  /-- A variable of the module. -/
  | global (g : Nat)
  /-- A parameter of the function. -/
  | param (p : Nat)
  | call (f : Nat) (args : Args V)
inductive Args (V : Type) where
  | nil
  | cons (e : Expr V) (es : Args V)
end

structure Prims (V σ : Type) where
  call : Nat → List V → σ → Option (V × σ)
  global : Nat → σ → V

variable {V σ : Type} (P : Prims V σ)

mutual
/-- The value of an expression; `ρ` holds what stands behind the names of parameters. -/
def eval : Expr V → (Nat → V) → σ → Option (V × σ)
  | .lit v, _, s => some (v, s)
  | .global g, _, s => some (P.global g s, s)
  | .param p, ρ, s => some (ρ p, s)
  | .call f as, ρ, s => (evalArgs as ρ s).bind fun r => P.call f r.1 r.2
def evalArgs : Args V → (Nat → V) → σ → Option (List V × σ)
  | .nil, _, s => some ([], s)
  | .cons e es, ρ, s => (eval e ρ s).bind fun r => (evalArgs es ρ r.2).map fun q => (r.1 :: q.1, q.2)
end

mutual
/-- The C compiler finds a declaration for every name. -/
def declared (scope : Nat → Bool) : Expr V → Bool
  | .lit _ => true
  | .global _ => true
  | .param p => scope p
  | .call _ as => declaredArgs scope as
def declaredArgs (scope : Nat → Bool) : Args V → Bool
  | .nil => true
  | .cons e es => declared scope e && declaredArgs scope es
end

/-- A parameter: its name and its default. -/
structure Param (V : Type) where
  name : Nat
  dflt : Option (Expr V)

/-- call.c 145–156: the copies for the parameters behind the arguments. -/
def clones : List (Param V) → Option (List (Expr V))
  | [] => some []
  | p :: ps => match p.dflt with
    | none => none
    | some e => (clones ps).map (e :: ·)

/-- The call with `k` arguments as it is generated, in a function where the variables in `scope` are to be seen. `none`: too many arguments,
a parameter without a default, or a name that is not declared. -/
def compile (params : List (Param V)) (k : Nat) (scope : Nat → Bool) : Option (List (Expr V)) :=
  if k ≤ params.length then
    match clones (params.drop k) with
    | none => none
    | some es => if es.all (declared scope) then some es else none
  else none

/-- The values of the copies; `ρ` are the variables of the caller. -/
def run : List (Expr V) → (Nat → V) → σ → Option (List V × σ)
  | [], _, s => some ([], s)
  | e :: es, ρ, s => (eval P e ρ s).bind fun r => (run es ρ r.2).map fun q => (r.1 :: q.1, q.2)

/-- What the parameters get. -/
def pass (es : List (Expr V)) (vs : List V) (ρ : Nat → V) (s : σ) : Option (List V × σ) :=
  (run P es ρ s).map fun r => (vs ++ r.1, r.2)

end Verif.DefaultArgs
