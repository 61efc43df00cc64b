/-!
# Compile-time statements: `#const`, `#{x = e}`, `#if` and `#for`

Sources: `src/cxy/lang/middle/eval/eval.c` 103–170 (`evaluate`, `evalIfStmt`),
225–255 (`evalAssignExpr`), 257–290 (`evalRangeExpr`), 303–326
(`evalVarDecl`); `src/cxy/lang/middle/eval/for.c` 11–211 (unrolling);
`src/cxy/lang/middle/eval/path.c` 140–184 (a use of a compile-time variable);
`src/cxy/lang/middle/sema/type.c` 76–104 (`checkTypeShallow` evaluates marked
nodes before it checks them); `src/cxy/lang/middle/sema/check.c` 122–194
(`checkBlockStmt` walks the list while evaluation splices into it), 379–
(`checkWhileStmt`); `src/cxy/lang/middle/sema/if.c` 7–85;
`src/cxy/lang/middle/shake/shake.c` 447–500 (bodies become blocks, an `else`
that is an `if` does not); `src/cxy/lang/backend/c/generate.c` 1340–1342,
1478–1516 (blocks and `if` in C).

Simplifications.
* Values are mathematical integers and an operator is an arbitrary function on
  them; what folding does to particular operators and widths is the subject of
  the components on constants (`Eval`, `LitCast`).
* Names are resolved: every declaration has its own number, as the `resolvesTo`
  pointers give it.
* Only ranges `lo .. hi` are iterated here.  A step is treated in `Step`, an
  array literal in `Splice` below.
* Clean-ups, `return`, `break` and `defer` are left out.
-/
namespace Verif.Comptime

/-- Expressions between `#{` and `}`: literals, compile-time variables and
operators (eval.c 346–378 lists what can be evaluated). -/
inductive CE where
  | lit (v : Int)
  | var (x : Nat)
  | bin (f : Int → Int → Int) (a b : CE)

/-- Compile-time variables: `varDecl.init`, always an evaluated literal. -/
abbrev CEnv := Nat → Int
/-- Run-time variables. -/
abbrev REnv := Nat → Int

def upd (σ : Nat → Int) (x : Nat) (v : Int) : Nat → Int :=
  fun y => if y = x then v else σ y

/-- `evaluate` on an expression: a path becomes its variable's initialiser
(path.c 146–152), operators are folded. -/
def evalCE (σ : CEnv) : CE → Int
  | .lit v => v
  | .var x => σ x
  | .bin f a b => f (evalCE σ a) (evalCE σ b)

/-- Run-time expressions of the source; `ct e` is `#{e}`. -/
inductive RE where
  | lit (v : Int)
  | rv (x : Nat)
  | ct (e : CE)
  | bin (f : Int → Int → Int) (a b : RE)

/-- Run-time expressions that are left after evaluation. -/
inductive TE where
  | lit (v : Int)
  | rv (x : Nat)
  | bin (f : Int → Int → Int) (a b : TE)

/-- `checkTypeShallow` (type.c 76–91) on an expression: marked nodes are
replaced by their values. -/
def stageE (σ : CEnv) : RE → TE
  | .lit v => .lit v
  | .rv x => .rv x
  | .ct e => .lit (evalCE σ e)
  | .bin f a b => .bin f (stageE σ a) (stageE σ b)

def evalTE (ρ : REnv) : TE → Int
  | .lit v => v
  | .rv x => ρ x
  | .bin f a b => f (evalTE ρ a) (evalTE ρ b)

mutual
/-- Statements of the source. -/
inductive S where
  /-- a call whose effect can be seen -/
  | out (e : RE)
  /-- `var x = e` -/
  | decl (x : Nat) (e : RE)
  /-- `x = e` -/
  | set (x : Nat) (e : RE)
  /-- `if (c) { t } else { e }`; without `else` the list `e` is empty -/
  | ifR (c : RE) (t e : Ss)
  /-- `if (c) { t } else #if (k) { a } else { b }` -/
  | ifRC (c : RE) (t : Ss) (k : CE) (a b : Ss)
  /-- `while (c) { b }` -/
  | whileR (c : RE) (b : Ss)
  /-- `{ b }` -/
  | block (b : Ss)
  /-- `#const x = e` -/
  | constC (x : Nat) (e : CE)
  /-- `#{x = e}` -/
  | setC (x : Nat) (e : CE)
  /-- `#{x f= e}` -/
  | opC (x : Nat) (f : Int → Int → Int) (e : CE)
  /-- `#if (k) { a } else { b }` -/
  | ifC (k : CE) (a b : Ss)
  /-- `#for (const x: lo..hi) { b }`; `keep` stands for `@consistent` -/
  | forC (keep : Bool) (x : Nat) (lo hi : CE) (b : Ss)
/-- Statement lists. -/
inductive Ss where
  | nil
  | cons (s : S) (ss : Ss)
end

mutual
/-- Statements of the emitted C code. -/
inductive T where
  | out (e : TE)
  | decl (x : Nat) (e : TE)
  | set (x : Nat) (e : TE)
  | ifT (c : TE) (t e : Ts)
  /-- `if (c) { t } else ` with nothing behind it: an `else` whose node is a
  `Noop` prints the keyword and no statement (generate.c 1511–1515). -/
  | dangling (c : TE) (t : Ts)
  | whileT (c : TE) (b : Ts)
  | block (b : Ts)
inductive Ts where
  | nil
  | cons (s : T) (ts : Ts)
end

def Ts.app : Ts → Ts → Ts
  | .nil, b => b
  | .cons s a, b => .cons s (a.app b)

/-- The rounds of an unrolled range: `for (; i < count; i += 1)` (for.c
175–208).  `n` is the number of rounds left, `body` checks one clone of the
body with the variable set to `i` and gives the statements it leaves.  A body
is spliced without its block unless the loop is `@consistent`
(`getEvaluatedBody`, for.c 11–16). -/
def unroll (keep : Bool) (x : Nat) (body : CEnv → CEnv × Ts) :
    Nat → Int → CEnv → CEnv × Ts
  | 0, _, σ => (σ, .nil)
  | n + 1, i, σ =>
    let r := body (upd σ x i)
    let q := unroll keep x body n (i + 1) r.1
    (q.1, (if keep then Ts.cons (.block r.2) .nil else r.2).app q.2)

mutual
/-- Type checking of one statement with its compile-time evaluation: the new
values of the compile-time variables and the statements left in its place. -/
def stage (σ : CEnv) : S → CEnv × Ts
  | .out e => (σ, .cons (.out (stageE σ e)) .nil)
  | .decl x e => (σ, .cons (.decl x (stageE σ e)) .nil)
  | .set x e => (σ, .cons (.set x (stageE σ e)) .nil)
  -- if.c 13–62: condition, then, else, each checked once, in this order
  | .ifR c t e =>
    let r := stages σ t
    let q := stages r.1 e
    (q.1, .cons (.ifT (stageE σ c) r.2 q.2) .nil)
  -- if.c 61: `checkType(otherwise)` evaluates the `#if`; eval.c 126–159 turn
  -- the node into a `Noop` and hang the chosen statements behind it as `next`,
  -- where an `else` is not followed: they are neither checked nor emitted
  | .ifRC c t _ _ _ =>
    let r := stages σ t
    (r.1, .cons (.dangling (stageE σ c) r.2) .nil)
  -- check.c 379–: condition and body are checked once
  | .whileR c b =>
    let r := stages σ b
    (r.1, .cons (.whileT (stageE σ c) r.2) .nil)
  | .block b =>
    let r := stages σ b
    (r.1, .cons (.block r.2) .nil)
  -- eval.c 303–326; a compile-time variable is not emitted (generate.c 1642)
  | .constC x e => (upd σ x (evalCE σ e), .nil)
  -- eval.c 225–243
  | .setC x e => (upd σ x (evalCE σ e), .nil)
  -- eval.c 246–254
  | .opC x f e => (upd σ x (f (σ x) (evalCE σ e)), .nil)
  -- eval.c 113–159: the chosen statements are spliced into the list and
  -- checked as the statements that follow
  | .ifC k a b => if evalCE σ k ≠ 0 then stages σ a else stages σ b
  | .forC keep x lo hi b =>
    let l := evalCE σ lo
    let h := evalCE σ hi
    unroll keep x (fun σ' => stages σ' b) (h - l).toNat l σ
/-- `checkBlockStmt` (check.c 122–166). -/
def stages (σ : CEnv) : Ss → CEnv × Ts
  | .nil => (σ, .nil)
  | .cons s ss =>
    let r := stage σ s
    let q := stages r.1 ss
    (q.1, r.2.app q.2)
end

/-! ## Running the emitted code -/

/-- What can be seen of a run: the variables and what was written. -/
abbrev St := REnv × List Int

/-- A loop of at most `n` rounds; `none` when it is not done by then. -/
def loop {α : Type} (c : α → Bool) (body : α → Option α) : Nat → α → Option α
  | 0, a => if c a then none else some a
  | n + 1, a => if c a then (body a).bind (loop c body n) else some a

mutual
/-- C semantics of one statement; `n` bounds the rounds of every loop. -/
def runT (n : Nat) : T → St → Option St
  | .out e, (ρ, o) => some (ρ, o ++ [evalTE ρ e])
  | .decl x e, (ρ, o) => some (upd ρ x (evalTE ρ e), o)
  | .set x e, (ρ, o) => some (upd ρ x (evalTE ρ e), o)
  | .ifT c t e, s => if evalTE s.1 c ≠ 0 then runTs n false t s else runTs n false e s
  | .dangling c t, s => if evalTE s.1 c ≠ 0 then runTs n false t s else some s
  | .whileT c b, s => loop (fun s => evalTE s.1 c != 0) (runTs n false b) n s
  | .block b, s => runTs n false b s
/-- C semantics of a list.  With `skip` the first statement of the list is the
branch of an `else` that is not taken. -/
def runTs (n : Nat) (skip : Bool) : Ts → St → Option St
  | .nil, s => some s
  | .cons (.dangling c t) ts, s =>
    if skip then runTs n true ts s
    else if evalTE s.1 c ≠ 0 then (runTs n false t s).bind (runTs n true ts)
    else runTs n false ts s
  | .cons t ts, s =>
    if skip then runTs n false ts s
    else (runT n t s).bind (runTs n false ts)
end

/-! ## Validity of the emitted code -/

/-- Names declared directly in a block. -/
def Ts.decls : Ts → List Nat
  | .nil => []
  | .cons (.decl x _) ts => x :: ts.decls
  | .cons _ ts => ts.decls

/-- C allows a name to be declared once in a block. -/
def Ts.declOk (ts : Ts) : Prop := ts.decls.Nodup

/-! ## Ranges with a step -/

namespace Step

/-- `evalRangeExpr` (eval.c 273–286) with a step that is an integer literal:
number of errors logged.  The test of the step is the wrong way round, and the
node is not marked, so evaluation goes on. -/
def errors (hasStep : Bool) : Nat := if hasStep then 1 else 0

/-- The loop of for.c 181 with a step, at most `fuel` rounds; `none` when it
is not done by then.  Machine overflow of `i += step` is left out. -/
def visit (hi step : Int) : Nat → Int → Option (List Int)
  | 0, i => if i < hi then none else some []
  | n + 1, i => if i < hi then (visit hi step n (i + step)).map (i :: ·) else some []

end Step

end Verif.Comptime
