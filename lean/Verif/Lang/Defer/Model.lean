/-! # Model of the defer rewrite, `src/cxy/lang/middle/defer.c`

Statements are reduced to what matters for control flow.  `act` is any statement without control flow; a deferred
statement is one of those.  The bodies of conditionals and loops are blocks (shake.c 447-560, 1024-1060 wrap them); the
body of a switch case is any statement, since nothing wraps it before this pass.  `break` and `continue` belong to a loop,
never to a switch (scope.c 290-305). -/
namespace Verif.Defer

inductive Stmt where
  | act (a : Nat)
  | noop
  | defer (d : Nat)
  | block (ss : List Stmt)
  | cond (a b : List Stmt)
  | loop (body : List Stmt)
  | switch (cases : List Stmt)
  | brk
  | cont
  | ret (e : Option Nat)

/-- A `BlockScope`: the deferred statements met so far (`data`) and the flag `bscSealed`. -/
structure Scope where
  defs : List Nat
  isSealed : Bool

/-- defer.c 52-68 `blockScopeSealIntoList`: last first. -/
def sealInto (s : Scope) : List Nat := s.defs.reverse

/-- defer.c 47-50 and the test before `blockScopeSealIntoList` in 122 and 147. -/
def sealIfNeeded (s : Scope) : List Nat := if s.isSealed then [] else sealInto s

/-- defer.c 112-128: the walk of `visitBreakContinue` from the innermost scope; the flag says whether the block is the
body of a loop.  There the walk stops, and that scope is taken whether or not it is sealed. -/
def toLoop : List (Scope × Bool) → List Nat
  | [] => []
  | (s, true) :: _ => sealInto s
  | (s, false) :: r => sealIfNeeded s ++ toLoop r

/-- defer.c 140-151: the walk of `visitReturnStmt`. -/
def toRoot : List (Scope × Bool) → List Nat
  | [] => []
  | (s, _) :: r => sealIfNeeded s ++ toRoot r

/-- defer.c 101-109: no-ops are dropped. -/
def keep : Stmt → List Stmt
  | .noop => []
  | t => [t]

mutual
/-- Visiting a statement of a block: the statement after the visit, the scope of the block, and the deferred statements
that `astModifierAdd` puts before the *statement of the block* being visited (`ctx->block`, visitor.c 411-430).  `env` are the
enclosing scopes and `isLoop` says whether the block is the body of a loop. -/
def visit (env : List (Scope × Bool)) (isLoop : Bool) : Stmt → Scope → Stmt × Scope × List Nat
  | .act a, s => (.act a, s, [])
  | .noop, s => (.noop, s, [])
  -- defer.c 78-85
  | .defer d, s => (.noop, { s with defs := s.defs ++ [d] }, [])
  | .block ss, s => (.block (visitAll ((s, isLoop) :: env) false ss ⟨[], false⟩), s, [])
  | .cond a b, s => (.cond (visitAll ((s, isLoop) :: env) false a ⟨[], false⟩) (visitAll ((s, isLoop) :: env) false b ⟨[], false⟩), s, [])
  | .loop b, s => (.loop (visitAll ((s, isLoop) :: env) true b ⟨[], false⟩), s, [])
  | .switch cs, s =>
    let (cs', s', ins) := visitCases env isLoop cs s []
    (.switch cs', s', ins)
  -- defer.c 112-132
  | .brk, s => (.brk, { s with isSealed := true }, toLoop ((s, isLoop) :: env))
  | .cont, s => (.cont, { s with isSealed := true }, toLoop ((s, isLoop) :: env))
  -- defer.c 140-152
  | .ret e, s => (.ret e, { s with isSealed := true }, toRoot ((s, isLoop) :: env))
/-- The cases of a switch one after another (fallback visitor).  `withSavedStack` (166-174) restores `ctx->block`, so a
second insertion replaces the first. -/
def visitCases (env : List (Scope × Bool)) (isLoop : Bool) : List Stmt → Scope → List Nat → List Stmt × Scope × List Nat
  | [], s, ins => ([], s, ins)
  | c :: cs, s, ins =>
    let (c', s', ins') := visit env isLoop c s
    let (cs', s'', ins'') := visitCases env isLoop cs s' (if ins' = [] then ins else ins')
    (c' :: cs', s'', ins'')
/-- defer.c 87-110 `visitBlockStmt`: the statements until the scope is sealed; then the deferred ones; no-ops are dropped. -/
def visitAll (env : List (Scope × Bool)) (isLoop : Bool) : List Stmt → Scope → List Stmt
  | [], s => (sealIfNeeded s).map .act
  | t :: ts, s =>
    if s.isSealed then t :: ts
    else
      let (t', s', ins) := visit env isLoop t s
      ins.map .act ++ keep t' ++ visitAll env isLoop ts s'
end

/-- defer.c 176-200 `simplifyDeferStatements`, for the body of one function. -/
def rewrite (body : List Stmt) : List Stmt := visitAll [] false body ⟨[], false⟩

/-! ## Execution

Which way conditionals, loops and switches go is given by a list of choices.  The result is the list of the actions
performed. -/

/-- How a statement ends. -/
inductive End where
  | next | brk | cont
  | ret (e : Option Nat)
  /-- a `defer` that no pass has removed -/
  | leftover
  deriving DecidableEq

structure State where
  trace : List Nat
  choices : List Nat
  deriving DecidableEq

def State.emit (s : State) (as : List Nat) : State := { s with trace := s.trace ++ as }

/-- The next choice. -/
def State.choose (s : State) : Nat × State := (s.choices.headD 0, { s with choices := s.choices.tail })

/-- A loop whose condition is a choice; `none` when the fuel is used up. -/
def iter (body : State → Option (End × State)) : Nat → State → Option (End × State)
  | 0, _ => none
  | f + 1, s =>
    let (c, s) := s.choose
    if c = 0 then some (.next, s)
    else match body s with
      | none => none
      | some (.next, s) => iter body f s
      | some (.cont, s) => iter body f s
      | some (.brk, s) => some (.next, s)
      | some r => some r

mutual
/-- The generated program: no statement is deferred any more. -/
def run (fuel : Nat) : Stmt → State → Option (End × State)
  | .act a, s => some (.next, s.emit [a])
  | .noop, s => some (.next, s)
  | .defer _, s => some (.leftover, s)
  | .block ss, s => runAll fuel ss s
  | .cond a b, s => if s.choose.1 = 0 then runAll fuel b s.choose.2 else runAll fuel a s.choose.2
  | .loop b, s => iter (runAll fuel b) fuel s
  | .switch cs, s => runCase fuel cs s.choose.1 s.choose.2
  | .brk, s => some (.brk, s)
  | .cont, s => some (.cont, s)
  | .ret e, s => some (.ret none, s.emit e.toList)
def runCase (fuel : Nat) : List Stmt → Nat → State → Option (End × State)
  | [], _, s => some (.next, s)
  | c :: _, 0, s => run fuel c s
  | _ :: cs, n + 1, s => runCase fuel cs n s
def runAll (fuel : Nat) : List Stmt → State → Option (End × State)
  | [], s => some (.next, s)
  | t :: ts, s => match run fuel t s with
    | some (.next, s) => runAll fuel ts s
    | r => r
end

end Verif.Defer
