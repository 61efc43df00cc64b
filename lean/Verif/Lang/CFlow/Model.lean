import Verif.Lang.Flow.Source
/-!
# Model of the C text of statements

The back end that writes C, `src/cxy/lang/backend/c/generate.c`: `visitReturnStmt`, `visitBlockStmt`, `visitExprStmt`,
`visitIfStmt`, `visitWhileStmt`, `visitSwitchStmt`, `visitCaseStmt`, `visitContinueStmt`, `visitBreakStmt` (lines 1464–1637).

The statements and their meaning are those of `Flow/Source.lean`. The statements of C mean what C11 6.8 says: a `switch` runs from
the matching label on, through the labels behind it, until a `break`; a `break` leaves the innermost loop or `switch` (6.8.6.3); a
`continue` goes to the end of the innermost loop body, which here is behind the update (6.8.6.2).

Left out: the text of expressions (`CText`), declarations, `match` (it becomes a `switch` on the tag, `simplify.c` 1152–1210),
case labels that are not constants, clean-up blocks, debug lines. The order in which operands are evaluated is left open as in
`Flow/Source.lean`.
-/
namespace Verif.CFlow

open Verif.Flow (Expr Stmt Cases ER Sem Mix evalE)

mutual
/-- Statements of C. A loop has an optional label in front of its optional update. -/
inductive CStmt (Prim : Type) where
  | skip
  | seq (a b : CStmt Prim)
  | expr (e : Expr Prim)
  | ite (c : Expr Prim) (a b : CStmt Prim)
  | while (c : Expr Prim) (body : CStmt Prim) (label : Option Nat) (update : Option (Expr Prim))
  | switch (c : Expr Prim) (cases : CCases Prim)
  | brk
  | cont
  | goto (l : Nat)
  | ret (e : Option (Expr Prim))
  | abort
/-- Labelled statements of a `switch`: `none` is `default`. -/
inductive CCases (Prim : Type) where
  | nil
  | cons (v : Option Int) (body : CStmt Prim) (rest : CCases Prim)
end

variable {Prim State : Type}

/-- How a statement of C ends. -/
inductive COut where
  | normal | brk | cont | goto (l : Nat) | ret (v : Option Int)
  deriving DecidableEq, Repr

inductive CR (State : Type) where
  | done (o : COut) (s : State)
  | stuck (s : State)
  | out

/-- The rounds of a loop: what is behind the label runs after the body, or after a jump to the label. -/
def crounds (cond : State → ER State) (body : State → CR State) (label : Option Nat) (update : State → ER State) :
    Nat → State → CR State
  | 0, _ => .out
  | n + 1, s =>
    match cond s with
    | .stuck s' => .stuck s'
    | .ok v s1 =>
      if v = 0 then .done .normal s1
      else
        match body s1 with
        | .out => .out
        | .stuck s' => .stuck s'
        | .done .brk s2 => .done .normal s2
        | .done (.ret v) s2 => .done (.ret v) s2
        | .done .cont s2 => crounds cond body label update n s2
        | .done (.goto l) s2 =>
          if label = some l then
            match update s2 with
            | .stuck s' => .stuck s'
            | .ok _ s3 => crounds cond body label update n s3
          else .done (.goto l) s2
        | .done .normal s2 =>
          match update s2 with
          | .stuck s' => .stuck s'
          | .ok _ s3 => crounds cond body label update n s3

/-- A `switch` ends normally at a `break`. -/
def leaveSwitch : CR State → CR State
  | .done .brk s => .done .normal s
  | r => r

mutual
/-- Running a statement of C (6.8); every loop is allowed `N` rounds. -/
def cexec (leftFirst : Mix → Bool) (sem : Sem Prim State) (N : Nat) : CStmt Prim → State → CR State
  | .skip, s => .done .normal s
  | .seq a b, s =>
    match cexec leftFirst sem N a s with
    | .done .normal s1 => cexec leftFirst sem N b s1
    | r => r
  | .expr e, s =>
    match evalE leftFirst sem e s with
    | .ok _ s1 => .done .normal s1
    | .stuck s1 => .stuck s1
  | .ite c a b, s =>
    match evalE leftFirst sem c s with
    | .ok v s1 => if v = 0 then cexec leftFirst sem N b s1 else cexec leftFirst sem N a s1
    | .stuck s1 => .stuck s1
  | .while c body label update, s =>
    crounds (evalE leftFirst sem c) (cexec leftFirst sem N body) label
      (fun s => match update with | some e => evalE leftFirst sem e s | none => .ok 0 s) N s
  | .switch c cases, s =>
    match evalE leftFirst sem c s with
    | .ok v s1 =>
      match cexecAt leftFirst sem N cases (fun x => x = some v) s1 with
      | some r => leaveSwitch r
      | none =>
        match cexecAt leftFirst sem N cases (fun x => x = none) s1 with
        | some r => leaveSwitch r
        | none => .done .normal s1
    | .stuck s1 => .stuck s1
  | .brk, s => .done .brk s
  | .cont, s => .done .cont s
  | .goto l, s => .done (.goto l) s
  | .ret none, s => .done (.ret none) s
  | .ret (some e), s =>
    match evalE leftFirst sem e s with
    | .ok v s1 => .done (.ret (some v)) s1
    | .stuck s1 => .stuck s1
  | .abort, s => .stuck s
/-- From the first label of a kind on. -/
def cexecAt (leftFirst : Mix → Bool) (sem : Sem Prim State) (N : Nat) : CCases Prim → (Option Int → Bool) → State →
    Option (CR State)
  | .nil, _, _ => none
  | .cons v body rest, sel, s =>
    if sel v then
      some (match cexec leftFirst sem N body s with
        | .done .normal s1 => cexecFrom leftFirst sem N rest s1
        | r => r)
    else cexecAt leftFirst sem N rest sel s
/-- Through all the labels. -/
def cexecFrom (leftFirst : Mix → Bool) (sem : Sem Prim State) (N : Nat) : CCases Prim → State → CR State
  | .nil, s => .done .normal s
  | .cons _ body rest, s =>
    match cexec leftFirst sem N body s with
    | .done .normal s1 => cexecFrom leftFirst sem N rest s1
    | r => r
end

/-! ## What is written -/

/-- `visitCaseStmt` 1606–1611: the last statement of the body is a `return`. -/
def endsInReturn : Stmt Prim → Bool
  | .ret _ => true
  | .seq _ b => endsInReturn b
  | _ => false

/-- `switchStmt.defaultCase` is set (`sema/switch.c`). -/
def hasDefault : Cases Prim → Bool
  | .nil => false
  | .cons none _ _ => true
  | .cons (some _) _ rest => hasDefault rest

/-- Labelled statements behind one another. -/
def CCases.append : CCases Prim → CCases Prim → CCases Prim
  | .nil, d => d
  | .cons v b r, d => .cons v b (r.append d)

/-- `case v: { body break; }`, without the `break` if the body ends in `return` (1604–1611). -/
def caseBody (body : Stmt Prim) (c : CStmt Prim) : CStmt Prim := if endsInReturn body then c else .seq c .brk

/-- The `default` of a `switch` that has none (1558–1563): `unreachable(...)` is `abort()` in the prologue of the file. -/
def addDefault (cs : Cases Prim) (c : CCases Prim) : CCases Prim :=
  if hasDefault cs then c else c.append (.cons none .abort .nil)

mutual
/-- The C statements for a statement, with `ctx->loopUpdate`, the number of the next label, and whether `loopUpdateUsed` was set. -/
def gen (lu : Option Nat) (n : Nat) : Stmt Prim → CStmt Prim × Nat × Bool
  | .skip => (.skip, n, false)
  | .seq a b =>
    (.seq (gen lu n a).1 (gen lu (gen lu n a).2.1 b).1, (gen lu (gen lu n a).2.1 b).2.1,
      (gen lu n a).2.2 || (gen lu (gen lu n a).2.1 b).2.2)
  | .expr e => (.expr e, n, false)
  | .ite c a b =>
    (.ite c (gen lu n a).1 (gen lu (gen lu n a).2.1 b).1, (gen lu (gen lu n a).2.1 b).2.1,
      (gen lu n a).2.2 || (gen lu (gen lu n a).2.1 b).2.2)
  | .while c body none => (.while c (gen none n body).1 none none, (gen none n body).2.1, false)
  | .while c body (some e) =>
    (.while c (gen (some n) (n + 1) body).1 (if (gen (some n) (n + 1) body).2.2 then some n else none) (some e),
      (gen (some n) (n + 1) body).2.1, false)
  | .switch c cases => (.switch c (addDefault cases (genCases lu n cases).1), (genCases lu n cases).2.1, (genCases lu n cases).2.2)
  | .brk => (.brk, n, false)
  | .cont =>
    match lu with
    | some l => (.goto l, n, true)
    | none => (.cont, n, false)
  | .ret e => (.ret e, n, false)
def genCases (lu : Option Nat) (n : Nat) : Cases Prim → CCases Prim × Nat × Bool
  | .nil => (.nil, n, false)
  | .cons v body rest =>
    (.cons v (caseBody body (gen lu n body).1) (genCases lu (gen lu n body).2.1 rest).1, (genCases lu (gen lu n body).2.1 rest).2.1,
      (gen lu n body).2.2 || (genCases lu (gen lu n body).2.1 rest).2.2)
end

end Verif.CFlow
