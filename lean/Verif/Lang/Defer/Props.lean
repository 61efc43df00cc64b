import Verif.Lang.Defer.Model
/-! # C29, C86: deferred statements

The specification is a semantics of programs with `defer`: a block remembers the deferred statements it has executed and
performs them, last first, however it is left.  `early` says when the operand of a `return` is computed: at once, or
after the deferred statements. -/
namespace Verif.Defer

mutual
def exec (early : Bool) (fuel : Nat) : Stmt → State → Option (End × State)
  | .act a, s => some (.next, s.emit [a])
  | .noop, s => some (.next, s)
  | .defer d, s => some (.next, s.emit [d])
  | .block ss, s => execAll early fuel ss [] s
  | .cond a b, s => if s.choose.1 = 0 then execAll early fuel b [] s.choose.2 else execAll early fuel a [] s.choose.2
  | .loop b, s => iter (execAll early fuel b []) fuel s
  | .switch cs, s => execCase early fuel cs s.choose.1 s.choose.2
  | .brk, s => some (.brk, s)
  | .cont, s => some (.cont, s)
  | .ret e, s => if early then some (.ret none, s.emit e.toList) else some (.ret e, s)
def execCase (early : Bool) (fuel : Nat) : List Stmt → Nat → State → Option (End × State)
  | [], _, s => some (.next, s)
  | c :: _, 0, s => exec early fuel c s
  | _ :: cs, n + 1, s => execCase early fuel cs n s
/-- A block with the deferred statements it has executed so far. -/
def execAll (early : Bool) (fuel : Nat) : List Stmt → List Nat → State → Option (End × State)
  | [], ds, s => some (.next, s.emit ds.reverse)
  | .defer d :: ts, ds, s => execAll early fuel ts (ds ++ [d]) s
  | t :: ts, ds, s => match exec early fuel t s with
    | none => none
    | some (.next, s) => execAll early fuel ts ds s
    | some (o, s) => some (o, s.emit ds.reverse)
end

/-- The actions of a function body, the operand of a `return` last unless it has been computed already. -/
def actions (r : Option (End × State)) : Option (List Nat) :=
  r.map fun x => match x.1 with
    | .ret (some e) => x.2.trace ++ [e]
    | _ => x.2.trace

mutual
/-- Every body of a switch case is a block, or at least not a single `defer`, `break`, `continue` or `return`. -/
def Good : Stmt → Prop
  | .block ss => GoodAll ss
  | .cond a b => GoodAll a ∧ GoodAll b
  | .loop b => GoodAll b
  | .switch cs => GoodCases cs
  | .brk => True
  | .cont => True
  | .act _ => True
  | .noop => True
  | .defer _ => True
  | .ret _ => True
def GoodAll : List Stmt → Prop
  | [] => True
  | t :: ts => Good t ∧ GoodAll ts
def GoodCases : List Stmt → Prop
  | [] => True
  | .defer _ :: _ => False
  | .brk :: _ => False
  | .cont :: _ => False
  | .ret _ :: _ => False
  | c :: cs => Good c ∧ GoodCases cs
end

/-- How the two executions of a piece of program correspond: the generated one has already performed the deferred
statements of the blocks around that are left as well. -/
def Sim (P Q : List Nat) : Option (End × State) → Option (End × State) → Prop
  | none, r => r = none
  | some (.next, s), r => r = some (.next, s)
  | some (.brk, s), r => r = some (.brk, s.emit P)
  | some (.cont, s), r => r = some (.cont, s.emit P)
  | some (.ret e, s), r => r = some (.ret none, s.emit (Q ++ e.toList))
  | some (.leftover, _), _ => False

theorem emit_emit (s : State) (a b : List Nat) : (s.emit a).emit b = s.emit (a ++ b) := by
  simp [State.emit]

theorem emit_nil (s : State) : s.emit [] = s := by simp [State.emit]

theorem runAll_acts (fuel : Nat) : ∀ (as : List Nat) (ts : List Stmt) (s : State),
    runAll fuel (as.map .act ++ ts) s = runAll fuel ts (s.emit as)
  | [], ts, s => by simp [emit_nil]
  | a :: as, ts, s => by
    simp only [List.map_cons, List.cons_append, runAll, run]
    rw [runAll_acts fuel as ts, emit_emit]
    rfl

/-- What is pending outside a block on the way to the loop. -/
def outer (isLoop : Bool) (env : List (Scope × Bool)) : List Nat := if isLoop then [] else toLoop env

theorem iter_sim (Q : List Nat) (f g : State → Option (End × State)) (h : ∀ s, Sim [] Q (f s) (g s)) :
    ∀ n P s, Sim P Q (iter f n s) (iter g n s)
  | 0, P, s => by simp [iter, Sim]
  | n + 1, P, s => by
    unfold iter
    simp only []
    by_cases hc : s.choose.1 = 0
    · rw [if_pos hc, if_pos hc]; simp [Sim]
    · rw [if_neg hc, if_neg hc]
      have hs := h s.choose.2
      cases hf : f s.choose.2 with
      | none => rw [hf] at hs; simp only [Sim] at hs; rw [hs]; simp [Sim]
      | some r =>
        obtain ⟨o, x⟩ := r
        rw [hf] at hs
        cases o with
        | next => simp only [Sim] at hs; rw [hs]; exact iter_sim Q f g h n P x
        | brk => simp only [Sim] at hs; rw [hs]; simp [Sim, emit_nil]
        | cont => simp only [Sim] at hs; rw [hs, emit_nil]; exact iter_sim Q f g h n P x
        | ret e => simp only [Sim] at hs; rw [hs]; simp [Sim]
        | leftover => exact hs.elim

/-- Not one of the statements that touch the scope of the block. -/
def Plain : Stmt → Prop
  | .defer _ => False
  | .brk => False
  | .cont => False
  | .ret _ => False
  | _ => True

theorem runAll_one (fuel : Nat) (t : Stmt) (ts : List Stmt) (s : State) :
    runAll fuel (keep t ++ ts) s = runAll fuel (t :: ts) s := by
  cases t with
  | noop => simp [keep, runAll, run]
  | _ => rfl

theorem toLoop_cons (ds : List Nat) (isLoop : Bool) (env : List (Scope × Bool)) :
    toLoop ((⟨ds, false⟩, isLoop) :: env) = ds.reverse ++ outer isLoop env := by
  cases isLoop <;> simp [toLoop, outer, sealIfNeeded, sealInto]

theorem toRoot_cons (ds : List Nat) (isLoop : Bool) (env : List (Scope × Bool)) :
    toRoot ((⟨ds, false⟩, isLoop) :: env) = ds.reverse ++ toRoot env := by
  simp [toRoot, sealIfNeeded, sealInto]

theorem outer_cons (ds : List Nat) (isLoop : Bool) (env : List (Scope × Bool)) :
    outer false ((⟨ds, false⟩, isLoop) :: env) = ds.reverse ++ outer isLoop env := by
  simp [outer, toLoop_cons]

theorem execAll_plain (early : Bool) (fuel : Nat) (t : Stmt) (ts : List Stmt) (ds : List Nat) (s : State) (h : ∀ d, t ≠ .defer d) :
    execAll early fuel (t :: ts) ds s = match exec early fuel t s with
      | none => none
      | some (.next, s) => execAll early fuel ts ds s
      | some (o, s) => some (o, s.emit ds.reverse) := by
  cases t <;> first | rfl | exact absurd rfl (h _) | (simp only [execAll]; rfl)

mutual
theorem visit_sim (fuel : Nat) (env : List (Scope × Bool)) (isLoop : Bool) : ∀ (t : Stmt) (ds : List Nat) (s : State),
    Plain t → Good t →
    (visit env isLoop t ⟨ds, false⟩).2 = (⟨ds, false⟩, []) ∧
      Sim (ds.reverse ++ outer isLoop env) (ds.reverse ++ toRoot env) (exec false fuel t s) (run fuel (visit env isLoop t ⟨ds, false⟩).1 s)
  | .act a, ds, s, _, _ => by simp [visit, exec, run, Sim]
  | .noop, ds, s, _, _ => by simp [visit, exec, run, Sim]
  | .block ss, ds, s, _, hg => by
    have h := visitAll_sim fuel ((⟨ds, false⟩, isLoop) :: env) false ss [] s hg
    rw [outer_cons, toRoot_cons] at h
    exact ⟨by simp [visit], by simpa [visit, exec, run] using h⟩
  | .cond a b, ds, s, _, hg => by
    have ha := visitAll_sim fuel ((⟨ds, false⟩, isLoop) :: env) false a [] s.choose.2 hg.1
    have hb := visitAll_sim fuel ((⟨ds, false⟩, isLoop) :: env) false b [] s.choose.2 hg.2
    refine ⟨by simp [visit], ?_⟩
    simp only [visit, exec, run]
    split
    · rw [outer_cons, toRoot_cons] at hb; exact hb
    · rw [outer_cons, toRoot_cons] at ha; exact ha
  | .loop b, ds, s, _, hg => by
    refine ⟨by simp [visit], ?_⟩
    simp only [visit, exec, run]
    refine iter_sim _ _ _ (fun x => ?_) _ _ _
    have h := visitAll_sim fuel ((⟨ds, false⟩, isLoop) :: env) true b [] x hg
    rw [toRoot_cons] at h
    exact h
  | .switch cs, ds, s, _, hg => by
    have h := visitCases_sim fuel env isLoop cs ds s.choose.1 s.choose.2 hg
    have e : visit env isLoop (.switch cs) ⟨ds, false⟩ =
        (.switch (visitCases env isLoop cs ⟨ds, false⟩ []).1, ⟨ds, false⟩, []) := by
      simp only [visit]
      rw [show (visitCases env isLoop cs ⟨ds, false⟩ []).2.1 = ⟨ds, false⟩ by rw [h.1],
        show (visitCases env isLoop cs ⟨ds, false⟩ []).2.2 = [] by rw [h.1]]
    rw [e]
    exact ⟨rfl, h.2⟩
theorem visitCases_sim (fuel : Nat) (env : List (Scope × Bool)) (isLoop : Bool) : ∀ (cs : List Stmt) (ds : List Nat) (n : Nat) (s : State),
    GoodCases cs →
    (visitCases env isLoop cs ⟨ds, false⟩ []).2 = (⟨ds, false⟩, []) ∧
      Sim (ds.reverse ++ outer isLoop env) (ds.reverse ++ toRoot env) (execCase false fuel cs n s)
        (runCase fuel (visitCases env isLoop cs ⟨ds, false⟩ []).1 n s)
  | [], ds, n, s, _ => by simp [visitCases, execCase, runCase, Sim]
  | c :: cs, ds, n, s, hg => by
    have hpc : Plain c ∧ Good c ∧ GoodCases cs := by
      cases c <;> simp [GoodCases, Plain] at hg ⊢ <;> exact hg
    obtain ⟨hp, hgc, hgcs⟩ := hpc
    have hv := visit_sim fuel env isLoop c ds s hp hgc
    have hr := visitCases_sim fuel env isLoop cs ds (n - 1) s hgcs
    have e1 : visit env isLoop c ⟨ds, false⟩ = ((visit env isLoop c ⟨ds, false⟩).1, ⟨ds, false⟩, []) := by
      rw [← hv.1]
    have e2 : visitCases env isLoop cs ⟨ds, false⟩ [] = ((visitCases env isLoop cs ⟨ds, false⟩ []).1, ⟨ds, false⟩, []) := by
      rw [← hr.1]
    have e3 : visitCases env isLoop (c :: cs) ⟨ds, false⟩ [] =
        ((visit env isLoop c ⟨ds, false⟩).1 :: (visitCases env isLoop cs ⟨ds, false⟩ []).1, ⟨ds, false⟩, []) := by
      rw [visitCases, e1]
      simp only [if_true]
      rw [e2]
    rw [e3]
    refine ⟨rfl, ?_⟩
    cases n with
    | zero => simpa [execCase, runCase] using hv.2
    | succ n => simpa [execCase, runCase] using hr.2
theorem visitAll_sim (fuel : Nat) (env : List (Scope × Bool)) (isLoop : Bool) : ∀ (ts : List Stmt) (ds : List Nat) (s : State),
    GoodAll ts →
      Sim (outer isLoop env) (toRoot env) (execAll false fuel ts ds s) (runAll fuel (visitAll env isLoop ts ⟨ds, false⟩) s)
  | [], ds, s, _ => by
    have h := runAll_acts fuel ds.reverse [] s
    simp only [List.append_nil] at h
    simp only [visitAll, execAll, sealIfNeeded, sealInto, Bool.false_eq_true, if_false]
    rw [h]
    simp [Sim, runAll]
  | t :: ts, ds, s, hg => by
    rw [visitAll]
    simp only [Bool.false_eq_true, if_false]
    by_cases hp : Plain t
    · obtain ⟨h1, h2⟩ := visit_sim fuel env isLoop t ds s hp hg.1
      have e : visit env isLoop t ⟨ds, false⟩ = ((visit env isLoop t ⟨ds, false⟩).1, ⟨ds, false⟩, []) := by rw [← h1]
      rw [show (visit env isLoop t ⟨ds, false⟩).2.2 = [] by rw [h1],
        show (visit env isLoop t ⟨ds, false⟩).2.1 = ⟨ds, false⟩ by rw [h1]]
      rw [List.map_nil, List.nil_append, runAll_one, runAll]
      rw [execAll_plain _ _ _ _ _ _ (fun d hd => by subst hd; exact hp)]
      have ih := fun x => visitAll_sim fuel env isLoop ts ds x hg.2
      cases hx : exec false fuel t s with
      | none => rw [hx] at h2; simp only [Sim] at h2; rw [h2]; simp [Sim]
      | some r =>
        obtain ⟨o, x⟩ := r
        rw [hx] at h2
        cases o with
        | next => simp only [Sim] at h2; rw [h2]; exact ih x
        | brk => simp only [Sim] at h2; rw [h2]; simp [Sim, emit_emit]
        | cont => simp only [Sim] at h2; rw [h2]; simp [Sim, emit_emit]
        | ret e => simp only [Sim] at h2; rw [h2]; simp [Sim, emit_emit]
        | leftover => exact h2.elim
    · cases t with
      | defer d => simpa [visit, execAll, keep] using visitAll_sim fuel env isLoop ts (ds ++ [d]) s hg.2
      | brk =>
        simp only [visit, toLoop_cons, List.append_assoc]
        rw [runAll_acts, execAll_plain _ _ _ _ _ _ (fun d hd => by cases hd)]
        simp [exec, Sim, keep, runAll, run, emit_emit]
      | cont =>
        simp only [visit, toLoop_cons, List.append_assoc]
        rw [runAll_acts, execAll_plain _ _ _ _ _ _ (fun d hd => by cases hd)]
        simp [exec, Sim, keep, runAll, run, emit_emit]
      | ret e =>
        simp only [visit, toRoot_cons, List.append_assoc]
        rw [runAll_acts, execAll_plain _ _ _ _ _ _ (fun d hd => by cases hd)]
        simp [exec, Sim, keep, runAll, run, emit_emit]
      | _ => exact absurd trivial hp
end

/-- **C29, where it holds.**  Every execution of the rewritten function performs the actions of the function with its
deferred statements, in the same order, provided no switch case consists of a bare `defer`, `break`, `continue` or `return`.
The operand of a `return` counts as computed after the deferred statements; C86 is about that.  (The full statement
has no proviso; see `bare_return_in_case`.) -/
theorem defers_run_partial (fuel : Nat) (body : List Stmt) (choices : List Nat) (h : GoodAll body) :
    actions (runAll fuel (rewrite body) ⟨[], choices⟩) = actions (execAll false fuel body [] ⟨[], choices⟩) := by
  have hs := visitAll_sim fuel [] false body [] ⟨[], choices⟩ h
  unfold rewrite
  cases hx : execAll false fuel body [] ⟨[], choices⟩ with
  | none => rw [hx] at hs; simp only [Sim] at hs; rw [hs]
  | some r =>
    obtain ⟨o, x⟩ := r
    rw [hx] at hs
    cases o with
    | next => simp only [Sim] at hs; rw [hs]
    | brk => simp only [Sim] at hs; rw [hs]; simp [actions, outer, toLoop, emit_nil]
    | cont => simp only [Sim] at hs; rw [hs]; simp [actions, outer, toLoop, emit_nil]
    | ret e =>
      simp only [Sim] at hs; rw [hs]
      cases e <;> simp [actions, toRoot, State.emit]
    | leftover => exact hs.elim

/-- `defer 1; while (..) { defer 2; if (..) { defer 3; continue } else { return } act 9 }`, one round that continues and one that
returns. -/
example :
    let body : List Stmt := [.defer 1, .loop [.defer 2, .cond [.defer 3, .cont] [.ret (some 7)], .act 9]]
    GoodAll body ∧ actions (runAll 5 (rewrite body) ⟨[], [1, 1, 1, 0]⟩) = some [3, 2, 2, 1, 7] := by
  refine ⟨by simp [GoodAll, Good], by decide⟩

/-- **C29 fails** for a switch case that is a bare `return`.  For all statements `d` and `a`, in
`defer d; switch (..) { case .. => return } a`, if the case is not taken, `d` runs before `a` instead of after it. -/
theorem bare_return_in_case (fuel d a : Nat) (choices : List Nat) :
    let body : List Stmt := [.defer d, .switch [.ret none], .act a]
    actions (execAll false fuel body [] ⟨[], 1 :: choices⟩) = some [a, d] ∧
    actions (runAll fuel (rewrite body) ⟨[], 1 :: choices⟩) = some [d, a] := by
  simp [rewrite, visitAll, visit, keep, visitCases, execAll, exec, execCase, runAll, run, runCase, State.choose, State.emit, actions,
    toRoot, sealIfNeeded, sealInto]

mutual
/-- No `return` with an operand. -/
def NoOperand : Stmt → Prop
  | .block ss => NoOperands ss
  | .cond a b => NoOperands a ∧ NoOperands b
  | .loop b => NoOperands b
  | .switch cs => NoOperands cs
  | .ret e => e = none
  | _ => True
def NoOperands : List Stmt → Prop
  | [] => True
  | t :: ts => NoOperand t ∧ NoOperands ts
end

mutual
theorem exec_early (fuel : Nat) : ∀ (t : Stmt) (s : State), NoOperand t → exec true fuel t s = exec false fuel t s
  | .act _, _, _ => by simp [exec]
  | .noop, _, _ => by simp [exec]
  | .defer _, _, _ => by simp [exec]
  | .brk, _, _ => by simp [exec]
  | .cont, _, _ => by simp [exec]
  | .ret e, s, h => by simp only [NoOperand] at h; subst h; simp [exec, emit_nil]
  | .block ss, s, h => by simp only [exec]; exact execAll_early fuel ss [] s h
  | .cond a b, s, h => by simp only [exec]; rw [execAll_early fuel a [] _ h.1, execAll_early fuel b [] _ h.2]
  | .loop b, s, h => by
    simp only [exec]
    rw [show execAll true fuel b [] = execAll false fuel b [] from funext (fun x => execAll_early fuel b [] x h)]
  | .switch cs, s, h => by simp only [exec]; exact execCase_early fuel cs _ _ h
theorem execCase_early (fuel : Nat) : ∀ (cs : List Stmt) (n : Nat) (s : State), NoOperands cs →
    execCase true fuel cs n s = execCase false fuel cs n s
  | [], _, _, _ => by simp [execCase]
  | c :: _, 0, s, h => by simp only [execCase]; exact exec_early fuel c s h.1
  | _ :: cs, n + 1, s, h => by simp only [execCase]; exact execCase_early fuel cs n s h.2
theorem execAll_early (fuel : Nat) : ∀ (ts : List Stmt) (ds : List Nat) (s : State), NoOperands ts →
    execAll true fuel ts ds s = execAll false fuel ts ds s
  | [], _, _, _ => by simp [execAll]
  | t :: ts, ds, s, h => by
    by_cases hd : ∃ d, t = .defer d
    · obtain ⟨d, rfl⟩ := hd
      simp only [execAll]
      exact execAll_early fuel ts _ s h.2
    · have hd : ∀ d, t ≠ .defer d := fun d hd' => hd ⟨d, hd'⟩
      rw [execAll_plain _ _ _ _ _ _ hd, execAll_plain _ _ _ _ _ _ hd, exec_early fuel t s h.1]
      have ih := fun x => execAll_early fuel ts ds x h.2
      cases exec false fuel t s with
      | none => rfl
      | some r =>
        obtain ⟨o, x⟩ := r
        cases o <;> simp only [] <;> exact ih x
end

/-- **C86, where it holds**: a function whose returns have no operands behaves as if operands were computed before the
deferred statements. -/
theorem operand_first_partial (fuel : Nat) (body : List Stmt) (choices : List Nat) (h : GoodAll body) (hn : NoOperands body) :
    actions (runAll fuel (rewrite body) ⟨[], choices⟩) = actions (execAll true fuel body [] ⟨[], choices⟩) := by
  rw [defers_run_partial fuel body choices h, execAll_early fuel body [] _ hn]

/-- **C86 fails** for every `defer d; return e`: `d` runs before `e` is computed. -/
theorem operand_after_defers (fuel d e : Nat) (choices : List Nat) :
    actions (execAll true fuel [.defer d, .ret (some e)] [] ⟨[], choices⟩) = some [e, d] ∧
    actions (runAll fuel (rewrite [.defer d, .ret (some e)]) ⟨[], choices⟩) = some [d, e] := by
  simp [rewrite, visitAll, visit, keep, execAll, exec, runAll, run, State.emit, actions, toRoot, sealIfNeeded, sealInto]

/-- `defer 1; if (..) { defer 2; return }; act 3`. -/
example :
    let body : List Stmt := [.defer 1, .cond [.defer 2, .ret none] [], .act 3]
    GoodAll body ∧ NoOperands body ∧ actions (runAll 5 (rewrite body) ⟨[], [1]⟩) = some [2, 1] ∧
      actions (runAll 5 (rewrite body) ⟨[], [0]⟩) = some [3, 1] := by
  refine ⟨by simp [GoodAll, Good], by simp [NoOperands, NoOperand], by decide, by decide⟩

end Verif.Defer
