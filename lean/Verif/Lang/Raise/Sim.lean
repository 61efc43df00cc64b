import Verif.Lang.Raise.Exprs
/-!
# Statements: the compiled statement does what the statement means
-/
namespace Verif.Raise

/-- The temporaries below `lo` are as before, except `yv`. -/
def Fr (lo yv : Nat) (t0 t : LSt) : Prop := ∀ j, j < lo → j ≠ yv → t.tmp j = t0.tmp j

/-- Same variables, same calls. -/
def Er (s : St) (t : LSt) : Prop := s.loc = t.loc ∧ s.tr = t.tr

/-- The endings correspond; what was yielded is in the temporary `yv`. -/
def Sim (lo yv : Nat) (t0 : LSt) : Out St → Out LSt → Prop
  | .normal s, .normal t => Er s t ∧ Fr lo yv t0 t
  | .brk s, .brk t => Er s t ∧ Fr lo yv t0 t
  | .cont s, .cont t => Er s t ∧ Fr lo yv t0 t
  | .ret v tr, .ret v' tr' => v = v' ∧ tr = tr'
  | .exc e tr, .exc e' tr' => e = e' ∧ tr = tr'
  | .yld v s, .normal t => Er s t ∧ Fr lo yv t0 t ∧ t.tmp yv = some (.ok v)
  | .more, .more => True
  | _, _ => False

theorem Fr.trans {lo lo' yv : Nat} {t0 t1 t2 : LSt} (h1 : Fr lo yv t0 t1) (hle : lo ≤ lo') (h2 : Fr lo' yv t1 t2) :
    Fr lo yv t0 t2 := fun j hj hn => (h2 j (Nat.lt_of_lt_of_le hj hle) hn).trans (h1 j hj hn)

theorem Sim.trans {lo lo' yv : Nat} {t0 t1 : LSt} {o : Out St} {o' : Out LSt} (h1 : Fr lo yv t0 t1) (hle : lo ≤ lo')
    (h2 : Sim lo' yv t1 o o') : Sim lo yv t0 o o' := by
  cases o <;> cases o' <;> simp only [Sim] at h2 ⊢ <;> try exact h2
  all_goals first
    | exact ⟨h2.1, h1.trans hle h2.2⟩
    | exact ⟨h2.1, h1.trans hle h2.2.1, h2.2.2⟩

/-- Evaluating an expression first. -/
theorem Good.sim {W : World} {α : Type} {ev : (Nat → Int) → Trace → Ev α}
    {evL : (Nat → Int) → (Nat → Option (Except Exc Int)) → Trace → Option (α × Trace)}
    {calm risky : Bool} {h : LStmt} {lo hi : Nat} (G : Good W ev evL calm risky h lo hi) (n yv : Nat) (t : LSt) (s' : LStmt)
    (K : α → Trace → Out St)
    (hK : ∀ v tr t1, t1.loc = t.loc → (∀ j, j < lo → t1.tmp j = t.tmp j) → evL t.loc t1.tmp t1.tr = some (v, tr) →
      Sim lo yv t (K v tr) (execL W n s' t1)) :
    Sim lo yv t (withE (ev t.loc t.tr) K) (execL W n (.seq h s') t) := by
  cases hev : ev t.loc t.tr with
  | mk r tr =>
    cases r with
    | error e => simp [withE, execL, G.exc n t e tr hev, Sim]
    | ok v =>
      obtain ⟨t1, e1, l1, b1, v1, _⟩ := G.ok n t v tr hev
      simp only [withE, execL, e1]
      exact hK v tr t1 l1 b1 (v1 t1.tmp (fun _ _ _ => rfl))

/-- Loops. -/
theorem iter_sim {lo yv : Nat} {step : St → Out St} {stepL : LSt → Out LSt} {t0 : LSt}
    (hs : ∀ s t, Er s t → Fr lo yv t0 t → Sim lo yv t0 (step s) (stepL t)) (hy : ∀ s v s', step s ≠ .yld v s') :
    ∀ n s t, Er s t → Fr lo yv t0 t → Sim lo yv t0 (iter step n s) (iter stepL n t) := by
  intro n
  induction n with
  | zero => intro s t _ _; simp [iter, Sim]
  | succ n ih =>
    intro s t he hf
    have h1 := hs s t he hf
    have h2 := hy s
    simp only [iter]
    cases ho : step s <;> cases ho' : stepL t <;> rw [ho, ho'] at h1 <;> simp only [Sim] at h1 ⊢
    all_goals first
      | exact ih _ _ h1.1 h1.2
      | exact h1
      | (exact absurd ho (h2 _ _))

/-- A statement without `yield` does not yield. -/
theorem exec_noYield (S : Sig) (W : World) (n : Nat) : ∀ (a : Stmt) (cur : Option Exc) (s : St) (v : Int) (s' : St),
    a.noYield = true → exec S W n cur a s ≠ .yld v s' := by
  intro a
  induction a with
  | skip => intro cur s v s' _ h; simp [exec] at h
  | seq a b iha ihb =>
    intro cur s v s' hn h
    simp only [Stmt.noYield, Bool.and_eq_true] at hn
    simp only [exec] at h
    split at h
    · exact ihb _ _ _ _ hn.2 h
    · exact iha _ _ _ _ hn.1 h
  | expr e =>
    intro cur s v s' _ h
    simp only [exec, withE] at h
    split at h <;> cases h
  | assign x e =>
    intro cur s v s' _ h
    simp only [exec, withE] at h
    split at h <;> cases h
  | catchDo f as hd ih =>
    intro cur s v s' _ h
    simp only [exec, withE] at h
    split at h
    · split at h
      · cases h
      · split at h
        · cases h
        · rename_i hne; exact hne _ _ h
    · cases h
  | catchSet x f as hd ih =>
    intro cur s v s' _ h
    simp only [exec, withE] at h
    split at h
    · split at h
      · cases h
      · split at h
        · cases h
        · cases h
        · rename_i hne _; exact hne _ _ h
    · cases h
  | ite c t e iht ihe =>
    intro cur s v s' hn h
    simp only [Stmt.noYield, Bool.and_eq_true] at hn
    simp only [exec, withE] at h
    split at h
    · split at h
      · exact iht _ _ _ _ hn.1 h
      · exact ihe _ _ _ _ hn.2 h
    · cases h
  | loop c b ih =>
    intro cur s v s' hn h
    simp only [Stmt.noYield] at hn
    simp only [exec] at h
    suffices ∀ m s, iter (fun s => withE (evalE S W s.loc c s.tr) fun v tr =>
        if v ≠ 0 then exec S W n cur b { s with tr := tr } else .brk { s with tr := tr }) m s ≠ .yld v s' from this n s h
    intro m
    induction m with
    | zero => intro s h; simp [iter] at h
    | succ m ihm =>
      intro s h
      simp only [iter] at h
      split at h
      · exact ihm _ h
      · exact ihm _ h
      · cases h
      · simp only [withE] at h
        split at h
        · split at h
          · exact ih _ _ _ _ hn h
          · cases h
        · cases h
  | brk => intro cur s v s' _ h; simp [exec] at h
  | cont => intro cur s v s' _ h; simp [exec] at h
  | ret e =>
    intro cur s v s' _ h
    simp only [exec, withE] at h
    split at h <;> cases h
  | retVoid => intro cur s v s' _ h; simp [exec] at h
  | raise e =>
    intro cur s v s' _ h
    simp only [exec, withE] at h
    split at h <;> cases h
  | reraise =>
    intro cur s v s' _ h
    simp only [exec] at h
    split at h <;> cases h
  | yield e => intro cur s v s' hn; simp [Stmt.noYield] at hn

/-- A handler that settles does not come to its end without a value. -/
theorem exec_settles (S : Sig) (W : World) (n : Nat) : ∀ (a : Stmt) (cur : Option Exc) (s s' : St),
    a.settles = true → exec S W n cur a s ≠ .normal s' := by
  intro a
  induction a with
  | seq a b iha ihb =>
    intro cur s s' hn h
    simp only [Stmt.settles] at hn
    simp only [exec] at h
    split at h
    · exact ihb _ _ _ hn h
    · rename_i hne; exact hne _ h
  | ite c t e iht ihe =>
    intro cur s s' hn h
    simp only [Stmt.settles, Bool.and_eq_true] at hn
    simp only [exec, withE] at h
    split at h
    · split at h
      · exact iht _ _ _ hn.1 h
      · exact ihe _ _ _ hn.2 h
    · cases h
  | brk => intro cur s s' _ h; simp [exec] at h
  | cont => intro cur s s' _ h; simp [exec] at h
  | ret e =>
    intro cur s s' _ h
    simp only [exec, withE] at h
    split at h <;> cases h
  | retVoid => intro cur s s' _ h; simp [exec] at h
  | raise e =>
    intro cur s s' _ h
    simp only [exec, withE] at h
    split at h <;> cases h
  | reraise =>
    intro cur s s' _ h
    simp only [exec] at h
    split at h <;> cases h
  | yield e =>
    intro cur s s' _ h
    simp only [exec, withE] at h
    split at h <;> cases h
  | _ => intro cur s s' hn; simp [Stmt.settles] at hn

/-- A statement that is not a call. -/
theorem lowerS_expr {S : Sig} {env : Env} {e : Expr} {cx : Cx} (he : ∀ f as, e ≠ .call f as) :
    lowerS S env (.expr e) cx =
      (lowerE S env.flag e cx.next).bind fun p => some (p.1, .expr p.2.1, { cx with next := p.2.2 }) := by
  cases e <;> first | rfl | exact absurd rfl (he _ _)

/-- A `return` of something that is not a call. -/
theorem lowerS_ret {S : Sig} {env : Env} {e : Expr} {cx : Cx} (he : ∀ f as, e ≠ .call f as) :
    lowerS S env (.ret e) cx =
      if S.selfVoid then none
      else (lowerE S env.flag e cx.next).bind fun p => some (p.1, .ret p.2.1, { cx with next := p.2.2, ret := true }) := by
  cases e <;> first | rfl | exact absurd rfl (he _ _)

/-- There is a `_Tres` when, and only when, the handler yields. -/
theorem lowerS_yielded (S : Sig) : ∀ (s : Stmt) (env : Env) (cx : Cx) (h s' : LStmt) (cx' : Cx),
    lowerS S env s cx = some (h, s', cx') → cx'.yielded = (cx.yielded || !s.noYield) := by
  intro s
  induction s with
  | skip => intro env cx h s' cx' hl; simp only [lowerS, Option.some.injEq, Prod.mk.injEq] at hl; simp [← hl.2.2, Stmt.noYield]
  | seq a b iha ihb =>
    intro env cx h s' cx' hl
    simp only [lowerS, Option.bind_eq_bind, Option.bind_eq_some_iff, Prod.exists] at hl
    obtain ⟨ha, a', cx1, hla, hl⟩ := hl
    split at hl
    · cases hl
    simp only [Option.bind_eq_some_iff, Prod.exists, Option.some.injEq, Prod.mk.injEq] at hl
    obtain ⟨hb, b', cx2, hlb, _, _, rfl⟩ := hl
    rw [ihb _ _ _ _ _ hlb, iha _ _ _ _ _ hla]
    simp [Stmt.noYield, Bool.not_and, Bool.or_assoc]
  | expr e =>
    intro env cx h s' cx' hl
    by_cases he : ∃ f as, e = .call f as
    · obtain ⟨f, as, rfl⟩ := he
      simp only [lowerS, Option.bind_eq_bind, Option.bind_eq_some_iff, Prod.exists] at hl
      obtain ⟨ha, as', k, hla, hl⟩ := hl
      split at hl
      · split at hl
        · simp only [Option.some.injEq, Prod.mk.injEq] at hl
          simp [← hl.2.2, Stmt.noYield]
        · split at hl
          · cases hl
          · simp only [Option.some.injEq, Prod.mk.injEq] at hl
            simp [← hl.2.2, Stmt.noYield]
      · simp only [Option.some.injEq, Prod.mk.injEq] at hl
        simp [← hl.2.2, Stmt.noYield]
    · rw [lowerS_expr (fun f as h => he ⟨f, as, h⟩)] at hl
      simp only [Option.bind_eq_some_iff, Prod.exists, Option.some.injEq, Prod.mk.injEq] at hl
      obtain ⟨_, _, _, _, _, _, rfl⟩ := hl
      simp [Stmt.noYield]
  | assign x e =>
    intro env cx h s' cx' hl
    simp only [lowerS, Option.bind_eq_bind, Option.bind_eq_some_iff, Prod.exists, Option.some.injEq, Prod.mk.injEq] at hl
    obtain ⟨_, _, _, _, _, _, rfl⟩ := hl
    simp [Stmt.noYield]
  | catchDo f as hd ih =>
    intro env cx h s' cx' hl
    simp only [lowerS, Option.bind_eq_bind, Option.bind_eq_some_iff, Prod.exists] at hl
    obtain ⟨ha, as', k, hla, hl⟩ := hl
    split at hl
    · cases hl
    simp only [Option.bind_eq_some_iff, Prod.exists] at hl
    obtain ⟨hh, h', cx1, hlh, hl⟩ := hl
    split at hl
    · cases hl
    simp only [Option.some.injEq, Prod.mk.injEq] at hl
    simp [← hl.2.2, Stmt.noYield]
  | catchSet x f as hd ih =>
    intro env cx h s' cx' hl
    simp only [lowerS, Option.bind_eq_bind, Option.bind_eq_some_iff, Prod.exists] at hl
    obtain ⟨ha, as', k, hla, hl⟩ := hl
    split at hl
    · cases hl
    simp only [Option.bind_eq_some_iff, Prod.exists] at hl
    obtain ⟨hh, h', cx1, hlh, hl⟩ := hl
    split at hl
    · cases hl
    simp only [Option.some.injEq, Prod.mk.injEq] at hl
    simp [← hl.2.2, Stmt.noYield]
  | ite c t e iht ihe =>
    intro env cx h s' cx' hl
    simp only [lowerS, Option.bind_eq_bind, Option.bind_eq_some_iff, Prod.exists] at hl
    obtain ⟨hc, c', k, hlc, ht, t', cx1, hlt, hl⟩ := hl
    have h1 := iht _ _ _ _ _ hlt
    split at hl
    · rename_i hsk
      have : e = .skip := by cases e <;> simp [Stmt.isSkip] at hsk; rfl
      subst this
      simp only [Option.some.injEq, Prod.mk.injEq] at hl
      simp [← hl.2.2, Stmt.noYield, h1]
    · simp only [Option.bind_eq_some_iff, Prod.exists] at hl
      obtain ⟨he, e', cx2, hle, hl⟩ := hl
      have h2 := ihe _ _ _ _ _ hle
      split at hl
      · simp only [Option.some.injEq, Prod.mk.injEq] at hl
        simp [← hl.2.2, Stmt.noYield, h1, h2, Bool.not_and, Bool.or_assoc]
      · simp only [Option.some.injEq, Prod.mk.injEq] at hl
        simp [← hl.2.2, Stmt.noYield, h1, h2, Bool.not_and, Bool.or_assoc]
  | loop c b ih =>
    intro env cx h s' cx' hl
    simp only [lowerS, Option.bind_eq_bind, Option.bind_eq_some_iff, Prod.exists, Option.some.injEq, Prod.mk.injEq] at hl
    obtain ⟨hc, c', k, hlc, hb, b', cx1, hlb, _, _, rfl⟩ := hl
    simp [Stmt.noYield, ih _ _ _ _ _ hlb]
  | brk => intro env cx h s' cx' hl; simp only [lowerS, Option.some.injEq, Prod.mk.injEq] at hl; simp [← hl.2.2, Stmt.noYield]
  | cont => intro env cx h s' cx' hl; simp only [lowerS, Option.some.injEq, Prod.mk.injEq] at hl; simp [← hl.2.2, Stmt.noYield]
  | ret e =>
    intro env cx h s' cx' hl
    by_cases he : ∃ f as, e = .call f as
    · obtain ⟨f, as, rfl⟩ := he
      simp only [lowerS] at hl
      split at hl
      · cases hl
      simp only [Option.bind_eq_bind, Option.bind_eq_some_iff, Prod.exists] at hl
      obtain ⟨ha, as', k, hla, hl⟩ := hl
      split at hl
      · cases hl
      split at hl
      · split at hl
        · cases hl
        · split at hl <;> simp only [Option.some.injEq, Prod.mk.injEq] at hl <;> simp [← hl.2.2, Stmt.noYield]
      · simp only [Option.some.injEq, Prod.mk.injEq] at hl
        simp [← hl.2.2, Stmt.noYield]
    · rw [lowerS_ret (fun f as h => he ⟨f, as, h⟩)] at hl
      split at hl
      · cases hl
      simp only [Option.bind_eq_some_iff, Prod.exists, Option.some.injEq, Prod.mk.injEq] at hl
      obtain ⟨_, _, _, _, _, _, rfl⟩ := hl
      simp [Stmt.noYield]
  | retVoid =>
    intro env cx h s' cx' hl
    simp only [lowerS] at hl
    split at hl
    · simp only [Option.some.injEq, Prod.mk.injEq] at hl
      simp [← hl.2.2, Stmt.noYield]
    · cases hl
  | raise e =>
    intro env cx h s' cx' hl
    simp only [lowerS, Option.bind_eq_bind, Option.bind_eq_some_iff, Prod.exists] at hl
    obtain ⟨_, _, _, _, hl⟩ := hl
    split at hl
    · cases hl
    simp only [Option.some.injEq, Prod.mk.injEq] at hl
    simp [← hl.2.2, Stmt.noYield]
  | reraise =>
    intro env cx h s' cx' hl
    simp only [lowerS] at hl
    split at hl
    · cases hl
    split at hl
    · cases hl
    simp only [Option.some.injEq, Prod.mk.injEq] at hl
    simp [← hl.2.2, Stmt.noYield]
  | yield e =>
    intro env cx h s' cx' hl
    simp only [lowerS] at hl
    split at hl
    · cases hl
    split at hl
    · cases hl
    simp only [Option.bind_eq_bind, Option.bind_eq_some_iff, Prod.exists, Option.some.injEq, Prod.mk.injEq] at hl
    obtain ⟨_, _, _, _, _, _, rfl⟩ := hl
    simp [Stmt.noYield]

/-- Nothing is put in front of an `else if` whose conditions call nothing that may raise. -/
theorem lowerS_quiet (S : Sig) (W : World) (n : Nat) : ∀ (s : Stmt) (env : Env) (cx : Cx) (h s' : LStmt) (cx' : Cx),
    lowerS S env s cx = some (h, s', cx') → s.isIf = true → s.chainSafe S = true →
    ∀ t, execL W n h t = .normal t := by
  intro s
  induction s with
  | ite c t e iht ihe =>
    intro env cx h s' cx' hl _ hc t
    simp only [Stmt.chainSafe, Bool.and_eq_true, Bool.not_eq_true'] at hc
    simp only [lowerS, Option.bind_eq_bind, Option.bind_eq_some_iff, Prod.exists] at hl
    obtain ⟨hc', c', k, hlc, ht, t', cx1, hlt, hl⟩ := hl
    have hq := (lowerE_good S W c _ _ _ _ _ hlc (orderly_of_still S c hc.1)).quiet hc.1
    split at hl
    · simp only [Option.some.injEq, Prod.mk.injEq] at hl
      rw [← hl.1]; exact hq n t
    · simp only [Option.bind_eq_some_iff, Prod.exists] at hl
      obtain ⟨he, e', cx2, hle, hl⟩ := hl
      split at hl
      · rename_i hif
        simp only [Option.some.injEq, Prod.mk.injEq] at hl
        rw [← hl.1]
        simp [execL, hq, ihe _ _ _ _ _ hle hif hc.2]
      · simp only [Option.some.injEq, Prod.mk.injEq] at hl
        rw [← hl.1]; exact hq n t
  | _ => intro env cx h s' cx' hl hi; simp [Stmt.isIf] at hi

end Verif.Raise
