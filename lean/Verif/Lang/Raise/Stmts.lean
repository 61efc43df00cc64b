import Verif.Lang.Raise.Sim
/-!
# What the check does to a statement keeps its meaning

By induction over statements, on the correspondence of `Sim.lean`.
-/
namespace Verif.Raise

/-- The handler around, if any: its exception is in its `_res`, and its `_Tres` is the temporary `yv`. -/
def CatOk (env : Env) (yv : Nat) (cur : Option Exc) (lo : Nat) (t : LSt) : Prop :=
  ∀ r v, env.cat = some (r, v) → yv = r + 1 ∧ r + 1 < lo ∧ ∃ e, cur = some e ∧ t.tmp r = some (.error e)

theorem CatOk.mono {env : Env} {yv : Nat} {cur : Option Exc} {lo lo' : Nat} {t t' : LSt} (h : CatOk env yv cur lo t)
    (hle : lo ≤ lo') (hf : Fr lo yv t t') : CatOk env yv cur lo' t' := by
  intro r v hr
  obtain ⟨h1, h2, e, h3, h4⟩ := h r v hr
  exact ⟨h1, by omega, e, h3, by rw [hf r (by omega) (by omega)]; exact h4⟩

/-- Passing from temporaries that are all as before. -/
theorem Fr.of_eq {lo yv : Nat} {t t' : LSt} (h : ∀ j, j < lo → t'.tmp j = t.tmp j) : Fr lo yv t t' := fun j hj _ => h j hj

/-- Statement for one source statement. -/
def Right (S : Sig) (W : World) (n : Nat) (s : Stmt) : Prop :=
  ∀ (env : Env) (cx : Cx) (h s' : LStmt) (cx' : Cx), lowerS S env s cx = some (h, s', cx') →
    s.plain S = true → (env.flag = true → s.noBare S = true) →
    cx.next ≤ cx'.next ∧
    ∀ (yv : Nat) (cur : Option Exc) (t : LSt), CatOk env yv cur cx.next t →
      Sim cx.next yv t (exec S W n cur s ⟨t.loc, t.tr⟩) (execL W n (.seq h s') t)

/-- The handler part, common to both kinds of `catch`. -/
theorem handler_sim {S : Sig} {W : World} {n : Nat} {hd : Stmt} (ih : Right S W n hd) {k : Nat} {vf ret : Bool}
    {hh h' : LStmt} {cx1 : Cx} (hl : lowerS S ⟨true, some (k, vf)⟩ hd ⟨ret, k + 2, false, false, false⟩ = some (hh, h', cx1))
    (hp : hd.plain S = true) (hb : hd.noBare S = true) {t : LSt} {e : Exc} (ht : t.tmp k = some (.error e)) :
    Sim (k + 2) (k + 1) t (exec S W n (some e) hd ⟨t.loc, t.tr⟩) (execL W n (.seq hh h') t) := by
  refine (ih _ _ _ _ _ hl hp (fun _ => hb)).2 (k + 1) (some e) t ?_
  intro r v hr
  simp only [Option.some.injEq, Prod.mk.injEq] at hr
  obtain ⟨rfl, rfl⟩ := hr
  exact ⟨rfl, by simp, e, rfl, ht⟩

theorem lowerS_right (S : Sig) (W : World) (n : Nat) : ∀ s : Stmt, Right S W n s := by
  intro s
  induction s with
  | skip =>
    intro env cx h s' cx' hl _ _
    simp only [lowerS, Option.some.injEq, Prod.mk.injEq] at hl
    obtain ⟨rfl, rfl, rfl⟩ := hl
    refine ⟨Nat.le_refl _, fun yv cur t _ => ?_⟩
    simp [exec, execL, Sim, Er, Fr]
  | seq a b iha ihb =>
    intro env cx h s' cx' hl hp hb
    simp only [Stmt.plain, Bool.and_eq_true] at hp
    simp only [Stmt.noBare, Bool.and_eq_true] at hb
    simp only [lowerS, Option.bind_eq_bind, Option.bind_eq_some_iff, Prod.exists] at hl
    obtain ⟨ha, a', cx1, hla, hl⟩ := hl
    split at hl
    · cases hl
    simp only [Option.bind_eq_some_iff, Prod.exists, Option.some.injEq, Prod.mk.injEq] at hl
    obtain ⟨hb', b', cx2, hlb, rfl, rfl, rfl⟩ := hl
    obtain ⟨l1, s1⟩ := iha _ _ _ _ _ hla hp.1.1 (fun h => (hb h).1)
    obtain ⟨l2, s2⟩ := ihb _ _ _ _ _ hlb hp.1.2 (fun h => (hb h).2)
    refine ⟨Nat.le_trans l1 l2, fun yv cur t hc => ?_⟩
    have h1 := s1 yv cur t hc
    have hny := exec_noYield S W n a cur ⟨t.loc, t.tr⟩
    have e1 : execL W n (.seq .skip (.seq (.seq ha a') (.seq hb' b'))) t =
        (match execL W n (.seq ha a') t with
          | .normal s' => execL W n (.seq hb' b') s'
          | o => o) := rfl
    rw [e1]
    simp only [exec]
    cases ho : exec S W n cur a ⟨t.loc, t.tr⟩ <;> cases ho' : execL W n (.seq ha a') t <;> rw [ho, ho'] at h1 <;>
      simp only [Sim] at h1
    case normal.normal s t1 =>
      obtain ⟨⟨e2, e3⟩, hf⟩ := h1
      have := s2 yv cur t1 (hc.mono l1 hf)
      have e4 : s = ⟨t1.loc, t1.tr⟩ := by cases s; simp at e2 e3; simp [e2, e3]
      subst e4
      exact Sim.trans hf l1 this
    case yld.normal v s t1 => exact absurd ho (hny _ _ hp.2)
    all_goals simp only [Sim] <;> exact h1
  | expr e =>
    intro env cx h s' cx' hl hp hb
    simp only [Stmt.plain] at hp
    by_cases he : ∃ f as, e = .call f as
    · obtain ⟨f, as, rfl⟩ := he
      simp only [Expr.orderly] at hp
      simp only [lowerS, Option.bind_eq_bind, Option.bind_eq_some_iff, Prod.exists] at hl
      obtain ⟨ha, as', k, hla, hl⟩ := hl
      have GA := lowerA_good S W as _ _ _ _ _ hla hp
      have hsrc : ∀ cur (t : LSt), exec S W n cur (.expr (.call f as)) ⟨t.loc, t.tr⟩ =
          withE (evalA S W t.loc as t.tr) fun vs tr =>
            withE (callOf S W f vs tr) fun _ tr => .normal ⟨t.loc, tr⟩ := by
        intro cur t
        simp only [exec, evalE]
        cases evalA S W t.loc as t.tr with
        | mk r tr => cases r <;> rfl
      split at hl
      · rename_i hr
        have hfl : env.flag = false := by
          cases hfl : env.flag with
          | false => rfl
          | true => have := hb hfl; simp [Stmt.noBare, hr] at this
        simp only [hfl, Bool.false_eq_true, if_false] at hl
        split at hl
        · cases hl
        simp only [Option.some.injEq, Prod.mk.injEq] at hl
        obtain ⟨rfl, rfl, rfl⟩ := hl
        refine ⟨Nat.le_succ_of_le GA.le, fun yv cur t _ => ?_⟩
        rw [hsrc]
        have := GA.sim n yv t (.seq (.seq (.setRes k f as') (.bubble k)) .skip)
          (fun vs tr => withE (callOf S W f vs tr) fun _ tr => .normal ⟨t.loc, tr⟩) ?_
        · have e1 : execL W n (.seq (.seq ha (.seq (.setRes k f as') (.bubble k))) .skip) t =
              execL W n (.seq ha (.seq (.seq (.setRes k f as') (.bubble k)) .skip)) t := by
            simp only [execL]
            cases execL W n ha t <;> rfl
          rw [e1]; exact this
        · intro vs tr t1 l1 b1 hv
          rw [← l1] at hv ⊢
          simp only [callOf, hr, if_true, execL, withL, hv, upd_same]
          cases hw : W.risky f vs tr with
          | error x => simp [withE, Sim]
          | ok x =>
            simp only [withE, Sim, Er, and_true, true_and]
            intro j hj _
            have : j ≠ k := by have := GA.le; omega
            simp [this, b1 j hj]
      · rename_i hr
        have hrf : S.raises f = false := by simpa using hr
        simp only [Option.some.injEq, Prod.mk.injEq] at hl
        obtain ⟨rfl, rfl, rfl⟩ := hl
        refine ⟨GA.le, fun yv cur t _ => ?_⟩
        rw [hsrc]
        refine GA.sim n yv t _ _ ?_
        intro vs tr t1 l1 b1 hv
        rw [← l1] at hv ⊢
        simp only [callOf, hrf, Bool.false_eq_true, if_false, withE, execL, evalL, Option.bind_eq_bind, hv, Option.bind_some,
          withL, Sim, Er, and_true, true_and]
        exact Fr.of_eq b1
    · rw [lowerS_expr (fun f as h => he ⟨f, as, h⟩)] at hl
      simp only [Option.bind_eq_some_iff, Prod.exists, Option.some.injEq, Prod.mk.injEq] at hl
      obtain ⟨hh, e', k, hle, rfl, rfl, rfl⟩ := hl
      have GA := lowerE_good S W e _ _ _ _ _ hle hp
      refine ⟨GA.le, fun yv cur t _ => ?_⟩
      refine GA.sim n yv t _ _ ?_
      intro v tr t1 l1 b1 hv
      rw [← l1] at hv ⊢
      simp only [execL, hv, withL, Sim, Er, and_true, true_and]
      exact Fr.of_eq b1
  | assign x e =>
    intro env cx h s' cx' hl hp hb
    simp only [Stmt.plain] at hp
    simp only [lowerS, Option.bind_eq_bind, Option.bind_eq_some_iff, Prod.exists, Option.some.injEq, Prod.mk.injEq] at hl
    obtain ⟨hh, e', k, hle, rfl, rfl, rfl⟩ := hl
    have GA := lowerE_good S W e _ _ _ _ _ hle hp
    refine ⟨GA.le, fun yv cur t _ => ?_⟩
    refine GA.sim n yv t _ _ ?_
    intro v tr t1 l1 b1 hv
    rw [← l1] at hv ⊢
    simp only [execL, hv, withL, Sim, Er, and_true, true_and]
    exact Fr.of_eq b1
  | catchDo f as hd ih =>
    intro env cx h s' cx' hl hp _
    simp only [Stmt.plain, Bool.and_eq_true] at hp
    simp only [lowerS, Option.bind_eq_bind, Option.bind_eq_some_iff, Prod.exists] at hl
    obtain ⟨ha, as', k, hla, hl⟩ := hl
    have GA := lowerA_good S W as _ _ _ _ _ hla hp.1.1
    split at hl
    · cases hl
    rename_i hr
    have hr : S.raises f = true := by
      simp only [Bool.or_eq_true, Bool.not_eq_true', not_or, Bool.not_eq_false] at hr
      exact hr.1
    simp only [Option.bind_eq_some_iff, Prod.exists] at hl
    obtain ⟨hh, h', cx1, hlh, hl⟩ := hl
    split at hl
    · cases hl
    simp only [Option.some.injEq, Prod.mk.injEq] at hl
    obtain ⟨rfl, rfl, rfl⟩ := hl
    have hle := (ih _ _ _ _ _ hlh hp.1.2 (fun _ => hp.2)).1
    simp only at hle
    refine ⟨by have := GA.le; simp only; omega, fun yv cur t _ => ?_⟩
    simp only [exec]
    generalize hq : (if hd.isSkip then LStmt.skip
           else .ifExc k (.seq hh h') (if cx1.yielded then .setTmp (k + 1) (.tmp k) else .skip)) = q
    have := GA.sim n yv t (.seq (.seq (.setRes k f as') q) .skip)
      (fun vs tr => match callOf S W f vs tr with
        | (.ok _, tr) => .normal ⟨t.loc, tr⟩
        | (.error e, tr) =>
          match exec S W n (some e) hd ⟨t.loc, tr⟩ with
          | .yld _ s' => .normal s'
          | o => o) ?_
    · have e1 : execL W n (.seq (.seq ha (.seq (.setRes k f as') q)) .skip) t =
          execL W n (.seq ha (.seq (.seq (.setRes k f as') q) .skip)) t := by
        simp only [execL]
        cases execL W n ha t <;> rfl
      rw [e1]; exact this
    · intro vs tr t1 l1 b1 hv
      rw [← l1] at hv ⊢
      simp only [callOf, hr, if_true, execL, withL, hv]
      have hfr : ∀ t2 : LSt, (∀ j, j < k + 2 → j ≠ k + 1 → t2.tmp j = upd t1.tmp k (some (W.risky f vs tr)) j) →
          Fr cx.next yv t t2 := by
        intro t2 h2 j hj _
        have hk := GA.le
        rw [h2 j (by omega) (by omega), upd_ne _ _ (show j ≠ k by omega), b1 j hj]
      cases hw : W.risky f vs tr with
      | ok x =>
        rw [hw] at hfr
        subst hq
        by_cases hsk : hd.isSkip = true
        · simp only [hsk, if_true, execL, Sim, Er, and_true, true_and]
          exact hfr _ (fun _ _ _ => rfl)
        · by_cases hcy : cx1.yielded = true
          · simp only [hsk, hcy, Bool.false_eq_true, if_false, if_true, execL, upd_same, evalL, withL, Sim, Er, and_true, true_and]
            exact hfr _ (fun j _ hj => by simp [hj])
          · simp only [hsk, hcy, Bool.false_eq_true, if_false, execL, upd_same, Sim, Er, and_true, true_and]
            exact hfr _ (fun _ _ _ => rfl)
      | error x =>
        rw [hw] at hfr
        subst hq
        by_cases hsk : hd.isSkip = true
        · have : hd = .skip := by cases hd <;> simp [Stmt.isSkip] at hsk; rfl
          subst this
          simp only [Stmt.isSkip, if_true, exec, execL, Sim, Er, and_true, true_and]
          exact hfr _ (fun _ _ _ => rfl)
        · have hs := handler_sim (t := ⟨t1.loc, tr ++ [(f, vs)], upd t1.tmp k (some (.error x))⟩) ih hlh hp.1.2 hp.2
            (e := x) (by simp)
          have hx : ∀ z, execL W n (.ifExc k (.seq hh h') z) ⟨t1.loc, tr ++ [(f, vs)], upd t1.tmp k (some (.error x))⟩ =
              execL W n (.seq hh h') ⟨t1.loc, tr ++ [(f, vs)], upd t1.tmp k (some (.error x))⟩ := by
            intro z; simp only [execL, upd_same]
          rw [if_neg hsk, hx]
          dsimp only at hs ⊢
          revert hs
          generalize exec S W n (some x) hd ⟨t1.loc, tr ++ [(f, vs)]⟩ = o
          generalize execL W n (.seq hh h') ⟨t1.loc, tr ++ [(f, vs)], upd t1.tmp k (some (.error x))⟩ = o'
          intro hs
          cases o <;> cases o' <;> simp only [Sim] at hs ⊢ <;> try exact hs
          all_goals first
            | exact ⟨hs.1, hfr _ (fun j h1 h2 => hs.2 j h1 h2)⟩
            | exact ⟨hs.1, hfr _ (fun j h1 h2 => hs.2.1 j h1 h2)⟩
  | catchSet x f as hd ih =>
    intro env cx h s' cx' hl hp _
    simp only [Stmt.plain, Bool.and_eq_true] at hp
    simp only [lowerS, Option.bind_eq_bind, Option.bind_eq_some_iff, Prod.exists] at hl
    obtain ⟨ha, as', k, hla, hl⟩ := hl
    have GA := lowerA_good S W as _ _ _ _ _ hla hp.1.1.1
    split at hl
    · cases hl
    rename_i hr
    have hr : S.raises f = true := by
      simp only [Bool.or_eq_true, Bool.not_eq_true', not_or, Bool.not_eq_false] at hr
      exact hr.1.1
    simp only [Option.bind_eq_some_iff, Prod.exists] at hl
    obtain ⟨hh, h', cx1, hlh, hl⟩ := hl
    split at hl
    · cases hl
    simp only [Option.some.injEq, Prod.mk.injEq] at hl
    obtain ⟨rfl, rfl, rfl⟩ := hl
    have hle := (ih _ _ _ _ _ hlh hp.1.1.2 (fun _ => hp.1.2)).1
    simp only at hle
    have hy := lowerS_yielded S hd _ _ _ _ _ hlh
    simp only [Bool.false_or] at hy
    have hns : hd.isSkip = false := by
      cases hd <;> simp [Stmt.settles] at hp <;> rfl
    refine ⟨by have := GA.le; simp only; omega, fun yv cur t _ => ?_⟩
    simp only [exec, hns, Bool.false_eq_true, if_false]
    generalize hq : LStmt.ifExc k (.seq hh h') (if cx1.yielded then .setTmp (k + 1) (.tmp k) else .skip) = q
    have := GA.sim n yv t (.seq (.seq (.setRes k f as') q) (.assign x (.tmp (if cx1.yielded then k + 1 else k))))
      (fun vs tr => match callOf S W f vs tr with
        | (.ok v, tr) => .normal ⟨upd t.loc x v, tr⟩
        | (.error e, tr) =>
          match exec S W n (some e) hd ⟨t.loc, tr⟩ with
          | .yld v s' => .normal ⟨upd s'.loc x v, s'.tr⟩
          | .normal _ => .stuck
          | o => o) ?_
    · have e1 : ∀ r, execL W n (.seq (.seq ha (.seq (.setRes k f as') q)) r) t =
          execL W n (.seq ha (.seq (.seq (.setRes k f as') q) r)) t := by
        intro r
        simp only [execL]
        cases execL W n ha t <;> rfl
      rw [e1]; exact this
    · intro vs tr t1 l1 b1 hv
      rw [← l1] at hv ⊢
      simp only [callOf, hr, if_true, execL, withL, hv]
      have hfr : ∀ t2 : LSt, (∀ j, j < k + 2 → j ≠ k + 1 → t2.tmp j = upd t1.tmp k (some (W.risky f vs tr)) j) →
          Fr cx.next yv t t2 := by
        intro t2 h2 j hj _
        have hk := GA.le
        rw [h2 j (by omega) (by omega), upd_ne _ _ (show j ≠ k by omega), b1 j hj]
      cases hw : W.risky f vs tr with
      | ok v =>
        rw [hw] at hfr
        subst hq
        by_cases hcy : cx1.yielded = true
        · simp only [hcy, if_true, execL, upd_same, evalL, withL, Sim, Er, and_true, true_and]
          exact hfr _ (fun j _ hj => by simp [hj])
        · simp only [hcy, Bool.false_eq_true, if_false, execL, upd_same, evalL, Sim, Er, and_true, true_and]
          exact hfr _ (fun _ _ _ => rfl)
      | error e =>
        rw [hw] at hfr
        subst hq
        have hs := handler_sim (t := ⟨t1.loc, tr ++ [(f, vs)], upd t1.tmp k (some (.error e))⟩) ih hlh hp.1.1.2 hp.1.2
            (e := e) (by simp)
        have hset := exec_settles S W n hd (some e) ⟨t1.loc, tr ++ [(f, vs)]⟩
        have hny := exec_noYield S W n hd (some e) ⟨t1.loc, tr ++ [(f, vs)]⟩
        have hx : ∀ z, execL W n (.ifExc k (.seq hh h') z) ⟨t1.loc, tr ++ [(f, vs)], upd t1.tmp k (some (.error e))⟩ =
            execL W n (.seq hh h') ⟨t1.loc, tr ++ [(f, vs)], upd t1.tmp k (some (.error e))⟩ := by
          intro z; simp only [execL, upd_same]
        rw [hx]
        dsimp only at hs ⊢
        revert hs hset hny
        generalize exec S W n (some e) hd ⟨t1.loc, tr ++ [(f, vs)]⟩ = o
        generalize execL W n (.seq hh h') ⟨t1.loc, tr ++ [(f, vs)], upd t1.tmp k (some (.error e))⟩ = o'
        intro hs hset hny
        cases o <;> cases o' <;> simp only [Sim] at hs ⊢ <;> try exact hs
        case normal.normal => exact absurd rfl (hset _ hp.2)
        case yld.normal v s t2 =>
          obtain ⟨⟨h1, h2⟩, h3, h4⟩ := hs
          have hyy : cx1.yielded = true := by
            rw [hy]
            cases hn : hd.noYield with
            | false => rfl
            | true => exact absurd rfl (hny v s hn)
          simp only [hyy, if_true, evalL, h4, Er, h1, h2, and_true, true_and]
          exact hfr _ (fun j g1 g2 => h3 j g1 g2)
        all_goals exact ⟨hs.1, hfr _ (fun j h1 h2 => hs.2 j h1 h2)⟩
  | ite c th el iht ihe =>
    intro env cx h s' cx' hl hp hb
    simp only [Stmt.plain, Bool.and_eq_true] at hp
    simp only [Stmt.noBare, Bool.and_eq_true] at hb
    simp only [lowerS, Option.bind_eq_bind, Option.bind_eq_some_iff, Prod.exists] at hl
    obtain ⟨hc, c', k, hlc, ht, t', cx1, hlt, hl⟩ := hl
    have GC := lowerE_good S W c _ _ _ _ _ hlc hp.1.1.1
    obtain ⟨l1, s1⟩ := iht _ _ _ _ _ hlt hp.1.1.2 (fun h => (hb h).1)
    simp only at l1 s1
    split at hl
    · rename_i hsk
      have : el = .skip := by cases el <;> simp [Stmt.isSkip] at hsk; rfl
      subst this
      simp only [Option.some.injEq, Prod.mk.injEq] at hl
      obtain ⟨rfl, rfl, rfl⟩ := hl
      refine ⟨Nat.le_trans GC.le l1, fun yv cur t hcat => ?_⟩
      refine GC.sim n yv t _ _ ?_
      intro v tr t1 lc b1 hv
      rw [← lc] at hv
      simp only [execL, hv, withL]
      by_cases hv0 : v ≠ 0
      · simp only [hv0, if_true, ne_eq, not_false_eq_true]
        rw [← lc]
        have hf : Fr cx.next yv t ⟨t1.loc, tr, t1.tmp⟩ := Fr.of_eq b1
        exact Sim.trans hf GC.le (s1 yv cur ⟨t1.loc, tr, t1.tmp⟩ (hcat.mono GC.le hf))
      · rw [if_neg hv0, if_neg hv0]
        simp only [exec, Sim, Er, lc, and_true, true_and]
        exact Fr.of_eq b1
    · simp only [Option.bind_eq_some_iff, Prod.exists] at hl
      obtain ⟨he, e', cx2, hle, hl⟩ := hl
      obtain ⟨l2, s2⟩ := ihe _ _ _ _ _ hle hp.1.2 (fun h => (hb h).2)
      simp only at l2 s2
      -- both forms of the `else` run it the same way
      have key : ∀ (pre el' : LStmt), (∀ t, execL W n pre t = .normal t) →
          (∀ t, execL W n el' t = execL W n (.seq he e') t) →
          ∀ (yv : Nat) (cur : Option Exc) (t : LSt), CatOk env yv cur cx.next t →
          Sim cx.next yv t (exec S W n cur (.ite c th el) ⟨t.loc, t.tr⟩)
            (execL W n (.seq (.seq hc pre) (.ite c' (.seq ht t') el')) t) := by
        intro pre el' hpre hel' yv cur t hcat
        have e1 : execL W n (.seq (.seq hc pre) (.ite c' (.seq ht t') el')) t =
            execL W n (.seq hc (.ite c' (.seq ht t') el')) t := by
          simp only [execL]
          cases execL W n hc t <;> simp [hpre]
        rw [e1]
        refine GC.sim n yv t _ _ ?_
        intro v tr t1 lc b1 hv
        rw [← lc] at hv
        have hf : Fr cx.next yv t ⟨t1.loc, tr, t1.tmp⟩ := Fr.of_eq b1
        have hstep : execL W n (.ite c' (.seq ht t') el') t1 =
            if v ≠ 0 then execL W n (.seq ht t') ⟨t1.loc, tr, t1.tmp⟩ else execL W n el' ⟨t1.loc, tr, t1.tmp⟩ := by
          simp [execL, hv, withL]
        rw [hstep]
        by_cases hv0 : v ≠ 0
        · rw [if_pos hv0, if_pos hv0, ← lc]
          exact Sim.trans hf GC.le (s1 yv cur ⟨t1.loc, tr, t1.tmp⟩ (hcat.mono GC.le hf))
        · rw [if_neg hv0, if_neg hv0, ← lc, hel']
          exact Sim.trans hf (Nat.le_trans GC.le l1) (s2 yv cur ⟨t1.loc, tr, t1.tmp⟩ (hcat.mono (Nat.le_trans GC.le l1) hf))
      split at hl
      · rename_i hif
        simp only [Option.some.injEq, Prod.mk.injEq] at hl
        obtain ⟨rfl, rfl, rfl⟩ := hl
        have hq := lowerS_quiet S W n el _ _ _ _ _ hle hif hp.2
        exact ⟨Nat.le_trans GC.le (Nat.le_trans l1 l2),
          key he e' hq (fun t => by simp [execL, hq])⟩
      · simp only [Option.some.injEq, Prod.mk.injEq] at hl
        obtain ⟨rfl, rfl, rfl⟩ := hl
        refine ⟨Nat.le_trans GC.le (Nat.le_trans l1 l2), fun yv cur t hcat => ?_⟩
        have := key .skip (.seq he e') (fun _ => rfl) (fun _ => rfl) yv cur t hcat
        have e1 : ∀ r, execL W n (.seq (.seq hc .skip) r) t = execL W n (.seq hc r) t := by
          intro r
          simp only [execL]
          cases execL W n hc t <;> rfl
        rw [e1] at this
        exact this
  | loop c b ih =>
    intro env cx h s' cx' hl hp hb
    simp only [Stmt.plain, Bool.and_eq_true] at hp
    simp only [Stmt.noBare] at hb
    simp only [lowerS, Option.bind_eq_bind, Option.bind_eq_some_iff, Prod.exists, Option.some.injEq, Prod.mk.injEq] at hl
    obtain ⟨hc, c', k, hlc, hb', b', cx1, hlb, rfl, rfl, rfl⟩ := hl
    have GC := lowerE_good S W c _ _ _ _ _ hlc hp.1.1
    obtain ⟨l1, s1⟩ := ih _ _ _ _ _ hlb hp.1.2 hb
    simp only at l1 s1
    refine ⟨Nat.le_trans GC.le l1, fun yv cur t hcat => ?_⟩
    simp only [exec]
    have e1 : execL W n (.seq .skip (.loop (.seq hc (.ite c' (.seq hb' b') .brk)))) t =
        iter (execL W n (.seq hc (.ite c' (.seq hb' b') .brk))) n t := rfl
    rw [e1]
    refine iter_sim ?_ ?_ n _ _ ⟨rfl, rfl⟩ (fun _ _ _ => rfl)
    · intro s t1 he hf
      have e2 : s = ⟨t1.loc, t1.tr⟩ := by cases s; simp only [Er] at he; simp [he]
      subst e2
      refine Sim.trans hf (Nat.le_refl _) ?_
      have hcat1 : CatOk env yv cur cx.next t1 := hcat.mono (Nat.le_refl _) hf
      refine GC.sim n yv t1 _ _ ?_
      intro v tr t2 lc b1 hv
      rw [← lc] at hv
      have hf2 : Fr cx.next yv t1 ⟨t2.loc, tr, t2.tmp⟩ := Fr.of_eq b1
      have hstep : execL W n (.ite c' (.seq hb' b') .brk) t2 =
          if v ≠ 0 then execL W n (.seq hb' b') ⟨t2.loc, tr, t2.tmp⟩ else .brk ⟨t2.loc, tr, t2.tmp⟩ := by
        simp [execL, hv, withL]
      rw [hstep]
      by_cases hv0 : v ≠ 0
      · rw [if_pos hv0, if_pos hv0, ← lc]
        exact Sim.trans hf2 GC.le (s1 yv cur ⟨t2.loc, tr, t2.tmp⟩ (hcat1.mono GC.le hf2))
      · rw [if_neg hv0, if_neg hv0, ← lc]
        simp only [Sim, Er, and_true, true_and]
        exact hf2
    · intro s v s' h
      simp only [withE] at h
      split at h
      · split at h
        · exact exec_noYield S W n b _ _ _ _ hp.2 h
        · cases h
      · cases h
  | brk =>
    intro env cx h s' cx' hl _ _
    simp only [lowerS, Option.some.injEq, Prod.mk.injEq] at hl
    obtain ⟨rfl, rfl, rfl⟩ := hl
    refine ⟨Nat.le_refl _, fun yv cur t _ => ?_⟩
    simp [exec, execL, Sim, Er, Fr]
  | cont =>
    intro env cx h s' cx' hl _ _
    simp only [lowerS, Option.some.injEq, Prod.mk.injEq] at hl
    obtain ⟨rfl, rfl, rfl⟩ := hl
    refine ⟨Nat.le_refl _, fun yv cur t _ => ?_⟩
    simp [exec, execL, Sim, Er, Fr]
  | ret e =>
    intro env cx h s' cx' hl hp _
    simp only [Stmt.plain] at hp
    by_cases he : ∃ f as, e = .call f as
    · obtain ⟨f, as, rfl⟩ := he
      simp only [Expr.orderly] at hp
      simp only [lowerS] at hl
      split at hl
      · cases hl
      simp only [Option.bind_eq_bind, Option.bind_eq_some_iff, Prod.exists] at hl
      obtain ⟨ha, as', k, hla, hl⟩ := hl
      have GA := lowerA_good S W as _ _ _ _ _ hla hp
      have hsrc : ∀ cur (t : LSt), exec S W n cur (.ret (.call f as)) ⟨t.loc, t.tr⟩ =
          withE (evalA S W t.loc as t.tr) fun vs tr =>
            withE (callOf S W f vs tr) fun v tr => .ret (some v) tr := by
        intro cur t
        simp only [exec, evalE]
        cases evalA S W t.loc as t.tr with
        | mk r tr => cases r <;> rfl
      split at hl
      · cases hl
      split at hl
      · rename_i hr
        split at hl
        · cases hl
        split at hl
        · simp only [Option.some.injEq, Prod.mk.injEq] at hl
          obtain ⟨rfl, rfl, rfl⟩ := hl
          refine ⟨GA.le, fun yv cur t _ => ?_⟩
          rw [hsrc]
          refine GA.sim n yv t _ _ ?_
          intro vs tr t1 l1 b1 hv
          rw [← l1] at hv
          simp only [callOf, hr, if_true, execL, withL, hv]
          cases hw : W.risky f vs tr <;> simp [withE, Sim]
        · simp only [Option.some.injEq, Prod.mk.injEq] at hl
          obtain ⟨rfl, rfl, rfl⟩ := hl
          refine ⟨Nat.le_succ_of_le GA.le, fun yv cur t _ => ?_⟩
          rw [hsrc]
          have := GA.sim n yv t (.seq (.seq (.setRes k f as') (.bubble k)) (.ret (.tmp k)))
            (fun vs tr => withE (callOf S W f vs tr) fun v tr => .ret (some v) tr) ?_
          · have e1 : ∀ r, execL W n (.seq (.seq ha (.seq (.setRes k f as') (.bubble k))) r) t =
                execL W n (.seq ha (.seq (.seq (.setRes k f as') (.bubble k)) r)) t := by
              intro r
              simp only [execL]
              cases execL W n ha t <;> rfl
            rw [e1]; exact this
          · intro vs tr t1 l1 b1 hv
            rw [← l1] at hv
            simp only [callOf, hr, if_true, execL, withL, hv, upd_same]
            cases hw : W.risky f vs tr <;> simp [withE, Sim, evalL]
      · rename_i hr
        have hrf : S.raises f = false := by simpa using hr
        simp only [Option.some.injEq, Prod.mk.injEq] at hl
        obtain ⟨rfl, rfl, rfl⟩ := hl
        refine ⟨GA.le, fun yv cur t _ => ?_⟩
        rw [hsrc]
        refine GA.sim n yv t _ _ ?_
        intro vs tr t1 l1 b1 hv
        rw [← l1] at hv
        simp [callOf, hrf, withE, execL, evalL, hv, withL, Sim]
    · rw [lowerS_ret (fun f as h => he ⟨f, as, h⟩)] at hl
      split at hl
      · cases hl
      simp only [Option.bind_eq_some_iff, Prod.exists, Option.some.injEq, Prod.mk.injEq] at hl
      obtain ⟨hh, e', k, hle, rfl, rfl, rfl⟩ := hl
      have GA := lowerE_good S W e _ _ _ _ _ hle hp
      refine ⟨GA.le, fun yv cur t _ => ?_⟩
      refine GA.sim n yv t _ _ ?_
      intro v tr t1 l1 b1 hv
      rw [← l1] at hv
      simp [execL, hv, withL, Sim]
  | retVoid =>
    intro env cx h s' cx' hl _ _
    simp only [lowerS] at hl
    split at hl
    · simp only [Option.some.injEq, Prod.mk.injEq] at hl
      obtain ⟨rfl, rfl, rfl⟩ := hl
      refine ⟨Nat.le_refl _, fun yv cur t _ => ?_⟩
      simp [exec, execL, Sim]
    · cases hl
  | raise e =>
    intro env cx h s' cx' hl hp _
    simp only [Stmt.plain] at hp
    simp only [lowerS, Option.bind_eq_bind, Option.bind_eq_some_iff, Prod.exists] at hl
    obtain ⟨hh, e', k, hle, hl⟩ := hl
    split at hl
    · cases hl
    simp only [Option.some.injEq, Prod.mk.injEq] at hl
    obtain ⟨rfl, rfl, rfl⟩ := hl
    have GA := lowerE_good S W e _ _ _ _ _ hle hp
    refine ⟨GA.le, fun yv cur t _ => ?_⟩
    refine GA.sim n yv t _ _ ?_
    intro v tr t1 l1 b1 hv
    rw [← l1] at hv
    simp [execL, hv, withL, Sim]
  | reraise =>
    intro env cx h s' cx' hl _ _
    simp only [lowerS] at hl
    split at hl
    · cases hl
    rename_i r vf hcat0
    split at hl
    · cases hl
    simp only [Option.some.injEq, Prod.mk.injEq] at hl
    obtain ⟨rfl, rfl, rfl⟩ := hl
    refine ⟨Nat.le_refl _, fun yv cur t hcat => ?_⟩
    obtain ⟨_, _, e, rfl, h4⟩ := hcat r vf hcat0
    simp [exec, execL, Sim, h4]
  | yield e =>
    intro env cx h s' cx' hl hp _
    simp only [Stmt.plain] at hp
    simp only [lowerS] at hl
    split at hl
    · cases hl
    rename_i r vf hcat0
    split at hl
    · cases hl
    simp only [Option.bind_eq_bind, Option.bind_eq_some_iff, Prod.exists, Option.some.injEq, Prod.mk.injEq] at hl
    obtain ⟨hh, e', k, hle, rfl, rfl, rfl⟩ := hl
    have GA := lowerE_good S W e _ _ _ _ _ hle hp
    refine ⟨GA.le, fun yv cur t hcat => ?_⟩
    obtain ⟨rfl, h2, _⟩ := hcat r vf hcat0
    refine GA.sim n (r + 1) t _ _ ?_
    intro v tr t1 l1 b1 hv
    rw [← l1] at hv ⊢
    simp only [execL, hv, withL, Sim, Er, and_true, true_and, upd_same]
    intro j hj hn
    simp [hn, b1 j hj]

end Verif.Raise
