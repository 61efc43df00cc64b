import Verif.Lang.Raise.Model
/-!
# Expressions: what is put in front of a statement and what is left compute the value

For orderly expressions.
-/
namespace Verif.Raise

/-- What is put in front (`h`, with the temporaries from `lo` to `hi`) and what is left (`evL`) do what the expression (`ev`) does. -/
structure Good (W : World) {α : Type} (ev : (Nat → Int) → Trace → Ev α)
    (evL : (Nat → Int) → (Nat → Option (Except Exc Int)) → Trace → Option (α × Trace))
    (calm risky : Bool) (h : LStmt) (lo hi : Nat) : Prop where
  le : lo ≤ hi
  ok : ∀ n (t : LSt) v tr', ev t.loc t.tr = (.ok v, tr') →
    ∃ t1, execL W n h t = .normal t1 ∧ t1.loc = t.loc ∧ (∀ j, j < lo → t1.tmp j = t.tmp j) ∧
      (∀ tmp, (∀ j, lo ≤ j → j < hi → tmp j = t1.tmp j) → evL t.loc tmp t1.tr = some (v, tr')) ∧
      (calm = true → tr' = t1.tr ∧
        ∀ tmp tr, (∀ j, lo ≤ j → j < hi → tmp j = t1.tmp j) → evL t.loc tmp tr = some (v, tr))
  exc : ∀ n (t : LSt) e tr', ev t.loc t.tr = (.error e, tr') → execL W n h t = .exc e tr'
  quiet : risky = false → ∀ n (t : LSt), execL W n h t = .normal t

/-- An expression that calls nothing that may raise is left as it is. -/
theorem Good.still {W : World} {α : Type} {ev : (Nat → Int) → Trace → Ev α}
    {evL : (Nat → Int) → (Nat → Option (Except Exc Int)) → Trace → Option (α × Trace)}
    {calm risky : Bool} {h : LStmt} {lo hi : Nat} (G : Good W ev evL calm risky h lo hi) (hr : risky = false)
    (loc : Nat → Int) (tmp : Nat → Option (Except Exc Int)) (tr : Trace) :
    ∃ v tr', ev loc tr = (.ok v, tr') ∧ evL loc tmp tr = some (v, tr') ∧ (calm = true → tr' = tr) := by
  cases hev : ev loc tr with
  | mk r tr' =>
    cases r with
    | error e =>
      have := G.exc 0 ⟨loc, tr, tmp⟩ e tr' hev
      rw [G.quiet hr 0 ⟨loc, tr, tmp⟩] at this
      cases this
    | ok v =>
      obtain ⟨t1, h1, _, _, h4, h5⟩ := G.ok 0 ⟨loc, tr, tmp⟩ v tr' hev
      rw [G.quiet hr 0 ⟨loc, tr, tmp⟩] at h1
      injection h1 with h1
      subst h1
      exact ⟨v, tr', rfl, h4 tmp (fun _ _ _ => rfl), fun hc => (h5 hc).1⟩

/-- Two expressions, one after the other. -/
theorem Good.pair {W : World} {α β γ : Type} {evA : (Nat → Int) → Trace → Ev α} {evB : (Nat → Int) → Trace → Ev β}
    {evLA : (Nat → Int) → (Nat → Option (Except Exc Int)) → Trace → Option (α × Trace)}
    {evLB : (Nat → Int) → (Nat → Option (Except Exc Int)) → Trace → Option (β × Trace)}
    {ca ra cb rb : Bool} {ha hb : LStmt} {lo mid hi : Nat} (f : α → β → γ)
    (GA : Good W evA evLA ca ra ha lo mid) (GB : Good W evB evLB cb rb hb mid hi)
    (hord : (!rb || ca) = true) :
    Good W (fun loc tr => (evA loc tr).andThen fun x tr => (evB loc tr).andThen fun y tr => (.ok (f x y), tr))
      (fun loc tmp tr => (evLA loc tmp tr).bind fun p => (evLB loc tmp p.2).bind fun q => some (f p.1 q.1, q.2))
      (ca && cb) (ra || rb) (.seq ha hb) lo hi := by
  constructor
  · exact Nat.le_trans GA.le GB.le
  · intro n t v tr' hev
    cases hA : evA t.loc t.tr with
    | mk r tr1 =>
      cases r with
      | error e => simp [hA, Ev.andThen] at hev
      | ok x =>
        simp only [hA, Ev.andThen] at hev
        cases hB : evB t.loc tr1 with
        | mk r tr2 =>
          cases r with
          | error e => simp [hB] at hev
          | ok y =>
            simp only [hB, Prod.mk.injEq, Except.ok.injEq] at hev
            obtain ⟨rfl, rfl⟩ := hev
            obtain ⟨t1, e1, l1, b1, v1, c1⟩ := GA.ok n t x tr1 hA
            cases hrb : rb with
            | false =>
              have hq := GB.quiet hrb n t1
              obtain ⟨t2, e2, l2, b2, v2, c2⟩ := GB.ok n ⟨t.loc, tr1, t1.tmp⟩ y tr2 hB
              rw [GB.quiet hrb] at e2
              injection e2 with e2
              subst e2
              refine ⟨t1, by simp [execL, e1, hq], l1, b1, ?_, ?_⟩
              · intro tmp hag
                rw [v1 tmp (fun j h1 h2 => hag j h1 (Nat.lt_of_lt_of_le h2 GB.le))]
                obtain ⟨y', tr3, e3, e4, _⟩ := GB.still hrb t.loc tmp tr1
                rw [hB] at e3
                simp only [Prod.mk.injEq, Except.ok.injEq] at e3
                obtain ⟨rfl, rfl⟩ := e3
                simp [e4]
              · intro hc
                simp only [Bool.and_eq_true] at hc
                obtain ⟨h1, h2⟩ := c1 hc.1
                obtain ⟨h3, h4⟩ := c2 hc.2
                refine ⟨by rw [h3]; exact h1, ?_⟩
                intro tmp tr hag
                rw [h2 tmp tr (fun j h1 h2 => hag j h1 (Nat.lt_of_lt_of_le h2 GB.le))]
                have := h4 tmp tr (fun j hj1 hj2 => hag j (Nat.le_trans GA.le hj1) hj2)
                simp [this]
            | true =>
              have hca : ca = true := by simpa [hrb] using hord
              obtain ⟨h1, h2⟩ := c1 hca
              subst h1
              obtain ⟨t2, e2, l2, b2, v2, c2⟩ := GB.ok n t1 y tr2 (by rw [l1]; exact hB)
              refine ⟨t2, by simp [execL, e1, e2], l2.trans l1,
                fun j hj => (b2 j (Nat.lt_of_lt_of_le hj GA.le)).trans (b1 j hj), ?_, ?_⟩
              · intro tmp hag
                rw [h2 tmp t2.tr (fun j hj1 hj2 => (hag j hj1 (Nat.lt_of_lt_of_le hj2 GB.le)).trans (b2 j hj2))]
                have := v2 tmp (fun j hj1 hj2 => hag j (Nat.le_trans GA.le hj1) hj2)
                rw [l1] at this
                simp [this]
              · intro hc
                simp only [Bool.and_eq_true] at hc
                obtain ⟨h3, h4⟩ := c2 hc.2
                refine ⟨h3, ?_⟩
                intro tmp tr hag
                rw [h2 tmp tr (fun j hj1 hj2 => (hag j hj1 (Nat.lt_of_lt_of_le hj2 GB.le)).trans (b2 j hj2))]
                have := h4 tmp tr (fun j hj1 hj2 => hag j (Nat.le_trans GA.le hj1) hj2)
                rw [l1] at this
                simp [this]
  · intro n t e tr' hev
    cases hA : evA t.loc t.tr with
    | mk r tr1 =>
      cases r with
      | error e =>
        simp only [hA, Ev.andThen, Prod.mk.injEq, Except.error.injEq] at hev
        obtain ⟨rfl, rfl⟩ := hev
        simp [execL, GA.exc n t _ _ hA]
      | ok x =>
        simp only [hA, Ev.andThen] at hev
        cases hB : evB t.loc tr1 with
        | mk r tr2 =>
          cases r with
          | ok y => simp [hB] at hev
          | error e =>
            simp only [hB, Prod.mk.injEq, Except.error.injEq] at hev
            obtain ⟨rfl, rfl⟩ := hev
            obtain ⟨t1, e1, l1, b1, v1, c1⟩ := GA.ok n t x tr1 hA
            cases hrb : rb with
            | false =>
              obtain ⟨y', tr3, e3, _⟩ := GB.still hrb t.loc t.tmp tr1
              rw [hB] at e3
              simp at e3
            | true =>
              have hca : ca = true := by simpa [hrb] using hord
              obtain ⟨h1, h2⟩ := c1 hca
              subst h1
              simp [execL, e1, GB.exc n t1 _ _ (by rw [l1]; exact hB)]
  · intro hr n t
    simp only [Bool.or_eq_false_iff] at hr
    simp [execL, GA.quiet hr.1, GB.quiet hr.2]

/-- An expression, then others only needed in some cases that call nothing that may raise. -/
theorem Good.cond {W : World} {α β : Type} {evA : (Nat → Int) → Trace → Ev α}
    {evLA : (Nat → Int) → (Nat → Option (Except Exc Int)) → Trace → Option (α × Trace)}
    {ca ra : Bool} {ha hb : LStmt} {lo mid hi : Nat} (c : Bool)
    (k : α → (Nat → Int) → Trace → Ev β)
    (kL : α → (Nat → Int) → (Nat → Option (Except Exc Int)) → Trace → Option (β × Trace))
    (GA : Good W evA evLA ca ra ha lo mid) (hle : mid ≤ hi)
    (hq : ∀ n t, execL W n hb t = .normal t)
    (hk : ∀ x loc tmp tr, ∃ v tr', k x loc tr = (.ok v, tr') ∧ kL x loc tmp tr = some (v, tr') ∧ (c = true → tr' = tr))
    (hkc : ∀ x loc tmp tmp' tr tr' v, c = true → (∀ j, mid ≤ j → j < hi → tmp' j = tmp j) →
      kL x loc tmp tr = some (v, tr) → kL x loc tmp' tr' = some (v, tr')) :
    Good W (fun loc tr => (evA loc tr).andThen fun x tr => k x loc tr)
      (fun loc tmp tr => (evLA loc tmp tr).bind fun p => kL p.1 loc tmp p.2)
      (ca && c) ra (.seq ha hb) lo hi := by
  constructor
  · exact Nat.le_trans GA.le hle
  · intro n t v tr' hev
    cases hA : evA t.loc t.tr with
    | mk r tr1 =>
      cases r with
      | error e => simp [hA, Ev.andThen] at hev
      | ok x =>
        simp only [hA, Ev.andThen] at hev
        obtain ⟨t1, e1, l1, b1, v1, c1⟩ := GA.ok n t x tr1 hA
        refine ⟨t1, by simp [execL, e1, hq], l1, b1, ?_, ?_⟩
        · intro tmp hag
          rw [v1 tmp (fun j h1 h2 => hag j h1 (Nat.lt_of_lt_of_le h2 hle))]
          obtain ⟨v', tr3, e3, e4, _⟩ := hk x t.loc tmp tr1
          rw [hev] at e3
          simp only [Prod.mk.injEq, Except.ok.injEq] at e3
          obtain ⟨rfl, rfl⟩ := e3
          simp [e4]
        · intro hc
          simp only [Bool.and_eq_true] at hc
          obtain ⟨h1, h2⟩ := c1 hc.1
          obtain ⟨v', tr3, e3, e4, e5⟩ := hk x t.loc t1.tmp tr1
          rw [hev] at e3
          simp only [Prod.mk.injEq, Except.ok.injEq] at e3
          obtain ⟨rfl, rfl⟩ := e3
          have e6 := e5 hc.2
          subst e6
          refine ⟨h1, ?_⟩
          intro tmp tr hag
          rw [h2 tmp tr (fun j h1 h2 => hag j h1 (Nat.lt_of_lt_of_le h2 hle))]
          exact hkc x t.loc t1.tmp tmp _ tr v hc.2 (fun j hj1 hj2 => hag j (Nat.le_trans GA.le hj1) hj2) e4
  · intro n t e tr' hev
    cases hA : evA t.loc t.tr with
    | mk r tr1 =>
      cases r with
      | error e =>
        simp only [hA, Ev.andThen, Prod.mk.injEq, Except.error.injEq] at hev
        obtain ⟨rfl, rfl⟩ := hev
        simp [execL, GA.exc n t _ _ hA]
      | ok x =>
        simp only [hA, Ev.andThen] at hev
        obtain ⟨v', tr3, e3, _⟩ := hk x t.loc t.tmp tr1
        rw [hev] at e3
        simp at e3
  · intro hr n t
    simp [execL, GA.quiet hr, hq]

/-- An expression that calls nothing at all has the same value whenever it is evaluated. -/
theorem Good.fixed {W : World} {α : Type} {ev : (Nat → Int) → Trace → Ev α}
    {evL : (Nat → Int) → (Nat → Option (Except Exc Int)) → Trace → Option (α × Trace)}
    {calm risky : Bool} {h : LStmt} {lo hi : Nat} (G : Good W ev evL calm risky h lo hi) (hr : risky = false)
    (hc : calm = true) {loc : Nat → Int} {tmp tmp' : Nat → Option (Except Exc Int)} {tr tr0 tr' : Trace} {v : α}
    (hag : ∀ j, lo ≤ j → j < hi → tmp' j = tmp j)
    (hv : evL loc tmp tr = some (v, tr0)) : evL loc tmp' tr' = some (v, tr') := by
  obtain ⟨v1, tr1, e1, e2, e3⟩ := G.still hr loc tmp tr
  rw [hv] at e2
  simp only [Option.some.injEq, Prod.mk.injEq] at e2
  obtain ⟨rfl, rfl⟩ := e2
  obtain ⟨t1, h1, _, _, _, h5⟩ := G.ok 0 ⟨loc, tr, tmp⟩ v _ e1
  rw [G.quiet hr 0 ⟨loc, tr, tmp⟩] at h1
  injection h1 with h1
  subst h1
  exact (h5 hc).2 tmp' tr' hag

mutual
/-- What calls nothing that may raise is orderly. -/
theorem orderly_of_still (S : Sig) : ∀ e : Expr, e.risky S = false → e.orderly S = true
  | .lit _, _ => rfl
  | .var _, _ => rfl
  | .bin o a b, h => by
    simp only [Expr.risky, Bool.or_eq_false_iff] at h
    simp [Expr.orderly, orderly_of_still S a h.1, orderly_of_still S b h.2, h.2]
  | .land a b, h => by
    simp only [Expr.risky, Bool.or_eq_false_iff] at h
    simp [Expr.orderly, orderly_of_still S a h.1, h.2]
  | .lor a b, h => by
    simp only [Expr.risky, Bool.or_eq_false_iff] at h
    simp [Expr.orderly, orderly_of_still S a h.1, h.2]
  | .tern c a b, h => by
    simp only [Expr.risky, Bool.or_eq_false_iff] at h
    simp [Expr.orderly, orderly_of_still S c h.1.1, h.1.2, h.2]
  | .call f as, h => by
    simp only [Expr.risky, Bool.or_eq_false_iff] at h
    simp [Expr.orderly, orderlyA_of_still S as h.2]
/-- The same for arguments. -/
theorem orderlyA_of_still (S : Sig) : ∀ as : Args, as.risky S = false → as.orderly S = true
  | .nil, _ => rfl
  | .cons e as, h => by
    simp only [Args.risky, Bool.or_eq_false_iff] at h
    simp [Args.orderly, orderly_of_still S e h.1, orderlyA_of_still S as h.2, h.2]
end

mutual
/-- Orderly expressions are compiled right. -/
theorem lowerE_good (S : Sig) (W : World) : ∀ (e : Expr) (fl : Bool) (k : Nat) (h : LStmt) (e' : LExpr) (k' : Nat),
    lowerE S fl e k = some (h, e', k') → e.orderly S = true →
    Good W (fun loc => evalE S W loc e) (fun loc tmp => evalL W loc tmp e') (e.calm S) (e.risky S) h k k'
  | .lit m, fl, k, h, e', k', hl, _ => by
    simp only [lowerE, Option.some.injEq, Prod.mk.injEq] at hl
    obtain ⟨rfl, rfl, rfl⟩ := hl
    constructor
    · exact Nat.le_refl _
    · intro n t v tr' hev
      simp only [evalE, Prod.mk.injEq, Except.ok.injEq] at hev
      obtain ⟨rfl, rfl⟩ := hev
      exact ⟨t, rfl, rfl, fun _ _ => rfl, fun _ _ => by simp [evalL], fun _ => ⟨rfl, fun _ _ _ => by simp [evalL]⟩⟩
    · intro n t e tr' hev
      simp [evalE] at hev
    · intro _ n t
      rfl
  | .var x, fl, k, h, e', k', hl, _ => by
    simp only [lowerE, Option.some.injEq, Prod.mk.injEq] at hl
    obtain ⟨rfl, rfl, rfl⟩ := hl
    constructor
    · exact Nat.le_refl _
    · intro n t v tr' hev
      simp only [evalE, Prod.mk.injEq, Except.ok.injEq] at hev
      obtain ⟨rfl, rfl⟩ := hev
      exact ⟨t, rfl, rfl, fun _ _ => rfl, fun _ _ => by simp [evalL], fun _ => ⟨rfl, fun _ _ _ => by simp [evalL]⟩⟩
    · intro n t e tr' hev
      simp [evalE] at hev
    · intro _ n t
      rfl
  | .bin o a b, fl, k, h, e', k', hl, ho => by
    simp only [lowerE, Option.bind_eq_bind, Option.bind_eq_some_iff, Prod.exists, Option.some.injEq, Prod.mk.injEq] at hl
    obtain ⟨ha, a', k1, hla, hb, b', k2, hlb, rfl, rfl, rfl⟩ := hl
    simp only [Expr.orderly, Bool.and_eq_true] at ho
    have GA := lowerE_good S W a _ _ _ _ _ hla ho.1.1
    have GB := lowerE_good S W b _ _ _ _ _ hlb ho.1.2
    have := Good.pair (fun x y => W.op o x y) GA GB ho.2
    exact this
  | .land a b, fl, k, h, e', k', hl, ho => by
    simp only [lowerE, Option.bind_eq_bind, Option.bind_eq_some_iff, Prod.exists, Option.some.injEq, Prod.mk.injEq] at hl
    obtain ⟨ha, a', k1, hla, hb, b', k2, hlb, rfl, rfl, rfl⟩ := hl
    simp only [Expr.orderly, Bool.and_eq_true, Bool.not_eq_true'] at ho
    have GA := lowerE_good S W a _ _ _ _ _ hla ho.1
    have GB := lowerE_good S W b _ _ _ _ _ hlb (orderly_of_still S b ho.2)
    have := Good.cond (b.calm S)
      (fun x loc tr => if x = 0 then (.ok 0, tr) else (evalE S W loc b tr).andThen fun y tr => (.ok (truth (y ≠ 0)), tr))
      (fun x loc tmp tr => if x = 0 then some (0, tr) else (evalL W loc tmp b' tr).bind fun q => some (truth (q.1 ≠ 0), q.2))
      GA GB.le (GB.quiet ho.2)
      (by
        intro x loc tmp tr
        by_cases hx : x = 0
        · exact ⟨0, tr, by simp [hx], by simp [hx], fun _ => rfl⟩
        · obtain ⟨v, tr', e1, e2, e3⟩ := GB.still ho.2 loc tmp tr
          exact ⟨truth (v ≠ 0), tr', by simp [hx, e1, Ev.andThen], by simp [hx, e2], e3⟩)
      (by
        intro x loc tmp tmp' tr tr' v hc hag hv
        by_cases hx : x = 0
        · simp only [hx, if_true, Option.some.injEq, Prod.mk.injEq] at hv ⊢
          simp [hv.1]
        · simp only [hx, if_false, Option.bind_eq_some_iff, Prod.exists, Option.some.injEq, Prod.mk.injEq] at hv ⊢
          obtain ⟨y, tr2, e1, e2, e3⟩ := hv
          exact ⟨y, tr', GB.fixed ho.2 hc hag e1, e2, rfl⟩)
    simpa [evalE, evalL, Expr.calm, Expr.risky, ho.2] using this
  | .lor a b, fl, k, h, e', k', hl, ho => by
    simp only [lowerE, Option.bind_eq_bind, Option.bind_eq_some_iff, Prod.exists, Option.some.injEq, Prod.mk.injEq] at hl
    obtain ⟨ha, a', k1, hla, hb, b', k2, hlb, rfl, rfl, rfl⟩ := hl
    simp only [Expr.orderly, Bool.and_eq_true, Bool.not_eq_true'] at ho
    have GA := lowerE_good S W a _ _ _ _ _ hla ho.1
    have GB := lowerE_good S W b _ _ _ _ _ hlb (orderly_of_still S b ho.2)
    have := Good.cond (b.calm S)
      (fun x loc tr => if x ≠ 0 then (.ok 1, tr) else (evalE S W loc b tr).andThen fun y tr => (.ok (truth (y ≠ 0)), tr))
      (fun x loc tmp tr => if x ≠ 0 then some (1, tr) else (evalL W loc tmp b' tr).bind fun q => some (truth (q.1 ≠ 0), q.2))
      GA GB.le (GB.quiet ho.2)
      (by
        intro x loc tmp tr
        by_cases hx : x ≠ 0
        · exact ⟨1, tr, by simp [hx], by simp [hx], fun _ => rfl⟩
        · obtain ⟨v, tr', e1, e2, e3⟩ := GB.still ho.2 loc tmp tr
          exact ⟨truth (v ≠ 0), tr', by simp [hx, e1, Ev.andThen], by simp [hx, e2], e3⟩)
      (by
        intro x loc tmp tmp' tr tr' v hc hag hv
        by_cases hx : x ≠ 0
        · rw [if_pos hx] at hv ⊢
          simp only [Option.some.injEq, Prod.mk.injEq] at hv ⊢
          exact ⟨hv.1, trivial⟩
        · rw [if_neg hx] at hv ⊢
          simp only [Option.bind_eq_some_iff, Prod.exists, Option.some.injEq, Prod.mk.injEq] at hv ⊢
          obtain ⟨y, tr2, e1, e2, e3⟩ := hv
          exact ⟨y, tr', GB.fixed ho.2 hc hag e1, e2, rfl⟩)
    simpa [evalE, evalL, Expr.calm, Expr.risky, ho.2] using this
  | .tern c a b, fl, k, h, e', k', hl, ho => by
    simp only [lowerE, Option.bind_eq_bind, Option.bind_eq_some_iff, Prod.exists, Option.some.injEq, Prod.mk.injEq] at hl
    obtain ⟨hc, c', k1, hlc, ha, a', k2, hla, hb, b', k3, hlb, rfl, rfl, rfl⟩ := hl
    simp only [Expr.orderly, Bool.and_eq_true, Bool.not_eq_true'] at ho
    have GC := lowerE_good S W c _ _ _ _ _ hlc ho.1.1
    have GA := lowerE_good S W a _ _ _ _ _ hla (orderly_of_still S a ho.1.2)
    have GB := lowerE_good S W b _ _ _ _ _ hlb (orderly_of_still S b ho.2)
    have := Good.cond (hb := .seq ha hb) (a.calm S && b.calm S)
      (fun x loc tr => if x ≠ 0 then evalE S W loc a tr else evalE S W loc b tr)
      (fun x loc tmp tr => if x ≠ 0 then evalL W loc tmp a' tr else evalL W loc tmp b' tr)
      GC (Nat.le_trans GA.le GB.le)
      (by intro n t; simp [execL, GA.quiet ho.1.2, GB.quiet ho.2])
      (by
        intro x loc tmp tr
        by_cases hx : x ≠ 0
        · obtain ⟨v, tr', e1, e2, e3⟩ := GA.still ho.1.2 loc tmp tr
          exact ⟨v, tr', by simp [hx, e1], by simp [hx, e2], fun h => e3 (by simp at h; exact h.1)⟩
        · obtain ⟨v, tr', e1, e2, e3⟩ := GB.still ho.2 loc tmp tr
          exact ⟨v, tr', by simp [hx, e1], by simp [hx, e2], fun h => e3 (by simp at h; exact h.2)⟩)
      (by
        intro x loc tmp tmp' tr tr' v hc hag hv
        simp only [Bool.and_eq_true] at hc
        by_cases hx : x ≠ 0
        · rw [if_pos hx] at hv ⊢
          exact GA.fixed ho.1.2 hc.1 (fun j h1 h2 => hag j h1 (Nat.lt_of_lt_of_le h2 GB.le)) hv
        · rw [if_neg hx] at hv ⊢
          exact GB.fixed ho.2 hc.2 (fun j h1 h2 => hag j (Nat.le_trans GA.le h1) h2) hv)
    simpa [evalE, evalL, Expr.calm, Expr.risky, ho.1.2, ho.2, Bool.and_assoc] using this
  | .call f as, fl, k, h, e', k', hl, ho => by
    simp only [lowerE, Option.bind_eq_bind, Option.bind_eq_some_iff, Prod.exists] at hl
    obtain ⟨hh, as', k1, hla, hl⟩ := hl
    simp only [Expr.orderly] at ho
    have GA := lowerA_good S W as _ _ _ _ _ hla ho
    split at hl
    · cases hl
    split at hl
    · rename_i hr
      split at hl
      · cases hl
      simp only [Option.some.injEq, Prod.mk.injEq] at hl
      obtain ⟨rfl, rfl, rfl⟩ := hl
      constructor
      · exact Nat.le_succ_of_le GA.le
      · intro n t v tr' hev
        simp only [evalE] at hev
        cases hA : evalA S W t.loc as t.tr with
        | mk r tr1 =>
          cases r with
          | error e => simp [hA, Ev.andThen] at hev
          | ok vs =>
            simp only [hA, Ev.andThen, callOf, hr, if_true, Prod.mk.injEq] at hev
            obtain ⟨hv, rfl⟩ := hev
            obtain ⟨t1, e1, l1, b1, v1, c1⟩ := GA.ok n t vs tr1 hA
            have hv1 := v1 t1.tmp (fun _ _ _ => rfl)
            rw [← l1] at hv1
            refine ⟨⟨t1.loc, tr1 ++ [(f, vs)], upd t1.tmp k1 (some (W.risky f vs tr1))⟩, ?_, l1, ?_, ?_, ?_⟩
            · simp [execL, e1, withL, hv1, hv]
            · intro j hj
              have : j ≠ k1 := by have := GA.le; omega
              simp [this, b1 j hj]
            · intro tmp hag
              have := hag k1 GA.le (Nat.lt_succ_self _)
              simp [evalL, this, hv]
            · intro _
              refine ⟨rfl, fun tmp tr hag => ?_⟩
              have := hag k1 GA.le (Nat.lt_succ_self _)
              simp [evalL, this, hv]
      · intro n t e tr' hev
        simp only [evalE] at hev
        cases hA : evalA S W t.loc as t.tr with
        | mk r tr1 =>
          cases r with
          | error e =>
            simp only [hA, Ev.andThen, Prod.mk.injEq, Except.error.injEq] at hev
            obtain ⟨rfl, rfl⟩ := hev
            simp [execL, GA.exc n t _ _ hA]
          | ok vs =>
            simp only [hA, Ev.andThen, callOf, hr, if_true, Prod.mk.injEq] at hev
            obtain ⟨hv, rfl⟩ := hev
            obtain ⟨t1, e1, l1, b1, v1, c1⟩ := GA.ok n t vs tr1 hA
            have hv1 := v1 t1.tmp (fun _ _ _ => rfl)
            rw [← l1] at hv1
            simp [execL, e1, withL, hv1, hv]
      · intro hq
        simp [Expr.risky, hr] at hq
    · rename_i hr
      simp only [Option.some.injEq, Prod.mk.injEq] at hl
      obtain ⟨rfl, rfl, rfl⟩ := hl
      have hrf : S.raises f = false := by simpa using hr
      constructor
      · exact GA.le
      · intro n t v tr' hev
        simp only [evalE] at hev
        cases hA : evalA S W t.loc as t.tr with
        | mk r tr1 =>
          cases r with
          | error e => simp [hA, Ev.andThen] at hev
          | ok vs =>
            simp only [hA, Ev.andThen, callOf, hrf, Prod.mk.injEq] at hev
            simp only [Bool.false_eq_true, if_false, Except.ok.injEq] at hev
            obtain ⟨rfl, rfl⟩ := hev
            obtain ⟨t1, e1, l1, b1, v1, c1⟩ := GA.ok n t vs tr1 hA
            refine ⟨t1, e1, l1, b1, ?_, ?_⟩
            · intro tmp hag
              simp [evalL, v1 tmp hag]
            · intro hc
              simp [Expr.calm, hrf] at hc
      · intro n t e tr' hev
        simp only [evalE] at hev
        cases hA : evalA S W t.loc as t.tr with
        | mk r tr1 =>
          cases r with
          | error e =>
            simp only [hA, Ev.andThen, Prod.mk.injEq, Except.error.injEq] at hev
            obtain ⟨rfl, rfl⟩ := hev
            exact GA.exc n t _ _ hA
          | ok vs =>
            simp [hA, Ev.andThen, callOf, hrf] at hev
      · intro hq
        simp only [Expr.risky, hrf, Bool.false_or] at hq
        exact GA.quiet hq

/-- The same for arguments. -/
theorem lowerA_good (S : Sig) (W : World) : ∀ (as : Args) (fl : Bool) (k : Nat) (h : LStmt) (as' : LArgs) (k' : Nat),
    lowerA S fl as k = some (h, as', k') → as.orderly S = true →
    Good W (fun loc => evalA S W loc as) (fun loc tmp => evalLA W loc tmp as') (as.calm S) (as.risky S) h k k'
  | .nil, fl, k, h, as', k', hl, _ => by
    simp only [lowerA, Option.some.injEq, Prod.mk.injEq] at hl
    obtain ⟨rfl, rfl, rfl⟩ := hl
    constructor
    · exact Nat.le_refl _
    · intro n t v tr' hev
      simp only [evalA, Prod.mk.injEq, Except.ok.injEq] at hev
      obtain ⟨rfl, rfl⟩ := hev
      exact ⟨t, rfl, rfl, fun _ _ => rfl, fun _ _ => by simp [evalLA], fun _ => ⟨rfl, fun _ _ _ => by simp [evalLA]⟩⟩
    · intro n t e tr' hev
      simp [evalA] at hev
    · intro _ n t
      rfl
  | .cons e as, fl, k, h, as', k', hl, ho => by
    simp only [lowerA, Option.bind_eq_bind, Option.bind_eq_some_iff, Prod.exists, Option.some.injEq, Prod.mk.injEq] at hl
    obtain ⟨ha, a', k1, hla, hb, b', k2, hlb, rfl, rfl, rfl⟩ := hl
    simp only [Args.orderly, Bool.and_eq_true] at ho
    have GA := lowerE_good S W e _ _ _ _ _ hla ho.1.1
    have GB := lowerA_good S W as _ _ _ _ _ hlb ho.1.2
    have := Good.pair (fun x y => x :: y) GA GB ho.2
    exact this
end

end Verif.Raise
