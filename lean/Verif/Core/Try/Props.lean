import Verif.Core.Try.Model
/-!
# Exceptions of the compiler: properties
-/
namespace Verif.Try

/-! ## Specification -/

/-- How a program ends. -/
inductive Res where
  | fin
  | thrown (e : Nat)
deriving DecidableEq

/-- What a program does and how it ends: an exception goes to the closest handler for it. -/
def eval : Prog → List Nat × Res
  | .skip => ([], .fin)
  | .act a => ([a], .fin)
  | .seq p q =>
    match eval p with
    | (l, .fin) => (l ++ (eval q).1, (eval q).2)
    | r => r
  | .throw e => ([], .thrown e)
  | .brk => ([], .fin)
  | .tryP b c h =>
    match eval b with
    | (l, .thrown e) => if c e then (l ++ (eval h).1, (eval h).2) else (l, .thrown e)
    | r => r

/-- The same with a limit: in `k` statements already, and beyond `maxFrames` of them a `RuntimeException`. -/
def evalAt : Nat → Prog → List Nat × Res
  | _, .skip => ([], .fin)
  | _, .act a => ([a], .fin)
  | k, .seq p q =>
    match evalAt k p with
    | (l, .fin) => (l ++ (evalAt k q).1, (evalAt k q).2)
    | r => r
  | _, .throw e => ([], .thrown e)
  | _, .brk => ([], .fin)
  | k, .tryP b c h =>
    if maxFrames ≤ k then ([], .thrown 0)
    else match evalAt (k + 1) b with
      | (l, .thrown e) => if c e then (l ++ (evalAt (k + 1) h).1, (evalAt (k + 1) h).2) else (l, .thrown e)
      | r => r

/-- No `break` is met. -/
def Clean : Nat → Prog → Prop
  | k, .seq p q => Clean k p ∧ Clean k q
  | k, .tryP b c h => Clean (k + 1) b ∧ (Clean (k + 1) h ∨ ∀ e, (evalAt (k + 1) b).2 = .thrown e → c e = false)
  | _, .brk => False
  | _, _ => True

/-- No `break` is written. -/
def NoBreak : Prog → Prop
  | .seq p q => NoBreak p ∧ NoBreak q
  | .tryP b _ h => NoBreak b ∧ NoBreak h
  | .brk => False
  | _ => True

theorem clean_of_noBreak : ∀ (p : Prog) (k : Nat), NoBreak p → Clean k p
  | .skip, _, _ => trivial
  | .act _, _, _ => trivial
  | .throw _, _, _ => trivial
  | .brk, _, h => h.elim
  | .seq p q, k, h => ⟨clean_of_noBreak p k h.1, clean_of_noBreak q k h.2⟩
  | .tryP b _ h, k, hn => ⟨clean_of_noBreak b _ hn.1, .inl (clean_of_noBreak h _ hn.2)⟩

/-- How deep statements nest. -/
def depth : Prog → Nat
  | .seq p q => max (depth p) (depth q)
  | .tryP b _ h => max (depth b) (depth h) + 1
  | _ => 0

/-- Within the limit it makes no difference. -/
theorem evalAt_eq : ∀ (p : Prog) (k : Nat), k + depth p ≤ maxFrames → evalAt k p = eval p
  | .skip, _, _ => rfl
  | .act _, _, _ => rfl
  | .throw _, _, _ => rfl
  | .brk, _, _ => rfl
  | .seq p q, k, h => by
    have h' : k + max (depth p) (depth q) ≤ maxFrames := h
    simp only [evalAt, eval, evalAt_eq p k (by omega), evalAt_eq q k (by omega)]
  | .tryP b c h, k, hd => by
    have h' : k + (max (depth b) (depth h) + 1) ≤ maxFrames := hd
    have hk : ¬ maxFrames ≤ k := by omega
    simp only [evalAt, eval, hk, if_false, evalAt_eq b (k + 1) (by omega), evalAt_eq h (k + 1) (by omega)]

/-! ## Steps -/

theorem upd_same {α : Type} (f : Nat → α) (i : Nat) (v : α) : upd f i v i = v := by simp [upd]
theorem upd_other {α : Type} (f : Nat → α) (i j : Nat) (v : α) (h : j ≠ i) : upd f i v j = f j := by simp [upd, h]

/-- What is unchanged at and below a frame. -/
def Same (s s' : S) : Prop :=
  s'.frames = s.frames ∧ ∀ i, i ≤ s.frames → s'.stage i = s.stage i ∧ s'.unc i = s.unc i

/-- The same, but that the topmost frame has an exception. -/
def Threw (s s' : S) : Prop :=
  s'.frames = s.frames ∧ (∀ i, i ≤ s.frames → s'.stage i = s.stage i) ∧ (∀ i, i < s.frames → s'.unc i = s.unc i)
    ∧ s'.unc s.frames = true

theorem loop_go {n f : Nat} {b h : S → Out} {c : Nat → Bool} {s s1 s2 : S} (hg : hook s = .go s1)
    (hp : part b c h s1 = .done s2 ∨ (part b c h s1 = .jump s2 ∧ s2.frames = f)) :
    loop (n + 1) f b c h s = loop n f b c h s2 := by
  rw [loop.eq_def]
  rcases hp with hp | ⟨hp, hf⟩
  · simp only [hg, hp]
  · simp only [hg, hp, hf, if_true]

theorem loop_stop {n f : Nat} {b h : S → Out} {c : Nat → Bool} {s : S} {o : Out} (hg : hook s = .stop o) :
    loop (n + 1) f b c h s = o := by
  rw [loop.eq_def]
  simp only [hg]

theorem hook_go {s : S} {t : Nat} (h : next (s.stage s.frames) (s.unc s.frames) = t) (ht : t < 4) :
    hook s = .go { s with stage := upd s.stage s.frames t } := by
  simp only [hook, h, ht, if_true]

theorem hook_stop {s : S} {t : Nat} (h : next (s.stage s.frames) (s.unc s.frames) = t) (ht : ¬ t < 4) :
    hook s = .stop (if s.unc s.frames then propagate { s with stage := upd s.stage s.frames t, frames := s.frames - 1 }
      else .done { s with stage := upd s.stage s.frames t, frames := s.frames - 1 }) := by
  simp only [hook, h, ht, if_false]
  cases s.unc s.frames <;> simp

/-- The end of a statement: one that is in the last stage. -/
theorem loop_last {n f : Nat} {b h : S → Out} {c : Nat → Bool} (s : S) (hs : s.stage s.frames = 3) :
    ∃ s', s' = { s with stage := upd s.stage s.frames 4, frames := s.frames - 1 } ∧
      loop (n + 1) f b c h s = if s.unc s.frames then propagate s' else .done s' :=
  ⟨_, rfl, loop_stop (hook_stop (by simp [next, hs]) (by decide))⟩

/-- From finalizing, with nothing to finalize. -/
theorem loop_fin {n f t : Nat} {b h : S → Out} {c : Nat → Bool} (s : S) (hs : s.stage s.frames = t)
    (ht : next t (s.unc s.frames) = 3) :
    ∃ s', s' = { s with stage := upd (upd s.stage s.frames 3) s.frames 4, frames := s.frames - 1 } ∧
      loop (n + 2) f b c h s = if s.unc s.frames then propagate s' else .done s' := by
  have hg : hook s = .go { s with stage := upd s.stage s.frames 3 } := hook_go (by rw [hs, ht]) (by decide)
  have hp : part b c h { s with stage := upd s.stage s.frames 3 } = .done { s with stage := upd s.stage s.frames 3 } := by
    simp [part, upd_same]
  rw [loop_go hg (.inl hp)]
  obtain ⟨s', h1, h2⟩ := loop_last (n := n) (f := f) (b := b) (h := h) (c := c) { s with stage := upd s.stage s.frames 3 }
    (by simp [upd_same])
  exact ⟨s', h1, h2⟩

/-! ## Programs without `break` -/

/-- What the machine does for an outcome of the specification. -/
def Meets (p : Prog) (s : S) : Res → List Nat → Prop
  | .fin, l => ∃ s', exec p s = .done s' ∧ Same s s' ∧ s'.log = s.log ++ l
  | .thrown e, l => ∃ s', exec p s = (if 0 < s.frames then .jump s' else .exit s') ∧ Threw s s' ∧ s'.err = e ∧ s'.log = s.log ++ l

theorem throwE_meets (e : Nat) (s : S) :
    ∃ s', throwE e s = (if 0 < s.frames then .jump s' else .exit s') ∧ Threw s s' ∧ s'.err = e ∧ s'.log = s.log := by
  refine ⟨{ s with err := e, unc := upd s.unc s.frames true }, rfl, ⟨rfl, fun _ _ => rfl, ?_, upd_same _ _ _⟩, rfl, rfl⟩
  intro i hi
  exact upd_other _ _ _ _ (by omega)

/-- A statement that comes to its end without an exception. -/
theorem end_done {s t : S} {f : Nat} (hf : t.frames = s.frames + 1)
    (hst : ∀ i, i ≤ s.frames → t.stage i = s.stage i) (hu : ∀ i, i ≤ s.frames → t.unc i = s.unc i) :
    Same s { t with stage := upd (upd t.stage t.frames 3) t.frames f, frames := t.frames - 1 } := by
  refine ⟨by simp [hf], fun i hi => ?_⟩
  simp only []
  rw [upd_other _ _ _ _ (by omega), upd_other _ _ _ _ (by omega)]
  exact ⟨hst i hi, hu i hi⟩

/-- A statement that ends with an exception. -/
theorem end_throw {s t : S} (hf : t.frames = s.frames + 1)
    (hst : ∀ i, i ≤ s.frames → t.stage i = s.stage i) (hu : ∀ i, i ≤ s.frames → t.unc i = s.unc i) :
    ∃ s', propagate { t with stage := upd (upd t.stage t.frames 3) t.frames 4, frames := t.frames - 1 } =
      (if 0 < s.frames then .jump s' else .exit s') ∧ Threw s s' ∧ s'.err = t.err ∧ s'.log = t.log := by
  have he : t.frames - 1 = s.frames := by omega
  refine ⟨{ t with stage := upd (upd t.stage t.frames 3) t.frames 4, frames := s.frames, unc := upd t.unc s.frames true }, ?_, ?_,
    rfl, rfl⟩
  · simp only [propagate, he]
  · refine ⟨rfl, fun i hi => ?_, fun i hi => ?_, upd_same _ _ _⟩
    · simp only []
      rw [upd_other _ _ _ _ (by omega), upd_other _ _ _ _ (by omega)]
      exact hst i hi
    · simp only []
      rw [upd_other _ _ _ _ (by omega)]
      exact hu i (by omega)

theorem exec_meets : ∀ (p : Prog) (s : S), Clean s.frames p → Meets p s (evalAt s.frames p).2 (evalAt s.frames p).1
  | .skip, s, _ => ⟨s, rfl, ⟨rfl, fun _ _ => ⟨rfl, rfl⟩⟩, by simp [evalAt]⟩
  | .act a, s, _ => ⟨_, rfl, ⟨rfl, fun _ _ => ⟨rfl, rfl⟩⟩, rfl⟩
  | .throw e, s, _ => by
    obtain ⟨s', h1, h2, h3, h4⟩ := throwE_meets e s
    exact ⟨s', h1, h2, h3, by simp [h4, evalAt]⟩
  | .brk, _, hc => hc.elim
  | .seq p q, s, hc => by
    have hp := exec_meets p s hc.1
    simp only [evalAt]
    rcases hv : evalAt s.frames p with ⟨l, r⟩
    rw [hv] at hp
    cases r with
    | thrown e =>
      obtain ⟨s', h1, h2, h3, h4⟩ := hp
      refine ⟨s', ?_, h2, h3, h4⟩
      simp only [exec, h1]
      by_cases h : 0 < s.frames <;> simp [h]
    | fin =>
      obtain ⟨s', h1, h2, h3⟩ := hp
      have hf : s'.frames = s.frames := h2.1
      have hq := exec_meets q s' (by rw [hf]; exact hc.2)
      rw [hf] at hq
      simp only []
      rcases hw : evalAt s.frames q with ⟨l', r'⟩
      rw [hw] at hq
      cases r' with
      | fin =>
        obtain ⟨s2, g1, g2, g3⟩ := hq
        refine ⟨s2, by simp only [exec, h1, g1], ⟨g2.1.trans hf, fun i hi => ?_⟩, by rw [g3, h3, List.append_assoc]⟩
        have a := g2.2 i (by omega)
        have b := h2.2 i hi
        exact ⟨a.1.trans b.1, a.2.trans b.2⟩
      | thrown e =>
        obtain ⟨s2, g1, g2, g3, g4⟩ := hq
        refine ⟨s2, by simp only [exec, h1, g1, hf], ⟨g2.1.trans hf, fun i hi => ?_, fun i hi => ?_, ?_⟩, g3,
          by rw [g4, h3, List.append_assoc]⟩
        · exact (g2.2.1 i (by omega)).trans (h2.2 i hi).1
        · exact (g2.2.2.1 i (by omega)).trans (h2.2 i (by omega)).2
        · rw [← hf]; exact g2.2.2.2
  | .tryP b c h, s, hc => by
    by_cases hlt : maxFrames ≤ s.frames
    · obtain ⟨s', h1, h2, h3, h4⟩ := throwE_meets 0 s
      simp only [evalAt, hlt, if_true]
      exact ⟨s', by simp only [exec, hlt, if_true, h1], h2, h3, by simp [h4]⟩
    -- the state with the new frame, once in the stage of trying
    generalize hs0 : S.mk (s.frames + 1) (upd s.stage (s.frames + 1) 0) (upd s.unc (s.frames + 1) false) s.err s.log = s0
    have hex : exec (.tryP b c h) s = loop 8 (s.frames + 1) (exec b) c (exec h) s0 := by
      simp only [exec, hlt, if_false, ← hs0]
    have f0 : s0.frames = s.frames + 1 := by rw [← hs0]
    have t0 : s0.stage s0.frames = 0 := by rw [← hs0]; simp [upd_same]
    have hg0 : hook s0 = .go { s0 with stage := upd s0.stage s0.frames 1 } := hook_go (by simp [next, t0]) (by decide)
    generalize hs1 : ({ s0 with stage := upd s0.stage s0.frames 1 } : S) = s1 at hg0
    have f1 : s1.frames = s.frames + 1 := by rw [← hs1]; exact f0
    have t1 : s1.stage s1.frames = 1 := by rw [← hs1]; simp [upd_same]
    have u1 : s1.unc s1.frames = false := by rw [← hs1, ← hs0]; simp [upd_same]
    have l1 : s1.log = s.log := by rw [← hs1, ← hs0]
    have b1 : ∀ i, i ≤ s.frames → s1.stage i = s.stage i ∧ s1.unc i = s.unc i := by
      intro i hi
      rw [← hs1, ← hs0]
      simp only []
      rw [upd_other _ _ _ _ (by omega), upd_other _ _ _ _ (by omega), upd_other _ _ _ _ (by omega)]
      exact ⟨rfl, rfl⟩
    have hp1 : part (exec b) c (exec h) s1 = exec b s1 := by simp [part, t1]
    have hb := exec_meets b s1 (by rw [f1]; exact hc.1)
    rw [f1] at hb
    simp only [evalAt, hlt, if_false]
    rcases hv : evalAt (s.frames + 1) b with ⟨l, r⟩
    rw [hv] at hb
    cases r with
    | fin =>
      obtain ⟨s2, g1, g2, g3⟩ := hb
      have f2 : s2.frames = s.frames + 1 := g2.1.trans f1
      have t2 : s2.stage s2.frames = 1 := by rw [g2.1]; exact (g2.2 _ (Nat.le_refl _)).1.trans t1
      have u2 : s2.unc s2.frames = false := by rw [g2.1]; exact (g2.2 _ (Nat.le_refl _)).2.trans u1
      obtain ⟨s', e1, e2⟩ := loop_fin (n := 5) (f := s.frames + 1) (b := exec b) (h := exec h) (c := c) s2 t2 (by simp [next, u2])
      refine ⟨s', ?_, ?_, ?_⟩
      · rw [hex, loop_go hg0 (.inl (hp1.trans g1)), e2, u2]; rfl
      · rw [e1]
        refine end_done f2 (fun i hi => ?_) (fun i hi => ?_)
        · exact (g2.2 i (by omega)).1.trans (b1 i hi).1
        · exact (g2.2 i (by omega)).2.trans (b1 i hi).2
      · rw [e1]; simp only []; rw [g3, l1]
    | thrown e =>
      obtain ⟨s2, g1, g2, g3, g4⟩ := hb
      rw [if_pos (by omega)] at g1
      have f2 : s2.frames = s.frames + 1 := g2.1.trans f1
      have t2 : s2.stage s2.frames = 1 := by rw [g2.1]; exact (g2.2.1 _ (Nat.le_refl _)).trans t1
      have u2 : s2.unc s2.frames = true := by rw [g2.1]; exact g2.2.2.2
      have b2 : ∀ i, i ≤ s.frames → s2.stage i = s.stage i ∧ s2.unc i = s.unc i := by
        intro i hi
        exact ⟨(g2.2.1 i (by omega)).trans (b1 i hi).1, (g2.2.2.1 i (by omega)).trans (b1 i hi).2⟩
      have hg2 : hook s2 = .go { s2 with stage := upd s2.stage s2.frames 2 } := hook_go (by simp [next, t2, u2]) (by decide)
      have first : exec (.tryP b c h) s = loop 7 (s.frames + 1) (exec b) c (exec h) s2 := by
        rw [hex, loop_go hg0 (.inr ⟨hp1.trans g1, f2⟩)]
      by_cases hce : c e = true
      · -- caught
        simp only [hce, if_true]
        generalize hs3 : ({ s2 with stage := upd s2.stage s2.frames 2, unc := upd s2.unc s2.frames false } : S) = s3
        have hp3 : part (exec b) c (exec h) { s2 with stage := upd s2.stage s2.frames 2 } = exec h s3 := by
          simp [part, upd_same, g3, hce, ← hs3]
        have f3 : s3.frames = s.frames + 1 := by rw [← hs3]; exact f2
        have t3 : s3.stage s3.frames = 2 := by rw [← hs3]; simp [upd_same]
        have u3 : s3.unc s3.frames = false := by rw [← hs3]; simp [upd_same]
        have l3 : s3.log = s.log ++ l := by rw [← hs3]; simp only []; rw [g4, l1]
        have b3 : ∀ i, i ≤ s.frames → s3.stage i = s.stage i ∧ s3.unc i = s.unc i := by
          intro i hi
          rw [← hs3]
          simp only []
          rw [upd_other _ _ _ _ (by omega), upd_other _ _ _ _ (by omega)]
          exact b2 i hi
        have hch : Clean (s.frames + 1) h := by
          rcases hc.2 with h1 | h1
          · exact h1
          · have := h1 e (by rw [hv])
            rw [hce] at this
            cases this
        have hh := exec_meets h s3 (by rw [f3]; exact hch)
        rw [f3] at hh
        rcases hw : evalAt (s.frames + 1) h with ⟨l', r'⟩
        rw [hw] at hh
        cases r' with
        | fin =>
          obtain ⟨s4, k1, k2, k3⟩ := hh
          have f4 : s4.frames = s.frames + 1 := k2.1.trans f3
          have t4 : s4.stage s4.frames = 2 := by rw [k2.1]; exact (k2.2 _ (Nat.le_refl _)).1.trans t3
          have u4 : s4.unc s4.frames = false := by rw [k2.1]; exact (k2.2 _ (Nat.le_refl _)).2.trans u3
          obtain ⟨s', e1, e2⟩ := loop_fin (n := 4) (f := s.frames + 1) (b := exec b) (h := exec h) (c := c) s4 t4 (by simp [next])
          refine ⟨s', ?_, ?_, ?_⟩
          · rw [first, loop_go hg2 (.inl (hp3.trans k1)), e2, u4]; rfl
          · rw [e1]
            refine end_done f4 (fun i hi => ?_) (fun i hi => ?_)
            · exact (k2.2 i (by omega)).1.trans (b3 i hi).1
            · exact (k2.2 i (by omega)).2.trans (b3 i hi).2
          · rw [e1]; simp only []; rw [k3, l3, List.append_assoc]
        | thrown e' =>
          obtain ⟨s4, k1, k2, k3, k4⟩ := hh
          rw [if_pos (by omega)] at k1
          have f4 : s4.frames = s.frames + 1 := k2.1.trans f3
          have t4 : s4.stage s4.frames = 2 := by rw [k2.1]; exact (k2.2.1 _ (Nat.le_refl _)).trans t3
          have u4 : s4.unc s4.frames = true := by rw [k2.1]; exact k2.2.2.2
          obtain ⟨s', e1, e2⟩ := loop_fin (n := 4) (f := s.frames + 1) (b := exec b) (h := exec h) (c := c) s4 t4 (by simp [next])
          obtain ⟨s5, m1, m2, m3, m4⟩ := end_throw (s := s) (t := s4) f4
            (fun i hi => (k2.2.1 i (by omega)).trans (b3 i hi).1) (fun i hi => (k2.2.2.1 i (by omega)).trans (b3 i hi).2)
          refine ⟨s5, ?_, m2, m3.trans k3, by rw [m4, k4, l3, List.append_assoc]⟩
          rw [first, loop_go hg2 (.inr ⟨hp3.trans k1, f4⟩), e2, u4, if_pos rfl, e1]
          exact m1
      · -- not caught
        simp only [hce, Bool.false_eq_true, if_false]
        have hp3 : part (exec b) c (exec h) { s2 with stage := upd s2.stage s2.frames 2 } =
            .done { s2 with stage := upd s2.stage s2.frames 2 } := by
          simp [part, upd_same, g3, hce]
        obtain ⟨s', e1, e2⟩ := loop_fin (n := 4) (f := s.frames + 1) (b := exec b) (h := exec h) (c := c)
          { s2 with stage := upd s2.stage s2.frames 2 } (t := 2) (by simp [upd_same]) (by simp [next])
        obtain ⟨s5, m1, m2, m3, m4⟩ := end_throw (s := s) (t := { s2 with stage := upd s2.stage s2.frames 2 }) f2
          (fun i hi => by simp only []; rw [upd_other _ _ _ _ (by omega)]; exact (b2 i hi).1) (fun i hi => (b2 i hi).2)
        refine ⟨s5, ?_, m2, m3.trans g3, ?_⟩
        · rw [first, loop_go hg2 (.inl hp3), e2, e1]
          simp only [u2, if_true]
          exact m1
        · rw [m4]; simp only []; rw [g4, l1]

/-- **An exception goes to the closest handler for it**: what is done and how it ends is as specified, for all programs without `break` that do
not nest deeper than there are frames; where nothing catches, the process exits with the exception. -/
theorem try_right_partial (p : Prog) (hc : NoBreak p) (hd : depth p ≤ 16) :
    ((eval p).2 = .fin → ∃ s, exec p start = .done s ∧ s.frames = 0 ∧ s.log = (eval p).1) ∧
    (∀ e, (eval p).2 = .thrown e → ∃ s, exec p start = .exit s ∧ s.err = e ∧ s.log = (eval p).1) := by
  have h := exec_meets p start (clean_of_noBreak p _ hc)
  rw [evalAt_eq p start.frames (by simpa [start, maxFrames] using hd)] at h
  rcases hv : eval p with ⟨l, r⟩
  rw [hv] at h
  cases r with
  | fin =>
    obtain ⟨s', h1, h2, h3⟩ := h
    exact ⟨fun _ => ⟨s', h1, h2.1, by simpa [start] using h3⟩, fun _ h => by simp at h⟩
  | thrown e =>
    obtain ⟨s', h1, h2, h3, h4⟩ := h
    refine ⟨fun h => by simp at h, fun e' he => ⟨s', h1, ?_, by simpa [start] using h4⟩⟩
    cases he
    exact h3

/-! ## Blocks in blocks -/

theorem evalAt_nest (a : Nat) : ∀ (n k : Nat), evalAt k (nest n (.act a)) =
    if n = 0 ∨ k + n ≤ maxFrames then ([a], .fin) else ([], .thrown 0)
  | 0, k => by simp [nest, evalAt]
  | n + 1, k => by
    simp only [nest, inBlock, evalAt, evalAt_nest a n (k + 1)]
    by_cases h : maxFrames ≤ k
    · simp [h]; omega
    · by_cases h2 : k + (n + 1) ≤ maxFrames
      · have : n = 0 ∨ k + 1 + n ≤ maxFrames := by omega
        simp [h, h2, this]
      · have : ¬ (n = 0 ∨ k + 1 + n ≤ maxFrames) := by omega
        simp [h, h2, this, isPE]

theorem clean_nest (a : Nat) : ∀ (n k : Nat), Clean k (nest n (.act a))
  | 0, _ => trivial
  | n + 1, k => by
    refine ⟨clean_nest a n (k + 1), .inr fun e he => ?_⟩
    rw [evalAt_nest] at he
    split at he
    · simp at he
    · cases he; rfl

theorem decl_nest (a n k : Nat) (hk : k < maxFrames) : evalAt k (decl (nest n (.act a))) =
    if k + n < maxFrames then ([a], .fin) else ([], .thrown 0) := by
  simp only [decl, evalAt, evalAt_nest, Nat.not_le.2 hk, if_false]
  by_cases h : k + n < maxFrames
  · have : n = 0 ∨ k + 1 + n ≤ maxFrames := by omega
    simp [h, this]
  · have : ¬ (n = 0 ∨ k + 1 + n ≤ maxFrames) := by omega
    simp [h, this, isPE]

theorem clean_decl (a n k : Nat) : Clean k (decl (nest n (.act a))) := ⟨clean_nest a n _, .inl trivial⟩

/-- **A function is parsed exactly if it has no more than 15 blocks in one another**; else the compiler exits, with no error in the
program. -/
theorem nested_iff (a n : Nat) : (∃ s, exec (decl (nest n (.act a))) start = .done s ∧ s.log = [a]) ↔ n ≤ 15 := by
  have h := exec_meets _ start (clean_decl a n start.frames)
  rw [show start.frames = 0 from rfl, decl_nest a n 0 (by decide)] at h
  by_cases hn : 0 + n < maxFrames
  · simp only [hn, if_true] at h
    obtain ⟨s', h1, _, h3⟩ := h
    exact ⟨fun _ => by simp [maxFrames] at hn; omega, fun _ => ⟨s', h1, by simpa [start] using h3⟩⟩
  · simp only [hn, if_false] at h
    obtain ⟨s', h1, _⟩ := h
    constructor
    · rintro ⟨s, g, _⟩
      rw [h1] at g
      simp [start] at g
    · intro h; simp [maxFrames] at hn; omega

/-- It exits with a `RuntimeException`, and nothing was parsed. -/
theorem nested_exits (a n : Nat) (h : 15 < n) : ∃ s, exec (decl (nest n (.act a))) start = .exit s ∧ s.err = 0 ∧ s.log = [] := by
  have hm := exec_meets _ start (clean_decl a n start.frames)
  rw [show start.frames = 0 from rfl, decl_nest a n 0 (by decide), if_neg (by simp [maxFrames]; omega)] at hm
  obtain ⟨s', h1, _, h3, h4⟩ := hm
  exact ⟨s', h1, h3, by simpa [start] using h4⟩

/-! ## Errors in blocks -/

/-- **An error in a block costs a frame**: the handler's `break` leaves the loop that would give it back. -/
theorem bad_step (a : Nat) (s : S) (h : s.frames < 15) :
    ∃ s', exec (badDecl a) s = .done s' ∧ s'.frames = s.frames + 1 ∧ s'.log = s.log ++ [a] := by
  have h1 : ¬ 16 ≤ s.frames := by omega
  have h2 : ¬ 16 ≤ s.frames + 1 := by omega
  simp [badDecl, decl, inBlock, bad, exec, maxFrames, h1, h2, loop, hook, next, part, upd, throwE, propagate, isPE]

theorem bad_last (a : Nat) (s : S) (h : s.frames = 15) :
    ∃ s', exec (badDecl a) s = .jump s' ∧ s'.frames = 15 ∧ s'.log = s.log ∧ s'.err = 0 := by
  simp [badDecl, decl, inBlock, bad, exec, maxFrames, h, loop, hook, next, part, upd, throwE, propagate, isPE]

theorem bads_exec : ∀ (as : List Nat) (s : S), s.frames ≤ 15 →
    (s.frames + as.length ≤ 15 → ∃ s', exec (decls (as.map badDecl)) s = .done s' ∧ s'.frames = s.frames + as.length ∧
      s'.log = s.log ++ as) ∧
    (15 < s.frames + as.length → ∃ s', exec (decls (as.map badDecl)) s = .jump s' ∧ s'.frames = 15 ∧ s'.err = 0 ∧
      s'.log = s.log ++ as.take (15 - s.frames))
  | [], s, h => ⟨fun _ => ⟨s, rfl, rfl, by simp⟩, fun h' => by simp at h'; omega⟩
  | a :: as, s, h => by
    by_cases hs : s.frames = 15
    · obtain ⟨s', h1, h2, h3, h4⟩ := bad_last a s hs
      refine ⟨fun h' => by simp at h'; omega, fun _ => ⟨s', ?_, h2, h4, by simp [h3, hs]⟩⟩
      simp only [List.map_cons, decls, exec, h1]
    · obtain ⟨s1, h1, h2, h3⟩ := bad_step a s (by omega)
      obtain ⟨i1, i2⟩ := bads_exec as s1 (by omega)
      have he : exec (decls ((a :: as).map badDecl)) s = exec (decls (as.map badDecl)) s1 := by
        simp only [List.map_cons, decls, exec, h1]
      rw [he]
      simp only [List.length_cons]
      constructor
      · intro hl
        obtain ⟨s', g1, g2, g3⟩ := i1 (by omega)
        exact ⟨s', g1, by omega, by rw [g3, h3, List.append_assoc]; rfl⟩
      · intro hl
        obtain ⟨s', g1, g2, g3, g4⟩ := i2 (by omega)
        refine ⟨s', g1, g2, g3, ?_⟩
        have : 15 - s.frames = (15 - s1.frames) + 1 := by omega
        rw [g4, h3, this, List.append_assoc]; rfl

/-- **All functions with an error in their body are gone through exactly if there are no more than 15.** -/
theorem errors_iff (as : List Nat) : (∃ s, exec (decls (as.map badDecl)) start = .done s ∧ s.log = as) ↔ as.length ≤ 15 := by
  obtain ⟨h1, h2⟩ := bads_exec as start (by simp [start])
  constructor
  · rintro ⟨s, g, _⟩
    by_cases h : as.length ≤ 15
    · exact h
    · obtain ⟨s', k, _⟩ := h2 (by simp [start]; omega)
      rw [k] at g
      cases g
  · intro h
    obtain ⟨s', g1, _, g3⟩ := h1 (by simpa [start] using h)
    exact ⟨s', g1, by simpa [start] using g3⟩

/-- **The sixteenth error is not reported**, nor any behind it: control goes back to a statement that was left before. -/
theorem errors_lost (as : List Nat) (h : 15 < as.length) :
    ∃ s, exec (decls (as.map badDecl)) start = .jump s ∧ s.err = 0 ∧ s.log = as.take 15 := by
  obtain ⟨_, h2⟩ := bads_exec as start (by simp [start])
  obtain ⟨s', g1, _, g3, g4⟩ := h2 (by simpa [start] using h)
  exact ⟨s', g1, g3, by simpa [start] using g4⟩

/-- **Behind functions with errors a function is parsed exactly if errors and blocks are no more than 15 together.** -/
theorem after_errors_iff (as : List Nat) (a n : Nat) (h : as.length ≤ 15) :
    (∃ s, exec (.seq (decls (as.map badDecl)) (decl (nest n (.act a)))) start = .done s ∧ s.log = as ++ [a]) ↔ as.length + n ≤ 15 := by
  obtain ⟨h1, _⟩ := bads_exec as start (by simp [start])
  obtain ⟨s', g1, g2, g3⟩ := h1 (by simpa [start] using h)
  have g2' : s'.frames = as.length := by simpa [start] using g2
  have g3' : s'.log = as := by simpa [start] using g3
  have he : exec (.seq (decls (as.map badDecl)) (decl (nest n (.act a)))) start = exec (decl (nest n (.act a))) s' := by
    simp only [exec, g1]
  rw [he]
  have hm := exec_meets _ s' (clean_decl a n s'.frames)
  rw [decl_nest a n s'.frames (by simp [maxFrames]; omega)] at hm
  by_cases hn : s'.frames + n < maxFrames
  · simp only [hn, if_true] at hm
    obtain ⟨s2, k1, _, k3⟩ := hm
    exact ⟨fun _ => by simp [maxFrames] at hn; omega, fun _ => ⟨s2, k1, by rw [k3, g3']⟩⟩
  · simp only [hn, if_false] at hm
    obtain ⟨s2, k1, _⟩ := hm
    constructor
    · rintro ⟨s, g, _⟩
      rw [k1] at g
      split at g <;> cases g
    · intro h; simp [maxFrames] at hn; omega

/-! ### At any depth -/

/-- A state with one frame too many, which was never caught in. -/
def Late (s s' : S) : Prop :=
  s'.frames = s.frames + 1 ∧ (s'.stage (s.frames + 1) = 1 ∨ s'.stage (s.frames + 1) = 2) ∧ s'.unc (s.frames + 1) = false ∧
    ∀ i, i ≤ s.frames → s'.stage i = s.stage i ∧ s'.unc i = s.unc i

theorem late_bad (a : Nat) (s : S) (h : s.frames < maxFrames) :
    ∃ s', exec (inBlock (bad a)) s = .done s' ∧ Late s s' ∧ s'.log = s.log ++ [a] := by
  have h1 : ¬ 16 ≤ s.frames := by simp [maxFrames] at h; omega
  simp [inBlock, bad, exec, maxFrames, h1, loop, hook, next, part, upd, throwE, propagate, isPE, Late]
  intro i hi
  have : i ≠ s.frames + 1 := by omega
  simp [this]

/-- **The frame too many is handed on**: a statement around gives back the one within, and keeps its own. -/
theorem late_try (b : Prog) (c : Nat → Bool) (h : Prog) (l : List Nat) (s : S) (hlt : s.frames < maxFrames)
    (hb : ∀ s1 : S, s1.frames = s.frames + 1 → ∃ s2, exec b s1 = .done s2 ∧ Late s1 s2 ∧ s2.log = s1.log ++ l) :
    ∃ s', exec (.tryP b c h) s = .done s' ∧ Late s s' ∧ s'.log = s.log ++ l := by
  generalize hs0 : S.mk (s.frames + 1) (upd s.stage (s.frames + 1) 0) (upd s.unc (s.frames + 1) false) s.err s.log = s0
  have hex : exec (.tryP b c h) s = loop 8 (s.frames + 1) (exec b) c (exec h) s0 := by
    simp only [exec, Nat.not_le.2 hlt, if_false, ← hs0]
  have f0 : s0.frames = s.frames + 1 := by rw [← hs0]
  have t0 : s0.stage s0.frames = 0 := by rw [← hs0]; simp [upd_same]
  have hg0 : hook s0 = .go { s0 with stage := upd s0.stage s0.frames 1 } := hook_go (by simp [next, t0]) (by decide)
  generalize hs1 : ({ s0 with stage := upd s0.stage s0.frames 1 } : S) = s1 at hg0
  have f1 : s1.frames = s.frames + 1 := by rw [← hs1]; exact f0
  have t1 : s1.stage (s.frames + 1) = 1 := by rw [← f1, ← hs1]; simp [upd_same]
  have u1 : s1.unc (s.frames + 1) = false := by rw [← hs1, ← hs0]; simp [upd_same]
  have l1 : s1.log = s.log := by rw [← hs1, ← hs0]
  have b1 : ∀ i, i ≤ s.frames → s1.stage i = s.stage i ∧ s1.unc i = s.unc i := by
    intro i hi
    rw [← hs1, ← hs0]
    simp only []
    rw [upd_other _ _ _ _ (by omega), upd_other _ _ _ _ (by omega), upd_other _ _ _ _ (by omega)]
    exact ⟨rfl, rfl⟩
  have hp1 : part (exec b) c (exec h) s1 = exec b s1 := by simp [part, f1, t1]
  obtain ⟨s2, g1, ⟨k1, k2, k3, k4⟩, g3⟩ := hb s1 f1
  have u2 : s2.unc s2.frames = false := by rw [k1]; exact k3
  have hn : next (s2.stage s2.frames) (s2.unc s2.frames) = 3 := by
    rw [u2, k1]
    rcases k2 with k2 | k2 <;> simp [next, k2]
  obtain ⟨s', e1, e2⟩ := loop_fin (n := 5) (f := s.frames + 1) (b := exec b) (h := exec h) (c := c) s2 rfl hn
  have f2 : s2.frames = s.frames + 2 := by omega
  refine ⟨s', ?_, ⟨?_, ?_, ?_, fun i hi => ?_⟩, ?_⟩
  · rw [hex, loop_go hg0 (.inl (hp1.trans g1)), e2, u2]; rfl
  · rw [e1]; simp only []; omega
  · rw [e1]
    simp only []
    rw [upd_other _ _ _ _ (by omega), upd_other _ _ _ _ (by omega), (k4 _ (by omega)).1]
    exact .inl t1
  · rw [e1]; simp only []; rw [(k4 _ (by omega)).2]; exact u1
  · rw [e1]
    simp only []
    rw [upd_other _ _ _ _ (by omega), upd_other _ _ _ _ (by omega), (k4 i (by omega)).1, (k4 i (by omega)).2]
    exact b1 i hi
  · rw [e1]; simp only []; rw [g3, l1]

theorem late_nest (a : Nat) : ∀ (m : Nat) (s : S), s.frames + m < maxFrames →
    ∃ s', exec (nest (m + 1) (bad a)) s = .done s' ∧ Late s s' ∧ s'.log = s.log ++ [a]
  | 0, s, h => late_bad a s h
  | m + 1, s, h => late_try _ _ _ _ s (by omega) fun s1 h1 => late_nest a m s1 (by omega)

/-- A function with an error inside of `m + 1` blocks. -/
def badAt (x : Nat × Nat) : Prog := decl (nest (x.2 + 1) (bad x.1))

/-- **An error costs one frame no matter how deep it is.** -/
theorem badAt_step (x : Nat × Nat) (s : S) (h : s.frames + x.2 < 15) :
    ∃ s', exec (badAt x) s = .done s' ∧ s'.frames = s.frames + 1 ∧ s'.log = s.log ++ [x.1] := by
  obtain ⟨s', h1, h2, h3⟩ := late_try (nest (x.2 + 1) (bad x.1)) isPE .skip [x.1] s (by simp [maxFrames]; omega)
    fun s1 h1 => late_nest x.1 x.2 s1 (by simp [maxFrames]; omega)
  exact ⟨s', h1, h2.1, h3⟩

/-- Each error has as many frames left as it is deep. -/
def Fits : Nat → List (Nat × Nat) → Prop
  | _, [] => True
  | k, x :: xs => k + x.2 < 15 ∧ Fits (k + 1) xs

theorem badsAt_exec : ∀ (xs : List (Nat × Nat)) (s : S), Fits s.frames xs →
    ∃ s', exec (decls (xs.map badAt)) s = .done s' ∧ s'.frames = s.frames + xs.length ∧ s'.log = s.log ++ xs.map (·.1)
  | [], s, _ => ⟨s, rfl, rfl, by simp⟩
  | x :: xs, s, h => by
    obtain ⟨s1, h1, h2, h3⟩ := badAt_step x s h.1
    obtain ⟨s', g1, g2, g3⟩ := badsAt_exec xs s1 (by rw [h2]; exact h.2)
    refine ⟨s', by simp only [List.map_cons, decls, exec, h1, g1], by simp only [List.length_cons]; omega, ?_⟩
    rw [g3, h3, List.append_assoc]
    rfl

/-- **Errors at any depth are all reported as long as there are frames**, in order. -/
theorem errors_reported_partial (xs : List (Nat × Nat)) (h : Fits 0 xs) :
    ∃ s, exec (decls (xs.map badAt)) start = .done s ∧ s.frames = xs.length ∧ s.log = xs.map (·.1) := by
  obtain ⟨s', h1, h2, h3⟩ := badsAt_exec xs start h
  exact ⟨s', h1, by simpa [start] using h2, by simpa [start] using h3⟩

/-! ## Cases -/

/-- Raised in a statement in a statement, caught by the outer one, with something done before, and in the handler. -/
def sample : Prog := .seq (.tryP (.seq (.act 1) (.tryP (.throw 2) (· == 1) (.act 9))) (· == 2) (.act 3)) (.act 4)
example : eval sample = ([1, 3, 4], .fin) := by decide
example := (try_right_partial sample ⟨⟨⟨trivial, ⟨trivial, trivial⟩⟩, trivial⟩, trivial⟩ (by decide)).1 (by decide)
/-- Raised again by a handler, and not caught. -/
example := (try_right_partial (.tryP (.throw 1) (· == 1) (.throw 2)) ⟨trivial, trivial⟩ (by decide)).2 2 (by decide)
example := (nested_iff 7 15).2 (by decide)
example := nested_exits 7 16 (by decide)
example := (errors_iff [1, 2, 3]).2 (by decide)
example := errors_lost (List.replicate 16 1) (by decide)
example := (after_errors_iff [1, 2, 3] 7 12 (by decide)).2 (by decide)
/-- Errors inside of three blocks, one and two. -/
example := errors_reported_partial [(1, 2), (2, 0), (3, 1)] ⟨by decide, by decide, by decide, trivial⟩

end Verif.Try
