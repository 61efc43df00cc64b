import Verif.Std.EvLoop.Polls
/-!
# Properties of the scheduler and its event loop
-/
namespace Verif.EvLoop
open Verif.ListQ (Holds)

/-- An execution: every event is the scheduler's turn for it, and the program and its surroundings keep to `Proper`. -/
def Allowed (f : Nat) : Sys → Spec → List Event → Prop
  | _, _, [] => True
  | s, a, e :: es => Turn s e ∧ Proper a e ∧ ∀ s', step f s e = .ok s' → Allowed f s' (a.step e) es

def Spec.run (a : Spec) : List Event → Spec
  | [] => a
  | e :: es => (a.step e).run es

theorem Spec.run_append (a : Spec) : ∀ (x y : List Event), a.run (x ++ y) = (a.run x).run y := by
  intro x
  induction x generalizing a with
  | nil => intro y; rfl
  | cons e x ih => intro y; exact ih (a.step e) y

theorem run_append (f : Nat) : ∀ (x y : List Event) (s : Sys), run f s (x ++ y) = (run f s x).bind fun s => run f s y := by
  intro x
  induction x with
  | nil => intro y s; rfl
  | cons e x ih =>
    intro y s
    rw [List.cons_append, run, run]
    cases step f s e with
    | ok s1 => exact ih y s1
    | _ => rfl

theorem step_inv {s : Sys} {a : Spec} {l : List Node} (h : Inv s a l) (hN : NoStale a) {f : Nat} (hf : l.length ≤ f) {e : Event}
    (ht : Turn s e) (hp : Proper a e) :
    ∃ s' l', step f s e = .ok s' ∧ Inv s' (a.step e) l' ∧ NoStale (a.step e) ∧ l'.length ≤ l.length + 1 := by
  cases e with
  | act x now =>
    obtain ⟨s', l', e, hi, hl⟩ := act_inv h ht x now hp
    exact ⟨s', l', e, hi, act_noStale hN x now hp, hl⟩
  | poll p =>
    have hr : s.phase ≠ .run := by
      rcases ht with ⟨h1, _⟩ | ⟨h1, _⟩
      · rw [h1]; simp
      · exact h1
    obtain ⟨s', l', e, hi, hn, hl⟩ := poll_inv h hN hr hf p hp
    exact ⟨s', l', e, hi, hn, by omega⟩
  | switch =>
    have hr : s.phase ≠ .run := by
      rcases ht.2 with h1 | ⟨h1, _⟩ <;> rw [h1] <;> simp
    obtain ⟨s', e, hi⟩ := switch_inv h hr ht.1
    exact ⟨s', l, e, hi, switch_noStale hN, by omega⟩

theorem run_inv : ∀ (es : List Event) {s : Sys} {a : Spec} {l : List Node} {f : Nat}, Inv s a l → NoStale a →
    l.length + es.length ≤ f → Allowed f s a es →
    ∃ s' l', run f s es = .ok s' ∧ Inv s' (a.run es) l' ∧ NoStale (a.run es) ∧ l'.length ≤ l.length + es.length
  | [], s, a, l, f, h, hN, _, _ => ⟨s, l, rfl, h, hN, by simp⟩
  | e :: es, s, a, l, f, h, hN, hf, ⟨ht, hp, hn⟩ => by
    obtain ⟨s1, l1, e1, h1, hN1, hl1⟩ := step_inv h hN (f := f) (by simp at hf; omega) ht hp
    obtain ⟨s2, l2, e2, h2, hN2, hl2⟩ := run_inv es (f := f) h1 hN1 (by simp at hf; omega) (hn s1 e1)
    exact ⟨s2, l2, by rw [run, e1]; exact e2, h2, hN2, by simp; omega⟩

theorem start_inv {main : Nat} (hm : main ≠ 0) (now : Int) {due : Node → Tm} (hd : ∀ d, due (.fd d) = ⟨0, 0⟩)
    (prev next : Node → Option Node) : Inv (start main now due prev next) (Spec.start main now) [] := by
  refine ⟨⟨⟨rfl, List.nodup_nil, fun a n b h => by simp at h, by simp⟩, rfl, by simp, by simp, fun _ _ => ⟨by simp, rfl⟩, fun _ => rfl, by simp, Int.le_refl _,
    by simp, Int.le_refl _, ?_, by simp⟩, start_ok hm now, ⟨?_, ?_⟩, ⟨Verif.ListQ.empty_holds, by simp [Spec.start], ?_, rfl⟩, ?_, ?_⟩
  · intro d hp
    simp [start, create, hd, Tm.Pos] at hp
  · intro c
    by_cases e : c = main
    · subst e; simp [Spec.start, Fit, start]
    · simp [Spec.start, e, Fit]
  · intro fd h; exact absurd rfl h
  · intro c fd r hs
    by_cases e : c = main
    · subst e; simp [Spec.start] at hs
    · simp [Spec.start, e] at hs
  · intro _; exact ⟨rfl, by simp [Spec.start]⟩
  · intro h; exact absurd rfl h

theorem reach {main : Nat} (hm : main ≠ 0) (now : Int) {due : Node → Tm} (hd : ∀ d, due (.fd d) = ⟨0, 0⟩)
    (prev next : Node → Option Node) {es : List Event} {f : Nat} (hf : es.length ≤ f)
    (ha : Allowed f (start main now due prev next) (Spec.start main now) es) :
    ∃ s l, run f (start main now due prev next) es = .ok s ∧ Inv s ((Spec.start main now).run es) l ∧ l.length ≤ es.length := by
  obtain ⟨s, l, e, h, _, hl⟩ := run_inv es (start_inv hm now hd prev next) (start_noStale main now) (by simpa using hf) ha
  exact ⟨s, l, e, h, by simpa using hl⟩

/-- **C145.** The scheduler and its event loop behave as the specification: nothing aborts, reads freed memory or loops; the
coroutines that run and the results of their waits are those of the specification, and so are the ready ones and the one
that runs. Partial: `due` is the memory of the descriptors' records after allocation, which the code does not clear, and the
execution keeps to `Proper`; see the counterexamples. -/
theorem scheduler_refines_partial {main : Nat} (hm : main ≠ 0) (now : Int) {due : Node → Tm} (hd : ∀ d, due (.fd d) = ⟨0, 0⟩)
    (prev next : Node → Option Node) {es : List Event} {f : Nat} (hf : es.length ≤ f)
    (ha : Allowed f (start main now due prev next) (Spec.start main now) es) :
    ∃ s, run f (start main now due prev next) es = .ok s ∧ s.log = ((Spec.start main now).run es).log ∧
      Holds s.ready ((Spec.start main now).run es).queue ∧
      (s.phase = .run → s.running = ((Spec.start main now).run es).cur) := by
  obtain ⟨s, l, e, h, _⟩ := reach hm now hd prev next hf ha
  exact ⟨s, e, h.Q.log, h.Q.ready, fun hr => (h.run hr).1⟩

/-- **C145.** In the specification a coroutine is ready exactly when it is in the list of the ready ones, which holds it once;
one that waits for a time is among those with a deadline, once; and a descriptor has one waiting coroutine. -/
theorem spec_consistent {main : Nat} (hm : main ≠ 0) (now : Int) {due : Node → Tm} (hd : ∀ d, due (.fd d) = ⟨0, 0⟩)
    (prev next : Node → Option Node) {es : List Event} {f : Nat} (hf : es.length ≤ f)
    (ha : Allowed f (start main now due prev next) (Spec.start main now) es) :
    SpecOk ((Spec.start main now).run es) := by
  obtain ⟨_, _, _, h, _⟩ := reach hm now hd prev next hf ha
  exact h.S

/-- **C145.** Nobody is forgotten: of a coroutine that sleeps, or waits with a timeout, there is a live timer in the list, with
its deadline; and the descriptor of one that waits is watched for what it waits for, in its name. -/
theorem waiting_is_registered_partial {main : Nat} (hm : main ≠ 0) (now : Int) {due : Node → Tm} (hd : ∀ d, due (.fd d) = ⟨0, 0⟩)
    (prev next : Node → Option Node) {es : List Event} {f : Nat} (hf : es.length ≤ f)
    (ha : Allowed f (start main now due prev next) (Spec.start main now) es) :
    ∃ s l, run f (start main now due prev next) es = .ok s ∧ Rep s.loop l ∧
      (∀ c t, (((Spec.start main now).run es).status c).deadline = some t →
        ∃ n ∈ l, s.loop.tid n ≠ -1 ∧ s.loop.client n = c ∧ (s.loop.due n).sec * 1000 + (s.loop.due n).ms = t) ∧
      (∀ c fd w t, ((Spec.start main now).run es).status c = .waiting fd w t →
        s.loop.mask fd = ⟨!w, w⟩ ∧ s.loop.client (.fd fd) = c) := by
  obtain ⟨s, l, e, h, _⟩ := reach hm now hd prev next hf ha
  refine ⟨s, l, e, h.T.rep, ?_, ?_⟩
  · intro c t ht
    have hm : c ∈ ((Spec.start main now).run es).order := by rw [h.S.order, ht]; rfl
    rw [h.T.order] at hm
    obtain ⟨n, hn, hc⟩ := List.mem_map.1 hm
    obtain ⟨hn, hl⟩ := List.mem_filter.1 hn
    have hk := h.T.kind n hn hl
    refine ⟨n, hn, by simpa [liveIn] using hl, hc, ?_⟩
    cases n with
    | heap k =>
      simp only [Kind, hc] at hk
      rw [hk] at ht
      simp [Status.deadline] at ht
      exact ht
    | fd d =>
      simp only [Kind, hc] at hk
      obtain ⟨w, hk⟩ := hk
      rw [hk] at ht
      simp [Status.deadline] at ht
      exact ht
  · intro c fd w t hs
    have := h.M.fit c
    rw [hs] at this
    exact ⟨this.1, this.2.1⟩

/-! ## Sleeping -/

/-- No poll among the events looks at the timer of `c` at `t` or later. -/
def NoPollFrom (c : Nat) (t : Int) (es : List Event) : Prop := ∀ p, Event.poll p ∈ es → p.clk c < t

theorem allowed_append (f : Nat) : ∀ (x y : List Event) {s : Sys} {a : Spec}, Allowed f s a (x ++ y) →
    Allowed f s a x ∧ ∀ s', run f s x = .ok s' → Allowed f s' (a.run x) y
  | [], y, s, a, h => ⟨trivial, fun s' e => by simp only [run, Out.ok.injEq] at e; subst e; exact h⟩
  | e :: x, y, s, a, ⟨h1, h2, h3⟩ => by
    refine ⟨⟨h1, h2, fun s' es => (allowed_append f x y (h3 s' es)).1⟩, fun s' er => ?_⟩
    rw [run] at er
    cases es : step f s e with
    | ok s1 => rw [es] at er; exact (allowed_append f x y (h3 s1 es)).2 s' er
    | _ => rw [es] at er; cases er

/-- One event leaves a sleeper asleep. -/
theorem asleep_step {s : Sys} {a : Spec} {l : List Node} (h : Inv s a l) (hN : NoStale a) {e : Event} (ht : Turn s e) (hp : Proper a e)
    {c : Nat} {t : Int} (hs : a.status c = .sleeping t) (hno : ∀ p, e = .poll p → p.clk c < t) :
    (a.step e).status c = .sleeping t ∧ (a.step e).log.filter (fun x => x.1 = c) = a.log.filter (fun x => x.1 = c) := by
  cases e with
  | act x now =>
    have hcur := (h.run ht).2
    have hne : c ≠ a.cur := by intro e; rw [e, hcur] at hs; cases hs
    cases x with
    | sleep ms => by_cases hms : ms > 0 <;> simp [Spec.step, Spec.act, hms, hne, hs]
    | wait fd w t => by_cases hfd : fd < 1024 <;> simp [Spec.step, Spec.act, hfd, hne, hs]
    | wake d =>
      have : c ≠ d := by intro e; rw [e, hp.2] at hs; cases hs
      simp [Spec.step, Spec.act, this, hs]
    | spawn d =>
      have : c ≠ d := by intro e; rw [e, hp.2.2] at hs; cases hs
      simp [Spec.step, Spec.act, this, hne, hs]
    | _ => simp [Spec.step, Spec.act, hne, hs]
  | poll p =>
    obtain ⟨hck, hnd, hF⟩ := hp
    obtain ⟨L1, l1, W1, e1, hT1, hS1, hN1, hM1, hW1, hl1, hc1⟩ := fireAll_sim p.fired h.T h.S hN h.M hnd hF
    have hclk := hno p rfl
    -- no descriptor is the sleeper's
    have hf1 : (a.fireAll p.fired).status c = .sleeping t := by
      by_cases hc : c ∈ W1.map Prod.fst
      · have key : ∀ (F : List (Nat × Ev)) (b : Spec), b.status c = .sleeping t →
            (∀ x ∈ F, ∃ c' w t', b.owner x.1 = some c' ∧ b.status c' = .waiting x.1 w t') → (F.map Prod.fst).Nodup →
            (b.fireAll F).status c = .sleeping t := by
          intro F
          induction F with
          | nil => intro b hb _ _; exact hb
          | cons x F ih =>
            intro b hb hF hn
            obtain ⟨c', w', t', ho, hs'⟩ := hF x (by simp)
            simp only [List.map_cons, List.nodup_cons] at hn
            have hne : c ≠ c' := by intro e; subst e; rw [hb] at hs'; cases hs'
            refine ih (b.fire x.1 x.2) ?_ ?_ hn.2
            · simp only [Spec.fire, ho, upd_ne _ _ hne]; exact hb
            · intro y hy
              obtain ⟨c2, w2, t2, ho2, hs2⟩ := hF y (by simp [hy])
              have hne2 : c2 ≠ c' := by
                intro e
                subst e
                rw [hs'] at hs2
                simp at hs2
                exact hn.1 (hs2.1 ▸ List.mem_map.2 ⟨y, hy, rfl⟩)
              exact ⟨c2, w2, t2, by simp only [Spec.fire, ho]; exact ho2, by simp only [Spec.fire, ho, upd_ne _ _ hne2]; exact hs2⟩
        exact key p.fired a hs (fun x hx => by obtain ⟨c', w, t', h1, h2, _⟩ := hF x hx; exact ⟨c', w, t', h1, h2⟩) hnd
      · rw [hW1.same c hc, hs]
    have hla : late p.clk (a.fireAll p.fired).status c = false := by
      simp only [late, hf1, Status.deadline, decide_eq_false_iff_not]; omega
    refine ⟨?_, ?_⟩
    · have := expire_status hS1 p.clk c
      rw [hla, hf1] at this
      exact this
    · show ((a.fireAll p.fired).expire p.clk).log.filter _ = _
      have : ((a.fireAll p.fired).expire p.clk).log = a.log := hW1.log
      rw [this]
  | switch =>
    simp only [Spec.step, Spec.switch]
    cases hq : a.queue with
    | nil => exact ⟨hs, rfl⟩
    | cons x q =>
      have hx : (a.status x).isReady = true := (h.S.queue x).1 (by rw [hq]; simp)
      have hne : c ≠ x := by intro e; rw [← e, hs] at hx; simp [Status.isReady] at hx
      have hne' : ¬ x = c := fun e => hne e.symm
      simp only []
      split <;> simp [hne, hne', hs]

theorem asleep_run : ∀ (es : List Event) {s : Sys} {a : Spec} {l : List Node} {f : Nat}, Inv s a l → NoStale a →
    l.length + es.length ≤ f → Allowed f s a es → ∀ {c : Nat} {t : Int}, a.status c = .sleeping t → NoPollFrom c t es →
    (a.run es).status c = .sleeping t ∧ (a.run es).log.filter (fun x => x.1 = c) = a.log.filter (fun x => x.1 = c)
  | [], _, _, _, _, _, _, _, _, _, _, hs, _ => ⟨hs, rfl⟩
  | e :: es, s, a, l, f, h, hN, hf, ⟨ht, hp, hn⟩, c, t, hs, hno => by
    obtain ⟨s1, l1, e1, h1, hN1, hl1⟩ := step_inv h hN (f := f) (by simp at hf; omega) ht hp
    obtain ⟨h2, h3⟩ := asleep_step h hN ht hp hs (fun p e => hno p (by simp [e]))
    obtain ⟨h4, h5⟩ := asleep_run es (f := f) h1 hN1 (by simp at hf; omega) (hn s1 e1) h2 (fun p hp => hno p (by simp [hp]))
    exact ⟨h4, h5.trans h3⟩

/-- **C146.** A sleep is not cut short: a coroutine that asked at `now` to sleep for `ms` milliseconds is not switched to before
the event loop has looked at its timer at `now + ms` or later. -/
theorem sleep_lasts_partial {main : Nat} (hm : main ≠ 0) (t0 : Int) {due : Node → Tm} (hd : ∀ d, due (.fd d) = ⟨0, 0⟩)
    (prev next : Node → Option Node) {pre post : List Event} {now : Int} {ms : Nat} {f : Nat}
    (hms : ms > 0) (hf : (pre ++ .act (.sleep ms) now :: post).length ≤ f)
    (ha : Allowed f (start main t0 due prev next) (Spec.start main t0) (pre ++ .act (.sleep ms) now :: post)) :
    ∃ s1 s2, run f (start main t0 due prev next) pre = .ok s1 ∧
      run f (start main t0 due prev next) (pre ++ .act (.sleep ms) now :: post) = .ok s2 ∧
      (NoPollFrom s1.running (now + ms) post →
        s2.log.filter (fun x => x.1 = s1.running) = s1.log.filter (fun x => x.1 = s1.running)) := by
  obtain ⟨ha1, ha2⟩ := allowed_append f pre _ ha
  obtain ⟨s1, l1, e1, h1, hN1, hl1⟩ := run_inv pre (start_inv hm t0 hd prev next) (start_noStale main t0)
    (by simp at hf ⊢; omega) ha1
  have ha3 := ha2 s1 e1
  obtain ⟨s2, l2, e2, h2, _, _⟩ := run_inv _ h1 hN1 (f := f) (by simp at hf hl1 ⊢; omega) ha3
  refine ⟨s1, s2, e1, by rw [run_append, e1]; exact e2, fun hno => ?_⟩
  obtain ⟨ht, hp, hn⟩ := ha3
  obtain ⟨hrun, hcur⟩ := h1.run ht
  obtain ⟨s3, l3, e3, h3, hN3, hl3⟩ := step_inv h1 hN1 (f := f) (by simp at hf hl1 ⊢; omega) ht hp
  have hst : (((Spec.start main t0).run pre).step (.act (.sleep ms) now)).status s1.running = .sleeping (now + ms) := by
    simp [Spec.step, Spec.act, hms, hrun]
  obtain ⟨_, h5⟩ := asleep_run post h3 hN3 (f := f) (by simp at hf hl1 ⊢; omega) (hn s3 e3) hst hno
  rw [h2.Q.log, h1.Q.log]
  have : (((Spec.start main t0).run pre).step (.act (.sleep ms) now)).log = ((Spec.start main t0).run pre).log := by
    simp [Spec.step, Spec.act, hms]
  rw [this] at h5
  exact h5

/-- **C146.** A sleep ends: the first poll that looks at the timer of a sleeper at its deadline or later makes it ready. -/
theorem sleep_ends_partial {main : Nat} (hm : main ≠ 0) (t0 : Int) {due : Node → Tm} (hd : ∀ d, due (.fd d) = ⟨0, 0⟩)
    (prev next : Node → Option Node) {pre post : List Event} {now : Int} {ms : Nat} {f : Nat} {p : Poll}
    (hms : ms > 0) (hf : (pre ++ Event.act (.sleep ms) now :: (post ++ [Event.poll p])).length ≤ f)
    (ha : Allowed f (start main t0 due prev next) (Spec.start main t0) (pre ++ .act (.sleep ms) now :: (post ++ [.poll p]))) :
    ∃ s1 s2 q, run f (start main t0 due prev next) pre = .ok s1 ∧
      run f (start main t0 due prev next) (pre ++ .act (.sleep ms) now :: (post ++ [.poll p])) = .ok s2 ∧ Holds s2.ready q ∧
      (NoPollFrom s1.running (now + ms) post → now + ms ≤ p.clk s1.running → s1.running ∈ q) := by
  obtain ⟨ha1, ha2⟩ := allowed_append f pre _ ha
  obtain ⟨s1, l1, e1, h1, hN1, hl1⟩ := run_inv pre (start_inv hm t0 hd prev next) (start_noStale main t0)
    (by simp at hf ⊢; omega) ha1
  have ha3 := ha2 s1 e1
  obtain ⟨s2, l2, e2, h2, _, _⟩ := run_inv _ h1 hN1 (f := f) (by simp at hf hl1 ⊢; omega) ha3
  refine ⟨s1, s2, _, e1, by rw [run_append, e1]; exact e2, h2.Q.ready, fun hno hlate => ?_⟩
  obtain ⟨ht, hp, hn⟩ := ha3
  obtain ⟨hrun, hcur⟩ := h1.run ht
  obtain ⟨s3, l3, e3, h3, hN3, hl3⟩ := step_inv h1 hN1 (f := f) (by simp at hf hl1 ⊢; omega) ht hp
  have hst : (((Spec.start main t0).run pre).step (.act (.sleep ms) now)).status s1.running = .sleeping (now + ms) := by
    simp [Spec.step, Spec.act, hms, hrun]
  obtain ⟨hb1, hb2⟩ := allowed_append f post _ (hn s3 e3)
  obtain ⟨h4, _⟩ := asleep_run post h3 hN3 (f := f) (by simp at hf hl1 ⊢; omega) hb1 hst hno
  obtain ⟨s4, l4, e4, h5, hN5, hl5⟩ := run_inv post h3 hN3 (f := f) (by simp at hf hl1 ⊢; omega) hb1
  obtain ⟨ht4, hp4, hn4⟩ := hb2 s4 e4
  -- the status after the poll
  generalize hA : (((Spec.start main t0).run pre).step (.act (.sleep ms) now)).run post = A at *
  have hend : ((Spec.start main t0).run pre).run (.act (.sleep ms) now :: (post ++ [.poll p])) = A.poll p := by
    rw [Spec.run, Spec.run_append, hA]; rfl
  rw [hend] at h2 ⊢
  obtain ⟨hck, hnd, hF⟩ := hp4
  obtain ⟨_, _, W1, _, hT1, hS1, _, _, hW1, _, _⟩ := fireAll_sim p.fired h5.T h5.S hN5 h5.M hnd hF
  rw [h2.S.queue]
  have hx := expire_status hS1 p.clk s1.running
  have hx' : (A.poll p).status s1.running = if late p.clk (A.fireAll p.fired).status s1.running then
      ((A.fireAll p.fired).status s1.running).expired else (A.fireAll p.fired).status s1.running := hx
  rw [hx']
  by_cases hc : s1.running ∈ W1.map Prod.fst
  · have hin : s1.running ∈ (A.fireAll p.fired).queue := by rw [hW1.queue]; exact List.mem_append.2 (Or.inr hc)
    have hr := (hS1.queue _).1 hin
    cases hs : (A.fireAll p.fired).status s1.running <;> rw [hs] at hr <;> simp [Status.isReady] at hr
    simp [late, hs, Status.deadline, Status.isReady]
  · have := hW1.same _ hc
    rw [this, h4]
    simp [late, this, h4, Status.deadline, hlate, Status.expired, Status.isReady]

/-! ## Order -/

theorem order_step {s : Sys} {a : Spec} {l : List Node} (h : Inv s a l) (hN : NoStale a) {e : Event} (ht : Turn s e) (hp : Proper a e) :
    ∃ new, (a.step e).log.map Prod.fst ++ (a.step e).queue = a.log.map Prod.fst ++ a.queue ++ new := by
  cases e with
  | act x now =>
    cases x with
    | sleep ms => by_cases hms : ms > 0 <;> exact ⟨[], by simp [Spec.step, Spec.act, hms]⟩
    | wait fd w t => by_cases hfd : fd < 1024 <;> exact ⟨[], by simp [Spec.step, Spec.act, hfd]⟩
    | wake d => exact ⟨[d], by simp [Spec.step, Spec.act]⟩
    | spawn d => exact ⟨[a.cur], by simp [Spec.step, Spec.act]⟩
    | yield => exact ⟨[a.cur], by simp [Spec.step, Spec.act]⟩
    | park => exact ⟨[], by simp [Spec.step, Spec.act]⟩
    | finish => exact ⟨[], by simp [Spec.step, Spec.act]⟩
  | poll p =>
    obtain ⟨_, _, W, _, _, _, _, _, hW, _⟩ := process_sim h.T h.S hN h.M (Nat.le_refl _) p hp
    exact ⟨W.map Prod.fst, by rw [Spec.step, hW.queue, hW.log]; simp⟩
  | switch =>
    refine ⟨[], ?_⟩
    simp only [Spec.step, Spec.switch]
    cases hq : a.queue with
    | nil => simp [hq]
    | cons x q => simp only []; split <;> simp

theorem order_run : ∀ (es : List Event) {s : Sys} {a : Spec} {l : List Node} {f : Nat}, Inv s a l → NoStale a →
    l.length + es.length ≤ f → Allowed f s a es →
    ∃ new, (a.run es).log.map Prod.fst ++ (a.run es).queue = a.log.map Prod.fst ++ a.queue ++ new
  | [], _, _, _, _, _, _, _, _ => ⟨[], by simp [Spec.run]⟩
  | e :: es, s, a, l, f, h, hN, hf, ⟨ht, hp, hn⟩ => by
    obtain ⟨s1, l1, e1, h1, hN1, hl1⟩ := step_inv h hN (f := f) (by simp at hf; omega) ht hp
    obtain ⟨n1, h2⟩ := order_step h hN ht hp
    obtain ⟨n2, h3⟩ := order_run es (f := f) h1 hN1 (by simp at hf; omega) (hn s1 e1)
    exact ⟨n1 ++ n2, by rw [Spec.run, h3, h2]; simp⟩

/-- **C147.** Ready coroutines run in the order in which they became ready: those that are ready at some point of an execution
are the next that run, in their order, and whoever becomes ready later comes after them. -/
theorem ready_run_in_order_partial {main : Nat} (hm : main ≠ 0) (t0 : Int) {due : Node → Tm} (hd : ∀ d, due (.fd d) = ⟨0, 0⟩)
    (prev next : Node → Option Node) {pre post : List Event} {f : Nat} (hf : (pre ++ post).length ≤ f)
    (ha : Allowed f (start main t0 due prev next) (Spec.start main t0) (pre ++ post)) :
    ∃ s1 s2 q1 q2 later, run f (start main t0 due prev next) pre = .ok s1 ∧ Holds s1.ready q1 ∧
      run f (start main t0 due prev next) (pre ++ post) = .ok s2 ∧ Holds s2.ready q2 ∧
      s2.log.map Prod.fst ++ q2 = s1.log.map Prod.fst ++ q1 ++ later := by
  obtain ⟨ha1, ha2⟩ := allowed_append f pre _ ha
  obtain ⟨s1, l1, e1, h1, hN1, hl1⟩ := run_inv pre (start_inv hm t0 hd prev next) (start_noStale main t0)
    (by simp at hf ⊢; omega) ha1
  obtain ⟨s2, l2, e2, h2, _, _⟩ := run_inv _ h1 hN1 (f := f) (by simp at hf hl1 ⊢; omega) (ha2 s1 e1)
  obtain ⟨new, h3⟩ := order_run post h1 hN1 (f := f) (by simp at hf hl1 ⊢; omega) (ha2 s1 e1)
  exact ⟨s1, s2, _, _, new, e1, h1.Q.ready, by rw [run_append, e1]; exact e2, h2.Q.ready, by rw [h2.Q.log, h1.Q.log]; exact h3⟩

/-! ## Waiting for the kernel -/

theorem nearest_min : ∀ (rest kept : List Node) (s : Loop) (b : Option Node) (f : Nat), Rep s (kept ++ rest) → (∀ n ∈ kept ++ rest, (s.due n).Small) →
    (∀ m, b = some m → m ∈ kept) → (∀ n ∈ kept, ∃ m, b = some m ∧ (s.due m).val ≤ (s.due n).val) → rest.length ≤ f →
    ∃ b', nearest f s rest.head? b = .ok b' ∧ (∀ m, b' = some m → m ∈ kept ++ rest) ∧
      ∀ n ∈ kept ++ rest, ∃ m, b' = some m ∧ (s.due m).val ≤ (s.due n).val := by
  intro rest
  induction rest with
  | nil =>
    intro kept s b f _ _ hb hk _
    exact ⟨b, by unfold nearest; rfl, by simpa using hb, by simpa using hk⟩
  | cons n rest ih =>
    intro kept s b f h hsm hb hk hf
    cases f with
    | zero => simp at hf
    | succ f =>
      have hn : s.freed n = false := h.alive n (by simp)
      have hnext : s.next n = rest.head? := (h.links kept n rest rfl).2
      rw [List.head?_cons]
      unfold nearest
      simp only [hn, Bool.false_eq_true, if_false, hnext]
      have hsn := hsm n (by simp)
      have h' : Rep s ((kept ++ [n]) ++ rest) := by simpa using h
      have hsm' : ∀ x ∈ (kept ++ [n]) ++ rest, (s.due x).Small := by simpa using hsm
      have fin : ∀ b1 : Option Node, (∀ m, b1 = some m → m ∈ kept ++ [n]) →
          (∀ x ∈ kept ++ [n], ∃ m, b1 = some m ∧ (s.due m).val ≤ (s.due x).val) →
          ∃ b', nearest f s rest.head? b1 = .ok b' ∧ (∀ m, b' = some m → m ∈ kept ++ n :: rest) ∧
            ∀ x ∈ kept ++ n :: rest, ∃ m, b' = some m ∧ (s.due m).val ≤ (s.due x).val := by
        intro b1 hb1 hk1
        obtain ⟨b', e, h1, h2⟩ := ih (kept ++ [n]) s b1 f h' hsm' hb1 hk1 (by simpa using hf)
        exact ⟨b', e, by simpa using h1, by simpa using h2⟩
      cases b with
      | none =>
        refine fin (some n) (by simp) ?_
        intro x hx
        simp at hx
        rcases hx with hx | rfl
        · obtain ⟨m, e, _⟩ := hk x hx; cases e
        · exact ⟨x, rfl, Int.le_refl _⟩
      | some m =>
        have hm := hsm m (by simp [hb m rfl])
        by_cases hbt : (s.due n).sec < (s.due m).sec ∨ ((s.due n).sec = (s.due m).sec ∧ (s.due n).ms < (s.due m).ms)
        · simp only [hbt, decide_true, if_true]
          have hlt : (s.due n).val ≤ (s.due m).val := by
            simp only [Tm.val, Tm.Small] at *; omega
          refine fin (some n) (by simp) ?_
          intro x hx
          simp at hx
          rcases hx with hx | rfl
          · obtain ⟨m', e, hle⟩ := hk x hx
            simp at e; subst e
            exact ⟨n, rfl, Int.le_trans hlt hle⟩
          · exact ⟨x, rfl, Int.le_refl _⟩
        · simp only [hbt, decide_false, Bool.false_eq_true, if_false]
          have hlt : (s.due m).val ≤ (s.due n).val := by
            simp only [Tm.val, Tm.Small] at *; omega
          refine fin (some m) (fun m' e => by simp at e; subst e; simp [hb m rfl]) ?_
          intro x hx
          simp at hx
          rcases hx with hx | rfl
          · exact hk x hx
          · exact ⟨m, rfl, hlt⟩

/-- **C148.** The event loop does not sleep past a deadline: when it waits for the kernel at `now`, it waits at most until the
deadline of every coroutine that has one, and not at all if that is over. -/
theorem poll_waits_no_longer_partial {main : Nat} (hm : main ≠ 0) (t0 : Int) {due : Node → Tm} (hd : ∀ d, due (.fd d) = ⟨0, 0⟩)
    (prev next : Node → Option Node) {es : List Event} {f : Nat} (hf : es.length ≤ f)
    (ha : Allowed f (start main t0 due prev next) (Spec.start main t0) es) (now : Int) (wait : Bool) :
    ∃ s w, run f (start main t0 due prev next) es = .ok s ∧ patience f s.loop wait now = .ok w ∧
      (∀ ms, w = some ms → 0 ≤ ms) ∧
      ∀ c t, (((Spec.start main t0).run es).status c).deadline = some t → ∃ ms, w = some ms ∧ (ms ≤ t - now ∨ ms = 0) := by
  obtain ⟨s, l, e, h, hl⟩ := reach hm t0 hd prev next hf ha
  cases wait with
  | false => exact ⟨s, some 0, e, rfl, fun ms e => by simp at e; omega, fun c t _ => ⟨0, rfl, Or.inr rfl⟩⟩
  | true =>
    obtain ⟨b, eb, hb1, hb2⟩ := nearest_min l [] s.loop none f (by simpa using h.T.rep) (by simpa using h.T.small) (by simp) (by simp) (by omega)
    have hh : s.loop.head = l.head? := h.T.rep.head
    refine ⟨s, _, e, by simp only [patience, if_true, hh, eb, Res.map_ok]; rfl, ?_, ?_⟩
    · intro ms he
      cases b with
      | none => simp at he
      | some n =>
        simp only [Option.some.injEq] at he
        split at he <;> omega
    · intro c t ht
      have hm : c ∈ ((Spec.start main t0).run es).order := by rw [h.S.order, ht]; rfl
      rw [h.T.order] at hm
      obtain ⟨n, hn, hc⟩ := List.mem_map.1 hm
      obtain ⟨hn, hl⟩ := List.mem_filter.1 hn
      obtain ⟨m, rfl, hle⟩ := hb2 n (by simpa using hn)
      have hk := h.T.kind n hn hl
      have hval : (s.loop.due n).val = t := by
        cases n with
        | heap k => simp only [Kind, hc] at hk; rw [hk] at ht; simpa [Status.deadline] using ht
        | fd d => simp only [Kind, hc] at hk; obtain ⟨w, hk⟩ := hk; rw [hk] at ht; simpa [Status.deadline] using ht
      refine ⟨_, rfl, ?_⟩
      rw [hval] at hle
      simp only [Tm.val] at hle
      split
      · left; omega
      · right; rfl

end Verif.EvLoop
