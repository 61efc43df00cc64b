import Verif.Std.EvLoop.Spec
/-! # The specification is consistent -/
namespace Verif.EvLoop

def Status.isReady : Status → Bool
  | .ready _ => true
  | _ => false

/-- The descriptor that a coroutine has registered. -/
def Status.onFd : Status → Option Nat
  | .waiting fd _ _ => some fd
  | .ready (some (fd, _)) => some fd
  | _ => none

structure SpecOk (a : Spec) : Prop where
  qNodup : a.queue.Nodup
  oNodup : a.order.Nodup
  queue : ∀ c, c ∈ a.queue ↔ (a.status c).isReady = true
  order : ∀ c, c ∈ a.order ↔ (a.status c).deadline.isSome = true
  zero : a.status 0 = .absent
  owner : ∀ fd c, a.owner fd = some c ↔ (a.status c).onFd = some fd
  one : ∀ c, a.status c = .running → c = a.cur

theorem start_ok {main : Nat} (hm : main ≠ 0) (now : Int) : SpecOk (Spec.start main now) := by
  have hs : ∀ c, (Spec.start main now).status c = if c = main then .running else .absent := by
    intro c; simp [Spec.start, upd]
  refine ⟨List.nodup_nil, List.nodup_nil, ?_, ?_, ?_, ?_, ?_⟩
  · intro c; rw [hs]; split <;> simp [Spec.start, Status.isReady]
  · intro c; rw [hs]; split <;> simp [Spec.start, Status.deadline]
  · rw [hs, if_neg (fun e => hm e.symm)]
  · intro fd c; rw [hs]; split <;> simp [Spec.start, Status.onFd]
  · intro c; rw [hs]; split
    · rename_i h; intro _; exact h
    · intro h; cases h

theorem nodup_snoc {l : List Nat} {x : Nat} (h : l.Nodup) (hx : x ∉ l) : (l ++ [x]).Nodup := by
  rw [List.nodup_append]
  exact ⟨h, by simp, fun a ha b hb e => by simp at hb; subst hb; exact hx (e ▸ ha)⟩

/-- The running coroutine is in no list. -/
theorem SpecOk.notIn {a : Spec} (h : SpecOk a) {c : Nat} (hc : a.status c = .running ∨ a.status c = .parked ∨ a.status c = .absent) :
    c ∉ a.queue ∧ c ∉ a.order ∧ ∀ fd, a.owner fd ≠ some c := by
  refine ⟨fun e => ?_, fun e => ?_, fun fd e => ?_⟩
  · have := (h.queue c).1 e; rcases hc with hc | hc | hc <;> simp [hc, Status.isReady] at this
  · have := (h.order c).1 e; rcases hc with hc | hc | hc <;> simp [hc, Status.deadline] at this
  · have := (h.owner fd c).1 e; rcases hc with hc | hc | hc <;> simp [hc, Status.onFd] at this

theorem cur_ne_zero {a : Spec} (h : SpecOk a) {c : Nat} {s : Status} (hs : a.status c = s) (hn : s ≠ .absent) : c ≠ 0 := by
  intro e; subst e; rw [h.zero] at hs; exact hn hs.symm

theorem act_ok {a : Spec} (h : SpecOk a) (hc : a.status a.cur = .running) (x : Act) (now : Int) (hp : Proper a (.act x now)) :
    SpecOk (a.act now x) := by
  have h0 : a.cur ≠ 0 := cur_ne_zero h hc (by simp)
  have h0' : 0 ≠ a.cur := fun e => h0 e.symm
  have hn := h.notIn (Or.inl hc)
  have hone : ∀ c, c ≠ a.cur → a.status c ≠ .running := fun c hne hr => hne (h.one c hr)
  cases x with
  | yield =>
    refine ⟨nodup_snoc h.qNodup hn.1, h.oNodup, ?_, ?_, ?_, ?_, ?_⟩
    · intro c
      by_cases e : c = a.cur
      · subst e; simp [Spec.act, Status.isReady]
      · simp [Spec.act, e, h.queue]
    · intro c
      by_cases e : c = a.cur
      · subst e; simp [Spec.act, Status.deadline, hn.2.1]
      · simp [Spec.act, e, h.order]
    · simp [Spec.act, h0', h.zero]
    · intro fd c
      by_cases e : c = a.cur
      · subst e; simp [Spec.act, Status.onFd, hn.2.2]
      · simp [Spec.act, e, h.owner]
    · intro c hr
      by_cases e : c = a.cur
      · exact e
      · simp [Spec.act, e] at hr; exact absurd hr (hone c e)
  | sleep ms =>
    by_cases hms : ms > 0
    · simp only [Spec.act, hms, if_true]
      refine ⟨h.qNodup, List.nodup_cons.2 ⟨hn.2.1, h.oNodup⟩, ?_, ?_, ?_, ?_, ?_⟩
      · intro c
        by_cases e : c = a.cur
        · subst e; simp [Status.isReady, hn.1]
        · simp [e, h.queue]
      · intro c
        by_cases e : c = a.cur
        · subst e; simp [Status.deadline]
        · simp [e, h.order]
      · simp [h0', h.zero]
      · intro fd c
        by_cases e : c = a.cur
        · subst e; simp [Status.onFd, hn.2.2]
        · simp [e, h.owner]
      · intro c hr
        by_cases e : c = a.cur
        · exact e
        · simp [e] at hr; exact absurd hr (hone c e)
    · simp only [Spec.act, hms, if_false]; exact h
  | wait fd w t =>
    by_cases hfd : fd < 1024
    · have hpo := hp.2 hfd
      simp only [Spec.act, hfd, if_true]
      refine ⟨h.qNodup, ?_, ?_, ?_, ?_, ?_, ?_⟩
      · simp only []
        split
        · exact List.nodup_cons.2 ⟨hn.2.1, h.oNodup⟩
        · exact h.oNodup
      · intro c
        by_cases e : c = a.cur
        · subst e; simp [Status.isReady, hn.1]
        · simp [e, h.queue]
      · intro c
        by_cases e : c = a.cur
        · subst e
          by_cases ht : t > 0
          · simp [Status.deadline, ht]
          · simp [Status.deadline, ht, hn.2.1]
        · by_cases ht : t > 0
          · simp [e, h.order, ht]
          · simp [e, h.order, ht]
      · simp [h0', h.zero]
      · intro fd' c
        by_cases e : c = a.cur
        · subst e
          by_cases e2 : fd' = fd
          · subst e2; simp [Status.onFd]
          · have : ¬ fd = fd' := fun x => e2 x.symm
            simp [Status.onFd, e2, this, hn.2.2]
        · by_cases e2 : fd' = fd
          · subst e2
            have : ¬ a.cur = c := fun x => e x.symm
            have hno : (a.status c).onFd ≠ some fd' := by
              intro x
              rw [← h.owner] at x
              rw [hpo.1] at x
              cases x
            simp [e, this, hno]
          · simp [e, e2, h.owner]
      · intro c hr
        by_cases e : c = a.cur
        · exact e
        · simp [e] at hr; exact absurd hr (hone c e)
    · simp only [Spec.act, hfd, if_false]; exact h
  | park =>
    refine ⟨h.qNodup, h.oNodup, ?_, ?_, ?_, ?_, ?_⟩
    · intro c
      by_cases e : c = a.cur
      · subst e; simp [Spec.act, Status.isReady, hn.1]
      · simp [Spec.act, e, h.queue]
    · intro c
      by_cases e : c = a.cur
      · subst e; simp [Spec.act, Status.deadline, hn.2.1]
      · simp [Spec.act, e, h.order]
    · simp [Spec.act, h0', h.zero]
    · intro fd c
      by_cases e : c = a.cur
      · subst e; simp [Spec.act, Status.onFd, hn.2.2]
      · simp [Spec.act, e, h.owner]
    · intro c hr
      by_cases e : c = a.cur
      · exact e
      · simp [Spec.act, e] at hr; exact absurd hr (hone c e)
  | wake d =>
    have hd : a.status d = .parked := hp.2
    have hnd := h.notIn (Or.inr (Or.inl hd))
    have hd0 : 0 ≠ d := fun e => cur_ne_zero h hd (by simp) e.symm
    refine ⟨nodup_snoc h.qNodup hnd.1, h.oNodup, ?_, ?_, ?_, ?_, ?_⟩
    · intro c
      by_cases e : c = d
      · subst e; simp [Spec.act, Status.isReady]
      · simp [Spec.act, e, h.queue]
    · intro c
      by_cases e : c = d
      · subst e; simp [Spec.act, Status.deadline, hnd.2.1]
      · simp [Spec.act, e, h.order]
    · simp [Spec.act, hd0, h.zero]
    · intro fd c
      by_cases e : c = d
      · subst e; simp [Spec.act, Status.onFd, hnd.2.2]
      · simp [Spec.act, e, h.owner]
    · intro c hr
      by_cases e : c = d
      · subst e; simp [Spec.act] at hr
      · simp [Spec.act, e] at hr; exact h.one c hr
  | spawn d =>
    obtain ⟨hd0, hd⟩ := hp.2
    have hnd := h.notIn (Or.inr (Or.inr hd))
    have hdc : d ≠ a.cur := by intro e; rw [e, hc] at hd; cases hd
    have hcd : a.cur ≠ d := fun e => hdc e.symm
    have hd0' : 0 ≠ d := fun e => hd0 e.symm
    refine ⟨nodup_snoc h.qNodup hn.1, h.oNodup, ?_, ?_, ?_, ?_, ?_⟩
    · intro c
      by_cases e : c = d
      · subst e; simp [Spec.act, Status.isReady, hnd.1, hdc]
      · by_cases e2 : c = a.cur
        · subst e2; simp [Spec.act, Status.isReady, hcd]
        · simp [Spec.act, e, e2, h.queue]
    · intro c
      by_cases e : c = d
      · subst e; simp [Spec.act, Status.deadline, hnd.2.1]
      · by_cases e2 : c = a.cur
        · subst e2; simp [Spec.act, Status.deadline, hcd, hn.2.1]
        · simp [Spec.act, e, e2, h.order]
    · simp [Spec.act, hd0', h0', h.zero]
    · intro fd c
      by_cases e : c = d
      · subst e; simp [Spec.act, Status.onFd, hnd.2.2]
      · by_cases e2 : c = a.cur
        · subst e2; simp [Spec.act, Status.onFd, hcd, hn.2.2]
        · simp [Spec.act, e, e2, h.owner]
    · intro c hr
      by_cases e : c = d
      · exact e
      · by_cases e2 : c = a.cur
        · subst e2; simp [Spec.act, hcd] at hr
        · simp [Spec.act, e, e2] at hr; exact absurd hr (hone c e2)
  | finish =>
    refine ⟨h.qNodup, h.oNodup, ?_, ?_, ?_, ?_, ?_⟩
    · intro c
      by_cases e : c = a.cur
      · subst e; simp [Spec.act, Status.isReady, hn.1]
      · simp [Spec.act, e, h.queue]
    · intro c
      by_cases e : c = a.cur
      · subst e; simp [Spec.act, Status.deadline, hn.2.1]
      · simp [Spec.act, e, h.order]
    · simp [Spec.act, h0', h.zero]
    · intro fd c
      by_cases e : c = a.cur
      · subst e; simp [Spec.act, Status.onFd, hn.2.2]
      · simp [Spec.act, e, h.owner]
    · intro c hr
      by_cases e : c = a.cur
      · exact e
      · simp [Spec.act, e] at hr; exact absurd hr (hone c e)

theorem fire_ok {a : Spec} (h : SpecOk a) {fd c : Nat} {w : Bool} {t : Option Int} {e : Ev} (ho : a.owner fd = some c)
    (hs : a.status c = .waiting fd w t) : SpecOk (a.fire fd e) := by
  have h0 : 0 ≠ c := fun e => cur_ne_zero h hs (by simp) e.symm
  have hq : c ∉ a.queue := by rw [h.queue, hs]; simp [Status.isReady]
  simp only [Spec.fire, ho]
  refine ⟨nodup_snoc h.qNodup hq, h.oNodup.sublist List.filter_sublist, ?_, ?_, ?_, ?_, ?_⟩
  · intro x
    by_cases e : x = c
    · subst e; simp [Status.isReady]
    · simp [e, h.queue]
  · intro x
    by_cases e : x = c
    · subst e; simp [Status.deadline]
    · simp [e, h.order]
  · simp [h0, h.zero]
  · intro fd' x
    by_cases e : x = c
    · subst e; rw [h.owner, hs]; simp [Status.onFd]
    · simp [e, h.owner]
  · intro x hr
    by_cases e : x = c
    · subst e; simp at hr
    · simp [e] at hr; exact h.one x hr

/-- The coroutines that `expire` changes. -/
theorem late_iff {a : Spec} (h : SpecOk a) (clk : Nat → Int) (c : Nat) :
    (late clk a.status c && decide (c ∈ a.order)) = late clk a.status c := by
  by_cases hl : late clk a.status c = true
  · have : c ∈ a.order := by
      rw [h.order]
      unfold late at hl
      cases hd : (a.status c).deadline with
      | none => rw [hd] at hl; simp at hl
      | some t => rfl
    simp [hl, this]
  · simp [hl]

theorem late_cases {clk : Nat → Int} {st : Nat → Status} {c : Nat} (h : late clk st c = true) :
    (∃ t, st c = .sleeping t ∧ t ≤ clk c) ∨ ∃ fd w t, st c = .waiting fd w (some t) ∧ t ≤ clk c := by
  unfold late at h
  cases hs : st c with
  | sleeping t => rw [hs] at h; simp [Status.deadline] at h; exact Or.inl ⟨t, rfl, h⟩
  | waiting fd w t =>
    rw [hs] at h
    cases t with
    | none => simp [Status.deadline] at h
    | some t => simp [Status.deadline] at h; exact Or.inr ⟨fd, w, t, rfl, h⟩
  | _ => rw [hs] at h; simp [Status.deadline] at h

theorem expire_ok {a : Spec} (h : SpecOk a) (clk : Nat → Int) : SpecOk (a.expire clk) := by
  have hst : ∀ c, (a.expire clk).status c = if late clk a.status c then (a.status c).expired else a.status c := by
    intro c; simp only [Spec.expire, late_iff h]
  refine ⟨?_, h.oNodup.sublist List.filter_sublist, ?_, ?_, ?_, ?_, ?_⟩
  · simp only [Spec.expire]
    rw [List.nodup_append]
    refine ⟨h.qNodup, h.oNodup.sublist List.filter_sublist, ?_⟩
    intro x hx y hy e
    subst e
    have h1 := (h.queue x).1 hx
    rcases late_cases (List.mem_filter.1 hy).2 with ⟨t, e, _⟩ | ⟨fd, w, t, e, _⟩ <;> simp [e, Status.isReady] at h1
  · intro c
    rw [hst]
    simp only [Spec.expire, List.mem_append, List.mem_filter, h.queue, h.order]
    by_cases hl : late clk a.status c = true
    · rcases late_cases hl with ⟨t, e, _⟩ | ⟨fd, w, t, e, _⟩ <;> simp [hl, e, Status.isReady, Status.expired, Status.deadline]
    · simp [hl]
  · intro c
    rw [hst]
    simp only [Spec.expire, List.mem_filter, h.order]
    by_cases hl : late clk a.status c = true
    · rcases late_cases hl with ⟨t, e, _⟩ | ⟨fd, w, t, e, _⟩ <;> simp [hl, e, Status.expired, Status.deadline]
    · simp [hl]
  · rw [hst, h.zero]
    split <;> rfl
  · intro fd c
    rw [hst]
    simp only [Spec.expire, h.owner]
    by_cases hl : late clk a.status c = true
    · rcases late_cases hl with ⟨t, e, _⟩ | ⟨fd, w, t, e, _⟩ <;> simp [hl, e, Status.expired, Status.onFd]
    · simp [hl]
  · intro c hr
    rw [hst] at hr
    by_cases hl : late clk a.status c = true
    · rcases late_cases hl with ⟨t, e, _⟩ | ⟨fd, w, t, e, _⟩ <;> simp [hl, e, Status.expired] at hr
    · simp [hl] at hr; exact h.one c hr

theorem switch_ok {a : Spec} (h : SpecOk a) (hr : ∀ c, a.status c ≠ .running) : SpecOk a.switch := by
  unfold Spec.switch
  cases hq : a.queue with
  | nil => exact h
  | cons c q =>
    have hcq : (a.status c).isReady = true := (h.queue c).1 (by rw [hq]; simp)
    have hnd := h.qNodup
    rw [hq] at hnd
    have hnd' := List.nodup_cons.1 hnd
    have h0 : 0 ≠ c := by intro e; rw [← e, h.zero] at hcq; simp [Status.isReady] at hcq
    have hmem : ∀ x, x ≠ c → (x ∈ q ↔ (a.status x).isReady = true) := by
      intro x hx
      rw [← h.queue, hq]
      simp [hx]
    have hco : c ∉ a.order := by
      rw [h.order]
      cases hs : a.status c <;> simp [hs, Status.isReady] at hcq
      simp [Status.deadline]
    cases hs : a.status c with
    | ready r =>
      cases r with
      | none =>
        simp only [hs]
        refine ⟨hnd'.2, h.oNodup, ?_, ?_, ?_, ?_, ?_⟩
        · intro x
          by_cases e : x = c
          · subst e; simp [Status.isReady, hnd'.1]
          · simp [e, hmem x e]
        · intro x
          by_cases e : x = c
          · subst e; simp [Status.deadline, hco]
          · simp [e, h.order]
        · simp [h0, h.zero]
        · intro fd x
          by_cases e : x = c
          · subst e; rw [h.owner, hs]; simp [Status.onFd]
          · simp [e, h.owner]
        · intro x hx
          by_cases e : x = c
          · exact e
          · simp [e] at hx; exact absurd hx (hr x)
      | some fr =>
        obtain ⟨fd, r⟩ := fr
        simp only [hs]
        have hof : a.owner fd = some c := by rw [h.owner, hs]; rfl
        refine ⟨hnd'.2, h.oNodup, ?_, ?_, ?_, ?_, ?_⟩
        · intro x
          by_cases e : x = c
          · subst e; simp [Status.isReady, hnd'.1]
          · simp [e, hmem x e]
        · intro x
          by_cases e : x = c
          · subst e; simp [Status.deadline, hco]
          · simp [e, h.order]
        · simp [h0, h.zero]
        · intro fd' x
          by_cases e : x = c
          · subst e
            by_cases e2 : fd' = fd
            · subst e2; simp [Status.onFd]
            · have : ¬ fd = fd' := fun x => e2 x.symm
              simp [e2, h.owner, hs, Status.onFd, this]
          · by_cases e2 : fd' = fd
            · subst e2
              have : (a.status x).onFd ≠ some fd' := by
                intro e3
                rw [← h.owner, hof] at e3
                simp at e3
                exact e e3.symm
              simp [e, this]
            · simp [e, e2, h.owner]
        · intro x hx
          by_cases e : x = c
          · exact e
          · simp [e] at hx; exact absurd hx (hr x)
    | _ => rw [hs] at hcq; simp [Status.isReady] at hcq

end Verif.EvLoop
