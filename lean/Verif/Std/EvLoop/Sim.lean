import Verif.Std.EvLoop.SpecOk
import Verif.Std.ListQ.Props
/-! # The scheduler follows its specification -/
namespace Verif.EvLoop
open Verif.ListQ (Holds push_holds pop_holds)

def Tm.val (t : Tm) : Int := t.sec * 1000 + t.ms
def Tm.Pos (t : Tm) : Prop := t.sec > 0 ∨ t.ms > 0
def Tm.Small (t : Tm) : Prop := 0 ≤ t.ms ∧ t.ms < 1000

theorem after_val (now : Int) (ms : Nat) : (after now ms).val = now + ms := by
  simp only [after, Tm.val]; split <;> simp only [] <;> omega

theorem after_small (now : Int) (ms : Nat) : (after now ms).Small := by
  simp only [after, Tm.Small]; split <;> simp only [] <;> omega

theorem after_pos {now : Int} {ms : Nat} (h : 0 ≤ now) (hm : ms > 0) : (after now ms).Pos := by
  have h1 := after_val now ms
  have h2 := after_small now ms
  simp only [Tm.val, Tm.Small, Tm.Pos] at *
  omega

theorem isDue_iff {t : Tm} (h : t.Small) (now : Int) : isDue now t = decide (t.val ≤ now) := by
  obtain ⟨h1, h2⟩ := h
  rw [Bool.eq_iff_iff]
  simp only [isDue, Bool.or_eq_true, Bool.and_eq_true, decide_eq_true_eq]
  constructor
  · rintro (h | ⟨h, h3⟩) <;> (show t.sec * 1000 + t.ms ≤ now) <;> omega
  · intro (h : t.sec * 1000 + t.ms ≤ now)
    omega

/-- A live timer and what its coroutine waits for. -/
def Kind (a : Spec) (L : Loop) : Node → Prop
  | .heap k => a.status (L.client (.heap k)) = .sleeping (L.due (.heap k)).val
  | .fd d => ∃ w, a.status (L.client (.fd d)) = .waiting d w (some (L.due (.fd d)).val)

def liveIn (L : Loop) (n : Node) : Bool := decide (L.tid n ≠ -1)

structure TimersOk (L : Loop) (a : Spec) (l : List Node) : Prop where
  rep : Rep L l
  order : a.order = (l.filter (liveIn L)).map L.client
  small : ∀ n ∈ l, (L.due n).Small
  kind : ∀ n ∈ l, liveIn L n = true → Kind a L n
  fresh : ∀ k, L.nextHeap ≤ k → Node.heap k ∉ l ∧ L.freed (.heap k) = false
  fdAlive : ∀ d, L.freed (.fd d) = false
  ids : ∀ n ∈ l, L.tid n < L.nextId
  idPos : 0 ≤ L.nextId
  fdLive : ∀ d, Node.fd d ∈ l → liveIn L (.fd d) = true
  last : L.last ≤ a.clock / 1000
  dueFd : ∀ d, (L.due (.fd d)).Pos → Node.fd d ∈ l ∨ d ∈ a.stale
  posFd : ∀ d, Node.fd d ∈ l → (L.due (.fd d)).Pos

theorem TimersOk.congr {L L' : Loop} {a a' : Spec} {l : List Node} (h : TimersOk L a l)
    (hh : L'.head = L.head) (hp : L'.prev = L.prev) (hn : L'.next = L.next) (hd : L'.due = L.due) (ht : L'.tid = L.tid)
    (hf : L'.freed = L.freed) (hi : L'.nextId = L.nextId) (hk : L'.nextHeap = L.nextHeap) (hla : L'.last = L.last)
    (hc : ∀ n ∈ l, L'.client n = L.client n) (ho : a'.order = a.order) (hst : ∀ c ∈ a.order, a'.status c = a.status c)
    (hs : a'.stale = a.stale) (hcl : a'.clock = a.clock) : TimersOk L' a' l := by
  have hlive : liveIn L' = liveIn L := by funext n; simp [liveIn, ht]
  refine ⟨h.rep.congr hh hp hn (fun n _ => by rw [hf]), ?_, ?_, ?_, ?_, ?_, ?_, ?_, ?_, ?_, ?_, ?_⟩
  · rw [ho, h.order, hlive]
    exact List.map_congr_left (fun n hn => (hc n (List.mem_filter.1 hn).1).symm)
  · rw [hd]; exact h.small
  · intro n hn hl
    rw [hlive] at hl
    have hm : L.client n ∈ a.order := by rw [h.order]; exact List.mem_map.2 ⟨n, List.mem_filter.2 ⟨hn, hl⟩, rfl⟩
    have := h.kind n hn hl
    cases n with
    | heap k => simp only [Kind] at this ⊢; rw [hc _ hn, hst _ hm, hd]; exact this
    | fd d => simp only [Kind] at this ⊢; rw [hc _ hn, hst _ hm, hd]; exact this
  · rw [hk, hf]; exact h.fresh
  · rw [hf]; exact h.fdAlive
  · rw [ht, hi]; exact h.ids
  · rw [hi]; exact h.idPos
  · rw [hlive]; exact h.fdLive
  · rw [hla, hcl]; exact h.last
  · rw [hd, hs]; exact h.dueFd
  · rw [hd]; exact h.posFd

/-- A record in the list has its coroutine in the order. -/
theorem TimersOk.mem {L : Loop} {a : Spec} {l : List Node} (h : TimersOk L a l) {n : Node} (hn : n ∈ l) (hl : liveIn L n = true) :
    L.client n ∈ a.order := by
  rw [h.order]; exact List.mem_map.2 ⟨n, List.mem_filter.2 ⟨hn, hl⟩, rfl⟩

/-- What a registered descriptor must look like. -/
def Fit (L : Loop) (p : Option (Nat × Bool)) (c : Nat) : Status → Prop
  | .waiting fd w _ => L.mask fd = .only w ∧ L.client (.fd fd) = c ∧ p = some (fd, w)
  | .ready (some (fd, _)) => ∃ w, p = some (fd, w) ∧ (L.mask fd = .only w ∨ L.mask fd = .none)
  | .absent => True
  | _ => p = none

structure MaskOk (L : Loop) (pending : Nat → Option (Nat × Bool)) (a : Spec) : Prop where
  fit : ∀ c, Fit L (pending c) c (a.status c)
  mask : ∀ fd, L.mask fd ≠ .none → a.owner fd ≠ none

structure QueueOk (s : Sys) (a : Spec) : Prop where
  ready : Holds s.ready a.queue
  flag : ∀ c ∈ a.queue, s.flag c = true
  result : ∀ c fd r, a.status c = .ready (some (fd, r)) → s.result c = r
  log : s.log = a.log

structure Inv (s : Sys) (a : Spec) (l : List Node) : Prop where
  T : TimersOk s.loop a l
  S : SpecOk a
  M : MaskOk s.loop s.pending a
  Q : QueueOk s a
  run : s.phase = .run → s.running = a.cur ∧ a.status a.cur = .running
  idle : s.phase ≠ .run → ∀ c, a.status c ≠ .running

/-! ## Resuming -/

theorem resume_holds {s : Sys} {q : List Nat} (h : Holds s.ready q) {c : Nat} (h0 : c ≠ 0) (hq : c ∉ q) (r : Int) :
    ∃ R, resume s c r = .ok { s with flag := upd s.flag c true, result := upd s.result c r, ready := R } ∧ Holds R (q ++ [c]) := by
  obtain ⟨R, e, hR⟩ := push_holds h c h0 hq
  exact ⟨R, by simp [resume, e], hR⟩

theorem resumeAll_holds : ∀ (W : List (Nat × Int)) {s : Sys} {q : List Nat}, Holds s.ready q → (q ++ W.map Prod.fst).Nodup →
    (∀ x ∈ W, x.1 ≠ 0) →
    ∃ R fl res, resumeAll s W = .ok { s with flag := fl, result := res, ready := R } ∧ Holds R (q ++ W.map Prod.fst) ∧
      (∀ c, s.flag c = true → fl c = true) ∧ (∀ x ∈ W, fl x.1 = true ∧ res x.1 = x.2) ∧
      ∀ c, (∀ x ∈ W, x.1 ≠ c) → res c = s.result c
  | [], s, q, h, _, _ => ⟨s.ready, s.flag, s.result, rfl, by simpa using h, fun _ h => h, by simp, fun _ _ => rfl⟩
  | (c, r) :: W, s, q, h, hn, h0 => by
    have hq : c ∉ q := fun hm => (List.nodup_append.1 hn).2.2 c hm c (by simp) rfl
    have hcW : ∀ x ∈ W, x.1 ≠ c := by
      intro x hx e
      have := (List.nodup_append.1 hn).2.1
      simp only [List.map_cons, List.nodup_cons] at this
      exact this.1 (e ▸ List.mem_map.2 ⟨x, hx, rfl⟩)
    obtain ⟨R, e, hR⟩ := resume_holds h (h0 (c, r) (by simp)) hq r
    obtain ⟨R2, fl, res, e2, hR2, h1, h2, h3⟩ := resumeAll_holds W
      (s := { s with flag := upd s.flag c true, result := upd s.result c r, ready := R }) (q := q ++ [c]) hR
      (by simpa using hn) (fun x hx => h0 x (by simp [hx]))
    refine ⟨R2, fl, res, by rw [resumeAll, e]; exact e2, by simpa using hR2, ?_, ?_, ?_⟩
    · intro x hx
      refine h1 x ?_
      by_cases e3 : x = c
      · subst e3; simp
      · simp [e3, hx]
    · intro x hx
      simp only [List.mem_cons] at hx
      rcases hx with rfl | hx
      · refine ⟨h1 _ (by simp), ?_⟩
        simp only []
        rw [h3 c hcW]
        simp
      · exact h2 x hx
    · intro x hx
      have hxc : x ≠ c := fun e3 => hx (c, r) (by simp) e3.symm
      rw [h3 x (fun y hy => hx y (by simp [hy]))]
      simp [hxc]

/-! ## Actions -/

theorem timers_status {L : Loop} {a a' : Spec} {l : List Node} (h : TimersOk L a l) (ho : a'.order = a.order)
    (hst : ∀ c ∈ a.order, a'.status c = a.status c) (hs : a'.stale = a.stale) (hcl : a'.clock = a.clock) : TimersOk L a' l :=
  h.congr rfl rfl rfl rfl rfl rfl rfl rfl rfl (fun _ _ => rfl) ho hst hs hcl

/-- A timer of its own. -/
theorem timers_sleep {L : Loop} {a : Spec} {l : List Node} (h : TimersOk L a l) {c : Nat} (now : Int) {ms : Nat}
    {a' : Spec} (ho : a'.order = c :: a.order) (hst : ∀ x ∈ a.order, a'.status x = a.status x) (hsc : a'.status c = .sleeping (now + ms))
    (hs : a'.stale = a.stale) (hcl : a'.clock = a.clock) :
    ∃ L' l', createTimer L now ms c = .ok L' ∧ TimersOk L' a' l' ∧ l'.length = l.length + 1 ∧ L'.mask = L.mask ∧
      ∀ d, L'.client (.fd d) = L.client (.fd d) := by
  have hf := h.fresh L.nextHeap (Nat.le_refl _)
  have hr0 : Rep { L with client := set L.client (.heap L.nextHeap) c, nextHeap := L.nextHeap + 1 } l :=
    h.rep.congr rfl rfl rfl (fun _ _ => rfl)
  obtain ⟨pv, e, hr⟩ := add_rep hr0 (.heap L.nextHeap) hf.1 hf.2 now ms
  have hne : ∀ n ∈ l, n ≠ .heap L.nextHeap := fun n hn e => hf.1 (e ▸ hn)
  refine ⟨_, _, e, ⟨hr, ?_, ?_, ?_, ?_, ?_, ?_, ?_, ?_, ?_, ?_, ?_⟩, by simp, rfl, fun d => by simp⟩
  · have hl : liveIn (added { L with client := set L.client (.heap L.nextHeap) c, nextHeap := L.nextHeap + 1 } (.heap L.nextHeap) now ms pv)
        (.heap L.nextHeap) = true := by
      have := h.idPos; simp [liveIn]; omega
    rw [List.filter_cons_of_pos hl, ho, h.order]
    simp only [List.map_cons, set_same]
    refine congrArg _ ?_
    have hff : l.filter (liveIn (added { L with client := set L.client (.heap L.nextHeap) c, nextHeap := L.nextHeap + 1 } (.heap L.nextHeap) now ms pv))
        = l.filter (liveIn L) := by
      refine List.filter_congr (fun n hn => ?_)
      simp [liveIn, hne n hn]
    rw [hff]
    exact List.map_congr_left (fun n hn => by simp [hne n (List.mem_filter.1 hn).1])
  · intro n hn
    simp only [List.mem_cons] at hn
    rcases hn with rfl | hn
    · simp only [set_same]; exact after_small now ms
    · simp only [set_other _ _ (hne n hn)]; exact h.small n hn
  · intro n hn hl
    simp only [List.mem_cons] at hn
    rcases hn with rfl | hn
    · simp only [Kind, set_same, after_val]; exact hsc
    · have hl' : liveIn L n = true := by simpa [liveIn, hne n hn] using hl
      have hk := h.kind n hn hl'
      have hm := hst _ (h.mem hn hl')
      cases n with
      | heap k => simp only [Kind, set_other _ _ (hne _ hn)] at hk ⊢; rw [hm]; exact hk
      | fd d => simp only [Kind, set_other _ _ (hne _ hn)] at hk ⊢; rw [hm]; exact hk
  · intro k hk
    have hk' : L.nextHeap + 1 ≤ k := hk
    have := h.fresh k (by omega)
    refine ⟨?_, this.2⟩
    simp only [List.mem_cons, Node.heap.injEq, not_or]
    exact ⟨by omega, this.1⟩
  · exact h.fdAlive
  · intro n hn
    simp only [List.mem_cons] at hn
    rcases hn with rfl | hn
    · simp only [set_same]; show L.nextId < L.nextId + 1; omega
    · simp only [set_other _ _ (hne n hn)]
      have := h.ids n hn
      show L.tid n < L.nextId + 1
      omega
  · have := h.idPos; show (0 : Int) ≤ L.nextId + 1; omega
  · intro d hd
    simp at hd
    have := h.fdLive d hd
    simpa [liveIn] using this
  · rw [hcl]; exact h.last
  · intro d hd
    rw [hs]
    simp at hd
    rcases h.dueFd d hd with h1 | h1
    · exact Or.inl (by simp [h1])
    · exact Or.inr h1
  · intro d hd
    simp at hd ⊢
    exact h.posFd d hd

/-- A descriptor, with or without a timeout. -/
theorem timers_wait {L : Loop} {a : Spec} {l : List Node} (h : TimersOk L a l) {c fd : Nat} {w : Bool}
    (hfd : Node.fd fd ∉ l) {now : Int} (h0 : 0 ≤ now) {t : Nat}
    {a' : Spec} (ho : a'.order = if t > 0 then c :: a.order else a.order) (hst : ∀ x ∈ a.order, a'.status x = a.status x)
    (hsc : a'.status c = .waiting fd w (if t > 0 then some (now + t) else none))
    (hs : a'.stale = a.stale) (hcl : a'.clock = a.clock) :
    ∃ L' l', createFile L fd w c now t = .ok L' ∧ TimersOk L' a' l' ∧ l'.length ≤ l.length + 1 ∧
      L'.mask = upd L.mask fd ⟨(L.mask fd).r || !w, (L.mask fd).w || w⟩ ∧ L'.client = set L.client (.fd fd) c := by
  have hne : ∀ n ∈ l, n ≠ .fd fd := fun n hn e => hfd (e ▸ hn)
  by_cases ht : t > 0
  · obtain ⟨pv, e, hr⟩ := add_rep h.rep (.fd fd) hfd (h.fdAlive fd) now t
    rw [if_pos ht] at ho hsc
    refine ⟨{ added L (.fd fd) now t pv with
        mask := upd L.mask fd ⟨(L.mask fd).r || !w, (L.mask fd).w || w⟩
        client := set L.client (.fd fd) c }, .fd fd :: l, by simp [createFile, ht, e], ?_, by simp, rfl, rfl⟩
    have hr' : Rep { added L (.fd fd) now t pv with
        mask := upd L.mask fd ⟨(L.mask fd).r || !w, (L.mask fd).w || w⟩
        client := set L.client (.fd fd) c } (.fd fd :: l) := hr.congr rfl rfl rfl (fun _ _ => rfl)
    refine ⟨hr', ?_, ?_, ?_, ?_, ?_, ?_, ?_, ?_, ?_, ?_, ?_⟩
    · rw [List.filter_cons_of_pos (by have := h.idPos; simp [liveIn]; omega), ho, h.order]
      simp only [List.map_cons, set_same]
      refine congrArg _ ?_
      have hff : ∀ M : Loop, M.tid = set L.tid (.fd fd) L.nextId → l.filter (liveIn M) = l.filter (liveIn L) := by
        intro M hM
        refine List.filter_congr (fun n hn => ?_)
        simp [liveIn, hM, hne n hn]
      rw [hff { added L (.fd fd) now t pv with
        mask := upd L.mask fd ⟨(L.mask fd).r || !w, (L.mask fd).w || w⟩
        client := set L.client (.fd fd) c } rfl]
      exact List.map_congr_left (fun n hn => by simp [hne n (List.mem_filter.1 hn).1])
    · intro n hn
      simp only [List.mem_cons] at hn
      rcases hn with rfl | hn
      · simp only [set_same]; exact after_small now t
      · simp only [set_other _ _ (hne n hn)]; exact h.small n hn
    · intro n hn hl
      simp only [List.mem_cons] at hn
      rcases hn with rfl | hn
      · simp only [Kind, set_same, after_val]; exact ⟨w, hsc⟩
      · have hl' : liveIn L n = true := by simpa [liveIn, hne n hn] using hl
        have hk := h.kind n hn hl'
        have hm := hst _ (h.mem hn hl')
        cases n with
        | heap k => simp only [Kind, set_other _ _ (hne _ hn)] at hk ⊢; rw [hm]; exact hk
        | fd d => simp only [Kind, set_other _ _ (hne _ hn)] at hk ⊢; rw [hm]; exact hk
    · intro k hk
      have := h.fresh k hk
      exact ⟨by simp [this.1], this.2⟩
    · exact h.fdAlive
    · intro n hn
      simp only [List.mem_cons] at hn
      rcases hn with rfl | hn
      · simp only [set_same]; show L.nextId < L.nextId + 1; omega
      · simp only [set_other _ _ (hne n hn)]
        have := h.ids n hn
        show L.tid n < L.nextId + 1
        omega
    · have := h.idPos; show (0 : Int) ≤ L.nextId + 1; omega
    · intro d hd
      have := h.idPos
      by_cases e2 : d = fd
      · subst e2; simp [liveIn]; omega
      · simp [e2] at hd
        have := h.fdLive d hd
        simpa [liveIn, e2] using this
    · rw [hcl]; exact h.last
    · intro d hd
      rw [hs]
      by_cases e2 : d = fd
      · subst e2; exact Or.inl (by simp)
      · simp [e2] at hd
        rcases h.dueFd d hd with h1 | h1
        · exact Or.inl (by simp [h1])
        · exact Or.inr h1
    · intro d hd
      by_cases e2 : d = fd
      · subst e2; simp only [set_same]; exact after_pos h0 ht
      · simp [e2] at hd ⊢
        exact h.posFd d hd
  · rw [if_neg ht] at ho
    refine ⟨{ L with
        mask := upd L.mask fd ⟨(L.mask fd).r || !w, (L.mask fd).w || w⟩
        client := set L.client (.fd fd) c }, l, by simp [createFile, ht], ?_, by omega, rfl, rfl⟩
    exact h.congr rfl rfl rfl rfl rfl rfl rfl rfl rfl (fun n hn => by simp [hne n hn]) ho hst hs hcl

theorem fit_congr {L L' : Loop} {p p' : Option (Nat × Bool)} {c : Nat} {st : Status} (h : Fit L p c st) (hp : p' = p)
    (hm : ∀ fd, st.onFd = some fd → L'.mask fd = L.mask fd ∧ L'.client (.fd fd) = L.client (.fd fd)) : Fit L' p' c st := by
  subst hp
  cases st with
  | waiting fd w t => have := hm fd rfl; simp only [Fit] at h ⊢; rw [this.1, this.2]; exact h
  | ready r =>
    cases r with
    | none => exact h
    | some x =>
      obtain ⟨fd, r⟩ := x
      have := hm fd rfl; simp only [Fit] at h ⊢; rw [this.1]; exact h
  | _ => exact h

/-- Descriptors in the list have owners. -/
theorem fd_owned {L : Loop} {a : Spec} {l : List Node} (h : TimersOk L a l) (hS : SpecOk a) {d : Nat} (hd : Node.fd d ∈ l) :
    a.owner d = some (L.client (.fd d)) := by
  obtain ⟨w, e⟩ := h.kind _ hd (h.fdLive d hd)
  rw [hS.owner, e]
  rfl

abbrev spawned (s : Sys) (d : Nat) : Sys :=
  { s with
    ready := { s.ready with link := upd s.ready.link d 0 }
    flag := upd s.flag d false
    pending := upd s.pending d none }

theorem act_inv {s : Sys} {a : Spec} {l : List Node} (h : Inv s a l) (hr : s.phase = .run) (x : Act) (now : Int)
    (hp : Proper a (.act x now)) :
    ∃ s' l', act s now x = .ok s' ∧ Inv s' (a.act now x) l' ∧ l'.length ≤ l.length + 1 := by
  obtain ⟨hrun, hcur⟩ := h.run hr
  have hS' := act_ok h.S hcur x now hp
  have h0 : a.cur ≠ 0 := cur_ne_zero h.S hcur (by simp)
  have hn := h.S.notIn (Or.inl hcur)
  have hone : ∀ c, c ≠ a.cur → a.status c ≠ .running := fun c hne hr => hne (h.S.one c hr)
  have hpc : s.pending a.cur = none := by have := h.M.fit a.cur; rw [hcur] at this; exact this
  have hord : ∀ c ∈ a.order, c ≠ a.cur := fun c hc e => hn.2.1 (e ▸ hc)
  cases x with
  | yield =>
    obtain ⟨R, e, hR⟩ := resume_holds h.Q.ready (hrun ▸ h0) (hrun ▸ hn.1) 0
    refine ⟨{ s with flag := upd s.flag s.running true, result := upd s.result s.running 0, ready := R, phase := .enter }, l,
      by simp only [act, e, Out.bind_ok], ⟨?_, hS', ⟨?_, h.M.mask⟩, ⟨?_, ?_, ?_, h.Q.log⟩, by simp, ?_⟩, by omega⟩
    · exact timers_status h.T rfl (fun c hc => by simp [Spec.act, hord c hc]) rfl rfl
    · intro c
      by_cases e : c = a.cur
      · subst e; simp [Spec.act, Fit, hpc]
      · simp [Spec.act, e]; exact h.M.fit c
    · have hR' := hR; rw [hrun] at hR'; exact hR'
    · intro c hc
      by_cases e : c = s.running
      · subst e; simp
      · simp only [upd_ne _ _ e]
        refine h.Q.flag c ?_
        simp [Spec.act, ← hrun, e] at hc
        exact hc
    · intro c fd r hs
      by_cases e : c = a.cur
      · subst e; simp [Spec.act] at hs
      · simp [Spec.act, e] at hs
        rw [hrun]
        simp only [upd_ne _ _ e]
        exact h.Q.result c fd r hs
    · intro _ c
      by_cases e : c = a.cur
      · subst e; simp [Spec.act]
      · simp [Spec.act, e]; exact hone c e
  | sleep ms =>
    by_cases hms : ms > 0
    · obtain ⟨L', l', e, hT, hl, hm, hcl⟩ := timers_sleep (c := a.cur) h.T now (ms := ms) (a' := a.act now (.sleep ms))
        (by simp [Spec.act, hms]) (fun c hc => by simp [Spec.act, hms, hord c hc]) (by simp [Spec.act, hms])
        (by simp [Spec.act, hms]) (by simp [Spec.act, hms])
      refine ⟨{ s with loop := L', phase := .enter }, l', by simp [act, hms, hrun, e, lift], ⟨hT, hS', ⟨?_, ?_⟩, ⟨?_, ?_, ?_, ?_⟩, by simp, ?_⟩, by omega⟩
      · intro c
        by_cases e : c = a.cur
        · subst e; simp [Spec.act, hms, Fit, hpc]
        · simp [Spec.act, hms, e]
          exact fit_congr (h.M.fit c) rfl (fun fd _ => ⟨by rw [hm], hcl fd⟩)
      · intro fd hfd
        simp only [hm] at hfd
        simp [Spec.act, hms]
        exact h.M.mask fd hfd
      · simp [Spec.act, hms]; exact h.Q.ready
      · simp [Spec.act, hms]; exact h.Q.flag
      · intro c fd r hs
        by_cases e : c = a.cur
        · subst e; simp [Spec.act, hms] at hs
        · simp [Spec.act, hms, e] at hs
          exact h.Q.result c fd r hs
      · simp [Spec.act, hms]; exact h.Q.log
      · intro _ c
        by_cases e : c = a.cur
        · subst e; simp [Spec.act, hms]
        · simp [Spec.act, hms, e]; exact hone c e
    · refine ⟨s, l, by simp [act, hms], ?_, by omega⟩
      simp only [Spec.act, hms, if_false]
      exact h
  | wait fd w t =>
    by_cases hfd : fd < 1024
    · obtain ⟨hno, hst⟩ := hp.2 hfd
      have hfl : Node.fd fd ∉ l := fun hm => by rw [fd_owned h.T h.S hm] at hno; cases hno
      obtain ⟨L', l', e, hT, hl, hm, hcl⟩ := timers_wait (w := w) (c := a.cur) h.T hfl hp.1 (t := t) (a' := a.act now (.wait fd w t))
        (by simp [Spec.act, hfd]) (fun c hc => by simp [Spec.act, hfd, hord c hc]) (by simp [Spec.act, hfd])
        (by simp [Spec.act, hfd]) (by simp [Spec.act, hfd])
      have hmask : s.loop.mask fd = .none := Classical.byContradiction fun hx => h.M.mask fd hx hno
      have hm' : L'.mask = upd s.loop.mask fd (.only w) := by
        rw [hm, hmask]; simp [Mask.only, Mask.none]
      refine ⟨{ s with loop := L', pending := upd s.pending s.running (some (fd, w)), phase := .enter }, l',
        by simp [act, setsize, hfd, hrun, e, lift], ⟨hT, hS', ⟨?_, ?_⟩, ⟨?_, ?_, ?_, ?_⟩, by simp, ?_⟩, by omega⟩
      · intro c
        by_cases e : c = a.cur
        · subst e; simp [Spec.act, hfd, Fit, hm', hcl, hrun]
        · simp [Spec.act, hfd, e, hrun]
          refine fit_congr (h.M.fit c) rfl (fun d hd => ?_)
          have hdf : d ≠ fd := by
            intro e2
            subst e2
            rw [← h.S.owner, hno] at hd
            cases hd
          exact ⟨by simp [hm', hdf], by simp [hcl, hdf]⟩
      · intro d hd
        simp only [hm'] at hd
        by_cases e2 : d = fd
        · subst e2; simp [Spec.act, hfd]
        · simp [e2] at hd
          simp [Spec.act, hfd, e2]
          exact h.M.mask d hd
      · simp [Spec.act, hfd]; exact h.Q.ready
      · simp [Spec.act, hfd]; exact h.Q.flag
      · intro c fd' r hs
        by_cases e : c = a.cur
        · subst e; simp [Spec.act, hfd] at hs
        · simp [Spec.act, hfd, e] at hs
          exact h.Q.result c fd' r hs
      · simp [Spec.act, hfd]; exact h.Q.log
      · intro _ c
        by_cases e : c = a.cur
        · subst e; simp [Spec.act, hfd]
        · simp [Spec.act, hfd, e]; exact hone c e
    · refine ⟨s, l, by simp [act, setsize, hfd], ?_, by omega⟩
      simp only [Spec.act, hfd, if_false]
      exact h
  | park =>
    refine ⟨{ s with phase := .enter }, l, rfl, ⟨?_, hS', ⟨?_, h.M.mask⟩, ⟨h.Q.ready, h.Q.flag, ?_, h.Q.log⟩, by simp, ?_⟩, by omega⟩
    · exact timers_status h.T rfl (fun c hc => by simp [Spec.act, hord c hc]) rfl rfl
    · intro c
      by_cases e : c = a.cur
      · subst e; simp [Spec.act, Fit, hpc]
      · simp [Spec.act, e]; exact h.M.fit c
    · intro c fd r hs
      by_cases e : c = a.cur
      · subst e; simp [Spec.act] at hs
      · simp [Spec.act, e] at hs
        exact h.Q.result c fd r hs
    · intro _ c
      by_cases e : c = a.cur
      · subst e; simp [Spec.act]
      · simp [Spec.act, e]; exact hone c e
  | wake d =>
    have hd : a.status d = .parked := hp.2
    have hnd := h.S.notIn (Or.inr (Or.inl hd))
    have hdc : a.cur ≠ d := by intro e; rw [← e, hcur] at hd; cases hd
    have hpd : s.pending d = none := by have := h.M.fit d; rw [hd] at this; exact this
    obtain ⟨R, e, hR⟩ := resume_holds h.Q.ready (cur_ne_zero h.S hd (by simp)) hnd.1 0
    refine ⟨_, l, e, ⟨?_, hS', ⟨?_, h.M.mask⟩, ⟨hR, ?_, ?_, h.Q.log⟩, ?_, ?_⟩, by omega⟩
    · exact timers_status h.T rfl (fun c hc => by
        have : c ≠ d := fun e => hnd.2.1 (e ▸ hc)
        simp [Spec.act, this]) rfl rfl
    · intro c
      by_cases e : c = d
      · subst e; simp [Spec.act, Fit, hpd]
      · simp [Spec.act, e]; exact h.M.fit c
    · intro c hc
      by_cases e : c = d
      · subst e; simp
      · simp only [upd_ne _ _ e]
        refine h.Q.flag c ?_
        simp [Spec.act, e] at hc
        exact hc
    · intro c fd r hs
      by_cases e : c = d
      · subst e; simp [Spec.act] at hs
      · simp [Spec.act, e] at hs
        simp only [upd_ne _ _ e]
        exact h.Q.result c fd r hs
    · intro _
      exact ⟨hrun, by simp [Spec.act, hdc, hcur]⟩
    · intro hx; exact absurd hr hx
  | spawn d =>
    obtain ⟨hd0, hd⟩ := hp.2
    have hnd := h.S.notIn (Or.inr (Or.inr hd))
    have hdc : d ≠ a.cur := by intro e; rw [e, hcur] at hd; cases hd
    have hcd : a.cur ≠ d := fun e => hdc e.symm
    have hready : Holds { s.ready with link := upd s.ready.link d 0 } a.queue := by
      have : upd s.ready.link d 0 = s.ready.link := by
        funext i
        by_cases e : i = d
        · subst e; simp [h.Q.ready.others i hnd.1]
        · simp [e]
      rw [this]
      exact h.Q.ready
    obtain ⟨R, e, hR⟩ := resume_holds (s := spawned s d) hready (hrun ▸ h0) (hrun ▸ hn.1) 0
    refine ⟨{ spawned s d with
      ready := R
      flag := upd (upd s.flag d false) s.running true
      result := upd s.result s.running 0
      running := d }, l, ?_, ⟨?_, hS', ⟨?_, h.M.mask⟩, ⟨?_, ?_, ?_, h.Q.log⟩, ?_, ?_⟩, by omega⟩
    · simp only [act]
      rw [e]
      rfl
    · exact timers_status h.T rfl (fun c hc => by
        have : c ≠ d := fun e => hnd.2.1 (e ▸ hc)
        simp [Spec.act, this, hord c hc]) rfl rfl
    · intro c
      by_cases e : c = d
      · subst e; simp [Spec.act, Fit]
      · by_cases e2 : c = a.cur
        · subst e2; simp [Spec.act, hcd, Fit, hpc]
        · simp [Spec.act, e, e2]; exact h.M.fit c
    · have hR' := hR; rw [hrun] at hR'; exact hR'
    · intro c hc
      rw [hrun]
      by_cases e2 : c = a.cur
      · subst e2; simp
      · simp [Spec.act, e2] at hc
        have e : c ≠ d := fun e => hnd.1 (e ▸ hc)
        simp only [upd_ne _ _ e2, upd_ne _ _ e]
        exact h.Q.flag c hc
    · intro c fd r hs
      rw [hrun]
      by_cases e : c = d
      · subst e; simp [Spec.act] at hs
      · by_cases e2 : c = a.cur
        · subst e2; simp [Spec.act, hcd] at hs
        · simp [Spec.act, e, e2] at hs
          simp only [upd_ne _ _ e2]
          exact h.Q.result c fd r hs
    · intro _
      exact ⟨rfl, by simp [Spec.act]⟩
    · intro hx; exact absurd hr hx
  | finish =>
    refine ⟨{ s with running := 0, phase := .enter }, l, rfl, ⟨?_, hS', ⟨?_, h.M.mask⟩, ⟨h.Q.ready, h.Q.flag, ?_, h.Q.log⟩, by simp, ?_⟩, by omega⟩
    · exact timers_status h.T rfl (fun c hc => by simp [Spec.act, hord c hc]) rfl rfl
    · intro c
      by_cases e : c = a.cur
      · subst e; simp [Spec.act, Fit]
      · simp [Spec.act, e]; exact h.M.fit c
    · intro c fd r hs
      by_cases e : c = a.cur
      · subst e; simp [Spec.act] at hs
      · simp [Spec.act, e] at hs
        exact h.Q.result c fd r hs
    · intro _ c
      by_cases e : c = a.cur
      · subst e; simp [Spec.act]
      · simp [Spec.act, e]; exact hone c e

/-! ## Switching -/

theorem switch_inv {s : Sys} {a : Spec} {l : List Node} (h : Inv s a l) (hr : s.phase ≠ .run) (hq : s.ready.head ≠ 0) :
    ∃ s', switch s = .ok s' ∧ Inv s' a.switch l := by
  have hS' := switch_ok h.S (h.idle hr)
  obtain ⟨hp1, hp2⟩ := pop_holds h.Q.ready
  unfold switch
  unfold Spec.switch at hS' ⊢
  cases hqq : a.queue with
  | nil =>
    have := h.Q.ready.chain
    rw [hqq] at this
    exact absurd this hq
  | cons c q =>
    rw [hqq] at hp1 hp2 hS'
    simp only [List.head?_cons, Option.getD_some, List.tail_cons] at hp1 hp2
    have hcq : (a.status c).isReady = true := (h.S.queue c).1 (by rw [hqq]; simp)
    have hnd : c ∉ q := by have := h.S.qNodup; rw [hqq] at this; exact (List.nodup_cons.1 this).1
    have hfl : s.flag c = true := h.Q.flag c (by rw [hqq]; simp)
    have hco : c ∉ a.order := by
      rw [h.S.order]
      cases hs : a.status c <;> simp [hs, Status.isReady] at hcq
      simp [Status.deadline]
    have hord : ∀ x ∈ a.order, x ≠ c := fun x hx e => hco (e ▸ hx)
    have hflag : ∀ x ∈ q, upd s.flag c false x = true := by
      intro x hx
      have e : x ≠ c := fun e => hnd (e ▸ hx)
      simp only [upd_ne _ _ e]
      exact h.Q.flag x (by rw [hqq]; simp [hx])
    have hfit := h.M.fit c
    simp only [hp1, hfl, if_true]
    cases hs : a.status c with
    | ready r =>
      cases r with
      | none =>
        rw [hs] at hfit
        have hpn : s.pending c = none := hfit
        simp only [hpn]
        simp only [hs] at hS'
        refine ⟨_, rfl, ⟨?_, hS', ⟨?_, h.M.mask⟩, ⟨hp2, hflag, ?_, ?_⟩, ?_, ?_⟩⟩
        · exact timers_status h.T rfl (fun x hx => by simp [hord x hx]) rfl rfl
        · intro x
          by_cases e : x = c
          · subst e; simp [Fit]
          · simp [e]; exact h.M.fit x
        · intro x fd r hx
          by_cases e : x = c
          · subst e; simp at hx
          · simp [e] at hx; exact h.Q.result x fd r hx
        · simp [h.Q.log]
        · intro _; exact ⟨rfl, by simp⟩
        · intro hx; exact absurd rfl hx
      | some fr =>
        obtain ⟨fd, r⟩ := fr
        rw [hs] at hfit
        obtain ⟨w, hpn, hmk⟩ := hfit
        simp only [hpn]
        simp only [hs] at hS'
        have hmk' : (deleteFile s.loop fd w).mask = upd s.loop.mask fd .none := by
          rcases hmk with e | e <;> rw [deleteFile, e] <;> cases w <;> rfl
        have hof : a.owner fd = some c := by rw [h.S.owner, hs]; rfl
        refine ⟨_, rfl, ⟨?_, hS', ⟨?_, ?_⟩, ⟨hp2, hflag, ?_, ?_⟩, ?_, ?_⟩⟩
        · exact h.T.congr rfl rfl rfl rfl rfl rfl rfl rfl rfl (fun _ _ => rfl) rfl (fun x hx => by simp [hord x hx]) rfl rfl
        · intro x
          by_cases e : x = c
          · subst e; simp [Fit]
          · simp [e]
            refine fit_congr (h.M.fit x) rfl (fun d hd => ?_)
            have hdf : d ≠ fd := by
              intro e2
              subst e2
              rw [← h.S.owner, hof] at hd
              simp at hd
              exact e hd.symm
            exact ⟨by rw [hmk']; simp [hdf], rfl⟩
        · intro d hd
          simp only [hmk'] at hd
          by_cases e2 : d = fd
          · subst e2; simp at hd
          · simp [e2] at hd
            simp [e2]
            exact h.M.mask d hd
        · intro x fd' r' hx
          by_cases e : x = c
          · subst e; simp at hx
          · simp [e] at hx; exact h.Q.result x fd' r' hx
        · simp [h.Q.log, h.Q.result c fd r hs]
        · intro _; exact ⟨rfl, by simp⟩
        · intro hx; exact absurd rfl hx
    | _ => rw [hs] at hcq; simp [Status.isReady] at hcq

end Verif.EvLoop
