import Verif.Std.EvLoop.Sim
/-! # A poll follows its specification -/
namespace Verif.EvLoop
open Verif.ListQ (Holds push_holds pop_holds)

/-- No wait without a timeout is for a descriptor whose record still has a time. -/
def NoStale (a : Spec) : Prop := ∀ c fd w, a.status c = .waiting fd w none → fd ∉ a.stale

theorem start_noStale (main : Nat) (now : Int) : NoStale (Spec.start main now) := by
  intro c fd w _; simp [Spec.start]

theorem act_noStale {a : Spec} (h : NoStale a) (x : Act) (now : Int) (hp : Proper a (.act x now)) : NoStale (a.act now x) := by
  intro c fd w hs
  cases x with
  | sleep ms =>
    by_cases hms : ms > 0
    · by_cases e : c = a.cur
      · subst e; simp [Spec.act, hms] at hs
      · simp [Spec.act, hms, e] at hs ⊢; exact h c fd w hs
    · simp [Spec.act, hms] at hs ⊢; exact h c fd w hs
  | wait fd' w' t =>
    by_cases hfd : fd' < 1024
    · by_cases e : c = a.cur
      · subst e
        simp [Spec.act, hfd] at hs ⊢
        obtain ⟨rfl, rfl, ht⟩ := hs
        exact (hp.2 hfd).2 ht
      · simp [Spec.act, hfd, e] at hs ⊢; exact h c fd w hs
    · simp [Spec.act, hfd] at hs ⊢; exact h c fd w hs
  | wake d =>
    by_cases e : c = d
    · subst e; simp [Spec.act] at hs
    · simp [Spec.act, e] at hs ⊢; exact h c fd w hs
  | spawn d =>
    by_cases e2 : c = d
    · subst e2; simp [Spec.act] at hs
    · by_cases e : c = a.cur
      · subst e; simp [Spec.act, e2] at hs
      · simp [Spec.act, e, e2] at hs ⊢; exact h c fd w hs
  | _ =>
    by_cases e : c = a.cur
    · subst e; simp [Spec.act] at hs
    · simp [Spec.act, e] at hs ⊢; exact h c fd w hs

theorem fire_noStale {a : Spec} (hS : SpecOk a) (h : NoStale a) {fd c : Nat} {w : Bool} {t : Option Int} {e : Ev}
    (ho : a.owner fd = some c) (hs : a.status c = .waiting fd w t) : NoStale (a.fire fd e) := by
  intro x d v hx
  simp only [Spec.fire, ho] at hx ⊢
  by_cases e2 : x = c
  · subst e2; simp at hx
  · simp [e2] at hx
    have h1 := h x d v hx
    have hne : d ≠ fd := by
      intro e3
      subst e3
      have : a.owner d = some x := by rw [hS.owner, hx]; rfl
      rw [ho] at this
      simp at this
      exact e2 this.symm
    split
    · exact h1
    · simp [hne, h1]

theorem expire_status {a : Spec} (h : SpecOk a) (clk : Nat → Int) (c : Nat) :
    (a.expire clk).status c = if late clk a.status c then (a.status c).expired else a.status c := by
  simp only [Spec.expire, late_iff h]

theorem expire_noStale {a : Spec} (hS : SpecOk a) (h : NoStale a) (clk : Nat → Int) : NoStale (a.expire clk) := by
  intro x d v hx
  rw [expire_status hS] at hx
  by_cases hl : late clk a.status x = true
  · rcases late_cases hl with ⟨t, e, _⟩ | ⟨fd, w, t, e, _⟩ <;> simp [hl, e, Status.expired] at hx
  · simp [hl] at hx
    intro hm
    exact h x d v hx (List.mem_filter.1 hm).1

theorem switch_noStale {a : Spec} (h : NoStale a) : NoStale a.switch := by
  intro x d v hx
  unfold Spec.switch at hx ⊢
  split at hx
  · exact h x d v hx
  · rename_i c q _
    split at hx <;> (by_cases e : x = c)
    · subst e; simp at hx
    · simp [e] at hx; exact h x d v hx
    · subst e; simp at hx
    · simp [e] at hx; exact h x d v hx

/-- A wait with a timeout is in the list. -/
theorem waiting_mem {L : Loop} {a : Spec} {l : List Node} (hT : TimersOk L a l) (hS : SpecOk a) {c fd : Nat} {w : Bool} {t : Int}
    (hs : a.status c = .waiting fd w (some t)) : Node.fd fd ∈ l ∧ L.client (.fd fd) = c ∧ (L.due (.fd fd)).val = t := by
  have hm : c ∈ a.order := by rw [hS.order, hs]; rfl
  rw [hT.order] at hm
  obtain ⟨n, hn, hc⟩ := List.mem_map.1 hm
  obtain ⟨hn, hl⟩ := List.mem_filter.1 hn
  have hk := hT.kind n hn hl
  cases n with
  | heap k => simp only [Kind, hc, hs] at hk; cases hk
  | fd d =>
    simp only [Kind, hc, hs] at hk
    obtain ⟨w', e⟩ := hk
    simp at e
    obtain ⟨rfl, _, rfl⟩ := e
    exact ⟨hn, hc, rfl⟩

theorem fire_sim {L : Loop} {a : Spec} {l : List Node} {pending : Nat → Option (Nat × Bool)} (hT : TimersOk L a l) (hS : SpecOk a)
    (hN : NoStale a) (hM : MaskOk L pending a) {fd c : Nat} {w : Bool} {t : Option Int} {e : Ev}
    (ho : a.owner fd = some c) (hs : a.status c = .waiting fd w t) (he : (if w then e.mask.w else e.mask.r) = true) :
    ∃ L' l', fireOne L fd e = .ok (L', [(c, e.mask.val)]) ∧ TimersOk L' (a.fire fd e) l' ∧ MaskOk L' pending (a.fire fd e) ∧
      l'.length ≤ l.length := by
  have hfit := hM.fit c
  rw [hs] at hfit
  obtain ⟨hm, hcl, hpe⟩ := hfit
  have hhit : ((L.mask fd).r && e.mask.r || (L.mask fd).w && e.mask.w) = true := by
    rw [hm]; cases w <;> simp [Mask.only] at he ⊢ <;> exact he
  have hmask : ∀ L' : Loop, L'.mask = L.mask → L'.client = L.client → MaskOk L' pending (a.fire fd e) := by
    intro L' h1 h2
    constructor
    · intro x
      simp only [Spec.fire, ho]
      by_cases e2 : x = c
      · subst e2
        simp only [upd_same, Fit]
        exact ⟨w, hpe, Or.inl (by rw [h1]; exact hm)⟩
      · simp only [upd_ne _ _ e2]
        exact fit_congr (hM.fit x) rfl (fun d _ => ⟨by rw [h1], by rw [h2]⟩)
    · intro d hd
      rw [h1] at hd
      simp only [Spec.fire, ho]
      exact hM.mask d hd
  have hst : ∀ x, x ≠ c → (a.fire fd e).status x = a.status x := by
    intro x hx; simp only [Spec.fire, ho, upd_ne _ _ hx]
  cases t with
  | none =>
    have hno : Node.fd fd ∉ l := by
      intro hm
      obtain ⟨w', e2⟩ := hT.kind _ hm (hT.fdLive fd hm)
      rw [hcl, hs] at e2
      simp at e2
    have hpos : ¬ ((L.due (.fd fd)).sec > 0 ∨ (L.due (.fd fd)).ms > 0) := by
      intro hp
      rcases hT.dueFd fd hp with h1 | h1
      · exact hno h1
      · exact hN c fd w hs h1
    have hco : c ∉ a.order := by rw [hS.order, hs]; simp [Status.deadline]
    refine ⟨L, l, ?_, ?_, hmask L rfl rfl, Nat.le_refl _⟩
    · simp only [fireOne, hpos, if_false, Res.map_ok, hhit, if_true, hcl]
    · refine timers_status hT ?_ (fun x hx => hst x (fun e => hco (e ▸ hx))) ?_ ?_
      · simp only [Spec.fire, ho]
        exact List.filter_eq_self.2 (fun x hx => by simp; exact fun e => hco (e ▸ hx))
      · simp only [Spec.fire, ho, hs, Status.deadline, if_true]
      · simp only [Spec.fire, ho]
  | some u =>
    obtain ⟨hin, _, _⟩ := waiting_mem hT hS hs
    have hpos : (L.due (.fd fd)).sec > 0 ∨ (L.due (.fd fd)).ms > 0 := hT.posFd fd hin
    have hlive := hT.fdLive fd hin
    obtain ⟨x, y, rfl⟩ := List.append_of_mem hin
    obtain ⟨hd, nx, pv, eu, _, hr⟩ := unlink_rep hT.rep
    have hnd := hT.rep.nodup
    rw [List.nodup_append] at hnd
    have hnx : Node.fd fd ∉ x := fun hx => hnd.2.2 _ hx _ (by simp) rfl
    have hny : Node.fd fd ∉ y := (List.nodup_cons.1 hnd.2.1).1
    have hmem : ∀ n, n ∈ x ++ y → n ∈ x ++ .fd fd :: y := by
      intro n hn; simp at hn ⊢; rcases hn with h | h <;> simp [h]
    -- the coroutine is that of no other record
    have hord : a.order = ((x.filter (liveIn L)).map L.client) ++ c :: ((y.filter (liveIn L)).map L.client) := by
      rw [hT.order, List.filter_append, List.filter_cons_of_pos hlive]
      simp [hcl]
    have hon := hS.oNodup
    rw [hord, List.nodup_append] at hon
    have hcx : c ∉ (x.filter (liveIn L)).map L.client := fun h => hon.2.2 c h c (by simp) rfl
    have hcy : c ∉ (y.filter (liveIn L)).map L.client := (List.nodup_cons.1 hon.2.1).1
    have hoth : ∀ n ∈ x ++ y, liveIn L n = true → L.client n ≠ c := by
      intro n hn hl e
      simp at hn
      rcases hn with h | h
      · exact hcx (e ▸ List.mem_map.2 ⟨n, List.mem_filter.2 ⟨h, hl⟩, rfl⟩)
      · exact hcy (e ▸ List.mem_map.2 ⟨n, List.mem_filter.2 ⟨h, hl⟩, rfl⟩)
    refine ⟨{ L with head := hd, next := nx, prev := pv }, x ++ y, ?_, ⟨hr, ?_, ?_, ?_, ?_, ?_, ?_, ?_, ?_, ?_, ?_, ?_⟩,
      hmask _ rfl rfl, by simp⟩
    · simp only [fireOne, hpos, if_true, eu, Res.map_ok, hhit, hcl]
    · have hne : ∀ z : List Node, c ∉ (z.filter (liveIn L)).map L.client →
          ((z.filter (liveIn L)).map L.client).filter (fun x => decide (x ≠ c)) = (z.filter (liveIn L)).map L.client := by
        intro z hz
        exact List.filter_eq_self.2 (fun v hv => by simp only [decide_eq_true_eq]; exact fun e => hz (e ▸ hv))
      show (a.fire fd e).order = ((x ++ y).filter (liveIn L)).map L.client
      have e1 : (a.fire fd e).order = a.order.filter fun x => decide (x ≠ c) := by simp only [Spec.fire, ho]
      rw [e1, hord, List.filter_append, hne x hcx, List.filter_cons_of_neg (by simp), hne y hcy, List.filter_append, List.map_append]
    · exact fun n hn => hT.small n (hmem n hn)
    · intro n hn hl
      have hk := hT.kind n (hmem n hn) hl
      have hc := hst _ (hoth n hn hl)
      cases n with
      | heap k => simp only [Kind] at hk ⊢; rw [hc]; exact hk
      | fd d => simp only [Kind] at hk ⊢; rw [hc]; exact hk
    · exact fun k hk => ⟨fun h => (hT.fresh k hk).1 (hmem _ h), (hT.fresh k hk).2⟩
    · exact hT.fdAlive
    · exact fun n hn => hT.ids n (hmem n hn)
    · exact hT.idPos
    · exact fun d hd => hT.fdLive d (hmem _ hd)
    · have : (a.fire fd e).clock = a.clock := by simp only [Spec.fire, ho]
      rw [this]; exact hT.last
    · intro d hd
      have e1 : (a.fire fd e).stale = fd :: a.stale := by
        simp only [Spec.fire, ho, hs, Status.deadline]
        rw [if_neg (by simp)]
      rw [e1]
      rcases hT.dueFd d hd with h | h
      · by_cases e2 : d = fd
        · subst e2; simp
        · refine Or.inl ?_
          simp at h ⊢
          rcases h with h | h | h
          · exact Or.inl h
          · exact absurd h e2
          · exact Or.inr h
      · exact Or.inr (by simp [h])
    · exact fun d hd => hT.posFd d (hmem _ hd)

/-- What a poll adds to the ready coroutines. -/
structure Wakes (a : Spec) (W : List (Nat × Int)) (a' : Spec) : Prop where
  queue : a'.queue = a.queue ++ W.map Prod.fst
  result : ∀ x ∈ W, ∀ fd r, a'.status x.1 = .ready (some (fd, r)) → x.2 = r
  same : ∀ c, c ∉ W.map Prod.fst → a'.status c = a.status c
  log : a'.log = a.log
  cur : a'.cur = a.cur

theorem Wakes.trans {a b c : Spec} {W V : List (Nat × Int)} (h1 : Wakes a W b) (h2 : Wakes b V c) (hn : c.queue.Nodup) :
    Wakes a (W ++ V) c := by
  refine ⟨?_, ?_, ?_, h2.log.trans h1.log, h2.cur.trans h1.cur⟩
  · rw [h2.queue, h1.queue]; simp
  · intro x hx fd r hs
    simp at hx
    rcases hx with hx | hx
    · refine h1.result x hx fd r ?_
      rw [← hs]
      refine (h2.same x.1 ?_).symm
      intro hv
      rw [h2.queue, h1.queue] at hn
      exact (List.nodup_append.1 hn).2.2 x.1 (by simp; exact Or.inr ⟨x.2, hx⟩) x.1 hv rfl
    · exact h2.result x hx fd r hs
  · intro x hx
    simp at hx
    rw [h2.same x (by simp; exact hx.2), h1.same x (by simp; exact hx.1)]

theorem fire_wakes {a : Spec} {fd c : Nat} (e : Ev) (ho : a.owner fd = some c) : Wakes a [(c, e.mask.val)] (a.fire fd e) := by
  simp only [Spec.fire, ho]
  refine ⟨rfl, ?_, ?_, rfl, rfl⟩
  · intro x hx fd r hs
    simp at hx
    subst hx
    simp at hs
    exact hs.2
  · intro x hx
    simp at hx
    simp [hx]

theorem fireAll_sim {pending : Nat → Option (Nat × Bool)} : ∀ (F : List (Nat × Ev)) {L : Loop} {a : Spec} {l : List Node},
    TimersOk L a l → SpecOk a → NoStale a → MaskOk L pending a → (F.map Prod.fst).Nodup →
    (∀ x ∈ F, ∃ c w t, a.owner x.1 = some c ∧ a.status c = .waiting x.1 w t ∧ (if w then x.2.mask.w else x.2.mask.r) = true) →
    ∃ L' l' W, fireAll L F = .ok (L', W) ∧ TimersOk L' (a.fireAll F) l' ∧ SpecOk (a.fireAll F) ∧ NoStale (a.fireAll F) ∧
      MaskOk L' pending (a.fireAll F) ∧ Wakes a W (a.fireAll F) ∧ l'.length ≤ l.length ∧ (a.fireAll F).clock = a.clock
  | [], L, a, l, hT, hS, hN, hM, _, _ => ⟨L, l, [], rfl, hT, hS, hN, hM, ⟨by simp [Spec.fireAll], by simp, fun _ _ => rfl, rfl, rfl⟩,
      Nat.le_refl _, rfl⟩
  | (fd, e) :: F, L, a, l, hT, hS, hN, hM, hnd, hF => by
    obtain ⟨c, w, t, ho, hs, he⟩ := hF (fd, e) (by simp)
    simp only [List.map_cons, List.nodup_cons] at hnd
    obtain ⟨L1, l1, e1, hT1, hM1, hl1⟩ := fire_sim hT hS hN hM ho hs he
    have hS1 := fire_ok (e := e) hS ho hs
    have hN1 := fire_noStale (e := e) hS hN ho hs
    have hF1 : ∀ x ∈ F, ∃ c w t, (a.fire fd e).owner x.1 = some c ∧ (a.fire fd e).status c = .waiting x.1 w t ∧
        (if w then x.2.mask.w else x.2.mask.r) = true := by
      intro x hx
      obtain ⟨c', w', t', ho', hs', he'⟩ := hF x (by simp [hx])
      have hne : c' ≠ c := by
        intro e2
        subst e2
        rw [hs] at hs'
        simp at hs'
        exact hnd.1 (hs'.1 ▸ List.mem_map.2 ⟨x, hx, rfl⟩)
      refine ⟨c', w', t', ?_, ?_, he'⟩
      · simp only [Spec.fire, ho]; exact ho'
      · simp only [Spec.fire, ho, upd_ne _ _ hne]; exact hs'
    obtain ⟨L2, l2, W, e2, hT2, hS2, hN2, hM2, hW, hl2, hck⟩ := fireAll_sim F hT1 hS1 hN1 hM1 hnd.2 hF1
    refine ⟨L2, l2, [(c, e.mask.val)] ++ W, ?_, hT2, hS2, hN2, hM2, ?_, Nat.le_trans hl2 hl1, ?_⟩
    · rw [fireAll, e1, Res.bind_ok, e2, Res.map_ok]
    · exact (fire_wakes e ho).trans hW hS2.qNodup
    · rw [Spec.fireAll, hck]
      simp only [Spec.fire, ho]

/-! ## The pass over the timers -/

theorem fires_late {L : Loop} {a : Spec} {l : List Node} (hT : TimersOk L a l) (clk : Nat → Int) {n : Node} (hn : n ∈ l) :
    fires clk L n = (liveIn L n && late clk a.status (L.client n)) := by
  unfold fires
  show (liveIn L n && _) = _
  cases hl : liveIn L n with
  | false => rfl
  | true =>
    simp only [Bool.true_and]
    rw [isDue_iff (hT.small n hn)]
    have hk := hT.kind n hn hl
    cases n with
    | heap k => simp only [Kind] at hk; simp only [late, hk, Status.deadline]
    | fd d => simp only [Kind] at hk; obtain ⟨w, e⟩ := hk; simp only [late, e, Status.deadline]

theorem woken_map {g : Node → List (Nat × Int)} {live : Node → Bool} {cl : Node → Nat} {lt : Nat → Bool} : ∀ {l : List Node},
    (∀ n ∈ l, (g n).map Prod.fst = if live n && lt (cl n) then [cl n] else []) →
    (l.flatMap g).map Prod.fst = ((l.filter live).map cl).filter lt
  | [], _ => rfl
  | n :: l, h => by
    rw [List.flatMap_cons, List.map_append, h n (by simp), woken_map (fun m hm => h m (by simp [hm]))]
    cases hl : live n with
    | false => simp [hl]
    | true =>
      rw [List.filter_cons_of_pos hl, List.map_cons]
      cases ht : lt (cl n) with
      | false => simp [ht]
      | true => simp [ht]

theorem timers_sim {L : Loop} {a : Spec} {l : List Node} {pending : Nat → Option (Nat × Bool)} (hT : TimersOk L a l) (hS : SpecOk a)
    (hM : MaskOk L pending a) {f : Nat} (hf : l.length ≤ f) (p : Poll) (hck : a.clock ≤ p.now) :
    ∃ L' l' W, timers f L p = .ok (L', W) ∧ TimersOk L' { a.expire p.clk with clock := p.now } l' ∧
      MaskOk L' pending { a.expire p.clk with clock := p.now } ∧ Wakes a W { a.expire p.clk with clock := p.now } ∧ l'.length ≤ l.length := by
  have hst := expire_status hS p.clk
  have hnow : ¬ p.now / 1000 < L.last := by have := hT.last; omega
  have hr0 : Rep { L with last := p.now / 1000 } ([] ++ l) := hT.rep.congr rfl rfl rfl (fun _ _ => rfl)
  obtain ⟨L', e, hr, hp⟩ := pass_rep (L.nextId - 1) p.clk l [] { L with last := p.now / 1000 } f hr0
    (fun n hn => by have := hT.ids n hn; simp only []; omega) hf
  have hfi : ∀ n ∈ l, fires p.clk { L with last := p.now / 1000 } n = (liveIn L n && late p.clk a.status (L.client n)) :=
    fun n hn => fires_late hT p.clk hn
  have hgone : ∀ n ∈ l, gone p.clk { L with last := p.now / 1000 } n =
      (!liveIn L n || (late p.clk a.status (L.client n) && n.isFd)) := by
    intro n hn
    simp only [gone, hfi n hn]
    have hdec : decide (L.tid n = -1) = !liveIn L n := by simp [liveIn]
    rw [hdec]
    cases liveIn L n <;> simp
  have hlive' : ∀ n ∈ l, liveIn L' n = (liveIn L n && !(late p.clk a.status (L.client n) && !n.isFd)) := by
    intro n hn
    simp only [liveIn, hp.tid, hfi n hn, hn, true_and]
    cases hx : late p.clk a.status (L.client n) <;> cases hy : n.isFd <;> simp
  have hwait : ∀ d, Node.fd d ∈ l → ∃ w t, a.status (L.client (.fd d)) = .waiting d w (some t) := by
    intro d hd
    obtain ⟨w, e⟩ := hT.kind _ hd (hT.fdLive d hd)
    exact ⟨w, _, e⟩
  have hW : ((l.flatMap (woken p.clk { L with last := p.now / 1000 })).map Prod.fst) = a.order.filter (late p.clk a.status) := by
    rw [hT.order]
    refine woken_map (fun n hn => ?_)
    unfold woken
    rw [hfi n hn]
    cases hx : (liveIn L n && late p.clk a.status (L.client n)) with
    | false => simp
    | true =>
      cases n with
      | heap k => simp
      | fd d =>
        obtain ⟨w, t, e⟩ := hwait d hn
        have := hM.fit (L.client (.fd d))
        rw [e] at this
        have hm : L.mask d = .only w := this.1
        simp only [hm]
        cases w <;> rfl
  refine ⟨L', l.filter (fun n => !gone p.clk { L with last := p.now / 1000 } n), l.flatMap (woken p.clk { L with last := p.now / 1000 }), ?_, ⟨by simpa using hr, ?_, ?_, ?_, ?_, ?_, ?_, ?_, ?_, ?_, ?_, ?_⟩,
    ⟨?_, ?_⟩, ⟨?_, ?_, ?_, rfl, rfl⟩, ?_⟩
  · simp only [timers, hnow, if_false, Res.bind_ok]
    have hh : L.head = l.head? := hT.rep.head
    rw [← hh] at e
    exact e
  · -- order
    show a.order.filter _ = _
    rw [List.filter_filter, hp.client, hT.order, List.filter_map]
    refine congrArg _ ?_
    rw [List.filter_filter]
    refine List.filter_congr (fun n hn => ?_)
    rw [hlive' n hn, hgone n hn]
    simp only [Function.comp]
    cases liveIn L n <;> cases late p.clk a.status (L.client n) <;> cases n.isFd <;> rfl
  · intro n hn
    obtain ⟨hn, hg⟩ := List.mem_filter.1 hn
    rw [hgone n hn] at hg
    rw [hp.due, if_neg]
    · exact hT.small n hn
    · rintro ⟨_, h2, h3⟩
      rw [hfi n hn] at h2
      simp at h2
      simp [h2, h3] at hg
  · intro n hn hl
    obtain ⟨hn, hg⟩ := List.mem_filter.1 hn
    rw [hgone n hn] at hg
    rw [hlive' n hn] at hl
    have hl0 : liveIn L n = true := by
      cases h : liveIn L n
      · simp [h] at hl
      · rfl
    have hla : late p.clk a.status (L.client n) = false := by
      cases h : late p.clk a.status (L.client n)
      · rfl
      · cases h2 : n.isFd <;> simp [h, h2, hl0] at hl hg
    have hdue : L'.due n = L.due n := by
      rw [hp.due, if_neg]
      rintro ⟨_, h2, _⟩
      rw [hfi n hn] at h2
      simp [hla] at h2
    have hk := hT.kind n hn hl0
    have hs' := hst (L.client n)
    rw [hla] at hs'
    cases n with
    | heap k => simp only [Kind, hp.client, hdue] at hk ⊢; rw [← hk]; exact hs'
    | fd d => simp only [Kind, hp.client, hdue] at hk ⊢; obtain ⟨w, hk⟩ := hk; exact ⟨w, by rw [← hk]; exact hs'⟩
  · intro k hk
    rw [hp.nextHeap] at hk
    have := hT.fresh k hk
    refine ⟨fun h => this.1 (List.mem_filter.1 h).1, ?_⟩
    rw [hp.freed]
    simp [this]
  · intro d
    rw [hp.freed]
    have h1 := hT.fdAlive d
    simp only [h1, Bool.false_or, decide_eq_false_iff_not]
    rintro ⟨h2, h3⟩
    have := hT.fdLive d h2
    simp [liveIn] at this
    exact this h3
  · intro n hn
    obtain ⟨hn, _⟩ := List.mem_filter.1 hn
    rw [hp.tid, hp.nextId]
    have := hT.ids n hn
    have := hT.idPos
    split
    · show (-1 : Int) < L.nextId; omega
    · exact hT.ids n hn
  · rw [hp.nextId]; exact hT.idPos
  · intro d hd
    obtain ⟨hd, _⟩ := List.mem_filter.1 hd
    rw [hlive' _ hd, hT.fdLive d hd]
    simp [Node.isFd]
  · rw [hp.last]; exact Int.le_refl _
  · intro d hd
    rw [hp.due] at hd
    split at hd
    · simp [Tm.Pos] at hd
    · rename_i hnf
      rcases hT.dueFd d hd with h1 | h1
      · refine Or.inl (List.mem_filter.2 ⟨h1, ?_⟩)
        rw [hgone _ h1, hT.fdLive d h1]
        cases hx : late p.clk a.status (L.client (.fd d)) with
        | false => rfl
        | true => exact absurd ⟨h1, by rw [hfi _ h1, hT.fdLive d h1, hx]; rfl, rfl⟩ hnf
      · refine Or.inr ?_
        show d ∈ a.stale.filter _
        refine List.mem_filter.2 ⟨h1, ?_⟩
        cases ho : a.owner d with
        | none => rfl
        | some c =>
          cases hx : late p.clk a.status c with
          | false => simp [hx]
          | true =>
            have hon := (hS.owner d c).1 ho
            rcases late_cases hx with ⟨t, e2, _⟩ | ⟨fd, w, t, e2, _⟩
            · rw [e2] at hon; simp [Status.onFd] at hon
            · rw [e2] at hon
              simp [Status.onFd] at hon
              subst hon
              obtain ⟨h2, h3, _⟩ := waiting_mem hT hS e2
              exact absurd ⟨h2, by rw [hfi _ h2, hT.fdLive _ h2, h3, hx]; rfl, rfl⟩ hnf
  · intro d hd
    obtain ⟨hd, hg⟩ := List.mem_filter.1 hd
    rw [hgone _ hd] at hg
    rw [hp.due, if_neg]
    · exact hT.posFd d hd
    · rintro ⟨_, h2, h3⟩
      rw [hfi _ hd] at h2
      simp at h2
      simp [h2, h3] at hg
  · -- masks
    intro c
    have hs' : ({ a.expire p.clk with clock := p.now } : Spec).status c = if late p.clk a.status c then (a.status c).expired else a.status c := hst c
    rw [hs']
    have hfit := hM.fit c
    cases hx : late p.clk a.status c with
    | true =>
      rcases late_cases hx with ⟨t, e2, _⟩ | ⟨fd, w, t, e2, _⟩
      · rw [e2] at hfit ⊢; exact hfit
      · rw [e2] at hfit ⊢
        obtain ⟨h2, h3, _⟩ := waiting_mem hT hS e2
        refine ⟨w, hfit.2.2, Or.inr ?_⟩
        rw [hp.mask, if_pos ⟨h2, by rw [hfi _ h2, hT.fdLive _ h2, h3, hx]; rfl⟩]
    | false =>
      simp only [Bool.false_eq_true, if_false]
      refine fit_congr hfit rfl (fun d hd => ⟨?_, by rw [hp.client]⟩)
      rw [hp.mask, if_neg]
      rintro ⟨h2, h3⟩
      have h4 := fd_owned hT hS h2
      have h5 := (hS.owner d c).2 hd
      rw [h4] at h5
      rw [hfi _ h2] at h3
      simp at h3 h5
      rw [h5, hx] at h3
      simp at h3
  · intro d hd
    rw [hp.mask] at hd
    show a.owner d ≠ none
    split at hd
    · simp at hd
    · exact hM.mask d hd
  · show a.queue ++ _ = _
    rw [hW]
  · intro x hx fd r hs'
    have hs'' : (if late p.clk a.status x.1 then (a.status x.1).expired else a.status x.1) = .ready (some (fd, r)) := by
      rw [← hst]; exact hs'
    obtain ⟨n, hn, hw⟩ := List.mem_flatMap.1 hx
    unfold woken at hw
    rw [hfi n hn] at hw
    cases hy : (liveIn L n && late p.clk a.status (L.client n)) with
    | false => rw [hy] at hw; simp at hw
    | true =>
      rw [hy] at hw
      simp only [Bool.and_eq_true] at hy
      have hk := hT.kind n hn hy.1
      cases n with
      | heap k =>
        simp only [if_true, List.mem_singleton] at hw
        subst hw
        simp only [Kind] at hk
        simp [hy.2, hk, Status.expired] at hs''
      | fd d =>
        simp only [if_true] at hw
        split at hw
        · simp only [List.mem_singleton] at hw
          subst hw
          simp only [Kind] at hk
          obtain ⟨w, hk⟩ := hk
          simp [hy.2, hk, Status.expired] at hs''
          simp [timedOut, hs''.2]
        · simp at hw
  · intro c hc
    rw [hW] at hc
    have : late p.clk a.status c = false := by
      cases hx : late p.clk a.status c with
      | false => rfl
      | true =>
        refine absurd (List.mem_filter.2 ⟨?_, hx⟩) hc
        have := late_iff hS p.clk c
        rw [hx] at this
        simpa using this
    have h2 := hst c
    rw [this] at h2
    exact h2
  · exact List.length_filter_le _ _

theorem clock_ok {a : Spec} (h : SpecOk a) (t : Int) : SpecOk { a with clock := t } :=
  ⟨h.qNodup, h.oNodup, h.queue, h.order, h.zero, h.owner, h.one⟩

theorem process_sim {L : Loop} {a : Spec} {l : List Node} {pending : Nat → Option (Nat × Bool)} (hT : TimersOk L a l) (hS : SpecOk a)
    (hN : NoStale a) (hM : MaskOk L pending a) {f : Nat} (hf : l.length ≤ f) (p : Poll) (hp : Proper a (.poll p)) :
    ∃ L' l' W, process f L p = .ok (L', W) ∧ TimersOk L' (a.poll p) l' ∧ SpecOk (a.poll p) ∧ NoStale (a.poll p) ∧
      MaskOk L' pending (a.poll p) ∧ Wakes a W (a.poll p) ∧ l'.length ≤ l.length := by
  obtain ⟨hck, hnd, hF⟩ := hp
  obtain ⟨L1, l1, W1, e1, hT1, hS1, hN1, hM1, hW1, hl1, hc1⟩ := fireAll_sim p.fired hT hS hN hM hnd hF
  obtain ⟨L2, l2, W2, e2, hT2, hM2, hW2, hl2⟩ := timers_sim hT1 hS1 hM1 (Nat.le_trans hl1 hf) p (by rw [hc1]; exact hck)
  have hS2 := clock_ok (expire_ok hS1 p.clk) p.now
  refine ⟨L2, l2, W1 ++ W2, ?_, hT2, hS2, ?_, hM2, hW1.trans hW2 hS2.qNodup, Nat.le_trans hl2 hl1⟩
  · rw [process, e1, Res.bind_ok, e2, Res.map_ok]
  · exact expire_noStale hS1 hN1 p.clk

theorem poll_inv {s : Sys} {a : Spec} {l : List Node} (h : Inv s a l) (hN : NoStale a) (hr : s.phase ≠ .run) {f : Nat} (hf : l.length ≤ f)
    (p : Poll) (hp : Proper a (.poll p)) :
    ∃ s' l', poll f s p = .ok s' ∧ Inv s' (a.poll p) l' ∧ NoStale (a.poll p) ∧ l'.length ≤ l.length := by
  obtain ⟨L', l', W, e, hT, hS, hN', hM, hW, hl⟩ := process_sim h.T h.S hN h.M hf p hp
  have hq := hS.qNodup
  rw [hW.queue] at hq
  have h0 : ∀ x ∈ W, x.1 ≠ 0 := by
    intro x hx e0
    have : x.1 ∈ (a.poll p).queue := by rw [hW.queue]; simp; exact Or.inr ⟨x.2, hx⟩
    rw [hS.queue, e0, hS.zero] at this
    simp [Status.isReady] at this
  obtain ⟨R, fl, res, e2, hR, h1, h2, h3⟩ := resumeAll_holds W (s := { s with loop := L' }) h.Q.ready hq h0
  refine ⟨{ s with loop := L', flag := fl, result := res, ready := R, counter := 0, phase := .loop }, l', ?_,
    ⟨hT, hS, hM, ⟨by rw [hW.queue]; exact hR, ?_, ?_, ?_⟩, by simp, ?_⟩, hN', hl⟩
  · simp only [poll, e, lift, Out.bind_ok, e2]
  · intro c hc
    rw [hW.queue] at hc
    simp only [List.mem_append, List.mem_map] at hc
    rcases hc with hc | ⟨x, hx, rfl⟩
    · exact h1 c (h.Q.flag c hc)
    · exact (h2 x hx).1
  · intro c fd r hs
    by_cases hc : c ∈ W.map Prod.fst
    · obtain ⟨x, hx, rfl⟩ := List.mem_map.1 hc
      exact (h2 x hx).2.trans (hW.result x hx fd r hs)
    · rw [hW.same c hc] at hs
      have : ∀ x ∈ W, x.1 ≠ c := fun x hx e => hc (e ▸ List.mem_map.2 ⟨x, hx, rfl⟩)
      exact (h3 c this).trans (h.Q.result c fd r hs)
  · rw [hW.log]; exact h.Q.log
  · intro _ c hs
    by_cases hc : c ∈ W.map Prod.fst
    · have : c ∈ (a.poll p).queue := by rw [hW.queue]; exact List.mem_append.2 (Or.inr hc)
      rw [hS.queue, hs] at this
      simp [Status.isReady] at this
    · rw [hW.same c hc] at hs
      exact h.idle hr c hs

end Verif.EvLoop
