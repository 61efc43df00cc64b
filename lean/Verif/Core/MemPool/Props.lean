import Verif.Core.MemPool.Model
/-! # Properties of the memory pool -/
namespace Verif.MemPool

/-! ## Specification -/

/-- Two regions share no byte. -/
def Disjoint (a b : Region) : Prop := a.blk ≠ b.blk ∨ a.off + a.len ≤ b.off ∨ b.off + b.len ≤ a.off

/-- The region lies inside a block of the pool and starts at an aligned offset. -/
def WellPlaced (p : Pool) (r : Region) : Prop :=
  r.blk < p.n ∧ r.off + r.len ≤ p.cap r.blk ∧ 32 ∣ r.off ∧ 0 < r.len

/-! ## Invariant -/

/-- regions in free lists -/
structure MInv (p : Pool) (regs : List Region) : Prop where
  cur_lt : p.n ≠ 0 → p.cur < p.n
  used_le : ∀ i, p.used i ≤ p.cap i
  after : ∀ i, p.cur < i → p.used i = 0
  none0 : p.n = 0 → ∀ i, p.used i = 0
  align : ∀ i, 32 ∣ p.used i
  inside : ∀ r ∈ regs, r.blk < p.n ∧ r.off + r.len ≤ p.used r.blk ∧ 32 ∣ r.off ∧ 0 < r.len
  disj : regs.Pairwise Disjoint

theorem alignTo_spec (n : Nat) : n ≤ alignTo n maxAlign ∧ 32 ∣ alignTo n maxAlign := by
  unfold alignTo maxAlign
  split <;> omega

theorem addBlock_inv {p : Pool} {regs : List Region} (h : MInv p regs) (sz : Nat) :
    MInv (addBlock p sz) regs ∧ sz ≤ remaining (addBlock p sz) ∧ (addBlock p sz).n ≠ 0 ∧
      (addBlock p sz).caches = p.caches ∧ (addBlock p sz).used (addBlock p sz).cur = 0 := by
  have hu : ∀ i, upd p.used p.n 0 i = p.used i ∨ upd p.used p.n 0 i = 0 := by
    intro i; unfold upd; split <;> simp
  refine ⟨⟨?_, ?_, ?_, ?_, ?_, ?_, h.disj⟩, ?_, ?_, rfl, ?_⟩
  · intro _; exact Nat.lt_succ_self _
  · intro i
    unfold addBlock upd
    simp only
    by_cases hi : i = p.n
    · simp [hi]
    · simpa [hi] using h.used_le i
  · intro i hi
    unfold addBlock at hi ⊢
    simp only at hi ⊢
    rw [upd_ne _ _ (by omega)]
    by_cases hn : p.n = 0
    · exact h.none0 hn i
    · exact h.after i (by have := h.cur_lt hn; omega)
  · intro h0; simp [addBlock] at h0
  · intro i
    unfold addBlock
    simp only
    rcases hu i with e | e <;> rw [e]
    · exact h.align i
    · exact Nat.dvd_zero _
  · intro r hr
    obtain ⟨h1, h2, h3, h4⟩ := h.inside r hr
    refine ⟨Nat.lt_succ_of_lt h1, ?_, h3, h4⟩
    unfold addBlock
    simp only
    rw [upd_ne _ _ (by omega)]
    exact h2
  · unfold addBlock remaining
    simp only [upd_same]
    split <;> omega
  · simp [addBlock]
  · simp [addBlock]

theorem seek_spec (sz : Nat) : ∀ (f : Nat) (p : Pool) (regs : List Region), MInv p regs → p.n ≠ 0 →
    p.n < f + p.cur + 1 →
    ∃ q, seek sz f p = .ok q ∧ MInv q regs ∧ sz ≤ remaining q ∧ q.n ≠ 0 ∧ q.caches = p.caches := by
  intro f
  induction f with
  | zero => intro p regs h hn hf; have := h.cur_lt hn; omega
  | succ f ih =>
    intro p regs h hn hf
    unfold seek
    rw [if_neg (by have := h.used_le p.cur; omega)]
    by_cases hr : remaining p < sz
    · rw [if_pos hr]
      by_cases hl : p.cur + 1 = p.n
      · rw [if_pos hl]
        obtain ⟨h1, h2, h3, h4, _⟩ := addBlock_inv h sz
        exact ⟨_, rfl, h1, h2, h3, h4⟩
      · rw [if_neg hl, if_neg (by rw [h.after _ (Nat.lt_succ_self _)]; simp)]
        have hc := h.cur_lt hn
        have h' : MInv { p with cur := p.cur + 1 } regs :=
          ⟨fun _ => by show p.cur + 1 < p.n; omega, h.used_le, fun i hi => h.after i (by simp only at hi; omega), h.none0, h.align, h.inside, h.disj⟩
        obtain ⟨q, h1, h2, h3, h4, h5⟩ := ih { p with cur := p.cur + 1 } regs h' hn (by show p.n < f + (p.cur + 1) + 1; omega)
        exact ⟨q, h1, h2, h3, h4, h5⟩
    · rw [if_neg hr]
      exact ⟨p, rfl, h, by omega, hn, rfl⟩

theorem alloc_spec {p : Pool} {regs : List Region} (h : MInv p regs) (size : Nat) (hs : size ≠ 0) :
    ∃ r q, alloc p size = .ok (some r, q) ∧ MInv q (r :: regs) ∧ q.caches = p.caches ∧ r.len = size := by
  obtain ⟨ha, hd⟩ := alignTo_spec size
  have hq : ∃ q, (if p.n = 0 then .ok (addBlock p (alignTo size maxAlign))
      else seek (alignTo size maxAlign) (p.n + 1) p) = Res.ok q ∧ MInv q regs ∧ alignTo size maxAlign ≤ remaining q ∧
      q.n ≠ 0 ∧ q.caches = p.caches := by
    by_cases hn : p.n = 0
    · rw [if_pos hn]
      obtain ⟨h1, h2, h3, h4, _⟩ := addBlock_inv h (alignTo size maxAlign)
      exact ⟨_, rfl, h1, h2, h3, h4⟩
    · rw [if_neg hn]
      exact seek_spec _ _ _ _ h hn (by omega)
  obtain ⟨q, hq, hi, hrem, hn, hc⟩ := hq
  refine ⟨⟨q.cur, q.used q.cur, size⟩, { q with used := upd q.used q.cur (q.used q.cur + alignTo size maxAlign) }, ?_, ?_, hc, rfl⟩
  · unfold alloc
    rw [if_neg hs]
    simp only [hq, Res.bind_ok]
    rw [if_neg (by omega)]
  · have hcur := hi.cur_lt hn
    have hu := hi.used_le q.cur
    unfold remaining at hrem
    refine ⟨fun _ => hcur, ?_, ?_, fun h0 => absurd h0 hn, ?_, ?_, ?_⟩
    · intro i
      by_cases e : i = q.cur
      · subst e; simp only [upd_same]; omega
      · simp only [upd_ne _ _ e]; exact hi.used_le i
    · intro i hlt
      simp only at hlt
      simp only [upd_ne _ _ (show i ≠ q.cur by omega)]
      exact hi.after i hlt
    · intro i
      by_cases e : i = q.cur
      · subst e; simp only [upd_same]; exact Nat.dvd_add (hi.align _) hd
      · simp only [upd_ne _ _ e]; exact hi.align i
    · intro r hr
      rcases List.mem_cons.mp hr with rfl | hr
      · exact ⟨hcur, by simp only [upd_same]; omega, hi.align _, Nat.pos_of_ne_zero hs⟩
      · obtain ⟨h1, h2, h3, h4⟩ := hi.inside r hr
        refine ⟨h1, ?_, h3, h4⟩
        by_cases e : r.blk = q.cur
        · simp only [e, upd_same]; rw [e] at h2; omega
        · simp only [upd_ne _ _ e]; exact h2
    · refine List.pairwise_cons.mpr ⟨?_, hi.disj⟩
      intro r hr
      obtain ⟨_, h2, _, _⟩ := hi.inside r hr
      unfold Disjoint
      by_cases e : q.cur = r.blk
      · right; right; simp only; rw [e]; exact h2
      · left; exact e

theorem reset_inv (p : Pool) : MInv (reset p) [] :=
  ⟨fun hn => by show 0 < p.n; have : p.n ≠ 0 := hn; omega, fun i => Nat.zero_le _, fun _ _ => rfl, fun _ _ => rfl,
    fun _ => Nat.dvd_zero _, by simp, List.Pairwise.nil⟩

theorem new_inv : MInv newPool [] :=
  ⟨fun h => absurd rfl h, fun _ => Nat.le_refl _, fun _ _ => rfl, fun _ _ => rfl, fun _ => Nat.dvd_zero _, by simp, List.Pairwise.nil⟩

/-- operations other than `free` with caches empty -/
theorem run_nofree : ∀ (ops : List Op) (p : Pool) (live : List Live), MInv p (live.map Prod.fst) →
    (∀ c, p.caches c = []) → (∀ i, Op.free i ∉ ops) →
    ∃ p' live', run (p, live) ops = .ok (p', live') ∧ MInv p' (live'.map Prod.fst) ∧ ∀ c, p'.caches c = [] := by
  intro ops
  induction ops with
  | nil => intro p live h hc _; exact ⟨p, live, rfl, h, hc⟩
  | cons op ops ih =>
    intro p live h hc hf
    have hf' : ∀ i, Op.free i ∉ ops := fun i hi => hf i (List.mem_cons_of_mem _ hi)
    have hstep : ∃ p1 live1, step (p, live) op = .ok (p1, live1) ∧ MInv p1 (live1.map Prod.fst) ∧ ∀ c, p1.caches c = [] := by
      have ha : ∀ size (o : Option Nat), ∃ p1 live1, ((alloc p size).bind fun (r, p) =>
          Res.ok (p, match r with | some r => (r, o) :: live | none => live)) = .ok (p1, live1) ∧
          MInv p1 (live1.map Prod.fst) ∧ ∀ c, p1.caches c = [] := by
        intro size o
        by_cases hs : size = 0
        · refine ⟨p, live, ?_, h, hc⟩
          unfold alloc; rw [if_pos hs]; rfl
        · obtain ⟨r, q, h1, h2, h3, _⟩ := alloc_spec h size hs
          refine ⟨q, (r, o) :: live, by rw [h1]; rfl, by simpa using h2, by rw [h3]; exact hc⟩
      cases op with
      | alloc size => exact ha size none
      | allocCached c size =>
        have : allocCached p c size = alloc p size := by unfold allocCached; rw [hc c]
        show ∃ p1 live1, ((allocCached p c size).bind fun (r, p) =>
          Res.ok (p, match r with | some r => (r, some c) :: live | none => live)) = .ok (p1, live1) ∧ _
        rw [this]; exact ha size (some c)
      | free i => exact absurd (List.mem_cons_self ..) (hf i)
      | reset => exact ⟨reset p, [], rfl, reset_inv p, hc⟩
    obtain ⟨p1, live1, h1, h2, h3⟩ := hstep
    obtain ⟨p', live', h4, h5, h6⟩ := ih p1 live1 h2 h3 hf'
    refine ⟨p', live', ?_, h5, h6⟩
    unfold run Res.foldl
    rw [h1]
    exact h4

theorem placed {p : Pool} {live : List Region} (h : MInv p live) : ∀ r ∈ live, WellPlaced p r := by
  intro r hr
  obtain ⟨h1, h2, h3, h4⟩ := h.inside r hr
  exact ⟨h1, Nat.le_trans h2 (h.used_le _), h3, h4⟩

/-- **C10**: for every history of allocations and resets, no assertion fails, and the allocations
made since the last reset lie inside the pool's blocks, are aligned and pairwise disjoint. -/
theorem allocations_disjoint (ops : List Op) (h : ∀ i, Op.free i ∉ ops) :
    ∃ p live, run (newPool, []) ops = .ok (p, live) ∧
      (∀ l ∈ live, WellPlaced p l.1) ∧ live.Pairwise (fun a b => Disjoint a.1 b.1) := by
  obtain ⟨p, live, h1, h2, _⟩ := run_nofree ops newPool [] new_inv (fun _ => rfl) h
  refine ⟨p, live, h1, ?_, List.pairwise_map.mp h2.disj⟩
  intro l hl
  exact placed h2 l.1 (List.mem_map_of_mem hl)

/-- non-vacuity: 1000 bytes then 100 (does not fit in the first block) then 8 -/
example : (run (newPool, []) [.alloc 1000, .alloc 100, .alloc 8]).map (·.2) =
    .ok [(⟨1, 128, 8⟩, none), (⟨1, 0, 100⟩, none), (⟨0, 0, 1000⟩, none)] := by decide

/-- An allocation really returns memory of the requested size. -/
theorem allocation_has_size (ops : List Op) (h : ∀ i, Op.free i ∉ ops) (size : Nat) (hs : 0 < size) :
    ∃ p live p' r, run (newPool, []) ops = .ok (p, live) ∧ alloc p size = .ok (some r, p') ∧ r.len = size := by
  obtain ⟨p, live, h1, h2, _⟩ := run_nofree ops newPool [] new_inv (fun _ => rfl) h
  obtain ⟨r, q, h3, _, _, h4⟩ := alloc_spec h2 size (by omega)
  exact ⟨p, live, q, r, h1, h3, h4⟩

/-- **C11 is false of the code**: free lists survive a reset, so the same memory is handed out
twice. -/
theorem reset_then_cache_aliases :
    (run (newPool, []) [.allocCached 0 64, .free 0, .reset, .alloc 64, .allocCached 0 64]).map (·.2) =
      .ok [(⟨0, 0, 64⟩, some 0), (⟨0, 0, 64⟩, none)] := by decide

/-- **C11 is false of the code** also without a reset: a free list ignores the requested size. -/
theorem cache_ignores_size :
    (run (newPool, []) [.allocCached 0 32, .alloc 32, .free 1, .allocCached 0 64]).map (·.2) =
      .ok [(⟨0, 0, 64⟩, some 0), (⟨0, 32, 32⟩, none)] ∧ ¬ Disjoint ⟨0, 0, 64⟩ ⟨0, 32, 32⟩ := by
  refine ⟨by decide, ?_⟩
  unfold Disjoint; simp

/-! ### Free lists without a reset -/

theorem Disjoint.symm {a b : Region} (h : Disjoint a b) : Disjoint b a := by
  unfold Disjoint at *; omega

theorem MInv.perm {p : Pool} {l l' : List Region} (h : MInv p l) (hp : l.Perm l') : MInv p l' :=
  ⟨h.cur_lt, h.used_le, h.after, h.none0, h.align, fun r hr => h.inside r (hp.symm.subset hr),
    (hp.pairwise_iff (fun h => Disjoint.symm h)).mp h.disj⟩

/-- `cached` lists the regions in the free lists, each with its list. -/
structure CInv (sz : Nat → Nat) (p : Pool) (live : List Live) (cached : List (Nat × Region)) : Prop where
  inv : MInv p (live.map Prod.fst ++ cached.map Prod.snd)
  cache : ∀ c, ((cached.filter (fun x => decide (x.1 = c))).map Prod.snd).Perm (p.caches c)
  lsz : ∀ l ∈ live, ∀ c, l.2 = some c → l.1.len = sz c
  csz : ∀ x ∈ cached, x.2.len = sz x.1

theorem perm_cons_eraseIdx {β : Type} {l : List β} {i : Nat} (h : i < l.length) : l.Perm (l[i] :: l.eraseIdx i) := by
  induction l generalizing i with
  | nil => simp at h
  | cons x xs ih =>
    cases i with
    | zero => exact .refl _
    | succ i =>
      simp only [List.getElem_cons_succ, List.eraseIdx_cons_succ]
      exact ((List.perm_cons x).mpr (ih (by simpa using h))).trans (List.Perm.swap ..)

theorem CInv.alloc {sz : Nat → Nat} {p : Pool} {live : List Live} {cached : List (Nat × Region)}
    (h : CInv sz p live cached) (size : Nat) (o : Option Nat) (ho : ∀ c, o = some c → size = sz c) :
    ∃ p1 live1, ((Verif.MemPool.alloc p size).bind fun (r, p) =>
      Res.ok (p, match r with | some r => (r, o) :: live | none => live)) = .ok (p1, live1) ∧
      CInv sz p1 live1 cached := by
  by_cases hs : size = 0
  · refine ⟨p, live, ?_, h⟩
    unfold Verif.MemPool.alloc; rw [if_pos hs]; rfl
  · obtain ⟨r, q, h1, h2, h3, h4⟩ := alloc_spec h.inv size hs
    refine ⟨q, (r, o) :: live, by rw [h1]; rfl, ⟨by simpa using h2, by rw [h3]; exact h.cache, ?_, h.csz⟩⟩
    intro l hl c hc
    rcases List.mem_cons.mp hl with rfl | hl
    · rw [h4]; exact ho c hc
    · exact h.lsz l hl c hc

theorem run_nofree_sizes (sz : Nat → Nat) : ∀ (ops : List Op) (p : Pool) (live : List Live),
    CInv sz p live [] → (∀ i, Op.free i ∉ ops) → (∀ c n, Op.allocCached c n ∈ ops → n = sz c) →
    ∃ p' live', run (p, live) ops = .ok (p', live') ∧ CInv sz p' live' [] := by
  intro ops
  induction ops with
  | nil => intro p live h _ _; exact ⟨p, live, rfl, h⟩
  | cons op ops ih =>
    intro p live h hr hsz
    have hstep : ∃ p1 live1, step (p, live) op = .ok (p1, live1) ∧ CInv sz p1 live1 [] := by
      cases op with
      | alloc size => exact h.alloc size none (by intro c hc; simp at hc)
      | reset => exact ⟨reset p, [], rfl, reset_inv p, h.cache, by simp, by simp⟩
      | free i => exact absurd (List.mem_cons_self ..) (hr i)
      | allocCached c size =>
        have hs := hsz c size (List.mem_cons_self ..)
        have hc : p.caches c = [] := List.nil_perm.mp (h.cache c)
        obtain ⟨p1, l1, h1, h2⟩ := h.alloc size (some c) (by intro d hd; simp at hd; rw [← hd]; exact hs)
        refine ⟨p1, l1, ?_, h2⟩
        show ((allocCached p c size).bind _) = _
        rw [show allocCached p c size = Verif.MemPool.alloc p size by unfold allocCached; rw [hc]]
        exact h1
    obtain ⟨p1, live1, h1, h2⟩ := hstep
    obtain ⟨p', live', h4, h5⟩ := ih p1 live1 h2 (fun i hm => hr i (List.mem_cons_of_mem _ hm))
      (fun c n hm => hsz c n (List.mem_cons_of_mem _ hm))
    refine ⟨p', live', ?_, h5⟩
    unfold run Res.foldl
    rw [h1]
    exact h4

theorem run_noreset (sz : Nat → Nat) : ∀ (ops : List Op) (p : Pool) (live : List Live) (cached : List (Nat × Region)),
    CInv sz p live cached → Op.reset ∉ ops → (∀ c n, Op.allocCached c n ∈ ops → n = sz c) →
    ∃ p' live' cached', run (p, live) ops = .ok (p', live') ∧ CInv sz p' live' cached' := by
  intro ops
  induction ops with
  | nil => intro p live cached h _ _; exact ⟨p, live, cached, rfl, h⟩
  | cons op ops ih =>
    intro p live cached h hr hsz
    have hstep : ∃ p1 live1 cached1, step (p, live) op = .ok (p1, live1) ∧ CInv sz p1 live1 cached1 := by
      cases op with
      | alloc size =>
        obtain ⟨p1, l1, h1, h2⟩ := h.alloc size none (by intro c hc; simp at hc)
        exact ⟨p1, l1, cached, h1, h2⟩
      | reset => exact absurd (List.mem_cons_self ..) hr
      | allocCached c size =>
        have hs := hsz c size (List.mem_cons_self ..)
        cases hc : p.caches c with
        | nil =>
          obtain ⟨p1, l1, h1, h2⟩ := h.alloc size (some c) (by intro d hd; simp at hd; rw [← hd]; exact hs)
          refine ⟨p1, l1, cached, ?_, h2⟩
          show ((allocCached p c size).bind _) = _
          rw [show allocCached p c size = Verif.MemPool.alloc p size by unfold allocCached; rw [hc]]
          exact h1
        | cons r rest =>
          have hmem : (c, r) ∈ cached := by
            have := (h.cache c).symm.subset (by rw [hc]; exact List.mem_cons_self ..)
            obtain ⟨⟨c', r'⟩, hx, rfl⟩ := List.mem_map.mp this
            obtain ⟨hx1, hx2⟩ := List.mem_filter.mp hx
            simp at hx2
            subst hx2; exact hx1
          have hperm := List.perm_cons_erase hmem
          have hlen : r.len = sz c := h.csz _ hmem
          refine ⟨{ p with caches := upd p.caches c rest }, (r, some c) :: live, cached.erase (c, r), ?_, ?_, ?_, ?_, ?_⟩
          · show ((allocCached p c size).bind _) = _
            rw [show allocCached p c size = .ok (some ⟨r.blk, r.off, size⟩, { p with caches := upd p.caches c rest }) by
              unfold allocCached; rw [hc]]
            have : (⟨r.blk, r.off, size⟩ : Region) = r := by rw [hs, ← hlen]
            rw [this]; rfl
          · have h1 : MInv { p with caches := upd p.caches c rest } (live.map Prod.fst ++ cached.map Prod.snd) :=
              ⟨h.inv.cur_lt, h.inv.used_le, h.inv.after, h.inv.none0, h.inv.align, h.inv.inside, h.inv.disj⟩
            refine h1.perm ?_
            have := hperm.map Prod.snd
            exact (this.append_left (live.map Prod.fst)).trans List.perm_middle
          · intro d
            have h2 := (hperm.filter (fun x => decide (x.1 = d))).map Prod.snd
            have h3 := h2.symm.trans (h.cache d)
            by_cases hd : c = d
            · subst hd
              simp only [upd_same]
              rw [hc] at h3
              simp only [List.filter_cons, decide_true, if_true, List.map_cons] at h3
              exact (List.perm_cons _).mp h3
            · simp only [upd_ne _ _ (fun e => hd e.symm : d ≠ c)]
              simpa [List.filter_cons, hd] using h3
          · intro l hl d hd
            rcases List.mem_cons.mp hl with rfl | hl
            · simp at hd; rw [← hd]; exact hlen
            · exact h.lsz l hl d hd
          · intro x hx; exact h.csz x (List.mem_of_mem_erase hx)
      | free i =>
        cases hl : live[i]? with
        | none => exact ⟨p, live, cached, by simp [step, hl], h⟩
        | some l =>
          obtain ⟨r, o⟩ := l
          cases o with
          | none => exact ⟨p, live, cached, by simp [step, hl], h⟩
          | some c =>
            obtain ⟨hi, hget⟩ := List.getElem?_eq_some_iff.mp hl
            have hperm : live.Perm ((r, some c) :: live.eraseIdx i) := by
              rw [← hget]; exact perm_cons_eraseIdx hi
            refine ⟨freeToCache p c r, live.eraseIdx i, (c, r) :: cached, by simp [step, hl], ?_, ?_, ?_, ?_⟩
            · have h1 : MInv (freeToCache p c r) (live.map Prod.fst ++ cached.map Prod.snd) :=
                ⟨h.inv.cur_lt, h.inv.used_le, h.inv.after, h.inv.none0, h.inv.align, h.inv.inside, h.inv.disj⟩
              refine h1.perm ?_
              have := (hperm.map Prod.fst).append_right (cached.map Prod.snd)
              exact this.trans (List.perm_middle.symm)
            · intro d
              unfold freeToCache
              by_cases hd : c = d
              · subst hd
                simp only [upd_same, List.filter_cons, decide_true, if_true, List.map_cons]
                exact ((List.perm_cons r).mpr (h.cache c)).trans (List.perm_append_singleton r _).symm
              · simp only [upd_ne _ _ (fun e => hd e.symm : d ≠ c)]
                simpa [List.filter_cons, hd] using h.cache d
            · intro l hl' d hd
              exact h.lsz l (List.mem_of_mem_eraseIdx hl') d hd
            · intro x hx
              rcases List.mem_cons.mp hx with rfl | hx
              · exact h.lsz _ (List.mem_of_getElem? hl) c rfl
              · exact h.csz x hx
    obtain ⟨p1, live1, cached1, h1, h2⟩ := hstep
    obtain ⟨p', live', cached', h4, h5⟩ := ih p1 live1 cached1 h2 (fun hm => hr (List.mem_cons_of_mem _ hm))
      (fun c n hm => hsz c n (List.mem_cons_of_mem _ hm))
    refine ⟨p', live', cached', ?_, h5⟩
    unfold run Res.foldl
    rw [h1]
    exact h4

/-- **C11 (partial)**: in a history whose resets all come before the first return to a free list, and
which asks each free list for one size only, the live allocations are inside the blocks, aligned and
pairwise disjoint, however allocations and returns are interleaved.  The full statement allows
resets and sizes anywhere; it is false (`reset_then_cache_aliases`, `cache_ignores_size`). -/
theorem live_allocations_disjoint_partial (sz : Nat → Nat) (ops₁ ops₂ : List Op)
    (h1 : ∀ i, Op.free i ∉ ops₁) (h2 : Op.reset ∉ ops₂)
    (h3 : ∀ c n, Op.allocCached c n ∈ ops₁ ++ ops₂ → n = sz c) :
    ∃ p live, run (newPool, []) (ops₁ ++ ops₂) = .ok (p, live) ∧
      (∀ l ∈ live, WellPlaced p l.1) ∧ live.Pairwise (fun a b => Disjoint a.1 b.1) := by
  have hfold : ∀ (ops₁ ops₂ : List Op) s s', run s ops₁ = .ok s' → run s (ops₁ ++ ops₂) = run s' ops₂ := by
    intro ops₁ ops₂
    induction ops₁ with
    | nil => intro s s' h; simp only [run, Res.foldl, Res.ok.injEq] at h; rw [← h]; rfl
    | cons o os ih =>
      intro s s' h
      simp only [run, Res.foldl, List.cons_append] at h ⊢
      cases ho : step s o with
      | ok s1 => rw [ho] at h; exact ih s1 s' h
      | ub => rw [ho] at h; simp at h
      | diverge => rw [ho] at h; simp at h
  obtain ⟨p1, live1, e1, c1⟩ := run_nofree_sizes sz ops₁ newPool [] ⟨new_inv, by intro c; exact .refl _, by simp, by simp⟩ h1
    (fun c n hm => h3 c n (List.mem_append_left _ hm))
  obtain ⟨p2, live2, cached2, e2, c2⟩ := run_noreset sz ops₂ p1 live1 [] c1 h2 (fun c n hm => h3 c n (List.mem_append_right _ hm))
  refine ⟨p2, live2, by rw [hfold _ _ _ _ e1, e2], ?_, List.pairwise_map.mp (List.pairwise_append.mp c2.inv.disj).1⟩
  intro l hl
  exact placed c2.inv l.1 (List.mem_append_left _ (List.mem_map_of_mem hl))

/-- non-vacuity: two nodes, one returned and reused, in between a plain allocation -/
example : (run (newPool, []) ([.alloc 8, .reset] ++ [.allocCached 0 160, .allocCached 0 160, .free 1, .alloc 40, .allocCached 0 160])).map
    (·.2) = .ok [(⟨0, 0, 160⟩, some 0), (⟨0, 320, 40⟩, none), (⟨0, 160, 160⟩, some 0)] := by decide

end Verif.MemPool
