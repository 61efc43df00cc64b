import Verif.Core.MemPool.Props

/-! # When the memory pool hands out the same bytes twice

`reset_then_cache_aliases` and `cache_ignores_size` are single histories.  Here both failures are
shown for every history that leaves an item in a free list (mempool.c 106-146). -/

namespace Verif.MemPool

/-- the last step of a history -/
theorem run_append (ops : List Op) (s s1 : Pool × List Live) (more : List Op) (h : run s ops = .ok s1) :
    run s (ops ++ more) = run s1 more := by
  induction ops generalizing s with
  | nil => simp only [run, Res.foldl, Res.ok.injEq] at h; rw [← h]; rfl
  | cons o os ih =>
    simp only [run, Res.foldl, List.cons_append] at h ⊢
    cases ho : step s o with
    | ok s2 => rw [ho] at h; exact ih s2 h
    | ub => rw [ho] at h; simp at h
    | diverge => rw [ho] at h; simp at h

/-- **C11 is false of the code, for every history that returned memory to a free list before a
reset.**  Whatever happened before, if the item at the head of free list `c` lies in the first block,
then after a reset a plain allocation that reaches past the item's start, followed by an allocation
through `c`, gives the client two overlapping live allocations. -/
theorem reset_aliases_cached_item (ops : List Op) (p : Pool) (live : List Live)
    (hrun : run (newPool, []) ops = .ok (p, live)) (c n m : Nat) (r : Region) (rest : List Region)
    (hc : p.caches c = r :: rest) (hblk : r.blk = 0) (hp : p.n ≠ 0) (hm : 0 < m) (hn : r.off < n)
    (hfit : alignTo n maxAlign ≤ p.cap 0) :
    ∃ p' a b, run (newPool, []) (ops ++ [.reset, .alloc n, .allocCached c m]) =
        .ok (p', [(a, some c), (b, none)]) ∧ a.len = m ∧ b.len = n ∧ ¬ Disjoint a b := by
  have hrem : ¬ remaining (reset p) < alignTo n maxAlign := by
    show ¬ (p.cap 0 - 0 < alignTo n maxAlign)
    omega
  have hseek : seek (alignTo n maxAlign) (p.n + 1) (reset p) = .ok (reset p) := by
    have h1 : ¬ (reset p).used (reset p).cur > (reset p).cap (reset p).cur := Nat.not_lt_zero _
    unfold seek
    rw [if_neg h1, if_neg hrem]
  have halloc : alloc (reset p) n = .ok (some ⟨0, 0, n⟩,
      { reset p with used := upd (reset p).used 0 (alignTo n maxAlign) }) := by
    unfold alloc
    rw [if_neg (by omega)]
    show (Res.bind (if p.n = 0 then _ else seek (alignTo n maxAlign) (p.n + 1) (reset p)) _) = _
    rw [if_neg hp, hseek]
    simp only [Res.bind_ok]
    rw [if_neg hrem]
    simp [reset]
  have hlast : ∃ p', run (newPool, []) (ops ++ [.reset, .alloc n, .allocCached c m]) =
      .ok (p', [(⟨0, r.off, m⟩, some c), (⟨0, 0, n⟩, none)]) := by
    rw [run_append ops _ _ _ hrun]
    simp only [run, Res.foldl, step, halloc, Res.bind_ok, allocCached]
    have : (reset p).caches c = r :: rest := hc
    rw [this]
    simp only [Res.bind_ok, hblk]
    exact ⟨_, rfl⟩
  obtain ⟨p', hp'⟩ := hlast
  refine ⟨p', _, _, hp', rfl, rfl, ?_⟩
  · unfold Disjoint
    simp only
    omega

/-- The hypotheses are met by a history that used the list before. -/
example : ∃ p live, run (newPool, []) [.alloc 40, .allocCached 3 64, .alloc 8, .free 1] = .ok (p, live) ∧
    p.caches 3 = [⟨0, 64, 64⟩] ∧ p.n ≠ 0 ∧ 64 < 100 ∧ alignTo 100 maxAlign ≤ p.cap 0 := by
  refine ⟨_, _, rfl, by decide, by decide, by decide, by decide⟩

/-- **C11 is false of the code also without a reset.**  Whatever happened before, asking a free list
for more bytes than lie between the start of its first item and the start of a live allocation after
it in the same block gives the client two overlapping live allocations. -/
theorem larger_request_overlaps (ops : List Op) (p : Pool) (live : List Live)
    (hrun : run (newPool, []) ops = .ok (p, live)) (c m : Nat) (r : Region) (rest : List Region)
    (hc : p.caches c = r :: rest) (l : Live) (hl : l ∈ live) (hlen : 0 < l.1.len) (hblk : l.1.blk = r.blk)
    (hlo : r.off ≤ l.1.off) (hhi : l.1.off < r.off + m) :
    ∃ p' a, run (newPool, []) (ops ++ [.allocCached c m]) = .ok (p', (a, some c) :: live) ∧ a.len = m ∧
      ¬ ((a, some c) :: live).Pairwise (fun a b => Disjoint a.1 b.1) := by
  have hlast : ∃ p', run (newPool, []) (ops ++ [.allocCached c m]) =
      .ok (p', (⟨r.blk, r.off, m⟩, some c) :: live) := by
    rw [run_append ops _ _ _ hrun]
    simp only [run, Res.foldl, step, allocCached]
    rw [hc]
    exact ⟨_, rfl⟩
  obtain ⟨p', hp'⟩ := hlast
  refine ⟨p', _, hp', rfl, fun h => ?_⟩
  have := (List.pairwise_cons.mp h).1 l hl
  unfold Disjoint at this
  simp only at this
  omega

/-- The hypotheses are met: 32 bytes through list 0, 32 more behind them, the first returned. -/
example : ∃ p live, run (newPool, []) [.allocCached 0 32, .alloc 32, .free 1] = .ok (p, live) ∧
    p.caches 0 = [⟨0, 0, 32⟩] ∧ live = [(⟨0, 32, 32⟩, none)] := by
  refine ⟨_, _, rfl, by decide, by decide⟩

end Verif.MemPool
