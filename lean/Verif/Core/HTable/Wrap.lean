import Verif.Core.HTable.Props

/-! # Removal from a chain that runs past the last bucket

`removal_can_lose_another_element` exhibits one table in which `removeFromHashTable`
(htable.c 174-196) loses an element.  Here the loss is shown for every table in which the chain of
occupied buckets starting at the removed one reaches the last bucket and bucket 0 holds an element
whose own first bucket is 0. -/

namespace Verif.HTable

variable {α : Type}

/-- two different buckets hold elements that are not equal -/
theorem bucket_distinct {hash : α → BitVec 32} {cmp : α → α → Bool} {t : Table α}
    (hi : Inv hash cmp t) {a b : Nat} (hab : a < b) (hb : b < t.cap) {x y : α}
    (hoa : occupied t a = true) (hx : t.elems a = some x) (hob : occupied t b = true)
    (hy : t.elems b = some y) : cmp x y = false := by
  have hd := hi.distinct
  unfold contents at hd
  rw [List.pairwise_filterMap] at hd
  have := List.pairwise_iff_getElem.mp hd a b (by simp; omega) (by simpa using hb) hab
  simp only [List.getElem_range] at this
  unfold occupied at hoa hob
  exact this x (by simp [cell, cellOf, hoa, hx]) y (by simp [cell, cellOf, hob, hy])

/-- the hole moves within the buckets from `index` on until the loop gets to bucket 0 -/
theorem removeLoop_to_zero (index fuel : Nat) : ∀ (m : Nat) (t : Table α) (hole : Nat),
    index ≤ hole → hole + m < t.cap → hole < t.cap - m →
    (∀ b, t.cap - m ≤ b → b < t.cap → occupied t b = true) →
    ∃ t1 H, removeLoop t (fuel + m) hole (if m = 0 then 0 else t.cap - m) = removeLoop t1 fuel H 0 ∧
      index ≤ H ∧ H < t.cap ∧ t1.cap = t.cap ∧
      ∀ b, b < index → t1.elems b = t.elems b ∧ t1.hashes b = t.hashes b := by
  intro m
  induction m with
  | zero => intro t hole h1 h2 h3 _; exact ⟨t, hole, rfl, h1, by omega, rfl, fun _ _ => ⟨rfl, rfl⟩⟩
  | succ m ih =>
    intro t hole h1 h2 h3 ho
    rw [if_neg (by omega), ← Nat.add_assoc]
    have hn : occupied t (t.cap - (m + 1)) = true := ho _ (Nat.le_refl _) (by omega)
    have hinc : incrementWrap t.cap (t.cap - (m + 1)) = if m = 0 then 0 else t.cap - m := by
      unfold incrementWrap
      by_cases hm : m = 0
      · rw [if_pos hm, if_pos (by omega)]
      · rw [if_neg hm, if_neg (by omega)]; omega
    rw [removeLoop, if_pos hn]
    simp only
    split
    · rw [hinc]
      obtain ⟨t1, H, e, g1, g2, g3, g4⟩ := ih
        { t with elems := upd t.elems hole (t.elems (t.cap - (m + 1))),
                 hashes := upd t.hashes hole (t.hashes (t.cap - (m + 1))) } (t.cap - (m + 1))
        (by omega) (show _ < t.cap by omega) (show _ < t.cap - m by omega) (by
          intro b hb1 hb2
          have hb1 : t.cap - m ≤ b := hb1
          have := ho b (by omega) hb2
          unfold occupied at this ⊢
          simpa [upd, show b ≠ hole by omega] using this)
      refine ⟨t1, H, e, g1, g2, g3, ?_⟩
      intro b hb
      have := g4 b hb
      simpa [upd, show b ≠ hole by omega] using this
    · rw [hinc]
      exact ih t hole h1 (by omega) (by omega) (fun b hb => ho b (by omega))

/-- from bucket 1 on the loop only shuffles elements that differ from `y` -/
theorem removeLoop_low {cmp : α → α → Bool} (y : α) (f : Nat) : ∀ (fuel : Nat) (t : Table α) (hole next : Nat),
    hole < next → next ≤ f → f < t.cap → occupied t f = false → f - next < fuel →
    (∀ b, b < f → b ≠ hole → occupied t b = true → ∃ x, t.elems b = some x ∧ cmp x y = false) →
    ∃ t' i, removeLoop t fuel hole next = some (t', i) ∧ i < f ∧ t'.cap = t.cap ∧
      (∀ b, b < f → b ≠ i → occupied t' b = true → ∃ x, t'.elems b = some x ∧ cmp x y = false) ∧
      (∀ b, f < b → t'.elems b = t.elems b ∧ t'.hashes b = t.hashes b) := by
  intro fuel
  induction fuel with
  | zero => intro t hole next _ _ _ _ h; omega
  | succ fuel ih =>
    intro t hole next h1 h2 h3 hf hfu hP
    rw [removeLoop]
    by_cases hn : occupied t next = true
    · have hne : next ≠ f := fun h => by rw [h, hf] at hn; cases hn
      have hinc : incrementWrap t.cap next = next + 1 := by
        unfold incrementWrap; rw [if_neg (by omega)]
      rw [if_pos hn]
      simp only
      rw [hinc]
      split
      · obtain ⟨t', i, e, g1, g2, g3, g4⟩ := ih
          { t with elems := upd t.elems hole (t.elems next), hashes := upd t.hashes hole (t.hashes next) }
          next (next + 1) (by omega) (by omega) h3 (by
            unfold occupied at hf ⊢
            simpa [upd, show f ≠ hole by omega] using hf) (by omega) (by
            intro b hb hbn hob
            by_cases hbh : b = hole
            · subst hbh
              obtain ⟨x, hx, hxy⟩ := hP next (by omega) (by omega) hn
              exact ⟨x, by simpa [upd] using hx, hxy⟩
            · have hob' : occupied t b = true := by
                unfold occupied at hob ⊢
                simpa [upd, hbh] using hob
              obtain ⟨x, hx, hxy⟩ := hP b hb hbh hob'
              exact ⟨x, by simpa [upd, hbh] using hx, hxy⟩)
        refine ⟨t', i, e, g1, g2, g3, ?_⟩
        intro b hb
        have := g4 b hb
        simpa [upd, show b ≠ hole by omega] using this
      · exact ih t hole (next + 1) (by omega) (by omega) h3 hf (by omega) hP
    · rw [if_neg hn]
      exact ⟨t, hole, rfl, by omega, rfl, hP, fun _ _ => ⟨rfl, rfl⟩⟩

/-- a search that meets only different elements before a free bucket ends at a free bucket -/
theorem probeLoop_free {cmp : α → α → Bool} {t : Table α} {h : BitVec 32} {y : α} {i : Nat} (hic : i < t.cap)
    (hfree : occupied t i = false) : ∀ n d, d ≤ i → i - d < n →
    (∀ b, d ≤ b → b < i → occupied t b = true → ∃ x, t.elems b = some x ∧ cmp x y = false) →
    ∃ j, probeLoop cmp t h y n d = .free j := by
  intro n
  induction n with
  | zero => intro d _ h; omega
  | succ n ih =>
    intro d hd hn hP
    rw [probeLoop]
    by_cases ho : occupied t d = true
    · have hne : d ≠ i := fun h => by rw [h, hfree] at ho; cases ho
      have hinc : incrementWrap t.cap d = d + 1 := by
        unfold incrementWrap; rw [if_neg (by omega)]
      obtain ⟨x, hx, hxy⟩ := hP d (Nat.le_refl _) (by omega) ho
      have := ih (d + 1) (by omega) (by omega) (fun b hb => hP b (by omega))
      rw [if_pos ho, hinc, hx]
      simp only [hxy]
      split <;> exact this
    · exact ⟨d, by rw [if_neg ho]⟩

/-- **C03, the claim fails for a whole class of tables.**  Take any table in which every bucket from the removed
one to the last is occupied and bucket 0 holds an element `y` whose search starts at bucket 0.
Removing the first element makes `y` unfindable: the removal moves it into the hole near the end of
the table, where a search for it never looks.  `y` is still stored. -/
theorem removal_loses_first_bucket {hash : α → BitVec 32} {cmp : α → α → Bool} (hc : Compat hash cmp)
    {t : Table α} (hi : Inv hash cmp t) (index : Nat) (y : α) (hpos : 0 < index) (hlt : index < t.cap)
    (hchain : ∀ b, index ≤ b → b < t.cap → occupied t b = true)
    (h0 : occupied t 0 = true) (hy : t.elems 0 = some y) (hhome : home hash t.cap y = 0) :
    find cmp t y (hash y) = .ok (some y) ∧
    ∃ t', remove t index = .ok t' ∧ find cmp t' y (hash y) = .ok none ∧
      y ∈ contents t' := by
  have hcp := hi.cap_pos
  refine ⟨?_, ?_⟩
  · have hym : y ∈ contents t := mem_contents.mpr ⟨0, hcp, h0, hy⟩
    rcases find_spec hc hi y with ⟨z, hz, hzy, hf⟩ | ⟨hn, _⟩
    · rw [hf, hc.unique hi.distinct hz hym hzy]
    · exact absurd (hc.refl y) (by rw [hn y hym]; simp)
  obtain ⟨e0, he0, hh0, _⟩ := hi.slot 0 hcp h0
  rw [hy] at he0
  cases he0
  -- some bucket below `index` is free
  obtain ⟨f, hfi, hff⟩ : ∃ f, f < index ∧ occupied t f = false := by
    apply Classical.byContradiction
    intro hno
    refine not_full hi.toCore (by rw [hi.size_eq]; exact hi.load) 0 ?_
    intro l hl
    rw [Nat.zero_add, Nat.mod_eq_of_lt hl]
    by_cases hli : l < index
    · cases ho : occupied t l with
      | true => rfl
      | false => exact absurd ⟨l, hli, ho⟩ hno
    · exact hchain l (by omega) hl
  have hf0 : f ≠ 0 := fun h => by rw [h, h0] at hff; cases hff
  -- up to the last bucket
  have hnext : incrementWrap t.cap index = if t.cap - 1 - index = 0 then 0 else t.cap - (t.cap - 1 - index) := by
    unfold incrementWrap
    by_cases h : t.cap - 1 - index = 0
    · rw [if_pos h, if_pos (by omega)]
    · rw [if_neg h, if_neg (by omega)]; omega
  obtain ⟨t1, H, e1, hH1, hH2, hcap1, hsame⟩ := removeLoop_to_zero index (index + 1) (t.cap - 1 - index) t index
    (Nat.le_refl _) (by omega) (by omega) (fun b hb => hchain b (by omega))
  rw [← hnext, show index + 1 + (t.cap - 1 - index) = t.cap by omega] at e1
  -- bucket 0
  obtain ⟨hs0, hs0'⟩ := hsame 0 hpos
  have ho1 : occupied t1 0 = true := by unfold occupied at h0 ⊢; rw [hs0']; exact h0
  have hdes : modPrime (t1.hashes 0).toNat t1.cap = 0 := by
    rw [hs0', hh0, hcap1]; exact hhome
  have hinc : incrementWrap t1.cap 0 = 1 := by
    unfold incrementWrap; rw [if_neg (by omega)]
  rw [removeLoop, if_pos ho1] at e1
  simp only [hdes, hinc] at e1
  rw [if_pos (by omega)] at e1
  -- from bucket 1 on
  obtain ⟨t', i, e2, hif, hcap2, hlow, hhigh⟩ := removeLoop_low (cmp := cmp) y f index
    { t1 with elems := upd t1.elems H (t1.elems 0), hashes := upd t1.hashes H (t1.hashes 0) } 0 1
    (by omega) (by omega) (show f < t1.cap by omega) (by
      unfold occupied at hff ⊢
      simpa [upd, show f ≠ H by omega, (hsame f hfi).2] using hff) (by omega) (by
      intro b hb hb0 hob
      obtain ⟨sb, sb'⟩ := hsame b (by omega)
      have hob' : occupied t b = true := by
        unfold occupied at hob ⊢
        simpa [upd, show b ≠ H by omega, sb'] using hob
      obtain ⟨x, hx, _⟩ := hi.slot b (by omega) hob'
      refine ⟨x, by simpa [upd, show b ≠ H by omega, sb] using hx, hc.symm_false ?_⟩
      exact bucket_distinct hi (by omega) (by omega) h0 hy hob' hx)
  rw [e2] at e1
  have hcap2 : t'.cap = t1.cap := hcap2
  refine ⟨{ t' with hashes := upd t'.hashes i 0#32, size := t'.size - 1 }, ?_, ?_, ?_⟩
  · unfold remove
    rw [if_pos ⟨hlt, hchain index (Nat.le_refl _) hlt⟩, e1]
  · obtain ⟨j, hj⟩ := probeLoop_free (cmp := cmp) (h := hash y ||| occupiedMask) (y := y)
      (t := { t' with hashes := upd t'.hashes i 0#32, size := t'.size - 1 }) (i := i)
      (show i < t'.cap by omega) (by simp [occupied, isOccupied_zero]) t'.cap 0 (by omega) (by omega) (by
        intro b _ hb hob
        refine hlow b (by omega) (by omega) ?_
        unfold occupied at hob ⊢
        simpa [upd, show b ≠ i by omega] using hob)
    have hm : modPrime (hash y ||| occupiedMask).toNat t'.cap = 0 := by
      rw [hcap2, hcap1]; exact hhome
    unfold find findIdx
    simp only [hm]
    rw [if_neg (by omega), hj]
  · obtain ⟨q1, q2⟩ := hhigh H (by omega)
    refine mem_contents.mpr ⟨H, show H < t'.cap by omega, ?_, ?_⟩
    · unfold occupied at h0 ⊢
      simp only [upd, show H ≠ i by omega, if_false] at q2 ⊢
      rw [q2]; simpa [upd, hs0'] using h0
    · show t'.elems H = some y
      rw [q1]; simpa [upd, hs0] using hy

/-- The hypotheses are met: with `hash n = n` and capacity 7, 4 sits in bucket 6 and 5 in bucket 0,
where its search starts. -/
example :
    let t := ((run (fun n => BitVec.ofNat 32 n) (fun a b => decide (a = b)) (new Nat)
      [.insert 4, .insert 5]).getD ([], new Nat)).2
    6 + 1 = t.cap ∧ occupied t 6 = true ∧ occupied t 0 = true ∧ t.elems 0 = some 5 ∧
      home (fun n => BitVec.ofNat 32 n) t.cap 5 = 0 := by decide

end Verif.HTable
