import Verif.Core.HTable.Lemmas
/-! # Helper lemmas for removal from the hash table -/
namespace Verif.HTable

variable {α : Type}

/-- the table with one bucket emptied -/
def rm (t : Table α) (i : Nat) : Table α := { t with hashes := upd t.hashes i 0#32 }

theorem contents_rm (t : Table α) (i : Nat) (x : α) (hi : i < t.cap) (ho : occupied t i = true)
    (hx : t.elems i = some x) : (x :: contents (rm t i)).Perm (contents t) := by
  have := filterMap_range_upd_erase (cellOf (α := α)) (fun j => (t.hashes j, t.elems j)) i
    (0#32, t.elems i) x (by unfold occupied at ho; simp [cellOf, ho, hx])
    (by simp [cellOf, isOccupied_zero]) t.cap hi
  unfold contents
  have e1 : (fun j => cellOf (upd (fun j => (t.hashes j, t.elems j)) i (0#32, t.elems i) j))
      = cell (rm t i) := by
    funext j
    by_cases hj : j = i
    · subst hj; simp [cell, rm]
    · simp [cell, rm, hj]
  rw [e1] at this
  exact this

theorem occupied_rm_ne (t : Table α) {i j : Nat} (h : j ≠ i) : occupied (rm t i) j = occupied t j := by
  simp [occupied, rm, h]

theorem occupied_rm_self (t : Table α) (i : Nat) : occupied (rm t i) i = false := by
  simp [occupied, rm, isOccupied_zero]

/-- a probe path that crosses `hole` ends before the first free bucket after it -/
theorem crossing {cap d k j i hole f : Nat} {occ : Nat → Bool} (hk : (d + k) % cap = i)
    (hj : j < k) (hjh : (d + j) % cap = hole) (hhf : hole < f) (hfc : f < cap)
    (hpath : ∀ l, l < k → occ ((d + l) % cap) = true) (hio : occ i = true) (hf : occ f = false) :
    hole < i ∧ i < f := by
  have key : ∀ m, m ≤ f - hole → (d + (j + m)) % cap = hole + m := by
    intro m hm
    rw [← Nat.add_assoc, Nat.add_mod, hjh, Nat.mod_eq_of_lt (show m < cap by omega),
      Nat.mod_eq_of_lt (by omega)]
  by_cases hlt : k - j < f - hole
  · have := key (k - j) (by omega)
    rw [show j + (k - j) = k by omega, hk] at this
    omega
  · exfalso
    have hf' := key (f - hole) (Nat.le_refl _)
    rw [show hole + (f - hole) = f by omega] at hf'
    by_cases he : j + (f - hole) = k
    · rw [he, hk] at hf'
      rw [hf'] at hio
      rw [hio] at hf
      simp at hf
    · have := hpath (j + (f - hole)) (by omega)
      rw [hf', hf] at this
      simp at this

/-- Loop invariant of the removal loop: the probing invariant, except that elements whose path
crosses the hole are still ahead of the examined bucket. -/
structure Hole (hash : α → BitVec 32) (t : Table α) (f hole next : Nat) : Prop where
  cap_pos : 0 < t.cap
  lt : hole < next
  le : next ≤ f
  fcap : f < t.cap
  ffree : occupied t f = false
  holeOcc : occupied t hole = true
  slot : ∀ i, i < t.cap → i ≠ hole → occupied t i = true →
    ∃ e, t.elems i = some e ∧ t.hashes i = hash e ||| occupiedMask ∧
      ∃ k, k < t.cap ∧ (home hash t.cap e + k) % t.cap = i ∧
        (∀ j, j < k → occupied t ((home hash t.cap e + j) % t.cap) = true) ∧
        ((∃ j, j < k ∧ (home hash t.cap e + j) % t.cap = hole) → next ≤ i)

theorem home_lt (hash : α → BitVec 32) {cap : Nat} (hc : 0 < cap) (e : α) : home hash cap e < cap :=
  Nat.mod_lt _ hc

/-- position of an offset, in linear form -/
theorem offset_linear {cap d k i : Nat} (hd : d < cap) (hk : k < cap) (h : (d + k) % cap = i) :
    (d ≤ i ∧ k = i - d) ∨ (i < d ∧ k = i + cap - d) := by
  by_cases hlt : d + k < cap
  · rw [Nat.mod_eq_of_lt hlt] at h
    left; omega
  · rw [Nat.mod_eq_sub_mod (by omega), Nat.mod_eq_of_lt (by omega)] at h
    right; omega

theorem removeLoop_spec {hash : α → BitVec 32} :
    ∀ (fuel : Nat) (t : Table α) (f hole next : Nat), Hole hash t f hole next → f - next < fuel →
      ∃ t' i, removeLoop t fuel hole next = some (t', i) ∧ i < t'.cap ∧ t'.cap = t.cap ∧
        t'.size = t.size ∧ Core hash (rm t' i) ∧ (contents (rm t' i)).Perm (contents (rm t hole)) := by
  intro fuel
  induction fuel with
  | zero => intro t f hole next _ hf; omega
  | succ fuel ih =>
    intro t f hole next H hfu
    have hcp := H.cap_pos
    have h1 := H.lt
    have h2 := H.le
    have h3 := H.fcap
    unfold removeLoop
    by_cases ho : occupied t next = true
    · rw [if_pos ho]
      have hnf : next ≠ f := by
        intro h; rw [h, H.ffree] at ho; simp at ho
      obtain ⟨e, he, hhe, k, hk, hki, hpath, hcross⟩ := H.slot next (by omega) (by omega) ho
      have hdes : modPrime (t.hashes next).toNat t.cap = home hash t.cap e := by
        unfold home; rw [hhe]
      have hd := home_lt hash hcp e
      have hinc : incrementWrap t.cap next = next + 1 := by
        unfold incrementWrap; rw [if_neg (by omega)]
      simp only [hdes, hinc]
      generalize hdd : home hash t.cap e = d at *
      have hlin := offset_linear hd hk hki
      by_cases hmove : d ≤ hole ∨ d > next
      · rw [if_pos hmove]
        -- occupied buckets are unchanged
        have hocc : ∀ i, occupied { t with elems := upd t.elems hole (t.elems next), hashes := upd t.hashes hole (t.hashes next) } i = occupied t i := by
          intro i
          by_cases hi : i = hole
          · subst hi
            simp only [occupied, upd_same]
            rw [← occupied, ← occupied, ho, H.holeOcc]
          · simp [occupied, hi]
        generalize hT : ({ t with elems := upd t.elems hole (t.elems next), hashes := upd t.hashes hole (t.hashes next) } : Table α) = T at *
        have hTcap : T.cap = t.cap := by rw [← hT]
        have hTsize : T.size = t.size := by rw [← hT]
        have hTe : ∀ i, i ≠ hole → T.elems i = t.elems i := by
          intro i hi; rw [← hT]; simp [hi]
        have hTh : ∀ i, i ≠ hole → T.hashes i = t.hashes i := by
          intro i hi; rw [← hT]; simp [hi]
        have hTe' : T.elems hole = some e := by rw [← hT]; simp [he]
        have hTh' : T.hashes hole = hash e ||| occupiedMask := by rw [← hT]; simp [hhe]
        have H' : Hole hash T f next (next + 1) := by
          refine ⟨by omega, by omega, by omega, by omega, by rw [hocc]; exact H.ffree,
            by rw [hocc]; exact ho, ?_⟩
          intro i hic hin hio
          rw [hTcap] at hic ⊢
          rw [hocc] at hio
          by_cases hih : i = hole
          · subst hih
            refine ⟨e, hTe', hTh', ?_⟩
            rw [hdd]
            -- path up to the hole
            have hk' : ∃ k', k' < k ∧ (d + k') % t.cap = i := by
              rcases hlin with ⟨ha, hb⟩ | ⟨ha, hb⟩
              · rcases hmove with hm | hm
                · exact ⟨i - d, by omega, by rw [show d + (i - d) = i by omega, Nat.mod_eq_of_lt (by omega)]⟩
                · omega
              · refine ⟨i + t.cap - d, by omega, ?_⟩
                rw [show d + (i + t.cap - d) = i + t.cap by omega]
                simp [Nat.mod_eq_of_lt (show i < t.cap by omega)]
            obtain ⟨k', hk'k, hk'i⟩ := hk'
            refine ⟨k', by omega, hk'i, ?_, ?_⟩
            · intro j hj
              rw [hocc]
              exact hpath j (by omega)
            · rintro ⟨j, hj, hjn⟩
              exfalso
              have := offset_linear hd (show j < t.cap by omega) hjn
              omega
          · obtain ⟨x, hx, hhx, k2, hk2, hk2i, hp2, _⟩ := H.slot i hic hih hio
            refine ⟨x, by rw [hTe i hih]; exact hx, by rw [hTh i hih]; exact hhx, k2, hk2, hk2i, ?_, ?_⟩
            · intro j hj
              rw [hocc]; exact hp2 j hj
            · rintro ⟨j, hj, hjn⟩
              have := crossing hk2i hj hjn (show next < f by omega) h3 hp2 hio H.ffree
              omega
        obtain ⟨t', i, hl, hic, hcap', hsize', hcore, hperm⟩ := ih T f next (next + 1) H' (by omega)
        refine ⟨t', i, hl, hic, by omega, by omega, hcore, hperm.trans ?_⟩
        -- contents: the element moved from `next` to `hole`
        have hoccn : occupied (rm t hole) next = true := by
          rw [occupied_rm_ne t (by omega)]; exact ho
        have p1 := contents_rm (rm t hole) next e (by show next < t.cap; omega) hoccn (by exact he)
        have p2 := contents_put (rm (rm t hole) next) hole (hash e ||| occupiedMask) e t.size
          (by show hole < t.cap; omega)
          (by rw [occupied_rm_ne _ (by omega)]; exact occupied_rm_self t hole) (isOccupied_or _)
        have heq : put (rm (rm t hole) next) hole (hash e ||| occupiedMask) (some e) t.size = rm T next := by
          rw [← hT]
          unfold put rm
          simp only [Table.mk.injEq, true_and]
          constructor
          · funext i
            by_cases hi : i = hole
            · subst hi
              rw [upd_same, upd_ne _ _ (show i ≠ next by omega), upd_same, hhe]
            · by_cases hi2 : i = next
              · subst hi2; simp [hi]
              · simp [hi, hi2]
          · rw [he]
        rw [heq] at p2
        exact p2.trans p1
      · rw [if_neg hmove]
        have H' : Hole hash t f hole (next + 1) := by
          refine ⟨hcp, by omega, by omega, h3, H.ffree, H.holeOcc, ?_⟩
          intro i hic hih hio
          obtain ⟨x, hx, hhx, k2, hk2, hk2i, hp2, hcr⟩ := H.slot i hic hih hio
          refine ⟨x, hx, hhx, k2, hk2, hk2i, hp2, ?_⟩
          intro hj
          have := hcr hj
          by_cases hin : i = next
          · exfalso
            subst hin
            rw [he] at hx
            cases hx
            rw [hdd] at hj hk2i
            obtain ⟨j, hj, hjh⟩ := hj
            have l1 := offset_linear hd hk2 hk2i
            have l2 := offset_linear hd (show j < t.cap by omega) hjh
            omega
          · omega
        exact ih t f hole (next + 1) H' (by omega)
    · rw [if_neg ho]
      have ho' : occupied t next = false := by simpa using ho
      refine ⟨t, hole, rfl, by omega, rfl, rfl, ⟨hcp, ?_⟩, List.Perm.refl _⟩
      intro i hic hio
      have hih : i ≠ hole := by
        intro h; subst h; rw [occupied_rm_self] at hio; simp at hio
      rw [occupied_rm_ne t hih] at hio
      obtain ⟨x, hx, hhx, k2, hk2, hk2i, hp2, hcr⟩ := H.slot i hic hih hio
      have hncross : ¬ ∃ j, j < k2 ∧ (home hash t.cap x + j) % t.cap = hole := by
        rintro ⟨j, hj, hjh⟩
        have a := hcr ⟨j, hj, hjh⟩
        have := crossing hk2i hj hjh h1 (by omega) hp2 hio ho'
        omega
      refine ⟨x, hx, by simpa [rm, hih] using hhx, k2, hk2, hk2i, ?_⟩
      intro j hj
      have : (home hash t.cap x + j) % t.cap ≠ hole := fun h => hncross ⟨j, hj, h⟩
      show occupied (rm t hole) ((home hash t.cap x + j) % t.cap) = true
      rw [occupied_rm_ne t this]
      exact hp2 j hj

theorem remove_spec {hash : α → BitVec 32} {cmp : α → α → Bool} {t : Table α}
    (hc : Compat hash cmp) (hi : Inv hash cmp t) (index f : Nat) (x : α) (ho : occupied t index = true)
    (hx : t.elems index = some x) (hif : index < f) (hf : f < t.cap) (hfree : occupied t f = false) :
    ∃ t', remove t index = .ok t' ∧ Inv hash cmp t' ∧ (x :: contents t').Perm (contents t) := by
  have hinc : incrementWrap t.cap index = index + 1 := by
    unfold incrementWrap; rw [if_neg (by omega)]
  have H : Hole hash t f index (index + 1) := by
    refine ⟨hi.cap_pos, by omega, by omega, hf, hfree, ho, ?_⟩
    intro i hic hii hio
    obtain ⟨e, he, hhe, k, hk, hki, hp⟩ := hi.slot i hic hio
    refine ⟨e, he, hhe, k, hk, hki, hp, ?_⟩
    rintro ⟨j, hj, hjh⟩
    have := crossing hki hj hjh hif hf hp hio hfree
    omega
  obtain ⟨t', i, hl, hic, hcap, hsize, hcore, hperm⟩ := removeLoop_spec t.cap t f index (index + 1) H (by omega)
  have pc := contents_rm t index x (by omega) ho hx
  have hpx : (x :: contents (rm t' i)).Perm (contents t) := (hperm.cons x).trans pc
  have hlen : (contents (rm t' i)).length + 1 = t.size := by
    have := hpx.length_eq
    rw [hi.size_eq] at this
    simpa using this
  have hcont : contents ({ t' with hashes := upd t'.hashes i 0#32, size := t'.size - 1 } : Table α)
      = contents (rm t' i) := rfl
  refine ⟨{ t' with hashes := upd t'.hashes i 0#32, size := t'.size - 1 }, ?_, ⟨⟨?_, ?_⟩, ?_, ?_, ?_⟩, ?_⟩
  · unfold remove
    rw [if_pos ⟨by omega, ho⟩, hinc, hl]
  · show 0 < t'.cap
    have := hi.cap_pos; omega
  · exact hcore.slot
  · show t'.size - 1 < t'.cap
    have := hi.load; have := hi.cap_pos; omega
  · rw [hcont]
    show (contents (rm t' i)).length = t'.size - 1
    omega
  · rw [hcont]
    have hsym : ∀ {a b : α}, cmp a b = false → cmp b a = false := by
      intro a b h
      cases h2 : cmp b a with
      | false => rfl
      | true => rw [hc.symm _ _ h2] at h; exact h
    have := (hpx.pairwise_iff hsym).mpr hi.distinct
    exact (List.pairwise_cons.mp this).2
  · rw [hcont]; exact hpx

end Verif.HTable
