import Verif.Core.HTable.Lemmas
/-! # Writing through the pointer returned by a lookup -/
namespace Verif.HTable

variable {α : Type}

/-- A store through the pointer `findInHashTable` returned for bucket `i`. -/
def store (t : Table α) (i : Nat) (e : α) : Table α := { t with elems := upd t.elems i (some e) }

theorem findIdx_spec {hash : α → BitVec 32} {cmp : α → α → Bool} {t : Table α} (hc : Compat hash cmp)
    (hi : Inv hash cmp t) (e : α) :
    (∃ i x, findIdx cmp t e (hash e) = .ok (some i) ∧ i < t.cap ∧ occupied t i = true ∧ t.elems i = some x ∧
      x ∈ contents t ∧ cmp x e = true) ∨
    ((∀ x ∈ contents t, cmp x e = false) ∧ findIdx cmp t e (hash e) = .ok none) := by
  have hcap : t.cap ≠ 0 := by have := hi.cap_pos; omega
  rcases inv_probe hc hi e with ⟨i, x, hp, hic, ho, hix, hx, hxe⟩ | ⟨j, hp, hj, hfree, hpath, hno⟩
  · left
    refine ⟨i, x, ?_, hic, ho, hix, hx, hxe⟩
    unfold findIdx
    simp only [if_neg hcap]
    unfold home at hp
    rw [hp]
  · right
    refine ⟨hno, ?_⟩
    unfold findIdx
    simp only [if_neg hcap]
    unfold home at hp
    rw [hp]

theorem contents_store (t : Table α) (i : Nat) (x e : α) (hi : i < t.cap) (ho : occupied t i = true) (hx : t.elems i = some x) :
    (x :: contents (store t i e)).Perm (e :: contents t) := by
  have hoo : isOccupiedHash (t.hashes i) = true := ho
  have := filterMap_range_upd_replace (cellOf (α := α)) (fun j => (t.hashes j, t.elems j)) i (t.hashes i, some e) x e
    (by simp [cellOf, hoo, hx]) (by simp [cellOf, hoo]) t.cap hi
  unfold contents
  have e1 : (fun j => cellOf (upd (fun j => (t.hashes j, t.elems j)) i (t.hashes i, some e) j)) = cell (store t i e) := by
    funext j
    by_cases hj : j = i
    · subst hj; simp [cell, store]
    · simp [cell, store, hj]
  rw [e1] at this
  exact this

/-- Storing an element that compares equal to the one in the bucket keeps the table sound. -/
theorem store_inv {hash : α → BitVec 32} {cmp : α → α → Bool} {t : Table α} (hc : Compat hash cmp)
    (hi : Inv hash cmp t) (i : Nat) (x e : α) (hic : i < t.cap) (ho : occupied t i = true) (hx : t.elems i = some x)
    (hxe : cmp x e = true) : Inv hash cmp (store t i e) := by
  have hp := contents_store t i x e hic ho hx
  have hxm : x ∈ contents t := mem_contents.mpr ⟨i, hic, ho, hx⟩
  have hh : hash x = hash e := hc.hash_eq _ _ hxe
  refine ⟨⟨hi.cap_pos, ?_⟩, hi.load, ?_, ?_⟩
  · intro j hj hoj
    obtain ⟨y, hy, hyh, k, hk, hkj, hpath⟩ := hi.slot j hj hoj
    by_cases hji : j = i
    · subst hji
      rw [hx] at hy
      cases hy
      refine ⟨e, by simp [store], by rw [← hh]; exact hyh, k, hk, ?_, ?_⟩
      · show (home hash t.cap e + k) % t.cap = _
        unfold home at hkj ⊢
        rw [← hh]; exact hkj
      · intro l hl
        have := hpath l hl
        unfold home at this ⊢
        rw [← hh]; exact this
    · exact ⟨y, by simp [store, hji]; exact hy, hyh, k, hk, hkj, hpath⟩
  · have := hp.length_eq
    simp only [List.length_cons] at this
    show (contents (store t i e)).length = t.size
    rw [← hi.size_eq]; omega
  · have hsym : ∀ {a b : α}, cmp a b = false → cmp b a = false := fun h => hc.symm_false h
    have hperm : ∃ r, (contents t).Perm (x :: r) := by
      obtain ⟨a, b, hab⟩ := List.append_of_mem hxm
      exact ⟨a ++ b, by rw [hab]; exact List.perm_middle⟩
    obtain ⟨r, hr⟩ := hperm
    have h2 : (contents (store t i e)).Perm (e :: r) := by
      have h3 : (x :: contents (store t i e)).Perm (x :: e :: r) :=
        hp.trans ((hr.cons e).trans (List.Perm.swap x e r))
      exact h3.cons_inv
    rw [h2.pairwise_iff hsym]
    have h4 := (hr.pairwise_iff (R := fun a b => cmp a b = false) hsym).mp hi.distinct
    rw [List.pairwise_cons] at h4 ⊢
    refine ⟨fun b hb => ?_, h4.2⟩
    cases h : cmp e b with
    | false => rfl
    | true => have := h4.1 b hb; rw [hc.trans _ _ _ hxe h] at this; exact absurd this (by simp)

end Verif.HTable
