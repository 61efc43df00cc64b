import Verif.Core.Search.Model
/-! # C16: binary search is exact on sorted arrays -/
namespace Verif.Search

variable {α β : Type}

/-- The array is sorted for this key: going right, the comparison result never increases in sign
(positive: the key is to the right; negative: to the left). -/
def SortedFor (arr : List α) (cmp : β → α → Int) (x : β) : Prop :=
  ∀ i j : Nat, i ≤ j → ∀ a b, arr[i]? = some a → arr[j]? = some b →
    (cmp x a < 0 → cmp x b < 0) ∧ (cmp x b > 0 → cmp x a > 0)

theorem loop_spec (arr : List α) (cmp : β → α → Int) (x : β) (hs : SortedFor arr cmp x) :
    ∀ (f : Nat) (lower upper : Int), 0 ≤ lower → lower ≤ upper + 1 → upper < arr.length → upper - lower + 1 < f →
      (∀ (i : Nat) a, arr[i]? = some a → cmp x a = 0 → lower ≤ i ∧ i ≤ upper) →
      (∃ i a, loop arr cmp x f lower upper = .ok (i : Nat) ∧ arr[i]? = some a ∧ cmp x a = 0) ∨
      (loop arr cmp x f lower upper = .ok (-1) ∧ ∀ a ∈ arr, cmp x a ≠ 0) := by
  intro f
  induction f with
  | zero =>
    intro lower upper _ h1 _ h3 _
    exfalso; omega
  | succ f ih =>
    intro lower upper h1 h1' h2 h3 h4
    unfold loop
    by_cases hle : lower ≤ upper
    · rw [if_pos hle]
      have hm1 : lower ≤ lower + (upper - lower) / 2 := by omega
      have hm2 : lower + (upper - lower) / 2 ≤ upper := by omega
      generalize lower + (upper - lower) / 2 = mid at *
      simp only
      rw [if_neg (by omega)]
      obtain ⟨m, rfl⟩ : ∃ m : Nat, mid = m := ⟨mid.toNat, by omega⟩
      have hlt : m < arr.length := by omega
      simp only [Int.toNat_natCast, List.getElem?_eq_getElem hlt]
      have hgm : arr[m]? = some arr[m] := List.getElem?_eq_getElem hlt
      split
      · left; exact ⟨m, arr[m], rfl, hgm, by assumption⟩
      · split
        · rename_i hne hpos
          refine ih (m + 1) upper (by omega) (by omega) h2 (by omega) ?_
          intro i a hi ha
          obtain ⟨h5, h6⟩ := h4 i a hi ha
          refine ⟨?_, h6⟩
          by_cases hle : i ≤ m
          · have := (hs i m hle a _ hi hgm).2 hpos
            omega
          · omega
        · rename_i hne hpos
          refine ih lower (m - 1) h1 (by omega) (by omega) (by omega) ?_
          intro i a hi ha
          obtain ⟨h5, h6⟩ := h4 i a hi ha
          refine ⟨h5, ?_⟩
          by_cases hle : m ≤ i
          · have := (hs m i hle _ a hgm hi).1 (by omega)
            omega
          · omega
    · rw [if_neg hle]
      right
      refine ⟨rfl, ?_⟩
      intro a ha h0
      obtain ⟨i, hi⟩ := List.getElem?_of_mem ha
      have := h4 i a hi h0
      omega

/-- **C16**: on an array sorted for the key, binary search returns the index of an element that
compares equal, or -1 when there is none; it never reads outside the array and always ends. -/
theorem binarySearch_exact (arr : List α) (cmp : β → α → Int) (x : β) (hs : SortedFor arr cmp x) :
    (∃ i a, binarySearch arr cmp x = .ok (i : Nat) ∧ arr[i]? = some a ∧ cmp x a = 0) ∨
    (binarySearch arr cmp x = .ok (-1) ∧ ∀ a ∈ arr, cmp x a ≠ 0) := by
  refine loop_spec arr cmp x hs _ _ _ (Int.le_refl _) (by omega) (by omega) (by omega) ?_
  intro i a hi _
  obtain ⟨h, _⟩ := List.getElem?_eq_some_iff.mp hi
  omega

example : SortedFor [2, 3, 3, 5, 9] (fun (x y : Int) => x - y) 5 := by
  intro i j hij a b ha hb
  have : ∀ i < 5, ∀ j < 5, i ≤ j → ([2, 3, 3, 5, 9] : List Int)[i]! ≤ ([2, 3, 3, 5, 9] : List Int)[j]! := by decide
  obtain ⟨hi, rfl⟩ := List.getElem?_eq_some_iff.mp ha
  obtain ⟨hj, rfl⟩ := List.getElem?_eq_some_iff.mp hb
  have h := this i (by simpa using hi) j (by simpa using hj) hij
  rw [List.getElem!_eq_getElem?_getD, List.getElem!_eq_getElem?_getD, ha, hb] at h
  simp only [Option.getD_some] at h ⊢
  omega

example : binarySearch [2, 3, 3, 5, 9] (fun (x y : Int) => x - y) 5 = .ok 3 := by decide
example : binarySearch [2, 3, 3, 5, 9] (fun (x y : Int) => x - y) 4 = .ok (-1) := by decide

end Verif.Search
