import Verif.Std.Slice.Model

/-!
# A slice is a window on a sequence
-/

namespace Verif.Slice

open Verif

/-! ## Specification -/

/-- What the slice shows: the elements from its start, as many as its length. -/
def shown {α : Type} (m : Nat → α) (s : Slice) : List α :=
  (List.range s.len).map fun i => m (s.data + i)

/-! ## Lemmas -/

theorem shown_length {α : Type} (m : Nat → α) (s : Slice) : (shown m s).length = s.len := by
  simp [shown]

theorem shown_get {α : Type} (m : Nat → α) (s : Slice) (i : Nat) (h : i < s.len) :
    (shown m s)[i]? = some (m (s.data + i)) := by
  simp [shown, List.getElem?_range h]

/-- The part of a slice from `a` on, `n` elements long. -/
theorem shown_part {α : Type} (m : Nat → α) (s : Slice) (a n : Nat) (h : a + n ≤ s.len) :
    shown m ⟨s.data + a, n⟩ = ((shown m s).drop a).take n := by
  apply List.ext_getElem?
  intro i
  by_cases hi : i < n
  · rw [shown_get _ _ _ hi, List.getElem?_take_of_lt hi, List.getElem?_drop,
      shown_get _ _ _ (by omega)]
    simp only [Nat.add_assoc]
  · rw [List.getElem?_eq_none (by rw [shown_length]; exact Nat.le_of_not_lt hi),
      List.getElem?_eq_none (by simp; omega)]

theorem shown_upd {α : Type} (m : Nat → α) (s : Slice) (i : Nat) (v : α) (h : i < s.len) :
    shown (upd m (s.data + i) v) s = (shown m s).set i v := by
  apply List.ext_getElem?
  intro j
  by_cases hj : j < s.len
  · rw [shown_get _ _ _ hj, List.getElem?_set, shown_length]
    by_cases he : i = j
    · subst he; simp [h]
    · rw [if_neg he, shown_get _ _ _ hj, upd_ne]
      omega
  · rw [List.getElem?_eq_none (by rw [shown_length]; omega),
      List.getElem?_eq_none (by simp [shown_length]; omega)]

/-! ## Theorems -/

/-- **C196, reading.**  Indexing gives the element of the window, and stops the program exactly for
indices outside it. -/
theorem get_spec {α : Type} (m : Nat → α) (s : Slice) (i : Nat) :
    (∀ v, get m s i = .ok v ↔ (shown m s)[i]? = some v) ∧
      (get m s i = .abort ↔ (shown m s).length ≤ i) := by
  rw [shown_length]
  by_cases h : i < s.len
  · rw [shown_get _ _ _ h]
    simp only [get, h, if_true]
    exact ⟨fun v => by simp, by simp; omega⟩
  · rw [List.getElem?_eq_none (by rw [shown_length]; omega)]
    simp only [get, h, if_false]
    exact ⟨fun v => by simp, by simp; omega⟩

/-- **C196, writing.**  A store changes that element of the window and no other memory; outside the
window it stops the program. -/
theorem set_spec {α : Type} (m : Nat → α) (s : Slice) (i : Nat) (v : α) :
    (i < (shown m s).length → ∃ m', set m s i v = .ok m' ∧ shown m' s = (shown m s).set i v ∧
      ∀ a, a < s.data ∨ s.data + s.len ≤ a → m' a = m a) ∧
    ((shown m s).length ≤ i → set m s i v = .abort) := by
  rw [shown_length]
  constructor
  · intro h
    refine ⟨_, by simp only [set, h, if_true], shown_upd m s i v h, ?_⟩
    intro a ha
    exact upd_ne m v (by omega)
  · intro h
    simp only [set, if_neg (Nat.not_lt.2 h)]

/-- **C196, views.**  A view shows the part asked for, `-1` all the rest, and asking for more than
there is stops the program, as does any other negative count. -/
theorem view_spec {α : Type} (m : Nat → α) (s : Slice) (a : Nat) (n : Int) :
    (∀ t, view s a n = .ok t →
      shown m t = if n = -1 then (shown m s).drop a else ((shown m s).drop a).take n.toNat) ∧
    ((∃ t, view s a n = .ok t) ↔
      a ≤ (shown m s).length ∧ (n = -1 ∨ (0 ≤ n ∧ a + n ≤ (shown m s).length))) ∧
    ((∃ t, view s a n = .ok t) ∨ view s a n = .abort) := by
  rw [shown_length]
  unfold view
  by_cases ha : a ≤ s.len
  · simp only [ha, if_true, true_and]
    by_cases hn : n = -1
    · simp only [hn, if_true, true_or]
      refine ⟨?_, by simp, Or.inl ⟨_, rfl⟩⟩
      intro t ht
      cases ht
      rw [shown_part m s a _ (by omega)]
      rw [List.take_of_length_le]
      simp [shown_length]
    · simp only [hn, if_false, false_or]
      by_cases hc : 0 ≤ n ∧ n ≤ ((s.len - a : Nat) : Int)
      · rw [if_pos hc]
        refine ⟨?_, ⟨fun _ => by omega, fun _ => ⟨_, rfl⟩⟩, Or.inl ⟨_, rfl⟩⟩
        intro t ht
        cases ht
        exact shown_part m s a _ (by omega)
      · simp only [hc, if_false]
        refine ⟨fun t ht => (by cases ht), ⟨fun ⟨t, ht⟩ => (by cases ht), fun h => absurd h (by omega)⟩,
          Or.inr trivial⟩
  · simp only [ha, if_false, false_and]
    exact ⟨fun t ht => (by cases ht), ⟨fun ⟨t, ht⟩ => (by cases ht), False.elim⟩, Or.inr trivial⟩

/-- **C196, writing through a view** changes the slice it is a view of, at the element's place in
that. -/
theorem set_through_view {α : Type} (m : Nat → α) (s t : Slice) (a : Nat) (n : Int) (i : Nat) (v : α)
    (ht : view s a n = .ok t) (hi : i < (shown m t).length) :
    ∃ m', set m t i v = .ok m' ∧ shown m' s = (shown m s).set (a + i) v ∧
      shown m' t = (shown m t).set i v := by
  obtain ⟨m', h1, h2, _⟩ := (set_spec m t i v).1 hi
  refine ⟨m', h1, ?_, h2⟩
  rw [shown_length] at hi
  have hm : m' = upd m (t.data + i) v := by
    simp only [set, hi, if_true] at h1
    cases h1; rfl
  have hd : t.data = s.data + a ∧ a + t.len ≤ s.len := by
    unfold view at ht
    by_cases ha : a ≤ s.len
    · rw [if_pos ha] at ht
      by_cases hn : n = -1
      · rw [if_pos hn] at ht
        cases ht
        exact ⟨rfl, by show a + (s.len - a) ≤ s.len; omega⟩
      · rw [if_neg hn] at ht
        by_cases hc : 0 ≤ n ∧ n ≤ ((s.len - a : Nat) : Int)
        · rw [if_pos hc] at ht
          cases ht
          exact ⟨rfl, by show a + n.toNat ≤ s.len; omega⟩
        · rw [if_neg hc] at ht; cases ht
    · rw [if_neg ha] at ht; cases ht
  rw [hm, hd.1, Nat.add_assoc]
  exact shown_upd m s (a + i) v (by omega)

/-- **C196.**  Parts of a slice that do not overlap are independent: a store through one does not
show in the other. -/
theorem disjoint_views {α : Type} (m m' : Nat → α) (t u : Slice) (i : Nat) (v : α)
    (h : t.data + t.len ≤ u.data ∨ u.data + u.len ≤ t.data) (hs : set m t i v = .ok m') :
    shown m' u = shown m u := by
  by_cases hi : i < t.len
  · simp only [set, hi, if_true] at hs
    cases hs
    apply List.map_congr_left
    intro j hj
    have := List.mem_range.1 hj
    exact upd_ne m v (by omega)
  · simp only [set, hi, if_false] at hs
    cases hs

theorem loop_from {α : Type} (m : Nat → α) (s : Slice) (hs : s.len < 2 ^ 31) (k : Nat) :
    ∀ i fuel, i + k = s.len → k < fuel →
      loop m s fuel i = .ok ((List.range' i k).map fun j => (m (s.data + j), j)) := by
  induction k with
  | zero =>
    intro i fuel h hf
    obtain ⟨f, rfl⟩ : ∃ f, fuel = f + 1 := ⟨fuel - 1, by omega⟩
    have : ¬ i < s.len := by omega
    simp [loop, next, this]
  | succ k ih =>
    intro i fuel h hf
    obtain ⟨f, rfl⟩ : ∃ f, fuel = f + 1 := ⟨fuel - 1, by omega⟩
    have h1 : i < s.len := by omega
    have h2 : i + 1 < 2 ^ 31 := by omega
    simp only [loop, next, h1, if_true, incr32, h2]
    rw [ih (i + 1) f (by omega) (by omega)]
    simp [List.range'_succ]

/-- **C197.**  A loop over a slice visits each of its elements once, in order, with its index, if
there are fewer than `2 ^ 31`. -/
theorem loop_visits_all_partial {α : Type} (m : Nat → α) (s : Slice)
    (hs : (shown m s).length < 2 ^ 31) :
    ∃ fuel, ∀ f, fuel ≤ f → loop m s f 0 = .ok (shown m s).zipIdx := by
  rw [shown_length] at hs
  refine ⟨s.len + 1, fun f hf => ?_⟩
  rw [loop_from m s hs s.len 0 f (by omega) (by omega)]
  congr 1
  rw [shown, List.zipIdx_map, ← List.range_eq_range']
  apply List.ext_getElem?
  intro i
  by_cases hi : i < s.len
  · simp [hi]
  · simp [hi]

theorem loop_overflows {α : Type} (m : Nat → α) (s : Slice) (hs : 2 ^ 31 ≤ s.len) (k : Nat) :
    ∀ i fuel, i + k + 1 = 2 ^ 31 → k < fuel → loop m s fuel i = .ub := by
  induction k with
  | zero =>
    intro i fuel h hf
    obtain ⟨f, rfl⟩ : ∃ f, fuel = f + 1 := ⟨fuel - 1, by omega⟩
    have h1 : i < s.len := by omega
    have h2 : ¬ i + 1 < 2 ^ 31 := by omega
    simp only [loop, next, h1, if_true, incr32, h2, if_false]
  | succ k ih =>
    intro i fuel h hf
    obtain ⟨f, rfl⟩ : ∃ f, fuel = f + 1 := ⟨fuel - 1, by omega⟩
    have h1 : i < s.len := by omega
    have h2 : i + 1 < 2 ^ 31 := by omega
    simp only [loop, next, h1, if_true, incr32, h2]
    rw [ih (i + 1) f (by omega) (by omega)]

/-- **Negation of C197.**  A loop over any slice of `2 ^ 31` elements or more is undefined. -/
theorem long_loop_undefined {α : Type} (m : Nat → α) (s : Slice)
    (hs : 2 ^ 31 ≤ (shown m s).length) : ∃ fuel, ∀ f, fuel ≤ f → loop m s f 0 = .ub := by
  rw [shown_length] at hs
  exact ⟨2 ^ 31, fun f hf => loop_overflows m s hs (2 ^ 31 - 1) 0 f (by omega) (by omega)⟩

/-! ## Non-vacuity -/

private def m0 : Nat → Nat := fun a => a * a

example : shown m0 ⟨3, 4⟩ = [9, 16, 25, 36] := by decide

example : view ⟨3, 4⟩ 1 2 = .ok ⟨4, 2⟩ ∧ shown m0 ⟨4, 2⟩ = [16, 25] := by decide

example : view ⟨3, 4⟩ 2 (-1) = .ok ⟨5, 2⟩ ∧ view ⟨3, 4⟩ 2 3 = .abort ∧ view ⟨3, 4⟩ 2 (-2) = .abort := by
  decide

example : (1 : Nat) < (shown m0 ⟨4, 2⟩).length := by decide

example : (⟨3, 2⟩ : Slice).data + (⟨3, 2⟩ : Slice).len ≤ (⟨5, 2⟩ : Slice).data := by decide

example : (shown m0 ⟨3, 4⟩).length < 2 ^ 31 := by decide

example : loop m0 ⟨3, 2⟩ 3 0 = .ok [(9, 0), (16, 1)] := by simp [loop, next, incr32, m0]

example : 2 ^ 31 ≤ (shown m0 ⟨0, 2 ^ 31⟩).length := by rw [shown_length]; exact Nat.le_refl _

end Verif.Slice
