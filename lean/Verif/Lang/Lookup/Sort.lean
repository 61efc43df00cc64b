import Verif.Lang.Lookup.Model
/-! # Sorting and searching -/
namespace Verif.Lookup
open Verif

variable {α : Type}

theorem merge_perm (cmp : α → α → Int) (xs ys : List α) : (merge cmp xs ys).Perm (xs ++ ys) := by
  fun_induction merge cmp xs ys with
  | case1 ys => exact .refl _
  | case2 x xs => simp
  | case3 x xs y ys h ih => exact ih.cons x
  | case4 x xs y ys h ih =>
    refine (ih.cons y).trans ?_
    exact (List.perm_middle (a := y) (l₁ := x :: xs) (l₂ := ys)).symm

theorem msort_perm (cmp : α → α → Int) (f : Nat) (l : List α) : (msort cmp f l).Perm l := by
  induction f generalizing l with
  | zero => exact .refl _
  | succ f ih =>
    unfold msort
    split
    · exact .refl _
    · refine (merge_perm _ _ _).trans ?_
      refine ((ih _).append (ih _)).trans ?_
      rw [List.take_append_drop]

/-- Sorting keeps the elements. -/
theorem qsort_perm (cmp : α → α → Int) (l : List α) : (qsort cmp l).Perm l := msort_perm _ _ _

/-- Neighbours in order: every element is at most the next one. -/
def InOrder (cmp : α → α → Int) : List α → Prop
  | a :: b :: l => cmp a b ≤ 0 ∧ InOrder cmp (b :: l)
  | _ => True

/-- The head of a list is at most `a`, after it. -/
def HeadOk (cmp : α → α → Int) (a : α) : List α → Prop
  | [] => True
  | b :: _ => cmp a b ≤ 0

theorem inOrder_cons {cmp : α → α → Int} {a : α} {l : List α} :
    InOrder cmp (a :: l) ↔ HeadOk cmp a l ∧ InOrder cmp l := by
  cases l <;> simp [InOrder, HeadOk]

theorem merge_head {cmp : α → α → Int} {a : α} {xs ys : List α} (h1 : HeadOk cmp a xs)
    (h2 : HeadOk cmp a ys) : HeadOk cmp a (merge cmp xs ys) := by
  cases xs with
  | nil => cases ys <;> simpa [merge] using h2
  | cons x xs =>
    cases ys with
    | nil => simpa [merge] using h1
    | cons y ys =>
      unfold merge
      split
      · exact h1
      · exact h2

theorem merge_inOrder {cmp : α → α → Int} (ha : ∀ a b, 0 < cmp a b → cmp b a ≤ 0)
    (xs ys : List α) (h1 : InOrder cmp xs) (h2 : InOrder cmp ys) :
    InOrder cmp (merge cmp xs ys) := by
  fun_induction merge cmp xs ys with
  | case1 ys => exact h2
  | case2 x xs => exact h1
  | case3 x xs y ys h ih =>
    rw [inOrder_cons] at h1 ⊢
    exact ⟨merge_head h1.1 h, ih h1.2 h2⟩
  | case4 x xs y ys h ih =>
    rw [inOrder_cons (a := y)] at h2
    rw [inOrder_cons]
    exact ⟨merge_head (ha _ _ (by omega)) h2.1, ih h1 h2.2⟩

theorem msort_inOrder {cmp : α → α → Int} (ha : ∀ a b, 0 < cmp a b → cmp b a ≤ 0) (f : Nat)
    (l : List α) (hf : l.length ≤ f) : InOrder cmp (msort cmp f l) := by
  induction f generalizing l with
  | zero =>
    have : l = [] := List.length_eq_zero_iff.mp (by omega)
    subst this; trivial
  | succ f ih =>
    unfold msort
    split
    · rename_i h
      match l, h with
      | [], _ => trivial
      | [_], _ => trivial
    · refine merge_inOrder ha _ _ (ih _ ?_) (ih _ ?_)
      · rw [List.length_take]; omega
      · rw [List.length_drop]; omega

/-- Sorting puts neighbours in order as soon as the comparison does not call both orders of two
elements descending. Nothing is said about elements that are not neighbours. -/
theorem qsort_inOrder {cmp : α → α → Int} (ha : ∀ a b, 0 < cmp a b → cmp b a ≤ 0) (l : List α) :
    InOrder cmp (qsort cmp l) := msort_inOrder ha _ _ (Nat.le_refl _)

theorem inOrder_pairwise {cmp : α → α → Int} {r : α → α → Prop} (l : List α)
    (hr : ∀ a ∈ l, ∀ b ∈ l, cmp a b ≤ 0 → r a b)
    (ht : ∀ a b c, r a b → r b c → r a c) (h : InOrder cmp l) : l.Pairwise r := by
  induction l with
  | nil => exact .nil
  | cons a l ih =>
    rw [inOrder_cons] at h
    have hp := ih (fun x hx y hy => hr x (.tail _ hx) y (.tail _ hy)) h.2
    refine .cons ?_ hp
    cases l with
    | nil => intro b hb; cases hb
    | cons b l =>
      have hab : r a b := hr a (.head _) b (.tail _ (.head _)) h.1
      intro c hc
      cases hc with
      | head => exact hab
      | tail _ hc => exact ht _ _ _ hab ((List.pairwise_cons.mp hp).1 c hc)

/-! ## `strcmp` -/

theorem strcmp_zero {a b : Name} (ha : ∀ x ∈ a, 0 < x) (hb : ∀ x ∈ b, 0 < x) :
    strcmp a b = 0 ↔ a = b := by
  induction a generalizing b with
  | nil =>
    cases b with
    | nil => simp [strcmp]
    | cons b bs =>
      have := hb b (.head _)
      simp [strcmp]; omega
  | cons x xs ih =>
    cases b with
    | nil =>
      have := ha x (.head _)
      simp [strcmp]; omega
    | cons b bs =>
      unfold strcmp
      split
      · rename_i h
        rw [ih (fun y hy => ha y (.tail _ hy)) (fun y hy => hb y (.tail _ hy))]
        simp [h]
      · rename_i h
        constructor
        · intro h'; omega
        · intro h'; injection h' with h1 h2; exact absurd h1 h

theorem strcmp_swap (a b : Name) : strcmp b a = -strcmp a b := by
  induction a generalizing b with
  | nil => cases b <;> simp [strcmp]
  | cons x xs ih =>
    cases b with
    | nil => simp [strcmp]
    | cons b bs =>
      by_cases h : x = b
      · subst h; simp [strcmp, ih]
      · simp only [strcmp, if_neg h, if_neg (Ne.symm h)]; omega

theorem strcmp_trans (a b c : Name) (ha : ∀ x ∈ a, 0 < x) (hb : ∀ x ∈ b, 0 < x)
    (h1 : strcmp a b ≤ 0) (h2 : strcmp b c ≤ 0) : strcmp a c ≤ 0 := by
  induction a generalizing b c with
  | nil => cases c <;> simp [strcmp]
  | cons x xs ih =>
    have hx := ha x (.head _)
    cases b with
    | nil => simp only [strcmp] at h1; omega
    | cons y ys =>
      have hy := hb y (.head _)
      cases c with
      | nil => simp only [strcmp] at h2; omega
      | cons z zs =>
        simp only [strcmp] at h1 h2 ⊢
        by_cases hxy : x = y
        · subst hxy
          by_cases hxz : x = z
          · subst hxz
            rw [if_pos rfl] at h1 h2 ⊢
            exact ih ys zs (fun w hw => ha w (.tail _ hw)) (fun w hw => hb w (.tail _ hw)) h1 h2
          · rw [if_neg hxz] at h2 ⊢; exact h2
        · rw [if_neg hxy] at h1
          by_cases hyz : y = z
          · subst hyz; rw [if_neg hxy]; exact h1
          · rw [if_neg hyz] at h2
            by_cases hxz : x = z
            · omega
            · rw [if_neg hxz]; omega

/-! ## Binary search -/

theorem searchLoop_spec (arr : List α) (c : α → Int)
    (hlo : ∀ i j (hi : i < arr.length) (hj : j < arr.length), i < j → c arr[i] < 0 → c arr[j] < 0)
    (hhi : ∀ i j (hi : i < arr.length) (hj : j < arr.length), i < j → c arr[j] > 0 → c arr[i] > 0)
    (f : Nat) (lower upper : Int) (h0 : 0 ≤ lower) (hu : upper < arr.length)
    (hf : upper - lower + 1 < f) (hf0 : 0 < f)
    (h1 : ∀ i (hi : i < arr.length), (i : Int) < lower → c arr[i] > 0)
    (h2 : ∀ i (hi : i < arr.length), (i : Int) > upper → c arr[i] < 0) :
    (∃ i, ∃ h : i < arr.length, searchLoop arr c f lower upper = .ok (i : Int) ∧ c arr[i] = 0) ∨
    (searchLoop arr c f lower upper = .ok (-1) ∧ ∀ a ∈ arr, c a ≠ 0) := by
  induction f generalizing lower upper with
  | zero => omega
  | succ f ih =>
    unfold searchLoop
    by_cases hle : lower ≤ upper
    · rw [if_pos hle]
      generalize hm : lower + (upper - lower) / 2 = mid
      have hm0 : lower ≤ mid := by omega
      have hm1 : mid ≤ upper := by omega
      have hml : mid.toNat < arr.length := by omega
      simp only [if_neg (show ¬ mid < 0 by omega), List.getElem?_eq_getElem hml]
      by_cases hz : c arr[mid.toNat] = 0
      · rw [if_pos hz]
        exact .inl ⟨mid.toNat, hml, by congr 1; omega, hz⟩
      · rw [if_neg hz]
        by_cases hp : c arr[mid.toNat] > 0
        · rw [if_pos hp]
          refine ih (mid + 1) upper (by omega) hu (by omega) (by omega) ?_ h2
          intro i hi hlt
          by_cases he : i = mid.toNat
          · subst he; exact hp
          · exact hhi i mid.toNat hi hml (by omega) hp
        · rw [if_neg hp]
          refine ih lower (mid - 1) h0 (by omega) (by omega) (by omega) h1 ?_
          intro i hi hlt
          by_cases he : i = mid.toNat
          · subst he; omega
          · exact hlo mid.toNat i hml hi (by omega) (by omega)
    · rw [if_neg hle]
      refine .inr ⟨rfl, ?_⟩
      intro a ha
      obtain ⟨i, hi, rfl⟩ := List.mem_iff_getElem.mp ha
      by_cases hlt : (i : Int) < lower
      · have := h1 i hi hlt; omega
      · have := h2 i hi (by omega); omega

/-- `binarySearch` gives the place of an element that compares equal, or `-1` when there is none,
for every array of fewer than 2^31 elements on which the comparison is monotone. -/
theorem binarySearch_spec (arr : List α) (c : α → Int) (hn : arr.length < 2147483648)
    (hlo : ∀ i j (hi : i < arr.length) (hj : j < arr.length), i < j → c arr[i] < 0 → c arr[j] < 0)
    (hhi : ∀ i j (hi : i < arr.length) (hj : j < arr.length), i < j → c arr[j] > 0 → c arr[i] > 0) :
    (∃ i, ∃ h : i < arr.length, binarySearch arr c = .ok (i : Int) ∧ c arr[i] = 0) ∨
    (binarySearch arr c = .ok (-1) ∧ ∀ a ∈ arr, c a ≠ 0) := by
  have ht : toI32 (arr.length : Int) = arr.length := by unfold toI32; omega
  unfold binarySearch
  rw [ht]
  exact searchLoop_spec arr c hlo hhi _ _ _ (by omega) (by omega) (by omega) (by omega)
    (fun i hi h => by omega) (fun i hi h => by omega)

/-- Looking up a name in a table sorted by name. -/
theorem entry_search {δ : Type} (arr : List (Member δ)) (name : Name)
    (hn : arr.length < 2147483648) (hc : ∀ x ∈ name, 0 < x)
    (hm : ∀ m ∈ arr, ∀ x ∈ m.name, 0 < x)
    (hs : arr.Pairwise fun a b => strcmp a.name b.name ≤ 0) :
    (∃ m ∈ arr, m.name = name ∧
      entry arr (binarySearch arr fun m => strcmp name m.name) = .ok (some m)) ∨
    ((∀ m ∈ arr, m.name ≠ name) ∧
      entry arr (binarySearch arr fun m => strcmp name m.name) = .ok none) := by
  rw [List.pairwise_iff_getElem] at hs
  have hlo : ∀ i j (hi : i < arr.length) (hj : j < arr.length), i < j →
      strcmp name arr[i].name < 0 → strcmp name arr[j].name < 0 := by
    intro i j hi hj hij h
    have h3 := hs i j hi hj hij
    have h4 := strcmp_trans _ _ _ hc (hm _ (List.getElem_mem hi)) (Int.le_of_lt h) h3
    have h5 : strcmp name arr[j].name ≠ 0 := by
      intro h0
      have := (strcmp_zero hc (hm _ (List.getElem_mem hj))).mp h0
      have hsw := strcmp_swap name arr[i].name
      rw [← this] at h3
      omega
    omega
  have hhi : ∀ i j (hi : i < arr.length) (hj : j < arr.length), i < j →
      strcmp name arr[j].name > 0 → strcmp name arr[i].name > 0 := by
    intro i j hi hj hij h
    have h3 := hs i j hi hj hij
    have hsw := strcmp_swap name arr[j].name
    have hsw' := strcmp_swap name arr[i].name
    have h4 := strcmp_trans arr[i].name arr[j].name name (hm _ (List.getElem_mem hi))
      (hm _ (List.getElem_mem hj)) h3 (by rw [hsw]; omega)
    have h5 : strcmp name arr[i].name ≠ 0 := by
      intro h0
      have := (strcmp_zero hc (hm _ (List.getElem_mem hi))).mp h0
      rw [← this] at h3
      omega
    omega
  rcases binarySearch_spec arr (fun m => strcmp name m.name) hn hlo hhi
    with ⟨i, hi, he, hz⟩ | ⟨he, hz⟩
  · refine .inl ⟨arr[i], List.getElem_mem hi, ?_, ?_⟩
    · exact ((strcmp_zero hc (hm _ (List.getElem_mem hi))).mp hz).symm
    · rw [he]
      simp only [entry, if_neg (show ¬ (i : Int) = -1 by omega), if_neg (show ¬ (i : Int) < 0 by omega),
        Int.toNat_natCast, List.getElem?_eq_getElem hi]
  · refine .inr ⟨?_, by rw [he]; simp [entry]⟩
    intro m hmem h
    exact hz m hmem ((strcmp_zero hc (hm m hmem)).mpr h.symm)

end Verif.Lookup
