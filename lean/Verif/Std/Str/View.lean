import Verif.Std.Str.Model
/-! # C40, C78, C79: searching, slicing, comparing and trimming string views -/
namespace Verif.Str

/-! ## Specification -/

/-- The pattern stands at index `j` of the text. -/
def OccursAt (d part : List Nat) (j : Nat) : Prop := ∃ a b, d = a ++ part ++ b ∧ a.length = j

/-- `r` is the least index with the property, or there is none. -/
def IsFirst (P : Nat → Prop) : Option Nat → Prop
  | some j => P j ∧ ∀ k < j, ¬ P k
  | none => ∀ k, ¬ P k

/-- `r` is the greatest index with the property, or there is none. -/
def IsLast (P : Nat → Prop) : Option Nat → Prop
  | some j => P j ∧ ∀ k, j < k → ¬ P k
  | none => ∀ k, ¬ P k

theorem occursAt_iff (d part : List Nat) (j : Nat) :
    OccursAt d part j ↔ j + part.length ≤ d.length ∧ (d.drop j).take part.length = part := by
  constructor
  · rintro ⟨a, b, rfl, rfl⟩
    simp
  · rintro ⟨h1, h2⟩
    refine ⟨d.take j, d.drop (j + part.length), ?_, by simp; omega⟩
    conv => lhs; rw [← List.take_append_drop j d, ← List.take_append_drop part.length (d.drop j), h2]
    simp [List.append_assoc]

theorem sameAt_eq (d part : List Nat) (j : Nat) (h : j + part.length ≤ d.length) :
    ∃ b, sameAt d part j = .ok b ∧ (b = true ↔ OccursAt d part j) := by
  refine ⟨_, if_pos h, ?_⟩
  rw [decide_eq_true_eq, occursAt_iff]
  exact ⟨fun e => ⟨h, e⟩, fun e => e.2⟩

theorem rd_lt (d : List Nat) (i : Nat) (h : i < d.length) : rd d i = .ok d[i] := by
  simp [rd, List.getElem?_eq_getElem h]

/-! ## Characters -/

theorem indexLoop_first (d : List Nat) (c : Nat) : ∀ n i, i + n = d.length → (∀ k < i, d[k]? ≠ some c) →
    ∃ r, indexLoop d c n i = .ok r ∧ IsFirst (fun k => d[k]? = some c) r
  | 0, i, h, hb => ⟨none, rfl, fun k => by
      by_cases hk : k < i
      · exact hb k hk
      · show ¬ d[k]? = some c
        rw [List.getElem?_eq_none (by omega)]; simp⟩
  | n + 1, i, h, hb => by
    unfold indexLoop
    rw [rd_lt d i (by omega)]
    simp only [Out.bind_ok]
    split
    · rename_i e
      exact ⟨some i, rfl, by show d[i]? = some c; rw [List.getElem?_eq_getElem (by omega), e], hb⟩
    · rename_i e
      refine indexLoop_first d c n (i + 1) (by omega) (fun k hk => ?_)
      by_cases hki : k = i
      · subst hki; rw [List.getElem?_eq_getElem (by omega)]; simpa using e
      · exact hb k (by omega)

theorem rIndexLoop_last (d : List Nat) (c : Nat) : ∀ i, i < d.length → (∀ k, i < k → d[k]? ≠ some c) →
    ∃ r, rIndexLoop d c i = .ok r ∧ IsLast (fun k => 0 < k ∧ d[k]? = some c) r
  | 0, h, hb => ⟨none, rfl, fun k ⟨hk, e⟩ => hb k hk e⟩
  | i + 1, h, hb => by
    unfold rIndexLoop
    rw [rd_lt d (i + 1) h]
    simp only [Out.bind_ok]
    split
    · rename_i e
      exact ⟨some (i + 1), rfl, ⟨by omega, by rw [List.getElem?_eq_getElem h, e]⟩, fun k hk ⟨_, e⟩ => hb k hk e⟩
    · rename_i e
      refine rIndexLoop_last d c i (by omega) (fun k hk => ?_)
      by_cases hki : k = i + 1
      · subst hki; rw [List.getElem?_eq_getElem h]; simpa using e
      · exact hb k (by omega)

theorem rIndexOf_last (d : List Nat) (c : Nat) :
    ∃ r, rIndexOf d c = .ok r ∧ IsLast (fun k => 0 < k ∧ d[k]? = some c) r := by
  unfold rIndexOf
  split
  · rename_i h
    exact ⟨none, rfl, fun k ⟨_, e⟩ => by rw [List.getElem?_eq_none (by omega)] at e; simp at e⟩
  · exact rIndexLoop_last d c (d.length - 1) (by omega) (fun k hk => by rw [List.getElem?_eq_none (by omega)]; simp)

/-! ## Patterns -/

theorem findLoop_first (d part : List Nat) (hp : part ≠ []) (hd : d.length < 2 ^ 63) : ∀ n i j, i + j = d.length →
    d.length < n + j → (∀ k < j, ¬ OccursAt d part k) →
    ∃ r, findLoop d part n i j = .ok r ∧ IsFirst (OccursAt d part) r
  | 0, i, j, h1, h2, hb => by omega
  | n + 1, i, j, h1, h2, hb => by
    have hpl : 0 < part.length := List.length_pos_iff.2 hp
    unfold findLoop
    split
    · rename_i hi
      obtain ⟨b, e, hb2⟩ := sameAt_eq d part j (by omega)
      rw [e]
      simp only [Out.bind_ok]
      split
      · rename_i hbt
        exact ⟨some j, rfl, hb2.1 hbt, hb⟩
      · rename_i hbt
        rw [show (i + 2 ^ 64 - 1) % 2 ^ 64 = i - 1 by omega]
        refine findLoop_first d part hp hd n (i - 1) (j + 1) (by omega) (by omega) (fun k hk ho => ?_)
        by_cases hkj : k = j
        · subst hkj; exact hbt (hb2.2 ho)
        · exact hb k (by omega) ho
    · rename_i hi
      refine ⟨none, rfl, fun k ho => ?_⟩
      have := (occursAt_iff d part k).1 ho
      exact hb k (by omega) ho

theorem rfindLoop_last (d part : List Nat) (hl : part.length ≤ d.length) : ∀ j, j + part.length ≤ d.length + 1 →
    (∀ k, j ≤ k → ¬ OccursAt d part k) →
    ∃ r, rfindLoop d part j = .ok r ∧ IsLast (OccursAt d part) r
  | 0, h, hb => ⟨none, rfl, fun k => hb k (Nat.zero_le _)⟩
  | j + 1, h, hb => by
    unfold rfindLoop
    obtain ⟨b, e, hb2⟩ := sameAt_eq d part j (by omega)
    rw [e]
    simp only [Out.bind_ok]
    split
    · rename_i hbt
      exact ⟨some j, rfl, hb2.1 hbt, fun k hk => hb k hk⟩
    · rename_i hbt
      refine rfindLoop_last d part hl j (by omega) (fun k hk ho => ?_)
      by_cases hkj : k = j
      · subst hkj; exact hbt (hb2.2 ho)
      · exact hb k (by omega) ho

/-- **C40 (partial).** `find` and `rfind` give the first and the last index at which a non-empty pattern stands in the
text, `indexOf` the first index of a character and `rIndexOf` its last index among those from 1 on; nothing is
reported exactly when there is no such index, and nothing is read outside the text.  Missing: the empty pattern
(`find_empty_pattern`) and index 0 for `rIndexOf` (`rIndexOf_misses_first`). -/
theorem search_is_exact_partial (d part : List Nat) (c : Nat) (hp : part ≠ []) (hd : d.length < 2 ^ 63) :
    (∃ r, find d part = .ok r ∧ IsFirst (OccursAt d part) r) ∧
    (∃ r, rfind d part = .ok r ∧ IsLast (OccursAt d part) r) ∧
    (∃ r, indexOf d c = .ok r ∧ IsFirst (fun k => d[k]? = some c) r) ∧
    (∃ r, rIndexOf d c = .ok r ∧ IsLast (fun k => 0 < k ∧ d[k]? = some c) r) := by
  refine ⟨?_, ?_, indexLoop_first d c d.length 0 (by omega) (fun k hk => by omega), rIndexOf_last d c⟩
  · unfold find
    rw [if_neg hp]
    exact findLoop_first d part hp hd (d.length + 1) d.length 0 (by omega) (by omega) (fun k hk => by omega)
  · have hpl : 0 < part.length := List.length_pos_iff.2 hp
    unfold rfind
    split
    · rename_i hge
      refine rfindLoop_last d part hge _ (by omega) (fun k hk ho => ?_)
      have := (occursAt_iff d part k).1 ho
      omega
    · rename_i hlt
      refine ⟨none, rfl, fun k ho => ?_⟩
      have := (occursAt_iff d part k).1 ho
      omega

example : find [97, 98, 97, 98, 99] [97, 98] = .ok (some 0) ∧ rfind [97, 98, 97, 98, 99] [97, 98] = .ok (some 2) ∧
    rIndexOf [97, 98, 97, 98, 99] 98 = .ok (some 3) := by decide

/-- **C40 fails** for the empty pattern, which stands first at index 0: the index of the last character is given. -/
theorem find_empty_pattern (d : List Nat) (h : 2 ≤ d.length) :
    find d [] = .ok (some (d.length - 1)) ∧ IsFirst (OccursAt d []) (some 0) ∧ d.length - 1 ≠ 0 := by
  refine ⟨?_, ⟨⟨[], d, rfl, rfl⟩, by omega⟩, by omega⟩
  unfold find
  rw [if_pos rfl, if_neg (by rintro rfl; simp at h)]

/-- **C40 fails** for a character that stands at index 0 only: `rIndexOf` reports nothing. -/
theorem rIndexOf_misses_first (c : Nat) (rest : List Nat) (h : c ∉ rest) :
    rIndexOf (c :: rest) c = .ok none ∧ IsLast (fun k => (c :: rest)[k]? = some c) (some 0) := by
  have hno : ∀ k, 0 < k → (c :: rest)[k]? ≠ some c := by
    intro k hk e
    cases k with
    | zero => omega
    | succ k => rw [List.getElem?_cons_succ] at e; exact h (List.mem_of_getElem? e)
  refine ⟨?_, rfl, hno⟩
  obtain ⟨r, e, hr⟩ := rIndexOf_last (c :: rest) c
  cases r with
  | none => exact e
  | some j => exact absurd hr.1.2 (hno j hr.1.1)

/-! ## C78: slices, prefixes and suffixes, comparison -/

theorem strncmp_eq : ∀ (a b : List Nat), a.length = b.length → 0 ∉ a → (strncmp a.length a b = 0 ↔ a = b)
  | [], [], _, _ => by simp [strncmp]
  | a :: as, b :: bs, hl, h0 => by
    simp only [List.mem_cons, not_or] at h0
    simp only [List.length_cons, strncmp] at hl ⊢
    split
    · rename_i hne
      constructor
      · intro e; omega
      · intro e; simp at e; exact absurd e.1 hne
    · rename_i heq
      have heq : a = b := by simpa using heq
      rw [if_neg (fun e => h0.1 e.symm), strncmp_eq as bs (by omega) h0.2]
      simp [heq]

theorem viewEq_iff (a b : List Nat) (h0 : 0 ∉ a) : viewEq a b = true ↔ a = b := by
  unfold viewEq viewCompare
  simp only [decide_eq_true_eq]
  split
  · rename_i hl; exact strncmp_eq a b hl h0
  · rename_i hl
    have : a ≠ b := fun e => hl (by rw [e])
    split <;> simp [this]

/-- **C78 (partial).** For texts without NUL bytes, two views are equal exactly when their bytes are, `startswith`
and `endswith` decide whether the text has the given beginning or end, and `substr` gives the requested piece or fails
its assertion when the piece is not inside the text.  Missing: views containing NUL bytes. -/
theorem views_partial (d p : List Nat) (h0 : 0 ∉ d) :
    (viewEq d p = true ↔ d = p) ∧
    (∃ b, startswith d p = .ok b ∧ (b = true ↔ ∃ r, d = p ++ r)) ∧
    (∃ b, endswith d p = .ok b ∧ (b = true ↔ ∃ r, d = r ++ p)) := by
  refine ⟨viewEq_iff d p h0, ?_, ?_⟩
  · unfold startswith
    split
    · rename_i hl
      exact ⟨false, rfl, by simp; rintro r rfl; simp at hl; omega⟩
    · rename_i hl
      unfold substr
      rw [if_pos (Nat.zero_le _), if_neg (by omega), if_pos (by omega)]
      refine ⟨_, rfl, ?_⟩
      rw [viewEq_iff _ _ (fun h => h0 (List.drop_subset 0 d (List.take_subset _ _ h)))]
      simp only [Int.toNat_natCast, List.drop_zero]
      constructor
      · intro e
        refine ⟨d.drop p.length, ?_⟩
        conv => lhs; rw [← List.take_append_drop p.length d, e]
      · rintro ⟨r, rfl⟩; simp
  · unfold endswith
    split
    · rename_i hl
      exact ⟨false, rfl, by simp; rintro r rfl; simp at hl; omega⟩
    · rename_i hl
      unfold substr
      rw [if_pos (by omega), if_pos rfl]
      refine ⟨_, rfl, ?_⟩
      rw [viewEq_iff _ _ (fun h => h0 (List.drop_subset _ d (List.take_subset _ _ h)))]
      rw [List.take_of_length_le (by simp)]
      constructor
      · intro e
        refine ⟨d.take (d.length - p.length), ?_⟩
        conv => lhs; rw [← List.take_append_drop (d.length - p.length) d, e]
      · rintro ⟨r, rfl⟩; simp

theorem substr_piece (d : List Nat) (start : Nat) (count : Int) :
    (∀ s, substr d start count = .ok s → ∃ a b, d = a ++ s ++ b ∧ a.length = start ∧
      (count = -1 → b = []) ∧ (count ≠ -1 → (s.length : Int) = count)) ∧
    (substr d start count = .abort ↔ d.length < start ∨ (count ≠ -1 ∧ (count < 0 ∨ (d.length : Int) < start + count))) := by
  unfold substr
  split
  · rename_i hs
    split
    · rename_i hc
      subst hc
      refine ⟨fun s e => ?_, by simp; omega⟩
      cases e
      refine ⟨d.take start, [], ?_, List.length_take_of_le hs, fun _ => rfl, fun h => absurd rfl h⟩
      have : (d.drop start).take (d.length - start) = d.drop start := List.take_of_length_le (by simp)
      rw [this, List.append_nil, List.take_append_drop]
    · rename_i hc
      split
      · rename_i hr
        refine ⟨fun s e => ?_, by simp; omega⟩
        cases e
        refine ⟨d.take start, d.drop (start + count.toNat), ?_, List.length_take_of_le hs, fun h => absurd h hc, fun _ => ?_⟩
        · conv => lhs; rw [← List.take_append_drop start d, ← List.take_append_drop count.toNat (d.drop start)]
          simp [List.append_assoc]
        · simp; omega
      · rename_i hr
        exact ⟨fun s e => (by cases e), by simp; omega⟩
  · exact ⟨fun s e => (by cases e), by simp; omega⟩

example : startswith [104, 105, 33] [104, 105] = .ok true ∧ endswith [104, 105, 33] [104, 105] = .ok false ∧
    substr [104, 105, 33] 1 2 = .ok [105, 33] ∧ substr [104, 105, 33] 2 2 = .abort := by decide

/-- **C78 fails** for views with a NUL byte: everything after the first one is ignored. -/
theorem nul_hides_difference (p a b : List Nat) (h0 : 0 ∉ p) (hl : a.length = b.length) :
    viewEq (p ++ 0 :: a) (p ++ 0 :: b) = true := by
  have : ∀ p : List Nat, 0 ∉ p → strncmp (p ++ 0 :: a).length (p ++ 0 :: a) (p ++ 0 :: b) = 0 := by
    intro p
    induction p with
    | nil => intro _; simp [strncmp]
    | cons x xs ih =>
      intro h
      simp only [List.mem_cons, not_or] at h
      simp only [List.cons_append, List.length_cons, strncmp]
      rw [if_neg (by simp), if_neg (fun e => h.1 e.symm), ih h.2]
  unfold viewEq viewCompare
  rw [if_pos (by simp [hl]), this p h0]
  rfl

/-! ## C79: trimming -/

/-- White space in the C locale: tab, line feed, vertical tab, form feed, carriage return and blank. -/
def white (c : Nat) : Bool := [9, 10, 11, 12, 13, 32].contains c

theorem isSpace_white : isSpace = white := by
  funext c
  unfold isSpace white
  rw [Bool.eq_iff_iff]
  simp
  omega

theorem trimLeft_spec (d : List Nat) : ∃ a, d = a ++ viewTrimLeft d ∧ (∀ c ∈ a, isSpace c = true) ∧
    ∀ c, (viewTrimLeft d).head? = some c → isSpace c = false := by
  induction d with
  | nil => exact ⟨[], rfl, by simp, by simp [viewTrimLeft]⟩
  | cons c cs ih =>
    unfold viewTrimLeft
    split
    · rename_i h
      obtain ⟨a, h1, h2, h3⟩ := ih
      exact ⟨c :: a, by rw [List.cons_append, ← h1], by simpa [h] using h2, h3⟩
    · rename_i h
      exact ⟨[], rfl, by simp, by simpa using h⟩

theorem keepRight_spec (d : List Nat) : ∀ i, i ≤ d.length → ∃ n, keepRight d i = .ok n ∧ n ≤ i ∧
    (∀ c ∈ (d.take i).drop n, isSpace c = true) ∧ ∀ c, (d.take n).getLast? = some c → isSpace c = false
  | 0, _ => ⟨0, rfl, Nat.le_refl _, by simp, by simp⟩
  | i + 1, h => by
    unfold keepRight
    rw [rd_lt d i (by omega)]
    simp only [Out.bind_ok]
    split
    · rename_i hs
      obtain ⟨n, e, hn, h1, h2⟩ := keepRight_spec d i (by omega)
      refine ⟨n, e, by omega, fun c hc => ?_, h2⟩
      rw [List.take_add_one, List.getElem?_eq_getElem (by omega), List.drop_append] at hc
      rcases List.mem_append.1 hc with hc | hc
      · exact h1 c hc
      · have := List.drop_subset _ _ hc
        simp at this
        rw [this]; exact hs
    · rename_i hs
      refine ⟨i + 1, rfl, Nat.le_refl _, by simp, fun c hc => ?_⟩
      have hl : d.take (i + 1) = d.take i ++ [d[i]] := by
        rw [List.take_add_one, List.getElem?_eq_getElem (by omega)]; rfl
      rw [hl, List.getLast?_append] at hc
      simp at hc
      rw [← hc]; simpa using hs

theorem trim_isSpace (d : List Nat) : ∃ t a b, viewTrim d = .ok t ∧ d = a ++ t ++ b ∧ (∀ c ∈ a ++ b, isSpace c = true) ∧
    (∀ c, t.head? = some c → isSpace c = false) ∧ (∀ c, t.getLast? = some c → isSpace c = false) := by
  obtain ⟨a, h1, h2, h3⟩ := trimLeft_spec d
  obtain ⟨n, e, hn, k1, k2⟩ := keepRight_spec (viewTrimLeft d) _ (Nat.le_refl _)
  rw [List.take_length] at k1
  refine ⟨(viewTrimLeft d).take n, a, (viewTrimLeft d).drop n, by simp [viewTrim, viewTrimRight, e], ?_, ?_, ?_, k2⟩
  · rw [List.append_assoc, List.take_append_drop]; exact h1
  · intro c hc
    rcases List.mem_append.1 hc with hc | hc
    · exact h2 c hc
    · exact k1 c hc
  · intro c hc
    refine h3 c ?_
    cases ht : viewTrimLeft d with
    | nil => rw [ht] at hc; simp at hc
    | cons x xs =>
      rw [ht] at hc
      cases n with
      | zero => simp at hc
      | succ n => simpa using hc

/-- **C79.** Trimming a view takes away white space at both ends, or at the one end asked for, and nothing else, and
leaves none there. -/
theorem trim_exact (d : List Nat) :
    (∃ t a b, viewTrim d = .ok t ∧ d = a ++ t ++ b ∧ (∀ c ∈ a ++ b, white c = true) ∧
      (∀ c, t.head? = some c → white c = false) ∧ (∀ c, t.getLast? = some c → white c = false)) ∧
    (∃ a, d = a ++ viewTrimLeft d ∧ (∀ c ∈ a, white c = true) ∧ ∀ c, (viewTrimLeft d).head? = some c → white c = false) ∧
    (∃ t b, viewTrimRight d = .ok t ∧ d = t ++ b ∧ (∀ c ∈ b, white c = true) ∧ ∀ c, t.getLast? = some c → white c = false) := by
  rw [← isSpace_white]
  refine ⟨trim_isSpace d, trimLeft_spec d, ?_⟩
  obtain ⟨n, e, hn, k1, k2⟩ := keepRight_spec d _ (Nat.le_refl _)
  rw [List.take_length] at k1
  exact ⟨d.take n, d.drop n, by simp [viewTrimRight, e], by simp, k1, k2⟩

example : viewTrim [32, 9, 97, 32, 98, 10] = .ok [97, 32, 98] := by decide

end Verif.Str
