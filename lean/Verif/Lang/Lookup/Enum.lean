import Verif.Lang.Lookup.Sort
/-! # Values of enumerations -/
namespace Verif.Lookup
open Verif

/-- The rule for the values of an enumeration: an option with a value has that value, the first one
without has 0, any other one follows the option before it. -/
def FollowsRule (options : List (Option Int)) (values : List Int) : Prop :=
  values.length = options.length ∧
  ∀ i, (∀ v, options[i]? = some (some v) → values[i]? = some v) ∧
    (options[i]? = some none →
      values[i]? = some (match i with | 0 => 0 | j + 1 => values[j]?.getD 0 + 1))

theorem optionValues_length (next : Int) (os : List (Option Int)) :
    (optionValues next os).length = os.length := by
  induction os generalizing next with
  | nil => rfl
  | cons o os ih => cases o <;> simp [optionValues, ih]

theorem optionValues_get (next : Int) (os : List (Option Int)) (i : Nat) :
    (∀ v, os[i]? = some (some v) → (optionValues next os)[i]? = some v) ∧
    (os[i]? = some none → (optionValues next os)[i]? =
      some (match i with | 0 => next | j + 1 => (optionValues next os)[j]?.getD 0 + 1)) := by
  induction os generalizing next i with
  | nil => simp
  | cons o os ih =>
    cases i with
    | zero => cases o <;> simp [optionValues]
    | succ i =>
      cases o with
      | none =>
        have h := ih (next + 1) i
        simp only [optionValues, List.getElem?_cons_succ]
        refine ⟨h.1, fun hn => ?_⟩
        rw [h.2 hn]
        cases i <;> simp
      | some v =>
        have h := ih (v + 1) i
        simp only [optionValues, List.getElem?_cons_succ]
        refine ⟨h.1, fun hn => ?_⟩
        rw [h.2 hn]
        cases i <;> simp

/-- **C122.** Every option of an enumeration gets the value the rule gives. -/
theorem enum_values_follow_the_rule (options : List (Option Int)) :
    FollowsRule options (enumValues options) := by
  refine ⟨optionValues_length 0 options, fun i => ?_⟩
  have h := optionValues_get 0 options i
  refine ⟨h.1, fun hn => ?_⟩
  unfold enumValues
  exact h.2 hn

example : enumValues [none, some 5, none, none, some (-3), none] = [0, 5, 6, 7, -3, -2] := by decide

/-! ## The default value and the bounds of an enumeration -/

/-- All the values lie within a distance of less than 2^31. -/
def Narrow (values : List Int) : Prop := ∀ a ∈ values, ∀ b ∈ values, a - b < 2 ^ 31

instance (values : List Int) : Decidable (Narrow values) := by unfold Narrow; infer_instance

theorem compareValues_swap (a b : Int) (h : 0 < compareValues a b) : compareValues b a ≤ 0 := by
  unfold compareValues toI32 at *
  omega

theorem keptValues_sorted (options : List (Option Int)) (h : Narrow (enumValues options)) :
    (keptValues options).Pairwise (· ≤ ·) := by
  have hp := qsort_perm compareValues (enumValues options)
  refine inOrder_pairwise (cmp := compareValues) _ ?_ (fun a b c => Int.le_trans)
    (qsort_inOrder compareValues_swap _)
  intro a ha b hb hle
  have h1 := h a (hp.subset ha) b (hp.subset hb)
  have h2 := h b (hp.subset hb) a (hp.subset ha)
  unfold compareValues toI32 at hle
  omega

/-- What is missing of C122: enumerations whose values are 2^31 or more apart, see
`far_values_are_swapped`. **C122** for the others: the default value of an enumeration is the
smallest of the values of its options. -/
theorem default_is_smallest_partial (options : List (Option Int)) (hne : options ≠ [])
    (h : Narrow (enumValues options)) :
    ∃ d, defaultValue options = some d ∧ d ∈ enumValues options ∧
      ∀ v ∈ enumValues options, d ≤ v := by
  have hp := qsort_perm compareValues (enumValues options)
  have hs := keptValues_sorted options h
  unfold defaultValue
  have hk : keptValues options ≠ [] := by
    intro he
    have := hp.length_eq
    unfold keptValues at he
    rw [he] at this
    have h2 := optionValues_length 0 options
    unfold enumValues at this
    have : options.length = 0 := by simp at this; omega
    exact hne (List.length_eq_zero_iff.mp this)
  match hkv : keptValues options, hk with
  | d :: l, _ =>
    rw [hkv] at hs
    refine ⟨d, rfl, hp.subset (by show d ∈ keptValues options; rw [hkv]; exact .head _), ?_⟩
    intro v hv
    have hv' : v ∈ keptValues options := hp.symm.subset hv
    rw [hkv] at hv'
    rcases List.mem_cons.mp hv' with rfl | hv'
    · exact Int.le_refl _
    · exact (List.pairwise_cons.mp hs).1 v hv'

example : Narrow (enumValues [some 7, none, some 3]) ∧ defaultValue [some 7, none, some 3] = some 3 :=
  ⟨by decide +kernel, by
    obtain ⟨d, h1, h2, h3⟩ := default_is_smallest_partial [some 7, none, some 3] (by simp)
      (by decide +kernel)
    have h4 := h3 3 (by decide)
    have : d = 3 := by simp [enumValues, optionValues] at h2; omega
    rw [h1, this]⟩

/-- Two options in either order: the larger value is more than 2^31 above the smaller one, by less
than 2^32. -/
theorem kept_pair (a b : Int) : keptValues [some a, some b] =
    if compareValues a b ≤ 0 then [a, b] else [b, a] := by
  unfold keptValues qsort
  simp only [enumValues, optionValues, List.length_cons, List.length_nil, msort]
  by_cases h : compareValues a b ≤ 0 <;> simp [merge, h]

/-- C122 is false of the code: when the values of two options are more than 2^31 and less than 2^32
apart, the default of the enumeration is the larger one, in whichever order they are declared. -/
theorem far_values_are_swapped (a b : Int) (h1 : 2 ^ 31 < b - a) (h2 : b - a < 2 ^ 32) :
    defaultValue [some a, some b] = some b ∧ defaultValue [some b, some a] = some b ∧
    a ∈ enumValues [some a, some b] ∧ a < b := by
  have e1 : ¬ compareValues a b ≤ 0 := by unfold compareValues toI32; omega
  have e2 : compareValues b a ≤ 0 := by unfold compareValues toI32; omega
  unfold defaultValue
  rw [kept_pair, kept_pair, if_neg e1, if_pos e2]
  exact ⟨rfl, rfl, by simp [enumValues, optionValues], by omega⟩

example : (2 : Int) ^ 31 < 3000000000 - 0 ∧ (3000000000 : Int) - 0 < 2 ^ 32 := by decide

/-! ## Switching on an enumeration -/

theorem toU64_of (v : Int) (h1 : -9223372036854775808 ≤ v) (h2 : v < 9223372036854775808) :
    (0 ≤ v → (Prim.toU64 v : Int) = v) ∧ (v < 0 → (Prim.toU64 v : Int) = v + 18446744073709551616) := by
  unfold Prim.toU64
  constructor <;> intro h <;> omega

theorem getLast_max (l : List Int) (hs : l.Pairwise (· ≤ ·)) (s : Int) (h : l.getLast? = some s) :
    ∀ v ∈ l, v ≤ s := by
  obtain ⟨l', rfl⟩ : ∃ l', l = l' ++ [s] := by
    refine ⟨l.dropLast, ?_⟩
    have hne : l ≠ [] := by rintro rfl; simp at h
    rw [List.getLast?_eq_some_getLast hne] at h
    injection h with h
    rw [← h, List.dropLast_concat_getLast]
  intro v hv
  rcases List.mem_append.mp hv with hv | hv
  · exact (List.pairwise_append.mp hs).2.2 v hv s (by simp)
  · simp at hv; omega

/-- **C122.** Which options can be a case of a `switch` on their enumeration, when no two values are
2^31 or more apart: those that are not negative, and all of them when all are negative. The `i64`
range of the values is what the language allows. -/
theorem option_as_case_iff (options : List (Option Int)) (h : Narrow (enumValues options))
    (hr : ∀ v ∈ enumValues options, -2 ^ 63 ≤ v ∧ v < 2 ^ 63) (v : Int)
    (hv : v ∈ enumValues options) :
    enumCaseAccepted options v = true ↔ (0 ≤ v ∨ ∀ w ∈ enumValues options, w < 0) := by
  have hp := qsort_perm compareValues (enumValues options)
  have hs := keptValues_sorted options h
  have hv' : v ∈ keptValues options := hp.symm.subset hv
  have hne : keptValues options ≠ [] := by intro he; rw [he] at hv'; cases hv'
  have hl := List.getLast?_eq_some_getLast hne
  have hmax := getLast_max _ hs _ hl
  have hsm : (keptValues options).getLast hne ∈ enumValues options :=
    hp.subset (List.getLast_mem hne)
  generalize (keptValues options).getLast hne = s at hl hmax hsm
  have hf : ∃ f, (keptValues options).head? = some f ∧ f ≤ v := by
    match hk : keptValues options, hne with
    | f :: l, _ =>
      refine ⟨f, rfl, ?_⟩
      rw [hk] at hv' hs
      rcases List.mem_cons.mp hv' with rfl | hv'
      · exact Int.le_refl _
      · exact (List.pairwise_cons.mp hs).1 v hv'
  obtain ⟨f, hf, hfv⟩ := hf
  simp only [enumCaseAccepted, enumMinMax, hf, hl, Bool.and_eq_true, decide_eq_true_eq]
  have r1 := hr v hv
  have r2 := hr s hsm
  have r3 := hmax v hv'
  have u1 := toU64_of v (by omega) (by omega)
  have u2 := toU64_of s (by omega) (by omega)
  constructor
  · rintro ⟨h1, _⟩
    by_cases h0 : 0 ≤ v
    · exact .inl h0
    · refine .inr fun w hw => ?_
      have r4 := hmax w (hp.symm.subset hw)
      omega
  · rintro (h0 | h0)
    · exact ⟨by omega, hfv⟩
    · have := h0 s hsm
      have := h0 v hv
      exact ⟨by omega, hfv⟩

/-- C122 is false of the code: an option with a negative value cannot be a case of a `switch` as
soon as another option is not negative. -/
theorem negative_option_is_no_case (options : List (Option Int)) (h : Narrow (enumValues options))
    (hr : ∀ v ∈ enumValues options, -2 ^ 63 ≤ v ∧ v < 2 ^ 63) (v w : Int)
    (hv : v ∈ enumValues options) (hw : w ∈ enumValues options) (h1 : v < 0) (h2 : 0 ≤ w) :
    enumCaseAccepted options v = false := by
  rw [← Bool.not_eq_true, option_as_case_iff options h hr v hv]
  rintro (h3 | h3)
  · omega
  · have := h3 w hw; omega

example : enumCaseAccepted [some (-1), none, none] (-1) = false :=
  negative_option_is_no_case _ (by decide +kernel) (by decide +kernel) (-1) 0 (by decide) (by decide)
    (by decide) (by decide)

/-- C122 is false of the code: when two values are far apart, neither option can be a case. -/
theorem far_options_are_no_cases (a b : Int) (h0 : 0 ≤ a) (h1 : 2 ^ 31 < b - a)
    (h2 : b - a < 2 ^ 32) (h3 : b < 2 ^ 63) :
    enumCaseAccepted [some a, some b] a = false ∧ enumCaseAccepted [some a, some b] b = false := by
  have e1 : ¬ compareValues a b ≤ 0 := by unfold compareValues toI32; omega
  simp only [enumCaseAccepted, enumMinMax, kept_pair, if_neg e1, List.head?_cons,
    List.getLast?_cons_cons, List.getLast?_singleton, Bool.and_eq_false_iff,
    decide_eq_false_iff_not]
  have u1 := (toU64_of a (by omega) (by omega)).1 (by omega)
  have u2 := (toU64_of b (by omega) (by omega)).1 (by omega)
  omega

end Verif.Lookup
