import Verif.Lang.Lookup.Sort
import Verif.Lang.Prim.Spec
/-! # Cases of a switch -/
namespace Verif.Lookup
open Verif

/-- The values that a case matches. -/
def Covers : Match → Int → Prop
  | .lit v, x => x = v
  | .range a b, x => a ≤ x ∧ x ≤ b

/-- No value is matched by both cases. -/
def Apart (m n : Match) : Prop := ¬ ∃ x, Covers m x ∧ Covers n x

/-- A literal. -/
def Match.IsLit : Match → Prop
  | .lit _ => True
  | .range _ _ => False

/-- A range that is not empty. -/
def Match.IsRange : Match → Prop
  | .lit _ => False
  | .range a b => a ≤ b

theorem compareMatch_swap (m n : Match) (h : 0 < compareMatch m n) : compareMatch n m ≤ 0 := by
  cases m <;> cases n <;> simp only [compareMatch, order, overlap, inRange] at h ⊢ <;>
    (repeat' split) <;> (repeat' split at h) <;> omega

/-- For two cases of the same kind the comparison gives 0 exactly when they share a value. -/
theorem compareMatch_zero (m n : Match) (h : (m.IsLit ∧ n.IsLit) ∨ (m.IsRange ∧ n.IsRange)) :
    compareMatch m n = 0 ↔ ∃ x, Covers m x ∧ Covers n x := by
  cases m with
  | lit v =>
    cases n with
    | lit w =>
      simp only [compareMatch, order, Covers]
      constructor
      · intro h'
        refine ⟨v, rfl, ?_⟩
        split at h'
        · omega
        · split at h' <;> omega
      · rintro ⟨x, rfl, rfl⟩
        simp
    | range c d => simp [Match.IsLit, Match.IsRange] at h
  | range a b =>
    cases n with
    | lit w => simp [Match.IsLit, Match.IsRange] at h
    | range c d =>
      simp only [Match.IsLit, Match.IsRange, false_and, false_or] at h
      simp only [compareMatch, overlap, Covers]
      constructor
      · intro h'
        split at h'
        · omega
        · split at h'
          · omega
          · by_cases hac : a ≤ c
            · exact ⟨c, by omega, by omega⟩
            · exact ⟨a, by omega, by omega⟩
      · rintro ⟨x, h1, h2⟩
        rw [if_neg (by omega), if_neg (by omega)]

/-- Among cases of one kind, "before" is transitive. -/
theorem compareMatch_trans (m n k : Match)
    (h : (m.IsLit ∧ n.IsLit ∧ k.IsLit) ∨ (m.IsRange ∧ n.IsRange ∧ k.IsRange))
    (h1 : compareMatch m n < 0) (h2 : compareMatch n k < 0) : compareMatch m k < 0 := by
  cases m <;> cases n <;> cases k <;> simp [Match.IsLit, Match.IsRange] at h
  · simp only [compareMatch, order] at *
    split at h1
    · split at h2
      · rw [if_pos (by omega)]; omega
      · split at h2 <;> omega
    · split at h1 <;> omega
  · simp only [compareMatch, overlap] at *
    split at h1
    · split at h2
      · rw [if_pos (by omega)]; omega
      · split at h2 <;> omega
    · split at h1 <;> omega

theorem strict_pairwise (l : List Match)
    (h : (∀ m ∈ l, m.IsLit) ∨ (∀ m ∈ l, m.IsRange)) (ho : InOrder compareMatch l)
    (hd : duplicates l = false) : l.Pairwise fun a b => compareMatch a b < 0 := by
  induction l with
  | nil => exact .nil
  | cons a l ih =>
    have hl : (∀ m ∈ l, m.IsLit) ∨ (∀ m ∈ l, m.IsRange) := by
      rcases h with h | h
      · exact .inl fun m hm => h m (.tail _ hm)
      · exact .inr fun m hm => h m (.tail _ hm)
    cases l with
    | nil => exact .cons (fun b hb => by cases hb) .nil
    | cons b l =>
      simp only [duplicates, Bool.or_eq_false_iff, beq_eq_false_iff_ne] at hd
      have hp := ih hl ho.2 hd.2
      have hab : compareMatch a b < 0 := by have := ho.1; have := hd.1; omega
      refine .cons (fun c hc => ?_) hp
      rcases List.mem_cons.mp hc with rfl | hc
      · exact hab
      · refine compareMatch_trans a b c ?_ hab ((List.pairwise_cons.mp hp).1 c hc)
        rcases h with h | h
        · exact .inl ⟨h a (.head _), h b (.tail _ (.head _)), h c (.tail _ (.tail _ hc))⟩
        · exact .inr ⟨h a (.head _), h b (.tail _ (.head _)), h c (.tail _ (.tail _ hc))⟩

theorem apart_no_duplicates (l : List Match)
    (h : (∀ m ∈ l, m.IsLit) ∨ (∀ m ∈ l, m.IsRange)) (hp : l.Pairwise Apart) :
    duplicates l = false := by
  induction l with
  | nil => rfl
  | cons a l ih =>
    have hl : (∀ m ∈ l, m.IsLit) ∨ (∀ m ∈ l, m.IsRange) := by
      rcases h with h | h
      · exact .inl fun m hm => h m (.tail _ hm)
      · exact .inr fun m hm => h m (.tail _ hm)
    have hp' := List.pairwise_cons.mp hp
    cases l with
    | nil => rfl
    | cons b l =>
      simp only [duplicates, Bool.or_eq_false_iff, beq_eq_false_iff_ne]
      refine ⟨fun h0 => ?_, ih hl hp'.2⟩
      refine hp'.1 b (.head _) ((compareMatch_zero a b ?_).mp h0)
      rcases h with h | h
      · exact .inl ⟨h a (.head _), h b (.tail _ (.head _))⟩
      · exact .inr ⟨h a (.head _), h b (.tail _ (.head _))⟩

/-- What is missing of C123: switches that mix literals and ranges, see
`literal_inside_range_is_accepted`. **C123** for the others, of any number of cases in any order:
the cases are accepted exactly when no value is matched by two of them. -/
theorem cases_apart_partial (ms : List Match)
    (h : (∀ m ∈ ms, m.IsLit) ∨ (∀ m ∈ ms, m.IsRange)) :
    casesAccepted ms = true ↔ ms.Pairwise Apart := by
  have hp := qsort_perm compareMatch ms
  have hs : ∀ {a b : Match}, Apart a b → Apart b a :=
    fun hab ⟨x, h1, h2⟩ => hab ⟨x, h2, h1⟩
  have hq : (∀ m ∈ qsort compareMatch ms, m.IsLit) ∨ (∀ m ∈ qsort compareMatch ms, m.IsRange) := by
    rcases h with h | h
    · exact .inl fun m hm => h m (hp.subset hm)
    · exact .inr fun m hm => h m (hp.subset hm)
  rw [← hp.pairwise_iff hs]
  unfold casesAccepted
  rw [Bool.not_eq_true']
  constructor
  · intro hd
    have ho := qsort_inOrder (cmp := compareMatch) compareMatch_swap ms
    refine List.Pairwise.imp_of_mem ?_ (strict_pairwise _ hq ho hd)
    intro a b ha hb hlt
    exact (not_congr (compareMatch_zero a b (by
      rcases hq with hq | hq
      · exact .inl ⟨hq a ha, hq b hb⟩
      · exact .inr ⟨hq a ha, hq b hb⟩))).mp (by omega)
  · exact apart_no_duplicates _ hq

example : casesAccepted [.lit 3, .lit 1, .lit 2] = true ∧ casesAccepted [.lit 3, .lit 1, .lit 3] = false := by
  constructor
  · rw [cases_apart_partial _ (.inl (by simp [Match.IsLit]))]
    simp [Apart, Covers]
  · rw [← Bool.not_eq_true, cases_apart_partial _ (.inl (by simp [Match.IsLit]))]
    simp [Apart, Covers]

/-- C123 is false of the code: a range, a literal below it and a literal inside it, in this order,
are accepted although the last case can never be reached. -/
theorem literal_inside_range_is_accepted (a b u v : Int) (hu : u < a) (h1 : a ≤ v) (h2 : v ≤ b) :
    casesAccepted [.range a b, .lit u, .lit v] = true ∧
    ¬ [Match.range a b, .lit u, .lit v].Pairwise Apart := by
  have c1 : compareMatch (.lit u) (.lit v) = -1 := by
    simp only [compareMatch, order]; rw [if_pos (by omega)]
  have c2 : compareMatch (.range a b) (.lit u) = -1 := by
    simp only [compareMatch, inRange]; rw [if_pos hu]
  constructor
  · simp [casesAccepted, qsort, msort, merge, c1, c2, duplicates]
  · intro hp
    exact (List.pairwise_cons.mp hp).1 (.lit v) (by simp) ⟨v, ⟨h1, h2⟩, rfl⟩

example : (0 : Int) < 10 ∧ (10 : Int) ≤ 15 ∧ (15 : Int) ≤ 20 := by decide

/-! ## Types of cases -/

open Verif.Prim Verif.Prim.Prim

/-- An accepted case can match: its value is a value of the type of the condition. -/
theorem accepted_case_can_match (cond lit : Prim) (hc : isIntegral cond = true) (v : Int)
    (h2 : v < 2 ^ 63) (h : caseAccepted cond lit v = true) : Holds cond v := by
  unfold caseAccepted at h
  rw [Bool.and_eq_true] at h
  obtain ⟨_, h⟩ := h
  have hu : 0 ≤ v → toU64 v = v.toNat := by
    intro h0; unfold toU64; congr 1; omega
  cases cond <;> simp [isIntegral, isInteger, isUnsigned, isSignedInteger, isCharacter] at hc <;>
    simp [Prim.inRange, minMax, isSigned, isSignedInteger, isFloat] at h <;>
    simp only [Holds] <;> have := hu <;> omega

/-- What is missing of C124: literals whose type is not the type of the condition, see
`plain_case_accepted_iff`. **C124** for literals with a suffix: a case with a literal of the type of
the condition is accepted for every value of the type that fits in 63 bits. -/
theorem typed_case_is_accepted_partial (cond : Prim) (hc : isIntegral cond = true) (v : Int)
    (h2 : v < 2 ^ 63) (h : Holds cond v) : caseAccepted cond cond v = true := by
  unfold caseAccepted
  have ha : assignable cond cond = true := by simp [assignable]
  rw [ha, Bool.true_and]
  have hu : 0 ≤ v → toU64 v = v.toNat := by
    intro h0; unfold toU64; congr 1; omega
  cases cond <;> simp [isIntegral, isInteger, isUnsigned, isSignedInteger, isCharacter] at hc <;>
    simp only [Holds] at h <;>
    simp [Prim.inRange, minMax, isSigned, isSignedInteger, isFloat] <;>
    (try have := hu (by omega)) <;> omega

example : isIntegral u8 = true ∧ Holds u8 5 ∧ caseAccepted u8 u8 5 = true := by decide

/-- The number of bits of an integer type. -/
def bits : Prim → Nat
  | i8 | u8 => 8
  | i16 | u16 => 16
  | i32 | u32 => 32
  | _ => 64

/-- C124 is false of the code, and this is where: a literal without a suffix that is a value of the
type of the condition is accepted as a case only when it does not fit in half of the bits of a
signed condition (all values are accepted for `i8`), and when it needs the top bit of an unsigned
one (none is accepted for `u64`). -/
theorem plain_case_accepted_iff (cond : Prim) (hc : isInteger cond = true) (v : Int)
    (h2 : v < 2 ^ 63) (h : Holds cond v) :
    plainCaseAccepted cond v = true ↔
      (isSignedInteger cond = true ∧
        (cond = i8 ∨ v < -2 ^ (bits cond / 2 - 1) ∨ 2 ^ (bits cond / 2 - 1) ≤ v)) ∨
      (isUnsigned cond = true ∧ 2 ^ (bits cond - 1) ≤ v) := by
  have ht : caseAccepted cond cond v = true := by
    refine typed_case_is_accepted_partial cond ?_ v h2 h
    cases cond <;> simp_all [isInteger, isIntegral, isUnsigned, isSignedInteger]
  unfold plainCaseAccepted
  have he : caseAccepted cond (literalType v) v = assignable (literalType v) cond := by
    unfold caseAccepted at ht ⊢
    rw [Bool.and_eq_true] at ht
    rw [ht.2, Bool.and_true]
  rw [he]
  unfold literalType
  cases cond <;> simp [isInteger, isUnsigned, isSignedInteger] at hc <;> simp only [Holds] at h <;>
    (repeat' split) <;>
    simp [assignable, isInteger, isUnsigned, isSignedInteger, size, bits] <;> omega

/-- `switch (x) { case 5 => ... }` is rejected for every integer type but `i8`. -/
theorem small_case_is_rejected (cond : Prim) (hc : isInteger cond = true) (h8 : cond ≠ i8) (v : Int)
    (h0 : 0 ≤ v) (h1 : v < 128) : plainCaseAccepted cond v = false := by
  rw [← Bool.not_eq_true]
  rw [plain_case_accepted_iff cond hc v (by omega)
    (by cases cond <;> simp [isInteger, isUnsigned, isSignedInteger] at hc <;> simp only [Holds] <;> omega)]
  cases cond <;> simp [isInteger, isUnsigned, isSignedInteger, bits] at hc h8 ⊢ <;> omega

example : plainCaseAccepted i32 5 = false ∧ plainCaseAccepted i32 100000 = true ∧
    plainCaseAccepted u8 200 = true := by decide

end Verif.Lookup
