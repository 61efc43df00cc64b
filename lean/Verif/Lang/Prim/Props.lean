import Verif.Lang.Prim.Spec
/-! # C21, C22, C23: implicit assignment, promotion, switch-case ranges, literal types -/
namespace Verif.Prim
open Prim

/-! ## C21 -/

/-- An implicit integer assignment that the type checker accepts keeps every value, unless it goes
from a signed type to an unsigned one. -/
theorem assignable_keeps_value_partial (to from_ : Prim) (hto : isInteger to = true)
    (hfrom : isInteger from_ = true) (hs : ¬ (isSignedInteger from_ = true ∧ isUnsigned to = true))
    (h : assignable to from_ = true) (v : Int) (hv : Holds from_ v) : Holds to v := by
  cases to <;> cases from_ <;>
    simp_all [isInteger, isSignedInteger, isUnsigned, assignable, size, Holds] <;> omega

/-- Conversely every value-preserving integer assignment is accepted. -/
theorem value_preserving_is_assignable (to from_ : Prim) (hto : isInteger to = true)
    (hfrom : isInteger from_ = true) (h : ∀ v, Holds from_ v → Holds to v) :
    assignable to from_ = true := by
  have h1 := h 0
  have h2 := h (-1)
  have h3 := h 128
  have h4 := h (2 ^ 15)
  have h5 := h (2 ^ 31)
  have h6 := h (2 ^ 63)
  have h7 := h (2 ^ 8)
  have h8 := h (2 ^ 16)
  have h9 := h (2 ^ 32)
  clear h
  revert h1 h2 h3 h4 h5 h6 h7 h8 h9 hto hfrom
  cases to <;> cases from_ <;> decide +kernel

example : assignable i32 u16 = true ∧ Holds u16 65535 ∧ assignable u64 u8 = true := by decide

/-- C21 is false of the code: every unsigned type accepts every signed type of at most its size, so
`-1` is assigned to an unsigned variable without a cast. -/
theorem unsigned_accepts_negative (to from_ : Prim) (hto : isUnsigned to = true)
    (hfrom : isSignedInteger from_ = true) (hle : size from_ ≤ size to) :
    assignable to from_ = true ∧ Holds from_ (-1) ∧ ¬ Holds to (-1) := by
  revert hto hfrom hle
  cases to <;> cases from_ <;> decide

example : isUnsigned u8 = true ∧ isSignedInteger i8 = true ∧ size i8 ≤ size u8 := by decide

/-! ## C22 -/

/-- When two integer types have the same signedness, or the signed one is strictly bigger, the
promoted type does not depend on the operand order and holds every value of both operands. -/
theorem promote_sound_partial (l r : Prim) (hl : isInteger l = true) (hr : isInteger r = true)
    (hs : isUnsigned l = isUnsigned r ∨ (isUnsigned l = true ∧ size l < size r) ∨
      (isUnsigned r = true ∧ size r < size l)) :
    ∃ t, promote l r = some t ∧ promote r l = some t ∧
      ∀ v, Holds l v ∨ Holds r v → Holds t v := by
  cases l <;> cases r <;>
    simp_all [isInteger, isSignedInteger, isUnsigned, promote, size, Holds] <;> omega

example : isInteger u8 = true ∧ isInteger i32 = true ∧ isUnsigned u8 = true ∧ size u8 < size i32 := by
  decide

/-- In all other cases the promoted type loses a value of one operand. -/
theorem promote_loses_value (l r : Prim) (hl : isInteger l = true) (hr : isInteger r = true)
    (hs : ¬ (isUnsigned l = isUnsigned r ∨ (isUnsigned l = true ∧ size l < size r) ∨
      (isUnsigned r = true ∧ size r < size l))) :
    ∃ t v, promote l r = some t ∧ (Holds l v ∨ Holds r v) ∧ ¬ Holds t v := by
  revert hs
  cases l <;> cases r <;> first
    | (exfalso; revert hl; decide) | (exfalso; revert hr; decide) | (intro hs; exfalso; revert hs; decide)
    | (intro _; exact ⟨_, -1, rfl, by decide, by decide⟩)
    | (intro _; exact ⟨_, 128, rfl, by decide, by decide⟩)
    | (intro _; exact ⟨_, 32768, rfl, by decide, by decide⟩)
    | (intro _; exact ⟨_, 2147483648, rfl, by decide, by decide⟩)
    | (intro _; exact ⟨_, 9223372036854775808, rfl, by decide, by decide⟩)

/-- C22 is false of the code: for two types of the same size and different signedness the promoted
type is the left operand's, so it changes with the operand order. -/
theorem promote_depends_on_order (l r : Prim) (hl : isInteger l = true) (hr : isInteger r = true)
    (hs : isUnsigned l ≠ isUnsigned r) (hz : size l = size r) :
    promote l r = some l ∧ promote r l = some r ∧ l ≠ r := by
  revert hl hr hs hz
  cases l <;> cases r <;> decide

example : isUnsigned u64 ≠ isUnsigned i64 ∧ size u64 = size i64 := by decide

/-! ## Literals -/

/-- The type given to an integer literal holds the literal's value, and no smaller signed type does. -/
theorem literal_type_minimal (v : Int) (h1 : -2 ^ 63 ≤ v) (h2 : v < 2 ^ 63) :
    Holds (literalType v) v ∧
    ∀ p, isSignedInteger p = true → Holds p v → size (literalType v) ≤ size p := by
  unfold literalType
  constructor
  · split
    · simp only [Holds]; omega
    · split
      · simp only [Holds]; omega
      · split <;> simp only [Holds] <;> omega
  · intro p hp hv
    cases p <;> simp [isSignedInteger] at hp <;> simp only [Holds] at hv <;>
      split <;> (try split) <;> (try split) <;> simp only [size] <;> omega

example : literalType 128 = i16 := by decide

/-! ## C23 -/

/-- `p` has a value in the range. -/
def Matches (p : Prim) (min max : Int) : Prop := ∃ v, Holds p v ∧ min ≤ v ∧ v ≤ max

theorem interval_meets (lo hi min max : Int) (hlh : lo ≤ hi) (h : min ≤ max) :
    (decide (min ≤ hi) && decide (max ≥ lo)) = true ↔ ∃ v, (lo ≤ v ∧ v < hi + 1) ∧ min ≤ v ∧ v ≤ max := by
  simp only [Bool.and_eq_true, decide_eq_true_eq]
  constructor
  · rintro ⟨h1, h2⟩
    by_cases hm : min ≤ lo
    · exact ⟨lo, ⟨by omega, by omega⟩, hm, h2⟩
    · exact ⟨min, ⟨by omega, by omega⟩, by omega, h⟩
  · rintro ⟨v, hv⟩; omega

/-- A case range is accepted exactly when some value of the condition type lies in it, provided the
condition type is signed or the range does not start below zero. -/
theorem case_range_exact_partial (p : Prim) (hp : isIntegral p = true) (min max : Int)
    (h : min ≤ max) (hmax : max < 2 ^ 63)
    (hs : isSignedInteger p = true ∨ 0 ≤ min) :
    ∃ b, inRange p min max = some b ∧ (b = true ↔ Matches p min max) := by
  have hu : 0 ≤ min → toU64 min = min.toNat := by
    intro h0; unfold toU64; congr 1; omega
  cases p <;> simp [isIntegral, isInteger, isUnsigned, isSignedInteger, isCharacter] at hp hs
  case i8 => exact ⟨_, rfl, interval_meets (-128) 127 min max (by omega) h⟩
  case i16 => exact ⟨_, rfl, interval_meets (-32768) 32767 min max (by omega) h⟩
  case i32 => exact ⟨_, rfl, interval_meets (-2147483648) 2147483647 min max (by omega) h⟩
  case i64 => exact ⟨_, rfl, interval_meets (-9223372036854775808) 9223372036854775807 min max (by omega) h⟩
  all_goals
    refine ⟨_, rfl, ?_⟩
    simp only [isSigned, isSignedInteger, isFloat, Bool.or_self, Bool.false_eq_true, if_false, hu hs,
      Matches, Holds, Bool.and_eq_true, decide_eq_true_eq]
    constructor
    · rintro ⟨h1, h2⟩
      exact ⟨min, by omega, by omega, h⟩
    · rintro ⟨v, hv⟩
      omega

example : isIntegral i8 = true ∧ inRange i8 100 300 = some true ∧ inRange i8 128 300 = some false := by
  decide

/-- C23 is false of the code: with an unsigned condition type narrower than 64 bits, every case
range from a negative number to a non-negative one is rejected as unmatchable although it matches. -/
theorem case_range_from_negative_rejected (p : Prim) (hp : isUnsigned p = true) (hp8 : size p < 8)
    (min max : Int) (hmin : -2 ^ 63 ≤ min) (hneg : min < 0) (hmax : 0 ≤ max) :
    inRange p min max = some false ∧ Matches p min max := by
  have hu : toU64 min = (min + 18446744073709551616).toNat := by
    unfold toU64; congr 1; omega
  cases p <;> simp [isUnsigned, size] at hp hp8
  all_goals
    constructor
    · simp only [inRange, minMax, Option.map_some, isSigned, isSignedInteger, isFloat, Bool.or_self,
        Bool.false_eq_true, if_false, hu]
      have : ¬ (min + 18446744073709551616).toNat ≤ 4294967295 := by omega
      simp; omega
    · exact ⟨0, by simp [Holds], by omega, by omega⟩

example : isUnsigned u8 = true ∧ size u8 < 8 ∧ inRange u8 (-1) 5 = some false := by decide

end Verif.Prim
