import Mathlib.Data.Int.Log
import Mathlib.Algebra.Order.Round
import Mathlib.Data.Rat.Floor
import Mathlib.Tactic.Linarith
import Mathlib.Tactic.FieldSimp
import Mathlib.Tactic.Positivity
import Mathlib.Tactic.NormNum
import Verif.Lang.CLit.Model
import Verif.Lang.Prim.Spec
/-! # C169, C170: numbers keep their value in C -/
namespace Verif.CLit
open Verif.Prim (Prim Holds isInteger)

/-! ## Integers -/

theorem decimal_snoc (c : Nat) : ∀ (xs : List Nat) (acc : Nat), decimal acc (xs ++ [c]) =
    (decimal acc xs).bind fun v => if Text.isDigit c then some (10 * v + (c - 48)) else none
  | [], acc => rfl
  | x :: xs, acc => by
    simp only [List.cons_append, decimal]
    split
    · exact decimal_snoc c xs _
    · rfl

theorem decimal_digits (n : Nat) : decimal 0 (digits n) = some n := by
  induction n using Nat.strongRecOn with
  | _ n ih =>
    rw [digits]
    split
    · rename_i h
      have : Text.isDigit (48 + n) = true := by simp [Text.isDigit]; omega
      simp [decimal, this]
    · rename_i h
      rw [decimal_snoc, ih (n / 10) (by omega)]
      have : Text.isDigit (48 + n % 10) = true := by simp [Text.isDigit]; omega
      simp only [Option.bind_some, this, if_true]
      congr 1; omega

theorem digits_ne (n : Nat) : ∀ c ∈ digits n, 48 ≤ c ∧ c ≤ 57 := by
  induction n using Nat.strongRecOn with
  | _ n ih =>
    rw [digits]
    split
    · intro c hc; simp at hc; omega
    · intro c hc
      rcases List.mem_append.1 hc with h | h
      · exact ih (n / 10) (by omega) c h
      · simp at h; omega

theorem cInt_of (n : Nat) : cInt (digits n) = some (plainType n, (n : Int)) := by
  have h1 := digits_ne n
  have h2 := decimal_digits n
  have h3 : (digits n).getLast? ≠ some 117 := by
    intro h
    have := h1 117 (List.mem_of_getLast? h)
    omega
  cases hd : digits n with
  | nil => rw [digits] at hd; split at hd <;> simp at hd
  | cons c r =>
    have := h1 c (by rw [hd]; simp)
    rw [hd] at h2 h3
    unfold cInt
    split
    · rename_i heq; simp at heq; omega
    · rw [if_neg h3, h2]; rfl

/-- **C169 (partial).** C reads an integer literal of any type with the value it has, in a type that holds it. Missing: the smallest
`i64` (`smallest_literal_positive`). -/
theorem integer_literal_value_partial (t : Prim) (v : Int) (ht : isInteger t = true) (hv : Holds t v) (hmin : v ≠ -2 ^ 63) :
    ∃ ct, cInt (writeInt t v) = some (ct, v) ∧ ct.holds v := by
  have hr : -2 ^ 63 ≤ v ∧ v < 2 ^ 64 := by cases t <;> simp [Prim.isInteger, Prim.isUnsigned, Prim.isSignedInteger] at ht <;> simp [Holds] at hv <;> omega
  unfold writeInt
  by_cases h0 : v < 0
  · rw [if_pos h0]
    have hn : v.natAbs < 2 ^ 63 := by omega
    have hm : -(v.natAbs : Int) = v := by omega
    refine ⟨plainType v.natAbs, ?_, ?_⟩
    · simp only [cInt, decimal_digits, Option.map_some, hm]
      congr 2
      unfold plainType
      split
      · simp only [CT.conv, CT.signed, CT.width, if_true]
        rw [Int.bmod_eq_of_le] <;> omega
      · simp only [CT.conv, CT.signed, CT.width, if_true]
        rw [Int.bmod_eq_of_le] <;> omega
    · unfold plainType
      split
      · simp [CT.holds, CT.signed, CT.width]; omega
      · simp [CT.holds, CT.signed, CT.width]; omega
  · rw [if_neg h0]
    have hm : (v.natAbs : Int) = v := by omega
    by_cases hu : Prim.isUnsigned t = true
    · rw [if_pos hu]
      refine ⟨unsignedType v.natAbs, ?_, ?_⟩
      · have hc : ∀ r, digits v.natAbs ++ [117] ≠ 45 :: r := by
          intro r h
          cases hd : digits v.natAbs with
          | nil => rw [digits] at hd; split at hd <;> simp at hd
          | cons c r' =>
            have := digits_ne v.natAbs c (by rw [hd]; simp)
            rw [hd] at h
            simp at h; omega
        unfold cInt
        split
        · rename_i heq; exact absurd heq (hc _)
        · simp [decimal_digits, hm]
      · unfold unsignedType
        split <;> simp [CT.holds, CT.signed, CT.width] <;> omega
    · rw [if_neg hu, cInt_of]
      refine ⟨plainType v.natAbs, by rw [hm], ?_⟩
      have : v < 2 ^ 63 := by cases t <;> simp [Prim.isInteger, Prim.isUnsigned, Prim.isSignedInteger] at ht hu <;> simp [Holds] at hv <;> omega
      unfold plainType
      split
      · simp [CT.holds, CT.signed, CT.width]; omega
      · rw [if_pos (by omega)]; simp [CT.holds, CT.signed, CT.width]; omega

example : isInteger .u16 = true ∧ Holds .u16 40000 ∧ (40000 : Int) ≠ -2 ^ 63 ∧
    writeInt .u16 40000 = [52, 48, 48, 48, 48, 117] := by
  refine ⟨rfl, by decide, by decide, ?_⟩
  simp [writeInt, Prim.isUnsigned, digits]

/-- **C169 fails for the smallest `i64`**: C reads the digits as an unsigned number first, so the literal is positive. -/
theorem smallest_literal_positive : Holds .i64 (-2 ^ 63) ∧ cInt (writeInt .i64 (-2 ^ 63)) = some (.ulong, 2 ^ 63) := by
  refine ⟨by decide, ?_⟩
  have h : ((-2 ^ 63 : Int)).natAbs = 2 ^ 63 := by decide
  rw [writeInt, if_pos (by decide), h]
  simp only [cInt, decimal_digits, Option.map_some]
  decide

/-! ## Floating point -/

/-- format.c 144: `%e` writes seven digits and the power of ten of the first; the pair is (the seven digits, the exponent). For positive
numbers; ties are rounded up here, and by the rounding mode in the C library. -/
def showE (x : ℚ) : ℤ × ℤ :=
  let e := Int.log 10 x
  let m := round (x / 10 ^ (e - 6))
  if m = 10 ^ 7 then (10 ^ 6, e + 1) else (m, e)

/-- The number the seven digits and the exponent stand for. -/
def readE (p : ℤ × ℤ) : ℚ := p.1 * 10 ^ (p.2 - 6)

theorem round_near (x : ℚ) (m : ℤ) (h : |x - m| < 1 / 2) : round x = m := by
  rw [abs_lt] at h
  rw [round_eq, Int.floor_eq_iff]
  constructor <;> linarith [h.1, h.2]

theorem ten_pow_pos (e : ℤ) : (0 : ℚ) < 10 ^ e := zpow_pos (by norm_num) e

theorem ten_split (e k : ℤ) : (10 : ℚ) ^ (e + k) = 10 ^ e * 10 ^ k := zpow_add₀ (by norm_num) e k

theorem log_of (x : ℚ) (e : ℤ) (h1 : (10 : ℚ) ^ e ≤ x) (h2 : x < 10 ^ (e + 1)) : Int.log 10 x = e := by
  have hx : 0 < x := lt_of_lt_of_le (ten_pow_pos e) h1
  have a := (Int.zpow_le_iff_le_log (b := 10) (by norm_num) hx (x := e)).1 (by exact_mod_cast h1)
  have b := (Int.lt_zpow_iff_log_lt (b := 10) (by norm_num) hx (x := e + 1)).1 (by exact_mod_cast h2)
  omega

/-- A number nearer than half a unit of the seventh digit is written as these digits. -/
theorem showE_near (x : ℚ) (m e : ℤ) (h1 : 10 ^ 6 ≤ m) (h2 : m < 10 ^ 7) (hx : (10 : ℚ) ^ e ≤ x)
    (h : |x - readE (m, e)| < 10 ^ (e - 6) / 2) : showE x = (m, e) := by
  have hu := ten_pow_pos (e - 6)
  have e6 : (10 : ℚ) ^ (e + 1) = 10 ^ (e - 6) * 10 ^ 7 := by
    have := ten_split (e - 6) 7
    rw [show e - 6 + 7 = e + 1 by ring] at this
    rw [this]; norm_num
  have hm : (m : ℚ) ≤ 10 ^ 7 - 1 := by
    have : m ≤ 10 ^ 7 - 1 := by omega
    exact_mod_cast this
  have hlt : x < 10 ^ (e + 1) := by
    rw [abs_lt] at h
    have := h.2
    simp only [readE] at this
    rw [e6]
    nlinarith
  have hl := log_of x e hx hlt
  have hr : round (x / 10 ^ (e - 6)) = m := by
    apply round_near
    have : x / 10 ^ (e - 6) - m = (x - readE (m, e)) / 10 ^ (e - 6) := by
      simp only [readE]; field_simp
    rw [this, abs_div, abs_of_pos hu, div_lt_iff₀ hu]
    linarith
  unfold showE
  simp only [hl, hr]
  rw [if_neg (by omega)]

theorem showE_below (x : ℚ) (e : ℤ) (hx : x < 10 ^ e) (h : |x - 10 ^ e| < 10 ^ (e - 7) / 2) :
    showE x = (10 ^ 6, e) := by
  have hu := ten_pow_pos (e - 7)
  have e7 : (10 : ℚ) ^ e = 10 ^ (e - 7) * 10 ^ 7 := by
    have := ten_split (e - 7) 7
    rw [show e - 7 + 7 = e by ring] at this
    rw [this]; norm_num
  have e1 : (10 : ℚ) ^ (e - 1) = 10 ^ (e - 7) * 10 ^ 6 := by
    have := ten_split (e - 7) 6
    rw [show e - 7 + 6 = e - 1 by ring] at this
    rw [this]; norm_num
  rw [abs_lt] at h
  have hl := log_of x (e - 1) (by rw [e1]; rw [e7] at h; nlinarith [h.1]) (by simpa using hx)
  have hr : round (x / 10 ^ (e - 1 - 6)) = 10 ^ 7 := by
    rw [show e - 1 - 6 = e - 7 by ring]
    apply round_near
    have : x / 10 ^ (e - 7) - ((10 ^ 7 : ℤ) : ℚ) = (x - 10 ^ e) / 10 ^ (e - 7) := by
      rw [e7]; push_cast; field_simp; norm_num
    rw [this, abs_div, abs_of_pos hu, div_lt_iff₀ hu, abs_lt]
    constructor <;> linarith [h.1, h.2]
  unfold showE
  simp only [hl, hr, if_true]
  ring_nf

/-- **C170 (partial).** A floating-point literal of at most seven digits keeps its value: whatever number `fl` the literal is rounded to
(within one part in 2^53, as for every normal double), C reads the text as that number. Missing: longer literals
(`digits_behind_seventh_lost`), subnormal numbers, negative numbers (written with a sign in front). -/
theorem float_literal_value_partial (fl : ℚ → ℚ) (m e : ℤ) (h1 : 10 ^ 6 ≤ m) (h2 : m < 10 ^ 7)
    (hfl : |fl (readE (m, e)) - readE (m, e)| ≤ readE (m, e) / 2 ^ 53) :
    readE (showE (fl (readE (m, e)))) = readE (m, e) := by
  have hu := ten_pow_pos (e - 6)
  have hm : (m : ℚ) < 10 ^ 7 := by exact_mod_cast h2
  have hm1 : (10 ^ 6 : ℚ) ≤ m := by exact_mod_cast h1
  have e6 : (10 : ℚ) ^ e = 10 ^ (e - 6) * 10 ^ 6 := by
    have := ten_split (e - 6) 6
    rw [show e - 6 + 6 = e by ring] at this
    rw [this]; norm_num
  have hq : readE (m, e) < 10 ^ (e - 6) * 10 ^ 7 := by simp only [readE]; nlinarith
  have small : |fl (readE (m, e)) - readE (m, e)| < 10 ^ (e - 6) / 20 := by
    refine lt_of_le_of_lt hfl ?_
    rw [div_lt_iff₀ (by positivity)]
    nlinarith
  by_cases hx : (10 : ℚ) ^ e ≤ fl (readE (m, e))
  · rw [showE_near _ m e h1 h2 hx (by linarith)]
  · have hx' := lt_of_not_ge hx
    have hmm : m = 10 ^ 6 := by
      rcases lt_or_eq_of_le h1 with h | h
      · exfalso
        have : (10 ^ 6 + 1 : ℚ) ≤ m := by exact_mod_cast h
        rw [abs_lt] at small
        have s := small.1
        have : (10 : ℚ) ^ (e - 6) * (10 ^ 6 + 1) ≤ readE (m, e) := by simp only [readE]; nlinarith
        rw [e6] at hx'
        nlinarith
      · exact h.symm
    have hq' : readE (m, e) = 10 ^ e := by
      rw [hmm, e6]; simp only [readE]; push_cast; ring
    have e7 : (10 : ℚ) ^ (e - 6) = 10 ^ (e - 7) * 10 := by
      have := ten_split (e - 7) 1
      rw [show e - 7 + 1 = e - 6 by ring] at this
      rw [this]; norm_num
    rw [showE_below _ e hx' (by rw [← hq']; rw [e7] at small; linarith), hmm]

/-- 0.1, which no double is equal to: the nearest one is written `1.000000e-01`. -/
example : let x : ℚ := 3602879701896397 / 2 ^ 55
    |x - readE (10 ^ 6, -1)| ≤ readE (10 ^ 6, -1) / 2 ^ 53 ∧ readE (10 ^ 6, -1) = 1 / 10 := by
  norm_num [readE, abs_le]

/-- **C170 fails for longer literals**: what is behind the seventh digit is lost. All numbers nearer than half a unit of the seventh
digit to the same seven digits are the same number in C, whatever C rounds the text to. -/
theorem digits_behind_seventh_lost (m e : ℤ) (h1 : 10 ^ 6 ≤ m) (h2 : m < 10 ^ 7) (x : ℚ) (hx : (10 : ℚ) ^ e ≤ x)
    (h : |x - readE (m, e)| < 10 ^ (e - 6) / 2) : readE (showE x) = readE (m, e) := by
  rw [showE_near x m e h1 h2 hx h]

/-- 3.14159265 is 3.141593 in C. -/
example : (10 : ℚ) ^ (0 : ℤ) ≤ 3.14159265 ∧ |(3.14159265 : ℚ) - readE (3141593, 0)| < 10 ^ (0 - 6 : ℤ) / 2 ∧
    readE (3141593, 0) ≠ 3.14159265 := by
  norm_num [readE, abs_lt]

end Verif.CLit
