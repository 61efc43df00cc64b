import Verif.Driver.CommandLine.Spec
import Verif.Common.Decimal
/-!
# Numbers on the command line (`--max-errors`)
-/
namespace Verif.CommandLine

/-- The conversion of a `double` which is an integer to a signed type with bound `b` (undefined when it does not fit), and
then to an unsigned one with bound `m`. -/
def convert (b m : Nat) (n : Int) : Option Nat := if -(b : Int) ≤ n ∧ n < b then some (n % m).toNat else none

def intBound : Nat := 2 ^ 31
def sizeBound : Nat := 2 ^ 64

/-- options.c 489: `log->maxErrors = getGlobalInt(cmd, 0)`, from `double` to `int` to `size_t`. -/
def errorLimit : Val → Option Nat
  | .num n => convert intBound sizeBound n
  | _ => none

/-- What `--max-errors=s` does: refused, undefined, or a limit. -/
inductive Limit where
  | refused
  | undefined
  | limit (n : Nat)
  deriving DecidableEq, Repr

def maxErrors (s : Str) : Limit :=
  match validate .int (bytes "max-errors") .unset s with
  | .ok v => match errorLimit v with
    | some n => .limit n
    | none => .undefined
  | .fail _ => .refused
  | .ub => .undefined

/-! ### Specification -/

/-- A number written in decimal. -/
def numeral (n : Nat) : Str := (decimal n).map BitVec.toNat

/-- The value of digits in a base. -/
def valueIn (base : Nat) (s : Str) : Nat := s.foldl (fun a c => a * base + (c - 48)) 0

theorem digits_all (base : Nat) (hb : base ≤ 10) : ∀ (s : Str) (acc k : Nat), (∀ c ∈ s, 48 ≤ c ∧ c < 48 + base) →
    digits base acc k s = (s.foldl (fun a c => a * base + (c - 48)) acc, k + s.length, [])
  | [], _, _, _ => rfl
  | c :: s, acc, k, h => by
    have hc := h c (by simp)
    have hd : digit base c = some (c - 48) := by
      have : isDigit c = true := by simp [isDigit]; omega
      simp only [digit, this, if_true, Option.bind_some]
      rw [if_pos (by omega)]
    rw [digits, hd]
    simp only
    rw [digits_all base hb s _ _ fun x hx => h x (List.mem_cons_of_mem _ hx)]
    simp only [List.foldl_cons, List.length_cons, Nat.add_assoc, Nat.add_comm 1]

theorem digit_not_space {c : Nat} (h : 48 ≤ c) : isSpace c = false := by
  simp [isSpace]; omega

theorem strtoll_decimal {c : Nat} {s : Str} (h1 : 49 ≤ c ∧ c ≤ 57) (h2 : ∀ x ∈ s, 48 ≤ x ∧ x ≤ 57) :
    strtoll (c :: s) = if valueIn 10 (c :: s) < llBound then some ((valueIn 10 (c :: s) : Int), []) else none := by
  have hd : (c :: s).dropWhile isSpace = c :: s := by
    rw [List.dropWhile_cons, digit_not_space (by omega)]; rfl
  have hr : radix (c :: s) = (10, c :: s) := by
    unfold radix
    split
    · rename_i heq; simp only [List.cons.injEq] at heq; omega
    · rename_i heq; simp only [List.cons.injEq] at heq; omega
    · rfl
  have ha := digits_all 10 (by omega) (c :: s) 0 0 (by
    intro x hx
    rcases List.mem_cons.1 hx with rfl | hx
    · omega
    · have := h2 x hx; omega)
  unfold strtoll
  rw [hd]
  simp only
  split
  · rename_i heq'; simp only [List.cons.injEq] at heq'; omega
  · rename_i heq'; simp only [List.cons.injEq] at heq'; omega
  · rw [hr]
    simp only [ha]
    simp [valueIn]

theorem strtoll_octal {s : Str} (h : ∀ x ∈ s, 48 ≤ x ∧ x ≤ 55) :
    strtoll (48 :: s) = if valueIn 8 s < llBound then some ((valueIn 8 s : Int), []) else none := by
  have hd : (48 :: s).dropWhile isSpace = 48 :: s := by
    rw [List.dropWhile_cons, digit_not_space (by omega)]; rfl
  have hr : radix (48 :: s) = (8, 48 :: s) := by
    unfold radix
    split
    · rename_i x c rest heq
      simp only [List.cons.injEq, true_and] at heq
      subst heq
      have := h x (by simp)
      rw [if_neg (by omega)]
    · rename_i heq; simp only [List.cons.injEq, true_and] at heq; subst heq; rfl
    · rename_i h1; exact absurd rfl (h1 s)
  have ha := digits_all 8 (by omega) (48 :: s) 0 0 (by
    intro x hx
    rcases List.mem_cons.1 hx with rfl | hx
    · omega
    · have := h x hx; omega)
  unfold strtoll
  rw [hd]
  simp only
  rw [hr]
  simp only [ha]
  simp [valueIn]
  rfl

theorem decimal_head (n : Nat) (h : n ≠ 0) : ∃ b l, decimal n = b :: l ∧ 49 ≤ b.toNat := by
  revert h
  refine decimal_induction (P := fun n => n ≠ 0 → ∃ b l, decimal n = b :: l ∧ 49 ≤ b.toNat) ?_ ?_ n
  · intro n hn h0
    rw [decimal_eq, if_pos hn]
    exact ⟨_, [], rfl, by rw [digitByte_toNat]; omega⟩
  · intro n hn ih _
    obtain ⟨b, l, h1, h2⟩ := ih (by omega)
    rw [decimal_eq, if_neg hn, h1]
    exact ⟨b, _, rfl, h2⟩

theorem numeral_digits (n : Nat) : ∀ x ∈ numeral n, 48 ≤ x ∧ x ≤ 57 := by
  intro x hx
  obtain ⟨b, hb, rfl⟩ := List.mem_map.1 hx
  have := decimal_digits n b hb
  simpa [isDigitByte] using this

theorem foldl_map_toNat (l : List (BitVec 8)) (acc : Nat) :
    (l.map BitVec.toNat).foldl (fun a c => a * 10 + (c - 48)) acc = l.foldl (fun a b => a * 10 + (b.toNat - 48)) acc := by
  induction l generalizing acc with
  | nil => rfl
  | cons b l ih => simp only [List.map_cons, List.foldl_cons, ih]

theorem numeral_value (n : Nat) : valueIn 10 (numeral n) = n := by
  rw [valueIn, numeral, foldl_map_toNat]
  exact decimalValue_decimal n

theorem strtoll_numeral (n : Nat) : strtoll (numeral n) = if n < llBound then some ((n : Int), []) else none := by
  by_cases h : n = 0
  · subst h; decide
  · obtain ⟨b, l, h1, h2⟩ := decimal_head n h
    have hm : numeral n = b.toNat :: l.map BitVec.toNat := by rw [numeral, h1]; rfl
    have hd := numeral_digits n
    have hv := numeral_value n
    rw [hm] at hd hv ⊢
    rw [strtoll_decimal ⟨h2, (hd _ (by simp)).2⟩ fun x hx => hd x (List.mem_cons_of_mem _ hx), hv]

theorem report_not_ok {α : Type} {m : Str} {v : α} : (report m : R α) ≠ .ok v := by
  unfold report; split <;> simp

theorem convert_small {b m n : Nat} (h : n < b) (hm : b ≤ m) : convert b m (n : Int) = some n := by
  rw [convert, if_pos (by omega), ← Int.natCast_emod, Int.toNat_natCast, Nat.mod_eq_of_lt (by omega)]

theorem convert_large {b m n : Nat} (h : b ≤ n) : convert b m (n : Int) = none := by
  rw [convert, if_neg (by omega)]

theorem bounds : intBound ≤ sizeBound ∧ intBound ≤ llBound := by decide

theorem maxErrors_num {s : Str} {n : Int} (h : strtoll s = some (n, [])) :
    maxErrors s = match convert intBound sizeBound n with
      | some n => .limit n
      | none => .undefined := by
  rw [maxErrors, validate, h]; rfl

/-- C131.  A number in decimal that an `int` can hold is the limit.  Missing: larger ones (`large_limit_undefined`) and
numbers with a leading zero (`leading_zero_is_octal`). -/
theorem limit_is_the_number_partial (n : Nat) (h : n < intBound) : maxErrors (numeral n) = .limit n := by
  have e := strtoll_numeral n
  rw [if_pos (Nat.lt_of_lt_of_le h bounds.2)] at e
  rw [maxErrors_num e, convert_small h bounds.1]

/-- C131 fails: a number from 2 ^ 31 to 2 ^ 63 - 1 is read and then does not fit. -/
theorem large_limit_undefined (n : Nat) (h1 : intBound ≤ n) (h2 : n < llBound) : maxErrors (numeral n) = .undefined := by
  have e := strtoll_numeral n
  rw [if_pos h2] at e
  rw [maxErrors_num e, convert_large h1]

/-- C131 fails: after a leading zero the digits are octal. -/
theorem leading_zero_is_octal (s : Str) (h : ∀ x ∈ s, 48 ≤ x ∧ x ≤ 55) (hv : valueIn 8 s < intBound) :
    maxErrors (48 :: s) = .limit (valueIn 8 s) := by
  have e := strtoll_octal h
  rw [if_pos (Nat.lt_of_lt_of_le hv bounds.2)] at e
  rw [maxErrors_num e, convert_small hv bounds.1]

/-- C131 fails: an empty value is read as 0. -/
theorem empty_limit_is_zero : maxErrors [] = .limit 0 := by decide

example : maxErrors (bytes "25") = .limit 25 := by
  have h : bytes "25" = numeral 25 := by decide
  rw [h]
  exact limit_is_the_number_partial 25 (by decide)

example : maxErrors (bytes "010") = .limit 8 :=
  leading_zero_is_octal (bytes "10") (by decide) (by decide)

end Verif.CommandLine
