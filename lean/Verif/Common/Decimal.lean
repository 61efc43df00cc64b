/-! # Decimal rendering of natural numbers as bytes (`%llu`, `PRIu64`) -/
namespace Verif

/-- One decimal digit as an ASCII byte. -/
def digitByte (d : Nat) : BitVec 8 := BitVec.ofNat 8 (48 + d % 10)

/-- Digits of `n`, given enough fuel. -/
def decimalFuel : Nat → Nat → List (BitVec 8)
  | 0, _ => []
  | f + 1, n => if n < 10 then [digitByte n] else decimalFuel f (n / 10) ++ [digitByte n]

/-- What `printf("%" PRIu64)` writes. -/
def decimal (n : Nat) : List (BitVec 8) := decimalFuel (n + 1) n

def isDigitByte (b : BitVec 8) : Bool := decide (48 ≤ b.toNat) && decide (b.toNat ≤ 57)

/-- Reading a decimal number back. -/
def decimalValue (l : List (BitVec 8)) : Nat := l.foldl (fun a b => a * 10 + (b.toNat - 48)) 0

theorem decimalFuel_enough : ∀ f g n, n < f → n < g → decimalFuel f n = decimalFuel g n := by
  intro f
  induction f with
  | zero => intro g n h; omega
  | succ f ih =>
    intro g n hf hg
    cases g with
    | zero => omega
    | succ g =>
      unfold decimalFuel
      split
      · rfl
      · rw [ih g (n / 10) (by omega) (by omega)]

theorem decimal_eq (n : Nat) :
    decimal n = if n < 10 then [digitByte n] else decimal (n / 10) ++ [digitByte n] := by
  unfold decimal
  rw [decimalFuel]
  split
  · rfl
  · rw [decimalFuel_enough n (n / 10 + 1) (n / 10) (by omega) (by omega)]

theorem decimal_induction {P : Nat → Prop} (h1 : ∀ n, n < 10 → P n) (h2 : ∀ n, ¬ n < 10 → P (n / 10) → P n)
    (n : Nat) : P n := by
  induction n using Nat.strongRecOn with
  | _ n ih =>
    by_cases h : n < 10
    · exact h1 n h
    · exact h2 n h (ih _ (by omega))

theorem digitByte_toNat (d : Nat) : (digitByte d).toNat = 48 + d % 10 := by
  unfold digitByte
  rw [BitVec.toNat_ofNat]
  omega

theorem digitByte_isDigit (d : Nat) : isDigitByte (digitByte d) = true := by
  unfold isDigitByte
  rw [digitByte_toNat]
  simp; omega

theorem decimal_digits (n : Nat) : ∀ b ∈ decimal n, isDigitByte b = true := by
  induction n using decimal_induction with
  | h1 n h => rw [decimal_eq, if_pos h]; simp [digitByte_isDigit]
  | h2 n h ih =>
    rw [decimal_eq, if_neg h]
    intro b hb
    rcases List.mem_append.mp hb with hb | hb
    · exact ih b hb
    · simp only [List.mem_singleton] at hb
      rw [hb]; exact digitByte_isDigit n

theorem decimal_ne_nil (n : Nat) : decimal n ≠ [] := by
  rw [decimal_eq]; split <;> simp

theorem decimalValue_decimal (n : Nat) : decimalValue (decimal n) = n := by
  induction n using decimal_induction with
  | h1 n h =>
    rw [decimal_eq, if_pos h]
    simp only [decimalValue, List.foldl, digitByte_toNat]; omega
  | h2 n h ih =>
    rw [decimal_eq, if_neg h]
    unfold decimalValue at ih ⊢
    rw [List.foldl_append, ih]
    simp only [List.foldl, digitByte_toNat]; omega

theorem decimal_inj {a b : Nat} (h : decimal a = decimal b) : a = b := by
  rw [← decimalValue_decimal a, h, decimalValue_decimal]

theorem decimal_length_le (k n : Nat) (hk : 0 < k) (h : n < 10 ^ k) : (decimal n).length ≤ k := by
  induction k generalizing n with
  | zero => omega
  | succ k ih =>
    rw [decimal_eq]
    split
    · simp
    · rename_i hn
      have hk' : 0 < k := by
        cases k with
        | zero => simp at h; omega
        | succ k => omega
      have := ih (n / 10) hk' (by rw [Nat.pow_succ] at h; omega)
      simp; omega

/-- A prefix that does not end in a digit can be separated from the number after it. -/
theorem append_decimal_inj {p q : List (BitVec 8)} {a b : Nat}
    (hp : ∀ x ∈ p.getLast?, isDigitByte x = false) (hq : ∀ x ∈ q.getLast?, isDigitByte x = false)
    (h : p ++ decimal a = q ++ decimal b) : p = q ∧ a = b := by
  have key : ∀ (p : List (BitVec 8)) a, (∀ x ∈ p.getLast?, isDigitByte x = false) →
      (p ++ decimal a).reverse.takeWhile isDigitByte = (decimal a).reverse := by
    intro p a hp
    rw [List.reverse_append, List.takeWhile_append_of_pos (by
      intro x hx; exact decimal_digits a x (List.mem_reverse.mp hx))]
    rw [show p.reverse.takeWhile isDigitByte = [] from ?_, List.append_nil]
    cases hr : p.reverse with
    | nil => rfl
    | cons x r =>
      have : p.getLast? = some x := by
        have : p = (x :: r).reverse := by rw [← hr, List.reverse_reverse]
        rw [this]; simp
      simp [List.takeWhile, hp x (by rw [this]; rfl)]
  have h1 := key p a hp
  rw [h, key q b hq] at h1
  have h2 := decimal_inj (List.reverse_inj.mp h1)
  subst h2
  exact ⟨List.append_cancel_right h, rfl⟩

end Verif
