import Mathlib.Tactic.IntervalCases
/-!
# Byte swapping (`src/cxy/runtime/builtins.cxy` 88-108)

The arguments are unsigned, so `>>` is a logical shift and `<<` drops the bits that leave the type.  In `__bswap16` the
masks `0xff` are 16-bit literals, so all steps are 16 bits wide.
-/
namespace Verif.Bswap

/-- builtins.cxy 89 -/
def bswap16 (x : BitVec 16) : BitVec 16 := ((x >>> 8) &&& 0xff#16) ||| ((x &&& 0xff#16) <<< 8)

/-- builtins.cxy 92-97 -/
def bswap32 (x : BitVec 32) : BitVec 32 :=
  ((x &&& 0xff000000#32) >>> 24) ||| ((x &&& 0x00ff0000#32) >>> 8) ||| ((x &&& 0x0000ff00#32) <<< 8) |||
    ((x &&& 0x000000ff#32) <<< 24)

/-- builtins.cxy 100-109 -/
def bswap64 (x : BitVec 64) : BitVec 64 :=
  ((x &&& 0xff00000000000000#64) >>> 56) ||| ((x &&& 0x00ff000000000000#64) >>> 40) |||
    ((x &&& 0x0000ff0000000000#64) >>> 24) ||| ((x &&& 0x000000ff00000000#64) >>> 8) |||
    ((x &&& 0x00000000ff000000#64) <<< 8) ||| ((x &&& 0x0000000000ff0000#64) <<< 24) |||
    ((x &&& 0x000000000000ff00#64) <<< 40) ||| ((x &&& 0x00000000000000ff#64) <<< 56)

/-- The bytes of a value of `n` bytes, lowest first, as numbers. -/
def bytes : Nat → Nat → List Nat
  | 0, _ => []
  | n + 1, v => v % 256 :: bytes n (v / 256)

theorem bytes_length : ∀ n v, (bytes n v).length = n
  | 0, _ => rfl
  | n + 1, v => by simp [bytes, bytes_length n]

theorem bytes_get : ∀ (n v i : Nat), i < n → (bytes n v)[i]? = some (v / 256 ^ i % 256)
  | 0, _, _, h => by omega
  | n + 1, v, 0, _ => by simp [bytes]
  | n + 1, v, i + 1, h => by
    simp only [bytes, List.getElem?_cons_succ]
    rw [bytes_get n (v / 256) i (by omega), Nat.div_div_eq_div_mul, Nat.pow_succ, Nat.mul_comm]

theorem bytes_inj : ∀ (n a b : Nat), a < 256 ^ n → b < 256 ^ n → bytes n a = bytes n b → a = b
  | 0, a, b, ha, hb, _ => by simp at ha hb; omega
  | n + 1, a, b, ha, hb, h => by
    simp only [bytes, List.cons.injEq] at h
    have := bytes_inj n (a / 256) (b / 256) (Nat.div_lt_of_lt_mul (by rw [Nat.pow_succ] at ha; omega))
      (Nat.div_lt_of_lt_mul (by rw [Nat.pow_succ] at hb; omega)) h.2
    omega

theorem byte_bits {w : Nat} (x : BitVec w) (i : Nat) : x.toNat / 256 ^ i % 256 = (x.extractLsb' (8 * i) 8).toNat := by
  rw [BitVec.extractLsb'_toNat, Nat.shiftRight_eq_div_pow, Nat.pow_mul]

/-- Bit by bit, a swap that mirrors the bytes. -/
theorem reverse_of_bits {w : Nat} (n : Nat) (x y : BitVec w)
    (h : ∀ i, i < n → ∀ j, j < 8 → y.getLsbD (8 * i + j) = x.getLsbD (8 * (n - 1 - i) + j)) :
    bytes n y.toNat = (bytes n x.toNat).reverse := by
  apply List.ext_getElem?
  intro i
  by_cases hi : i < n
  · rw [bytes_get _ _ _ hi, List.getElem?_reverse (by rw [bytes_length]; exact hi), bytes_length,
      bytes_get _ _ _ (by omega), byte_bits, byte_bits]
    congr 2
    apply BitVec.eq_of_getLsbD_eq
    intro j hj
    rw [BitVec.getLsbD_extractLsb', BitVec.getLsbD_extractLsb', h i hi j hj]
  · rw [List.getElem?_eq_none (by rw [bytes_length]; omega),
      List.getElem?_eq_none (by rw [List.length_reverse, bytes_length]; omega)]

/-- One swap of 16 bits reverses the bytes. -/
theorem bswap16_reverses (x : BitVec 16) : bytes 2 (bswap16 x).toNat = (bytes 2 x.toNat).reverse := by
  apply reverse_of_bits 2
  intro i hi j hj
  unfold bswap16
  interval_cases i <;> interval_cases j <;> simp

/-- One swap of 32 bits reverses the bytes. -/
theorem bswap32_reverses (x : BitVec 32) : bytes 4 (bswap32 x).toNat = (bytes 4 x.toNat).reverse := by
  apply reverse_of_bits 4
  intro i hi j hj
  unfold bswap32
  interval_cases i <;> interval_cases j <;> simp

/-- One swap of 64 bits reverses the bytes. -/
theorem bswap64_reverses (x : BitVec 64) : bytes 8 (bswap64 x).toNat = (bytes 8 x.toNat).reverse := by
  apply reverse_of_bits 8
  intro i hi j hj
  unfold bswap64
  interval_cases i <;> interval_cases j <;> simp

theorem involutive_of_reverses {w : Nat} (n : Nat) (hw : w = 8 * n) (f : BitVec w → BitVec w)
    (h : ∀ x, bytes n (f x).toNat = (bytes n x.toNat).reverse) (x : BitVec w) : f (f x) = x := by
  apply BitVec.eq_of_toNat_eq
  have hb : ∀ y : BitVec w, y.toNat < 256 ^ n := by
    intro y
    calc y.toNat < 2 ^ w := y.isLt
      _ = 256 ^ n := by rw [hw, Nat.pow_mul]
  apply bytes_inj n _ _ (hb _) (hb _)
  rw [h, h, List.reverse_reverse]

/-- **C47.** One swap reverses the bytes and two swaps give the value back, for every 16, 32 and 64-bit value. -/
theorem bswap_involution :
    (∀ x, bytes 2 (bswap16 x).toNat = (bytes 2 x.toNat).reverse ∧ bswap16 (bswap16 x) = x) ∧
    (∀ x, bytes 4 (bswap32 x).toNat = (bytes 4 x.toNat).reverse ∧ bswap32 (bswap32 x) = x) ∧
    (∀ x, bytes 8 (bswap64 x).toNat = (bytes 8 x.toNat).reverse ∧ bswap64 (bswap64 x) = x) :=
  ⟨fun x => ⟨bswap16_reverses x, involutive_of_reverses 2 rfl _ bswap16_reverses x⟩,
   fun x => ⟨bswap32_reverses x, involutive_of_reverses 4 rfl _ bswap32_reverses x⟩,
   fun x => ⟨bswap64_reverses x, involutive_of_reverses 8 rfl _ bswap64_reverses x⟩⟩

example : bswap32 0x11223344#32 = 0x44332211#32 ∧ bswap16 0x1122#16 = 0x2211#16 ∧
    bytes 4 0x11223344 = [0x44, 0x33, 0x22, 0x11] := by decide

end Verif.Bswap
