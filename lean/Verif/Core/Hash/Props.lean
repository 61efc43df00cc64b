import Verif.Core.Hash.Model
/-!
# FNV-1a (C09)

The reference function is stated on natural numbers modulo 2^32, as in the published definition:
for each byte, xor it in, then multiply by the prime 16777619.
-/
namespace Verif.Hash

/-- Reference 32-bit FNV-1a, continued from state `h`. -/
def fnv1a (h : Nat) (bytes : List Nat) : Nat :=
  bytes.foldl (fun h b => (h ^^^ b) * 16777619 % 2 ^ 32) h

/-- Offset basis of the reference. -/
def fnvOffset : Nat := 2166136261

/-- The `n` little-endian bytes of a number. -/
def leBytes (n x : Nat) : List Nat := (List.range n).map fun i => x / 2 ^ (8 * i) % 256

theorem prime_toNat : (0x01000193#32).toNat = 16777619 := by decide

theorem byte_mod (x : Byte) : x.toNat % 2 ^ 32 = x.toNat := Nat.mod_eq_of_lt (by have := x.isLt; omega)

theorem hashUint8_toNat (h : BitVec 32) (x : Byte) :
    (hashUint8 h x).toNat = (h.toNat ^^^ x.toNat) * 16777619 % 2 ^ 32 := by
  unfold hashUint8
  rw [BitVec.toNat_mul, BitVec.toNat_xor, BitVec.toNat_setWidth, byte_mod, prime_toNat]

theorem byte0 {w : Nat} (x : BitVec w) : (x.setWidth 8).toNat = x.toNat % 256 := by
  simp [BitVec.toNat_setWidth]

theorem byteS {w : Nat} (x : BitVec w) (k : Nat) : ((x >>> k).setWidth 8).toNat = x.toNat / 2 ^ k % 256 := by
  simp [BitVec.toNat_setWidth, BitVec.toNat_ushiftRight, Nat.shiftRight_eq_div_pow]

/-- **C09.** The byte-string hash is the reference function. -/
theorem hashRawBytes_is_fnv1a (h : BitVec 32) (bs : List Byte) :
    (hashRawBytes h bs).toNat = fnv1a h.toNat (bs.map BitVec.toNat) := by
  induction bs generalizing h with
  | nil => rfl
  | cons x xs ih =>
    rw [hashRawBytes, ih, hashUint8_toNat, List.map_cons, fnv1a, fnv1a, List.foldl_cons]

theorem hashInit_is_offset : hashInit.toNat = fnvOffset := by decide

/-- Published test vectors: "" , "a", "foobar". -/
example : (hashRawBytes hashInit []).toNat = 0x811c9dc5 ∧
    (hashRawBytes hashInit [0x61#8]).toNat = 0xe40c292c ∧
    (hashRawBytes hashInit [0x66#8, 0x6f#8, 0x6f#8, 0x62#8, 0x61#8, 0x72#8]).toNat = 0xbf9cf968 := by decide

/-- **C09.** The NUL-terminated string hash is the reference function over the bytes before the
NUL, whatever follows it. -/
theorem hashStr_is_fnv1a (h : BitVec 32) (s rest : List Byte) (hs : 0#8 ∉ s) :
    (hashStr h (s ++ 0#8 :: rest)).map BitVec.toNat = some (fnv1a h.toNat (s.map BitVec.toNat)) := by
  induction s generalizing h with
  | nil => simp [hashStr, fnv1a]
  | cons x xs ih =>
    simp only [List.mem_cons, not_or] at hs
    rw [List.cons_append, hashStr, if_neg (fun e => hs.1 e.symm), ih _ hs.2, hashUint8_toNat, List.map_cons, fnv1a, fnv1a,
      List.foldl_cons]

example : 0#8 ∉ [0x66#8, 0x6f#8] := by decide

/-- **C09.** 16-bit step. -/
theorem hashUint16_is_fnv1a (h : BitVec 32) (x : BitVec 16) :
    (hashUint16 h x).toNat = fnv1a h.toNat (leBytes 2 x.toNat) := by
  have e : leBytes 2 x.toNat = [x.toNat % 256, x.toNat / 2 ^ 8 % 256] := by
    simp [leBytes, List.range_succ]
  rw [e, hashUint16, hashUint8_toNat, hashUint8_toNat, byte0, byteS]
  rw [fnv1a, List.foldl_cons, List.foldl_cons, List.foldl_nil]

/-- **C09.** 32-bit step. -/
theorem hashUint32_is_fnv1a (h : BitVec 32) (x : BitVec 32) :
    (hashUint32 h x).toNat = fnv1a h.toNat (leBytes 4 x.toNat) := by
  rw [hashUint32, hashUint16_is_fnv1a, hashUint16_is_fnv1a]
  have e : leBytes 4 x.toNat = leBytes 2 (x.setWidth 16).toNat ++ leBytes 2 ((x >>> 16).setWidth 16).toNat := by
    have hx := x.isLt
    simp only [leBytes, List.range_succ, List.range_zero, List.nil_append, List.cons_append, List.map_cons,
      List.map_nil, BitVec.toNat_setWidth, BitVec.toNat_ushiftRight, Nat.shiftRight_eq_div_pow, List.cons.injEq,
      and_true]
    refine ⟨?_, ?_, ?_, ?_⟩ <;> omega
  rw [e, fnv1a, fnv1a, fnv1a, List.foldl_append]

/-- **C09.** 64-bit (and pointer) step. -/
theorem hashUint64_is_fnv1a (h : BitVec 32) (x : BitVec 64) :
    (hashUint64 h x).toNat = fnv1a h.toNat (leBytes 8 x.toNat) := by
  rw [hashUint64, hashUint32_is_fnv1a, hashUint32_is_fnv1a]
  have e : leBytes 8 x.toNat = leBytes 4 (x.setWidth 32).toNat ++ leBytes 4 ((x >>> 32).setWidth 32).toNat := by
    have hx := x.isLt
    simp only [leBytes, List.range_succ, List.range_zero, List.nil_append, List.cons_append, List.map_cons,
      List.map_nil, BitVec.toNat_setWidth, BitVec.toNat_ushiftRight, Nat.shiftRight_eq_div_pow, List.cons.injEq,
      and_true]
    refine ⟨?_, ?_, ?_, ?_, ?_, ?_, ?_, ?_⟩ <;> omega
  rw [e, fnv1a, fnv1a, fnv1a, List.foldl_append]

example : leBytes 4 0x01020304 = [4, 3, 2, 1] := by decide

/-- **C09.** Hashing a concatenation is hashing the parts one after the other. -/
theorem hashRawBytes_append (h : BitVec 32) (a b : List Byte) :
    hashRawBytes h (a ++ b) = hashRawBytes (hashRawBytes h a) b := by
  induction a generalizing h with
  | nil => rfl
  | cons x xs ih => exact ih _

end Verif.Hash
