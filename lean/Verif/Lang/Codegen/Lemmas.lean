import Verif.Lang.Codegen.Spec
namespace Verif.Codegen
open Verif.Prim
open Verif.Prim.Prim
variable {F : Type}

theorem size_cases (p : Prim) (h : isIntLike p = true) : size p = 1 ∨ size p = 2 ∨ size p = 4 ∨ size p = 8 := by
  cases p <;> simp_all [size, isIntLike, isInteger, isUnsigned, isSignedInteger, isCharacter]

theorem enc_lt (w : Nat) (v : Int) : enc w v < 2 ^ w := by
  have h : (0 : Int) < 2 ^ w := Int.pow_pos (by decide)
  have h1 := Int.emod_lt_of_pos v h
  have h2 := Int.emod_nonneg v (Int.ne_of_gt h)
  unfold enc
  have h3 : ((v % 2 ^ w).toNat : Int) = v % 2 ^ w := Int.toNat_of_nonneg h2
  have h4 : ((2 ^ w : Nat) : Int) = 2 ^ w := by simp
  omega

theorem enc_cast (w : Nat) (v : Int) : (enc w v : Int) = v % 2 ^ w := by
  have h : (0 : Int) < 2 ^ w := Int.pow_pos (by decide)
  exact Int.toNat_of_nonneg (Int.emod_nonneg v (Int.ne_of_gt h))

theorem enc_eq_of_emod {w : Nat} {u v : Int} (h : u % 2 ^ w = v % 2 ^ w) : enc w u = enc w v := by
  unfold enc; rw [h]

/-- patterns that agree modulo `2^w` -/
theorem nat_mod_eq_enc (w n : Nat) (v : Int) (h : (n : Int) % 2 ^ w = v % 2 ^ w) : n % 2 ^ w = enc w v := by
  have h1 := enc_cast w v
  have h2 : ((n % 2 ^ w : Nat) : Int) = (n : Int) % 2 ^ w := by simp
  omega

theorem sval_enc (w : Nat) (hw : w = 8 ∨ w = 16 ∨ w = 32 ∨ w = 64) (v : Int) :
    sval w (enc w v) = Int.bmod v (2 ^ w) := by
  have := enc_cast w v
  rw [Int.bmod_def]
  unfold sval
  rcases hw with rfl | rfl | rfl | rfl <;> simp only [Nat.reducePow, Nat.reduceSub, Int.reducePow] at * <;> split <;> split <;> omega

theorem conv_emod (p : Prim) (v : Int) : conv p v % 2 ^ (8 * size p) = v % 2 ^ (8 * size p) := by
  unfold conv
  split
  · have := @Int.bmod_emod v (2 ^ (8 * size p))
    simpa using this
  · simp

theorem enc_conv (p : Prim) (v : Int) : enc (8 * size p) (conv p v) = enc (8 * size p) v :=
  enc_eq_of_emod (conv_emod p v)

theorem conv_holds (p : Prim) (hp : isIntLike p = true) (v : Int) : Holds p (conv p v) := by
  cases p <;> simp [isIntLike, isInteger, isUnsigned, isSignedInteger, isCharacter] at hp <;>
    simp only [conv, isSignedInteger, size, Holds, Bool.false_eq_true, if_true, if_false, Int.bmod_def,
      Nat.reduceMul, Nat.reducePow, Int.reducePow] <;> omega

theorem conv_of_holds (p : Prim) (hp : isIntLike p = true) (v : Int) (h : Holds p v) : conv p v = v := by
  cases p <;> simp [isIntLike, isInteger, isUnsigned, isSignedInteger, isCharacter] at hp <;>
    simp only [conv, isSignedInteger, size, Holds, Bool.false_eq_true, if_true, if_false, Int.bmod_def,
      Nat.reduceMul, Nat.reducePow, Int.reducePow] at * <;> omega

theorem sval_enc_conv (p : Prim) (hp : isSignedInteger p = true) (v : Int) :
    sval (8 * size p) (enc (8 * size p) v) = conv p v := by
  rw [sval_enc]
  · simp [conv, hp]
  · cases p <;> simp_all [isSignedInteger, size]

theorem enc_conv_unsigned (p : Prim) (hp : isSignedInteger p = false) (v : Int) :
    (enc (8 * size p) v : Int) = conv p v := by
  rw [enc_cast]; simp [conv, hp]

theorem width_eq (p : Prim) (h : isIntLike p = true) : width p = 8 * size p := by
  cases p <;> simp_all [width, isIntLike, isInteger, isUnsigned, isSignedInteger, isCharacter]

theorem sext_enc (w w' : Nat) (hw : w = 8 ∨ w = 16 ∨ w = 32 ∨ w = 64) (hw' : w' = 8 ∨ w' = 16 ∨ w' = 32 ∨ w' = 64)
    (v : Int) (h1 : -2 ^ (w - 1) ≤ v) (h2 : v < 2 ^ (w - 1)) :
    sextOrTrunc w w' (enc w v) = enc w' v := by
  have e1 := enc_cast w v
  have e2 := enc_cast w' v
  unfold sextOrTrunc
  rcases hw with rfl | rfl | rfl | rfl <;> rcases hw' with rfl | rfl | rfl | rfl <;>
    simp only [Nat.reducePow, Nat.reduceSub, Nat.reduceLeDiff, if_true, if_false, Int.reducePow, Int.reduceNeg] at * <;>
    (try split) <;> omega

theorem zext_enc (w w' : Nat) (hw : w = 8 ∨ w = 16 ∨ w = 32 ∨ w = 64) (hw' : w' = 8 ∨ w' = 16 ∨ w' = 32 ∨ w' = 64)
    (v : Int) (h1 : 0 ≤ v) (h2 : v < 2 ^ w) :
    zextOrTrunc w' (enc w v) = enc w' v := by
  have e1 := enc_cast w v
  have e2 := enc_cast w' v
  unfold zextOrTrunc
  rcases hw with rfl | rfl | rfl | rfl <;> rcases hw' with rfl | rfl | rfl | rfl <;>
    simp only [Nat.reducePow, Int.reducePow] at * <;> omega

theorem w_cases (p : Prim) (h : isIntLike p = true) :
    8 * size p = 8 ∨ 8 * size p = 16 ∨ 8 * size p = 32 ∨ 8 * size p = 64 := by
  have := size_cases p h; omega

theorem holds_signed (p : Prim) (h : isSignedInteger p = true) (v : Int) (hv : Holds p v) :
    -2 ^ (8 * size p - 1) ≤ v ∧ v < 2 ^ (8 * size p - 1) := by
  cases p <;> simp_all [isSignedInteger, size, Holds]

theorem holds_unsigned (p : Prim) (h0 : isIntLike p = true) (h : isSignedInteger p = false) (v : Int) (hv : Holds p v) :
    0 ≤ v ∧ v < 2 ^ (8 * size p) := by
  cases p <;> simp_all [isIntLike, isInteger, isUnsigned, isCharacter, isSignedInteger, size, Holds]

theorem intLike_notFloat (p : Prim) (h : isIntLike p = true) : isFloat p = false := by
  cases p <;> simp_all [isIntLike, isInteger, isUnsigned, isCharacter, isSignedInteger, isFloat]

/-- the cast of a represented value represents the same integer in the target type -/
theorem cast_rep (fo : FloatOps F) (to from_ : Prim) (hto : isIntLike to = true) (hfrom : isIntLike from_ = true)
    (v : Int) (hv : Holds from_ v) : cast fo to from_ (rep from_ v) = .ok (rep to v) := by
  unfold cast
  by_cases he : to = from_
  · subst he; simp
  · rw [if_neg he, intLike_notFloat to hto, if_neg (by simp)]
    rw [if_pos (show (isInteger to || isCharacter to) = true from hto)]
    unfold rep
    simp only [width_eq to hto]
    by_cases hs : isSignedInteger from_ = true
    · have hu : (isUnsigned from_ || isCharacter from_) = false := by
        cases from_ <;> simp_all [isUnsigned, isCharacter, isSignedInteger]
      have hb := holds_signed from_ hs v hv
      rw [hu, if_neg (by simp), if_pos hs,
        sext_enc _ _ (w_cases from_ hfrom) (w_cases to hto) v hb.1 hb.2]
    · have hs' : isSignedInteger from_ = false := by simpa using hs
      have hu : (isUnsigned from_ || isCharacter from_) = true := by
        cases from_ <;> simp_all [isIntLike, isInteger, isUnsigned, isCharacter, isSignedInteger]
      have hb := holds_unsigned from_ hfrom hs' v hv
      rw [if_pos hu, zext_enc _ _ (w_cases from_ hfrom) (w_cases to hto) v hb.1 hb.2]

end Verif.Codegen
