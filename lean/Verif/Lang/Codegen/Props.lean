import Verif.Lang.Codegen.Lemmas
/-! # Run-time arithmetic on primitive types -/
namespace Verif.Codegen
open Verif.Prim
open Verif.Prim.Prim
variable {F : Type}

/-! ## Casts and assignment -/

/-- Casting between integer (or character) types gives the value of the target type congruent to the
source value, and so the same value when the target type can hold it. -/
theorem int_cast_correct (fo : FloatOps F) (to from_ : Prim) (hto : isIntLike to = true)
    (hfrom : isIntLike from_ = true) (v : Int) (hv : Holds from_ v) :
    cast fo to from_ (rep from_ v) = .ok (rep to (conv to v)) ∧ (Holds to v → conv to v = v) := by
  refine ⟨?_, conv_of_holds to hto v⟩
  rw [cast_rep fo to from_ hto hfrom v hv]
  unfold rep
  rw [enc_conv]

example : isIntLike i8 = true ∧ isIntLike u32 = true ∧ Holds i8 (-1) ∧ conv u32 (-1) = 4294967295 := by decide

/-- The stored value determines the integer: distinct values of a type have distinct patterns. -/
theorem rep_injective (p : Prim) (hp : isIntLike p = true) (u v : Int) (hu : Holds p u) (hv : Holds p v)
    (h : (rep p u : LVal F) = rep p v) : u = v := by
  unfold rep at h
  have h1 : enc (8 * size p) u = enc (8 * size p) v := by injection h
  have e1 := enc_cast (8 * size p) u
  have e2 := enc_cast (8 * size p) v
  have : conv p u = conv p v := by
    unfold conv
    split
    · have hz : u % (2 ^ (8 * size p) : Int) = v % 2 ^ (8 * size p) := by omega
      rw [Int.bmod_def, Int.bmod_def]
      simp only [Int.natCast_pow, Int.cast_ofNat_Int] at *
      rw [hz]
    · omega
  rwa [conv_of_holds p hp u hu, conv_of_holds p hp v hv] at this

/-- C21 at run time: an implicit integer assignment that is not from signed to unsigned stores
exactly the assigned value. -/
theorem assignment_stores_value_partial (fo : FloatOps F) (to from_ : Prim) (hto : isInteger to = true)
    (hfrom : isInteger from_ = true) (hs : ¬ (isSignedInteger from_ = true ∧ isUnsigned to = true))
    (h : assignable to from_ = true) (v : Int) (hv : Holds from_ v) :
    assign fo to from_ (rep from_ v) = .ok (rep to v) ∧ Holds to v := by
  have hto' : isIntLike to = true := by simp [isIntLike, hto]
  have hfrom' : isIntLike from_ = true := by simp [isIntLike, hfrom]
  refine ⟨?_, ?_⟩
  · unfold assign
    split
    · rename_i he; subst he; rfl
    · exact cast_rep fo to from_ hto' hfrom' v hv
  · cases to <;> cases from_ <;>
      simp_all [isInteger, isSignedInteger, isUnsigned, assignable, size, Holds] <;> omega

example : assignable i64 u32 = true ∧ Holds u32 4294967295 := by decide

/-! ## Casts from integers to floats -/

/-- Casting an integer to a float rounds the integer, provided it is non-negative and below half the
range of its type. -/
theorem int_to_float_partial (fo : FloatOps F) (to from_ : Prim) (hto : isFloat to = true)
    (hfrom : isIntLike from_ = true) (v : Int) (h0 : 0 ≤ v) (h1 : v < 2 ^ (8 * size from_ - 1)) :
    cast fo to from_ (rep from_ v) = .ok (.flt (size to) (fo.ofInt (size to) v)) := by
  have hne : to ≠ from_ := by intro h; subst h; rw [intLike_notFloat _ hfrom] at hto; cases hto
  have he := enc_cast (8 * size from_) v
  have hb : (enc (8 * size from_) v : Int) = v ∧ sval (8 * size from_) (enc (8 * size from_) v) = v := by
    unfold sval
    have hz := size_cases from_ hfrom
    generalize size from_ = s at *
    rcases hz with rfl | rfl | rfl | rfl <;>
      simp only [Nat.reduceMul, Nat.reduceSub, Nat.reducePow, Int.reducePow] at * <;> split <;> omega
  unfold cast rep
  rw [if_neg hne, if_pos hto, intLike_notFloat _ hfrom]
  simp only [Bool.false_eq_true, if_false, hb.1, hb.2, ite_self]

/-- Casting a negative signed integer to a float gives the wrong number: `2^w` is added to it. -/
theorem negative_int_to_float_wrong (fo : FloatOps F) (to from_ : Prim) (hto : isFloat to = true)
    (hfrom : isSignedInteger from_ = true) (v : Int) (hv : Holds from_ v) (h0 : v < 0) :
    cast fo to from_ (rep from_ v) = .ok (.flt (size to) (fo.ofInt (size to) (v + 2 ^ (8 * size from_)))) := by
  have hfrom' : isIntLike from_ = true := by simp [isIntLike, isInteger, hfrom]
  have hne : to ≠ from_ := by intro h; subst h; rw [intLike_notFloat _ hfrom'] at hto; cases hto
  have he := enc_cast (8 * size from_) v
  have hv' := holds_signed from_ hfrom v hv
  have hb : (enc (8 * size from_) v : Int) = v + 2 ^ (8 * size from_) := by
    have hz := size_cases from_ hfrom'
    generalize size from_ = s at *
    rcases hz with rfl | rfl | rfl | rfl <;>
      simp only [Nat.reduceMul, Nat.reduceSub, Nat.reducePow, Int.reducePow] at * <;> omega
  have hu : (isUnsigned from_ || isCharacter from_) = false := by
    cases from_ <;> simp_all [isUnsigned, isCharacter, isSignedInteger]
  unfold cast rep
  rw [if_neg hne, if_pos hto, intLike_notFloat _ hfrom']
  simp only [Bool.false_eq_true, if_false, hb, hu]

/-- Casting an unsigned integer from the upper half of its range to a float gives a negative number. -/
theorem large_unsigned_to_float_wrong (fo : FloatOps F) (to from_ : Prim) (hto : isFloat to = true)
    (hfrom : isUnsigned from_ = true) (v : Int) (hv : Holds from_ v) (h0 : 2 ^ (8 * size from_ - 1) ≤ v) :
    cast fo to from_ (rep from_ v) = .ok (.flt (size to) (fo.ofInt (size to) (v - 2 ^ (8 * size from_)))) ∧
      v - 2 ^ (8 * size from_) < 0 := by
  have hfrom' : isIntLike from_ = true := by simp [isIntLike, isInteger, hfrom]
  have hne : to ≠ from_ := by intro h; subst h; rw [intLike_notFloat _ hfrom'] at hto; cases hto
  have he := enc_cast (8 * size from_) v
  have hs : isSignedInteger from_ = false := by cases from_ <;> simp_all [isUnsigned, isSignedInteger]
  have hv' := holds_unsigned from_ hfrom' hs v hv
  have hb : sval (8 * size from_) (enc (8 * size from_) v) = v - 2 ^ (8 * size from_) := by
    unfold sval
    have hz := size_cases from_ hfrom'
    generalize size from_ = s at *
    rcases hz with rfl | rfl | rfl | rfl <;>
      simp only [Nat.reduceMul, Nat.reduceSub, Nat.reducePow, Int.reducePow] at * <;> split <;> omega
  refine ⟨?_, by omega⟩
  unfold cast rep
  rw [if_neg hne, if_pos hto, intLike_notFloat _ hfrom']
  simp only [Bool.false_eq_true, if_false, hb, hfrom, Bool.true_or, if_true]

example : isSignedInteger i32 = true ∧ Holds i32 (-1) ∧ isUnsigned u8 = true ∧ Holds u8 200 ∧
    (2 : Int) ^ (8 * size u8 - 1) ≤ 200 := by decide

/-! ## Arithmetic -/

/-- Operators whose result has the operand type. -/
def isArith : Op → Bool
  | .add | .sub | .mul | .div | .mod | .shl | .shr => true
  | _ => false

theorem pow_cast (w : Nat) : ((2 ^ w : Nat) : Int) = 2 ^ w := by simp

theorem signed_facts (T : Prim) (hT : isIntLike T = true) (hs : isSignedInteger T = true) (x : Int) (hx : Holds T x) :
    sval (8 * size T) (enc (8 * size T) x) = x := by
  rw [sval_enc_conv T hs, conv_of_holds T hT x hx]

theorem unsigned_facts (T : Prim) (hT : isIntLike T = true) (hs : isSignedInteger T = false) (x : Int) (hx : Holds T x) :
    (enc (8 * size T) x : Int) = x := by
  rw [enc_conv_unsigned T hs, conv_of_holds T hT x hx]

theorem holds_signed_iff (p : Prim) (h : isSignedInteger p = true) (v : Int) :
    Holds p v ↔ -2 ^ (8 * size p - 1) ≤ v ∧ v < 2 ^ (8 * size p - 1) := by
  cases p <;> simp_all [isSignedInteger, size, Holds]

theorem holds_unsigned_iff (p : Prim) (h0 : isIntLike p = true) (h : isSignedInteger p = false) (v : Int) :
    Holds p v ↔ 0 ≤ v ∧ v < 2 ^ (8 * size p) := by
  cases p <;> simp_all [isIntLike, isInteger, isUnsigned, isCharacter, isSignedInteger, size, Holds]

/-- the quotient leaves a symmetric range only for the smallest value divided by -1 -/
theorem tdiv_range (B x y : Int) (hB : 0 < B) (h1 : -B ≤ x) (h2 : x < B) (hy : y ≠ 0) :
    (-B ≤ Int.tdiv x y ∧ Int.tdiv x y < B) ↔ ¬ (x = -B ∧ y = -1) := by
  have hle : (Int.tdiv x y).natAbs ≤ x.natAbs := Int.natAbs_tdiv_le_natAbs x y
  constructor
  · rintro h ⟨rfl, rfl⟩
    rw [Int.tdiv_neg, Int.tdiv_one] at h
    omega
  · intro h
    have hq : Int.tdiv x y ≠ B := by
      intro he
      have hx : x = -B := by omega
      have hn : (Int.tdiv x y).natAbs = x.natAbs / y.natAbs := Int.natAbs_tdiv x y
      have hxb : x.natAbs = B.natAbs := by omega
      have hy1 : y.natAbs = 1 := by
        rw [he, hxb] at hn
        by_cases h2 : 2 ≤ y.natAbs
        · have := Nat.div_lt_self (n := B.natAbs) (k := y.natAbs) (by omega) h2
          omega
        · omega
      rcases Int.natAbs_eq y with hyy | hyy
      · rw [hy1] at hyy
        rw [hyy] at he
        simp only [Int.natCast_one, Int.tdiv_one] at he
        omega
      · apply h; refine ⟨hx, by omega⟩
    omega

theorem sdivOk_iff (T : Prim) (hT : isIntLike T = true) (hs : isSignedInteger T = true) (x y : Int)
    (hx : Holds T x) (hy : Holds T y) :
    sdivOk (8 * size T) (enc (8 * size T) x) (enc (8 * size T) y) = true ↔ y ≠ 0 ∧ Holds T (Int.tdiv x y) := by
  have sx := signed_facts T hT hs x hx
  have sy := signed_facts T hT hs y hy
  have hx' := (holds_signed_iff T hs x).1 hx
  have h0 : enc (8 * size T) y = 0 ↔ y = 0 := by
    constructor
    · intro h
      rw [h] at sy
      unfold sval at sy
      rw [if_pos (Nat.pow_pos (by decide))] at sy
      exact sy.symm
    · intro h; subst h; simp [enc]
  unfold sdivOk
  rw [sx, sy]
  simp only [Bool.and_eq_true, bne_iff_ne, ne_eq, h0, Bool.not_eq_true', Bool.and_eq_false_iff, beq_eq_false_iff_ne]
  by_cases hy0 : y = 0
  · simp [hy0]
  · rw [holds_signed_iff T hs, tdiv_range (2 ^ (8 * size T - 1)) x y (Int.pow_pos (by decide)) hx'.1 hx'.2 hy0]
    constructor
    · rintro ⟨h1, h2⟩
      refine ⟨h1, ?_⟩
      rintro ⟨h3, h4⟩
      rcases h2 with h2 | h2
      · exact h2 h3
      · exact h2 h4
    · rintro ⟨h1, h2⟩
      refine ⟨h1, ?_⟩
      by_cases h3 : x = -2 ^ (8 * size T - 1)
      · right; intro h4; exact h2 ⟨h3, h4⟩
      · left; exact h3

theorem isSigned_eq (T : Prim) (hT : isIntLike T = true) : isSigned T = isSignedInteger T := by
  simp [isSigned, intLike_notFloat T hT]

/-- shift amounts: the pattern is below the width exactly when the value is in range -/
theorem shift_amount (T : Prim) (hT : isIntLike T = true) (y : Int) (hy : Holds T y) :
    (enc (8 * size T) y < 8 * size T ↔ 0 ≤ y ∧ y < 8 * size T) ∧
    (0 ≤ y → enc (8 * size T) y = y.toNat) := by
  have ey := enc_cast (8 * size T) y
  by_cases hs : isSignedInteger T = true
  · have hb := (holds_signed_iff T hs y).1 hy
    have hz := size_cases T hT
    generalize size T = s at *
    rcases hz with rfl | rfl | rfl | rfl <;>
      simp only [Nat.reduceMul, Nat.reduceSub, Nat.reducePow, Int.reducePow] at * <;> omega
  · have hb := (holds_unsigned_iff T hT (by simpa using hs) y).1 hy
    have hz := size_cases T hT
    generalize size T = s at *
    rcases hz with rfl | rfl | rfl | rfl <;>
      simp only [Nat.reduceMul, Nat.reduceSub, Nat.reducePow, Int.reducePow] at * <;> omega

theorem enc_nonneg (T : Prim) (hT : isIntLike T = true) (x : Int) (hx : Holds T x) (h0 : 0 ≤ x) :
    enc (8 * size T) x = x.toNat := (shift_amount T hT x hx).2 h0

theorem intOp_arith (T : Prim) (hT : isIntLike T = true) (op : Op) (hop : isArith op = true) (x y : Int)
    (hx : Holds T x) (hy : Holds T y) (hshr : op = .shr → 0 ≤ x) :
    (intOp op T (8 * size T) (enc (8 * size T) x) (enc (8 * size T) y) : Res (LVal F)) =
      match arith T op x y with
      | some z => .ok (rep T z)
      | none => .ub := by
  have ex := enc_cast (8 * size T) x
  have ey := enc_cast (8 * size T) y
  have lx := enc_lt (8 * size T) x
  have ly := enc_lt (8 * size T) y
  have cx := conv_of_holds T hT x hx
  have cy := conv_of_holds T hT y hy
  have hf := intLike_notFloat T hT
  have hpc := pow_cast (8 * size T)
  cases op <;> simp [isArith] at hop
  case add =>
    simp only [intOp, arith, rep, enc_conv]
    congr 2
    apply nat_mod_eq_enc
    rw [Int.natCast_add, ex, ey]; simp
  case sub =>
    simp only [intOp, arith, rep, enc_conv]
    congr 2
    apply nat_mod_eq_enc
    rw [Int.natCast_add, Int.natCast_sub (by omega), ex, ey, hpc,
      show x % 2 ^ (8 * size T) + (2 ^ (8 * size T) - y % 2 ^ (8 * size T)) =
        (x % 2 ^ (8 * size T) - y % 2 ^ (8 * size T)) + 2 ^ (8 * size T) by omega,
      Int.add_emod_right]
    simp
  case mul =>
    simp only [intOp, arith, rep, enc_conv]
    congr 2
    apply nat_mod_eq_enc
    rw [Int.natCast_mul, ex, ey, ← Int.mul_emod]
  case div =>
    by_cases hs : isSignedInteger T = true
    · simp only [intOp, isSigned_eq T hT, hs, if_true]
      rw [signed_facts T hT hs x hx, signed_facts T hT hs y hy]
      have hk := sdivOk_iff T hT hs x y hx hy
      by_cases hok : y ≠ 0 ∧ Holds T (Int.tdiv x y)
      · rw [if_pos (hk.2 hok)]
        simp only [arith, if_neg hok.1, if_pos hok.2, rep]
      · rw [if_neg (fun h => hok (hk.1 h))]
        simp only [arith]
        by_cases hy0 : y = 0
        · simp [hy0]
        · rw [if_neg hy0, if_neg (fun h => hok ⟨hy0, h⟩)]
    · have hs' : isSignedInteger T = false := by simpa using hs
      simp only [intOp, isSigned_eq T hT, hs', Bool.false_eq_true, if_false]
      have ux := unsigned_facts T hT hs' x hx
      have uy := unsigned_facts T hT hs' y hy
      have hx' := (holds_unsigned_iff T hT hs' x).1 hx
      have hy' := (holds_unsigned_iff T hT hs' y).1 hy
      simp only [arith]
      by_cases hy0 : y = 0
      · rw [if_pos (by omega), if_pos hy0]
      · rw [if_neg (by omega), if_neg hy0]
        have hq : ((enc (8 * size T) x / enc (8 * size T) y : Nat) : Int) = Int.tdiv x y := by
          rw [Int.natCast_ediv, ux, uy, Int.tdiv_eq_ediv_of_nonneg hx'.1]
        have hle : enc (8 * size T) x / enc (8 * size T) y ≤ enc (8 * size T) x := Nat.div_le_self _ _
        have hq0 : 0 ≤ Int.tdiv x y := by rw [← hq]; exact Int.natCast_nonneg _
        have hh : Holds T (Int.tdiv x y) := by
          rw [holds_unsigned_iff T hT hs']
          generalize enc (8 * size T) x / enc (8 * size T) y = q at *
          omega
        rw [if_pos hh]
        simp only [rep]
        congr 2
        have := unsigned_facts T hT hs' _ hh
        omega
  case mod =>
    by_cases hs : isSignedInteger T = true
    · simp only [intOp, isSigned_eq T hT, hs, if_true]
      rw [signed_facts T hT hs x hx, signed_facts T hT hs y hy]
      have hk := sdivOk_iff T hT hs x y hx hy
      by_cases hok : y ≠ 0 ∧ Holds T (Int.tdiv x y)
      · rw [if_pos (hk.2 hok)]
        simp only [arith, if_neg hok.1, if_pos hok.2, rep]
      · rw [if_neg (fun h => hok (hk.1 h))]
        simp only [arith]
        by_cases hy0 : y = 0
        · simp [hy0]
        · rw [if_neg hy0, if_neg (fun h => hok ⟨hy0, h⟩)]
    · have hs' : isSignedInteger T = false := by simpa using hs
      simp only [intOp, isSigned_eq T hT, hs', Bool.false_eq_true, if_false]
      have ux := unsigned_facts T hT hs' x hx
      have uy := unsigned_facts T hT hs' y hy
      have hx' := (holds_unsigned_iff T hT hs' x).1 hx
      have hy' := (holds_unsigned_iff T hT hs' y).1 hy
      simp only [arith]
      by_cases hy0 : y = 0
      · rw [if_pos (by omega), if_pos hy0]
      · rw [if_neg (by omega), if_neg hy0]
        have hq : ((enc (8 * size T) x / enc (8 * size T) y : Nat) : Int) = Int.tdiv x y := by
          rw [Int.natCast_ediv, ux, uy, Int.tdiv_eq_ediv_of_nonneg hx'.1]
        have hm : ((enc (8 * size T) x % enc (8 * size T) y : Nat) : Int) = Int.tmod x y := by
          rw [Int.natCast_emod, ux, uy, Int.tmod_eq_emod_of_nonneg hx'.1]
        have hle : enc (8 * size T) x / enc (8 * size T) y ≤ enc (8 * size T) x := Nat.div_le_self _ _
        have hle2 : enc (8 * size T) x % enc (8 * size T) y ≤ enc (8 * size T) x := Nat.mod_le _ _
        have hq0 : 0 ≤ Int.tdiv x y := by rw [← hq]; exact Int.natCast_nonneg _
        have hh : Holds T (Int.tdiv x y) := by
          rw [holds_unsigned_iff T hT hs']
          generalize enc (8 * size T) x / enc (8 * size T) y = q at *
          omega
        have hh2 : Holds T (Int.tmod x y) := by
          have hm0 : 0 ≤ Int.tmod x y := by rw [← hm]; exact Int.natCast_nonneg _
          rw [holds_unsigned_iff T hT hs']
          generalize enc (8 * size T) x % enc (8 * size T) y = q at *
          omega
        rw [if_pos hh]
        simp only [rep]
        congr 2
        have := unsigned_facts T hT hs' _ hh2
        omega
  case shl =>
    have hsa := shift_amount T hT y hy
    simp only [intOp, arith]
    by_cases hr : 0 ≤ y ∧ y < 8 * size T
    · rw [if_pos (hsa.1.2 hr), if_pos hr, hsa.2 hr.1]
      simp only [rep, enc_conv]
      congr 2
      apply nat_mod_eq_enc
      rw [Int.natCast_mul, ex, pow_cast, Int.mul_emod, Int.emod_emod, ← Int.mul_emod]
    · rw [if_neg (fun h => hr (hsa.1.1 h)), if_neg hr]
  case shr =>
    have hsa := shift_amount T hT y hy
    have h0 := hshr rfl
    simp only [intOp, arith]
    by_cases hr : 0 ≤ y ∧ y < 8 * size T
    · rw [if_pos (hsa.1.2 hr), if_pos hr, hsa.2 hr.1]
      simp only [rep]
      congr 2
      have hex := enc_nonneg T hT x hx h0
      have hq : ((x.toNat / 2 ^ y.toNat : Nat) : Int) = x / 2 ^ y.toNat := by
        rw [Int.natCast_ediv, pow_cast, Int.toNat_of_nonneg h0]
      have hle : x.toNat / 2 ^ y.toNat ≤ x.toNat := Nat.div_le_self _ _
      have hq0 : 0 ≤ x / 2 ^ y.toNat := by rw [← hq]; exact Int.natCast_nonneg _
      have hqx : x / 2 ^ y.toNat ≤ x := by omega
      have hh : Holds T (x / 2 ^ y.toNat) := by
        by_cases hs : isSignedInteger T = true
        · rw [holds_signed_iff T hs] at hx ⊢
          omega
        · rw [holds_unsigned_iff T hT (by simpa using hs)] at hx ⊢
          omega
      rw [hex, enc_nonneg T hT _ hh hq0]
      omega
    · rw [if_neg (fun h => hr (hsa.1.1 h)), if_neg hr]


theorem promote_codegen (l r : Prim) (hl : isInteger l = true) (hr : isInteger r = true) (hz : l = r ∨ size l ≠ size r) :
    promote l r = some (if l = r then l else if bigger l r then l else r) := by
  revert hl hr hz
  cases l <;> cases r <;> decide

theorem intLike_of_integer {p : Prim} (h : isInteger p = true) : isIntLike p = true := by simp [isIntLike, h]

theorem binary_rep (fo : FloatOps F) (op : Op) (l r : Prim) (hl : isInteger l = true) (hr : isInteger r = true)
    (x y : Int) (hx : Holds l x) (hy : Holds r y) :
    let T := if l = r then l else if bigger l r then l else r
    binary fo op l r (rep l x) (rep r y) =
      intOp op T (8 * size T) (enc (8 * size T) x) (enc (8 * size T) y) := by
  have hfl := intLike_notFloat l (intLike_of_integer hl)
  have hfr := intLike_notFloat r (intLike_of_integer hr)
  intro T
  unfold binary
  by_cases he : l = r
  · have hT : T = l := if_pos he
    rw [if_pos he, hT]; subst he
    simp only [rep, hfl, and_self, if_true]
  · rw [if_neg he]
    by_cases hb : bigger l r = true
    · have hT : T = l := by simp only [T, if_neg he, if_pos hb]
      rw [if_pos hb, hT, cast_rep fo l r (intLike_of_integer hl) (intLike_of_integer hr) y hy]
      simp only [Res.bind_ok, rep, hfl, and_self, if_true]
    · have hT : T = r := by simp only [T, if_neg he, if_neg hb]
      rw [if_neg hb, hT, cast_rep fo r l (intLike_of_integer hr) (intLike_of_integer hl) x hx]
      simp only [Res.bind_ok, rep, hfr, and_self, if_true]

theorem promote_isInteger (l r : Prim) (hl : isInteger l = true) (hr : isInteger r = true) (T : Prim)
    (h : promote l r = some T) : isInteger T = true := by
  revert hl hr h
  cases l <;> cases r <;> cases T <;> decide

/-- The code generated for an integer operation computes the exact result in the type the checker
gives to the expression, with both operands first converted to that type, and is undefined exactly
when that result is. Missing: operand types of one size but different signedness, and `>>` with a
negative left operand (both false, below). -/
theorem arithmetic_correct_partial (fo : FloatOps F) (op : Op) (hop : isArith op = true) (l r T : Prim)
    (hl : isInteger l = true) (hr : isInteger r = true) (hz : l = r ∨ size l ≠ size r)
    (hT : promote l r = some T) (x y : Int) (hx : Holds l x) (hy : Holds r y)
    (hshr : op = .shr → 0 ≤ conv T x) :
    binary fo op l r (rep l x) (rep r y) =
      match arith T op (conv T x) (conv T y) with
      | some z => .ok (rep T z)
      | none => .ub := by
  have hTi := intLike_of_integer (promote_isInteger l r hl hr T hT)
  have hT' := promote_codegen l r hl hr hz
  rw [hT] at hT'
  have hT'' := Option.some.inj hT'
  have := binary_rep fo op l r hl hr x y hx hy
  simp only [← hT''] at this
  rw [this, ← enc_conv T x, ← enc_conv T y]
  exact intOp_arith T hTi op hop (conv T x) (conv T y) (conv_holds T hTi x) (conv_holds T hTi y) hshr

example : promote i8 i32 = some i32 ∧ size i8 ≠ size i32 ∧ Holds i8 (-5) ∧ Holds i32 7 ∧
    arith i32 .mul (conv i32 (-5)) (conv i32 7) = some (-35) := by decide

/-- With operands of one size but different signedness the checker types the expression by the left
operand while the generated code divides in the right operand's signedness: dividing the largest
unsigned value by `2` gives `0`. -/
theorem mixed_sign_division_wrong (fo : FloatOps F) (l r : Prim) (hl : isUnsigned l = true)
    (hr : isSignedInteger r = true) (hz : size l = size r) :
    promote l r = some l ∧ Holds l (2 ^ (8 * size l) - 1) ∧ Holds r 2 ∧
    binary fo .div l r (rep l (2 ^ (8 * size l) - 1)) (rep r 2) = .ok (rep l 0) ∧
    arith l .div (2 ^ (8 * size l) - 1) 2 = some (2 ^ (8 * size l - 1) - 1) := by
  cases l <;> simp [isUnsigned] at hl <;> cases r <;> simp [isSignedInteger] at hr <;> simp [size] at hz
  all_goals
    refine ⟨rfl, by decide, by decide, ?_, by decide⟩
    rw [binary_rep fo .div _ _ rfl rfl _ _ (by decide) (by decide)]
    rfl

/-- A right shift of a negative number is never the arithmetic shift: the result is non-negative. -/
theorem shr_of_negative_wrong (fo : FloatOps F) (p : Prim) (hp : isSignedInteger p = true) (x y : Int)
    (hx : Holds p x) (hneg : x < 0) (hy : 0 < y) (hy2 : y < 8 * size p) (hy3 : Holds p y) :
    ∃ z, binary fo .shr p p (rep p x) (rep p y) = .ok (rep p z) ∧ Holds p z ∧ 0 ≤ z ∧
      x / 2 ^ y.toNat < 0 := by
  have hi : isInteger p = true := by simp [isInteger, hp]
  have hL := intLike_of_integer hi
  have hb := binary_rep fo .shr p p hi hi x y hx hy3
  simp only [if_true] at hb
  have hsa := shift_amount p hL y hy3
  have hq : enc (8 * size p) x / 2 ^ y.toNat < 2 ^ (8 * size p - 1) := by
    have hlt := enc_lt (8 * size p) x
    have h8 := size_cases p hL
    have h1 : 2 ^ (8 * size p) = 2 ^ (8 * size p - 1) * 2 := by
      rw [← Nat.pow_succ]; congr 1; omega
    rw [Nat.div_lt_iff_lt_mul (Nat.pow_pos (by decide))]
    have h2 : 2 ^ 1 ≤ 2 ^ y.toNat := Nat.pow_le_pow_right (by decide) (by omega)
    calc enc (8 * size p) x < 2 ^ (8 * size p - 1) * 2 := by omega
      _ ≤ 2 ^ (8 * size p - 1) * 2 ^ y.toNat := Nat.mul_le_mul_left _ h2
  have hH : Holds p ((enc (8 * size p) x / 2 ^ y.toNat : Nat) : Int) := by
    rw [holds_signed_iff p hp]
    have := pow_cast (8 * size p - 1)
    generalize enc (8 * size p) x / 2 ^ y.toNat = q at *
    omega
  refine ⟨((enc (8 * size p) x / 2 ^ y.toNat : Nat) : Int), ?_, hH, Int.natCast_nonneg _, ?_⟩
  · rw [hb]
    simp only [intOp]
    rw [if_pos (hsa.1.2 ⟨by omega, hy2⟩), hsa.2 (by omega)]
    simp only [rep]
    rw [enc_nonneg p hL _ hH (Int.natCast_nonneg _), Int.toNat_natCast]
  · exact Int.ediv_neg_of_neg_of_pos hneg (Int.pow_pos (by decide))

example : isSignedInteger i32 = true ∧ Holds i32 (-8) ∧ Holds i32 1 := by decide

/-! ## Comparisons -/

def isCompare : Op → Bool
  | .lt | .gt | .leq | .geq | .eq | .ne => true
  | _ => false

theorem intOp_compare (T : Prim) (hT : isIntLike T = true) (op : Op) (hop : isCompare op = true) (x y : Int)
    (hx : Holds T x) (hy : Holds T y) :
    ∃ b, compare op x y = some b ∧
    (intOp op T (8 * size T) (enc (8 * size T) x) (enc (8 * size T) y) : Res (LVal F)) = .ok (i1 b) := by
  have heq : enc (8 * size T) x = enc (8 * size T) y ↔ x = y := by
    constructor
    · intro h
      exact rep_injective (F := Unit) T hT x y hx hy (by unfold rep; rw [h])
    · rintro rfl; rfl
  cases op <;> simp [isCompare] at hop
  case eq => exact ⟨_, rfl, by simp only [intOp, heq]⟩
  case ne => exact ⟨_, rfl, by simp only [intOp, ne_eq, heq]⟩
  all_goals
    refine ⟨_, rfl, ?_⟩
    by_cases hs : isSignedInteger T = true
    · simp only [intOp, isSigned_eq T hT, hs, if_true, signed_facts T hT hs x hx, signed_facts T hT hs y hy]
    · have hs' : isSignedInteger T = false := by simpa using hs
      have ux := unsigned_facts T hT hs' x hx
      have uy := unsigned_facts T hT hs' y hy
      simp only [intOp, isSigned_eq T hT, hs', Bool.false_eq_true, if_false]
      congr 3
      apply propext
      omega

/-- the type in which the generated code compares holds both operand types, when they have the same
signedness or the signed one is strictly bigger -/
theorem common_holds (l r : Prim) (hl : isInteger l = true) (hr : isInteger r = true)
    (hs : isUnsigned l = isUnsigned r ∨ (isUnsigned l = true ∧ size l < size r) ∨
      (isUnsigned r = true ∧ size r < size l)) (v : Int) (hv : Holds l v ∨ Holds r v) :
    isInteger (if l = r then l else if bigger l r then l else r) = true ∧
    Holds (if l = r then l else if bigger l r then l else r) v := by
  cases l <;> cases r <;>
    simp_all [isInteger, isSignedInteger, isUnsigned, bigger, isFloat, size, Holds] <;> omega

/-- A comparison of two integers gives the mathematical answer when the operand types have the same
signedness or the signed one is strictly bigger. -/
theorem comparison_correct_partial (fo : FloatOps F) (op : Op) (hop : isCompare op = true) (l r : Prim)
    (hl : isInteger l = true) (hr : isInteger r = true)
    (hs : isUnsigned l = isUnsigned r ∨ (isUnsigned l = true ∧ size l < size r) ∨
      (isUnsigned r = true ∧ size r < size l)) (x y : Int) (hx : Holds l x) (hy : Holds r y) :
    ∃ b, compare op x y = some b ∧ binary fo op l r (rep l x) (rep r y) = .ok (i1 b) := by
  have h1 := common_holds l r hl hr hs x (Or.inl hx)
  have h2 := common_holds l r hl hr hs y (Or.inr hy)
  obtain ⟨b, hb1, hb2⟩ := intOp_compare (F := F) _ (intLike_of_integer h1.1) op hop x y h1.2 h2.2
  exact ⟨b, hb1, (binary_rep fo op l r hl hr x y hx hy).trans hb2⟩

example : isUnsigned u8 = true ∧ size u8 < size i16 ∧ Holds u8 200 ∧ Holds i16 (-3) := by decide

/-- Comparing a negative number with an unsigned operand of at least its size is wrong: `-1 < 1` is
false. -/
theorem mixed_sign_comparison_wrong (fo : FloatOps F) (l r : Prim) (hl : isSignedInteger l = true)
    (hr : isUnsigned r = true) (hz : size l ≤ size r) :
    Holds l (-1) ∧ Holds r 1 ∧ binary fo .lt l r (rep l (-1)) (rep r 1) = .ok (i1 false) := by
  cases l <;> simp [isSignedInteger] at hl <;> cases r <;> simp [isUnsigned] at hr <;> simp [size] at hz
  all_goals
    refine ⟨by decide, by decide, ?_⟩
    rw [binary_rep fo .lt _ _ rfl rfl _ _ (by decide) (by decide)]
    rfl

/-- For a signed and an unsigned operand of one size, `a < b` and `b > a` disagree. -/
theorem mixed_sign_comparison_not_symmetric (fo : FloatOps F) (l r : Prim) (hl : isSignedInteger l = true)
    (hr : isUnsigned r = true) (hz : size l = size r) :
    binary fo .lt l r (rep l (-1)) (rep r 1) = .ok (i1 false) ∧
    binary fo .gt r l (rep r 1) (rep l (-1)) = .ok (i1 true) := by
  cases l <;> simp [isSignedInteger] at hl <;> cases r <;> simp [isUnsigned] at hr <;> simp [size] at hz
  all_goals
    refine ⟨?_, ?_⟩
    · rw [binary_rep fo .lt _ _ rfl rfl _ _ (by decide) (by decide)]
      rfl
    · rw [binary_rep fo .gt _ _ rfl rfl _ _ (by decide) (by decide)]
      rfl

/-- A float comparison with a NaN operand is true for every operator, `==` and `<` included. -/
theorem nan_comparisons_true (fo : FloatOps F) (op : Op) (hop : isCompare op = true) (p : Prim)
    (hp : isFloat p = true) (x y : F) (h : fo.isNan x = true ∨ fo.isNan y = true) :
    binary fo op p p (.flt (size p) x) (.flt (size p) y) = .ok (i1 true) := by
  have hu : (fo.isNan x || fo.isNan y) = true := by
    rcases h with h | h <;> simp [h]
  unfold binary
  rw [if_pos rfl]
  simp only [hp, and_self, if_true]
  cases op <;> simp [isCompare] at hop <;> simp [fltOp, hu]

/-! ## Compound assignment -/

/-- `x op= y` stores what `x = x op y` computes in the type of `x`, for integers where the type of
`x` is at least as large as that of `y`. (The type checker requires `y` to be assignable to `x`.) -/
theorem compound_assign_correct_partial (fo : FloatOps F) (op : Op) (hop : isArith op = true) (l r : Prim)
    (hl : isInteger l = true) (hr : isInteger r = true) (hz : l = r ∨ size r < size l)
    (x y : Int) (hx : Holds l x) (hy : Holds r y) (hshr : op = .shr → 0 ≤ x) :
    compoundAssign fo op l r (rep l x) (rep r y) =
      match arith l op x (conv l y) with
      | some z => .ok (rep l z)
      | none => .ub := by
  have hL := intLike_of_integer hl
  have hR := intLike_of_integer hr
  have hp : promote l r = some l := by
    rw [promote_codegen l r hl hr (by rcases hz with h | h; exact Or.inl h; exact Or.inr (by omega))]
    rcases hz with h | h
    · simp [h]
    · by_cases he : l = r
      · simp [he]
      · have hb : bigger l r = true := by
          unfold bigger
          simp [intLike_notFloat l hL, intLike_notFloat r hR, h]
        simp [he, hb]
  have hb := arithmetic_correct_partial fo op hop l r l hl hr
    (by rcases hz with h | h; exact Or.inl h; exact Or.inr (by omega)) hp x y hx hy
    (by rw [conv_of_holds l hL x hx]; exact hshr)
  rw [conv_of_holds l hL x hx] at hb
  unfold compoundAssign
  rw [hb]
  cases hA : arith l op x (conv l y) with
  | none => rfl
  | some z =>
    simp only [Res.bind_ok]
    by_cases he : l = r
    · rw [if_pos he]
    · rw [if_neg he]
      have hlt : size r < size l := by rcases hz with h | h; exact absurd h he; exact h
      unfold cast
      rw [if_neg he, intLike_notFloat l hL]
      simp only [Bool.false_eq_true, if_false]
      rw [if_pos (show (isInteger l || isCharacter l) = true from hL)]
      have henc := enc_lt (8 * size l) z
      simp only [rep, width_eq l hL]
      have h1 : zextOrTrunc (8 * size l) (enc (8 * size l) z) = enc (8 * size l) z := Nat.mod_eq_of_lt henc
      have h2 : sextOrTrunc (8 * size l) (8 * size l) (enc (8 * size l) z) = enc (8 * size l) z := by
        unfold sextOrTrunc; simp
      rw [h1, h2]
      by_cases hu : (isUnsigned r || isCharacter r) = true
      · rw [if_pos hu]
      · rw [if_neg hu, if_pos]
        cases r <;> simp_all [isInteger, isUnsigned, isCharacter, isSignedInteger]

example : size u8 < size i64 ∧ Holds i64 (-7) ∧ Holds u8 3 ∧ arith i64 .div (-7) (conv i64 3) = some (-2) := by decide

/-- `x op= n` with a float variable and an integer operand, which the checker accepts, generates a
malformed conversion (integer-to-float applied to a float). -/
theorem compound_assign_float_int_malformed (fo : FloatOps F) (l r : Prim) (hl : isFloat l = true)
    (hr : isInteger r = true) (x : F) (y : Int) :
    assignable l r = true ∧
    compoundAssign fo .add l r (.flt (size l) x) (rep r y) = .ub := by
  cases l <;> simp [isFloat] at hl <;> cases r <;> simp [isInteger, isUnsigned, isSignedInteger] at hr <;>
    exact ⟨rfl, rfl⟩

end Verif.Codegen
