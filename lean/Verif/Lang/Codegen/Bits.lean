import Verif.Lang.Codegen.Props
/-! # C59, C63: bitwise operators, float arithmetic and float comparisons -/
namespace Verif.Codegen
open Verif.Prim
open Verif.Prim.Prim
variable {F : Type}

/-! ## Bitwise operators -/

/-- Bit `i` of an integer in two's complement. -/
def bit (v : Int) (i : Nat) : Bool := decide (v / 2 ^ i % 2 = 1)

/-- Meaning of a bitwise operator on one bit. -/
def bitOp : Op → Option (Bool → Bool → Bool)
  | .band => some (fun a b => a && b)
  | .bor => some (fun a b => a || b)
  | .bxor => some (fun a b => a != b)
  | _ => none

theorem bit_natCast (n i : Nat) : bit (n : Int) i = n.testBit i := by
  unfold bit
  rw [Nat.testBit_eq_decide_div_mod_eq]
  have : ((n : Int) / 2 ^ i) % 2 = ((n / 2 ^ i % 2 : Nat) : Int) := by simp
  rw [this]
  congr 1
  apply propext
  omega

/-- Bits below the width do not change when a multiple of the width's power is added. -/
theorem bit_add_mul (w : Nat) (v k : Int) (i : Nat) (h : i < w) : bit (v + k * 2 ^ w) i = bit v i := by
  unfold bit
  have hw : (2 : Int) ^ w = 2 ^ i * (2 * 2 ^ (w - i - 1)) := by
    rw [← Int.pow_succ', ← Int.pow_add]; congr 1; omega
  have h2 : (v + k * 2 ^ w) / 2 ^ i = v / 2 ^ i + k * (2 * 2 ^ (w - i - 1)) := by
    rw [hw, show k * (2 ^ i * (2 * 2 ^ (w - i - 1))) = (k * (2 * 2 ^ (w - i - 1))) * 2 ^ i by
      rw [Int.mul_assoc k, Int.mul_comm (2 * 2 ^ (w - i - 1)) (2 ^ i)]]
    exact Int.add_mul_ediv_right _ _ (by have := Int.pow_pos (n := 2) (m := i) (by decide); omega)
  rw [h2, show k * (2 * 2 ^ (w - i - 1)) = (k * 2 ^ (w - i - 1)) * 2 by
    rw [Int.mul_comm 2, Int.mul_assoc]]
  rw [Int.add_mul_emod_self_right]

theorem bit_emod (w : Nat) (v : Int) (i : Nat) (h : i < w) : bit (v % 2 ^ w) i = bit v i := by
  have := bit_add_mul w (v % 2 ^ w) (v / 2 ^ w) i h
  rw [Int.mul_comm, Int.emod_add_mul_ediv] at this
  exact this.symm

theorem bit_enc (w : Nat) (v : Int) (i : Nat) (h : i < w) : (enc w v).testBit i = bit v i := by
  rw [← bit_natCast, enc_cast, bit_emod w v i h]

theorem enc_of_lt (w n : Nat) (h : n < 2 ^ w) : enc w (n : Int) = n := by
  unfold enc
  have hp := pow_cast w
  rw [Int.emod_eq_of_lt (by omega) (by omega)]
  rfl

/-- The code generated for `&`, `|` and `^` combines the operands bit by bit in the type of the
expression: bit `i` of the result is that operator on bit `i` of both operands converted to that type. -/
theorem bitwise_correct_partial (fo : FloatOps F) (op : Op) (f : Bool → Bool → Bool) (hop : bitOp op = some f)
    (l r T : Prim) (hl : isInteger l = true) (hr : isInteger r = true) (hz : l = r ∨ size l ≠ size r)
    (hT : promote l r = some T) (x y : Int) (hx : Holds l x) (hy : Holds r y) :
    ∃ z, binary fo op l r (rep l x) (rep r y) = .ok (rep T z) ∧ Holds T z ∧
      ∀ i, i < 8 * size T → bit z i = f (bit x i) (bit y i) := by
  have hTi := intLike_of_integer (promote_isInteger l r hl hr T hT)
  have hT' := promote_codegen l r hl hr hz
  rw [hT] at hT'
  have hT'' := Option.some.inj hT'
  have hb := binary_rep fo op l r hl hr x y hx hy
  simp only [← hT''] at hb
  have hex := enc_lt (8 * size T) x
  have hey := enc_lt (8 * size T) y
  have key : ∀ n : Nat, n < 2 ^ (8 * size T) → (∀ i, i < 8 * size T → n.testBit i = f (bit x i) (bit y i)) →
      ∃ z, (.ok (.int (8 * size T) n) : Res (LVal F)) = .ok (rep T z) ∧ Holds T z ∧
        ∀ i, i < 8 * size T → bit z i = f (bit x i) (bit y i) := by
    intro n hn hbits
    refine ⟨conv T n, ?_, conv_holds T hTi _, ?_⟩
    · unfold rep; rw [enc_conv, enc_of_lt _ _ hn]
    · intro i hi
      rw [← bit_enc (8 * size T) _ i hi, enc_conv, enc_of_lt _ _ hn, hbits i hi]
  rw [hb]
  cases op <;> simp [bitOp] at hop <;> subst hop <;> simp only [intOp] <;> apply key
  · exact Nat.and_lt_two_pow _ hey
  · intro i hi; rw [Nat.testBit_and, bit_enc _ _ _ hi, bit_enc _ _ _ hi]
  · exact Nat.or_lt_two_pow hex hey
  · intro i hi; rw [Nat.testBit_or, bit_enc _ _ _ hi, bit_enc _ _ _ hi]
  · exact Nat.xor_lt_two_pow hex hey
  · intro i hi; rw [Nat.testBit_xor, bit_enc _ _ _ hi, bit_enc _ _ _ hi]

/-- A value of a type is determined by its bits, so the bits above are all there is to say. -/
theorem bits_determine (T : Prim) (hT : isIntLike T = true) (u v : Int) (hu : Holds T u) (hv : Holds T v)
    (h : ∀ i, i < 8 * size T → bit u i = bit v i) : u = v := by
  refine rep_injective (F := Unit) T hT u v hu hv ?_
  unfold rep
  congr 1
  apply Nat.eq_of_testBit_eq
  intro i
  by_cases hi : i < 8 * size T
  · rw [bit_enc _ _ _ hi, bit_enc _ _ _ hi, h i hi]
  · have : ∀ w : Int, (enc (8 * size T) w).testBit i = false := fun w =>
      Nat.testBit_lt_two_pow (Nat.lt_of_lt_of_le (enc_lt _ w) (Nat.pow_le_pow_right (by decide) (by omega)))
    rw [this, this]

example : bitOp .bxor = some (fun a b => a != b) ∧ promote u8 i32 = some i32 ∧ Holds u8 200 ∧ Holds i32 (-7) ∧
    bit (-7) 31 = true ∧ bit (-7) 1 = false := ⟨rfl, by decide⟩

/-! ## Floats -/

/-- The float operation an arithmetic operator stands for. -/
def floatOf (fo : FloatOps F) : Op → Option (Nat → F → F → F)
  | .add => some fo.add
  | .sub => some fo.sub
  | .mul => some fo.mul
  | .div => some fo.div
  | .mod => some fo.rem
  | _ => none

/-- A float operation on operands of float types is carried out in the bigger of the two types, with
the other operand converted to it, which is also the type the checker gives to the expression. -/
theorem float_arithmetic_correct (fo : FloatOps F) (op : Op) (g : Nat → F → F → F) (hop : floatOf fo op = some g)
    (l r T : Prim) (hl : isFloat l = true) (hr : isFloat r = true) (hT : promote l r = some T) (x y : F) :
    binary fo op l r (.flt (size l) x) (.flt (size r) y) =
      .ok (.flt (size T) (g (size T) (if l = T then x else fo.resize (size T) x)
        (if r = T then y else fo.resize (size T) y))) ∧
    size T = max (size l) (size r) := by
  cases l <;> simp [isFloat] at hl <;> cases r <;> simp [isFloat] at hr <;>
    simp [promote, isInteger, isUnsigned, isSignedInteger, isFloat, size] at hT <;> subst hT <;>
    cases op <;> simp [floatOf] at hop <;> subst hop <;> exact ⟨rfl, rfl⟩

example : promote f32 f64 = some f64 ∧ isFloat f32 = true := by decide

/-- A float operation with one integer operand converts the integer first. -/
theorem float_int_arithmetic_partial (fo : FloatOps F) (op : Op) (g : Nat → F → F → F) (hop : floatOf fo op = some g)
    (l r : Prim) (hl : isFloat l = true) (hr : isInteger r = true) (x : F) (v : Int) (h0 : 0 ≤ v)
    (h1 : v < 2 ^ (8 * size r - 1)) :
    binary fo op l r (.flt (size l) x) (rep r v) = .ok (.flt (size l) (g (size l) x (fo.ofInt (size l) v))) ∧
    binary fo op r l (rep r v) (.flt (size l) x) = .ok (.flt (size l) (g (size l) (fo.ofInt (size l) v) x)) ∧
    promote l r = some l ∧ promote r l = some l := by
  have hc := int_to_float_partial fo l r hl (intLike_of_integer hr) v h0 h1
  have hne : l ≠ r := by intro h; subst h; rw [intLike_notFloat _ (intLike_of_integer hr)] at hl; cases hl
  have hrf := intLike_notFloat r (intLike_of_integer hr)
  refine ⟨?_, ?_, ?_, ?_⟩
  · unfold binary
    rw [if_neg hne, if_pos (by unfold bigger; simp [hl, hrf]), hc]
    simp only [Res.bind_ok, hl, and_self, if_true]
    cases op <;> simp [floatOf] at hop <;> subst hop <;> rfl
  · unfold binary
    rw [if_neg (Ne.symm hne), if_neg (by unfold bigger; simp [hl, hrf]), hc]
    simp only [Res.bind_ok, hl, and_self, if_true]
    cases op <;> simp [floatOf] at hop <;> subst hop <;> rfl
  · revert hl hr; cases l <;> cases r <;> decide
  · revert hl hr; cases l <;> cases r <;> decide

example : isFloat f32 = true ∧ isInteger i32 = true ∧ (0 : Int) ≤ 7 ∧ (7 : Int) < 2 ^ (8 * size i32 - 1) := by decide

/-- The order of the numbers among the floats: `key` places every float that is not a NaN on a line. -/
def Ordered (fo : FloatOps F) (key : F → Int) : Prop :=
  ∀ x y, fo.isNan x = false → fo.isNan y = false →
    fo.lt x y = decide (key x < key y) ∧ fo.eq x y = decide (key x = key y)

/-- Without a NaN every float comparison gives the mathematical answer (with one: `nan_comparisons_true`). -/
theorem float_comparison_partial (fo : FloatOps F) (key : F → Int) (ho : Ordered fo key) (op : Op)
    (hop : isCompare op = true) (p : Prim) (hp : isFloat p = true) (x y : F) (hx : fo.isNan x = false)
    (hy : fo.isNan y = false) :
    ∃ b, compare op (key x) (key y) = some b ∧
      binary fo op p p (.flt (size p) x) (.flt (size p) y) = .ok (i1 b) := by
  obtain ⟨h1, h2⟩ := ho x y hx hy
  obtain ⟨h3, _⟩ := ho y x hy hx
  unfold binary
  rw [if_pos rfl]
  simp only [hp, and_self, if_true]
  cases op <;> simp [isCompare] at hop <;> refine ⟨_, rfl, ?_⟩ <;> simp only [fltOp, hx, hy, h1, h2, h3] <;>
    congr 2 <;> rw [Bool.eq_iff_iff] <;>
    simp only [Bool.or_self, Bool.false_or, Bool.or_eq_true, Bool.not_eq_true', decide_eq_true_eq,
      decide_eq_false_iff_not] <;> omega

/-- Floats as tenths, with a NaN. -/
example : Ordered (F := Option Int)
    ⟨fun _ v => some (10 * v), fun _ x => x, fun x => x.getD 0 / 10, fun _ _ _ => none, fun _ _ _ => none,
     fun _ _ _ => none, fun _ _ _ => none, fun _ _ _ => none, Option.isNone,
     fun x y => decide (x.getD 0 < y.getD 0), fun x y => decide (x.getD 0 = y.getD 0)⟩ (fun x => x.getD 0) :=
  fun _ _ _ _ => ⟨rfl, rfl⟩

end Verif.Codegen
