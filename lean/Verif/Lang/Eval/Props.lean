import Verif.Lang.Eval.Model
import Verif.Lang.Codegen.Bits
/-! # C26: compile-time against run-time integer arithmetic -/
namespace Verif.Eval
open Verif.Codegen
open Verif.Prim (Holds)
open Verif.Prim.Prim

/-! ## Independent meaning: exact integer arithmetic -/

/-- The exact mathematical result of an operator, where it has one. -/
def exact : Op → Int → Int → Option Int
  | .add, x, y => some (x + y)
  | .sub, x, y => some (x - y)
  | .mul, x, y => some (x * y)
  | .div, x, y => if y = 0 then none else some (Int.tdiv x y)
  | .mod, x, y => if y = 0 then none else some (Int.tmod x y)
  | .shl, x, y => if 0 ≤ y ∧ y < 64 then some (x * 2 ^ y.toNat) else none
  | .shr, x, y => if 0 ≤ y ∧ y < 64 then some (x / 2 ^ y.toNat) else none
  | .band, x, y => if 0 ≤ x ∧ 0 ≤ y then some (x.toNat &&& y.toNat : Nat) else none
  | .bor, x, y => if 0 ≤ x ∧ 0 ≤ y then some (x.toNat ||| y.toNat : Nat) else none
  | .bxor, x, y => if 0 ≤ x ∧ 0 ≤ y then some (x.toNat ^^^ y.toNat : Nat) else none
  | _, _, _ => none

/-- Integers a double represents exactly. -/
def Fits (v : Int) : Prop := -2 ^ 53 ≤ v ∧ v ≤ 2 ^ 53

/-- Run-time evaluation of the same expression on `i64` operands. -/
def run {F : Type} (fo : FloatOps F) : Expr → Res (LVal F)
  | .lit v => .ok (rep i64 v)
  | .bin op a b => (run fo a).bind fun x => (run fo b).bind fun y => Codegen.binary fo op i64 i64 x y
  | .neg a => (run fo a).bind fun x => Codegen.binary fo .sub i64 i64 (rep i64 0) x

theorem rndNat_exact (n : Nat) (h : n ≤ 2 ^ 53) : rndNat n = n := by
  unfold rndNat
  by_cases hn : n < 2 ^ 53
  · rw [if_pos hn]
  · have : n = 2 ^ 53 := by omega
    subst this
    decide +kernel

theorem rnd_exact (v : Int) (h : Fits v) : rnd v = v := by
  obtain ⟨h1, h2⟩ := h
  unfold rnd
  have : v.natAbs ≤ 2 ^ 53 := by omega
  rw [rndNat_exact _ this]
  split <;> omega

theorem setInt_ok (stale : Bool) (z : Int) (h0 : 0 ≤ z) (h1 : z ≤ 2 ^ 53) : setInt stale z = .ok z := by
  have e : toI64 z = .ok z := by unfold toI64; rw [if_pos (by omega)]
  have e2 : toU64AsI64 z = .ok z := by
    unfold toU64AsI64; rw [if_pos (by omega), if_pos (by omega)]
  unfold setInt
  rw [e]; cases stale <;> simp [e2]

theorem both_ok (x y : Int) (hx : Fits x) (hy : Fits y) (f : Int → Int → Res Int) : both x y f = f x y := by
  unfold both
  rw [rnd_exact x hx, rnd_exact y hy]
  have e : ∀ v, Fits v → toI64 v = .ok v := by
    intro v hv; unfold Fits at hv; unfold toI64; rw [if_pos (by omega)]
  rw [e x hx, Res.bind_ok, e y hy, Res.bind_ok]

theorem fits_nonneg {z : Int} (h0 : 0 ≤ z) (h1 : z ≤ 2 ^ 53) : Fits z := ⟨by omega, h1⟩

theorem wrap64_small (z : Int) (h0 : 0 ≤ z) (h1 : z ≤ 2 ^ 53) : wrap64 z = z := by
  unfold wrap64
  rw [Int.bmod_def]
  simp only [Nat.reducePow, Int.reducePow]
  split <;> omega

theorem enc_fits (x : Int) (h0 : 0 ≤ x) (h : Fits x) : Codegen.enc 64 x = x.toNat := by
  unfold Fits at h
  unfold Codegen.enc
  omega

/-- One operator at compile time: exact when the operands and the result are in the exact range of a
double and the result is not negative. -/
theorem binary_exact (stale : Bool) (op : Op) (x y z : Int) (hx : Fits x) (hy : Fits y)
    (h : exact op x y = some z) (h0 : 0 ≤ z) (h1 : z ≤ 2 ^ 53) : binary stale op x y = .ok (.int z) := by
  have ez := rnd_exact z (fits_nonneg h0 h1)
  have es := setInt_ok stale z h0 h1
  have hx2 := hx
  have hy2 := hy
  unfold Fits at hx2 hy2
  cases op <;> simp [exact] at h
  case add => subst h; simp only [binary, rnd_exact x hx, rnd_exact y hy, ez, es, Res.map_ok]
  case sub => subst h; simp only [binary, rnd_exact x hx, rnd_exact y hy, ez, es, Res.map_ok]
  case mul => subst h; simp only [binary, rnd_exact x hx, rnd_exact y hy, ez, es, Res.map_ok]
  case div =>
    obtain ⟨hy0, rfl⟩ := h
    simp only [binary, both_ok x y hx hy]
    rw [if_neg (by omega), ez, es, Res.map_ok]
  case mod =>
    obtain ⟨hy0, rfl⟩ := h
    simp only [binary, both_ok x y hx hy]
    rw [if_neg (by omega), ez, es, Res.map_ok]
  case shl =>
    obtain ⟨hy0, rfl⟩ := h
    simp only [binary, both_ok x y hx hy]
    rw [if_neg (by omega), wrap64_small _ h0 h1, ez, es, Res.map_ok]
  case shr =>
    obtain ⟨hy0, rfl⟩ := h
    simp only [binary, both_ok x y hx hy]
    rw [if_neg (by omega), ez, es, Res.map_ok]
  all_goals
    obtain ⟨⟨hx0, hy0⟩, rfl⟩ := h
    simp only [binary, both_ok x y hx hy, bitop, enc_fits x hx0 hx, enc_fits y hy0 hy, wrap64_small _ h0 h1, ez, es,
      Res.map_ok]

theorem fits_holds {v : Int} (h : Fits v) : Holds i64 v := by
  unfold Fits at h; simp only [Holds]; omega

/-- One operator at run time. -/
theorem run_exact {F : Type} (fo : FloatOps F) (op : Op) (x y z : Int) (hx : Fits x) (hy : Fits y)
    (h : exact op x y = some z) (h1 : Fits z) (hshr : op = .shr → 0 ≤ x) :
    Codegen.binary fo op i64 i64 (rep i64 x) (rep i64 y) = .ok (rep i64 z) := by
  by_cases hB : op = .band ∨ op = .bor ∨ op = .bxor
  · have hb := binary_rep fo op i64 i64 rfl rfl x y (fits_holds hx) (fits_holds hy)
    simp only [if_true] at hb
    rw [hb]
    have e8 : 8 * Prim.size i64 = 64 := rfl
    rcases hB with rfl | rfl | rfl <;> simp [exact] at h <;> obtain ⟨⟨hx0, hy0⟩, rfl⟩ := h <;>
      simp only [e8, intOp, rep, enc_fits x hx0 hx, enc_fits y hy0 hy] <;>
      rw [enc_fits _ (Int.natCast_nonneg _) h1, Int.toNat_natCast]
  have hA : isArith op = true := by cases op <;> simp [exact] at h hB <;> rfl
  have hc : ∀ v, Fits v → conv i64 v = v := fun v hv => conv_of_holds i64 rfl v (fits_holds hv)
  rw [arithmetic_correct_partial fo op hA i64 i64 i64 rfl rfl (Or.inl rfl) rfl x y (fits_holds hx) (fits_holds hy)
    (by rw [hc x hx]; exact hshr), hc x hx, hc y hy]
  have : arith i64 op x y = some z := by
    cases op <;> simp [exact] at h
    case add => subst h; simp only [arith, hc _ h1]
    case sub => subst h; simp only [arith, hc _ h1]
    case mul => subst h; simp only [arith, hc _ h1]
    case div =>
      obtain ⟨hy0, rfl⟩ := h
      simp only [arith]; rw [if_neg hy0, if_pos (fits_holds h1)]
    case mod =>
      obtain ⟨hy0, rfl⟩ := h
      simp only [arith]
      rw [if_neg hy0, if_pos]
      have := Int.natAbs_tdiv_le_natAbs x y
      unfold Fits at hx
      simp only [Holds]; omega
    case shl =>
      obtain ⟨hy0, rfl⟩ := h
      simp only [arith]; rw [if_pos (by simpa [Prim.size] using hy0), hc _ h1]
    case shr =>
      obtain ⟨hy0, rfl⟩ := h
      simp only [arith]; rw [if_pos (by simpa [Prim.size] using hy0)]
    all_goals exact absurd hA (by decide)
  rw [this]

/-- Expressions all of whose intermediate values are in the exact range of a double, with no negative
operator result (a negative literal or prefix minus is fine) and no `>>` of a negative number. -/
inductive Small : Expr → Int → Prop
  | lit (v : Int) : Fits v → Small (.lit v) v
  | neg (a : Expr) (v : Int) : Small a v → Small (.neg a) (-v)
  | bin (op : Op) (a b : Expr) (x y z : Int) : Small a x → Small b y → exact op x y = some z →
      0 ≤ z → z ≤ 2 ^ 53 → (op = .shr → 0 ≤ x) → Small (.bin op a b) z

theorem Small.fits {e : Expr} {v : Int} (h : Small e v) : Fits v := by
  induction h with
  | lit v h => exact h
  | neg a v _ ih => unfold Fits at *; omega
  | bin op a b x y z _ _ _ h0 h1 _ _ _ => exact fits_nonneg h0 h1

/-- On such expressions, of any size, the compiler's evaluator and the generated code agree, and both
give the mathematical value. Missing from C26: everything outside `Small`, where it is false. -/
theorem comptime_agrees_with_runtime_partial {F : Type} (fo : FloatOps F) (stale : Expr → Bool) (e : Expr) (v : Int)
    (h : Small e v) : eval stale e = .ok v ∧ run fo e = .ok (rep i64 v) := by
  induction h with
  | lit v h => exact ⟨rfl, rfl⟩
  | neg a v ha ih =>
    have hf := ha.fits
    have hf2 : Fits (-v) := by unfold Fits at *; omega
    refine ⟨?_, ?_⟩
    · simp only [eval, ih.1, Res.bind_ok, Eval.neg, rnd_exact v hf, rnd_exact _ hf2]
      unfold Fits at hf
      split
      · unfold toI64; rw [if_pos (by omega)]
      · unfold toU64AsI64; rw [if_pos (by omega), if_pos (by omega)]
    · simp only [run, ih.2, Res.bind_ok]
      exact run_exact fo .sub 0 v (-v) (by unfold Fits; omega) hf (by simp [exact]) hf2 (by intro h; cases h)
  | bin op a b x y z ha hb hz h0 h1 hshr iha ihb =>
    refine ⟨?_, ?_⟩
    · simp only [eval, iha.1, ihb.1, Res.bind_ok, binary_exact _ op x y z ha.fits hb.fits hz h0 h1]
    · simp only [run, iha.2, ihb.2, Res.bind_ok]
      exact run_exact fo op x y z ha.fits hb.fits hz (fits_nonneg h0 h1) hshr

/-- A comparison of two such expressions gives the mathematical answer at compile time and at run time. -/
theorem comptime_comparison_agrees_partial {F : Type} (fo : FloatOps F) (stale : Expr → Bool) (op : Op)
    (hop : isCompare op = true) (a b : Expr) (x y : Int) (ha : Small a x) (hb : Small b y) :
    ∃ c, Codegen.compare op x y = some c ∧
      ((eval stale a).bind fun u => (eval stale b).bind fun v => binary (stale (.bin op a b)) op u v) = .ok (.bool c) ∧
      run fo (.bin op a b) = .ok (i1 c) := by
  have h1 := comptime_agrees_with_runtime_partial fo stale a x ha
  have h2 := comptime_agrees_with_runtime_partial fo stale b y hb
  obtain ⟨c, hc, hr⟩ := comparison_correct_partial fo op hop i64 i64 rfl rfl (Or.inl rfl) x y
    (fits_holds ha.fits) (fits_holds hb.fits)
  refine ⟨c, hc, ?_, ?_⟩
  · rw [h1.1, h2.1, Res.bind_ok, Res.bind_ok]
    cases op <;> simp [isCompare] at hop <;> simp only [Codegen.compare, Option.some.injEq] at hc <;> subst hc <;>
      simp only [binary, rnd_exact x ha.fits, rnd_exact y hb.fits]
  · simp only [run, h1.2, h2.2, Res.bind_ok, hr]

example : Small (.bin .bxor (.lit 12) (.bin .band (.lit 6) (.lit 3))) 14 ∧ isCompare .geq = true := by
  refine ⟨.bin _ _ _ 12 2 _ (.lit _ ?_) (.bin _ _ _ 6 3 _ (.lit _ ?_) (.lit _ ?_) ?_ ?_ ?_ ?_) ?_ ?_ ?_ ?_, rfl⟩ <;>
    simp [Fits, exact]

/-- `(7 - -3) * 6 / 4` -/
example : Small (.bin .div (.bin .mul (.bin .sub (.lit 7) (.neg (.lit 3))) (.lit 6)) (.lit 4)) 15 := by
  refine .bin _ _ _ 60 4 _ (.bin _ _ _ 10 6 _ (.bin _ _ _ 7 (-3) _ (.lit _ ?_) (.neg _ 3 (.lit _ ?_)) ?_ ?_ ?_ ?_)
    (.lit _ ?_) ?_ ?_ ?_ ?_) (.lit _ ?_) ?_ ?_ ?_ ?_ <;> simp [Fits, exact]

/-! ## Where the two disagree -/

/-- A negative difference of small literals is undefined behaviour in the compiler whenever the stale
byte happens to be zero: a negative double is converted to `u64`. -/
theorem negative_result_undefined (x y : Int) (hx : Fits x) (hy : Fits y) (hd : Fits (x - y)) (h : x < y) :
    binary false .sub x y = .ub ∧ binary true .sub x y = .ok (.int (x - y)) := by
  simp only [binary, rnd_exact x hx, rnd_exact y hy, rnd_exact _ hd]
  unfold Fits at hd
  have e : toI64 (x - y) = .ok (x - y) := by unfold toI64; rw [if_pos (by omega)]
  have e2 : toU64AsI64 (x - y) = .ub := by unfold toU64AsI64; rw [if_neg (by omega)]
  constructor
  · simp only [setInt, e, Res.bind_ok, Bool.false_eq_true, if_false, e2]; rfl
  · simp only [setInt, e, Res.bind_ok, if_true]; rfl

example : Fits 1 ∧ Fits 2 ∧ Fits (1 - 2) ∧ (1 : Int) < 2 := by simp [Fits]

/-- Precision is lost above `2^53`: adding zero changes the value, while the generated code keeps it. -/
theorem comptime_loses_precision {F : Type} (fo : FloatOps F) (stale : Bool) :
    binary stale .add (2 ^ 53 + 1) 0 = .ok (.int (2 ^ 53)) ∧
    Codegen.binary fo .add i64 i64 (rep i64 (2 ^ 53 + 1)) (rep i64 0) = .ok (rep i64 (2 ^ 53 + 1)) := by
  refine ⟨by cases stale <;> decide +kernel, ?_⟩
  rw [arithmetic_correct_partial fo .add rfl i64 i64 i64 rfl rfl (Or.inl rfl) rfl _ _ (by decide) (by decide)
    (by intro h; cases h)]
  rfl

/-- Two different integers compare equal at compile time. -/
theorem comptime_equality_wrong (stale : Bool) :
    binary stale .eq (2 ^ 53) (2 ^ 53 + 1) = .ok (.bool true) ∧
    binary stale .lt (2 ^ 53) (2 ^ 53 + 1) = .ok (.bool false) := by
  cases stale <;> decide +kernel

/-- A shift of a negative number is arithmetic at compile time and logical at run time. -/
theorem shift_disagrees {F : Type} (fo : FloatOps F) (x y : Int) (hx : Fits x) (hneg : x < 0)
    (hy : 0 < y) (hy2 : y < 64) :
    ∃ z z', binary true .shr x y = .ok (.int z) ∧ z < 0 ∧
      Codegen.binary fo .shr i64 i64 (rep i64 x) (rep i64 y) = .ok (rep i64 z') ∧ 0 ≤ z' ∧ Holds i64 z' := by
  obtain ⟨z', h1, h2, h3, h4⟩ := shr_of_negative_wrong fo i64 rfl x y (fits_holds hx) hneg hy
    (by simpa [Prim.size] using hy2) (by simp only [Holds]; omega)
  refine ⟨x / 2 ^ y.toNat, z', ?_, h4, h1, h3, h2⟩
  have hq : Fits (x / 2 ^ y.toNat) := by
    unfold Fits at *
    have hp : (0 : Int) < 2 ^ y.toNat := Int.pow_pos (by decide)
    refine ⟨?_, by omega⟩
    have h5 : -2 ^ 53 ≤ x := hx.1
    have : x ≤ x / 2 ^ y.toNat := by
      rw [Int.le_ediv_iff_mul_le hp]
      have : (1 : Int) ≤ 2 ^ y.toNat := hp
      calc x * 2 ^ y.toNat ≤ x * 1 := Int.mul_le_mul_of_nonpos_left (by omega) this
        _ = x := Int.mul_one x
    omega
  simp only [binary, both_ok x y hx (by unfold Fits; omega)]
  rw [if_neg (by omega), rnd_exact _ hq]
  unfold Fits at hq
  have e : toI64 (x / 2 ^ y.toNat) = .ok (x / 2 ^ y.toNat) := by unfold toI64; rw [if_pos (by omega)]
  simp only [setInt, e, Res.bind_ok, if_true]; rfl

example : Fits (-8) ∧ (-8 : Int) < 0 := by simp [Fits]

/-- Division and remainder by a literal zero are undefined behaviour in the compiler itself. -/
theorem comptime_division_by_zero (stale : Bool) (x : Int) (hx : Fits x) :
    binary stale .div x 0 = .ub ∧ binary stale .mod x 0 = .ub := by
  have h0 : Fits 0 := by simp [Fits]
  constructor <;> · simp only [binary, both_ok x 0 hx h0]; rfl

/-- Negating a float literal at compile time drops its fraction: `-1.5` becomes `-1`. -/
theorem comptime_negated_float_truncated : negFloat 3 1 = .ok (-1) := by decide

end Verif.Eval
