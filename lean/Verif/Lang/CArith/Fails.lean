import Verif.Lang.CArith.Props
/-! # C171, C172: where C computes something else -/
namespace Verif.CArith
open Verif.Prim (Prim Holds isInteger isSignedInteger isUnsigned size promote)
open Verif.Codegen (Op conv arith isIntLike)
open Verif.CLit (CT)

/-- `+`, `-` and `*`. -/
def isRing : Op → Bool
  | .add | .sub | .mul => true
  | _ => false

/-! ## Results that are stored again -/

theorem conv_congr {p : Prim} {a b : Int} (h : a % 2 ^ (8 * size p) = b % 2 ^ (8 * size p)) : conv p a = conv p b := by
  unfold conv
  split
  · rw [← Int.emod_bmod, ← Int.emod_bmod (x := b)]
    have : ((2 ^ (8 * size p) : Nat) : Int) = 2 ^ (8 * size p) := by push_cast; rfl
    rw [this, h]
  · exact h

theorem ring_congr {op : Op} (h : isRing op = true) {n a b c d : Int} (h1 : a % n = c % n) (h2 : b % n = d % n) :
    exact op a b % n = exact op c d % n := by
  cases op <;> simp [isRing] at h <;> simp only [exact]
  · rw [Int.add_emod, h1, h2, ← Int.add_emod]
  · rw [Int.sub_emod, h1, h2, ← Int.sub_emod]
  · rw [Int.mul_emod, h1, h2, ← Int.mul_emod]

/-- Variables and literals of type `p` (literals as C types them), `+`, `-` and `*`. -/
def Ring (G : Nat → Prim) (p : Prim) : E → Prop
  | .var n => G n = p
  | .lit t v => t = p ∧ Holds p v ∧ v ≠ -2 ^ 63 ∧ litType t v = CT.of p
  | .bin op l r => isRing op = true ∧ Ring G p l ∧ Ring G p r
  | .cast _ _ => False

theorem ring_type (G : Nat → Prim) {p : Prim} (hp : isInteger p = true) : ∀ e, Ring G p e → typeOf G e = some p
  | .var n, h => by
    have hk : okType p = true := by simp [okType, hp]
    have : G n = p := h
    simp [typeOf, this, hk]
  | .lit t v, h => by
    obtain ⟨rfl, _⟩ := h
    simp [typeOf, hp]
  | .bin op l r, h => by
    have hk : okType p = true := by simp [okType, hp]
    obtain ⟨h1, h2, h3⟩ := h
    have a := ring_type G hp l h2
    have b := ring_type G hp r h3
    cases op <;> simp [isRing] at h1 <;> simp [typeOf, a, b, hk, promote, isCompare, isArith]
  | .cast _ _, h => h.elim

theorem usual_self (c : CT) : usual c c = c := by cases c <;> rfl

theorem conv_mod (c : CT) (v : Int) : c.conv v % 2 ^ c.width = v % 2 ^ c.width := by
  cases c <;> simp only [CT.conv, CT.signed, CT.width, if_true, Bool.false_eq_true, if_false]
  · exact Int.bmod_emod
  · exact Int.emod_emod_of_dvd _ (by simp)
  · exact Int.bmod_emod
  · exact Int.emod_emod_of_dvd _ (by simp)

theorem emod_of_width {a b : Int} {m n : Nat} (hmn : m ≤ n) (h : a % 2 ^ n = b % 2 ^ n) : a % 2 ^ m = b % 2 ^ m := by
  have hd : (2 ^ m : Int) ∣ 2 ^ n := pow_dvd_pow 2 hmn
  rw [← Int.emod_emod_of_dvd a hd, h, Int.emod_emod_of_dvd b hd]

/-- **C171 (partial).** Sums, differences and products of variables of one type, stored in a variable of that type, are right also when
they overflow, as long as C defines them. -/
theorem stored_result_partial (G : Nat → Prim) (ρ : Nat → Int) (p : Prim) (hp : isInteger p = true) :
    ∀ e, Ring G p e → ∀ c z, evalC G ρ e = some (c, z) →
      c = CT.of p ∧ ∃ v, evalL G ρ e = some v ∧ v % 2 ^ (8 * size p) = z % 2 ^ (8 * size p)
  | .var n, h, c, z, hz => by
    have : G n = p := h
    simp only [evalC, Option.some.injEq, Prod.mk.injEq] at hz
    exact ⟨by rw [← hz.1, this], ρ n, rfl, by rw [hz.2]⟩
  | .lit t v, h, c, z, hz => by
    obtain ⟨rfl, h1, h2, h3⟩ := h
    simp only [evalC, cInt_type t v hp h1 h2, Option.some.injEq, Prod.mk.injEq] at hz
    exact ⟨by rw [← hz.1, h3], v, rfl, by rw [hz.2]⟩
  | .bin op l r, h, c, z, hz => by
    have hk : okType p = true := by simp [okType, hp]
    obtain ⟨h1, h2, h3⟩ := h
    simp only [evalC, Option.bind_eq_some_iff] at hz
    obtain ⟨⟨ca, x⟩, hx, ⟨cb, y⟩, hy, hz⟩ := hz
    obtain ⟨rfl, vx, ex, mx⟩ := stored_result_partial G ρ p hp l h2 ca x hx
    obtain ⟨rfl, vy, ey, my⟩ := stored_result_partial G ρ p hp r h3 cb y hy
    have hw := width_cover (covers_of hk)
    have tl := ring_type G hp l h2
    have tr := ring_type G hp r h3
    have key : (c, z) = (CT.of p, z) ∧
        z % 2 ^ (8 * size p) = exact op ((CT.of p).conv x) ((CT.of p).conv y) % 2 ^ (8 * size p) := by
      have hs : settle (CT.of p) (exact op ((CT.of p).conv x) ((CT.of p).conv y)) = some (c, z) := by
        cases op <;> simp [isRing] at h1 <;> simp only [cbin, usual_self] at hz <;> exact hz
      unfold settle at hs
      split at hs
      · split at hs
        · simp only [Option.some.injEq, Prod.mk.injEq] at hs
          exact ⟨by rw [hs.1], by rw [hs.2]⟩
        · exact absurd hs (by simp)
      · simp only [Option.some.injEq, Prod.mk.injEq] at hs
        refine ⟨by rw [hs.1], ?_⟩
        rw [← hs.2]
        exact emod_of_width hw (conv_mod _ _)
    refine ⟨(Prod.mk.inj key.1).1, conv p (exact op (conv p vx) (conv p vy)), ?_, ?_⟩
    · cases op <;> simp [isRing] at h1 <;> simp [evalL, ex, ey, tl, tr, promote, isCompare, arith, exact]
    · rw [Codegen.conv_emod, key.2]
      refine ring_congr h1 ?_ ?_
      · rw [Codegen.conv_emod, mx]
        exact (emod_of_width hw (conv_mod _ _)).symm
      · rw [Codegen.conv_emod, my]
        exact (emod_of_width hw (conv_mod _ _)).symm
  | .cast _ _, h, _, _, _ => h.elim

/-- `a * a + b` with `u16`: 90005 in C, stored as 24469. -/
example : let G : Nat → Prim := fun _ => .u16
    Ring G .u16 (.bin .add (.bin .mul (.var 0) (.var 0)) (.var 1)) ∧
    evalC G (fun n => if n = 0 then 300 else 5) (.bin .add (.bin .mul (.var 0) (.var 0)) (.var 1)) = some (.int, 90005) ∧
    evalL G (fun n => if n = 0 then 300 else 5) (.bin .add (.bin .mul (.var 0) (.var 0)) (.var 1)) = some 24469 := by
  refine ⟨⟨rfl, ⟨rfl, rfl, rfl⟩, rfl⟩, by decide, by decide⟩

/-! ## Results that are used at once -/

theorem two_vars (G : Nat → Prim) (ρ : Nat → Int) (p : Prim) (hp : isInteger p = true) (op : Op) (h : isRing op = true)
    (h0 : G 0 = p) (h1 : G 1 = p) (hx : Holds p (ρ 0)) (hy : Holds p (ρ 1)) :
    evalL G ρ (.bin op (.var 0) (.var 1)) = some (conv p (exact op (ρ 0) (ρ 1))) ∧
    evalC G ρ (.bin op (.var 0) (.var 1)) = settle (CT.of p) (exact op (ρ 0) (ρ 1)) := by
  have hk : okType p = true := by simp [okType, hp]
  have cx := Codegen.conv_of_holds p (okType_intLike hk) _ hx
  have cy := Codegen.conv_of_holds p (okType_intLike hk) _ hy
  have dx := conv_of_holdsC (covers_holds hk (covers_of hk) hx)
  have dy := conv_of_holdsC (covers_holds hk (covers_of hk) hy)
  cases op <;> simp [isRing] at h <;>
    simp [evalL, evalC, typeOf, h0, h1, hk, promote, isCompare, arith, exact, cx, cy, cbin, usual_self, dx, dy]

/-- **C171 fails for the narrow types.** An overflowing sum, difference or product of `i8`, `u8`, `i16` or `u16` is not wrapped in C,
so where it is used at once, as in `(a + b) / 2` or `a + b > c`, it is another number. -/
theorem narrow_result_not_wrapped (G : Nat → Prim) (ρ : Nat → Int) (p : Prim) (hp : isInteger p = true) (hs : size p < 4) (op : Op)
    (h : isRing op = true) (h0 : G 0 = p) (h1 : G 1 = p) (hx : Holds p (ρ 0)) (hy : Holds p (ρ 1))
    (hz : ¬ Holds p (exact op (ρ 0) (ρ 1))) (hz2 : exact op (ρ 0) (ρ 1) < 2 ^ 31) :
    ∃ v, evalL G ρ (.bin op (.var 0) (.var 1)) = some v ∧
      evalC G ρ (.bin op (.var 0) (.var 1)) = some (.int, exact op (ρ 0) (ρ 1)) ∧ v ≠ exact op (ρ 0) (ρ 1) := by
  have hk : okType p = true := by simp [okType, hp]
  obtain ⟨a, b⟩ := two_vars G ρ p hp op h h0 h1 hx hy
  refine ⟨_, a, ?_, ?_⟩
  · have hc : CT.of p = .int := by
      cases p <;> simp [isInteger, isUnsigned, isSignedInteger] at hp <;> simp [size] at hs <;> rfl
    rw [b, hc]
    apply settle_of_holds
    simp only [CT.holds, CT.signed, CT.width, if_true]
    refine ⟨?_, hz2⟩
    have r : ∀ v, Holds p v → -32768 ≤ v ∧ v ≤ 65535 := by
      intro v hv
      cases p <;> simp [isInteger, isUnsigned, isSignedInteger] at hp <;> simp [size] at hs <;> simp [Holds] at hv <;> omega
    have r0 := r _ hx
    have r1 := r _ hy
    cases op <;> simp [isRing] at h <;> simp only [exact]
    · omega
    · omega
    · have : -(65536 * 32768) ≤ ρ 0 * ρ 1 := by
        rcases Int.le_total 0 (ρ 0) with g | g <;> rcases Int.le_total 0 (ρ 1) with g' | g' <;> nlinarith
      omega
  · intro hv
    exact hz (hv ▸ Codegen.conv_holds p (okType_intLike hk) _)

example : Holds .u8 200 ∧ Holds .u8 100 ∧ ¬ Holds .u8 (exact .add 200 100) ∧ exact .add 200 100 < 2 ^ 31 := by decide

/-- **C171 fails for products of `u16`.** From 2^31 on they are undefined in C. -/
theorem u16_product_undefined (G : Nat → Prim) (ρ : Nat → Int) (h0 : G 0 = .u16) (h1 : G 1 = .u16) (hx : Holds .u16 (ρ 0))
    (hy : Holds .u16 (ρ 1)) (hz : 2 ^ 31 ≤ ρ 0 * ρ 1) :
    evalL G ρ (.bin .mul (.var 0) (.var 1)) = some ((ρ 0 * ρ 1) % 2 ^ 16) ∧ evalC G ρ (.bin .mul (.var 0) (.var 1)) = none := by
  obtain ⟨a, b⟩ := two_vars G ρ .u16 rfl .mul rfl h0 h1 hx hy
  refine ⟨a, ?_⟩
  rw [b]
  have : ¬ CT.int.holds (ρ 0 * ρ 1) := by simp [CT.holds, CT.signed, CT.width]; omega
  simp [settle, CT.of, CT.signed, exact, this]

example : Holds .u16 65535 ∧ (2 : Int) ^ 31 ≤ 65535 * 65535 := by decide

/-- **C171 fails for `i32` and `i64`.** Every overflow is undefined in C; in the language the result wraps. -/
theorem signed_overflow_undefined (G : Nat → Prim) (ρ : Nat → Int) (p : Prim) (hp : p = .i32 ∨ p = .i64) (op : Op)
    (h : isRing op = true) (h0 : G 0 = p) (h1 : G 1 = p) (hx : Holds p (ρ 0)) (hy : Holds p (ρ 1))
    (hz : ¬ Holds p (exact op (ρ 0) (ρ 1))) :
    evalL G ρ (.bin op (.var 0) (.var 1)) = some (conv p (exact op (ρ 0) (ρ 1))) ∧ evalC G ρ (.bin op (.var 0) (.var 1)) = none := by
  obtain ⟨a, b⟩ := two_vars G ρ p (by rcases hp with rfl | rfl <;> rfl) op h h0 h1 hx hy
  refine ⟨a, ?_⟩
  rw [b]
  rcases hp with rfl | rfl
  · have : ¬ CT.int.holds (exact op (ρ 0) (ρ 1)) := by
      simp only [CT.holds, CT.signed, CT.width, if_true]
      simpa [Holds] using hz
    simp [settle, CT.of, CT.signed, this]
  · have : ¬ CT.long.holds (exact op (ρ 0) (ρ 1)) := by
      simp only [CT.holds, CT.signed, CT.width, if_true]
      simpa [Holds] using hz
    simp [settle, CT.of, CT.signed, this]

example : Holds .i32 2147483647 ∧ Holds .i32 1 ∧ ¬ Holds .i32 (exact .add 2147483647 1) := by decide

/-- **C171 fails for shifted literals.** A literal below 2^31 is an `int` of C whatever its type, so shifting it by 32 or more, which
the common type `i64` allows, is undefined: `1 << n` with `n : i64`, or `1'i64 << n`. -/
theorem shifted_literal_undefined (G : Nat → Prim) (ρ : Nat → Int) (t : Prim) (ht : isSignedInteger t = true) (v : Int)
    (hv : Holds t v) (h0 : 0 ≤ v) (h31 : v < 2 ^ 31) (hn : G 0 = .i64) (hk : 32 ≤ ρ 0) (hk' : ρ 0 < 64) :
    evalL G ρ (.bin .shl (.lit t v) (.var 0)) = some (conv .i64 (v * 2 ^ (ρ 0).toNat)) ∧
    evalC G ρ (.bin .shl (.lit t v) (.var 0)) = none := by
  have hi : isInteger t = true := by simp [isInteger, ht]
  have hu : isUnsigned t = false := by cases t <;> simp [isSignedInteger] at ht <;> rfl
  have hT : promote t .i64 = some .i64 := by cases t <;> simp [isSignedInteger] at ht <;> decide
  have cx : conv .i64 v = v := Codegen.conv_of_holds .i64 rfl v (by simp [Holds]; omega)
  have cy : conv .i64 (ρ 0) = ρ 0 := Codegen.conv_of_holds .i64 rfl _ (by simp [Holds]; omega)
  have lt : litType t v = .int := by
    simp [litType, hu, CLit.plainType]
    omega
  constructor
  · simp [evalL, typeOf, hi, hn, okType, hT, isCompare, arith, cx, cy, show isInteger .i64 = true from rfl, size]
    omega
  · simp only [evalC, cInt_type t v hi hv (by omega), lt, Option.bind_some, cbin, CT.width]
    rw [if_neg (by omega)]

example : isSignedInteger .i8 = true ∧ Holds .i8 1 ∧ conv .i64 (1 * 2 ^ 40) = 2 ^ 40 := by decide

/-! ## Comparisons -/

/-- **C172 fails for mixed signs.** A negative number compared with an unsigned one of at least its width (and that of `int`) is taken
for a huge one: `x < y` is false in C, for all `y` below it. -/
theorem negative_compares_huge (G : Nat → Prim) (ρ : Nat → Int) (p q : Prim) (hp : isSignedInteger p = true) (hq : isUnsigned q = true)
    (hs : size p ≤ size q) (h4 : 4 ≤ size q) (h0 : G 0 = p) (h1 : G 1 = q) (hx : Holds p (ρ 0)) (hy : Holds q (ρ 1)) (hneg : ρ 0 < 0)
    (hyx : ρ 1 ≤ 2 ^ (8 * size q) + ρ 0) :
    evalL G ρ (.bin .lt (.var 0) (.var 1)) = some 1 ∧ evalC G ρ (.bin .lt (.var 0) (.var 1)) = some (.int, 0) := by
  cases p <;> simp [isSignedInteger] at hp <;> cases q <;> simp [isUnsigned] at hq <;> simp [size] at hs h4 <;>
    simp [Holds] at hx hy <;> simp [size] at hyx <;>
    refine ⟨?_, ?_⟩
  all_goals first
    | (simp [evalL, typeOf, h0, h1, okType, isInteger, isUnsigned, isSignedInteger, promote, size, isCompare, Codegen.compare, b2i]
       omega)
    | (simp [evalC, h0, h1, CT.of, cbin, usual, CT.conv, CT.signed, CT.width, b2i]
       omega)

example : Holds .i32 (-1) ∧ Holds .u32 1 ∧ (1 : Int) ≤ 2 ^ (8 * size .u32) + (-1) := by decide

/-- **C172 fails for overflowing sums.** In C the sum of two `u8` or `u16` that overflows is greater than every number of the type. -/
theorem overflowed_sum_above (G : Nat → Prim) (ρ : Nat → Int) (p : Prim) (hp : p = .u8 ∨ p = .u16) (h0 : G 0 = p) (h1 : G 1 = p)
    (h2 : G 2 = p) (hx : Holds p (ρ 0)) (hy : Holds p (ρ 1)) (hc : Holds p (ρ 2)) (hz : ¬ Holds p (ρ 0 + ρ 1))
    (hcx : ρ 0 ≤ ρ 2) :
    evalL G ρ (.bin .gt (.bin .add (.var 0) (.var 1)) (.var 2)) = some 0 ∧
    evalC G ρ (.bin .gt (.bin .add (.var 0) (.var 1)) (.var 2)) = some (.int, 1) := by
  have hpi : isInteger p = true := by rcases hp with rfl | rfl <;> rfl
  obtain ⟨a, b⟩ := two_vars G ρ p hpi .add rfl h0 h1 hx hy
  have hk : okType p = true := by simp [okType, hpi]
  have tt : typeOf G (.bin .add (.var 0) (.var 1)) = some p := by simp [typeOf, h0, h1, hk, promote, isCompare, isArith]
  have tv : typeOf G (.var 2) = some p := by simp [typeOf, h2, hk]
  constructor
  · rw [evalL, a, tt, tv]
    simp only [evalL, Option.bind_some, promote, if_true, isCompare, Codegen.compare, Option.map_some, exact]
    rcases hp with rfl | rfl <;> simp [Holds] at hx hy hc hz <;> simp [b2i, conv, isSignedInteger, size] <;> omega
  · have hsum : CT.int.holds (ρ 0 + ρ 1) := by
      rcases hp with rfl | rfl <;> simp [Holds] at hx hy <;> simp [CT.holds, CT.signed, CT.width] <;> omega
    have hc2 : CT.int.holds (ρ 2) := by
      rcases hp with rfl | rfl <;> simp [Holds] at hc <;> simp [CT.holds, CT.signed, CT.width] <;> omega
    have hof : CT.of p = .int := by rcases hp with rfl | rfl <;> rfl
    have e1 := conv_of_holdsC hsum
    have e2 := conv_of_holdsC hc2
    rw [evalC, b, hof]
    simp only [exact, settle_of_holds hsum]
    have : ρ 2 < ρ 0 + ρ 1 := by rcases hp with rfl | rfl <;> simp [Holds] at hx hy hc hz <;> omega
    simp [evalC, h2, hof, cbin, usual, e1, e2, b2i, this]

example : Holds .u8 200 ∧ Holds .u8 100 ∧ Holds .u8 250 ∧ ¬ Holds .u8 (200 + 100) := by decide

end Verif.CArith
