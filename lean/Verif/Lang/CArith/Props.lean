import Verif.Lang.CArith.Model
import Verif.Lang.CLit.Numbers
import Verif.Lang.Codegen.Lemmas
/-!
# C171, C172: integer expressions have the value of the language

`evalL` is the meaning of the language: both operands are converted to the common type, the exact result is converted to it
(`Codegen.conv`, `Codegen.arith`), comparisons compare the numbers. It is the specification of C59–C60 for the other back end.
-/
namespace Verif.CArith
open Verif.Prim (Prim Holds isInteger isSignedInteger isUnsigned size promote)
open Verif.Codegen (Op conv arith isIntLike)
open Verif.CLit (CT)

/-- The meaning of an expression. -/
def evalL (G : Nat → Prim) (ρ : Nat → Int) : E → Option Int
  | .var n => some (ρ n)
  | .lit _ v => some v
  | .cast t e => (evalL G ρ e).map (conv t)
  | .bin op l r =>
    (evalL G ρ l).bind fun x => (evalL G ρ r).bind fun y =>
      (typeOf G l).bind fun tl => (typeOf G r).bind fun tr => (promote tl tr).bind fun T =>
        if isCompare op then (Codegen.compare op x y).map b2i
        else arith T op (conv T x) (conv T y)

/-! ## Types of C and of the language -/

theorem okType_intLike {t : Prim} (h : okType t = true) : isIntLike t = true := by
  cases t <;> simp_all [okType, isIntLike, isInteger, isUnsigned, isSignedInteger, Prim.isCharacter]

/-- The type of C has all values of the type. -/
def covers (c : CT) (p : Prim) : Bool :=
  if isSignedInteger p then c.signed && decide (8 * size p ≤ c.width)
  else if c.signed then decide (8 * size p < c.width) else decide (8 * size p ≤ c.width)

theorem covers_holds {c : CT} {p : Prim} (hp : okType p = true) (h : covers c p = true) {v : Int} (hv : Holds p v) : c.holds v := by
  cases p <;> simp [okType, isInteger, isUnsigned, isSignedInteger] at hp <;> cases c <;>
    simp [covers, isSignedInteger, CT.signed, CT.width, size] at h <;>
    simp [Holds] at hv <;> simp [CT.holds, CT.signed, CT.width] <;> omega

theorem conv_of_holdsC {c : CT} {v : Int} (h : c.holds v) : c.conv v = v := by
  cases c <;> simp [CT.holds, CT.signed, CT.width] at h <;> simp only [CT.conv, CT.signed, CT.width, if_true, Bool.false_eq_true, if_false]
  · rw [Int.bmod_eq_of_le] <;> omega
  · rw [Int.emod_eq_of_lt] <;> omega
  · rw [Int.bmod_eq_of_le] <;> omega
  · rw [Int.emod_eq_of_lt] <;> omega

theorem settle_of_holds {c : CT} {v : Int} (h : c.holds v) : settle c v = some (c, v) := by
  unfold settle
  cases hs : c.signed
  · simp [conv_of_holdsC h]
  · simp [h]

theorem covers_of {t : Prim} (h : okType t = true) : covers (CT.of t) t = true := by
  cases t <;> simp [okType, isInteger, isUnsigned, isSignedInteger] at h <;> decide

/-- The type C gives a literal. -/
def litType (t : Prim) (v : Int) : CT :=
  if v < 0 then CLit.plainType v.natAbs else if isUnsigned t then CLit.unsignedType v.natAbs else CLit.plainType v.natAbs

theorem cInt_type (t : Prim) (v : Int) (ht : isInteger t = true) (hv : Holds t v) (hmin : v ≠ -2 ^ 63) :
    CLit.cInt (CLit.writeInt t v) = some (litType t v, v) := by
  obtain ⟨ct, h, _⟩ := CLit.integer_literal_value_partial t v ht hv hmin
  rw [h]
  congr 2
  unfold CLit.writeInt at h
  unfold litType
  by_cases h0 : v < 0
  · rw [if_pos h0] at h ⊢
    simp only [CLit.cInt, CLit.decimal_digits, Option.map_some, Option.some.injEq, Prod.mk.injEq] at h
    exact h.1.symm
  · rw [if_neg h0] at h ⊢
    by_cases hu : isUnsigned t = true
    · rw [if_pos hu] at h ⊢
      unfold CLit.cInt at h
      split at h
      · rename_i r heq
        exfalso
        cases hd : CLit.digits v.natAbs with
        | nil => rw [CLit.digits] at hd; split at hd <;> simp at hd
        | cons c r' =>
          have := CLit.digits_ne v.natAbs c (by rw [hd]; simp)
          rw [hd] at heq
          simp at heq; omega
      · simp [CLit.decimal_digits] at h
        exact h.1.symm
    · rw [if_neg hu] at h ⊢
      rw [CLit.cInt_of] at h
      simp at h
      exact h.1.symm

/-- The type C gives an expression. -/
def cty (G : Nat → Prim) : E → CT
  | .var n => CT.of (G n)
  | .lit t v => litType t v
  | .cast t _ => CT.of t
  | .bin op l r => if isCompare op then .int else if isShift op then cty G l else usual (cty G l) (cty G r)

/-! ## When C agrees -/

/-- At every operator C computes in a type that has all values of the checked type. -/
def Good (G : Nat → Prim) : E → Prop
  | .var _ => True
  | .lit _ _ => True
  | .cast _ e => Good G e
  | .bin op l r => Good G l ∧ Good G r ∧
    ∀ tl tr T, typeOf G l = some tl → typeOf G r = some tr → promote tl tr = some T →
      if isShift op then covers (cty G l) tl = true else covers (usual (cty G l) (cty G r)) T = true

/-- The exact result. -/
def exact (op : Op) (x y : Int) : Int :=
  match op with
  | .add => x + y
  | .sub => x - y
  | .mul => x * y
  | .shl => x * 2 ^ y.toNat
  | _ => 0

/-- No operand and no result leaves the common type; shifts stay in the type of what is shifted. -/
def Fits (G : Nat → Prim) (ρ : Nat → Int) : E → Prop
  | .var n => Holds (G n) (ρ n)
  | .lit t v => Holds t v ∧ v ≠ -2 ^ 63
  | .cast _ e => Fits G ρ e
  | .bin op l r => Fits G ρ l ∧ Fits G ρ r ∧
    ∀ tl tr T x y, typeOf G l = some tl → typeOf G r = some tr → promote tl tr = some T →
      evalL G ρ l = some x → evalL G ρ r = some y →
      Holds T x ∧ Holds T y ∧ Holds T (exact op x y) ∧
      (isShift op = true → Holds tl x ∧ y < 8 * size tl ∧ Holds tl (exact op x y) ∧ (op = .shl → 0 ≤ x))

theorem promote_ok {a b T : Prim} (ha : okType a = true) (hb : okType b = true) (h : promote a b = some T) : okType T = true := by
  revert h
  cases a <;> simp [okType, isInteger, isUnsigned, isSignedInteger] at ha <;> cases b <;>
    simp [okType, isInteger, isUnsigned, isSignedInteger] at hb <;>
    simp [promote, isInteger, isUnsigned, isSignedInteger, Prim.isFloat, size, okType] <;> rintro rfl <;> decide

theorem width_cover {c : CT} {p : Prim} (h : covers c p = true) : 8 * size p ≤ c.width := by
  unfold covers at h
  split at h
  · simp at h; exact h.2
  · split at h
    · simp at h; omega
    · simpa using h

theorem tdiv_holds {p : Prim} (hp : okType p = true) {x y : Int} (h : Holds p (Int.tdiv x y)) {c : CT} (hc : covers c p = true) :
    c.holds (Int.tdiv x y) := covers_holds hp hc h

/-- **C171, C172 (partial).** If C's types are wide enough (`Good`) and nothing overflows (`Fits`), C computes the value the expression has
in the language; for a comparison, the answer. `plain_good` gives a simple condition for `Good`. -/
theorem c_value_partial (G : Nat → Prim) (ρ : Nat → Int) : ∀ (e : E) (t : Prim) (v : Int), typeOf G e = some t → Good G e →
    Fits G ρ e → evalL G ρ e = some v → evalC G ρ e = some (cty G e, v)
  | .var n, t, v, ht, _, hf, hv => by
    simp only [evalL, Option.some.injEq] at hv
    simp [evalC, cty, hv]
  | .lit t' v', t, v, ht, _, hf, hv => by
    simp only [evalL, Option.some.injEq] at hv
    subst hv
    simp only [typeOf] at ht
    split at ht
    · rename_i hi
      simpa [evalC, cty] using cInt_type t' v' hi hf.1 hf.2
    · exact absurd ht (by simp)
  | .cast t' e, t, v, ht, hg, hf, hv => by
    simp only [typeOf, Option.bind_eq_some_iff] at ht
    obtain ⟨u, hu, ht⟩ := ht
    simp only [evalL, Option.map_eq_some_iff] at hv
    obtain ⟨x, hx, rfl⟩ := hv
    have ih := c_value_partial G ρ e u x hu hg hf hx
    simp [evalC, ih, cty]
  | .bin op l r, t, v, ht, hg, hf, hv => by
    simp only [typeOf, Option.bind_eq_some_iff] at ht
    obtain ⟨tl, hl, tr, hr, ht⟩ := ht
    split at ht
    case isFalse => exact absurd ht (by simp)
    rename_i hok
    simp only [Bool.and_eq_true] at hok
    simp only [Option.bind_eq_some_iff] at ht
    obtain ⟨T, hT, ht⟩ := ht
    simp only [evalL, Option.bind_eq_some_iff] at hv
    obtain ⟨x, hx, y, hy, tl', hl', tr', hr', T', hT', hv⟩ := hv
    rw [hl] at hl'; cases hl'
    rw [hr] at hr'; cases hr'
    rw [hT] at hT'; cases hT'
    obtain ⟨g1, g2, g3⟩ := hg
    obtain ⟨f1, f2, f3⟩ := hf
    have g4 := g3 tl tr T hl hr hT
    obtain ⟨k1, k2, k3, k4⟩ := f3 tl tr T x y hl hr hT hx hy
    have il := c_value_partial G ρ l tl x hl g1 f1 hx
    have ir := c_value_partial G ρ r tr y hr g2 f2 hy
    have hTo := promote_ok hok.1 hok.2 hT
    have cx := Codegen.conv_of_holds T (okType_intLike hTo) x k1
    have cy := Codegen.conv_of_holds T (okType_intLike hTo) y k2
    have cz := Codegen.conv_of_holds T (okType_intLike hTo) _ k3
    rw [cx, cy] at hv
    simp only [evalC, il, ir, Option.bind_some]
    by_cases hsh : isShift op = true
    · rw [if_pos hsh] at g4
      obtain ⟨k5, k6, k7, k8⟩ := k4 hsh
      have hw := width_cover g4
      cases op <;> simp [isShift] at hsh
      case shl =>
        have k8 := k8 rfl
        simp only [isCompare, Bool.false_eq_true, if_false, arith] at hv
        split at hv
        case isFalse => exact absurd hv (by simp)
        rename_i hy0
        cases hv
        simp only [cbin, cty, isCompare, isShift, Bool.false_eq_true, if_false, if_true]
        rw [if_pos ⟨hy0.1, by omega⟩]
        have : (decide (x < 0)) = false := by simp; omega
        rw [this, Bool.and_false, if_neg (by simp)]
        exact (settle_of_holds (covers_holds hok.1 g4 k7)).trans (congrArg some (congrArg _ cz.symm))
      case shr =>
        simp only [isCompare, Bool.false_eq_true, if_false, arith] at hv
        split at hv
        case isFalse => exact absurd hv (by simp)
        rename_i hy0
        cases hv
        simp only [cbin, cty, isCompare, isShift, Bool.false_eq_true, if_false, if_true]
        rw [if_pos ⟨hy0.1, by omega⟩]
    · rw [if_neg hsh] at g4
      have hX := conv_of_holdsC (covers_holds hTo g4 k1)
      have hY := conv_of_holdsC (covers_holds hTo g4 k2)
      cases op <;> simp [isShift] at hsh
      case add =>
        simp only [isCompare, Bool.false_eq_true, if_false, arith] at hv
        cases hv
        simp only [cbin, cty, isCompare, isShift, Bool.false_eq_true, if_false, hX, hY]
        exact (settle_of_holds (covers_holds hTo g4 k3)).trans (congrArg some (congrArg _ cz.symm))
      case sub =>
        simp only [isCompare, Bool.false_eq_true, if_false, arith] at hv
        cases hv
        simp only [cbin, cty, isCompare, isShift, Bool.false_eq_true, if_false, hX, hY]
        exact (settle_of_holds (covers_holds hTo g4 k3)).trans (congrArg some (congrArg _ cz.symm))
      case mul =>
        simp only [isCompare, Bool.false_eq_true, if_false, arith] at hv
        cases hv
        simp only [cbin, cty, isCompare, isShift, Bool.false_eq_true, if_false, hX, hY]
        exact (settle_of_holds (covers_holds hTo g4 k3)).trans (congrArg some (congrArg _ cz.symm))
      case div =>
        simp only [isCompare, Bool.false_eq_true, if_false, arith] at hv
        split at hv
        · exact absurd hv (by simp)
        rename_i hy0
        split at hv
        case isFalse => exact absurd hv (by simp)
        rename_i hd
        cases hv
        simp only [cbin, cty, isCompare, isShift, Bool.false_eq_true, if_false, hX, hY]
        rw [if_neg hy0, settle_of_holds (covers_holds hTo g4 hd)]
      case mod =>
        simp only [isCompare, Bool.false_eq_true, if_false, arith] at hv
        split at hv
        · exact absurd hv (by simp)
        rename_i hy0
        split at hv
        case isFalse => exact absurd hv (by simp)
        rename_i hd
        cases hv
        simp only [cbin, cty, isCompare, isShift, Bool.false_eq_true, if_false, hX, hY]
        rw [if_neg hy0, if_pos (covers_holds hTo g4 hd)]
      case band => simp [isCompare, isArith] at ht
      case bor => simp [isCompare, isArith] at ht
      case bxor => simp [isCompare, isArith] at ht
      all_goals
        simp only [isCompare, if_true, Codegen.compare, Option.map_some, Option.some.injEq] at hv
        simp only [cbin, cty, isCompare, if_true, hX, hY, hv]

/-- An operand of a signed common type is unsigned and as wide, at least as wide as `int`. -/
def clash (tl tr T : Prim) : Bool :=
  isSignedInteger T && decide (4 ≤ size T) &&
    ((!isSignedInteger tl && decide (size tl = size T)) || (!isSignedInteger tr && decide (size tr = size T)))

/-- A simple condition for `Good`: literals without a written type, shifts by no wider type than what is shifted, no clash. -/
def Plain (G : Nat → Prim) : E → Prop
  | .var _ => True
  | .lit t v => t = Prim.literalType v ∧ v ≠ -2 ^ 31 ∧ Holds .i64 v ∧ v ≠ -2 ^ 63
  | .cast _ e => Plain G e
  | .bin op l r => Plain G l ∧ Plain G r ∧
    ∀ tl tr T, typeOf G l = some tl → typeOf G r = some tr → promote tl tr = some T →
      clash tl tr T = false ∧ (isShift op = true → T = tl)

theorem usual_of {tl tr T : Prim} (hl : okType tl = true) (hr : okType tr = true) (hT : promote tl tr = some T)
    (hc : clash tl tr T = false) : usual (CT.of tl) (CT.of tr) = CT.of T := by
  revert hT hc
  cases tl <;> simp [okType, isInteger, isUnsigned, isSignedInteger] at hl <;> cases tr <;>
    simp [okType, isInteger, isUnsigned, isSignedInteger] at hr <;>
    simp [promote, isInteger, isUnsigned, isSignedInteger, Prim.isFloat, size] <;> rintro rfl <;> decide

/-- With `Plain`, C computes in the promotion of the checked type, which has all its values. -/
theorem plain_good (G : Nat → Prim) : ∀ (e : E) (t : Prim), typeOf G e = some t → Plain G e → cty G e = CT.of t ∧ Good G e
  | .var n, t, ht, _ => by
    simp only [typeOf] at ht
    split at ht
    · cases ht; exact ⟨rfl, trivial⟩
    · exact absurd ht (by simp)
  | .lit t' v, t, ht, hp => by
    simp only [typeOf] at ht
    split at ht
    case isFalse => exact absurd ht (by simp)
    cases ht
    obtain ⟨rfl, h2, h3, h4⟩ := hp
    refine ⟨?_, trivial⟩
    simp [Holds] at h3
    simp only [cty, litType]
    have hu : isUnsigned (Prim.literalType v) = false := by
      unfold Prim.literalType
      repeat' split
      all_goals rfl
    rw [hu]
    simp only [Bool.false_eq_true, if_false, ite_self]
    unfold Prim.literalType CLit.plainType
    repeat' split
    all_goals first | rfl | (exfalso; omega)
  | .cast t' e, t, ht, hp => by
    simp only [typeOf, Option.bind_eq_some_iff] at ht
    obtain ⟨u, hu, ht⟩ := ht
    split at ht
    · cases ht
      exact ⟨rfl, (plain_good G e u hu hp).2⟩
    · exact absurd ht (by simp)
  | .bin op l r, t, ht, hp => by
    simp only [typeOf, Option.bind_eq_some_iff] at ht
    obtain ⟨tl, hl, tr, hr, ht⟩ := ht
    split at ht
    case isFalse => exact absurd ht (by simp)
    rename_i hok
    simp only [Bool.and_eq_true] at hok
    simp only [Option.bind_eq_some_iff] at ht
    obtain ⟨T, hT, ht⟩ := ht
    obtain ⟨p1, p2, p3⟩ := hp
    obtain ⟨p4, p5⟩ := p3 tl tr T hl hr hT
    obtain ⟨a1, a2⟩ := plain_good G l tl hl p1
    obtain ⟨b1, b2⟩ := plain_good G r tr hr p2
    have hus := usual_of hok.1 hok.2 hT p4
    have hTo := promote_ok hok.1 hok.2 hT
    refine ⟨?_, a2, b2, ?_⟩
    · simp only [cty]
      split at ht
      · rename_i hc; cases ht; rw [if_pos hc]; rfl
      · rename_i hc
        rw [if_neg hc]
        split at ht
        · cases ht
          by_cases hs : isShift op = true
          · rw [if_pos hs, a1, p5 hs]
          · rw [if_neg hs, a1, b1, hus]
        · exact absurd ht (by simp)
    · intro tl' tr' T' hl' hr' hT'
      rw [hl] at hl'; cases hl'
      rw [hr] at hr'; cases hr'
      rw [hT] at hT'; cases hT'
      rw [a1, b1, hus]
      split
      · exact covers_of hok.1
      · exact covers_of hTo

/-- `(a + 1) * b < c - 2` with `a : u8`, `b : u16`, `c : i64`. -/
example : let G : Nat → Prim := fun n => if n = 0 then .u8 else if n = 1 then .u16 else .i64
    let ρ : Nat → Int := fun n => if n = 0 then 200 else if n = 1 then 300 else -5
    let e : E := .bin .lt (.bin .mul (.bin .add (.var 0) (.lit .i8 1)) (.var 1)) (.bin .sub (.var 2) (.lit .i8 2))
    typeOf G e = some .boolean ∧ Plain G e ∧ Fits G ρ e ∧ evalL G ρ e = some 0 := by
  refine ⟨by decide, ⟨⟨⟨trivial, (by simp [Plain, Prim.literalType, Holds]), ?_⟩, trivial, ?_⟩,
    ⟨trivial, (by simp [Plain, Prim.literalType, Holds]), ?_⟩, ?_⟩,
    ⟨⟨⟨(by simp [Fits, Holds]), (by simp [Fits, Holds]), ?_⟩, (by simp [Fits, Holds]), ?_⟩, ⟨(by simp [Fits, Holds]), (by simp [Fits, Holds]), ?_⟩, ?_⟩, by decide⟩
  all_goals
    first | intro tl tr T x y h1 h2 h3 h4 h5 | intro tl tr T h1 h2 h3
    simp [typeOf, okType, isInteger, isUnsigned, isSignedInteger, promote, size, isCompare, isArith] at h1 h2
    subst h1 h2
    simp [promote, isInteger, isUnsigned, isSignedInteger, size] at h3
    subst h3
  all_goals first
    | decide
    | (simp [evalL, typeOf, okType, isInteger, isUnsigned, isSignedInteger, promote, size, isCompare, isArith, arith, conv,
        Int.bmod] at h4 h5
       subst h4 h5
       decide)

end Verif.CArith
