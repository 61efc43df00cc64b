import Verif.Lang.LitCast.Model
import Verif.Lang.Codegen.Bits
/-! # C95, C96: casts of literals against casts at run time, and casts the checker accepts -/
namespace Verif.LitCast
open Verif.Prim
open Verif.Prim.Prim
open Verif.Codegen
variable {F : Type}

/-! ## Literals -/

theorem width_le (p : Prim) (hp : isInteger p = true) : 8 * size p = 8 ∨ 8 * size p = 16 ∨ 8 * size p = 32 ∨ 8 * size p = 64 := by
  cases p <;> simp [isInteger, isUnsigned, isSignedInteger, size] at *

theorem emod_emod_pow (v : Int) (w : Nat) (h : w ≤ 64) : v % 2 ^ 64 % 2 ^ w = v % 2 ^ w :=
  Int.emod_emod_of_dvd v ⟨2 ^ (64 - w), by rw [← Int.pow_add]; congr 1; omega⟩

theorem enc_mod (v : Int) (w : Nat) (h : w ≤ 64) : enc 64 v % 2 ^ w = enc w v := by
  have h1 := enc_cast 64 v
  have h2 := enc_cast w v
  have h3 : ((enc 64 v % 2 ^ w : Nat) : Int) = v % 2 ^ w := by
    rw [Int.natCast_emod, h1, pow_cast, emod_emod_pow v w h]
  omega

theorem castField_enc (to : Prim) (hto : isInteger to = true) (v : Int) :
    castField to (enc 64 v) % 2 ^ (8 * size to) = enc (8 * size to) v := by
  have hw : 8 * size to ≤ 64 := by rcases width_le to hto with h | h | h | h <;> omega
  unfold castField
  simp only [enc_mod v _ hw]
  split
  · rename_i hs
    rw [enc_mod _ _ hw, sval_enc_conv to hs, enc_conv]
  · exact Nat.mod_eq_of_lt (enc_lt _ _)

theorem castField_value (to : Prim) (hto : isInteger to = true) (v : Int) (h : Holds i64 (conv to v)) :
    integerLiteralValue (castField to (enc 64 v)) = conv to v := by
  have hw : 8 * size to ≤ 64 := by rcases width_le to hto with h | h | h | h <;> omega
  have e : castField to (enc 64 v) = enc 64 (conv to v) := by
    unfold castField
    simp only [enc_mod v _ hw]
    cases hs : isSignedInteger to with
    | true => rw [if_pos rfl, sval_enc_conv to hs]
    | false =>
      have h1 := enc_conv_unsigned to hs v
      have h2 := enc_lt (8 * size to) v
      have h3 : (2 : Nat) ^ (8 * size to) ≤ 2 ^ 64 := Nat.pow_le_pow_right (by decide) hw
      rw [if_neg (by decide), ← h1, enc_of_lt 64 _ (by omega)]
  unfold integerLiteralValue
  rw [e]
  exact signed_facts i64 rfl rfl _ h

/-- A literal written in type `from_`: an integer or a character. -/
inductive LitOf : Prim → Int → Lit F → Prop
  | int (from_ : Prim) (v : Int) (n : Bool) : isInteger from_ = true → Holds from_ v → LitOf from_ v (.int (enc 64 v) n)
  | char (from_ : Prim) (v : Nat) : isCharacter from_ = true → Holds from_ (v : Int) → LitOf from_ (v : Int) (.char v)

theorem enc_small (v : Nat) (h : v < 2 ^ 64) : enc 64 (v : Int) = v := enc_of_lt 64 v h

/-- Casting an integer or character literal to an integer type produces the constant the same cast computes at run
time: the value itself if the type holds it, and else the value congruent to it.  Later compile-time evaluation sees
that same value (unless it is a `u64` from `2^63` up). -/
theorem literal_to_integer (fo : FloatOps F) (to from_ : Prim) (hto : isInteger to = true) (v : Int) (l : Lit F)
    (hl : LitOf from_ v l) :
    ∃ bits n, castLiteral fo to l = .ok (.int bits n) ∧ gen to (.int bits n : Lit F) = rep to (conv to v) ∧
      Codegen.cast fo to from_ (rep from_ v) = .ok (gen to (.int bits n : Lit F)) ∧
      (Holds i64 (conv to v) → integerLiteralValue bits = conv to v) := by
  have hi := intLike_of_integer hto
  have hw := width_eq to hi
  have key : ∀ n, gen to (.int (castField to (enc 64 v)) n : Lit F) = rep to (conv to v) := by
    intro n
    simp only [gen, hw, rep]
    rw [castField_enc to hto, enc_conv]
  cases hl with
  | int _ n hf hv =>
    refine ⟨_, _, by simp only [castLiteral, hto, if_true], key n, ?_, castField_value to hto v⟩
    rw [key n]
    exact (int_cast_correct fo to from_ hi (intLike_of_integer hf) v hv).1
  | char v hf hv =>
    have hv64 : v < 2 ^ 64 := by
      cases from_ <;> simp [isCharacter] at hf <;> simp only [Holds] at hv <;> omega
    refine ⟨castField to (enc 64 (v : Int)), false, ?_, key false, ?_, castField_value to hto v⟩
    · simp only [castLiteral, hto, if_true]
      rw [enc_small v hv64]
    · rw [key false]
      exact (int_cast_correct fo to from_ hi (by simp [isIntLike, hf]) v hv).1

example : LitOf (F := Unit) i16 (-300) (.int (enc 64 (-300)) true) ∧ isInteger u8 = true ∧ conv u8 (-300) = 212 :=
  ⟨.int _ _ _ rfl (by decide), rfl, by decide⟩

/-- Casting a literal below `2^31` to a character type also agrees with run time. -/
theorem literal_to_character_partial (fo : FloatOps F) (to from_ : Prim) (hto : isCharacter to = true) (v : Int)
    (l : Lit F) (hl : LitOf from_ v l) (h0 : 0 ≤ v) (h1 : v < 2 ^ 31) :
    ∃ l', castLiteral fo to l = .ok l' ∧ gen to l' = rep to (conv to v) ∧
      Codegen.cast fo to from_ (rep from_ v) = .ok (gen to l') := by
  have hi : isIntLike to = true := by simp [isIntLike, hto]
  have hni : isInteger to = false := by
    cases to <;> simp [isCharacter] at hto <;> rfl
  have hnf := intLike_notFloat to hi
  have key : gen to (.char v.toNat : Lit F) = rep to (conv to v) := by
    simp only [rep]
    rw [enc_conv]
    simp only [gen, enc]
    cases to <;> simp [isCharacter] at hto <;> simp [size] <;> omega
  refine ⟨.char v.toNat, ?_, key, ?_⟩
  · cases hl with
    | int _ n hf hv =>
      have : enc 64 v % 2 ^ 32 = v.toNat := by unfold enc; omega
      simp only [castLiteral, hni, hnf, hto, Bool.false_eq_true, if_false, if_true, this]
      rw [if_pos (by omega)]
    | char v hf hv =>
      simp only [castLiteral, hni, hnf, hto, Bool.false_eq_true, if_false, if_true]
      rw [if_pos (by omega)]; rfl
  · rw [key]
    cases hl with
    | int _ n hf hv => exact (int_cast_correct fo to from_ hi (intLike_of_integer hf) v hv).1
    | char v hf hv => exact (int_cast_correct fo to from_ hi (by simp [isIntLike, hf]) v hv).1

example : LitOf (F := Unit) u16 955 (.int (enc 64 955) false) ∧ isCharacter wchar = true :=
  ⟨.int _ _ _ rfl (by decide), rfl⟩

/-- From `2^31` up, casting a literal to a character type is undefined behaviour in the compiler, although the checker
accepts it and the cast has a meaning at run time. -/
theorem large_literal_to_character_undefined (fo : FloatOps F) (to : Prim) (hto : isCharacter to = true) (v : Int)
    (h0 : 2 ^ 31 ≤ v) (h1 : v < 2 ^ 32) (n : Bool) :
    castAssignable to u32 = true ∧ castLiteral fo to (.int (enc 64 v) n) = .ub ∧
    Codegen.cast fo to u32 (rep u32 v) = .ok (rep to (conv to v)) := by
  have hi : isIntLike to = true := by simp [isIntLike, hto]
  have : enc 64 v % 2 ^ 32 = v.toNat := by unfold enc; omega
  refine ⟨?_, ?_, (int_cast_correct fo to u32 hi rfl v (by simp only [Holds]; omega)).1⟩
  · revert hto; cases to <;> decide
  · cases to <;> simp [isCharacter] at hto <;>
      simp only [castLiteral, isInteger, isUnsigned, isSignedInteger, isFloat, isCharacter, Bool.or_self,
        Bool.false_eq_true, if_false, if_true, this] <;> exact if_neg (by omega)

example : (2 : Int) ^ 31 ≤ 3000000000 ∧ (3000000000 : Int) < 2 ^ 32 := by decide

/-- Casting an integer literal to `f64` gives the rounded value, negative literals included; the same cast of a
negative variable does not (`negative_int_to_float_wrong`), so literal and variable disagree. -/
theorem literal_to_f64 (fo : FloatOps F) (from_ : Prim) (hf : isSignedInteger from_ = true) (v : Int)
    (hv : Holds from_ v) (n : Bool) :
    castLiteral fo f64 (.int (enc 64 v) n) = .ok (.float (fo.ofInt 8 v)) ∧
    (v < 0 → Codegen.cast fo f64 from_ (rep from_ v) = .ok (.flt 8 (fo.ofInt 8 (v + 2 ^ (8 * size from_))))) ∧
    (0 ≤ v → Codegen.cast fo f64 from_ (rep from_ v) = .ok (.flt 8 (fo.ofInt 8 v))) := by
  have hs : sval 64 (enc 64 v) = v := by
    have : Holds i64 v := by
      cases from_ <;> simp [isSignedInteger] at hf <;> simp only [Holds] at * <;> omega
    exact signed_facts i64 rfl rfl v this
  refine ⟨?_, ?_, ?_⟩
  · simp only [castLiteral, isInteger, isUnsigned, isSignedInteger, isFloat, Bool.or_self, Bool.false_eq_true, if_false,
      if_true, integerLiteralValue, hs]
    rfl
  · intro hneg
    exact negative_int_to_float_wrong fo f64 from_ rfl hf v hv hneg
  · intro h0
    refine int_to_float_partial fo f64 from_ rfl (intLike_of_integer (by simp [isInteger, hf])) v h0 ?_
    exact ((holds_signed_iff from_ hf v).1 hv).2

example : isSignedInteger i32 = true ∧ Holds i32 (-5) := by decide

/-- A literal cast to `f32` generates a `double` constant where a `float` is needed: no literal of type `f32` has the
width of its type. -/
theorem f32_literal_is_double (fo : FloatOps F) (l l' : Lit F) (h : castLiteral fo f32 l = .ok l') :
    ∃ x, gen f32 l' = .flt 8 x ∧ size f32 = 4 := by
  simp only [castLiteral, isInteger, isUnsigned, isSignedInteger, isFloat, Bool.or_self, Bool.false_eq_true, if_false,
      if_true] at h
  cases l <;> simp at h <;> subst h <;> exact ⟨_, rfl, rfl⟩

example : castLiteral (F := Int) ⟨fun _ v => v, fun _ x => x, fun x => x, fun _ x y => x + y, fun _ x y => x - y,
    fun _ x y => x * y, fun _ x _ => x, fun _ x _ => x, fun _ => false, fun x y => decide (x < y),
    fun x y => decide (x = y)⟩ f32 (.int 3 false) = .ok (.float 3) := by decide

/-- Casting a literal in parentheses, or under a unary operator, to any integer or float type ends the compiler with a
failed assertion; so does casting a character literal to a float type, which the checker accepts. -/
theorem wrapped_literal_cast_aborts (fo : FloatOps F) (to : Prim) (h : isInteger to = true ∨ isFloat to = true) :
    castLiteral fo to .wrapped = .abort ∧
    (isFloat to = true → ∀ v, castAssignable to wchar = true ∧ castLiteral fo to (.char v) = .abort) := by
  revert h
  cases to <;> simp [castLiteral, isInteger, isUnsigned, isSignedInteger, isFloat, castAssignable, isNumeric]

/-! ## Casts the checker accepts -/

/-- Values of the LLVM type of `p`. -/
def OfType (p : Prim) : LVal F → Prop
  | .int w n => isFloat p = false ∧ w = width p ∧ n < 2 ^ w
  | .flt s _ => isFloat p = true ∧ s = size p

theorem sext_lt (w w' n : Nat) (hn : n < 2 ^ w) : sextOrTrunc w w' n < 2 ^ w' := by
  unfold sextOrTrunc
  split
  · rename_i h
    have : 2 ^ w ≤ 2 ^ w' := Nat.pow_le_pow_right (by decide) h
    split <;> omega
  · exact Nat.mod_lt _ (Nat.pow_pos (by decide))

/-- Every cast between primitive types that the checker accepts, except one from `bool`, generates a value of the
target type; a float cast to an integer type needs its integer part to be in range. -/
theorem accepted_cast_generates_partial (fo : FloatOps F) (to from_ : Prim) (h : castAssignable to from_ = true)
    (hb : from_ ≠ boolean) (v : LVal F) (hv : OfType from_ v)
    (hr : ∀ s x, v = .flt s x → isInteger to = true → Holds to (fo.toInt x)) :
    ∃ v', Codegen.cast fo to from_ v = .ok v' ∧ OfType to v' := by
  unfold Codegen.cast
  by_cases he : to = from_
  · rw [if_pos he]; subst he; exact ⟨v, rfl, hv⟩
  · rw [if_neg he]
    by_cases hf : isFloat to = true
    · rw [if_pos hf]
      cases v with
      | flt s x =>
        simp only [OfType] at hv
        simp only [hv.1, if_true]
        exact ⟨_, rfl, hf, rfl⟩
      | int w n =>
        simp only [OfType] at hv
        simp only [hv.1, Bool.false_eq_true, if_false]
        split <;> exact ⟨_, rfl, hf, rfl⟩
    · have hi : isIntLike to = true := by
        cases to <;> simp [isFloat] at hf <;> simp [isIntLike, isInteger, isUnsigned, isSignedInteger, isCharacter]
        revert h he; cases from_ <;> decide
      have hf' : isFloat to = false := by simpa using hf
      rw [if_neg hf, if_pos (show (isInteger to || isCharacter to) = true from hi)]
      cases v with
      | flt s x =>
        simp only [OfType] at hv
        have hti : isInteger to = true := by
          have hff := hv.1
          revert h hff hf' he; clear hv hi hf hr
          cases to <;> cases from_ <;> decide
        simp only [hv.1, if_true]
        have hh := hr s x rfl hti
        refine ⟨.int (width to) (enc (width to) (fo.toInt x)), ?_, hf', rfl, enc_lt _ _⟩
        unfold fpToInt
        rw [width_eq to hi]
        cases hu : isUnsigned to with
        | true =>
          simp only [if_true]
          rw [if_pos]
          exact (holds_unsigned_iff to hi (by cases to <;> simp_all [isUnsigned, isSignedInteger]) _).1 hh
        | false =>
          simp only [Bool.false_eq_true, if_false]
          rw [if_pos]
          exact (holds_signed_iff to (by cases to <;> simp_all [isInteger, isUnsigned, isSignedInteger]) _).1 hh
      | int w n =>
        simp only [OfType] at hv
        simp only []
        split
        · exact ⟨_, rfl, hf', rfl, Nat.mod_lt _ (Nat.pow_pos (by decide))⟩
        · rw [if_pos (by cases from_ <;> simp_all [isUnsigned, isCharacter, isSignedInteger, isFloat])]
          refine ⟨_, rfl, hf', rfl, sext_lt _ _ _ hv.2.2⟩

example : castAssignable u8 f64 = true ∧ castAssignable f32 i64 = true ∧ castAssignable char u32 = true := by decide

/-- A cast from `bool` to any integer type is accepted, works on a literal, and generates no code for a variable. -/
theorem bool_cast_accepted_but_unsupported (fo : FloatOps F) (to : Prim) (hto : isInteger to = true) (b : Bool) (v : LVal F) :
    castAssignable to boolean = true ∧
    (∃ l, castLiteral fo to (.bool b) = .ok l ∧ gen to l = rep to (if b then 1 else 0)) ∧
    Codegen.cast fo to boolean v = .ub := by
  refine ⟨by revert hto; cases to <;> decide, ⟨_, by simp only [castLiteral, hto, if_true]; rfl, ?_⟩, ?_⟩
  · cases to <;> simp [isInteger, isUnsigned, isSignedInteger] at hto <;> cases b <;> rfl
  · cases to <;> simp [isInteger, isUnsigned, isSignedInteger] at hto <;> cases v <;> rfl

/-- A cast to `wchar` is accepted from exactly those integer and character types all of whose values it holds. -/
theorem cast_to_wchar_exact (from_ : Prim) (hf : isIntLike from_ = true) :
    castAssignable wchar from_ = true ↔ ∀ v, Holds from_ v → Holds wchar v := by
  constructor
  · intro h v hv
    revert h hf
    cases from_ <;> simp [castAssignable, isIntLike, isInteger, isUnsigned, isSignedInteger, isCharacter, isFloat, size] <;>
      simp only [Holds] at * <;> omega
  · intro h
    have h1 := h (-1)
    have h2 := h (2 ^ 32)
    clear h
    revert h1 h2 hf
    cases from_ <;> decide

/-- Not so for `char`: it is cast from `u32` and `wchar`, whose values it does not hold. -/
theorem cast_to_char_loses : castAssignable char u32 = true ∧ castAssignable char wchar = true ∧ castAssignable char u16 = true ∧
    Holds u16 256 ∧ Holds u32 256 ∧ Holds wchar 256 ∧ ¬ Holds char 256 := by decide

end Verif.LitCast
