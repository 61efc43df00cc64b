import Verif.Lang.ArrayLit.Model
import Verif.Lang.Prim.Props
/-!
# Theorems on array literals and conditional expressions (C228, C229, C230)
-/
namespace Verif.ArrayLit
open Verif.Prim

/-! ### The values are kept (C228) -/

/-- Specification: every value an element can have is a value of `t`. -/
def HoldsAll (t : Prim) (ts : List Prim) : Prop := ∀ u ∈ ts, ∀ v, Holds u v → Holds t v

/-- C228: for integers, unless the first element is unsigned and a later one signed, a
literal is accepted exactly if the type of its first element holds all values of the
others; its type is then that one. -/
theorem array_values_partial (t : Prim) (ts : List Prim) (ht : isInteger t = true)
    (hts : ∀ u ∈ ts, isInteger u = true)
    (hs : isUnsigned t = true → ∀ u ∈ ts, isUnsigned u = true) :
    (literalTy (t :: ts) = some ⟨some t, ts.length + 1⟩ ↔ HoldsAll t ts) ∧
      (literalTy (t :: ts) = none ↔ ¬ HoldsAll t ts) := by
  have key : ts.all (fun u => assignable t u) = true ↔ HoldsAll t ts := by
    rw [List.all_eq_true]
    constructor
    · intro h u hu v hv
      refine assignable_keeps_value_partial t u ht (hts u hu) ?_ (h u hu) v hv
      rintro ⟨h1, h2⟩
      have := hs h2 u hu
      cases u <;> simp [isSignedInteger, isUnsigned] at h1 this
    · intro h u hu
      exact value_preserving_is_assignable t u ht (hts u hu) (h u hu)
  by_cases h : ts.all (fun u => assignable t u) = true
  · simp [literalTy, elementType, h, key.mp h]
  · have h' : ¬ HoldsAll t ts := fun q => h (key.mpr q)
    simp [literalTy, elementType, h, h']

example : literalTy [.i32, .i8, .u16] = some ⟨some .i32, 3⟩ := by decide

/-- C228 is false of the code: an unsigned first element takes signed ones of at most
its size, and with them the value `-1`. -/
theorem array_unsigned_first (t u : Prim) (ts : List Prim) (ht : isUnsigned t = true)
    (hu : isSignedInteger u = true) (hle : size u ≤ size t) (h : literalTy (t :: ts) ≠ none) :
    literalTy (t :: ts ++ [u]) = some ⟨some t, ts.length + 2⟩ ∧ ¬ HoldsAll t [u] := by
  have ⟨h1, h2, h3⟩ := unsigned_accepts_negative t u ht hu hle
  constructor
  · have ha : ts.all (fun u => assignable t u) = true := by
      by_cases q : ts.all (fun u => assignable t u) = true
      · exact q
      · simp [literalTy, elementType, q] at h
    simp [literalTy, elementType, ha, h1]
  · exact fun q => h3 (q u (by simp) _ h2)

example : literalTy ([Prim.u8] ++ [Prim.i8]) = some ⟨some .u8, 2⟩ := by decide

/-- C228 for `c ? a : b`: the same rule with two elements. -/
theorem ternary_values_partial (a b : Prim) (ha : isInteger a = true) (hb : isInteger b = true)
    (hs : isUnsigned a = true → isUnsigned b = true) :
    (ternaryType a b = some a ↔ HoldsAll a [b]) ∧ (ternaryType a b = none ↔ ¬ HoldsAll a [b]) := by
  have := array_values_partial a [b] ha (by simpa using hb) (by simpa using hs)
  by_cases h : assignable a b = true
  · simpa [ternaryType, literalTy, elementType, h] using this
  · simpa [ternaryType, literalTy, elementType, h] using this

example : ternaryType .i32 .u8 = some .i32 ∧ ternaryType .u8 .i32 = none := by decide

/-! ### The order of the elements (C229) -/

/-- Specification: the literal is accepted in every order of its elements. -/
def AnyOrder (ts : List Prim) : Prop := ∀ us, us.Perm ts → literalTy us ≠ none

theorem mutual_iff (a b : Prim) : (assignable a b = true ∧ assignable b a = true) ↔
    a = b ∨ (isFloat a = true ∧ isFloat b = true) ∨ (isCharacter a = true ∧ isCharacter b = true) := by
  cases a <;> cases b <;> decide

theorem accepted_iff (t : Prim) (ts : List Prim) :
    literalTy (t :: ts) ≠ none ↔ ∀ u ∈ ts, assignable t u = true := by
  by_cases h : ts.all (fun u => assignable t u) = true
  · simp only [literalTy, elementType, h]
    simpa using List.all_eq_true.mp h
  · simp only [literalTy, elementType, h]
    simp only [List.all_eq_true] at h
    simpa using h

theorem assignable_self (a : Prim) : assignable a a = true := by simp [assignable]

/-- C229 is false of the code: the order does not matter exactly if all elements are
of one type, all floats, or all characters. -/
theorem any_order_iff (ts : List Prim) :
    AnyOrder ts ↔ (∀ a ∈ ts, ∀ b ∈ ts, a = b) ∨ (∀ a ∈ ts, isFloat a = true) ∨
      ∀ a ∈ ts, isCharacter a = true := by
  have pairs : AnyOrder ts ↔ ∀ a ∈ ts, ∀ b ∈ ts, assignable a b = true := by
    constructor
    · intro h a ha b hb
      by_cases hab : a = b
      · subst hab; exact assignable_self a
      · have hp : (a :: ts.erase a).Perm ts := (List.perm_cons_erase ha).symm
        have := (accepted_iff a (ts.erase a)).mp (h _ hp)
        exact this b ((List.mem_erase_of_ne (fun q => hab q.symm)).mpr hb)
    · intro h us hp
      cases us with
      | nil => simp [literalTy, elementType]
      | cons a us =>
        rw [accepted_iff]
        intro u hu
        exact h a (hp.mem_iff.mp (by simp)) u (hp.mem_iff.mp (List.mem_cons_of_mem _ hu))
  rw [pairs]
  constructor
  · intro h
    by_cases he : ∀ a ∈ ts, ∀ b ∈ ts, a = b
    · exact Or.inl he
    · right
      obtain ⟨a, ha, b, hb, hab⟩ : ∃ a ∈ ts, ∃ b ∈ ts, a ≠ b := by
        apply Classical.byContradiction
        intro q
        apply he
        intro a ha b hb
        apply Classical.byContradiction
        intro r
        exact q ⟨a, ha, b, hb, r⟩
      have m : ∀ x ∈ ts, ∀ y ∈ ts, x = y ∨ (isFloat x = true ∧ isFloat y = true) ∨
          (isCharacter x = true ∧ isCharacter y = true) :=
        fun x hx y hy => (mutual_iff x y).mp ⟨h x hx y hy, h y hy x hx⟩
      rcases m a ha b hb with q | q | q
      · exact absurd q hab
      · left
        intro c hc
        rcases m c hc a ha with r | r | r
        · rw [r]; exact q.1
        · exact r.1
        · have := q.1
          have r2 := r.2
          cases a <;> simp [isFloat, isCharacter] at this r2
      · right
        intro c hc
        rcases m c hc a ha with r | r | r
        · rw [r]; exact q.1
        · have := q.1
          have r2 := r.2
          cases a <;> simp [isFloat, isCharacter] at this r2
        · exact r.1
  · rintro (h | h | h) a ha b hb
    · exact ((mutual_iff a b).mpr (Or.inl (h a ha b hb))).1
    · exact ((mutual_iff a b).mpr (Or.inr (Or.inl ⟨h a ha, h b hb⟩))).1
    · exact ((mutual_iff a b).mpr (Or.inr (Or.inr ⟨h a ha, h b hb⟩))).1

/-- For integer literals: `[1000, 1]` is accepted, `[1, 1000]` is not, and so for all
pairs of numbers whose types differ. -/
theorem literal_order (v w : Int) (h : size (literalType v) < size (literalType w)) :
    literalTy [literalType w, literalType v] = some ⟨some (literalType w), 2⟩ ∧
      literalTy [literalType v, literalType w] = none := by
  have hv : isSignedInteger (literalType v) = true := by
    unfold literalType; split <;> (try split) <;> (try split) <;> rfl
  have hw : isSignedInteger (literalType w) = true := by
    unfold literalType; split <;> (try split) <;> (try split) <;> rfl
  revert h hv hw
  generalize literalType v = a
  generalize literalType w = b
  cases a <;> cases b <;> decide

example : literalTy [literalType 1, literalType 1000] = none := by decide

/-! ### Declared array types (C230) -/

/-- C230 is false of the code: whatever the declared type is, no literal that is
accepted by itself is refused, and the C that is written for it can be compiled exactly
if the literal is empty or has the declared type itself. -/
theorem declared_array (declared : ArrTy) (ts : List Prim) (h : literalTy ts ≠ none) :
    ∃ d, declare declared ts = some d ∧
      (cAccepts d = true ↔ ts = [] ∨ literalTy ts = some declared) := by
  cases ts with
  | nil => exact ⟨⟨declared, none⟩, by simp [declare, literalTy, elementType, varAccepts], by
      simp [cAccepts]⟩
  | cons t ts =>
    have ha : ts.all (fun u => assignable t u) = true := by
      by_cases q : ts.all (fun u => assignable t u) = true
      · exact q
      · simp [literalTy, elementType, q] at h
    refine ⟨⟨declared, some ⟨some t, ts.length + 1⟩⟩, ?_, ?_⟩
    · simp [declare, literalTy, elementType, ha, varAccepts, assignable_self]
    · simp [cAccepts, literalTy, elementType, ha]

/-- So `var a: [T, n] = [1, 2, 3]` can be compiled for `T = i8` and `n = 3` only, and
in general for one type. -/
theorem declared_small_numbers (t : Prim) (n : Nat) (vs : List Int) (hv : vs ≠ [])
    (h : ∀ v ∈ vs, -128 ≤ v ∧ v ≤ 127) :
    ∃ d, declare ⟨some t, n⟩ (vs.map literalType) = some d ∧
      (cAccepts d = true ↔ t = .i8 ∧ n = vs.length) := by
  have hl : vs.map literalType = List.replicate vs.length .i8 := by
    apply List.eq_replicate_iff.mpr
    refine ⟨by simp, ?_⟩
    intro b hb
    obtain ⟨v, hv, rfl⟩ := List.mem_map.mp hb
    have := h v hv
    unfold literalType
    rw [if_pos ⟨by omega, by omega⟩]
  obtain ⟨n', hn'⟩ : ∃ k, vs.length = k + 1 := by
    cases vs with
    | nil => exact absurd rfl hv
    | cons _ vs => exact ⟨vs.length, rfl⟩
  have hty : literalTy (vs.map literalType) = some ⟨some .i8, vs.length⟩ := by
    rw [hl, hn', List.replicate_succ]
    have : (List.replicate n' Prim.i8).all (fun u => assignable .i8 u) = true := by
      rw [List.all_eq_true]
      intro x hx
      rw [List.eq_of_mem_replicate hx]
      rfl
    simp [literalTy, elementType, this]
  obtain ⟨d, hd, hc⟩ := declared_array ⟨some t, n⟩ (vs.map literalType) (by simp [hty])
  refine ⟨d, hd, ?_⟩
  rw [hc, hty]
  constructor
  · rintro (q | q)
    · simp at q; exact absurd q hv
    · simp at q; exact ⟨q.1.symm, q.2.symm⟩
  · rintro ⟨rfl, rfl⟩
    exact Or.inr rfl

example : ∃ d, declare ⟨some .i32, 3⟩ ([1, 2, 3].map literalType) = some d ∧ cAccepts d = false := by
  decide

end Verif.ArrayLit
