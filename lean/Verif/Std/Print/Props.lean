import Verif.Std.Print.Model
import Verif.Std.JsonVal.Props
/-! # C191-C193: printing -/
namespace Verif.Print
open Verif.JsonVal (IntTy showInt digits value isDigit digits_all)

/-! ## C191: printed integers -/

/-- A reader of decimal numbers, independent of the printer. -/
def readDigits : List Nat → Nat → Option Nat
  | [], n => some n
  | c :: cs, n => if 48 ≤ c ∧ c ≤ 57 then readDigits cs (10 * n + (c - 48)) else none
def readDecimal : List Nat → Option Int
  | [] => none
  | 45 :: c :: cs => (readDigits (c :: cs) 0).map fun n : Nat => -(n : Int)
  | cs => (readDigits cs 0).map fun n : Nat => (n : Int)

theorem readDigits_value : ∀ (ds : List Nat) (a : Nat), ds.all isDigit = true → readDigits ds a = some (ds.foldl (fun a c => a * 10 + (c - 48)) a)
  | [], a, _ => rfl
  | c :: cs, a, h => by
    simp only [List.all_cons, Bool.and_eq_true, isDigit, decide_eq_true_eq] at h
    rw [readDigits, if_pos h.1, readDigits_value cs _ (by simpa [isDigit] using h.2), List.foldl_cons, Nat.mul_comm]

theorem readDigits_digits (n : Nat) : readDigits (digits n) 0 = some n := by
  obtain ⟨_, h2, h3⟩ := digits_all n
  rw [readDigits_value _ _ h2]
  exact congrArg some h3

theorem readDecimal_showInt (v : Int) : readDecimal (showInt v) = some v := by
  obtain ⟨h1, h2, _⟩ := digits_all v.natAbs
  have h4 := readDigits_digits v.natAbs
  unfold showInt
  cases hd : digits v.natAbs with
  | nil => exact absurd hd h1
  | cons c cs =>
    rw [hd] at h2 h4
    simp only [List.all_cons, Bool.and_eq_true, isDigit, decide_eq_true_eq] at h2
    split
    · rw [readDecimal, h4]
      rw [Option.map_some, Option.some.injEq]; omega
    · have : readDecimal (c :: cs) = (readDigits (c :: cs) 0).map fun n : Nat => (n : Int) := by
        have : c ≠ 45 := by omega
        simp [readDecimal, this]
      rw [this, h4]
      rw [Option.map_some, Option.some.injEq]; omega

theorem holds_iff (t : IntTy) (v : Int) : t.holds v = true ↔
    if t.signed then -(2 ^ (t.width - 1)) ≤ v ∧ v < 2 ^ (t.width - 1) else 0 ≤ v ∧ v < 2 ^ t.width := by
  unfold IntTy.holds
  cases t.signed <;> simp

theorem in_i64 (t : IntTy) (v : Int) (h : t.holds v = true) (hb : t.width ≤ 64) :
    (-(2 ^ 63) ≤ v ∧ v < 2 ^ 63) ∨ (t = .u64 ∧ 0 ≤ v ∧ v < 2 ^ 64) := by
  rw [holds_iff] at h
  by_cases hs : t.signed = true
  · rw [if_pos hs] at h
    have : (2 : Int) ^ (t.width - 1) ≤ 2 ^ 63 := by exact_mod_cast Nat.pow_le_pow_right (by decide) (by omega : t.width - 1 ≤ 63)
    left; omega
  · rw [if_neg hs] at h
    by_cases hu : t.width = 64
    · right
      have : t = .u64 := by
        obtain ⟨a, b⟩ := t
        simp only [Bool.not_eq_true] at hs
        simp only [] at hu
        subst hs; subst hu; rfl
      subst this
      exact ⟨rfl, h⟩
    · have h4 : t.width ≤ 63 := by omega
      have : (2 : Int) ^ t.width ≤ 2 ^ 63 := by exact_mod_cast Nat.pow_le_pow_right (by decide) h4
      left; omega

/-- **C191 (partial).** What is printed for an integer of any type is the integer in decimal. Missing: `u64`. -/
theorem printed_integer_partial (t : IntTy) (v : Int) (h : t.holds v = true) (hb : t.width ≤ 64) (hu : ¬ (t.signed = false ∧ t.width = 64)) :
    ∃ a, print (.int t) (.int v) = some a ∧ readDecimal a = some v := by
  refine ⟨_, by rw [print], ?_⟩
  rcases in_i64 t v h hb with h1 | ⟨h1, _⟩
  · rw [intText, Int.bmod_eq_of_le (by omega) (by omega), readDecimal_showInt]
  · exact absurd ⟨by rw [h1]; rfl, by rw [h1]; rfl⟩ hu

/-- **C191 (negated).** Every `u64` from `2^63` on is printed as a negative number. -/
theorem large_u64_printed_negative (v : Int) (h1 : 2 ^ 63 ≤ v) (h2 : v < 2 ^ 64) :
    IntTy.u64.holds v = true ∧ ∃ a, print (.int .u64) (.int v) = some a ∧ readDecimal a = some (v - 2 ^ 64) := by
  refine ⟨(holds_iff _ _).2 (by simp [IntTy.u64]; omega), _, by rw [print], ?_⟩
  have : Int.bmod v (2 ^ 64) = v - 2 ^ 64 := by
    have e : v % ((2 ^ 64 : Nat) : Int) = v := Int.emod_eq_of_lt (by omega) (by omega)
    rw [Int.bmod_def, e, if_neg (by omega)]
    rfl
  rw [intText, this, readDecimal_showInt]

example : IntTy.i8.holds (-128) = true ∧ print (.int .i8) (.int (-128)) = some [45, 49, 50, 56] := by
  refine ⟨by decide, ?_⟩
  simp [print, intText, showInt, digits]

/-! ## C192: what is printed can be told apart -/

/-- The characters behind a value. -/
def closes (c : Nat) : Bool := decide (c = 44) || decide (c = 41) || decide (c = 93) || decide (c = 125)
def open' (c : Nat) : Bool := !closes c

/-- Nothing, or something that begins with one of these characters. -/
def Delim : List Nat → Prop
  | [] => True
  | c :: _ => closes c = true

mutual
/-- Types without strings, characters, unions and optionals of optionals; names and texts of enumerations without `,`, `)`, `]`, `}`; different members
of an enumeration have different texts, and none is `null`. -/
def Ty.plain : Ty → Prop
  | .int t => t.width ≤ 64
  | .bool => True
  | .enum ms => (∀ m ∈ ms, m.2 ≠ [] ∧ m.2.all open' = true ∧ m.2 ≠ [110, 117, 108, 108]) ∧ ∀ m ∈ ms, ∀ k ∈ ms, m.2 = k.2 → m.1 = k.1
  | .opt t => t.plain ∧ ∀ u, t ≠ .opt u
  | .struct name fs => name.all open' = true ∧ fs.plain
  | .tuple ts => ts.plain
  | .array t => t.plain
  | _ => False
def Tys.plain : Tys → Prop
  | .nil => True
  | .cons t ts => t.plain ∧ ts.plain
def Fields.plain : Fields → Prop
  | .nil => True
  | .cons _ t fs => t.plain ∧ fs.plain
end

mutual
/-- The values of a type. -/
def Has : Ty → Val → Prop
  | .int t, .int v => t.holds v = true
  | .bool, .bool _ => True
  | .char, .chr c => c < 256
  | .wide, .chr c => c < 2 ^ 32
  | .str, .str _ => True
  | .enum ms, .int v => ∃ m ∈ ms, m.1 = v
  | .opt _, .none => True
  | .opt t, .some v => Has t v
  | .struct _ fs, v => HasFields fs v
  | .tuple ts, v => HasAll ts v
  | .array t, v => HasElems (Has t) v
  | .union ts, .mem i v => HasMember ts i v
  | _, _ => False
def HasAll : Tys → Val → Prop
  | .nil, .nil => True
  | .cons t ts, .cons v vs => Has t v ∧ HasAll ts vs
  | _, _ => False
def HasFields : Fields → Val → Prop
  | .nil, .nil => True
  | .cons _ t fs, .cons v vs => Has t v ∧ HasFields fs vs
  | _, _ => False
def HasElems (p : Val → Prop) : Val → Prop
  | .nil => True
  | .cons v vs => p v ∧ HasElems p vs
  | _ => False
def HasMember : Tys → Nat → Val → Prop
  | .cons t _, 0, v => Has t v
  | .cons _ ts, i + 1, v => HasMember ts i v
  | .nil, _, _ => False
end

theorem enumText_some {ms : List (Int × List Nat)} {v : Int} {a : List Nat} (h : enumText ms v = some a) : (v, a) ∈ ms := by
  simp only [enumText, Option.map_eq_some_iff] at h
  obtain ⟨m, hm, rfl⟩ := h
  have h1 := List.find?_some hm
  have h2 := List.mem_of_find?_eq_some hm
  simp only [decide_eq_true_eq] at h1
  rw [← h1]; exact h2

mutual
/-- Printing a value of any type ends normally. -/
theorem print_total : ∀ (t : Ty) (v : Val), Has t v → ∃ a, print t v = some a
  | .int t, v, h => by cases v <;> simp_all [Has, print]
  | .bool, v, h => by cases v <;> simp_all [Has, print]
  | .char, v, h => by cases v <;> simp_all [Has, print]
  | .wide, v, h => by cases v <;> simp_all [Has, print]
  | .str, v, h => by cases v <;> simp_all [Has, print]
  | .enum ms, v, h => by
    cases v with
    | int v =>
      simp only [Has] at h
      obtain ⟨m, hm, rfl⟩ := h
      have : (ms.find? (fun k => decide (k.1 = m.1))).isSome = true := by
        rw [List.find?_isSome]; exact ⟨m, hm, by simp⟩
      obtain ⟨k, hk⟩ := Option.isSome_iff_exists.1 this
      exact ⟨k.2, by simp [print, enumText, hk]⟩
    | _ => simp [Has] at h
  | .opt t, v, h => by
    cases v with
    | none => exact ⟨_, by rw [print]⟩
    | some v =>
      simp only [Has] at h
      rw [print]; exact print_total t v h
    | _ => simp [Has] at h
  | .struct name fs, v, h => by
    simp only [Has] at h
    obtain ⟨a, ha⟩ := printFields_total fs v true h
    exact ⟨_, by rw [print, ha]; rfl⟩
  | .tuple ts, v, h => by
    simp only [Has] at h
    obtain ⟨a, ha⟩ := printAll_total ts v true h
    exact ⟨_, by rw [print, ha]; rfl⟩
  | .array t, v, h => by
    simp only [Has] at h
    obtain ⟨a, ha⟩ := printElems_total (print_total t) v true h
    exact ⟨_, by rw [print, ha]; rfl⟩
  | .union ts, v, h => by
    cases v with
    | mem i v =>
      simp only [Has] at h
      rw [print]; exact printMember_total ts i v h
    | _ => simp [Has] at h
theorem printAll_total : ∀ (ts : Tys) (v : Val) (first : Bool), HasAll ts v → ∃ a, printAll first ts v = some a
  | .nil, v, first, h => by cases v <;> simp_all [HasAll, printAll]
  | .cons t ts, v, first, h => by
    cases v with
    | cons v vs =>
      simp only [HasAll] at h
      obtain ⟨a, ha⟩ := print_total t v h.1
      obtain ⟨b, hb⟩ := printAll_total ts vs false h.2
      exact ⟨_, by rw [printAll, ha, hb]; rfl⟩
    | _ => simp [HasAll] at h
theorem printFields_total : ∀ (ts : Fields) (v : Val) (first : Bool), HasFields ts v → ∃ a, printFields first ts v = some a
  | .nil, v, first, h => by cases v <;> simp_all [HasFields, printFields]
  | .cons n t ts, v, first, h => by
    cases v with
    | cons v vs =>
      simp only [HasFields] at h
      obtain ⟨a, ha⟩ := print_total t v h.1
      obtain ⟨b, hb⟩ := printFields_total ts vs false h.2
      exact ⟨_, by rw [printFields, ha, hb]; rfl⟩
    | _ => simp [HasFields] at h
theorem printElems_total {p : Val → Prop} {q : Val → Option (List Nat)} (hp : ∀ v, p v → ∃ a, q v = some a) : ∀ (v : Val) (first : Bool),
    HasElems p v → ∃ a, printElems first q v = some a
  | .nil, first, _ => ⟨_, by rw [printElems]⟩
  | .cons v vs, first, h => by
    simp only [HasElems] at h
    obtain ⟨a, ha⟩ := hp v h.1
    obtain ⟨b, hb⟩ := printElems_total hp vs false h.2
    exact ⟨_, by rw [printElems, ha, hb]; rfl⟩
  | .int _, _, h => by simp [HasElems] at h
  | .bool _, _, h => by simp [HasElems] at h
  | .chr _, _, h => by simp [HasElems] at h
  | .str _, _, h => by simp [HasElems] at h
  | .none, _, h => by simp [HasElems] at h
  | .some _, _, h => by simp [HasElems] at h
  | .mem _ _, _, h => by simp [HasElems] at h
theorem printMember_total : ∀ (ts : Tys) (i : Nat) (v : Val), HasMember ts i v → ∃ a, printMember ts i v = some a
  | .nil, _, _, h => by simp [HasMember] at h
  | .cons t ts, 0, v, h => by
    simp only [HasMember] at h
    rw [printMember]; exact print_total t v h
  | .cons t ts, i + 1, v, h => by
    simp only [HasMember] at h
    rw [printMember]; exact printMember_total ts i v h
end

theorem takeWhile_delim {a r : List Nat} (ha : a.all open' = true) (hr : Delim r) : (a ++ r).takeWhile open' = a := by
  rw [List.takeWhile_append_of_pos (fun x hx => List.all_eq_true.1 ha x hx)]
  cases r with
  | nil => simp
  | cons c r => simp only [Delim] at hr; simp [open', hr]

theorem split_delim {a b r s : List Nat} (ha : a.all open' = true) (hb : b.all open' = true) (hr : Delim r) (hs : Delim s) (e : a ++ r = b ++ s) :
    a = b ∧ r = s := by
  have h := takeWhile_delim ha hr
  rw [e, takeWhile_delim hb hs] at h
  subst h
  exact ⟨rfl, List.append_cancel_left e⟩

theorem showInt_open (v : Int) : (showInt v).all open' = true ∧ showInt v ≠ [] ∧ showInt v ≠ [110, 117, 108, 108] := by
  obtain ⟨h1, h2, _⟩ := digits_all v.natAbs
  have h3 : (digits v.natAbs).all open' = true := by
    rw [List.all_eq_true] at h2 ⊢
    intro c hc
    have := h2 c hc
    simp only [isDigit, Bool.and_eq_true, decide_eq_true_eq] at this
    simp [open', closes]; omega
  unfold showInt
  split
  · refine ⟨by rw [List.all_cons, h3]; decide, by simp, by simp⟩
  · refine ⟨h3, h1, fun e => ?_⟩
    rw [e] at h2
    exact absurd h2 (by decide)

theorem bmod_inj {v w : Int} (h : (-(2 ^ 63) ≤ v ∧ v < 2 ^ 63) ∧ (-(2 ^ 63) ≤ w ∧ w < 2 ^ 63) ∨ (0 ≤ v ∧ v < 2 ^ 64) ∧ (0 ≤ w ∧ w < 2 ^ 64))
    (e : Int.bmod v (2 ^ 64) = Int.bmod w (2 ^ 64)) : v = w := by
  rw [Int.bmod_def, Int.bmod_def] at e
  simp only [show ((2 ^ 64 : Nat) : Int) = 18446744073709551616 from rfl] at e
  split at e <;> split at e <;> omega

theorem intText_inj {t : IntTy} {v w : Int} (hp : t.width ≤ 64) (hv : t.holds v = true)
    (hw : t.holds w = true) (e : intText v = intText w) : v = w := by
  have e : Int.bmod v (2 ^ 64) = Int.bmod w (2 ^ 64) := by
    have := congrArg readDecimal e
    simpa [intText, readDecimal_showInt] using this
  refine bmod_inj ?_ e
  by_cases h : t = .u64
  · subst h
    rw [holds_iff] at hv hw
    exact .inr ⟨hv, hw⟩
  · rcases in_i64 t v hv hp with h1 | h1
    · rcases in_i64 t w hw hp with h2 | h2
      · exact .inl ⟨h1, h2⟩
      · exact absurd h2.1 h
    · exact absurd h1.1 h

/-- The text of a value begins with a character that is none of those behind a value, and is not `null` in front of one of those. -/
def Starts (null : Prop) (a : List Nat) : Prop := (∃ c l, a = c :: l ∧ open' c = true) ∧ (null ∨ ∀ r s, Delim s → a ++ r ≠ [110, 117, 108, 108] ++ s ∨ ¬ Delim r)

theorem starts_open {null : Prop} {a : List Nat} (h : a.all open' = true) (h1 : a ≠ []) (h2 : a ≠ [110, 117, 108, 108]) : Starts null a := by
  constructor
  · cases a with
    | nil => exact absurd rfl h1
    | cons c l => simp only [List.all_cons, Bool.and_eq_true] at h; exact ⟨c, l, rfl, h.1⟩
  · right
    intro r s hs
    by_cases hr : Delim r
    · left
      intro e
      exact h2 (split_delim h (by decide) hr hs e).1
    · exact .inr hr

theorem print_starts : ∀ (t : Ty) (v : Val) (a : List Nat), t.plain → print t v = some a → Starts (∃ u, t = .opt u) a
  | .int t, v, a, _, h => by
    cases v with
    | int v =>
      simp only [print, Option.some.injEq] at h
      subst h
      obtain ⟨h1, h2, h3⟩ := showInt_open (Int.bmod v (2 ^ 64))
      exact starts_open h1 h2 h3
    | _ => simp [print] at h
  | .bool, v, a, _, h => by
    cases v with
    | bool b =>
      simp only [print, Option.some.injEq] at h
      subst h
      cases b <;> exact starts_open (by decide) (by decide) (by decide)
    | _ => simp [print] at h
  | .char, _, _, hp, _ => by simp [Ty.plain] at hp
  | .wide, _, _, hp, _ => by simp [Ty.plain] at hp
  | .str, _, _, hp, _ => by simp [Ty.plain] at hp
  | .union _, _, _, hp, _ => by simp [Ty.plain] at hp
  | .enum ms, v, a, hp, h => by
    cases v with
    | int v =>
      simp only [print] at h
      simp only [Ty.plain] at hp
      obtain ⟨h1, h2, h3⟩ := hp.1 _ (enumText_some h)
      exact starts_open h2 h1 h3
    | _ => simp [print] at h
  | .opt t, v, a, hp, h => by
    refine ⟨?_, .inl ⟨t, rfl⟩⟩
    simp only [Ty.plain] at hp
    cases v with
    | none => simp only [print, Option.some.injEq] at h; subst h; exact ⟨_, _, rfl, by decide⟩
    | some v => rw [print] at h; exact (print_starts t v a hp.1 h).1
    | _ => simp [print] at h
  | .struct name fs, v, a, hp, h => by
    simp only [print, Option.map_eq_some_iff] at h
    simp only [Ty.plain] at hp
    obtain ⟨b, hb, rfl⟩ := h
    constructor
    · cases name with
      | nil => exact ⟨123, b ++ [125], by simp, by decide⟩
      | cons c l =>
        have := hp.1
        simp only [List.all_cons, Bool.and_eq_true] at this
        exact ⟨c, l ++ [123] ++ b ++ [125], by simp, this.1⟩
    · right
      intro r s hs
      left
      intro e
      have h1 := takeWhile_delim (a := [110, 117, 108, 108]) (by decide) hs
      rw [← e, List.append_assoc, List.append_assoc, List.append_assoc,
        List.takeWhile_append_of_pos (fun x hx => List.all_eq_true.1 hp.1 x hx), List.cons_append, List.takeWhile_cons_of_pos (by decide)] at h1
      have : 123 ∈ ([110, 117, 108, 108] : List Nat) := by rw [← h1]; simp
      exact absurd this (by decide)
  | .tuple ts, v, a, hp, h => by
    simp only [print, Option.map_eq_some_iff] at h
    obtain ⟨b, hb, rfl⟩ := h
    exact ⟨⟨_, _, rfl, by decide⟩, .inr fun r s _ => .inl (by simp)⟩
  | .array ts, v, a, hp, h => by
    simp only [print, Option.map_eq_some_iff] at h
    obtain ⟨b, hb, rfl⟩ := h
    exact ⟨⟨_, _, rfl, by decide⟩, .inr fun r s _ => .inl (by simp)⟩

/-- Values of which the text can be told from what follows. -/
def Apart (p : Val → Prop) (q : Val → Option (List Nat)) : Prop :=
  ∀ v w a b r s, p v → p w → q v = some a → q w = some b → Delim r → Delim s → a ++ r = b ++ s → v = w ∧ r = s

theorem rest_delim {q : Val → Option (List Nat)} : ∀ (v : Val) (a r : List Nat), printElems false q v = some a → Delim r → Delim (a ++ r)
  | .nil, a, r, h, hr => by simp only [printElems, Option.some.injEq] at h; subst h; exact hr
  | .cons v vs, a, r, h, _ => by
    simp only [printElems, Option.bind_eq_some_iff, Option.map_eq_some_iff] at h
    obtain ⟨x, _, y, _, rfl⟩ := h
    simp [Delim, closes]
  | .int _, _, _, h, _ => by simp [printElems] at h
  | .bool _, _, _, h, _ => by simp [printElems] at h
  | .chr _, _, _, h, _ => by simp [printElems] at h
  | .str _, _, _, h, _ => by simp [printElems] at h
  | .none, _, _, h, _ => by simp [printElems] at h
  | .some _, _, _, h, _ => by simp [printElems] at h
  | .mem _ _, _, _, h, _ => by simp [printElems] at h

theorem elems_apart {p : Val → Prop} {q : Val → Option (List Nat)} (ha : Apart p q) (hs : ∀ v a, p v → q v = some a → ∃ c l, a = c :: l ∧ open' c = true) :
    ∀ (v w : Val) (first : Bool) (a b r s : List Nat), HasElems p v → HasElems p w → printElems first q v = some a → printElems first q w = some b →
      a ++ 93 :: r = b ++ 93 :: s → v = w ∧ r = s
  | .nil, w, first, a, b, r, s, hv, hw, h1, h2, e => by
    simp only [printElems, Option.some.injEq] at h1; subst h1
    cases w with
    | nil => simp only [printElems, Option.some.injEq] at h2; subst h2; simpa using e
    | cons w ws =>
      simp only [printElems, Option.bind_eq_some_iff, Option.map_eq_some_iff] at h2
      obtain ⟨x, hx, y, _, rfl⟩ := h2
      simp only [HasElems] at hw
      obtain ⟨c, l, rfl, hc⟩ := hs w x hw.1 hx
      cases first
      · simp at e
      · simp only [if_true, List.nil_append, List.cons_append, List.cons.injEq] at e
        rw [← e.1] at hc
        exact absurd hc (by decide)
    | _ => simp [HasElems] at hw
  | .cons v vs, w, first, a, b, r, s, hv, hw, h1, h2, e => by
    simp only [printElems, Option.bind_eq_some_iff, Option.map_eq_some_iff] at h1
    obtain ⟨x, hx, y, hy, rfl⟩ := h1
    simp only [HasElems] at hv
    cases w with
    | nil =>
      simp only [printElems, Option.some.injEq] at h2; subst h2
      obtain ⟨c, l, rfl, hc⟩ := hs v x hv.1 hx
      cases first
      · simp at e
      · simp only [if_true, List.nil_append, List.cons_append, List.cons.injEq] at e
        rw [e.1] at hc
        exact absurd hc (by decide)
    | cons w ws =>
      simp only [printElems, Option.bind_eq_some_iff, Option.map_eq_some_iff] at h2
      obtain ⟨x', hx', y', hy', rfl⟩ := h2
      simp only [HasElems] at hw
      rw [List.append_assoc, List.append_assoc, List.append_assoc, List.append_assoc] at e
      have e := List.append_cancel_left e
      obtain ⟨rfl, e⟩ := ha v w x x' _ _ hv.1 hw.1 hx hx' (rest_delim vs y _ hy (by simp [Delim, closes])) (rest_delim ws y' _ hy' (by simp [Delim, closes])) e
      obtain ⟨rfl, e⟩ := elems_apart ha hs vs ws false y y' r s hv.2 hw.2 hy hy' e
      exact ⟨rfl, e⟩
    | _ => simp [HasElems] at hw
  | .int _, _, _, _, _, _, _, hv, _, _, _, _ => by simp [HasElems] at hv
  | .bool _, _, _, _, _, _, _, hv, _, _, _, _ => by simp [HasElems] at hv
  | .chr _, _, _, _, _, _, _, hv, _, _, _, _ => by simp [HasElems] at hv
  | .str _, _, _, _, _, _, _, hv, _, _, _, _ => by simp [HasElems] at hv
  | .none, _, _, _, _, _, _, hv, _, _, _, _ => by simp [HasElems] at hv
  | .some _, _, _, _, _, _, _, hv, _, _, _, _ => by simp [HasElems] at hv
  | .mem _ _, _, _, _, _, _, _, hv, _, _, _, _ => by simp [HasElems] at hv

theorem all_delim (ts : Tys) (v : Val) (a r : List Nat) (h : printAll false ts v = some a) (hr : Delim r) : Delim (a ++ r) := by
  cases ts with
  | nil => cases v <;> simp_all [printAll]
  | cons t ts =>
    cases v with
    | cons v vs =>
      simp only [printAll, Option.bind_eq_some_iff, Option.map_eq_some_iff] at h
      obtain ⟨x, _, y, _, rfl⟩ := h
      simp [Delim, closes]
    | _ => simp [printAll] at h

theorem fields_delim (ts : Fields) (v : Val) (a r : List Nat) (h : printFields false ts v = some a) (hr : Delim r) : Delim (a ++ r) := by
  cases ts with
  | nil => cases v <;> simp_all [printFields]
  | cons n t ts =>
    cases v with
    | cons v vs =>
      simp only [printFields, Option.bind_eq_some_iff, Option.map_eq_some_iff] at h
      obtain ⟨x, _, y, _, rfl⟩ := h
      simp [Delim, closes]
    | _ => simp [printFields] at h

theorem quote_plain (t : Ty) (h : t.plain) : quote t = [] := by cases t <;> simp_all [Ty.plain, quote]

mutual
theorem print_apart : ∀ (t : Ty), t.plain → Apart (Has t) (print t)
  | .int t, hp, v, w, a, b, r, s, hv, hw, h1, h2, hr, hs, e => by
    cases v with
    | int v =>
      cases w with
      | int w =>
        simp only [print, Option.some.injEq] at h1 h2
        subst h1; subst h2
        simp only [Has] at hv hw
        simp only [Ty.plain] at hp
        obtain ⟨e1, e2⟩ := split_delim (showInt_open _).1 (showInt_open _).1 hr hs e
        rw [intText_inj hp hv hw e1]
        exact ⟨rfl, e2⟩
      | _ => simp [Has] at hw
    | _ => simp [Has] at hv
  | .bool, hp, v, w, a, b, r, s, hv, hw, h1, h2, hr, hs, e => by
    cases v with
    | bool v =>
      cases w with
      | bool w =>
        simp only [print, Option.some.injEq] at h1 h2
        subst h1; subst h2
        obtain ⟨e1, e2⟩ := split_delim (by cases v <;> decide) (by cases w <;> decide) hr hs e
        refine ⟨?_, e2⟩
        cases v <;> cases w <;> simp_all
      | _ => simp [Has] at hw
    | _ => simp [Has] at hv
  | .char, hp, _, _, _, _, _, _, _, _, _, _, _, _, _ => by simp [Ty.plain] at hp
  | .wide, hp, _, _, _, _, _, _, _, _, _, _, _, _, _ => by simp [Ty.plain] at hp
  | .str, hp, _, _, _, _, _, _, _, _, _, _, _, _, _ => by simp [Ty.plain] at hp
  | .union _, hp, _, _, _, _, _, _, _, _, _, _, _, _, _ => by simp [Ty.plain] at hp
  | .enum ms, hp, v, w, a, b, r, s, hv, hw, h1, h2, hr, hs, e => by
    cases v with
    | int v =>
      cases w with
      | int w =>
        simp only [print] at h1 h2
        simp only [Ty.plain] at hp
        have m1 := enumText_some h1
        have m2 := enumText_some h2
        obtain ⟨e1, e2⟩ := split_delim (hp.1 _ m1).2.1 (hp.1 _ m2).2.1 hr hs e
        have := hp.2 _ m1 _ m2 e1
        simp only [] at this
        rw [this]
        exact ⟨rfl, e2⟩
      | _ => simp [Has] at hw
    | _ => simp [Has] at hv
  | .opt t, hp, v, w, a, b, r, s, hv, hw, h1, h2, hr, hs, e => by
    simp only [Ty.plain] at hp
    cases v with
    | none =>
      simp only [print, Option.some.injEq] at h1
      subst h1
      cases w with
      | none =>
        simp only [print, Option.some.injEq] at h2
        subst h2
        exact ⟨rfl, List.append_cancel_left e⟩
      | some w =>
        rw [print] at h2
        rcases (print_starts t w b hp.1 h2).2 with ⟨u, hu⟩ | h
        · exact absurd hu (hp.2 u)
        · rcases h s r hr with h | h
          · exact absurd e.symm h
          · exact absurd hs h
      | _ => simp [Has] at hw
    | some v =>
      rw [print] at h1
      cases w with
      | none =>
        simp only [print, Option.some.injEq] at h2
        subst h2
        rcases (print_starts t v a hp.1 h1).2 with ⟨u, hu⟩ | h
        · exact absurd hu (hp.2 u)
        · rcases h r s hs with h | h
          · exact absurd e h
          · exact absurd hr h
      | some w =>
        rw [print] at h2
        simp only [Has] at hv hw
        obtain ⟨rfl, e⟩ := print_apart t hp.1 v w a b r s hv hw h1 h2 hr hs e
        exact ⟨rfl, e⟩
      | _ => simp [Has] at hw
    | _ => simp [Has] at hv
  | .struct name fs, hp, v, w, a, b, r, s, hv, hw, h1, h2, hr, hs, e => by
    simp only [print, Option.map_eq_some_iff] at h1 h2
    simp only [Ty.plain] at hp
    simp only [Has] at hv hw
    obtain ⟨x, hx, rfl⟩ := h1
    obtain ⟨y, hy, rfl⟩ := h2
    simp only [List.append_assoc] at e
    have e := List.append_cancel_left (List.append_cancel_left e)
    obtain ⟨rfl, e⟩ := fields_apart fs hp.2 v w true x y _ _ hv hw hx hy (by simp [Delim, closes]) (by simp [Delim, closes]) e
    exact ⟨rfl, by simpa using e⟩
  | .tuple ts, hp, v, w, a, b, r, s, hv, hw, h1, h2, hr, hs, e => by
    simp only [print, Option.map_eq_some_iff] at h1 h2
    simp only [Ty.plain] at hp
    simp only [Has] at hv hw
    obtain ⟨x, hx, rfl⟩ := h1
    obtain ⟨y, hy, rfl⟩ := h2
    simp only [List.append_assoc] at e
    have e := List.append_cancel_left e
    obtain ⟨rfl, e⟩ := all_apart ts hp v w true x y _ _ hv hw hx hy (by simp [Delim, closes]) (by simp [Delim, closes]) e
    exact ⟨rfl, by simpa using e⟩
  | .array t, hp, v, w, a, b, r, s, hv, hw, h1, h2, hr, hs, e => by
    simp only [print, Option.map_eq_some_iff] at h1 h2
    simp only [Ty.plain] at hp
    simp only [Has] at hv hw
    obtain ⟨x, hx, rfl⟩ := h1
    obtain ⟨y, hy, rfl⟩ := h2
    simp only [List.append_assoc] at e
    have e := List.append_cancel_left e
    exact elems_apart (print_apart t hp) (fun v a _ h => (print_starts t v a hp h).1) v w true x y r s hv hw hx hy (by simpa using e)
theorem all_apart : ∀ (ts : Tys), ts.plain → ∀ (v w : Val) (first : Bool) (a b r s : List Nat), HasAll ts v → HasAll ts w → printAll first ts v = some a →
    printAll first ts w = some b → Delim r → Delim s → a ++ r = b ++ s → v = w ∧ r = s
  | .nil, _, v, w, first, a, b, r, s, hv, hw, h1, h2, hr, hs, e => by
    cases v <;> simp only [HasAll] at hv
    cases w <;> simp only [HasAll] at hw
    simp only [printAll, Option.some.injEq] at h1 h2
    subst h1; subst h2
    exact ⟨rfl, by simpa using e⟩
  | .cons t ts, hp, v, w, first, a, b, r, s, hv, hw, h1, h2, hr, hs, e => by
    simp only [Tys.plain] at hp
    cases v <;> simp only [HasAll] at hv
    cases w <;> simp only [HasAll] at hw
    simp only [printAll, Option.bind_eq_some_iff, Option.map_eq_some_iff] at h1 h2
    obtain ⟨x, hx, y, hy, rfl⟩ := h1
    obtain ⟨x', hx', y', hy', rfl⟩ := h2
    rw [List.append_assoc, List.append_assoc, List.append_assoc, List.append_assoc] at e
    have e := List.append_cancel_left e
    obtain ⟨rfl, e⟩ := print_apart t hp.1 _ _ x x' _ _ hv.1 hw.1 hx hx' (all_delim ts _ y _ hy hr) (all_delim ts _ y' _ hy' hs) e
    obtain ⟨rfl, e⟩ := all_apart ts hp.2 _ _ false y y' r s hv.2 hw.2 hy hy' hr hs e
    exact ⟨rfl, e⟩
theorem fields_apart : ∀ (ts : Fields), ts.plain → ∀ (v w : Val) (first : Bool) (a b r s : List Nat), HasFields ts v → HasFields ts w →
    printFields first ts v = some a → printFields first ts w = some b → Delim r → Delim s → a ++ r = b ++ s → v = w ∧ r = s
  | .nil, _, v, w, first, a, b, r, s, hv, hw, h1, h2, hr, hs, e => by
    cases v <;> simp only [HasFields] at hv
    cases w <;> simp only [HasFields] at hw
    simp only [printFields, Option.some.injEq] at h1 h2
    subst h1; subst h2
    exact ⟨rfl, by simpa using e⟩
  | .cons n t ts, hp, v, w, first, a, b, r, s, hv, hw, h1, h2, hr, hs, e => by
    simp only [Fields.plain] at hp
    cases v <;> simp only [HasFields] at hv
    cases w <;> simp only [HasFields] at hw
    simp only [printFields, Option.bind_eq_some_iff, Option.map_eq_some_iff, quote_plain t hp.1, List.append_nil] at h1 h2
    obtain ⟨x, hx, y, hy, rfl⟩ := h1
    obtain ⟨x', hx', y', hy', rfl⟩ := h2
    simp only [List.append_assoc] at e
    have e := List.append_cancel_left (List.append_cancel_left (List.append_cancel_left e))
    obtain ⟨rfl, e⟩ := print_apart t hp.1 _ _ x x' _ _ hv.1 hw.1 hx hx' (fields_delim ts _ y _ hy hr) (fields_delim ts _ y' _ hy' hs) e
    obtain ⟨rfl, e⟩ := fields_apart ts hp.2 _ _ false y y' r s hv.2 hw.2 hy hy' hr hs e
    exact ⟨rfl, e⟩
end

/-- **C192 (partial).** Every value is printed, and two values of one type that are printed alike are the same. Missing (see `Ty.plain`): strings,
characters, unions and optionals of optionals. -/
theorem printed_apart_partial (t : Ty) (ht : t.plain) (v w : Val) (hv : Has t v) (hw : Has t w) :
    ∃ a b, print t v = some a ∧ print t w = some b ∧ (a = b → v = w) := by
  obtain ⟨a, ha⟩ := print_total t v hv
  obtain ⟨b, hb⟩ := print_total t w hw
  exact ⟨a, b, ha, hb, fun e => (print_apart t ht v w a b [] [] hv hw ha hb trivial trivial (by rw [e])).1⟩

/-- `[Point{x: u64, c: (Color?, bool)}]`. -/
def exampleTy : Ty := .array (.struct [80] (.cons [120] (.int .u64) (.cons [99] (.tuple (.cons (.opt (.enum [(0, [82]), (1, [71])])) (.cons .bool .nil))) .nil)))
example : exampleTy.plain ∧ Has exampleTy (.cons (.cons (.int 5) (.cons (.cons .none (.cons (.bool true) .nil)) .nil)) .nil) := by
  constructor
  · simp only [exampleTy, Ty.plain, Tys.plain, Fields.plain, IntTy.u64]
    refine ⟨by decide, by decide, ⟨⟨⟨by decide, by decide⟩, fun u h => by cases h⟩, trivial, trivial⟩, trivial⟩
  · simp only [exampleTy, Has, HasElems, HasFields, HasAll, holds_iff, IntTy.u64]
    decide

/-- **C192 (negated).** Strings in tuples (and arrays) cannot be told apart. -/
theorem strings_not_apart (a b c : List Nat) :
    let t : Ty := .tuple (.cons .str (.cons .str .nil))
    print t (.cons (.str (a ++ [44, 32] ++ b)) (.cons (.str c) .nil)) = print t (.cons (.str a) (.cons (.str (b ++ [44, 32] ++ c)) .nil)) := by
  simp [print, printAll]

/-- **C192 (negated).** An optional that is empty and one that holds an empty optional are printed alike, whatever the type. -/
theorem nested_optionals_not_apart (t : Ty) : print (.opt (.opt t)) .none = print (.opt (.opt t)) (.some .none) := by simp [print]

/-- **C192 (negated).** Which of two integer types a union holds is not printed. -/
theorem union_members_not_apart (s t : IntTy) (v : Int) :
    print (.union (.cons (.int s) (.cons (.int t) .nil))) (.mem 0 (.int v)) = print (.union (.cons (.int s) (.cons (.int t) .nil))) (.mem 1 (.int v)) := by
  simp [print, printMember]

/-! ## C193: characters -/

/-- **C193 (partial).** An ASCII character is printed as itself. -/
theorem ascii_printed_partial (c : Nat) (h : c < 128) : print .char (.chr c) = some [c] := by
  have : c < 0x80 := h
  simp [print, charText, Text.streamChar, h]
  omega

/-- **C193 (negated).** Of every other `char` nothing is printed. -/
theorem other_chars_not_printed (c : Nat) (h : 128 ≤ c) (h2 : c < 256) : print .char (.chr c) = some [] := by
  simp only [print, charText, if_neg (show ¬ c < 128 by omega), Text.streamChar]
  rw [if_neg (by omega), if_neg (by omega), if_neg (by omega), if_neg (by omega)]

end Verif.Print
