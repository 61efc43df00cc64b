import Verif.Lang.CompTypes.Model
/-!
# Comparing types at compile time: properties
-/
namespace Verif.CompTypes

mutual
/-- Types that are compared as they should be: no classes, functions, `auto` or types from the table within. -/
def plain : Te → Bool
  | .void => true | .string => true | .prim _ => true
  | .arr _ e => plain e | .tup es => plainMany es | .ptr e => plain e | .refr e => plain e | .opt e => plain e
  | .link (.enum _) => true | .link (.struct _) => true
  | _ => false
def plainMany : List Te → Bool
  | [] => true
  | e :: es => plain e && plainMany es
end

theorem some_eq_iff {b : Bool} {p : Prop} [Decidable p] (h : b = true ↔ p) : some b = some (decide p) := by
  by_cases hp : p
  · simp [hp, h.2 hp]
  · have : b = false := by cases b; rfl; exact absurd (h.1 rfl) hp
    simp [hp, this]

open Classical in
theorem cmp_link_decl (name : Nat → Nat) (hn : ∀ a b, name a = name b → a = b) (known : Te → Option Nat) (e f : Te)
    (he : plain (.link e) = true) (hf : plain (.link f) = true) : cmp name known e f = some (decide (e = f)) := by
  cases e <;> simp [plain] at he <;> cases f <;> simp [plain] at hf <;> simp only [cmp]
  · exact some_eq_iff (by simp only [beq_iff_eq, Te.enum.injEq]; exact ⟨hn _ _, congrArg name⟩)
  · simp [rest, tag, isTypeRef, isAuto]
  · simp [rest, tag, isTypeRef, isAuto]
  · exact some_eq_iff (by simp only [beq_iff_eq, Te.struct.injEq]; exact ⟨hn _ _, congrArg name⟩)

open Classical in
mutual
theorem cmp_plain (name : Nat → Nat) (hn : ∀ a b, name a = name b → a = b) (known : Te → Option Nat) : ∀ l r : Te, plain l = true →
    plain r = true → cmp name known l r = some (decide (l = r))
  | .void, r, _, hr => by
    cases r with
    | void => simp [cmp]
    | _ => simp_all [cmp, rest, isTypeRef, isAuto, plain]
  | .string, r, _, hr => by
    cases r with
    | string => simp [cmp]
    | _ => simp_all [cmp, rest, isTypeRef, isAuto, plain]
  | .prim p, r, _, hr => by
    cases r with
    | prim q => simp only [cmp]; exact some_eq_iff (by simp)
    | _ => simp_all [cmp, rest, isTypeRef, isAuto, plain]
  | .arr n e, r, hl, hr => by
    cases r with
    | arr m f =>
      simp only [plain] at hl hr
      simp only [cmp]
      rw [cmp_plain name hn known e f hl hr]
      by_cases h : n = m <;> simp [h]
    | _ => simp_all [cmp, rest, isTypeRef, isAuto, plain]
  | .tup es, r, hl, hr => by
    cases r with
    | tup fs =>
      simp only [plain] at hl hr
      simp only [cmp]
      rw [cmpMany_plain name hn known es fs hl hr]
      simp
    | _ => simp_all [cmp, rest, isTypeRef, isAuto, plain]
  | .ptr e, r, hl, hr => by
    cases r with
    | ptr f =>
      simp only [plain] at hl hr
      simp only [cmp]
      rw [cmp_plain name hn known e f hl hr]
      simp
    | _ => simp_all [cmp, rest, isTypeRef, isAuto, plain]
  | .refr e, r, hl, hr => by
    cases r with
    | refr f =>
      simp only [plain] at hl hr
      simp only [cmp]
      rw [cmp_plain name hn known e f hl hr]
      simp
    | _ => simp_all [cmp, rest, isTypeRef, isAuto, plain]
  | .opt e, r, hl, hr => by
    cases r with
    | opt f =>
      simp only [plain] at hl hr
      simp only [cmp]
      rw [cmp_plain name hn known e f hl hr]
      simp
    | _ => simp_all [cmp, rest, isTypeRef, isAuto, plain]
  | .link e, r, hl, hr => by
    cases r with
    | link f =>
      simp only [cmp]
      rw [cmp_link_decl name hn known e f hl hr]
      simp
    | _ => simp_all [cmp, rest, isTypeRef, isAuto, plain]
  | .auto, _, hl, _ => by simp [plain] at hl
  | .func .., _, hl, _ => by simp [plain] at hl
  | .param _, _, hl, _ => by simp [plain] at hl
  | .enum _, _, hl, _ => by simp [plain] at hl
  | .struct _, _, hl, _ => by simp [plain] at hl
  | .cls _, _, hl, _ => by simp [plain] at hl
  | .fn _, _, hl, _ => by simp [plain] at hl
  | .typeRef _, _, hl, _ => by simp [plain] at hl
theorem cmpMany_plain (name : Nat → Nat) (hn : ∀ a b, name a = name b → a = b) (known : Te → Option Nat) : ∀ ls rs : List Te,
    plainMany ls = true → plainMany rs = true → cmpMany name known ls rs = some (decide (ls = rs))
  | [], [], _, _ => by simp [cmpMany]
  | [], _ :: _, _, _ => by simp [cmpMany]
  | _ :: _, [], _, _ => by simp [cmpMany]
  | e :: es, f :: fs, hl, hr => by
    simp only [plainMany, Bool.and_eq_true] at hl hr
    rw [cmpMany, cmp_plain name hn known e f hl.1 hr.1]
    by_cases h : e = f
    · simp only [h, decide_true, List.cons.injEq, true_and]
      exact cmpMany_plain name hn known es fs hl.2 hr.2
    · simp [h]
end

/-- **`==` is right for types without classes and functions**: true for the same type and false for any other, for types nested to any
depth; as long as different declarations have different names. -/
theorem eq_right_partial (name : Nat → Nat) (hn : ∀ a b, name a = name b → a = b) (known : Te → Option Nat) (l r : Te)
    (hl : plain l = true) (hr : plain r = true) :
    (eq name known l r = some true ↔ l = r) ∧ (eq name known l r = some false ↔ l ≠ r) := by
  classical
  unfold eq
  rw [cmp_plain name hn known l r hl hr]
  by_cases h : l = r <;> simp [h]

/-- **`!=` is the opposite of `==`**, for all types. -/
theorem ne_opposite (name : Nat → Nat) (known : Te → Option Nat) (l r : Te) :
    ne name known l r = (eq name known l r).map (!·) := by
  unfold ne eq
  cases h : cmp name known l r with
  | none => rfl
  | some b => cases b <;> rfl

/-- **Classes are never equal**: a class is not even equal to itself. -/
theorem class_never (name : Nat → Nat) (known : Te → Option Nat) (a b : Nat) :
    eq name known (.link (.cls a)) (.link (.cls b)) = some false := by
  simp [eq, cmp, rest, tag]

/-- Types around a class: pointers, references, optional types and arrays. -/
inductive Holds : Te → Prop where
  | cls (a : Nat) : Holds (.link (.cls a))
  | ptr {e} : Holds e → Holds (.ptr e)
  | refr {e} : Holds e → Holds (.refr e)
  | opt {e} : Holds e → Holds (.opt e)
  | arr {n e} : Holds e → Holds (.arr n e)

/-- **Nor is any type around a class equal to itself**, to any depth. -/
theorem around_class_never (name : Nat → Nat) (known : Te → Option Nat) (e : Te) (h : Holds e) : eq name known e e = some false := by
  have : cmp name known e e = some false := by
    induction h with
    | cls a => simp [cmp, rest, tag]
    | ptr _ ih => simpa [cmp] using ih
    | refr _ ih => simpa [cmp] using ih
    | opt _ ih => simpa [cmp] using ih
    | arr _ ih => simpa [cmp] using ih
  simp [eq, this]

/-- **Structures are compared by name**: different ones are equal exactly if they have the same name, as they may in two modules. -/
theorem struct_iff (name : Nat → Nat) (known : Te → Option Nat) (a b : Nat) :
    eq name known (.link (.struct a)) (.link (.struct b)) = some true ↔ name a = name b := by
  simp [eq, cmp]

/-- **`auto` on the left is equal to every other type that is written out, and on the right to none**: `==` is not symmetric. -/
theorem auto_not_symmetric (name : Nat → Nat) (known : Te → Option Nat) (e : Te) (h1 : isTypeRef e = false) (h2 : isAuto e = false) :
    eq name known .auto e = some true ∧ eq name known e .auto = some false := by
  cases e <;> simp [isTypeRef, isAuto] at h1 h2 <;> simp [eq, cmp, rest, tag, isTypeRef, isAuto]

/-- **Functions without parameters cannot be compared within other types**: a null pointer is followed. -/
theorem func_crashes (name : Nat → Nat) (known : Te → Option Nat) (e f : Te) (ps : List Te) :
    eq name known (.opt (.func e ps)) (.opt (.func f [])) = none := by
  simp [eq, cmp]

/-! ## Cases -/

/-- An optional tuple of a pointer to a structure and an array. -/
def sample : Te := .opt (.tup [.ptr (.link (.struct 7)), .arr 4 (.prim 3)])

example : plain sample = true := by simp [sample, plain, plainMany]
example : eq (·) (fun _ => none) sample sample = some true :=
  (eq_right_partial (·) (fun _ _ h => h) _ sample sample (by simp [sample, plain, plainMany]) (by simp [sample, plain, plainMany])).1.2 rfl
example : eq (·) (fun _ => none) sample (.opt (.tup [.ptr (.link (.struct 7)), .arr 5 (.prim 3)])) = some false := by
  simp [sample, eq, cmp, cmpMany]
/-- `#String == #String` -/
example : eq (·) (fun _ => some 1) (.link (.cls 9)) (.link (.cls 9)) = some false := class_never ..
/-- Structures 3 and 13 with the same name. -/
example : eq (· % 10) (fun _ => none) (.link (.struct 3)) (.link (.struct 13)) = some true := (struct_iff ..).2 rfl
example : Holds (.opt (.ptr (.link (.cls 9)))) := .opt (.ptr (.cls 9))

end Verif.CompTypes
