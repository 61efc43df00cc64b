import Verif.Lang.Conds.Model
/-!
# Conditions: properties
-/
namespace Verif.Conds

/-! ## Specification -/

/-- Values of primitives. -/
inductive IsPrim : Val → Prim → Prop where
  | bool (b : Bool) : IsPrim (.bool b) .bool
  | char (n : Int) : IsPrim (.int n) .char
  | int (n : Int) : IsPrim (.int n) .int
  | zero : IsPrim .zero .float
  | nan : IsPrim .nan .float
  | float : IsPrim .float .float

/-- What the condition comes to: a value of the type, or for objects what the operator returned. -/
inductive Has : Val → Ty → Prop where
  | prim {v : Val} {p : Prim} : IsPrim v p → Has v (.prim p)
  | ptr (n : Nat) (t : Ty) : Has (.addr n) (.ptr t)
  | arr (n : Nat) (t : Ty) : Has (.addr n) (.arr t)
  | str (n : Nat) : Has (.addr n) .str
  | const {v : Val} {t : Ty} : Has v t → Has v (.const t)

/-- Which values are true. -/
def Truth : Val → Bool
  | .bool b => b
  | .int n => decide (n ≠ 0)
  | .zero => false
  | .nan => true
  | .float => true
  | .addr n => decide (n ≠ 0)

/-- An enumeration, possibly constant. -/
inductive IsEnum : Ty → Prop where
  | mk : IsEnum .enumT
  | const {t : Ty} : IsEnum t → IsEnum (.const t)

/-! ## Properties -/

theorem unwrap_const (t : Ty) : unwrap (.const t) = unwrap t := rfl

theorem unwrap_idem (t : Ty) : unwrap (unwrap t) = unwrap t := by
  induction t <;> simp_all [unwrap]

theorem isEnum_iff (t : Ty) : IsEnum t ↔ unwrap t = .enumT := by
  constructor
  · intro h; induction h with
    | mk => rfl
    | const _ ih => exact ih
  · intro h
    induction t with
    | enumT => exact .mk
    | const t ih => exact .const (ih h)
    | _ => simp [unwrap] at h

theorem simplify_unwrap (t : Ty) : simplify t = simplify (unwrap t) := by
  have h1 : isBool t = isBool (unwrap t) := by rw [isBool, isBool, unwrap_idem]
  have h2 : isInteger t = isInteger (unwrap t) := by rw [isInteger, isInteger, unwrap_idem]
  have h3 : isFloat t = isFloat (unwrap t) := by rw [isFloat, isFloat, unwrap_idem]
  have h4 : isChar t = isChar (unwrap t) := by rw [isChar, isChar, unwrap_idem]
  have h5 : isPointer t = isPointer (unwrap t) := by rw [isPointer, isPointer, unwrap_idem]
  rw [simplify, simplify, h1, h2, h3, h4, h5]

theorem unwrap_ne_const (x t : Ty) : unwrap x ≠ .const t := by
  induction x <;> simp_all [unwrap]

theorem has_unwrap {v : Val} {t : Ty} (h : Has v t) : Has v (unwrap t) := by
  induction h with
  | prim h => exact .prim h
  | ptr n t => exact .ptr n t
  | arr n t => exact .arr n t
  | str n => exact .str n
  | const _ ih => exact ih

theorem simplify_prim {v : Val} {p : Prim} (h : IsPrim v p) : taken (simplify (.prim p)) v = some (Truth v) := by
  cases h <;> simp [simplify, isBool, isInteger, isFloat, isChar, unwrap, taken, Truth]
  all_goals (rename_i n; by_cases h : n = 0 <;> simp [h])

theorem simplify_has {v : Val} {t : Ty} (h : Has v t) : taken (simplify t) v = some (Truth v) := by
  rw [simplify_unwrap]
  have h' := has_unwrap h
  generalize hu : unwrap t = u at h'
  have hi : unwrap u = u := by rw [← hu, unwrap_idem]
  cases h' with
  | prim h => exact simplify_prim h
  | ptr n t => by_cases h : n = 0 <;> simp [simplify, isBool, isInteger, isFloat, isChar, isPointer, unwrap, taken, Truth, h]
  | arr n t => by_cases h : n = 0 <;> simp [simplify, isBool, isInteger, isFloat, isChar, isPointer, unwrap, taken, Truth, h]
  | str n => by_cases h : n = 0 <;> simp [simplify, isBool, isInteger, isFloat, isChar, isPointer, unwrap, taken, Truth, h]
  | const h => exact absurd hu (unwrap_ne_const _ _)

/-- **A branch is taken exactly if its condition is true**, whatever type was accepted for it, for all its values. -/
theorem cond_right_partial (t c : Ty) (h : check t = some c) (v : Val) (hv : Has v c) :
    (cond t).bind (taken · v) = some (Truth v) := by
  simp [cond, h, simplify_has hv]

/-- What is accepted: the type itself, or that of the operator. -/
theorem check_eq {t c : Ty} (h : check t = some c) : (∃ p, c = .prim p) ∨ (c = t ∧ isTruthyPlain (unwrap t) = true) := by
  simp only [check] at h
  split at h
  · simp only [Option.map_eq_some_iff] at h
    obtain ⟨p, _, hp⟩ := h
    exact .inl ⟨p, hp.symm⟩
  · split at h
    · next hp => cases h; exact .inr ⟨rfl, hp⟩
    · simp at h

theorem simplify_crash {t : Ty} (h : isTruthyPlain (unwrap t) = true) : simplify t = .crash ↔ unwrap t = .enumT := by
  rw [simplify_unwrap]
  have hi := unwrap_idem t
  have hn := unwrap_ne_const t
  generalize unwrap t = u at *
  cases u with
  | prim p => cases p <;> simp [simplify, isBool, isInteger, isFloat, isChar, unwrap]
  | const t => exact absurd rfl (hn t)
  | _ => simp_all [isTruthyPlain, isIntegral, isFloat, simplify, isBool, isInteger, isChar, isPointer, unwrap]

/-- **The compiler stops working on a condition that it accepted exactly for enumerations.** -/
theorem crash_iff (t : Ty) : cond t = some .crash ↔ IsEnum t := by
  rw [isEnum_iff]
  constructor
  · intro h
    simp only [cond, Option.map_eq_some_iff] at h
    obtain ⟨c, hc, hs⟩ := h
    rcases check_eq hc with ⟨p, rfl⟩ | ⟨rfl, hp⟩
    · cases p <;> simp [simplify, isBool, isInteger, isFloat, isChar, unwrap] at hs
    · exact (simplify_crash hp).1 hs
  · intro h
    have h1 : check t = some t := by simp [check, h, strip, isObject, unwrap, isTruthyPlain, isIntegral]
    have h2 : simplify t = .crash := by
      simp [simplify, isBool, isInteger, isFloat, isChar, isPointer, h]
    simp [cond, h1, h2]

/-! ## Objects -/

/-- The operator that counts: the closest one. -/
inductive Closest : List (Option Out) → Out → Prop where
  | here (o : Out) (l : List (Option Out)) : Closest (some o :: l) o
  | up {l : List (Option Out)} {o : Out} : Closest l o → Closest (none :: l) o

theorem closest_iff (l : List (Option Out)) (o : Out) : l.findSome? id = some o ↔ Closest l o := by
  induction l with
  | nil => simp only [List.findSome?_nil]; constructor
           · intro h; cases h
           · intro h; cases h
  | cons a l ih =>
    cases a with
    | none =>
      simp only [List.findSome?_cons, id]
      exact ⟨fun h => .up (ih.1 h), fun h => by cases h with | up h => exact ih.2 h⟩
    | some b =>
      simp only [List.findSome?_cons, id, Option.some.injEq]
      exact ⟨fun h => h ▸ .here b l, fun h => by cases h; rfl⟩

/-- References to a type, and constants of these. -/
inductive Seen : Ty → Ty → Prop where
  | refs (n : Nat) (t : Ty) : Seen (Nat.rec t (fun _ r => .ref r) n) t
  | const {s t : Ty} : Seen s t → Seen (.const s) t

theorem strip_refs (n : Nat) (t : Ty) (h : strip t = t) : strip (Nat.rec t (fun _ r => Ty.ref r) n) = t := by
  induction n with
  | zero => exact h
  | succ n ih => exact ih

theorem seen_cls {s : Ty} {own : Option Out} {bases : List (Option Out)} (h : Seen s (.cls own bases)) :
    strip (unwrap s) = .cls own bases := by
  generalize hc : Ty.cls own bases = c at h
  induction h with
  | refs n t =>
    subst hc
    cases n with
    | zero => rfl
    | succ n => exact strip_refs n _ rfl
  | const _ ih => exact ih hc

/-- **An object of a class is accepted exactly if the closest `!!`, its own or a base's, returns a primitive**; and the condition is
then what it returns. -/
theorem class_iff_partial (s : Ty) (own : Option Out) (bases : List (Option Out)) (h : Seen s (.cls own bases)) (c : Ty) :
    check s = some c ↔ ∃ p, c = .prim p ∧ Closest (own :: bases) (.prim p) := by
  have hs := seen_cls h
  have ho : isObject (.cls own bases) = true := by simp [isObject, unwrap]
  simp only [check, truthyOp, hs, ho, if_true, findOp]
  constructor
  · intro hc
    simp only [Option.map_eq_some_iff] at hc
    obtain ⟨p, hp, rfl⟩ := hc
    refine ⟨p, rfl, ?_⟩
    rw [← closest_iff]
    split at hp
    · next q hq => cases hp; exact hq
    · simp at hp
  · rintro ⟨p, rfl, hp⟩
    rw [← closest_iff] at hp
    rw [hp]
    rfl

/-- **Behind a reference to a constant the operator of a base is not found**: such a condition is an error, whatever the bases have. -/
theorem const_base_never (bases : List (Option Out)) (n : Nat) :
    check (.ref (Nat.rec (.const (.cls none bases)) (fun _ r => .ref r) n)) = none := by
  have : strip (Nat.rec (Ty.const (.cls none bases)) (fun _ r => Ty.ref r) n) = .const (.cls none bases) := strip_refs n _ rfl
  simp only [check, truthyOp, unwrap, strip, this]
  simp [isObject, unwrap, findOp]

/-! ## `?:` -/

/-- **A condition of `?:` that is accepted works exactly if it is a boolean**, though numbers, pointers and objects are accepted. -/
theorem ternary_iff (t : Ty) (h : ternary t ≠ .rejected) : ternary t = .valid ↔ unwrap t = .prim .bool := by
  have hb : isBool t = true ↔ unwrap t = .prim .bool := by
    unfold isBool; split <;> simp_all
  rw [← hb]
  unfold ternary at h ⊢
  cases hk : ternOk t <;> simp only [hk] at h ⊢
  · simp at h
  · cases isBool t <;> simp

/-- **What `if` compares with null is rejected or invalid in `?:`.** -/
theorem ternary_pointer_never (t : Ty) (h : isPointer t = true) : ternary t ≠ .valid := by
  intro hv
  have := (ternary_iff t (by rw [hv]; simp)).1 hv
  simp [isPointer, this] at h

/-! ## `!` -/

/-- **`!x` is the opposite of `x`** if what is negated is a boolean. -/
theorem not_right_partial (v : Val) (h : IsPrim v .bool) : ∃ b, ifIs .bool v = some b ∧ ifNot .bool v = some (!b) := by
  cases h with
  | bool b => exact ⟨b, rfl, rfl⟩

/-- **For an object whose `!!` returns an integer both `if (x)` and `if (!x)` are taken**, unless it returned 0 or -1. -/
theorem not_both_iff (n : Int) (p : Prim) (hp : IsPrim (.int n) p) :
    (ifIs p (.int n) = some true ∧ ifNot p (.int n) = some true) ↔ n ≠ 0 ∧ n ≠ -1 := by
  cases hp <;> simp [ifIs, ifNot, notVal, simplify, isBool, isInteger, isFloat, isChar, unwrap, taken] <;> omega

/-- And such objects are accepted. -/
theorem not_accepts (own : Option Out) (bases : List (Option Out)) (p : Prim) :
    notType (.cls own bases) = some p ↔ Closest (own :: bases) (.prim p) := by
  rw [← closest_iff]
  simp only [notType, truthyOp, unwrap, strip, isObject, if_true, findOp]
  constructor
  · intro h
    split at h
    · next q hq => cases h; exact hq
    · simp at h
  · intro h; rw [h]

/-- **For floats there is no code at all.** -/
theorem not_float_never (v : Val) (h : IsPrim v .float) : ifNot .float v = none := by
  cases h <;> rfl

/-! ## Cases -/

example : cond (.const (.ptr .other)) = some .neNull := by decide
example := cond_right_partial (.const (.ptr .other)) (.const (.ptr .other)) rfl (.addr 8) (.const (.ptr 8 _))
/-- An object whose base has the operator. -/
example := cond_right_partial (.ref (.cls none [none, some (.prim .bool)])) (.prim .bool) rfl (.bool true) (.prim (.bool true))
example := (crash_iff (.const .enumT)).2 (.const .mk)
example := (class_iff_partial (.const (.ref (.cls none [some (.prim .int)]))) _ _ (.const (.refs 1 _)) (.prim .int)).2
  ⟨_, rfl, .up (.here _ _)⟩
example : check (.ref (.const (.cls none [some (.prim .bool)]))) = none := const_base_never _ 0
example : ternary (.prim .int) = .invalid := by decide
example : ternary (.struct (some (.prim .bool))) = .invalid := by decide
example : ternary (.const (.prim .bool)) = .valid := by decide
example : ternary (.const (.ptr .other)) = .rejected := by decide
example := not_right_partial (.bool true) (.bool true)
example := (not_both_iff 1 .int (.int 1)).2 (by decide)
example := (not_accepts none [some (.prim .int)] .int).2 (.up (.here _ _))

end Verif.Conds
