import Verif.Lang.Assign.Spec
/-!
# A reference is accepted only where its object fits
-/
namespace Verif.Assign
open Verif.Prim (Prim)
open Ty

/-- Types that may stand under a pointer: one primitive type `q`, strings, structures, classes, and pointers and
references to such. References to constants only if `r`. -/
def Deep (q : Prim) (r : Bool) : Ty → Prop
  | prim p => p = q
  | void => True
  | str => True
  | struct _ => True
  | cls c => c ≠ []
  | ptr _ t => Deep q r t
  | ref k t => (k = true → r = true) ∧ t ≠ void ∧ Deep q r t
  | _ => False

/-- Types that a parameter of a function may have. -/
def Flat (q : Prim) : Ty → Prop
  | prim p => p = q
  | struct _ => True
  | _ => False

/-- Function types. -/
def Fn (q : Prim) (r : Bool) : Ty → Prop
  | ret t => Deep q r t
  | arrow p t => Flat q p ∧ Fn q r t
  | _ => False

/-- Types of references to something: pointers, references, classes, interfaces, strings and functions. -/
def Refers (q : Prim) (r : Bool) : Ty → Prop
  | ptr _ t => Deep q r t
  | ref k t => (k = true → r = true) ∧ t ≠ void ∧ Deep q r t
  | cls c => c ≠ []
  | str => True
  | iface _ => True
  | ret t => Deep q r t
  | arrow p t => Flat q p ∧ Fn q r t
  | _ => False

theorem deep_unwrap {q r t} (h : Deep q r t) : unwrap t = t := by
  cases t <;> first | rfl | exact absurd h id

theorem deep_assignable {q r t u impl} (ht : Deep q r t) (h : assignable impl t u = true) : t = u ∨ core impl t u = true := by
  unfold assignable at h
  split at h
  · left; assumption
  · right; cases t <;> first | exact h | exact absurd ht id

theorem step_ptr {w prev v k t} (h : t ≠ void) : Step w prev v (ptr k t) ↔
    (v = .nul ∨ ∃ a x, v = .addr a ∧ w.mem a = some x ∧ prev x t ∧ (k = false → ¬ w.frozen a)) := by
  cases t <;> first | exact absurd rfl h | exact Iff.rfl

theorem not_from_void {q r t impl} (ht : Deep q r t) (hv : t ≠ void) : assignable impl t void = false := by
  match ha : assignable impl t void with
  | false => rfl
  | true =>
    rcases deep_assignable ht ha with h | h
    · exact absurd h hv
    · rw [core] at h
      cases t with
      | ptr k t =>
        simp only [unwrap] at h
        by_cases hx : t = void <;> simp [hx, stripsToClass] at h
      | _ => first | exact absurd ht id | exact absurd rfl hv | simp [unwrap, stripsToNull, isNull] at h

theorem derives_iff {c d : List Nat} : derives c d = true ↔ c ≠ [] ∧ c <:+ d := by
  induction d with
  | nil => simp [derives]
  | cons x as ih =>
    have hs : c <:+ x :: as ↔ c = x :: as ∨ c <:+ as := List.suffix_cons_iff
    match as, ih, hs with
    | [], _, hs =>
      rw [hs]
      simp only [derives, beq_iff_eq, List.suffix_nil]
      constructor
      · intro h; subst h; simp
      · rintro ⟨h, h' | h'⟩
        · exact h'
        · exact absurd h' h
    | b :: as, ih, hs =>
      rw [hs]
      simp only [derives, Bool.or_eq_true, beq_iff_eq, ih]
      constructor
      · rintro (h | h)
        · subst h; simp
        · exact ⟨h.1, .inr h.2⟩
      · rintro ⟨h, h' | h'⟩
        · exact .inl h'
        · exact .inr ⟨h, h'⟩

theorem deep_not_null {q r u} (h : Deep q r u) : stripsToNull u = false := by
  induction u with
  | ptr k t ih => exact ih h
  | null => exact absurd h id
  | _ => rfl

theorem deep_isNull {q r u} (h : Deep q r u) : isNull u = false := by
  match u, h with
  | ptr k t, h =>
    cases t with
    | null => exact absurd h id
    | _ => rfl
  | prim _, _ | void, _ | str, _ | struct _, _ | cls _, _ | ref _ _, _ => rfl

/-- What `^void` takes from something that is no pointer. -/
theorem void_of_other {w prev v k q r u} (hu : Deep q r u) (hs : u = str ∨ stripsToClass u = true)
    (h : Step w prev v u) : Step w prev v (ptr k void) := by
  show v = .nul ∨ v = .text ∨ (∃ a, v = .addr a) ∨ ∃ c, v = .obj c
  cases u with
  | str => rcases h with h | h <;> simp [h]
  | cls c => rcases h with h | ⟨d, h, _⟩ <;> simp [h]
  | ref k t => obtain ⟨a, _, h, _⟩ := h; simp [h]
  | ptr k t =>
    by_cases ht : t = void
    · subst ht; exact h
    · rcases (step_ptr ht).1 h with h | ⟨a, _, h, _⟩ <;> simp [h]
  | _ => first | exact absurd hu id | (rcases hs with hs | hs <;> simp [stripsToClass] at hs)

theorem void_of_ptr {w prev v k k' u} (h : Step w prev v (ptr k u)) : Step w prev v (ptr k' void) := by
  show v = .nul ∨ v = .text ∨ (∃ a, v = .addr a) ∨ ∃ c, v = .obj c
  by_cases hu : u = void
  · subst hu; exact h
  · rcases (step_ptr hu).1 h with h | ⟨a, _, h, _⟩ <;> simp [h]

/-- What the rule for two pointers accepts. -/
theorem core_ptr {impl k t k' u} (h : core impl (ptr k t) (ptr k' u) = true) :
    (k = false → k' = false) ∧ (t = u ∨ t = void ∨ u = null ∨ assignable impl t u = true) := by
  rw [core] at h
  simp only [unwrap, isConst, isPtr, Bool.and_true] at h
  by_cases hk : (k' && !k) = true
  · rw [if_pos hk] at h; simp at h
  · rw [if_neg hk] at h
    refine ⟨fun hk' => ?_, ?_⟩
    · rw [hk'] at hk; simpa using hk
    · by_cases he : ptr k t = ptr k' u
      · left; exact (Ty.ptr.inj he).2
      · right; simpa [he, or_assoc] using h

theorem core_ref {impl k t k' u} (h : core impl (ref k t) (ref k' u) = true) : t = u ∨ assignable impl t u = true := by
  rw [core] at h
  simp only [unwrap, isConst, isPtr, Bool.and_false] at h
  by_cases he : ref k t = ref k' u
  · left; exact (Ty.ref.inj he).2
  · right; simpa [he] using h

theorem core_ptr_other {impl k t u} (hu : unwrap u = u) (hp : ∀ k' u', u ≠ ptr k' u') (ha : ∀ n u', u ≠ arr n u')
    (h : core impl (ptr k t) u = true) : t = void ∧ (u = str ∨ stripsToClass u = true) := by
  rw [core, hu] at h
  simp only [unwrap, isPtr, Bool.and_true] at h
  by_cases hc : (isConst u && !isConst (ptr k t)) = true
  · rw [if_pos hc] at h; simp at h
  · rw [if_neg hc, if_neg (fun e => hp _ _ e.symm)] at h
    by_cases ht : t = void
    · refine ⟨ht, ?_⟩
      cases u with
      | ptr k' u' => exact absurd rfl (hp k' u')
      | arr n u' => exact absurd rfl (ha n u')
      | _ => simp [ht] at h ⊢; first | exact h | done
    · cases u with
      | ptr k' u' => exact absurd rfl (hp k' u')
      | arr n u' => exact absurd rfl (ha n u')
      | _ => simp [ht] at h

theorem core_str {impl u} (h : core impl str u = true) : unwrap u = str ∨ stripsToNull (unwrap u) = true := by
  rw [core] at h
  simp only [unwrap, isPtr, Bool.and_false] at h
  by_cases he : str = unwrap u
  · left; exact he.symm
  · right; simpa [he] using h

theorem core_struct {impl id u} (h : core impl (struct id) u = true) : unwrap u = struct id ∨ isNull (unwrap u) = true := by
  rw [core] at h
  simp only [unwrap, isPtr, Bool.and_false] at h
  by_cases he : struct id = unwrap u
  · left; exact he.symm
  · right; simpa [he] using h

theorem core_cls {impl c u} (h : core impl (cls c) u = true) :
    unwrap u = cls c ∨ (∃ d, unwrap u = cls d ∧ derives c d = true) ∨ isNull (unwrap u) = true := by
  rw [core] at h
  simp only [unwrap, isPtr, Bool.and_false] at h
  by_cases he : cls c = unwrap u
  · left; exact he.symm
  · right
    simp only [he, if_false] at h
    cases hu : unwrap u with
    | cls d => left; rw [hu] at h; exact ⟨d, rfl, by simpa using h⟩
    | _ => right; rw [hu] at h; simpa using h

theorem core_iface {impl i u} (h : core impl (iface i) u = true) :
    unwrap u = iface i ∨ (∃ d as, unwrap u = cls (d :: as) ∧ impl d i = true) ∨ ∃ d, unwrap u = struct d ∧ impl d i = true := by
  rw [core] at h
  simp only [unwrap, isPtr, Bool.and_false] at h
  by_cases he : iface i = unwrap u
  · left; exact he.symm
  · right
    simp only [he, if_false] at h
    cases hu : unwrap u with
    | cls d =>
      rw [hu] at h
      cases d with
      | nil => simp at h
      | cons d as => left; exact ⟨d, as, rfl, by simpa using h⟩
    | struct d => right; rw [hu] at h; exact ⟨d, rfl, by simpa using h⟩
    | _ => rw [hu] at h; simp at h

theorem deep_sound {w : World} {q : Prim} {r : Bool} (hf : r = true → ∀ a, ¬ w.frozen a) :
    ∀ (t u : Ty), Deep q r t → Deep q r u → assignable w.impl t u = true → ∀ n v, Has w n v u → Has w n v t := by
  intro t
  induction t with
  | prim p =>
    intro u ht hu ha n v hv
    rcases deep_assignable ht ha with rfl | h
    · exact hv
    · cases u with
      | prim p' => have : p = p' := ht.trans hu.symm; rw [this]; exact hv
      | _ => first | exact absurd hu id | (rw [core] at h; simp [unwrap] at h)
  | void =>
    intro u ht hu ha n v hv
    cases n with
    | zero => trivial
    | succ n => trivial
  | str =>
    intro u ht hu ha n v hv
    rcases deep_assignable ht ha with rfl | h
    · exact hv
    · rcases core_str h with h | h
      · rw [deep_unwrap hu] at h; rw [h] at hv; exact hv
      · rw [deep_unwrap hu, deep_not_null hu] at h; simp at h
  | struct id =>
    intro u ht hu ha n v hv
    rcases deep_assignable ht ha with rfl | h
    · exact hv
    · rcases core_struct h with h | h
      · rw [deep_unwrap hu] at h; rw [h] at hv; exact hv
      · rw [deep_unwrap hu, deep_isNull hu] at h; simp at h
  | cls c =>
    intro u ht hu ha n v hv
    rcases deep_assignable ht ha with rfl | h
    · exact hv
    · rcases core_cls h with h | ⟨d, h, hd⟩ | h
      · rw [deep_unwrap hu] at h; rw [h] at hv; exact hv
      · rw [deep_unwrap hu] at h
        subst h
        cases n with
        | zero => trivial
        | succ n =>
          rcases hv with hv | ⟨e, hv, he⟩
          · exact .inl hv
          · exact .inr ⟨e, hv, (derives_iff.1 hd).2.trans he⟩
      · rw [deep_unwrap hu, deep_isNull hu] at h; simp at h
  | ptr k t ih =>
    intro u ht hu ha n v hv
    rcases deep_assignable ht ha with rfl | h
    · exact hv
    · cases n with
      | zero => trivial
      | succ n =>
        cases u with
        | ptr k' u' =>
          obtain ⟨hk, h⟩ := core_ptr h
          by_cases htv : t = void
          · subst htv
            exact void_of_ptr hv
          · have huv : u' ≠ void := by
              rintro rfl
              rcases h with h | h | h | h
              · exact htv h
              · exact htv h
              · simp at h
              · rw [not_from_void (t := t) ht htv] at h; simp at h
            refine (step_ptr htv).2 ?_
            rcases (step_ptr huv).1 hv with hv | ⟨a, x, e1, e2, e3, e4⟩
            · exact .inl hv
            · refine .inr ⟨a, x, e1, e2, ?_, fun h => e4 (hk h)⟩
              rcases h with h | h | h | h
              · rw [h]; exact e3
              · exact absurd h htv
              · rw [h] at hu; exact absurd hu id
              · exact ih u' ht hu h n x e3
        | arr n' u' => exact absurd hu id
        | _ =>
          obtain ⟨e, h2⟩ := core_ptr_other (deep_unwrap hu) (by simp) (by simp) h
          subst e
          exact void_of_other hu h2 hv
  | ref k t ih =>
    intro u ht hu ha n v hv
    rcases deep_assignable ht ha with rfl | h
    · exact hv
    · cases u with
      | ref k' u' =>
        cases n with
        | zero => trivial
        | succ n =>
          obtain ⟨a, x, e1, e2, e3, e4⟩ := hv
          refine ⟨a, x, e1, e2, ?_, fun _ => ?_⟩
          · rcases core_ref h with rfl | h
            · exact e3
            · exact ih u' ht.2.2 hu.2.2 h n x e3
          · cases k' with
            | false => exact e4 rfl
            | true => exact hf (hu.1 rfl) a
      | _ => first | exact absurd hu id | (rw [core] at h; simp [unwrap, isPtr] at h)
  | _ => intro u ht; exact absurd ht id

end Verif.Assign
