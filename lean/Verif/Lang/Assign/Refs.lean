import Verif.Lang.Assign.Sound
/-!
# Pointers, references, objects and functions as values
-/
namespace Verif.Assign
open Verif.Prim (Prim)
open Ty

theorem core_ret {impl t u} (h : core impl (ret t) u = true) :
    (∃ u', unwrap u = ret u' ∧ (t = u' ∨ assignable impl t u' = true)) ∨ stripsToNull (unwrap u) = true := by
  rw [core] at h
  simp only [unwrap, isPtr, Bool.and_false] at h
  cases hu : unwrap u with
  | ret u' =>
    left
    by_cases he : t = u'
    · exact ⟨u', rfl, .inl he⟩
    · exact ⟨u', rfl, .inr (by simpa [hu, he] using h)⟩
  | _ => right; simpa [hu] using h

theorem core_arrow {impl p t u} (h : core impl (arrow p t) u = true) :
    (∃ q u', unwrap u = arrow q u' ∧ ((p = q ∧ t = u') ∨ (assignable impl t u' = true ∧ assignable impl p q = true))) ∨
      stripsToNull (unwrap u) = true := by
  rw [core] at h
  simp only [unwrap, isPtr, Bool.and_false] at h
  cases hu : unwrap u with
  | arrow q u' =>
    left
    by_cases he : p = q ∧ t = u'
    · exact ⟨q, u', rfl, .inl he⟩
    · refine ⟨q, u', rfl, .inr ?_⟩
      have he' : ¬ (arrow p t = arrow q u') := by simpa using he
      rw [hu] at h
      simpa [he'] using h
  | _ => right; simpa [hu] using h

theorem flat_eq {q p p' impl} (h : Flat q p) (h' : Flat q p') (ha : assignable impl p p' = true) : p = p' := by
  cases p with
  | prim a =>
    cases p' with
    | prim b => rw [show a = q from h, show b = q from h']
    | struct j =>
      unfold assignable at ha
      rw [if_neg (by simp)] at ha
      simp only at ha
      rw [core] at ha
      simp [unwrap, isPtr] at ha
    | _ => exact absurd h' id
  | struct i =>
    unfold assignable at ha
    cases p' with
    | struct id' =>
      by_cases he : struct i = struct id'
      · exact he
      · rw [if_neg he] at ha
        rcases core_struct ha with e | e
        · exact e.symm
        · simp [unwrap, isNull] at e
    | prim a =>
      rw [if_neg (by simp)] at ha
      rcases core_struct ha with e | e
      · simp [unwrap] at e
      · simp [unwrap, isNull] at e
    | _ => exact absurd h' id
  | _ => exact absurd h id

theorem refers_assignable {q r t u impl} (ht : Refers q r t) (h : assignable impl t u = true) : t = u ∨ core impl t u = true := by
  unfold assignable at h
  split at h
  · left; assumption
  · right; cases t <;> first | exact h | exact absurd ht id

theorem fn_assignable {q r t u impl} (ht : Fn q r t) (h : assignable impl t u = true) : t = u ∨ core impl t u = true := by
  cases t with
  | ret t => exact refers_assignable (q := q) (r := r) ht h
  | arrow p t => exact refers_assignable (q := q) (r := r) ht h
  | _ => exact absurd ht id

theorem fn_unwrap {q r t} (h : Fn q r t) : unwrap t = t ∧ stripsToNull t = false := by
  cases t <;> first | exact ⟨rfl, rfl⟩ | exact absurd h id

/-- A function that can be used as the type it is taken from can be used as the type it is accepted for. -/
theorem callable_mono {w : World} {q : Prim} {r : Bool} (hf : r = true → ∀ a, ¬ w.frozen a) (n : Nat) :
    ∀ (t u d : Ty), Fn q r t → Fn q r u → assignable w.impl t u = true → Callable (Has w n) d u → Callable (Has w n) d t := by
  intro t
  induction t with
  | ret t =>
    intro u d ht hu ha hc
    rcases fn_assignable ht ha with rfl | h
    · exact hc
    · rcases core_ret h with ⟨u', e, h2⟩ | h
      · rw [(fn_unwrap hu).1] at e
        subst e
        cases d with
        | ret d =>
          intro v hv
          rcases h2 with e | h2
          · rw [e]; exact hc v hv
          · exact deep_sound hf t u' ht hu h2 n v (hc v hv)
        | _ => exact absurd hc id
      · rw [(fn_unwrap hu).1, (fn_unwrap hu).2] at h; simp at h
  | arrow p t _ ih =>
    intro u d ht hu ha hc
    rcases fn_assignable ht ha with rfl | h
    · exact hc
    · rcases core_arrow h with ⟨p', u', e, h2⟩ | h
      · rw [(fn_unwrap hu).1] at e
        subst e
        cases d with
        | arrow a d =>
          rcases h2 with ⟨e1, e2⟩ | ⟨h1, h2⟩
          · rw [e1, e2]; exact hc
          · have := flat_eq ht.1 hu.1 h2
            subst this
            exact ⟨hc.1, ih u' d ht.2 hu.2 h1 hc.2⟩
        | _ => exact absurd hc id
      · rw [(fn_unwrap hu).1, (fn_unwrap hu).2] at h; simp at h
  | _ => intro u d ht; exact absurd ht id

theorem core_const {impl t u} (h : core impl t (const u) = true) : core impl t u = true := by
  rw [core] at h ⊢
  rw [show unwrap (const u) = unwrap u by rw [unwrap]] at h
  by_cases hc : (isConst u && !isConst t && isPtr (unwrap t)) = true
  · have : (isConst (const u) && !isConst t && isPtr (unwrap t)) = true := by
      simp only [Bool.and_eq_true] at hc ⊢
      exact ⟨⟨rfl, hc.1.2⟩, hc.2⟩
    rw [if_pos this] at h
    simp at h
  · rw [if_neg hc]
    by_cases hc' : (isConst (const u) && !isConst t && isPtr (unwrap t)) = true
    · rw [if_pos hc'] at h; simp at h
    · rw [if_neg hc'] at h; exact h

/-- A type of which the program may take a value: a reference, a constant reference or `null`. -/
def Source (q : Prim) (r : Bool) : Ty → Prop
  | const t => Refers q r t
  | t => Refers q r t ∨ isNull t = true

theorem refers_unwrap {q r t} (h : Refers q r t) : unwrap t = t := by
  cases t <;> first | rfl | exact absurd h id

theorem refers_not_null {q r t} (h : Refers q r t) : isNull t = false ∧ stripsToNull t = false := by
  cases t with
  | ptr k t => exact ⟨deep_isNull (u := ptr k t) h, deep_not_null (u := ptr k t) h⟩
  | _ => first | exact ⟨rfl, rfl⟩ | exact absurd h id

theorem refers_step {w : World} {q : Prim} {r : Bool} (hf : r = true → ∀ a, ¬ w.frozen a) {t u : Ty} (ht : Refers q r t)
    (hu : Refers q r u) (h : core w.impl t u = true) {n : Nat} {v : Val} (hv : Has w n v u) : Has w n v t := by
  have hn := refers_not_null hu
  have hw := refers_unwrap hu
  have ha : assignable w.impl t u = true := by
    unfold assignable
    split
    · rfl
    · cases t <;> first | exact h | exact absurd ht id
  have deep : ∀ {t u : Ty}, Refers q r u → assignable w.impl t u = true → Has w n v u → Deep q r t → Deep q r u → Has w n v t :=
    fun _ ha hv ht hu => deep_sound hf _ _ ht hu ha n v hv
  match n, hv with
  | 0, _ => trivial
  | n + 1, hv =>
  cases t with
  | ptr k t =>
    cases u with
    | ptr k' u' => exact deep hu ha hv ht hu
    | ref k' u' => exact deep hu ha hv ht hu
    | cls c => exact deep hu ha hv ht hu
    | str => exact deep hu ha hv ht trivial
    | iface i =>
      obtain ⟨_, h⟩ := core_ptr_other rfl (by simp) (by simp) h
      simp [stripsToClass] at h
    | ret u' =>
      obtain ⟨_, h⟩ := core_ptr_other rfl (by simp) (by simp) h
      simp [stripsToClass] at h
    | arrow p u' =>
      obtain ⟨_, h⟩ := core_ptr_other rfl (by simp) (by simp) h
      simp [stripsToClass] at h
    | _ => exact absurd hu id
  | ref k t =>
    cases u with
    | ref k' u' => exact deep hu ha hv ht hu
    | _ => first | exact absurd hu id | (rw [core] at h; simp [unwrap, isPtr] at h)
  | cls c =>
    rcases core_cls h with e | ⟨d, e, hd⟩ | e
    · rw [hw] at e; subst e; exact hv
    · rw [hw] at e; subst e; exact deep hu ha hv ht hu
    · rw [hw, hn.1] at e; simp at e
  | str =>
    rcases core_str h with e | e
    · rw [hw] at e; subst e; exact hv
    · rw [hw, hn.2] at e; simp at e
  | iface i =>
    rcases core_iface h with e | ⟨d, as, e, hi⟩ | ⟨d, e, hi⟩
    · rw [hw] at e; subst e; exact hv
    · rw [hw] at e
      subst e
      rcases hv with rfl | ⟨c, rfl, hs⟩
      · exact .inl rfl
      · exact .inr ⟨d, .inr ⟨c, rfl, hs.subset (List.mem_cons_self ..), hi⟩⟩
    · rw [hw] at e; subst e; exact absurd hu id
  | ret t =>
    rcases core_ret h with ⟨u', e, _⟩ | e
    · rw [hw] at e
      subst e
      rcases hv with hv | ⟨f, e, hc⟩
      · exact .inl hv
      · exact .inr ⟨f, e, callable_mono hf n _ (ret u') _ ht hu ha hc⟩
    · rw [hw, hn.2] at e; simp at e
  | arrow p t =>
    rcases core_arrow h with ⟨p', u', e, _⟩ | e
    · rw [hw] at e
      subst e
      rcases hv with hv | ⟨f, e, hc⟩
      · exact .inl hv
      · exact .inr ⟨f, e, callable_mono hf n _ (arrow p' u') _ ht hu ha hc⟩
    · rw [hw, hn.2] at e; simp at e
  | _ => exact absurd ht id

theorem null_value {w : World} {k : Bool} {v : Val} (h : Valid w v (ptr k null)) : v = .nul := by
  rcases (step_ptr (by simp)).1 (h 2) with h | ⟨a, x, _, _, h, _⟩
  · exact h
  · exact absurd h id

theorem null_valid {w : World} {q : Prim} {r : Bool} {t u : Ty} (ht : Refers q r t) (hu : isNull u = true)
    (h : core w.impl t u = true) : Valid w .nul t := by
  have hu' : unwrap u = u := by cases u <;> first | rfl | simp [isNull] at hu
  intro n
  match n with
  | 0 => trivial
  | n + 1 =>
    cases t with
    | ptr k t =>
      by_cases ht : t = void
      · subst ht; exact .inl rfl
      · exact (step_ptr ht).2 (.inl rfl)
    | cls c => exact .inl rfl
    | str => exact .inl rfl
    | iface i => exact .inl rfl
    | ret t => exact .inl rfl
    | arrow p t => exact .inl rfl
    | ref k t =>
      cases u with
      | ptr k' u' => rw [core] at h; simp [unwrap, isPtr] at h
      | _ => simp [isNull] at hu
    | _ => exact absurd ht id

/-- C135. A value that is accepted for a pointer, reference, class, interface, string or function type is of that type.
Missing: numbers of different types, enumerations, optionals, arrays and functions under a pointer or reference, and
parameters of functions other than structures and one primitive type. References to constants are taken in only when
memory is not constant. -/
theorem accepted_reference_fits_partial {w : World} {q : Prim} {r : Bool} (hf : r = true → ∀ a, ¬ w.frozen a)
    {to frm : Ty} (ht : Refers q r to) (hs : Source q r frm) (h : assignable w.impl to frm = true) {v : Val}
    (hv : Valid w v frm) : Valid w v to := by
  rcases refers_assignable ht h with rfl | h
  · exact hv
  · have main : ∀ u, (Refers q r u ∨ isNull u = true) → core w.impl to u = true → Valid w v u → Valid w v to := by
      intro u hu hc hv
      rcases hu with hu | hu
      · exact fun n => refers_step hf ht hu hc (hv n)
      · match u, hu with
        | ptr k null, hu => rw [null_value hv]; exact null_valid ht hu hc
    cases frm with
    | const u =>
      refine main u (.inl hs) (core_const h) fun n => ?_
      match n with
      | 0 => trivial
      | n + 1 => exact hv (n + 1)
    | _ => exact main _ hs h hv

/-! ## Constants -/

/-- The program can write to the memory at `a` through the value, seen as one of the type. -/
inductive Writable (w : World) : Val → Ty → Nat → Prop
  | ptr {a : Nat} {t : Ty} : t ≠ void → Writable w (.addr a) (ptr false t) a
  | ref {a : Nat} {t : Ty} : Writable w (.addr a) (ref false t) a
  | ptrTo {a b : Nat} {k : Bool} {t : Ty} {x : Val} : t ≠ void → w.mem a = some x → Writable w x t b → Writable w (.addr a) (ptr k t) b
  | refTo {a b : Nat} {k : Bool} {t : Ty} {x : Val} : w.mem a = some x → Writable w x t b → Writable w (.addr a) (ref k t) b

theorem valid_ptr {w : World} {k a t} (h : t ≠ void) (hv : Valid w (.addr a) (ptr k t)) :
    ∃ x, w.mem a = some x ∧ Valid w x t ∧ (k = false → ¬ w.frozen a) := by
  have : ∀ n, ∃ x, w.mem a = some x ∧ Has w n x t ∧ (k = false → ¬ w.frozen a) := by
    intro n
    rcases (step_ptr h).1 (hv (n + 1)) with e | ⟨a', x, e, e1, e2, e3⟩
    · simp at e
    · simp only [Val.addr.injEq] at e; subst e; exact ⟨x, e1, e2, e3⟩
  obtain ⟨x, e1, _, e3⟩ := this 0
  refine ⟨x, e1, fun n => ?_, e3⟩
  obtain ⟨y, e4, e5, _⟩ := this n
  rw [e1] at e4
  rw [Option.some.inj e4]; exact e5

theorem valid_ref {w : World} {k a t} (hv : Valid w (.addr a) (ref k t)) :
    ∃ x, w.mem a = some x ∧ Valid w x t ∧ (k = false → ¬ w.frozen a) := by
  have : ∀ n, ∃ x, w.mem a = some x ∧ Has w n x t ∧ (k = false → ¬ w.frozen a) := by
    intro n
    obtain ⟨a', x, e, e1, e2, e3⟩ := hv (n + 1)
    simp only [Val.addr.injEq] at e; subst e; exact ⟨x, e1, e2, e3⟩
  obtain ⟨x, e1, _, e3⟩ := this 0
  refine ⟨x, e1, fun n => ?_, e3⟩
  obtain ⟨y, e4, e5, _⟩ := this n
  rw [e1] at e4
  rw [Option.some.inj e4]; exact e5

theorem valid_not_frozen {w : World} {v t a} (h : Writable w v t a) (hv : Valid w v t) : ¬ w.frozen a := by
  induction h with
  | ptr ht => exact (valid_ptr ht hv).choose_spec.2.2 rfl
  | ref => exact (valid_ref hv).choose_spec.2.2 rfl
  | ptrTo ht hm _ ih =>
    obtain ⟨y, e1, e2, _⟩ := valid_ptr ht hv
    rw [hm] at e1
    exact ih (by rw [Option.some.inj e1]; exact e2)
  | refTo hm _ ih =>
    obtain ⟨y, e1, e2, _⟩ := valid_ref hv
    rw [hm] at e1
    exact ih (by rw [Option.some.inj e1]; exact e2)

/-- C136. A value that is accepted for a type gives no way to write to constant memory. Missing: references to constants,
and what is missing in C135. -/
theorem constants_stay_constant_partial {w : World} {q : Prim} {to frm : Ty} (ht : Refers q false to)
    (hs : Source q false frm) (h : assignable w.impl to frm = true) {v : Val} (hv : Valid w v frm) {a : Nat}
    (ha : Writable w v to a) : ¬ w.frozen a :=
  valid_not_frozen ha (accepted_reference_fits_partial (r := false) (by simp) ht hs h hv)

end Verif.Assign
