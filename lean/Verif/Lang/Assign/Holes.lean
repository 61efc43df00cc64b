import Verif.Lang.Assign.Refs
/-!
# Where the checker accepts what does not fit
-/
namespace Verif.Assign
open Verif.Prim (Prim)
open Ty

/-- A memory with one value in it. -/
def one (x : Val) (d : Ty) (o : Nat → Int → Prop) (impl : Nat → Nat → Bool) : World :=
  ⟨fun _ => some x, fun _ => False, fun _ => d, impl, o⟩

theorem valid_num (w : World) (p : Prim) (x : Int) : Valid w (.num p x) (prim p) := by
  intro n; cases n with
  | zero => trivial
  | succ n => exact ⟨x, rfl⟩

theorem not_valid_num (w : World) {p q : Prim} (h : p ≠ q) (x : Int) : ¬ Has w 1 (.num q x) (prim p) := by
  rintro ⟨y, e⟩
  exact h (Val.num.inj e).1.symm

theorem valid_addr {w : World} {a x t} (k : Bool) (hm : w.mem a = some x) (hx : Valid w x t) (hk : k = false → ¬ w.frozen a) :
    Valid w (.addr a) (ptr k t) ∧ Valid w (.addr a) (ref k t) := by
  constructor <;> intro n <;> cases n with
  | zero => trivial
  | succ n =>
    first
    | exact ⟨a, x, rfl, hm, hx n, hk⟩
    | (by_cases ht : t = void
       · subst ht; exact .inr (.inr (.inl ⟨a, rfl⟩))
       · exact (step_ptr ht).2 (.inr ⟨a, x, rfl, hm, hx n, hk⟩))

/-- C135 is false: a pointer or reference to a number is accepted for one to another number type whenever the number
itself would be. -/
theorem number_under_pointer {p q : Prim} (h : Verif.Prim.assignable p q = true) (hne : p ≠ q) (impl : Nat → Nat → Bool) :
    assignable impl (ptr false (prim p)) (ptr false (prim q)) = true ∧ assignable impl (ref false (prim p)) (ref false (prim q)) = true ∧
      ∃ w v, Valid w v (ptr false (prim q)) ∧ Valid w v (ref false (prim q)) ∧ ¬ Valid w v (ptr false (prim p)) ∧
        ¬ Valid w v (ref false (prim p)) := by
  refine ⟨by simp [assignable, core, unwrap, isConst, isPtr, h], by simp [assignable, core, unwrap, isConst, isPtr, h],
    one (.num q 0) void (fun _ _ => True) impl, .addr 0, ?_⟩
  have hv := valid_addr (w := one (.num q 0) void (fun _ _ => True) impl) (a := 0) false rfl (valid_num _ q 0) (fun _ h => h)
  refine ⟨hv.1, hv.2, fun hp => ?_, fun hp => ?_⟩
  · obtain ⟨x, hx, hh, _⟩ := valid_ptr (by simp) hp
    obtain rfl := Option.some.inj hx
    exact not_valid_num _ hne 0 (hh 1)
  · obtain ⟨x, hx, hh, _⟩ := valid_ref hp
    obtain rfl := Option.some.inj hx
    exact not_valid_num _ hne 0 (hh 1)

/-- C135 is false: so are arrays of numbers, and functions that return them. -/
theorem number_in_array_or_result {p q : Prim} (h : Verif.Prim.assignable p q = true) (hne : p ≠ q) (impl : Nat → Nat → Bool)
    (n : Nat) (hn : n ≠ 0) :
    assignable impl (arr (some n) (prim p)) (arr (some n) (prim q)) = true ∧ assignable impl (ret (prim p)) (ret (prim q)) = true ∧
      (∃ w v, Valid w v (arr (some n) (prim q)) ∧ ¬ Valid w v (arr (some n) (prim p))) ∧
      ∃ w v, Valid w v (ret (prim q)) ∧ ¬ Valid w v (ret (prim p)) := by
  refine ⟨by simp [assignable, core, unwrap, isConst, isPtr, h], by simp [assignable, core, unwrap, isConst, isPtr, h],
    ⟨one .nul void (fun _ _ => True) impl, .list (List.replicate n (.num q 0)), ?_, fun hp => ?_⟩,
    ⟨one .nul (ret (prim q)) (fun _ _ => True) impl, .func 0, ?_, fun hp => ?_⟩⟩
  · intro m
    cases m with
    | zero => trivial
    | succ m =>
      refine ⟨_, rfl, fun k e => by simpa using e, fun x hx => ?_⟩
      rw [(List.mem_replicate.1 hx).2]; exact valid_num _ q 0 m
  · obtain ⟨vs, e, _, hx⟩ := hp 2
    obtain rfl := Val.list.inj e
    exact not_valid_num _ hne 0 (hx _ (List.mem_replicate.2 ⟨hn, rfl⟩))
  · intro m
    cases m with
    | zero => trivial
    | succ m => exact .inr ⟨0, rfl, fun v hv => hv⟩
  · rcases hp 2 with e | ⟨f, e, hc⟩
    · simp at e
    · exact not_valid_num _ hne 0 (hc (.num q 0) (valid_num _ q 0 1))

/-- C135 is false: a function that takes objects of a derived class is accepted for one that takes any object of the base,
and the other way round, which would be right, is refused. -/
theorem parameter_of_derived_class {c d : List Nat} (h : c <:+ d) (hne : c ≠ d) (hc : c ≠ []) (impl : Nat → Nat → Bool) (t : Ty) :
    assignable impl (arrow (cls c) (ret t)) (arrow (cls d) (ret t)) = true ∧
      assignable impl (arrow (cls d) (ret t)) (arrow (cls c) (ret t)) = false ∧
      (∃ w v, Valid w v (arrow (cls d) (ret t)) ∧ ¬ Valid w v (arrow (cls c) (ret t))) ∧
      ∀ w v, Valid w v (arrow (cls c) (ret t)) → Valid w v (arrow (cls d) (ret t)) := by
  have h1 : derives c d = true := derives_iff.2 ⟨hc, h⟩
  have hnd : ¬ d <:+ c := fun h' => hne (h.eq_of_length_le h'.length_le)
  have h2 : derives d c = false := by
    match e : derives d c with
    | false => rfl
    | true => exact absurd (derives_iff.1 e).2 hnd
  refine ⟨by simp [assignable, core, unwrap, isConst, isPtr, h1], by simp [assignable, core, unwrap, isConst, isPtr, h2, hne.symm],
    ⟨one .nul (arrow (cls d) (ret t)) (fun _ _ => True) impl, .func 0, ?_, fun hp => ?_⟩, ?_⟩
  · intro m
    cases m with
    | zero => trivial
    | succ m => exact .inr ⟨0, rfl, fun v hv => hv, fun v hv => hv⟩
  · rcases hp 2 with e | ⟨f, e, hcall, _⟩
    · simp at e
    · rcases hcall (.obj c) (.inr ⟨c, rfl, List.suffix_rfl⟩) with e | ⟨x, e, hx⟩
      · simp at e
      · obtain rfl := Val.obj.inj e
        exact hnd hx
  · intro w v hv m
    cases m with
    | zero => trivial
    | succ m =>
      rcases hv (m + 1) with e | ⟨f, e, hcall⟩
      · exact .inl e
      · refine .inr ⟨f, e, ?_⟩
        match hd : w.code f, hcall with
        | arrow a (ret u), hcall =>
          refine ⟨fun x hx => hcall.1 x ?_, hcall.2⟩
          cases m with
          | zero => trivial
          | succ m =>
            rcases hx with hx | ⟨y, e, hy⟩
            · exact .inl hx
            · exact .inr ⟨y, e, h.trans hy⟩

/-- C135 is false: a value of an enumeration is accepted for any other enumeration on the same type of numbers. -/
theorem other_enumeration (i j : Nat) (p : Prim) (x : Int) (o : Nat → Int → Prop) (impl : Nat → Nat → Bool) (hx : o j x)
    (hn : ¬ o i x) :
    assignable impl (enum i p) (enum j p) = true ∧ ∃ w, w.options = o ∧ Valid w (.num p x) (enum j p) ∧ ¬ Valid w (.num p x) (enum i p) := by
  refine ⟨?_, one .nul void o impl, rfl, ?_, fun hp => ?_⟩
  · simp only [assignable, core, unwrap, isConst, isPtr]
    simp [Verif.Prim.assignable]
  · intro m
    cases m with
    | zero => trivial
    | succ m => exact ⟨x, rfl, hx⟩
  · obtain ⟨y, e, hy⟩ := hp 1
    rw [← (Val.num.inj e).2] at hy
    exact hn hy

/-- C135 is false: a pointer to a value is accepted for a pointer to an optional one. -/
theorem optional_under_pointer (p : Prim) (impl : Nat → Nat → Bool) :
    assignable impl (ptr false (opt (prim p))) (ptr false (prim p)) = true ∧
      ∃ w v, Valid w v (ptr false (prim p)) ∧ ¬ Valid w v (ptr false (opt (prim p))) := by
  refine ⟨?_, one (.num p 0) void (fun _ _ => True) impl, .addr 0, ?_, fun hp => ?_⟩
  · simp [assignable, core, unwrap, isConst, isPtr, isOpt, isNull]
  · exact (valid_addr (w := one (.num p 0) void (fun _ _ => True) impl) false rfl (valid_num _ p 0) (fun _ h => h)).1
  · obtain ⟨x, hx, hh, _⟩ := valid_ptr (by simp) hp
    obtain rfl := Option.some.inj hx
    rcases hh 1 with e | ⟨y, e, _⟩ <;> simp at e

/-- C135 is false: a pointer to an array is accepted for a pointer to a pointer. -/
theorem array_under_pointer (t : Ty) (n : Nat) (ht : t ≠ void) (impl : Nat → Nat → Bool) :
    assignable impl (ptr false (ptr false t)) (ptr false (arr (some n) t)) = true ∧
      ∀ w v, v ≠ .nul → Valid w v (ptr false (arr (some n) t)) → ¬ Valid w v (ptr false (ptr false t)) := by
  refine ⟨?_, fun w v hv h1 h2 => ?_⟩
  · have : assignable impl t t = true := by unfold assignable; simp
    simp [assignable, core, unwrap, isConst, isPtr, ht, this]
  · rcases (step_ptr (by simp)).1 (h1 1) with e | ⟨a, _, e, _⟩
    · exact hv e
    · subst e
      obtain ⟨x, e1, h3, _⟩ := valid_ptr (by simp) h1
      obtain ⟨y, e2, h4, _⟩ := valid_ptr (by simp) h2
      rw [e1] at e2
      obtain rfl := Option.some.inj e2
      obtain ⟨vs, rfl, _⟩ := h3 1
      rcases (step_ptr ht).1 (h4 1) with e | ⟨_, _, e, _⟩ <;> simp at e

/-- C136 is false: a reference to constant memory is accepted for one to memory that may be written. -/
theorem constant_reference {w : World} {a : Nat} {x : Val} {t : Ty} (hm : w.mem a = some x) (hx : Valid w x t) (hf : w.frozen a) :
    assignable w.impl (ref false t) (ref true t) = true ∧ Valid w (.addr a) (ref true t) ∧ Writable w (.addr a) (ref false t) a ∧ w.frozen a := by
  refine ⟨?_, (valid_addr true hm hx (by simp)).2, .ref, hf⟩
  have : assignable w.impl t t = true := by unfold assignable; simp
  simp [assignable, core, unwrap, isConst, isPtr, this]

/-! ## Writing -/

/-- Types of which different ones are never accepted for each other: one primitive type, structures, strings, and pointers
that are all to constants or all not. -/
def Same (q : Prim) (k : Bool) : Ty → Prop
  | prim p => p = q
  | struct _ => True
  | str => True
  | ptr k' t => k' = k ∧ t ≠ void ∧ Same q k t
  | _ => False

theorem same_deep {q k t} (h : Same q k t) : Deep q false t := by
  induction t with
  | ptr k' t ih => exact ih h.2.2
  | prim p => exact h
  | struct _ => trivial
  | str => trivial
  | _ => exact absurd h id

theorem same_eq {impl q k} : ∀ {t u : Ty}, Same q k t → Same q k u → assignable impl t u = true → t = u := by
  intro t
  induction t with
  | prim p =>
    intro u ht hu ha
    cases u with
    | prim p' => rw [show p = q from ht, show p' = q from hu]
    | _ =>
      rcases deep_assignable (same_deep ht) ha with h | h
      · exact h
      · first | exact absurd hu id | (rw [core] at h; simp [unwrap] at h)
  | struct i =>
    intro u ht hu ha
    rcases deep_assignable (same_deep ht) ha with h | h
    · exact h
    · rw [← deep_unwrap (same_deep hu)]
      rcases core_struct h with h | h
      · exact h.symm
      · rw [deep_unwrap (same_deep hu), deep_isNull (same_deep hu)] at h; simp at h
  | str =>
    intro u ht hu ha
    rcases deep_assignable (same_deep ht) ha with h | h
    · exact h
    · rw [← deep_unwrap (same_deep hu)]
      rcases core_str h with h | h
      · exact h.symm
      · rw [deep_unwrap (same_deep hu), deep_not_null (same_deep hu)] at h; simp at h
  | ptr k' t ih =>
    intro u ht hu ha
    rcases deep_assignable (same_deep ht) ha with h | h
    · exact h
    · cases u with
      | ptr k'' u' =>
        have hk : k' = k'' := ht.1.trans hu.1.symm
        subst hk
        obtain ⟨_, h | h | h | h⟩ := core_ptr h
        · rw [h]
        · exact absurd h ht.2.1
        · have := hu.2.2; rw [h] at this; exact absurd this id
        · rw [ih ht.2.2 hu.2.2 h]
      | arr _ _ => exact absurd hu id
      | _ =>
        obtain ⟨e, _⟩ := core_ptr_other (deep_unwrap (same_deep hu)) (by simp) (by simp) h
        exact absurd e ht.2.1
  | _ => intro u ht; exact absurd ht id

/-- C137. What is written through a pointer fits every pointer that was accepted for it: after the write the memory holds
a value of the type of the pointer that this one was made from. Missing: classes, and pointers of which only some are to
constants, besides what is missing in C135. -/
theorem written_value_fits_partial {w : World} {q : Prim} {k : Bool} {t u : Ty} (ht : Same q k t) (hu : Same q k u)
    (h : assignable w.impl (ptr false t) (ptr false u) = true) {a : Nat} {x : Val} (hm : w.mem a = some x) (hx : Valid w x t)
    (hf : ¬ w.frozen a) : Valid w (.addr a) (ptr false u) := by
  refine (valid_addr false hm ?_ (fun _ => hf)).1
  have htu : t = u := by
    rcases deep_assignable (q := q) (r := false) (t := ptr false t) (show Deep q false t from same_deep ht) h with h | h
    · exact (Ty.ptr.inj h).2
    · obtain ⟨_, h | h | h | h⟩ := core_ptr h
      · exact h
      · rw [h] at ht; exact absurd ht id
      · rw [h] at hu; exact absurd hu id
      · exact same_eq ht hu h
  rw [← htu]; exact hx

/-- C137 is false: a pointer to a variable of a derived class is accepted for a pointer to one of the base; an object of the
base can be stored through it. -/
theorem base_object_in_derived_variable {c d : List Nat} (h : c <:+ d) (hne : c ≠ d) (hc : c ≠ []) {w : World} {a : Nat}
    (hm : w.mem a = some (.obj c)) :
    assignable w.impl (ptr false (cls c)) (ptr false (cls d)) = true ∧ Valid w (.obj c) (cls c) ∧
      ¬ Valid w (.addr a) (ptr false (cls d)) := by
  have h1 : derives c d = true := derives_iff.2 ⟨hc, h⟩
  refine ⟨by simp [assignable, core, unwrap, isConst, isPtr, h1], ?_, fun hp => ?_⟩
  · intro m
    cases m with
    | zero => trivial
    | succ m => exact .inr ⟨c, rfl, List.suffix_rfl⟩
  · obtain ⟨x, e, hx, _⟩ := valid_ptr (by simp) hp
    rw [hm] at e
    obtain rfl := Option.some.inj e
    rcases hx 1 with e | ⟨y, e, hy⟩
    · simp at e
    · obtain rfl := Val.obj.inj e
      exact hne (h.eq_of_length_le hy.length_le)

/-- C137 is false: a pointer to a pointer is accepted for a pointer to a pointer to a constant; a pointer to a constant can
be stored through it. -/
theorem constant_pointer_in_variable {w : World} {a b : Nat} {y : Val} {t : Ty} (ht : t ≠ void) (hm : w.mem a = some (.addr b))
    (hb : w.mem b = some y) (hy : Valid w y t) (hf : w.frozen b) :
    assignable w.impl (ptr false (ptr true t)) (ptr false (ptr false t)) = true ∧ Valid w (.addr b) (ptr true t) ∧
      ¬ Valid w (.addr a) (ptr false (ptr false t)) := by
  refine ⟨?_, (valid_addr true hb hy (by simp)).1, fun hp => ?_⟩
  · have : assignable w.impl t t = true := by unfold assignable; simp
    simp [assignable, core, unwrap, isConst, isPtr, this]
  · exact valid_not_frozen (.ptrTo (by simp) hm (.ptr ht)) hp hf

/-! ## Classes and interfaces -/

/-- C138. An object is accepted for a class exactly when its class is that one or derived from it. -/
theorem class_accepted_iff {c d : List Nat} (hc : c ≠ []) (impl : Nat → Nat → Bool) :
    assignable impl (cls c) (cls d) = true ↔ c <:+ d := by
  constructor
  · intro h
    unfold assignable at h
    split at h
    · rename_i e; rw [(Ty.cls.inj e)]; exact List.suffix_rfl
    · rcases core_cls h with e | ⟨d', e, hd⟩ | e
      · rw [Ty.cls.inj e]; exact List.suffix_rfl
      · rw [Ty.cls.inj e]; exact (derives_iff.1 hd).2
      · simp [unwrap, isNull] at e
  · intro h
    simp [assignable, core, unwrap, isConst, isPtr, derives_iff.2 ⟨hc, h⟩]

/-- C138. An object is accepted for an interface when the declaration of its class names it. Missing: interfaces named by
classes it is derived from. -/
theorem interface_accepted_partial {d i : Nat} {as : List Nat} (impl : Nat → Nat → Bool) :
    assignable impl (iface i) (cls (d :: as)) = true ↔ impl d i = true := by
  simp [assignable, core, unwrap, isConst, isPtr]

/-- C138 is false: an object is refused for an interface that only a class above its own names. -/
theorem inherited_interface_refused {d b i : Nat} {as : List Nat} {w : World} (hd : w.impl d i = false) (hb : w.impl b i = true) :
    assignable w.impl (iface i) (cls (d :: b :: as)) = false ∧ assignable w.impl (cls (b :: as)) (cls (d :: b :: as)) = true ∧
      assignable w.impl (iface i) (cls (b :: as)) = true ∧
      ∀ v, Valid w v (cls (d :: b :: as)) → Valid w v (iface i) := by
  refine ⟨?_, (class_accepted_iff (by simp) _).2 (List.suffix_cons ..), (interface_accepted_partial _).2 hb, fun v hv n => ?_⟩
  · simp [assignable, core, unwrap, isConst, isPtr, hd]
  · cases n with
    | zero => trivial
    | succ n =>
      rcases hv 1 with e | ⟨c, e, hs⟩
      · exact .inl e
      · exact .inr ⟨b, .inr ⟨c, e, hs.subset (by simp), hb⟩⟩

/-! ## Examples -/

/-- Memory: a byte at 0, a pointer to it at 1, an object at 2; the byte at 3 is constant. -/
def sample : World :=
  ⟨fun a => if a = 0 then some (.num .u8 7) else if a = 1 then some (.addr 0) else if a = 2 then some (.obj [2, 1])
    else if a = 3 then some (.num .u8 9) else none, fun a => a = 3, fun _ => arrow (struct 4) (ret (cls [2, 1])),
    fun d i => d == 1 && i == 8, fun i x => i = 5 ∧ x = 1⟩

/-- `accepted_reference_fits_partial`: `^^u8` for `^^void`, a derived class for its base under a reference, a function. -/
example : Valid sample (.addr 1) (ptr false (ptr false void)) :=
  accepted_reference_fits_partial (q := .u8) (r := false) (to := ptr false (ptr false void))
    (frm := ptr false (ptr false (prim .u8))) (by simp) trivial
    (.inl rfl) (by simp [assignable, core, unwrap, isConst, isPtr])
    (valid_addr false rfl (valid_addr (x := .num .u8 7) false rfl (valid_num _ _ _) (by simp [sample])).1 (by simp [sample])).1

example : Valid sample (.addr 2) (ref false (cls [1])) := by
  refine accepted_reference_fits_partial (q := .u8) (r := false) (to := ref false (cls [1])) (frm := ref false (cls [2, 1])) (by simp)
    ⟨by simp, by simp, by simp [Deep]⟩ (.inl ⟨by simp, by simp, by simp [Deep]⟩)
    (by simp [assignable, core, unwrap, isConst, isPtr, derives]) (valid_addr (x := .obj [2, 1]) false rfl ?_ (by simp [sample])).2
  intro n
  cases n with
  | zero => trivial
  | succ n => exact .inr ⟨_, rfl, List.suffix_rfl⟩

example : Valid sample (.func 0) (arrow (struct 4) (ret (cls [1]))) := by
  refine accepted_reference_fits_partial (q := .u8) (r := false) (to := arrow (struct 4) (ret (cls [1]))) (frm := arrow (struct 4) (ret (cls [2, 1]))) (by simp)
    ⟨trivial, by simp [Fn, Deep]⟩ (.inl ⟨trivial, by simp [Fn, Deep]⟩)
    (by simp [assignable, core, unwrap, isConst, isPtr, derives]) ?_
  intro n
  cases n with
  | zero => trivial
  | succ n => exact .inr ⟨0, rfl, fun _ h => h, fun _ h => h⟩

/-- `constants_stay_constant_partial`: a pointer to a constant is not accepted for one to a variable, and `^u8` for
`^const u8` gives no access to constants. -/
example : assignable sample.impl (ptr false (prim .u8)) (ptr true (prim .u8)) = false := by
  simp [assignable, core, unwrap, isConst, isPtr]

example : ¬ sample.frozen 0 :=
  constants_stay_constant_partial (q := .u8) (to := ptr false (ptr false (prim .u8))) (frm := ptr false (ptr false (prim .u8)))
    (v := .addr 1) rfl (.inl rfl) (by simp [assignable])
    (valid_addr false rfl (valid_addr (x := .num .u8 7) false rfl (valid_num _ _ _) (by simp [sample])).1 (by simp [sample])).1
    (.ptrTo (x := .addr 0) (by simp) rfl (.ptr (by simp)))

/-- `written_value_fits_partial` -/
example : Valid sample (.addr 0) (ptr false (prim .u8)) :=
  written_value_fits_partial (q := .u8) (k := false) (t := prim .u8) (u := prim .u8) rfl rfl (by simp [assignable]) (x := .num .u8 7) rfl
    (valid_num _ _ _) (by simp [sample])

/-- `number_under_pointer`, `number_in_array_or_result`: `^i8` is accepted for `^i64`. -/
example : assignable sample.impl (ptr false (prim .i64)) (ptr false (prim .i8)) = true :=
  (number_under_pointer (by decide) (by decide) _).1

/-- `constant_reference`, `constant_pointer_in_variable` -/
example : Writable sample (.addr 3) (ref false (prim .u8)) 3 ∧ sample.frozen 3 :=
  (constant_reference (x := .num .u8 9) rfl (valid_num _ _ _) rfl).2.2

/-- `parameter_of_derived_class`, `base_object_in_derived_variable` -/
example : assignable sample.impl (arrow (cls [1]) (ret void)) (arrow (cls [2, 1]) (ret void)) = true :=
  (parameter_of_derived_class ⟨[2], rfl⟩ (by simp) (by simp) _ _).1

/-- `inherited_interface_refused` -/
example : assignable sample.impl (iface 8) (cls [2, 1]) = false :=
  (inherited_interface_refused (w := sample) (d := 2) (b := 1) rfl rfl).1

/-- `other_enumeration` -/
example : assignable sample.impl (enum 6 .i32) (enum 5 .i32) = true :=
  (other_enumeration 6 5 .i32 1 sample.options _ ⟨rfl, rfl⟩ (by simp [sample])).1

end Verif.Assign
