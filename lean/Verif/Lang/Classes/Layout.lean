import Verif.Lang.Classes.Spec
/-!
# The fields of an object of a derived class
-/
namespace Verif.Classes

theorem own_eq_nil {d : Decl} : own d = [] ↔ d.fields = [] := by simp [own]

theorem inherit_eq_nil {c : Chain} : inherit c = [] ↔ ∀ d ∈ c, d.fields = [] := by
  induction c with
  | nil => simp [inherit]
  | cons d as ih =>
    rw [inherit]
    simp only [List.append_eq_nil_iff, ih, own_eq_nil, List.mem_cons, forall_eq_or_imp]
    exact ⟨fun h => ⟨h.2.2, h.1⟩, fun h => ⟨h.2, h.2, h.1⟩⟩

theorem fields_eq_nil {c : Chain} : fields c = [] ↔ ∀ d ∈ c, d.fields = [] := by
  cases c with
  | nil => simp [fields]
  | cons d as =>
    rw [fields]
    simp only [List.append_eq_nil_iff, inherit_eq_nil, own_eq_nil, List.mem_cons, forall_eq_or_imp]
    exact ⟨fun h => ⟨h.2, h.1⟩, fun h => ⟨h.2, h.1⟩⟩

theorem no_vtable_inherit {c : Chain} : Cell.vtable ∉ inherit c := by
  induction c with
  | nil => simp [inherit]
  | cons d as ih => rw [inherit]; simp [ih, own]

theorem no_vtable_fields {c : Chain} : Cell.vtable ∉ fields c := by
  cases c with
  | nil => simp [fields]
  | cons d as => rw [fields]; simp [no_vtable_inherit, own]

theorem owner_inherit {c : Chain} {o f : Nat} (h : Cell.field o f ∈ inherit c) : ∃ d ∈ c, d.id = o := by
  induction c with
  | nil => simp [inherit] at h
  | cons d as ih =>
    rw [inherit] at h
    simp only [List.mem_append, own, List.mem_map, Cell.field.injEq] at h
    rcases h with h | h | ⟨_, _, h, _⟩
    · obtain ⟨x, hx, e⟩ := ih h; exact ⟨x, List.mem_cons_of_mem _ hx, e⟩
    · obtain ⟨x, hx, e⟩ := ih h; exact ⟨x, List.mem_cons_of_mem _ hx, e⟩
    · exact ⟨d, List.mem_cons_self .., h⟩

theorem inherit_prefix (ds c : Chain) : inherit c <+: inherit (ds ++ c) := by
  induction ds with
  | nil => exact List.prefix_rfl
  | cons d ds ih =>
    rw [List.cons_append, inherit]
    exact ih.trans (List.prefix_append _ _)

theorem fields_prefix {ds : Chain} (h : ds ≠ []) (c : Chain) : inherit c <+: fields (ds ++ c) := by
  match ds, h with
  | d :: ds, _ =>
    rw [List.cons_append, fields]
    exact (inherit_prefix ds c).trans (List.prefix_append _ _)

theorem keeps_of_prefix {l k : List Cell} (h : l <+: k) (i : Nat) (x : Cell) (hx : l[i]? = some x) : k[i]? = some x := by
  obtain ⟨r, rfl⟩ := h
  have : i < l.length := (List.getElem?_eq_some_iff.1 hx).1
  rw [List.getElem?_append_left this, hx]

/-- The fields alone keep their places exactly when the class or the ones above it have none. -/
theorem fields_keep_iff {ds t : Chain} {b : Decl} (hne : ds ≠ []) (hd : Distinct (b :: t)) :
    (∀ (k : Nat) (x : Cell), (fields (b :: t))[k]? = some x → (fields (ds ++ b :: t))[k]? = some x) ↔
      (∀ d ∈ t, d.fields = []) ∨ b.fields = [] := by
  have hp := fields_prefix hne (b :: t)
  rw [inherit] at hp
  constructor
  · intro h
    rw [← inherit_eq_nil, ← own_eq_nil]
    match hi : inherit t, ho : own b with
    | [], _ => exact .inl rfl
    | _ :: _, [] => exact .inr rfl
    | x :: xs, y :: ys =>
      exfalso
      have h1 : (fields (b :: t))[(inherit t).length]? = some y := by
        rw [fields, List.getElem?_append_right (Nat.le_refl _), ho]; simp
      have h2 : (inherit t ++ (inherit t ++ own b))[(inherit t).length]? = some x := by
        rw [List.getElem?_append_right (Nat.le_refl _), hi]; simp
      have h3 := keeps_of_prefix hp _ _ h2
      rw [h _ _ h1] at h3
      have hxy : y = x := Option.some.inj h3
      have hy : y ∈ own b := by rw [ho]; simp
      have hx : y ∈ inherit t := by rw [hi, hxy]; simp
      obtain ⟨f, _, rfl⟩ := List.mem_map.1 hy
      obtain ⟨d, hdt, e⟩ := owner_inherit hx
      exact (List.pairwise_cons.1 hd).1 d hdt e.symm
  · intro h k x hx
    refine keeps_of_prefix ?_ k x hx
    rcases h with h | h
    · rw [inherit_eq_nil.2 h] at hp
      rw [fields, inherit_eq_nil.2 h]
      exact hp
    · rw [fields, own_eq_nil.2 h, List.append_nil]
      exact (List.prefix_append _ _).trans hp

/-- C132, exactly when it holds: an object of a proper subclass begins like one of the base when both or neither have a
table, or the base is empty; and only one of the base and the classes above it declares fields. -/
theorem base_first_iff {ds t : Chain} {b : Decl} (hne : ds ≠ []) (hd : Distinct (b :: t)) :
    Keeps (ds ++ b :: t) (b :: t) ↔
      (hasTable (ds ++ b :: t) = hasTable (b :: t) ∨ (hasTable (b :: t) = false ∧ ∀ d ∈ b :: t, d.fields = [])) ∧
      ((∀ d ∈ t, d.fields = []) ∨ b.fields = []) := by
  have key := fields_keep_iff hne hd
  match h1 : hasTable (ds ++ b :: t), h2 : hasTable (b :: t) with
  | false, false =>
    simp only [Keeps, layout, h1, h2, Bool.false_eq_true, if_false]
    rw [key]; simp
  | true, true =>
    simp only [Keeps, layout, h1, h2, if_true]
    rw [← key]
    constructor
    · intro h
      refine ⟨by simp, fun k x hx => ?_⟩
      have := h (k + 1) x (by simpa using hx)
      simpa using this
    · intro h k x hx
      match k with
      | 0 => simpa using hx
      | k + 1 => simpa using h.2 k x (by simpa using hx)
  | false, true =>
    simp only [Keeps, layout, h1, h2, Bool.false_eq_true, if_false, if_true]
    refine ⟨fun h => ?_, fun h => by simp at h⟩
    have := h 0 .vtable (by simp)
    exact absurd (List.mem_of_getElem? this) no_vtable_fields
  | true, false =>
    simp only [Keeps, layout, h1, h2, Bool.false_eq_true, if_false, if_true]
    by_cases hf : ∀ d ∈ b :: t, d.fields = []
    · rw [fields_eq_nil.2 hf]
      refine ⟨fun _ => ⟨.inr ⟨trivial, hf⟩, .inl fun d h => hf d (List.mem_cons_of_mem _ h)⟩, fun _ k x hx => by simp at hx⟩
    · refine ⟨fun h => ?_, fun h => ?_⟩
      · match hfs : fields (b :: t) with
        | [] => exact absurd (fields_eq_nil.1 hfs) hf
        | y :: ys =>
          have := h 0 y (by rw [hfs]; rfl)
          have hy : Cell.vtable ∈ fields (b :: t) := by
            rw [hfs, ← Option.some.inj (by simpa using this : some Cell.vtable = some y)]; simp
          exact absurd hy no_vtable_fields
      · rcases h.1 with h | h
        · simp at h
        · exact absurd h.2 hf

/-- C132. An object of a derived class begins with the cells of an object of the base. Missing: bases that have a base
with fields, and classes that have a table when the base has none or the other way round. -/
theorem base_first_partial {c b : Chain} (hd : Derived c b) (ht : hasTable c = hasTable b)
    (hf : ∀ d ∈ b.tail, d.fields = []) : Keeps c b := by
  obtain ⟨ds, rfl⟩ := hd
  intro k x hx
  refine keeps_of_prefix ?_ k x hx
  suffices h : fields b <+: fields (ds ++ b) by
    unfold layout
    rw [ht]
    split
    · exact List.prefix_cons_inj .. |>.2 h
    · exact h
  match ds with
  | [] => exact List.prefix_rfl
  | d :: ds =>
    match b, hf with
    | [], _ => exact List.nil_prefix
    | b :: t, hf =>
      have hp := fields_prefix (ds := d :: ds) (by simp) (b :: t)
      have ht : inherit t = [] := inherit_eq_nil.2 hf
      rw [inherit, ht] at hp
      rw [show fields (b :: t) = own b by rw [fields, ht]; rfl]
      exact hp

/-- C132 is false: a class that declares the first virtual function, under a base with fields. -/
theorem first_virtual_moves_the_fields {d b : Decl} {t : Chain} (hb : hasTable (b :: t) = false) (hf : b.fields ≠ [])
    (hv : flagged d = true) (hd : Distinct (b :: t)) : ¬ Keeps (d :: b :: t) (b :: t) := by
  intro h
  have := (base_first_iff (ds := [d]) (by simp) hd).1 h
  rcases this.1 with h1 | h1
  · rw [hb] at h1; simp [hasTable, hv] at h1
  · exact hf (h1.2 b (by simp))

/-- C132 is false: three classes with fields, one derived from the other. -/
theorem third_class_moves_the_fields {d b : Decl} {t : Chain} (hf : b.fields ≠ []) (ht : ∃ a ∈ t, a.fields ≠ [])
    (hd : Distinct (b :: t)) : ¬ Keeps (d :: b :: t) (b :: t) := by
  intro h
  obtain ⟨a, ha, hne⟩ := ht
  rcases ((base_first_iff (ds := [d]) (by simp) hd).1 h).2 with h1 | h1
  · exact hne (h1 a ha)
  · exact hf h1

theorem own_count (d : Decl) (f : Nat) : (own d).count (Cell.field d.id f) = d.fields.count f := by
  unfold own
  induction d.fields with
  | nil => rfl
  | cons x xs ih => simp only [List.map_cons, List.count_cons, ih]; congr 1; simp

theorem own_count_ne {d : Decl} {o f : Nat} (h : d.id ≠ o) : (own d).count (Cell.field o f) = 0 := by
  rw [List.count_eq_zero]
  simp [own, h]

theorem inherit_count (ds : Chain) (r : Decl) (f : Nat) (h : ∀ d ∈ ds, d.id ≠ r.id) :
    (inherit (ds ++ [r])).count (Cell.field r.id f) = 2 ^ ds.length * r.fields.count f := by
  induction ds with
  | nil => simp [inherit, own_count]
  | cons d ds ih =>
    rw [List.cons_append, inherit, List.count_append, List.count_append, ih fun x hx => h x (List.mem_cons_of_mem _ hx),
      own_count_ne (h d (List.mem_cons_self ..)), List.length_cons, Nat.pow_succ]
    rw [Nat.mul_comm (2 ^ ds.length) 2, Nat.mul_assoc]; omega

/-- C132: how often an object holds a field of the class at the root. Each class in between doubles it. -/
theorem root_fields_double (d r : Decl) (ds : Chain) (f : Nat) (h : ∀ x ∈ d :: ds, x.id ≠ r.id) :
    (layout (d :: (ds ++ [r]))).count (Cell.field r.id f) = 2 ^ ds.length * r.fields.count f := by
  have : (fields (d :: (ds ++ [r]))).count (Cell.field r.id f) = 2 ^ ds.length * r.fields.count f := by
    rw [fields, List.count_append, inherit_count ds r f fun x hx => h x (List.mem_cons_of_mem _ hx),
      own_count_ne (h d (List.mem_cons_self ..))]; rfl
  unfold layout
  split
  · rw [List.count_cons]; simpa using this
  · exact this

end Verif.Classes
