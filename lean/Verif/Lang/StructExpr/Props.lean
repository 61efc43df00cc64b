import Verif.Lang.StructExpr.Model

/-!
# Struct expressions: what the fields hold

A struct expression is accepted if all names in it are fields and each field that is not written has a default; a field then holds what was
written for it, otherwise its default.
-/
namespace Verif.StructExpr

variable {V : Type}

/-! ## Specification -/

/-- The expression may be used. -/
def Acceptable (isExtern : Bool) (S : List (Member V)) (written : List (Nat × V)) : Prop :=
  (∀ w ∈ written, ∃ m ∈ S, m.isField = true ∧ m.name = w.1) ∧
  (isExtern = true ∨ ∀ m ∈ S, m.isField = true → m.dflt = none → m.name ∈ written.map (·.1))

/-- The answer of the compiler is the right one: an error, or initialisers that leave the right value in every field. -/
def Right (isExtern : Bool) (S : List (Member V)) (written : List (Nat × V)) : Option (List (Nat × V)) → Prop
  | none => ¬ Acceptable isExtern S written
  | some inits => Acceptable isExtern S written ∧
      ∀ m ∈ S, m.isField = true → valueOf inits m.name = (valueOf written m.name).or m.dflt

/-- The fields stand before everything else. -/
def FieldsFirst (S : List (Member V)) : Prop := ∃ fs os : List (Member V), S = fs ++ os ∧ (∀ m ∈ fs, m.isField = true) ∧ ∀ m ∈ os, m.isField = false

/-! ## Helpers -/

theorem valueOf_append (x : Nat) (l₂ : List (Nat × V)) : ∀ l₁ : List (Nat × V), valueOf (l₁ ++ l₂) x = (valueOf l₂ x).or (valueOf l₁ x)
  | [] => by simp [valueOf]
  | w :: ws => by simp [valueOf, valueOf_append x l₂ ws, Option.or_assoc]

theorem valueOf_eq_none (x : Nat) : ∀ l : List (Nat × V), valueOf l x = none ↔ x ∉ l.map (·.1)
  | [] => by simp [valueOf]
  | w :: ws => by
      have := valueOf_eq_none x ws
      simp only [valueOf, Option.or_eq_none_iff, this, List.map_cons, List.mem_cons, not_or]
      by_cases h : w.1 = x
      · simp [h]
      · simp [h, Ne.symm h]

theorem indexOf_own : ∀ (S : List (Member V)) (n : Nat) (x : Nat), (S.map (·.name)).Nodup → ∀ i,
    (indexOf false n S x = some i ↔ ∃ p m, i = n + p ∧ S[p]? = some m ∧ m.name = x ∧ m.isField = true)
  | [], n, x, _, i => by simp [indexOf]
  | m :: ms, n, x, hn, i => by
      simp only [List.map_cons, List.nodup_cons] at hn
      by_cases hx : m.name = x
      · rw [indexOf, if_pos hx]
        constructor
        · intro h
          by_cases hf : m.isField
          · simp [hf] at h; exact ⟨0, m, by omega, by simp, hx, hf⟩
          · simp [hf] at h
        · rintro ⟨p, m', rfl, hp, hx', hf⟩
          cases p with
          | zero => simp at hp; subst hp; simp [hf]
          | succ p =>
              exfalso
              apply hn.1
              rw [hx, ← hx']
              have : m' ∈ ms := List.mem_of_getElem? (by simpa using hp)
              exact List.mem_map.mpr ⟨m', this, rfl⟩
      · rw [indexOf, if_neg hx]
        simp only [Bool.false_and, Bool.false_eq_true, if_false]
        rw [indexOf_own ms (n + 1) x hn.2 i]
        constructor
        · rintro ⟨p, m', rfl, hp, h⟩
          exact ⟨p + 1, m', by omega, by simpa using hp, h⟩
        · rintro ⟨p, m', rfl, hp, hx', hf⟩
          cases p with
          | zero => simp at hp; subst hp; exact absurd hx' hx
          | succ p => exact ⟨p, m', by omega, by simpa using hp, hx', hf⟩

theorem indexOf_isSome (imp : Bool) : ∀ (S : List (Member V)) (n x : Nat), (S.map (·.name)).Nodup →
    ((indexOf imp n S x).isSome = true ↔ ∃ m ∈ S, m.isField = true ∧ m.name = x)
  | [], n, x, _ => by simp [indexOf]
  | m :: ms, n, x, hn => by
      simp only [List.map_cons, List.nodup_cons] at hn
      by_cases hx : m.name = x
      · rw [indexOf, if_pos hx]
        by_cases hf : m.isField
        · simp only [hf, if_true, Option.isSome_some, true_iff]
          exact ⟨m, by simp, hf, hx⟩
        · simp only [hf]
          constructor
          · intro h; simp at h
          · rintro ⟨m', hm', hf', hx'⟩
            rcases List.mem_cons.mp hm' with rfl | hm'
            · exact absurd hf' hf
            · exact absurd (List.mem_map.mpr ⟨m', hm', hx'.trans hx.symm⟩) hn.1
      · rw [indexOf, if_neg hx, indexOf_isSome imp ms _ x hn.2]
        constructor
        · rintro ⟨m', hm', h⟩; exact ⟨m', by simp [hm'], h⟩
        · rintro ⟨m', hm', hf', hx'⟩
          rcases List.mem_cons.mp hm' with rfl | hm'
          · exact absurd hx' hx
          · exact ⟨m', hm', hf', hx'⟩

/-- The loop with the marks replaced by what they stand for. -/
def fillNames (isExtern : Bool) (names : List Nat) : List (Member V) → Option (List (Nat × V))
  | [] => some []
  | m :: ms =>
    if m.name ∈ names ∨ m.isField = false then fillNames isExtern names ms
    else match m.dflt with
      | none => if isExtern then fillNames isExtern names ms else none
      | some d => (fillNames isExtern names ms).map ((m.name, d) :: ·)

theorem fill_eq (isExtern : Bool) (mark : Nat → Bool) (names : List Nat) : ∀ (ms : List (Member V)) (i : Nat),
    (∀ p m, ms[p]? = some m → m.isField = true → (mark (i + p) = true ↔ m.name ∈ names)) →
    fill isExtern mark i ms = fillNames isExtern names ms
  | [], _, _ => rfl
  | m :: ms, i, h => by
      have ih := fill_eq isExtern mark names ms (i + 1) (fun p m' hp hf => by
        have := h (p + 1) m' (by simpa using hp) hf
        rwa [show i + (p + 1) = i + 1 + p by omega] at this)
      simp only [fill, fillNames]
      by_cases hf : m.isField = true
      · have h0 := h 0 m (by simp) hf
        simp only [Nat.add_zero] at h0
        by_cases hm : m.name ∈ names
        · simp [h0.mpr hm, hm, ih]
        · have : mark i = false := by
            cases hb : mark i with
            | false => rfl
            | true => exact absurd (h0.mp hb) hm
          simp only [this, hf, hm, ih, Bool.not_true, Bool.or_self, Bool.false_eq_true, Bool.true_eq_false, or_self, if_false]
          cases m.dflt <;> rfl
      · simp [hf, ih]

theorem fillNames_none (names : List Nat) (isExtern : Bool) : ∀ ms : List (Member V),
    fillNames isExtern names ms = none ↔ isExtern = false ∧ ∃ m ∈ ms, m.isField = true ∧ m.dflt = none ∧ m.name ∉ names
  | [] => by simp [fillNames]
  | m :: ms => by
      have ih := fillNames_none names isExtern ms
      simp only [fillNames]
      by_cases hc : m.name ∈ names ∨ m.isField = false
      · rw [if_pos hc, ih]
        constructor
        · rintro ⟨h, m', hm', h'⟩; exact ⟨h, m', by simp [hm'], h'⟩
        · rintro ⟨h, m', hm', hf, hd, hn⟩
          rcases List.mem_cons.mp hm' with rfl | hm'
          · rcases hc with hc | hc
            · exact absurd hc hn
            · simp [hf] at hc
          · exact ⟨h, m', hm', hf, hd, hn⟩
      · rw [if_neg hc]
        simp only [not_or, Bool.not_eq_false] at hc
        cases hd : m.dflt with
        | none =>
            cases isExtern with
            | true => simp only [if_true, ih]; simp
            | false => simp only [Bool.false_eq_true, if_false, true_and, true_iff]; exact ⟨m, by simp, hc.2, hd, hc.1⟩
        | some d =>
            simp only [Option.map_eq_none_iff, ih]
            constructor
            · rintro ⟨h, m', hm', h'⟩; exact ⟨h, m', by simp [hm'], h'⟩
            · rintro ⟨h, m', hm', hf, hd', hn⟩
              rcases List.mem_cons.mp hm' with rfl | hm'
              · rw [hd] at hd'; simp at hd'
              · exact ⟨h, m', hm', hf, hd', hn⟩

theorem fillNames_sub (isExtern : Bool) (names : List Nat) : ∀ (ms : List (Member V)) l, fillNames isExtern names ms = some l →
    ∀ x, x ∈ l.map (·.1) → x ∉ names ∧ x ∈ ms.map (·.name)
  | [], l, h, x, hx => by simp [fillNames] at h; subst h; simp at hx
  | m :: ms, l, h, x, hx => by
      simp only [fillNames] at h
      by_cases hc : m.name ∈ names ∨ m.isField = false
      · rw [if_pos hc] at h
        have := fillNames_sub isExtern names ms l h x hx
        exact ⟨this.1, by simp [this.2]⟩
      · rw [if_neg hc] at h
        simp only [not_or] at hc
        cases hd : m.dflt with
        | none =>
            rw [hd] at h
            cases isExtern with
            | false => simp at h
            | true =>
                simp only [if_true] at h
                have := fillNames_sub true names ms l h x hx
                exact ⟨this.1, by simp [this.2]⟩
        | some d =>
            rw [hd] at h
            obtain ⟨l', hl', rfl⟩ := Option.map_eq_some_iff.mp h
            simp only [List.map_cons, List.mem_cons] at hx
            rcases hx with rfl | hx
            · exact ⟨hc.1, by simp⟩
            · have := fillNames_sub isExtern names ms l' hl' x hx
              exact ⟨this.1, by simp [this.2]⟩

theorem fillNames_value (isExtern : Bool) (names : List Nat) : ∀ (ms : List (Member V)) l, fillNames isExtern names ms = some l →
    (ms.map (·.name)).Nodup → ∀ m ∈ ms, m.isField = true → m.name ∉ names → valueOf l m.name = m.dflt
  | [], _, _, _, m, hm, _, _ => by simp at hm
  | m₀ :: ms, l, h, hn, m, hm, hf, hx => by
      simp only [List.map_cons, List.nodup_cons] at hn
      simp only [fillNames] at h
      have hne : m ∈ ms → m.name ≠ m₀.name := fun h e => hn.1 (by rw [← e]; exact List.mem_map.mpr ⟨m, h, rfl⟩)
      by_cases hc : m₀.name ∈ names ∨ m₀.isField = false
      · rw [if_pos hc] at h
        rcases List.mem_cons.mp hm with rfl | hm
        · rcases hc with hc | hc
          · exact absurd hc hx
          · simp [hf] at hc
        · exact fillNames_value isExtern names ms l h hn.2 m hm hf hx
      · rw [if_neg hc] at h
        have hsub := fillNames_sub isExtern names ms
        cases hd : m₀.dflt with
        | none =>
            rw [hd] at h
            cases isExtern with
            | false => simp at h
            | true =>
                simp only [if_true] at h
                rcases List.mem_cons.mp hm with rfl | hm
                · rw [hd, valueOf_eq_none]
                  exact fun hin => hn.1 ((hsub l h _ hin).2)
                · exact fillNames_value true names ms l h hn.2 m hm hf hx
        | some d =>
            rw [hd] at h
            obtain ⟨l', hl', rfl⟩ := Option.map_eq_some_iff.mp h
            rcases List.mem_cons.mp hm with rfl | hm
            · have : valueOf l' m.name = none := (valueOf_eq_none _ _).mpr (fun hin => hn.1 ((hsub l' hl' _ hin).2))
              simp [valueOf, this, hd]
            · have := fillNames_value isExtern names ms l' hl' hn.2 m hm hf hx
              simp [valueOf, this, (hne hm).symm]

/-- The marks say which fields are written. -/
def Faithful (imp : Bool) (S : List (Member V)) (written : List (Nat × V)) : Prop :=
  ∀ p m, S[p]? = some m → m.isField = true → (marked imp S written p = true ↔ m.name ∈ written.map (·.1))

theorem right_of_faithful (imp isExtern : Bool) (S : List (Member V)) (written : List (Nat × V)) (hn : (S.map (·.name)).Nodup)
    (h : Faithful imp S written) : Right isExtern S written (check imp isExtern S written) := by
  have hfill := fill_eq isExtern (marked imp S written) (written.map (·.1)) S 0 (fun p m hp hf => by simpa using h p m hp hf)
  have hall : (written.all fun w => (indexOf imp 0 S w.1).isSome) = true ↔ ∀ w ∈ written, ∃ m ∈ S, m.isField = true ∧ m.name = w.1 := by
    simp only [List.all_eq_true, indexOf_isSome imp S 0 _ hn]
  unfold check
  by_cases ha : (written.all fun w => (indexOf imp 0 S w.1).isSome) = true
  · rw [if_pos ha, hfill]
    cases hf : fillNames isExtern (written.map (·.1)) S with
    | none =>
        obtain ⟨he, m, hm, hfm, hd, hx⟩ := (fillNames_none _ _ _).mp hf
        rintro ⟨_, hh | hh⟩
        · simp [he] at hh
        · exact hx (hh m hm hfm hd)
    | some l =>
        simp only [Option.map_some, Right]
        refine ⟨⟨hall.mp ha, ?_⟩, fun m hm hfm => ?_⟩
        · cases isExtern with
          | true => exact .inl rfl
          | false =>
              refine .inr fun m hm hfm hd => Classical.byContradiction fun hx => ?_
              have := (fillNames_none (written.map (·.1)) false S).mpr ⟨rfl, m, hm, hfm, hd, hx⟩
              rw [hf] at this; simp at this
        · rw [valueOf_append]
          by_cases hx : m.name ∈ written.map (·.1)
          · have : valueOf l m.name = none := (valueOf_eq_none _ _).mpr fun hin => (fillNames_sub isExtern _ S l hf _ hin).1 hx
            have hw : valueOf written m.name ≠ none := fun e => (valueOf_eq_none _ _).mp e hx
            cases hv : valueOf written m.name with
            | none => exact absurd hv hw
            | some v => simp [this]
          · have hw := (valueOf_eq_none _ _).mpr hx
            rw [fillNames_value isExtern _ S l hf hn m hm hfm hx, hw]
            cases m.dflt <;> rfl
  · rw [if_neg ha]
    exact fun hh => ha (hall.mpr hh.1)

theorem faithful_own (S : List (Member V)) (written : List (Nat × V)) (hn : (S.map (·.name)).Nodup) : Faithful false S written := by
  intro p m hp hf
  simp only [marked, List.any_eq_true, List.mem_map]
  constructor
  · rintro ⟨w, hw, h⟩
    have h' : indexOf false 0 S w.1 = some p := by simpa using h
    obtain ⟨q, m', rfl, hq, hx, _⟩ := (indexOf_own S 0 w.1 hn p).mp h'
    rw [Nat.zero_add] at hp
    rw [hp] at hq
    simp only [Option.some.injEq] at hq
    subst hq
    exact ⟨w, hw, hx.symm⟩
  · rintro ⟨w, hw, h⟩
    refine ⟨w, hw, ?_⟩
    have := (indexOf_own S 0 w.1 hn p).mpr ⟨p, m, by omega, hp, h.symm, hf⟩
    simp [this]

/-! ## In the module of the struct -/

/-- Where the struct is declared, the expression is accepted exactly when it may be used, and every field holds what was written for it,
otherwise its default. -/
theorem struct_expression_right (isExtern : Bool) (S : List (Member V)) (written : List (Nat × V)) (hn : (S.map (·.name)).Nodup) :
    Right isExtern S written (check false isExtern S written) :=
  right_of_faithful false isExtern S written hn (faithful_own S written hn)

/-! ## In a module that imports the struct -/

theorem indexOf_others (imp : Bool) (x : Nat) : ∀ (os : List (Member V)) (n : Nat), (∀ m ∈ os, m.isField = false) → indexOf imp n os x = none
  | [], _, _ => rfl
  | m :: ms, n, h => by
      have hm := h m (by simp)
      have := fun k => indexOf_others imp x ms k (fun m' h' => h m' (by simp [h']))
      rw [indexOf, this]
      by_cases hx : m.name = x <;> simp [hx, hm]

theorem indexOf_fieldsFirst (os : List (Member V)) (ho : ∀ m ∈ os, m.isField = false) (x : Nat) : ∀ (fs : List (Member V)) (n : Nat),
    (∀ m ∈ fs, m.isField = true) → indexOf true n (fs ++ os) x = indexOf false n (fs ++ os) x
  | [], n, _ => by simp [indexOf_others _ x os n ho]
  | m :: fs, n, h => by
      have hm := h m (by simp)
      have := indexOf_fieldsFirst os ho x fs (n + 1) (fun m' h' => h m' (by simp [h']))
      simp only [List.cons_append, indexOf, hm, Bool.not_true, Bool.and_false, Bool.false_eq_true, if_false, this]

theorem indexOf_imported_lt (x : Nat) : ∀ (S : List (Member V)) (n i : Nat), indexOf true n S x = some i →
    i < n + (S.filter (·.isField)).length
  | [], _, _, h => by simp [indexOf] at h
  | m :: ms, n, i, h => by
      rw [indexOf] at h
      by_cases hx : m.name = x
      · rw [if_pos hx] at h
        by_cases hf : m.isField
        · simp [hf] at h; subst h; simp [hf]
        · simp [hf] at h
      · rw [if_neg hx] at h
        have := indexOf_imported_lt x ms _ i h
        cases hf : m.isField with
        | true => simp [hf] at this ⊢; omega
        | false => simp [hf] at this ⊢; omega

/-- A struct is like this if something stands before its last field. -/
theorem split_of_not_fieldsFirst : ∀ S : List (Member V), ¬ FieldsFirst S →
    ∃ (pre os : List (Member V)) (m : Member V), S = pre ++ m :: os ∧ m.isField = true ∧ (∀ o ∈ os, o.isField = false) ∧ ∃ o ∈ pre, o.isField = false
  | [], h => absurd ⟨[], [], rfl, by simp, by simp⟩ h
  | m :: S, h => by
      by_cases hS : FieldsFirst S
      · obtain ⟨fs, os, rfl, hf, ho⟩ := hS
        cases hm : m.isField with
        | true =>
            exact absurd ⟨m :: fs, os, rfl, fun m' h' => by
              rcases List.mem_cons.mp h' with rfl | h'
              · exact hm
              · exact hf m' h', ho⟩ h
        | false =>
            cases hl : fs.getLast? with
            | none =>
                have : fs = [] := by simpa using hl
                subst this
                exact absurd ⟨[], m :: os, rfl, by simp, fun m' h' => by
                  rcases List.mem_cons.mp h' with rfl | h'
                  · exact hm
                  · exact ho m' h'⟩ h
            | some l =>
                obtain ⟨fs', rfl⟩ : ∃ fs', fs = fs' ++ [l] := by
                  have := List.getLast?_eq_some_iff.mp hl
                  exact this
                exact ⟨m :: fs', os, l, by simp, hf l (by simp), ho, m, by simp, hm⟩
      · obtain ⟨pre, os, l, rfl, hl, ho, o, hop, hof⟩ := split_of_not_fieldsFirst S hS
        exact ⟨m :: pre, os, l, by simp, hl, ho, o, by simp [hop], hof⟩

theorem fill_last_none (mark : Nat → Bool) (m : Member V) (os : List (Member V)) (hm : m.isField = true) (hd : m.dflt = none) :
    ∀ (pre : List (Member V)) (i : Nat), mark (i + pre.length) = false → fill false mark i (pre ++ m :: os) = none
  | [], i, hk => by
      simp only [List.length_nil, Nat.add_zero] at hk
      simp [fill, hk, hm, hd]
  | p :: pre, i, hk => by
      have hk' : mark (i + 1 + pre.length) = false := by
        rw [List.length_cons] at hk
        rwa [show i + 1 + pre.length = i + (pre.length + 1) by omega]
      have ih := fill_last_none mark m os hm hd pre (i + 1) hk'
      simp only [List.cons_append, fill, ih]
      by_cases hc : (mark i || !p.isField) = true
      · rw [if_pos hc]
      · rw [if_neg hc]
        cases p.dflt <;> simp

theorem filter_length_lt (pre : List (Member V)) (h : ∃ o ∈ pre, o.isField = false) : (pre.filter (·.isField)).length < pre.length := by
  induction pre with
  | nil => obtain ⟨o, ho, _⟩ := h; simp at ho
  | cons p pre ih =>
      obtain ⟨o, ho, hf⟩ := h
      have hle : (pre.filter (·.isField)).length ≤ pre.length := List.length_filter_le _ _
      rcases List.mem_cons.mp ho with rfl | ho
      · simp [hf]; omega
      · have := ih ⟨o, ho, hf⟩
        cases hp : p.isField with
        | true => rw [List.filter_cons_of_pos (by simp [hp])]; simp only [List.length_cons]; omega
        | false => rw [List.filter_cons_of_neg (by simp [hp])]; simp only [List.length_cons]; omega

theorem last_not_marked (pre os : List (Member V)) (m : Member V) (hm : m.isField = true) (ho : ∀ o ∈ os, o.isField = false)
    (hp : ∃ o ∈ pre, o.isField = false) (written : List (Nat × V)) : marked true (pre ++ m :: os) written pre.length = false := by
  have hlt := filter_length_lt pre hp
  have hos : os.filter (·.isField) = [] := List.filter_eq_nil_iff.mpr fun o h => by simp [ho o h]
  rw [marked, List.any_eq_false]
  intro w _ h
  have h' : indexOf true 0 (pre ++ m :: os) w.1 = some pre.length := by simpa using h
  have := indexOf_imported_lt w.1 _ _ _ h'
  simp [List.filter_append, hm, hos] at this
  omega

/-- In a module that imports a struct with something before its last field, a value that is written for that field is lost: either the
expression is refused or the field holds its default. -/
theorem last_field_lost (pre os : List (Member V)) (m : Member V) (hm : m.isField = true) (ho : ∀ o ∈ os, o.isField = false)
    (hp : ∃ o ∈ pre, o.isField = false) (hn : ((pre ++ m :: os).map (·.name)).Nodup) (written : List (Nat × V)) :
    match check true false (pre ++ m :: os) written with
    | none => True
    | some inits => ∃ d, m.dflt = some d ∧ valueOf inits m.name = some d := by
  have hk := last_not_marked pre os m hm ho hp written
  have hnf : ∀ d, m.dflt = some d → ∀ l, fill false (marked true (pre ++ m :: os) written) 0 (pre ++ m :: os) = some l →
      valueOf l m.name = some d := by
    intro d hd
    have key : ∀ (pre' : List (Member V)) (i : Nat) (mark : Nat → Bool), mark (i + pre'.length) = false →
        ((pre' ++ m :: os).map (·.name)).Nodup →
        ∀ l, fill false mark i (pre' ++ m :: os) = some l → valueOf l m.name = some d := by
      intro pre'
      induction pre' with
      | nil =>
          intro i mark hk hn l h
          simp only [List.length_nil, Nat.add_zero] at hk
          simp only [List.nil_append, fill, hk, hm, Bool.not_true, Bool.or_self, Bool.false_eq_true, if_false, hd] at h
          obtain ⟨l', hl', rfl⟩ := Option.map_eq_some_iff.mp h
          have : l' = [] := by
            have : ∀ (os' : List (Member V)) (j : Nat), (∀ o ∈ os', o.isField = false) → fill false mark j os' = some [] := by
              intro os'
              induction os' with
              | nil => intro j _; rfl
              | cons o os' ih => intro j h; simp [fill, h o (by simp), ih (j + 1) (fun o' h' => h o' (by simp [h']))]
            rw [this os (i + 1) ho] at hl'
            simpa using hl'.symm
          simp [this, valueOf]
      | cons p pre' ih =>
          intro i mark hk hn l h
          have hk' : mark (i + 1 + pre'.length) = false := by
            rw [List.length_cons] at hk
            rwa [show i + 1 + pre'.length = i + (pre'.length + 1) by omega]
          simp only [List.cons_append, List.map_cons, List.nodup_cons] at hn
          have ih' := ih (i + 1) mark hk' hn.2
          simp only [List.cons_append, fill] at h
          by_cases hc : (mark i || !p.isField) = true
          · rw [if_pos hc] at h; exact ih' l h
          · rw [if_neg hc] at h
            cases hpd : p.dflt with
            | none => rw [hpd] at h; simp at h
            | some d' =>
                rw [hpd] at h
                obtain ⟨l', hl', rfl⟩ := Option.map_eq_some_iff.mp h
                simp [valueOf, ih' l' hl']
    exact key pre 0 _ (by simpa using hk) hn
  unfold check
  by_cases ha : (written.all fun w => (indexOf true 0 (pre ++ m :: os) w.1).isSome) = true
  · rw [if_pos ha]
    cases hf : fill false (marked true (pre ++ m :: os) written) 0 (pre ++ m :: os) with
    | none => trivial
    | some l =>
        simp only [Option.map_some]
        cases hd : m.dflt with
        | none =>
            rw [fill_last_none _ m os hm hd pre 0 (by simpa using hk)] at hf
            simp at hf
        | some d =>
            exact ⟨d, rfl, by rw [valueOf_append, hnf d hd l hf]; rfl⟩
  · rw [if_neg ha]; trivial

/-- A module that imports a struct gets every struct expression right exactly if the fields of the struct stand before its functions. -/
theorem imported_right_iff (S : List (Member V)) (hn : (S.map (·.name)).Nodup) {v w : V} (hvw : v ≠ w) :
    (∀ written, Right false S written (check true false S written)) ↔ FieldsFirst S := by
  constructor
  · intro h
    refine Classical.byContradiction fun hff => ?_
    obtain ⟨pre, os, m, rfl, hm, ho, hp⟩ := split_of_not_fieldsFirst S hff
    obtain ⟨u, hu⟩ : ∃ u : V, m.dflt ≠ some u := by
      by_cases hv : m.dflt = some v
      · exact ⟨w, by rw [hv]; simpa using hvw⟩
      · exact ⟨v, hv⟩
    let written : List (Nat × V) := ((pre ++ m :: os).filter (·.isField)).map fun f => (f.name, u)
    have hacc : Acceptable false (pre ++ m :: os) written := by
      constructor
      · intro x hx
        obtain ⟨f, hf, rfl⟩ := List.mem_map.mp hx
        exact ⟨f, (List.mem_filter.mp hf).1, by simpa using (List.mem_filter.mp hf).2, rfl⟩
      · refine .inr fun f hf hff _ => ?_
        exact List.mem_map.mpr ⟨(f.name, u), List.mem_map.mpr ⟨f, List.mem_filter.mpr ⟨hf, hff⟩, rfl⟩, rfl⟩
    have hval : ∀ (l : List (Member V)) (x : Nat), x ∈ l.map (·.name) → valueOf (l.map fun f => (f.name, u)) x = some u := by
      intro l x
      induction l with
      | nil => intro h; simp at h
      | cons f l ih =>
          intro hx
          simp only [List.map_cons, valueOf]
          by_cases hl : x ∈ l.map (·.name)
          · rw [ih hl]; rfl
          · have hfx : f.name = x := by
              rcases List.mem_cons.mp hx with e | e
              · exact e.symm
              · exact absurd e hl
            cases hv : valueOf (l.map fun f => (f.name, u)) x with
            | none => simp [hfx]
            | some y =>
                exfalso
                have : valueOf (l.map fun f => (f.name, u)) x = none := (valueOf_eq_none _ _).mpr (by simpa using hl)
                rw [this] at hv; simp at hv
    have h1 := h written
    have h2 := last_field_lost pre os m hm ho hp hn written
    cases hc : check true false (pre ++ m :: os) written with
    | none => rw [hc] at h1; exact h1 hacc
    | some inits =>
        rw [hc] at h1 h2
        obtain ⟨d, hd, hv⟩ := h2
        have := h1.2 m (by simp) hm
        rw [hv, hval _ m.name (List.mem_map.mpr ⟨m, List.mem_filter.mpr ⟨by simp, hm⟩, rfl⟩)] at this
        simp at this
        exact hu (this ▸ hd)
  · rintro ⟨fs, os, rfl, hf, ho⟩ written
    refine right_of_faithful true false _ written hn ?_
    have e : ∀ x, indexOf true 0 (fs ++ os) x = indexOf false 0 (fs ++ os) x := fun x => indexOf_fieldsFirst os ho x fs 0 hf
    intro p m hp hfm
    have := faithful_own (fs ++ os) written hn p m hp hfm
    simpa only [marked, e] using this

/-! ## Cases -/

/-- `struct S { a: i32; func f(); b: i32 = 5 }` -/
def demo : List (Member Nat) := [⟨0, true, none⟩, ⟨1, false, none⟩, ⟨2, true, some 5⟩]

example : (demo.map (·.name)).Nodup := by decide
/-- `S{a: 1, b: 7}` in its own module and in another one. -/
example : (check false false demo [(0, 1), (2, 7)]).map (fun l => (valueOf l 0, valueOf l 2)) = some (some 1, some 7) := by decide
example : (check true false demo [(0, 1), (2, 7)]).map (fun l => (valueOf l 0, valueOf l 2)) = some (some 1, some 5) := by decide
example : check false false demo [(2, 7)] = none := by decide
/-- Without the default the expression is refused although nothing is missing. -/
example : check true false [⟨0, true, none⟩, ⟨1, false, none⟩, ⟨2, true, none⟩] [(0, 1), (2, 7)] = none := by decide
/-- A default that is not used: `b` is taken for `a`, which is left zero. -/
example : (check true false [⟨1, false, none⟩, ⟨0, true, some 3⟩, ⟨2, true, some 5⟩] [(2, 7)]).map (fun l => (valueOf l 0, valueOf l 2)) =
    some (none, some 5) := by decide

end Verif.StructExpr
