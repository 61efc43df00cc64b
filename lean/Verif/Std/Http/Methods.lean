import Verif.Std.Http.Route
/-! # Method names (C107) -/
namespace Verif.Http

/-! ## Specification -/

/-- The methods and their names. -/
def methodNames : List (Method × String) :=
  [(.delete, "DELETE"), (.get, "GET"), (.head, "HEAD"), (.post, "POST"), (.put, "PUT"), (.connect, "CONNECT"), (.options, "OPTIONS"),
   (.trace, "TRACE")]

/-- ASCII letters without regard to case. -/
def capital (c : Nat) : Nat := if 97 ≤ c ∧ c ≤ 122 then c - 32 else c

/-- The text begins with the name, whatever the case of its letters. -/
def BeginsWith (d : List Nat) (name : String) : Prop := ∃ a b, d = a ++ b ∧ a.map capital = str name

/-! ## Proofs -/

theorem upper_capital : upper = capital := rfl

theorem caseEq_iff : ∀ (a b : List Nat), a.length = b.length → 0 ∉ b → (caseEq a b = true ↔ a.map upper = b.map upper)
  | [], [], _, _ => by simp [caseEq]
  | x :: xs, y :: ys, hl, h0 => by
    simp only [List.mem_cons, not_or] at h0
    have ih := caseEq_iff xs ys (by simpa using hl) h0.2
    rw [caseEq]
    by_cases h : upper x = upper y
    · have hx : x ≠ 0 := by
        rintro rfl
        unfold upper at h
        simp at h
        split at h <;> omega
      simp [h, hx, ih]
    · simp [h]

theorem begins_take (d : List Nat) (name : String) :
    BeginsWith d name ↔ (str name).length ≤ d.length ∧ (d.take (str name).length).map upper = str name := by
  rw [upper_capital]
  constructor
  · rintro ⟨a, b, rfl, h⟩
    have hl : a.length = (str name).length := by rw [← h, List.length_map]
    refine ⟨by rw [List.length_append]; omega, ?_⟩
    rw [← hl, List.take_left, h]
  · rintro ⟨_, h⟩
    exact ⟨_, _, (List.take_append_drop (str name).length d).symm, h⟩

theorem names_upper : ∀ p ∈ methodNames, (str p.2).map upper = str p.2 ∧ 0 ∉ str p.2 ∧ 2 ≤ (str p.2).length := by decide

/-- The check of a candidate. -/
theorem check_iff (p : Method × String) (hp : p ∈ methodNames) (d : List Nat) :
    (if d.length < (str p.2).length then Out.ok (Method.unknown, 0)
     else if equalsCase (d.take (str p.2).length) (str p.2) then .ok (p.1, (str p.2).length) else .ok (.unknown, 0)) =
    (if ((str p.2).isPrefixOf (d.map upper)) = true then .ok (p.1, (str p.2).length) else .ok (.unknown, 0)) := by
  obtain ⟨h1, h2, _⟩ := names_upper p hp
  by_cases hl : d.length < (str p.2).length
  · rw [if_pos hl, if_neg]
    intro h
    have := (List.isPrefixOf_iff_prefix.1 h).length_le
    rw [List.length_map] at this
    omega
  · have hlen : (d.take (str p.2).length).length = (str p.2).length := by rw [List.length_take]; omega
    rw [if_neg hl]
    have : equalsCase (d.take (str p.2).length) (str p.2) = (str p.2).isPrefixOf (d.map upper) := by
      rw [Bool.eq_iff_iff, equalsCase, Bool.and_eq_true, decide_eq_true_eq, caseEq_iff _ _ hlen h2, h1, List.isPrefixOf_iff_prefix]
      constructor
      · rintro ⟨_, h⟩
        rw [← h, List.map_take]
        exact List.take_prefix _ _
      · intro h
        refine ⟨hlen, ?_⟩
        rw [List.map_take]
        exact (List.prefix_iff_eq_take.1 h).symm
    rw [this]

theorem begins_iff (d : List Nat) (name : String) : BeginsWith d name ↔ (str name).isPrefixOf (d.map upper) = true := by
  rw [begins_take, List.isPrefixOf_iff_prefix]
  constructor
  · rintro ⟨_, h⟩
    rw [← h, List.map_take]
    exact List.take_prefix _ _
  · intro h
    have hl := h.length_le
    rw [List.length_map] at hl
    refine ⟨hl, ?_⟩
    rw [List.map_take]
    exact (List.prefix_iff_eq_take.1 h).symm

/-- The candidate is a method with its name. -/
theorem maybe_known (d : List Nat) : maybeMethod d = .ok none ∨ ∃ p ∈ methodNames, maybeMethod d = .ok (some (p.1, str p.2)) := by
  unfold maybeMethod
  cases d with
  | nil => left; decide
  | cons c cs =>
    have h0 : rd (c :: cs) 0 = .ok c := rfl
    have h1 : ∃ y, rd (c :: cs) 1 = .ok y := by cases cs <;> exact ⟨_, rfl⟩
    obtain ⟨y, h1⟩ := h1
    simp only [h0, h1, Out.bind_ok]
    split
    · exact Or.inr ⟨(.delete, "DELETE"), by decide, rfl⟩
    split
    · exact Or.inr ⟨(.get, "GET"), by decide, rfl⟩
    split
    · exact Or.inr ⟨(.head, "HEAD"), by decide, rfl⟩
    split
    · split
      · exact Or.inr ⟨(.post, "POST"), by decide, rfl⟩
      · exact Or.inr ⟨(.put, "PUT"), by decide, rfl⟩
    split
    · exact Or.inr ⟨(.connect, "CONNECT"), by decide, rfl⟩
    split
    · exact Or.inr ⟨(.options, "OPTIONS"), by decide, rfl⟩
    split
    · exact Or.inr ⟨(.trace, "TRACE"), by decide, rfl⟩
    · exact Or.inl rfl

/-- A method whose name begins the text is the candidate. -/
theorem maybe_found (d : List Nat) (p : Method × String) (hp : p ∈ methodNames) (h : (str p.2).isPrefixOf (d.map upper) = true) :
    maybeMethod d = .ok (some (p.1, str p.2)) := by
  have h2 := (names_upper p hp).2.2
  have hl := (List.isPrefixOf_iff_prefix.1 h).length_le
  rw [List.length_map] at hl
  have hl2 : 2 ≤ d.length := by omega
  have ht : (d.map upper).take 2 = (str p.2).take 2 := by
    obtain ⟨t, ht⟩ := List.isPrefixOf_iff_prefix.1 h
    rw [← ht, List.take_append_of_le_length h2]
  clear h hl h2
  match d, hl2 with
  | c :: e :: cs, _ =>
    have h0 : rd (c :: e :: cs) 0 = .ok c := rfl
    have h1 : rd (c :: e :: cs) 1 = .ok e := rfl
    simp only [methodNames, List.mem_cons, List.not_mem_nil, or_false] at hp
    unfold maybeMethod
    simp only [h0, h1, Out.bind_ok]
    have ht' : [upper c, upper e] = (str p.2).take 2 := ht
    rcases hp with rfl | rfl | rfl | rfl | rfl | rfl | rfl | rfl
    · have : [upper c, upper e] = [68, 69] := ht'
      simp only [List.cons.injEq] at this; simp [this]
    · have : [upper c, upper e] = [71, 69] := ht'
      simp only [List.cons.injEq] at this; simp [this]
    · have : [upper c, upper e] = [72, 69] := ht'
      simp only [List.cons.injEq] at this; simp [this]
    · have : [upper c, upper e] = [80, 79] := ht'
      simp only [List.cons.injEq] at this; simp [this]
    · have : [upper c, upper e] = [80, 85] := ht'
      simp only [List.cons.injEq] at this; simp [this]
    · have : [upper c, upper e] = [67, 79] := ht'
      simp only [List.cons.injEq] at this; simp [this]
    · have : [upper c, upper e] = [79, 80] := ht'
      simp only [List.cons.injEq] at this; simp [this]
    · have : [upper c, upper e] = [84, 82] := ht'
      simp only [List.cons.injEq] at this; simp [this]

/-- **C107.** Reading a method from a text never fails: it gives the method whose name begins the text, in whatever
case, with the length of the name, or says that there is none. -/
theorem method_exact (d : List Nat) : ∃ r, methodFromString d = .ok r ∧
    (∀ m name, (m, name) ∈ methodNames → BeginsWith d name → r = (m, name.length)) ∧
    ((∀ p ∈ methodNames, ¬ BeginsWith d p.2) → r = (.unknown, 0)) := by
  have hlen : ∀ p ∈ methodNames, (str p.2).length = p.2.length := by decide
  have hsame : ∀ p ∈ methodNames, ∀ q ∈ methodNames, p.1 = q.1 → p = q := by decide
  rcases maybe_known d with h | ⟨p, hp, h⟩
  · refine ⟨(.unknown, 0), by rw [methodFromString, h]; rfl, ?_, fun _ => rfl⟩
    intro m name hm hb
    have := maybe_found d (m, name) hm ((begins_iff d name).1 hb)
    rw [h] at this
    cases this
  · have e : methodFromString d = (if ((str p.2).isPrefixOf (d.map upper)) = true then .ok (p.1, (str p.2).length) else .ok (.unknown, 0)) := by
      rw [methodFromString, h]
      exact check_iff p hp d
    by_cases hb : (str p.2).isPrefixOf (d.map upper) = true
    · rw [if_pos hb] at e
      refine ⟨_, e, ?_, fun hn => absurd ((begins_iff d p.2).2 hb) (hn p hp)⟩
      intro m name hm hb'
      have := maybe_found d (m, name) hm ((begins_iff d name).1 hb')
      rw [h] at this
      simp only [Out.ok.injEq, Option.some.injEq, Prod.mk.injEq] at this
      have := hsame p hp (m, name) hm this.1
      subst this
      rw [hlen _ hp]
    · rw [if_neg hb] at e
      refine ⟨_, e, ?_, fun _ => rfl⟩
      intro m name hm hb'
      have := maybe_found d (m, name) hm ((begins_iff d name).1 hb')
      rw [h] at this
      simp only [Out.ok.injEq, Option.some.injEq, Prod.mk.injEq] at this
      have := hsame p hp (m, name) hm this.1
      subst this
      exact absurd ((begins_iff d name).1 hb') hb

/-- The name that is printed for a method is read back as the method. -/
theorem method_reads_back (m : Method) (h : m ≠ .unknown) (rest : List Nat) :
    methodFromString (methodName m ++ rest) = .ok (m, (methodName m).length) := by
  obtain ⟨r, h1, h2, _⟩ := method_exact (methodName m ++ rest)
  rw [h1]
  congr 1
  cases m with
  | unknown => exact absurd rfl h
  | delete => exact h2 .delete "DELETE" (by decide) ⟨_, _, rfl, by decide⟩
  | get => exact h2 .get "GET" (by decide) ⟨_, _, rfl, by decide⟩
  | head => exact h2 .head "HEAD" (by decide) ⟨_, _, rfl, by decide⟩
  | post => exact h2 .post "POST" (by decide) ⟨_, _, rfl, by decide⟩
  | put => exact h2 .put "PUT" (by decide) ⟨_, _, rfl, by decide⟩
  | connect => exact h2 .connect "CONNECT" (by decide) ⟨_, _, rfl, by decide⟩
  | options => exact h2 .options "OPTIONS" (by decide) ⟨_, _, rfl, by decide⟩
  | trace => exact h2 .trace "TRACE" (by decide) ⟨_, _, rfl, by decide⟩

example : methodFromString (str "post /x") = .ok (.post, 4) ∧ methodFromString (str "PUSH") = .ok (.unknown, 0) ∧
    methodFromString (str "p") = .ok (.unknown, 0) ∧ methodFromString [] = .ok (.unknown, 0) := by decide
example : BeginsWith (str "post /x") "POST" := ⟨str "post", str " /x", by decide, by decide⟩

end Verif.Http
