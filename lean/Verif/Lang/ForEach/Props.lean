import Verif.Lang.ForEach.Model

/-!
# What a loop visits, and which operators a class inherits
-/

namespace Verif.ForEach

/-! ## Specification -/

/-- Run the body for each of the given indices, with the element as it is then, until it breaks or
returns. -/
def visit {α σ : Type} (read : σ → Nat → α) (body : Body α σ) : List Nat → σ → Bool × σ
  | [], s => (false, s)
  | i :: is, s =>
      match body (read s i) i s with
      | (.next, _, s') => visit read body is s'
      | (.brk, _, s') => (false, s')
      | (.ret, _, s') => (true, s')

/-- The declaration nearest to the class. -/
def IsNearest (c : Chain) (f : Nat) : Prop :=
  ∃ before after, c = before ++ some f :: after ∧ ∀ d ∈ before, d = none

/-! ## Loops -/

theorem run_from {α σ : Type} (len : Nat) (read : σ → Nat → α) (body : Body α σ)
    (hb : ∀ x i s, (body x i s).2.1 = i) (k : Nat) :
    ∀ (i fuel : Nat) (s : σ), i + k = len → k < fuel →
      run len read body fuel i s = some (visit read body (List.range' i k) s) := by
  induction k with
  | zero =>
    intro i fuel s h hf
    obtain ⟨f, rfl⟩ : ∃ f, fuel = f + 1 := ⟨fuel - 1, by omega⟩
    have : ¬ (0 ≤ (i : Int) ∧ (i : Int) < len) := by omega
    rw [run, if_neg this]
    rfl
  | succ k ih =>
    intro i fuel s h hf
    obtain ⟨f, rfl⟩ : ∃ f, fuel = f + 1 := ⟨fuel - 1, by omega⟩
    have h1 : 0 ≤ (i : Int) ∧ (i : Int) < len := by omega
    rw [run, if_pos h1, List.range'_succ, visit, Int.toNat_natCast]
    have hj := hb (read s i) i s
    rcases hr : body (read s i) i s with ⟨c, j, s'⟩
    rw [hr] at hj
    simp only at hj
    subst hj
    cases c with
    | next =>
      have := ih (i + 1) f s' (by omega) (by omega)
      simpa using this
    | brk => rfl
    | ret => rfl

/-- **C198, arrays.**  A loop whose body does not assign the index ends and visits the elements in
order, each once, with its index, until the body breaks or returns; the body may change anything
else, the array included. -/
theorem array_loop_visits_all_partial {α σ : Type} (len : Nat) (read : σ → Nat → α) (body : Body α σ)
    (hb : ∀ x i s, (body x i s).2.1 = i) (s : σ) :
    ∃ fuel, ∀ f, fuel ≤ f → runArray len read body f s = some (visit read body (List.range len) s) := by
  refine ⟨len + 1, fun f hf => ?_⟩
  rw [List.range_eq_range']
  exact run_from len read body hb len 0 f s (by omega) (by omega)

/-- A body that notes what it is given and does nothing else. -/
def noting {α : Type} : Body α (List (α × Int)) := fun x i s => (.next, i, s ++ [(x, i)])

/-- The same, seen by a body that notes the elements: it notes the list of them, with their
indices. -/
theorem array_loop_notes_all {α : Type} (xs : List α) (d : α) :
    ∃ fuel, ∀ f, fuel ≤ f →
      runArray xs.length (fun _ i => xs.getD i d) noting f [] =
        some (false, xs.zipIdx.map fun p => (p.1, (p.2 : Int))) := by
  obtain ⟨fuel, h⟩ := array_loop_visits_all_partial xs.length
    (fun (_ : List (α × Int)) i => xs.getD i d) noting (fun _ _ _ => rfl) []
  refine ⟨fuel, fun f hf => ?_⟩
  rw [h f hf]
  have key : ∀ (k i : Nat) (acc : List (α × Int)), i + k = xs.length →
      visit (fun (_ : List (α × Int)) i => xs.getD i d) noting (List.range' i k) acc =
        (false, acc ++ ((xs.drop i).zipIdx i).map fun p => (p.1, (p.2 : Int))) := by
    intro k
    induction k with
    | zero =>
      intro i acc hk
      simp [visit, List.drop_of_length_le (show xs.length ≤ i by omega)]
    | succ k ih =>
      intro i acc hk
      have hi : i < xs.length := by omega
      rw [List.range'_succ, visit]
      show visit _ noting (List.range' (i + 1) k) (acc ++ [(xs.getD i d, (i : Int))]) = _
      have hd : xs.drop i = xs[i] :: xs.drop (i + 1) := List.drop_eq_getElem_cons hi
      rw [ih (i + 1) _ (by omega), hd, List.zipIdx_cons]
      simp only [List.map_cons, List.append_assoc, List.cons_append, List.nil_append,
        List.getD_eq_getElem?_getD, List.getElem?_eq_getElem hi, Option.getD_some]
  rw [List.range_eq_range', key xs.length 0 [] (by omega)]
  simp

/-- **Negation of C198 for strings.**  A loop over a string, whatever the string and whatever the
body, does nothing. -/
theorem string_loop_visits_nothing {σ : Type} (str : List Nat) (body : Body Nat σ) (fuel : Nat)
    (s : σ) : runString str body (fuel + 1) s = some (false, s) := by
  unfold runString run stringTypeArrayLen
  rw [if_neg (by omega)]

/-- So it differs from a loop over the characters for every string that is not empty. -/
theorem string_loop_differs (str : List Nat) (h : str ≠ []) :
    ∀ fuel, runString str noting (fuel + 1) [] ≠
      some (visit (fun _ i => str.getD i 0) noting (List.range str.length) []) := by
  intro fuel
  rw [string_loop_visits_nothing]
  obtain ⟨f1, h1⟩ := array_loop_notes_all str 0
  obtain ⟨f2, h2⟩ := array_loop_visits_all_partial str.length
    (fun (_ : List (Nat × Int)) i => str.getD i 0) noting (fun _ _ _ => rfl) []
  have e1 := h1 (f1 + f2) (by omega)
  rw [h2 (f1 + f2) (by omega)] at e1
  rw [e1]
  cases str with
  | nil => exact absurd rfl h
  | cons c cs => simp [List.zipIdx_cons]

/-- **C198 at compile time.**  A `#for` over a string literal is written out for each of its
characters. -/
theorem comptime_string_visits_all (str : List Nat) (h : ∀ c ∈ str, c ≠ 0) :
    comptimeString str = str := by
  have ht : str.takeWhile (· ≠ 0) = str := by
    induction str with
    | nil => rfl
    | cons c cs ih =>
      have hc := h c (by simp)
      rw [List.takeWhile_cons, ih (fun d hd => h d (by simp [hd]))]
      simp [hc]
  unfold comptimeString
  rw [ht]
  apply List.ext_getElem?
  intro i
  by_cases hi : i < str.length
  · simp [hi]
  · simp [hi]

/-- A body that assigns its index can keep the loop from ending: taking one off it does, for every
array that has elements. -/
theorem assigned_index_never_ends {α σ : Type} (len : Nat) (h : 0 < len) (read : σ → Nat → α)
    (s : σ) (fuel : Nat) : runArray len read (fun _ i s => (.next, i - 1, s)) fuel s = none := by
  unfold runArray
  induction fuel with
  | zero => rfl
  | succ f ih =>
    rw [run, if_pos (by omega)]
    exact ih

/-! ## Operators -/

theorem upChain_iff (c : Chain) (f : Nat) : upChain c = some f ↔ IsNearest c f := by
  induction c with
  | nil =>
    constructor
    · intro h; cases h
    · rintro ⟨b, a, h, _⟩; simp at h
  | cons d c ih =>
    cases d with
    | some g =>
      constructor
      · intro h
        cases h
        exact ⟨[], c, rfl, by simp⟩
      · rintro ⟨b, a, h, hb⟩
        cases b with
        | nil => simp at h; simp [upChain, h.1]
        | cons x b =>
          simp at h
          have := hb x (by simp)
          rw [← h.1] at this
          cases this
    | none =>
      rw [upChain, ih]
      constructor
      · rintro ⟨b, a, h, hb⟩
        exact ⟨none :: b, a, by simp [h], by simpa using hb⟩
      · rintro ⟨b, a, h, hb⟩
        cases b with
        | nil => simp at h
        | cons x b =>
          simp at h
          exact ⟨b, a, h.2, fun d hd => hb d (by simp [hd])⟩

theorem findCustomRange_append (c : Chain) (d : Option Nat) : findCustomRange (c ++ [d]) = d := by
  induction c with
  | nil => rfl
  | cons x c ih =>
    cases c with
    | nil => rfl
    | cons y c => exact ih

/-- **C199.**  Binary operators and conditions use the declaration nearest to the class of the
object. -/
theorem inherited_operators_partial (op : Op) (h : op = .binary ∨ op = .truthy) (c : Chain) (f : Nat) :
    lookup op c = some f ↔ IsNearest c f := by
  rcases h with rfl | rfl
  · exact upChain_iff c f
  · exact upChain_iff c f

/-- **C199, classes without a base**: every operator is the one declared. -/
theorem own_operators (op : Op) (d : Option Nat) : lookup op [d] = d := by
  cases op <;> cases d <;> rfl

/-- **Negation of C199.**  `[]`, `[]=`, calls, `await` and `*` are not inherited: a class that does
not declare them does not have them, whatever its bases declare. -/
theorem operators_not_inherited (op : Op)
    (h : op = .index ∨ op = .indexAssign ∨ op = .call ∨ op = .await ∨ op = .deref) (c : Chain) :
    lookup op (none :: c) = none := by
  rcases h with rfl | rfl | rfl | rfl | rfl <;> rfl

/-- **Negation of C199 for loops.**  Only what the outermost base declares counts: a class with a base
that declares `..` itself is enumerated as its outermost base says, and not at all if that says
nothing. -/
theorem range_of_outermost_base (c : Chain) (d : Option Nat) : lookup .range (c ++ [d]) = d :=
  findCustomRange_append c d

/-- Exactly when a loop does what C199 says, for a class that declares `..`. -/
theorem range_own_iff (f : Nat) (c : Chain) :
    lookup .range (some f :: c) = some f ↔ c = [] ∨ c.getLast? = some (some f) := by
  cases hc : c.getLast? with
  | none =>
    rw [List.getLast?_eq_none_iff] at hc
    subst hc
    simp [lookup, findCustomRange]
  | some d =>
    obtain ⟨c', rfl⟩ : ∃ c', c = c' ++ [d] := List.getLast?_eq_some_iff.1 hc
    have : lookup .range (some f :: (c' ++ [d])) = d := by
      rw [← List.cons_append]; exact findCustomRange_append _ _
    rw [this]
    simp

/-! ## Non-vacuity -/

example : ∀ x i s, ((noting : Body Nat _) x i s).2.1 = i := fun _ _ _ => rfl

/-- A body that changes the array under the loop, skips one element and stops at another. -/
private def changing : Body Nat (List Nat) := fun x i s =>
  (if x = 9 then .brk else .next, i, s.set (i.toNat + 1) (x + 1))

example : (∀ x i s, (changing x i s).2.1 = i) ∧
    runArray 4 (fun (s : List Nat) i => s.getD i 0) changing 5 [7, 0, 0, 0] = some (false, [7, 8, 9, 10]) := by
  constructor
  · intro x i s; rfl
  · decide

example : runString [97, 98] noting 3 [] = some (false, []) := by decide

example : ([97, 98] : List Nat) ≠ [] ∧ ∀ c ∈ ([97, 98] : List Nat), c ≠ 0 := by decide

example : IsNearest [none, some 4, some 5] 4 := ⟨[none], [some 5], rfl, by simp⟩

/-- The class declares `..`, its base does not. -/
example : lookup .range [some 1, none] = none ∧ lookup .binary [some 1, none] = some 1 := by decide

end Verif.ForEach
