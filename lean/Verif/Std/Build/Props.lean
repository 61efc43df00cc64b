import Verif.Std.Build.Model
/-!
# Builds: properties
-/
namespace Verif.Build

/-- The values that a history gives to a key, in order. -/
def values (h : List (Nat × Nat)) (k : Nat) : List Nat := (h.filter (fun e => e.1 == k)).map (·.2)

theorem values_cons (e : Nat × Nat) (h : List (Nat × Nat)) (k : Nat) :
    values (e :: h) k = if e.1 = k then e.2 :: values h k else values h k := by
  unfold values
  by_cases he : e.1 = k <;> simp [he]

theorem get_append (m : Map) (k v j : Nat) : get (m ++ [(k, v)]) j = (get m j).or (if k = j then some v else none) := by
  unfold get
  rw [List.find?_append]
  cases m.find? (fun e => e.1 == j) <;> by_cases h : k = j <;> simp [h]

theorem get_cons (e : Nat × Nat) (m : Map) (j : Nat) : get (e :: m) j = if e.1 = j then some e.2 else get m j := by
  unfold get
  rw [List.find?_cons]
  by_cases h : e.1 = j
  · simp [h]
  · simp [h, beq_eq_false_iff_ne.2 h]

theorem get_replace (k v j : Nat) : ∀ m : Map,
    get (m.map (fun e => if e.1 == k then (k, v) else e)) j = if k = j then (get m j).map (fun _ => v) else get m j
  | [] => by simp [get]
  | e :: m => by
    rw [List.map_cons, get_cons, get_cons, get_replace k v j m]
    by_cases h1 : e.1 = k
    · subst h1
      by_cases h2 : e.1 = j <;> simp [h2]
    · by_cases h2 : k = j
      · subst h2; simp [h1]
      · simp [h1, h2]

theorem get_put (m : Map) (k v j : Nat) : get (put m k v).2 j = if k = j then some v else get m j := by
  unfold put
  cases hg : get m k with
  | some w =>
    simp only [Option.isSome_some, if_true]
    rw [get_replace]
    by_cases h : k = j
    · subst h; simp [hg]
    · simp [h]
  | none =>
    simp only [Option.isSome_none, Bool.false_eq_true, if_false]
    rw [get_append]
    by_cases h : k = j
    · subst h; simp [hg]
    · simp [h]

theorem setAll_get : ∀ (h : List (Nat × Nat)) (m : Map) (k : Nat), get (setAll h m).2 k = (values h k).getLast?.or (get m k)
  | [], m, k => by simp [setAll, values]
  | (j, v) :: h, m, k => by
    have hs : (setAll ((j, v) :: h) m).2 = (setAll h (put m j v).2).2 := rfl
    rw [hs, setAll_get h, get_put, values_cons]
    by_cases he : j = k
    · simp only [he, if_true]
      cases hv : values h k with
      | nil => simp
      | cons x xs => simp [List.getLast?_eq_some_getLast]
    · simp only [he, if_false]

/-- **`option` gives the value that was set last**, and raises exactly for names that were never set. -/
theorem option_last (h : List (Nat × Nat)) (k : Nat) : option (setAll h []).2 k = (values h k).getLast? := by
  unfold option
  rw [setAll_get]
  cases (values h k).getLast? <;> simp [get]

/-- **Setting an option raises exactly if it was set before**, for every history. -/
theorem set_raises_iff (h : List (Nat × Nat)) (k v : Nat) : (setOption (setAll h []).2 k v).1 = true ↔ ∃ e ∈ h, e.1 = k := by
  have hg := option_last h k
  unfold option at hg
  have hv : (values h k).getLast?.isSome ↔ ∃ e ∈ h, e.1 = k := by
    rw [← Option.not_isNone, Bool.not_eq_true', ← Bool.not_eq_true, Option.isNone_iff_eq_none, List.getLast?_eq_none_iff]
    unfold values
    simp [List.filter_eq_nil_iff]
  rw [← hv, ← hg]
  unfold setOption put
  cases get (setAll h []).2 k <;> simp

/-- **The value of an option that was set before is lost although the call raises.** -/
theorem set_replaces (h : List (Nat × Nat)) (k v : Nat) (hs : ∃ e ∈ h, e.1 = k) :
    (setOption (setAll h []).2 k v).1 = true ∧ option (setOption (setAll h []).2 k v).2 k = some v := by
  refine ⟨(set_raises_iff h k v).2 hs, ?_⟩
  show get (put _ k v).2 k = some v
  rw [get_put]
  simp

/-- **A call leaves the options as they were exactly if it sets the value that the option has**, whether it raises or not. -/
theorem set_keeps_iff (h : List (Nat × Nat)) (k v : Nat) :
    (∀ j, option (setOption (setAll h []).2 k v).2 j = option (setAll h []).2 j) ↔ (values h k).getLast? = some v := by
  have hp : ∀ j, option (setOption (setAll h []).2 k v).2 j = if k = j then some v else option (setAll h []).2 j :=
    fun j => get_put _ k v j
  constructor
  · intro hh
    have := hh k
    rw [hp, option_last] at this
    simpa using this.symm
  · intro hl j
    rw [hp]
    by_cases hj : k = j
    · subst hj; rw [option_last, hl]; simp
    · simp [hj]

/-- **A new option keeps all others**: setting what was not set before does not raise and changes nothing else. -/
theorem set_new_partial (h : List (Nat × Nat)) (k v : Nat) (hs : ∀ e ∈ h, e.1 ≠ k) :
    (setOption (setAll h []).2 k v).1 = false ∧
      ∀ j, option (setOption (setAll h []).2 k v).2 j = if j = k then some v else option (setAll h []).2 j := by
  constructor
  · rw [← Bool.not_eq_true]
    intro hr
    obtain ⟨e, h1, h2⟩ := (set_raises_iff h k v).1 hr
    exact hs e h1 h2
  · intro j
    have := get_put (setAll h []).2 k v j
    by_cases hj : j = k
    · subst hj; simpa [option, setOption] using this
    · simpa [option, setOption, hj, Ne.symm hj] using this

/-! ## Tasks -/

theorem get_add (m : Map) (k v j : Nat) : get (add m k v).2 j = (get m j).or (if k = j then some v else none) := by
  unfold add
  cases hg : get m k with
  | some w =>
    simp only [Option.isSome_some, if_true]
    by_cases h : k = j
    · subst h; simp [hg]
    · simp [h]
  | none =>
    simp only [Option.isSome_none, Bool.false_eq_true, if_false]
    rw [get_put]
    by_cases h : k = j
    · subst h; simp [hg]
    · simp [h]

theorem addAll_get : ∀ (h : List (Nat × Nat)) (m : Map) (k : Nat), get (addAll h m).2 k = (get m k).or (values h k).head?
  | [], m, k => by simp [addAll, values]
  | (j, v) :: h, m, k => by
    have hs : (addAll ((j, v) :: h) m).2 = (addAll h (add m j v).2).2 := rfl
    rw [hs, addAll_get h, get_add, values_cons]
    by_cases he : j = k
    · simp only [he, if_true]
      cases get m k <;> simp
    · simp [he]

/-- **The task of a name is the first that was added.** -/
theorem task_first (h : List (Nat × Nat)) (k : Nat) : get (addAll h []).2 k = (values h k).head? := by
  rw [addAll_get]
  simp [get]

/-- **Adding a task raises exactly if there is one with its name, and then changes nothing.** -/
theorem add_raises_iff (h : List (Nat × Nat)) (k v : Nat) :
    ((add (addAll h []).2 k v).1 = true ↔ ∃ e ∈ h, e.1 = k) ∧
      ((add (addAll h []).2 k v).1 = true → (add (addAll h []).2 k v).2 = (addAll h []).2) := by
  have hg := task_first h k
  have hv : (values h k).head?.isSome ↔ ∃ e ∈ h, e.1 = k := by
    rw [List.isSome_head?]
    unfold values
    simp [List.filter_eq_nil_iff]
  rw [← hv, ← hg]
  unfold add
  cases get (addAll h []).2 k <;> simp

theorem put_new_keys (m : Map) (k v : Nat) (h : get m k = none) : (put m k v).2.map (·.1) = m.map (·.1) ++ [k] := by
  simp [put, h]

theorem get_none (m : Map) (k : Nat) : get m k = none ↔ k ∉ m.map (·.1) := by
  unfold get
  rw [Option.map_eq_none_iff, List.find?_eq_none, List.mem_map]
  constructor
  · rintro h ⟨e, he, hk⟩; exact h e he (by simp [hk])
  · intro h e he hk; exact h ⟨e, he, by simpa using hk⟩

theorem addAll_nodup : ∀ (h : List (Nat × Nat)) (m : Map), (m.map (·.1)).Nodup → ((addAll h m).2.map (·.1)).Nodup
  | [], _, hm => hm
  | (k, v) :: h, m, hm => by
    refine addAll_nodup h (add m k v).2 ?_
    unfold add
    cases hg : get m k with
    | some w => simpa using hm
    | none =>
      simp only [Option.isSome_none, Bool.false_eq_true, if_false]
      rw [put_new_keys m k v hg, List.nodup_append]
      refine ⟨hm, by simp, ?_⟩
      intro a ha b hb he
      rw [List.mem_singleton] at hb
      exact (get_none m k).1 hg (hb ▸ he ▸ ha)

theorem mem_get {m : Map} (hm : (m.map (·.1)).Nodup) (k t : Nat) : (k, t) ∈ m ↔ get m k = some t := by
  induction m with
  | nil => simp [get]
  | cons e m ih =>
    rw [List.map_cons, List.nodup_cons] at hm
    have ih := ih hm.2
    unfold get at ih ⊢
    rw [List.find?_cons]
    by_cases he : e.1 = k
    · simp only [he, beq_self_eq_true, Option.map_some, Option.some.injEq, List.mem_cons]
      constructor
      · rintro (h | h)
        · rw [← h]
        · exact absurd (List.mem_map_of_mem (f := (·.1)) h) (he ▸ hm.1)
      · rintro rfl; left; rw [← he]
    · rw [beq_eq_false_iff_ne.2 he]
      simp only [List.mem_cons]
      rw [← ih]
      constructor
      · rintro (h | h)
        · exact absurd (by rw [← h]) he
        · exact h
      · exact .inr

theorem run_calm (raises : Nat → Bool) : ∀ m : Map, (∀ e ∈ m, raises e.2 = false) → run raises m = (m.map (·.2), false)
  | [], _ => rfl
  | e :: m, h => by
    rw [run]
    simp only [h e (List.mem_cons_self ..), Bool.false_eq_true, if_false]
    rw [run_calm raises m (fun e he => h e (List.mem_cons_of_mem _ he))]
    rfl

/-- **Running a build calls every task exactly once**: in whatever order the map is visited, the tasks that were called are those of
the names, one for each; as long as none raises. -/
theorem run_right_partial (h : List (Nat × Nat)) (raises : Nat → Bool) (order : Map) (hp : order.Perm (addAll h []).2)
    (hr : ∀ e ∈ h, raises e.2 = false) :
    (run raises order).2 = false ∧
      ∃ names : List Nat, names.Nodup ∧ (∀ k, k ∈ names ↔ ∃ e ∈ h, e.1 = k) ∧
        (run raises order).1.map some = names.map (fun k => (values h k).head?) := by
  have hn0 : ((addAll h []).2.map (·.1)).Nodup := addAll_nodup h [] (by simp)
  have hn : (order.map (·.1)).Nodup := (hp.map (·.1)).nodup_iff.2 hn0
  have hmem : ∀ k t, (k, t) ∈ order ↔ (values h k).head? = some t := by
    intro k t
    rw [hp.mem_iff, mem_get hn0, task_first]
  have hval : ∀ k t, (values h k).head? = some t → (k, t) ∈ h := by
    intro k t ht
    have : t ∈ values h k := List.mem_of_mem_head? ht
    unfold values at this
    obtain ⟨e, he, rfl⟩ := List.mem_map.1 this
    rw [List.mem_filter, beq_iff_eq] at he
    rw [← he.2]
    exact he.1
  have hcalm := run_calm raises order (fun e he => hr e (hval e.1 e.2 ((hmem e.1 e.2).1 he)))
  rw [hcalm]
  refine ⟨rfl, order.map (·.1), hn, ?_, ?_⟩
  · intro k
    constructor
    · intro hk
      obtain ⟨e, he, rfl⟩ := List.mem_map.1 hk
      exact ⟨_, hval e.1 e.2 ((hmem e.1 e.2).1 he), rfl⟩
    · rintro ⟨e, he, rfl⟩
      have : e.2 ∈ values h e.1 := List.mem_map.2 ⟨e, List.mem_filter.2 ⟨he, by simp⟩, rfl⟩
      cases hv : (values h e.1).head? with
      | none => rw [List.head?_eq_none_iff] at hv; rw [hv] at this; simp at this
      | some t => exact List.mem_map.2 ⟨(e.1, t), (hmem e.1 t).2 hv, rfl⟩
  · rw [List.map_map, List.map_map]
    apply List.map_congr_left
    intro e he
    simp only [Function.comp_apply]
    exact ((hmem e.1 e.2).1 he).symm

/-- **A task that raises ends the build**: the tasks before it were called, it was, and none behind it. -/
theorem run_stops (raises : Nat → Bool) (k t : Nat) (after : Map) (ht : raises t = true) : ∀ before : Map,
    (∀ e ∈ before, raises e.2 = false) → run raises (before ++ (k, t) :: after) = (before.map (·.2) ++ [t], true)
  | [], _ => by simp [run, ht]
  | e :: m, h => by
    rw [List.cons_append, run]
    simp only [h e (List.mem_cons_self ..), Bool.false_eq_true, if_false]
    rw [run_stops raises k t after ht m (fun e he => h e (List.mem_cons_of_mem _ he))]
    rfl

/-! ## Options of a program -/

theorem bindOption_same : ∀ (fs : Map) (k v : Nat), bindOption fs k v = fs
  | [], _, _ => rfl
  | (n, x) :: fs, k, v => by
    rw [bindOption]
    by_cases h : k = n
    · simp [h, set]
    · simp [h, bindOption_same fs k v]

/-- **The options of a program never get the values that were set.** -/
theorem bind_never (m fs : Map) (k : Nat) : get (bindOptions m fs) k = get fs k := by
  induction m generalizing fs with
  | nil => rfl
  | cons e m ih => rw [bindOptions, ih, bindOption_same]

/-- **Binding is right exactly if the options already had the values that were set.** -/
theorem bind_iff (m fs : Map) :
    (∀ k x v, get fs k = some x → get m k = some v → get (bindOptions m fs) k = some v) ↔
      ∀ k x v, get fs k = some x → get m k = some v → x = v := by
  simp only [bind_never]
  constructor
  · intro h k x v hx hv
    have := h k x v hx hv
    rw [hx] at this
    exact Option.some.inj this
  · intro h k x v hx hv
    rw [hx, h k x v hx hv]

/-! ## Cases -/

/-- Option 1 is set to 10, 2 to 20 and 1 to 11: the last raises, and 11 is the value. -/
example : (setAll [(1, 10), (2, 20), (1, 11)] []).1 = [false, false, true] := by decide
example : option (setAll [(1, 10), (2, 20), (1, 11)] []).2 1 = some 11 := option_last [(1, 10), (2, 20), (1, 11)] 1
/-- Tasks: the first stays. -/
example : addAll [(1, 10), (2, 20), (1, 11)] [] = ([false, false, true], [(1, 10), (2, 20)]) := by decide
example : run (fun _ => false) [(2, 20), (1, 10)] = ([20, 10], false) := by decide
example := run_right_partial [(1, 10), (2, 20), (1, 11)] (fun _ => false) [(2, 20), (1, 10)] (by decide) (by simp)
example : run (fun t => t = 20) [(1, 10), (2, 20), (3, 30)] = ([10, 20], true) :=
  run_stops _ 2 20 [(3, 30)] (by decide) [(1, 10)] (by simp)
/-- An option with value 0 stays 0. -/
example : get (bindOptions [(1, 10)] [(1, 0)]) 1 = some 0 := bind_never [(1, 10)] [(1, 0)] 1

end Verif.Build
