import Verif.Driver.CommandLine.Loop
/-!
# The values of the options after the defaults are filled in
-/
namespace Verif.CommandLine

/-- What can be said of an option: a switch has no value, the others have one which is read. -/
def Sayable (f : Flag) (v : Option Str) : Prop :=
  (f.kind = .switch ∧ v = none) ∨ (f.kind ≠ .switch ∧ ∃ s, v = some s ∧ reading f.kind s ≠ none)

theorem line_says {flags : List Flag} {args : List Str} {es : List Event} {e : Ending} (h : Line flags args es e) :
    ∀ {k : Nat} {f : Flag}, flags[k]? = some f → ∀ v ∈ saidOf k es, Sayable f v := by
  induction h with
  | nil => simp [saidOf]
  | stop => simp [saidOf]
  | file _ _ ih =>
    intro k f hf v hv
    exact ih hf v hv
  | @switch a k' f' rest es e _ hf' hk _ ih =>
    intro k f hf v hv
    by_cases h : k' = k
    · subst h
      simp only [saidOf, List.filterMap_cons, if_true, List.mem_cons] at hv
      rcases hv with rfl | hv
      · have : f' = f := Option.some.inj (hf'.symm.trans hf)
        exact .inl ⟨this ▸ hk, rfl⟩
      · exact ih hf v hv
    · simp only [saidOf, List.filterMap_cons, if_neg h] at hv
      exact ih hf v hv
  | @joined a k' f' s rest es e _ hf' hk hr _ ih =>
    intro k f hf v hv
    by_cases h : k' = k
    · subst h
      simp only [saidOf, List.filterMap_cons, if_true, List.mem_cons] at hv
      rcases hv with rfl | hv
      · have : f' = f := Option.some.inj (hf'.symm.trans hf)
        exact .inr ⟨this ▸ hk, _, rfl, this ▸ hr⟩
      · exact ih hf v hv
    · simp only [saidOf, List.filterMap_cons, if_neg h] at hv
      exact ih hf v hv
  | @separate a k' f' s rest es e _ hf' hk hr _ ih =>
    intro k f hf v hv
    by_cases h : k' = k
    · subst h
      simp only [saidOf, List.filterMap_cons, if_true, List.mem_cons] at hv
      rcases hv with rfl | hv
      · have : f' = f := Option.some.inj (hf'.symm.trans hf)
        exact .inr ⟨this ▸ hk, _, rfl, this ▸ hr⟩
      · exact ih hf v hv
    · simp only [saidOf, List.filterMap_cons, if_neg h] at hv
      exact ih hf v hv
  | unknown => simp [saidOf]
  | unwanted => simp [saidOf]
  | lacking => simp [saidOf]
  | refused => simp [saidOf]
  | refusedNext => simp [saidOf]

theorem fold_switch (f : Flag) : ∀ (said : List (Option Str)) (v : Val), (∀ x ∈ said, x = none) →
    said.foldl (stepVal f) v = if said = [] then v else .num 1
  | [], _, _ => rfl
  | x :: xs, v, h => by
    have hx : x = none := h x (by simp)
    subst hx
    rw [List.foldl_cons, fold_switch f xs _ fun y hy => h y (List.mem_cons_of_mem _ hy), stepVal]
    split <;> simp

theorem fold_list (f : Flag) (hk : f.kind = .many ∨ f.kind = .define) : ∀ (said : List (Option Str)) (v : Val),
    (∀ x ∈ said, x ≠ none) → v = .unset ∨ (∃ xs, v = .pending xs) →
    listed (said.foldl (stepVal f) v) =
      listed v ++ (said.filterMap id).flatMap (fun s => ((reading f.kind s).map elements).getD []) ∧
    (said.foldl (stepVal f) v = .unset ∨ ∃ xs, said.foldl (stepVal f) v = .pending xs)
  | [], v, _, hv => ⟨by simp, hv⟩
  | none :: xs, v, h, _ => absurd rfl (h none (by simp))
  | some s :: xs, v, h, _ => by
    have e : stepVal f v (some s) = .pending (listed v ++ ((reading f.kind s).map elements).getD []) := by
      rcases hk with hk | hk <;> simp [stepVal, hk]
    rw [List.foldl_cons, e]
    have ih := fold_list f hk xs (.pending (listed v ++ ((reading f.kind s).map elements).getD []))
      (fun y hy => h y (List.mem_cons_of_mem _ hy)) (.inr ⟨_, rfl⟩)
    refine ⟨?_, ih.2⟩
    rw [ih.1]
    simp [listed, List.append_assoc]

theorem fold_last (f : Flag) (hk : f.kind ≠ .switch ∧ f.kind ≠ .many ∧ f.kind ≠ .define) :
    ∀ (said : List (Option Str)) (v : Val), (∀ x ∈ said, x ≠ none) →
    said.foldl (stepVal f) v = (match (said.filterMap id).getLast? with
      | some s => (reading f.kind s).getD .unset
      | none => v)
  | [], _, _ => rfl
  | none :: xs, v, h => absurd rfl (h none (by simp))
  | some s :: xs, v, h => by
    have e : stepVal f v (some s) = (reading f.kind s).getD .unset := by
      simp only [stepVal]
      split
      · rename_i hm; exact absurd hm hk.2.1
      · rename_i hm; exact absurd hm hk.2.2
      · rfl
    rw [List.foldl_cons, e, fold_last f hk xs _ fun y hy => h y (List.mem_cons_of_mem _ hy)]
    rw [List.filterMap_cons]
    simp only [id]
    match hx : xs.filterMap id with
    | [] => rfl
    | y :: ys =>
      rw [List.getLast?_cons_cons]
      match hz : (y :: ys).getLast? with
      | none => simp at hz
      | some z => rfl

theorem reading_shape {k : Kind} {s : Str} {x : Val} (hk : k ≠ .many ∧ k ≠ .define) (h : reading k s = some x) :
    (∃ n, x = .num n) ∨ ∃ t, x = .text t := by
  cases k with
  | switch => simp [reading] at h
  | text => simp [reading] at h; exact .inr ⟨_, h.symm⟩
  | int =>
    simp only [reading] at h
    split at h
    · simp at h; exact .inl ⟨_, h.symm⟩
    · simp at h
  | oneOf t =>
    simp only [reading] at h
    split at h
    · simp at h
    · obtain ⟨n, _, hn⟩ := Option.map_eq_some_iff.1 h
      exact .inl ⟨_, hn.symm⟩
  | level =>
    obtain ⟨n, _, hn⟩ := Option.map_eq_some_iff.1 h
    exact .inl ⟨_, hn.symm⟩
  | many => exact absurd rfl hk.1
  | define => exact absurd rfl hk.2

theorem settle_kept (cmd : Str) (f : Flag) {x : Val} (h : (∃ n, x = .num n) ∨ ∃ t, x = .text t) :
    settle cmd f x = .ok x := by
  rcases h with ⟨n, rfl⟩ | ⟨t, rfl⟩ <;> rfl

theorem settle_default (cmd : Str) {f : Flag} (hk : f.kind ≠ .switch) {d : Str} (hd : f.dflt = some d)
    (h : d = [] ∨ (d.head? ≠ some 91 ∧ reading f.kind d ≠ none)) (hl : f.kind ≠ .many ∧ f.kind ≠ .define) :
    ∃ x, settle cmd f .unset = .ok x ∧ (if d = [] then some (.text none) else reading f.kind d) = some x := by
  by_cases hne : d = []
  · subst hne
    exact ⟨.text none, by simp [settle, hk, hd], by simp⟩
  · obtain ⟨h1, h2⟩ := h.resolve_left hne
    have h3 : ¬ (at' d 0 = 91 ∧ at' d 1 = 93) := by
      match d, hne with
      | c :: r, _ => simp [at'] at h1 ⊢; exact fun e => absurd e h1
    match hx : reading f.kind d with
    | none => exact absurd hx h2
    | some x =>
      refine ⟨x, ?_, by simp [hne]⟩
      simp only [settle, hk, if_false, hd, hne, h3]
      rw [validate_ok _ hk h2]
      simp only [stepVal]
      split
      · rename_i hm; exact absurd hm hl.1
      · rename_i hm; exact absurd hm hl.2
      · rw [hx]; rfl

/-- The value of an option once the defaults are in: what the command line says of it decides. -/
theorem settle_said (cmd : Str) {f : Flag} (hd : DefaultOk f) {said : List (Option Str)}
    (hs : ∀ v ∈ said, Sayable f v) :
    ∃ x, settle cmd f (said.foldl (stepVal f) .unset) = .ok x ∧ finalValue f said = some x := by
  by_cases hsw : f.kind = .switch
  · have hn : ∀ x ∈ said, x = none := by
      intro x hx
      rcases hs x hx with h | h
      · exact h.2
      · exact absurd hsw h.1
    rw [fold_switch f said _ hn, finalValue, hsw]
    by_cases he : said = []
    · have hd' : f.dflt ≠ some (bytes "true") := by simpa [DefaultOk, hsw] using hd
      exact ⟨.num 0, by simp [he, settle, hsw], by simp [he, hd']⟩
    · exact ⟨.num 1, by simp [he, settle], by simp [he]⟩
  have hn : ∀ x ∈ said, x ≠ none := by
    intro x hx
    rcases hs x hx with h | ⟨_, s, rfl, _⟩
    · exact absurd h.1 hsw
    · simp
  by_cases hl : f.kind = .many ∨ f.kind = .define
  · obtain ⟨h1, h2⟩ := fold_list f hl said .unset hn (.inl rfl)
    have hdef : f.dflt = some [91, 93] := by
      rcases hl with hl | hl <;> simpa [DefaultOk, hl] using hd
    refine ⟨.list ((said.filterMap id).flatMap (fun s => ((reading f.kind s).map elements).getD [])), ?_, ?_⟩
    · rw [show listed Val.unset = [] from rfl, List.nil_append] at h1
      rw [← h1]
      rcases h2 with h2 | ⟨xs, h2⟩ <;> rw [h2] <;> simp [settle, hsw, hdef, at', listed]
    · rcases hl with hl | hl <;> simp [finalValue, hl]
  · have hl' : f.kind ≠ .many ∧ f.kind ≠ .define := ⟨fun h => hl (.inl h), fun h => hl (.inr h)⟩
    rw [fold_last f ⟨hsw, hl'.1, hl'.2⟩ said _ hn]
    have hfin : finalValue f said = (match (said.filterMap id).getLast? with
        | some s => reading f.kind s
        | none => match f.dflt with
          | none => none
          | some d => if d = [] then some (.text none) else reading f.kind d) := by
      obtain ⟨name, sf, kind, dflt⟩ := f
      cases kind <;> first | rfl | exact absurd rfl hsw | exact absurd rfl hl'.1 | exact absurd rfl hl'.2
    rw [hfin]
    match hg : (said.filterMap id).getLast? with
    | some s =>
      have hm : some s ∈ said := by
        have := List.mem_of_getLast? hg
        simpa using this
      rcases hs _ hm with h | ⟨_, t, ht, hr⟩
      · simp at h
      · obtain rfl : s = t := Option.some.inj ht
        match hx : reading f.kind s with
        | none => exact absurd hx hr
        | some x =>
          refine ⟨x, ?_, hx⟩
          show settle cmd f ((reading f.kind s).getD .unset) = .ok x
          rw [hx]
          exact settle_kept cmd f (reading_shape hl' hx)
    | none =>
      have : ∃ d, f.dflt = some d ∧ (d = [] ∨ (d.head? ≠ some 91 ∧ reading f.kind d ≠ none)) := by
        obtain ⟨name, sf, kind, dflt⟩ := f
        cases kind <;> first | exact hd | exact absurd rfl hsw | exact absurd rfl hl'.1 | exact absurd rfl hl'.2
      obtain ⟨d, hd1, hd2⟩ := this
      obtain ⟨x, h1, h2⟩ := settle_default cmd hsw hd1 hd2 hl'
      refine ⟨x, h1, ?_⟩
      show (match f.dflt with
          | none => none
          | some d => if d = [] then some (.text none) else reading f.kind d) = some x
      rw [hd1]
      exact h2

theorem settle_switch (cmd : Str) {f : Flag} (hk : f.kind = .switch) {said : List (Option Str)}
    (hs : ∀ v ∈ said, Sayable f v) :
    settle cmd f (said.foldl (stepVal f) .unset) = .ok (.num (if said = [] then 0 else 1)) := by
  have hn : ∀ x ∈ said, x = none := by
    intro x hx
    rcases hs x hx with h | h
    · exact h.2
    · exact absurd hk h.1
  rw [fold_switch f said _ hn]
  by_cases he : said = [] <;> simp [he, settle, hk]

theorem settleAll_ok (cmd : Str) (flags : List Flag) (g : Nat → Val) : ∀ (ks : List Nat) (vals : Nat → Val), ks.Nodup →
    (∀ k ∈ ks, settle cmd (flagAt flags k) (vals k) = .ok (g k)) →
    settleAll cmd flags ks vals = .ok fun k => if k ∈ ks then g k else vals k
  | [], vals, _, _ => by simp [settleAll]
  | k :: ks, vals, hnd, h => by
    obtain ⟨h1, h2⟩ := List.nodup_cons.1 hnd
    rw [settleAll, h k (by simp), R.bind, settleAll_ok cmd flags g ks _ h2]
    · congr 1
      funext j
      by_cases hj : j ∈ ks
      · simp [hj]
      · by_cases hjk : j = k <;> simp [hj, hjk, upd, h1]
    · intro j hj
      have : j ≠ k := fun e => h1 (e ▸ hj)
      rw [upd, if_neg this]
      exact h j (List.mem_cons_of_mem _ hj)

end Verif.CommandLine
