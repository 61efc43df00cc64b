import Verif.Lang.Classes.Spec
/-!
# The tables of virtual functions
-/
namespace Verif.Classes

theorem member_some {d : Decl} {n : Nat} {m : Method} (h : member d n = some m) : m ∈ d.methods ∧ m.name = n := by
  have h1 := List.mem_of_find?_eq_some h
  have h2 := List.find?_some h
  exact ⟨h1, by simpa using h2⟩

theorem find_of_mem {ms : List Method} {m : Method} (hp : ms.Pairwise fun a b => a.name ≠ b.name) (hm : m ∈ ms) :
    ms.find? (fun x => x.name == m.name) = some m := by
  induction ms with
  | nil => simp at hm
  | cons a ms ih =>
    rw [List.pairwise_cons] at hp
    rcases List.mem_cons.1 hm with rfl | hm
    · simp
    · rw [List.find?_cons_of_neg (by simpa using hp.1 m hm)]
      exact ih hp.2 hm

theorem member_of_mem {d : Decl} {m : Method} (hp : d.methods.Pairwise fun a b => a.name ≠ b.name) (hm : m ∈ d.methods) :
    member d m.name = some m := find_of_mem hp hm

theorem member_none {d : Decl} {n : Nat} : member d n = none ↔ ∀ m ∈ d.methods, m.name ≠ n := by
  simp [member, List.find?_eq_none]

/-- The function found going up. -/
def nearest (c : Chain) (n : Nat) : Option Impl := (resolve c n).map (·.2)

theorem nearest_cons (d : Decl) (as : Chain) (n : Nat) :
    nearest (d :: as) n = match member d n with | some m => some ⟨d.id, m⟩ | none => nearest as n := by
  rw [nearest, resolve]
  cases member d n with
  | some m => rfl
  | none => rfl

theorem nearest_of_means {c : Chain} {n s : Nat} {i : Impl} (hp : Plain c) (ho : OneSignature c n s)
    (h : Means c n s i) : nearest c n = some i := by
  induction h with
  | @here d as m hm =>
    rw [nearest_cons, member_of_mem (hp d (by simp)) hm]
  | @above d as n s i hn _ ih =>
    rw [nearest_cons, member_none.2 fun m hm e => hn m hm ⟨e, ho d (by simp) m hm e⟩]
    exact ih (fun x hx => hp x (List.mem_cons_of_mem _ hx)) (fun x hx => ho x (List.mem_cons_of_mem _ hx))

theorem override_name (d : Decl) (e : Entry) : (override d e).name = e.name := by
  unfold override; split <;> rfl

theorem override_sig (d : Decl) (e : Entry) : (override d e).sig = e.sig := by
  unfold override; split <;> rfl

theorem replace_name (d : Decl) (e : Entry) : (replace d e).name = e.name := by
  unfold replace; split <;> rfl

theorem replace_sig (d : Decl) (e : Entry) : (replace d e).sig = e.sig := by
  unfold replace; split <;> rfl

theorem addOne_ext (d : Decl) (t : List Entry) (m : Method) : ∃ ext, addOne d t m = t ++ ext := by
  unfold addOne; split
  · exact ⟨_, rfl⟩
  · exact ⟨[], by simp⟩

theorem addAll_ext (d : Decl) (ms : List Method) (t : List Entry) : ∃ ext, ms.foldl (addOne d) t = t ++ ext := by
  induction ms generalizing t with
  | nil => exact ⟨[], by simp⟩
  | cons m ms ih =>
    obtain ⟨e1, h1⟩ := addOne_ext d t m
    obtain ⟨e2, h2⟩ := ih (addOne d t m)
    exact ⟨e1 ++ e2, by rw [List.foldl_cons, h2, h1, List.append_assoc]⟩

theorem names_map (t : List Entry) (f : Entry → Entry) (h : ∀ e, (f e).name = e.name) :
    (t.map f).map (·.name) = t.map (·.name) := by
  rw [List.map_map]; exact List.map_congr_left fun e _ => h e

/-- The table of a derived class begins like that of its base. -/
theorem table_names (ds as : Chain) :
    ∃ ext, (table (ds ++ as)).map (·.name) = (table as).map (·.name) ++ ext := by
  induction ds with
  | nil => exact ⟨[], by simp⟩
  | cons d ds ih =>
    obtain ⟨e1, h1⟩ := ih
    have h0 := names_map (table (ds ++ as)) (override d) (override_name d)
    rw [List.cons_append, table]
    by_cases hf : flagged d = true
    · obtain ⟨e2, h2⟩ := addAll_ext d d.methods ((table (ds ++ as)).map (override d))
      refine ⟨e1 ++ e2.map (·.name), ?_⟩
      simp only [hf, if_true, h2, List.map_append]
      rw [h0, h1, List.append_assoc]
    · refine ⟨e1, ?_⟩
      simp only [hf, Bool.false_eq_true, if_false]
      rw [h0, h1]

/-- What an entry holds. -/
def Right (c : Chain) (e : Entry) : Prop :=
  (∃ i, nearest c e.name = some i ∧ (e.impl = some i ∨ (e.impl = none ∧ i.method.body = false))) ∧
    ∃ d ∈ c, ∃ m ∈ d.methods, m.name = e.name ∧ m.sig = e.sig

theorem override_right {d : Decl} {as : Chain} {e : Entry} (h : Right as e) : Right (d :: as) (override d e) := by
  obtain ⟨⟨i, h1, h2⟩, x, hx, m, hm, h3, h4⟩ := h
  refine ⟨?_, x, List.mem_cons_of_mem _ hx, m, hm, by rw [override_name, h3], by rw [override_sig, h4]⟩
  rw [override_name, nearest_cons]
  unfold override
  cases hd : member d e.name with
  | some m => exact ⟨_, rfl, .inl rfl⟩
  | none => exact ⟨i, h1, h2⟩

theorem replace_right {d : Decl} {as : Chain} {e : Entry} (h : Right as e) : Right (d :: as) (replace d e) := by
  obtain ⟨⟨i, h1, h2⟩, x, hx, m, hm, h3, h4⟩ := h
  refine ⟨?_, x, List.mem_cons_of_mem _ hx, m, hm, by rw [replace_name, h3], by rw [replace_sig, h4]⟩
  rw [replace_name, nearest_cons]
  unfold replace
  cases hd : member d e.name with
  | some m =>
    refine ⟨_, rfl, ?_⟩
    by_cases hb : m.body = true
    · exact .inl (by simp [hb])
    · exact .inr ⟨by simp [hb], by simpa using hb⟩
  | none => exact ⟨i, h1, h2⟩

theorem addAll_right {d : Decl} {as : Chain} (hp : d.methods.Pairwise fun a b => a.name ≠ b.name) :
    ∀ (ms : List Method) (t : List Entry), (∀ m ∈ ms, m ∈ d.methods) → (∀ e ∈ t, Right (d :: as) e) →
      ∀ e ∈ ms.foldl (addOne d) t, Right (d :: as) e
  | [], _, _, h, e, he => h e he
  | m :: ms, t, hm, h, e, he => by
    refine addAll_right hp ms (addOne d t m) (fun x hx => hm x (List.mem_cons_of_mem _ hx)) ?_ e he
    intro e he
    unfold addOne at he
    split at he
    · rcases List.mem_append.1 he with he | he
      · exact h e he
      · obtain rfl := List.mem_singleton.1 he
        have hmd := hm m (by simp)
        refine ⟨⟨⟨d.id, m⟩, ?_, ?_⟩, d, by simp, m, hmd, rfl, rfl⟩
        · rw [nearest_cons]; simp only; rw [member_of_mem hp hmd]
        · by_cases hb : m.body = true
          · exact .inl (by simp [hb])
          · exact .inr ⟨by simp [hb], by simpa using hb⟩
    · exact h e he

theorem table_right {c : Chain} (hp : Plain c) : ∀ e ∈ table c, Right c e := by
  induction c with
  | nil => intro e he; simp [table] at he
  | cons d as ih =>
    have ih := ih fun x hx => hp x (List.mem_cons_of_mem _ hx)
    have h0 : ∀ e ∈ (table as).map (override d), Right (d :: as) e := by
      intro e he
      obtain ⟨e', he', rfl⟩ := List.mem_map.1 he
      exact override_right (ih e' he')
    intro e he
    simp only [table] at he
    by_cases hf : flagged d = true
    · rw [if_pos hf] at he
      exact addAll_right (hp d (by simp)) _ _ (fun _ h => h) h0 e he
    · rw [if_neg hf] at he
      exact h0 e he

theorem addOne_mem {d : Decl} {t : List Entry} {m : Method} {n : Nat} :
    ((∃ e ∈ t, e.name = n) ∨ (m.virt = true ∧ m.name = n)) → ∃ e ∈ addOne d t m, e.name = n := by
  intro h
  unfold addOne
  by_cases hc : (m.virt && !(t.any fun e => e.name == m.name)) = true
  · rw [if_pos hc]
    rcases h with ⟨e, he, hn⟩ | ⟨_, hn⟩
    · exact ⟨e, List.mem_append_left _ he, hn⟩
    · exact ⟨_, List.mem_append_right _ (List.mem_singleton.2 rfl), hn⟩
  · rw [if_neg hc]
    rcases h with h | ⟨hv, hn⟩
    · exact h
    · have : (t.any fun e => e.name == m.name) = true := by
        cases ha : (t.any fun e => e.name == m.name) with
        | true => rfl
        | false => simp [hv, ha] at hc
      obtain ⟨e, he, h⟩ := List.any_eq_true.1 this
      exact ⟨e, he, by rw [← hn]; simpa using h⟩

theorem addAll_mem {d : Decl} {n : Nat} : ∀ (ms : List Method) (t : List Entry),
    ((∃ e ∈ t, e.name = n) ∨ ∃ m ∈ ms, m.virt = true ∧ m.name = n) → ∃ e ∈ ms.foldl (addOne d) t, e.name = n
  | [], _, h => by simpa using h
  | m :: ms, t, h => by
    refine addAll_mem ms (addOne d t m) ?_
    rcases h with h | ⟨x, hx, hv, hn⟩
    · exact .inl (addOne_mem (.inl h))
    · rcases List.mem_cons.1 hx with rfl | hx
      · exact .inl (addOne_mem (.inr ⟨hv, hn⟩))
      · exact .inr ⟨x, hx, hv, hn⟩

/-- A virtual function has an entry. -/
theorem table_mem {d : Decl} {as : Chain} {m : Method} (hm : m ∈ d.methods) (hv : m.virt = true) :
    ∃ e ∈ table (d :: as), e.name = m.name := by
  have hf : flagged d = true := List.any_eq_true.2 ⟨m, hm, hv⟩
  simp only [table, hf, if_true]
  exact addAll_mem _ _ (.inr ⟨m, hm, hv, rfl⟩)

end Verif.Classes
