/-!
# Listing directories

`src/cxy/stdlib/path.cxy` 308-342 (`ls`). A directory is a tree of entries in the order in which they are read, without `.` and `..`; a
link is an entry like a file (`d_type` is not `DT_DIR`). A path is the list of names from the directory that is listed. The callback may
decide by the path and all calls before. Left out: errors when a directory is opened, changes while it is read, callbacks that raise.
-/
namespace Verif.FsOps.Listing

/-- The entries of a directory, first to last. -/
inductive Ents where
  | nil
  | file (name : Nat) (rest : Ents)
  | dir (name : Nat) (sub rest : Ents)

/-- path.cxy 308-342. `pre` is the path of the directory, `h` the calls of the callback so far; the result is with the new calls. -/
def ls (cb : List (List Nat) → List Nat → Bool) (recursive : Bool) : Ents → List Nat → List (List Nat) → List (List Nat)
  | .nil, _, h => h
  | .file n rest, pre, h =>
    if cb h (pre ++ [n]) then ls cb recursive rest pre (h ++ [pre ++ [n]]) else h ++ [pre ++ [n]]
  | .dir n sub rest, pre, h =>
    /- 332-335: first what is in the directory -/
    let h1 := if recursive then ls cb recursive sub (pre ++ [n]) h else h
    /- 337-340 -/
    if cb h1 (pre ++ [n]) then ls cb recursive rest pre (h1 ++ [pre ++ [n]]) else h1 ++ [pre ++ [n]]

/-! ## Properties -/

/-- The paths in a directory and below it. -/
inductive Below : Ents → List Nat → Prop where
  | file {n : Nat} {r : Ents} : Below (.file n r) [n]
  | dir {n : Nat} {s r : Ents} : Below (.dir n s r) [n]
  | inside {n : Nat} {s r : Ents} {p : List Nat} : Below s p → Below (.dir n s r) (n :: p)
  | laterF {n : Nat} {r : Ents} {p : List Nat} : Below r p → Below (.file n r) p
  | laterD {n : Nat} {s r : Ents} {p : List Nat} : Below r p → Below (.dir n s r) p

/-- The names in a directory. -/
def Ents.names : Ents → List Nat
  | .nil => []
  | .file n r => n :: r.names
  | .dir n _ r => n :: r.names

/-- No name twice in a directory, at any depth. -/
def Ents.Distinct : Ents → Prop
  | .nil => True
  | .file n r => n ∉ r.names ∧ r.Distinct
  | .dir n s r => n ∉ r.names ∧ s.Distinct ∧ r.Distinct

/-- The calls if the callback never stops. -/
def calls : Ents → List Nat → List (List Nat)
  | .nil, _ => []
  | .file n r, pre => (pre ++ [n]) :: calls r pre
  | .dir n s r, pre => calls s (pre ++ [n]) ++ (pre ++ [n]) :: calls r pre

theorem ls_calls (cb : List (List Nat) → List Nat → Bool) (h0 : ∀ h p, cb h p = true) :
    ∀ (es : Ents) (pre : List Nat) (h : List (List Nat)), ls cb true es pre h = h ++ calls es pre := by
  intro es
  induction es with
  | nil => intro pre h; simp [ls, calls]
  | file n r ih => intro pre h; simp [ls, calls, h0, ih]
  | dir n s r ihs ihr => intro pre h; simp [ls, calls, h0, ihs, ihr]

theorem mem_calls : ∀ (es : Ents) (pre p : List Nat), p ∈ calls es pre ↔ ∃ q, p = pre ++ q ∧ Below es q := by
  intro es
  induction es with
  | nil => intro pre p; simp only [calls, List.not_mem_nil, false_iff]; rintro ⟨q, _, h⟩; cases h
  | file n r ih =>
    intro pre p
    simp only [calls, List.mem_cons, ih]
    constructor
    · rintro (rfl | ⟨q, rfl, h⟩)
      · exact ⟨_, rfl, .file⟩
      · exact ⟨_, rfl, .laterF h⟩
    · rintro ⟨q, rfl, h⟩
      cases h with
      | file => exact .inl rfl
      | laterF h => exact .inr ⟨_, rfl, h⟩
  | dir n s r ihs ihr =>
    intro pre p
    simp only [calls, List.mem_append, List.mem_cons, ihs, ihr]
    constructor
    · rintro (⟨q, rfl, h⟩ | rfl | ⟨q, rfl, h⟩)
      · exact ⟨n :: q, by simp, .inside h⟩
      · exact ⟨_, rfl, .dir⟩
      · exact ⟨_, rfl, .laterD h⟩
    · rintro ⟨q, rfl, h⟩
      cases h with
      | dir => exact .inr (.inl rfl)
      | inside h => exact .inl ⟨_, by simp, h⟩
      | laterD h => exact .inr (.inr ⟨_, rfl, h⟩)

theorem below_name {es : Ents} {p : List Nat} (h : Below es p) : ∃ n q, p = n :: q ∧ n ∈ es.names := by
  induction h with
  | file => exact ⟨_, _, rfl, by simp [Ents.names]⟩
  | dir => exact ⟨_, _, rfl, by simp [Ents.names]⟩
  | inside _ _ => exact ⟨_, _, rfl, by simp [Ents.names]⟩
  | laterF _ ih => obtain ⟨n, q, e, h⟩ := ih; exact ⟨n, q, e, by simp [Ents.names, h]⟩
  | laterD _ ih => obtain ⟨n, q, e, h⟩ := ih; exact ⟨n, q, e, by simp [Ents.names, h]⟩

theorem nodup_calls : ∀ (es : Ents) (pre : List Nat), es.Distinct → (calls es pre).Nodup := by
  intro es
  induction es with
  | nil => intro pre _; exact .nil
  | file n r ih =>
    intro pre h
    refine List.nodup_cons.2 ⟨fun hm => ?_, ih pre h.2⟩
    obtain ⟨q, e, hb⟩ := (mem_calls _ _ _).1 hm
    obtain ⟨m, q', rfl, hn⟩ := below_name hb
    have := List.append_cancel_left e
    simp only [List.cons.injEq] at this
    exact h.1 (this.1 ▸ hn)
  | dir n s r ihs ihr =>
    intro pre h
    refine List.nodup_append.2 ⟨ihs _ h.2.1, List.nodup_cons.2 ⟨fun hm => ?_, ihr _ h.2.2⟩, ?_⟩
    · obtain ⟨q, e, hb⟩ := (mem_calls _ _ _).1 hm
      obtain ⟨m, q', rfl, hn⟩ := below_name hb
      have := List.append_cancel_left e
      simp only [List.cons.injEq] at this
      exact h.1 (this.1 ▸ hn)
    · intro a ha b hb
      obtain ⟨q, rfl, hq⟩ := (mem_calls _ _ _).1 ha
      rintro rfl
      rcases List.mem_cons.1 hb with e | hb
      · obtain ⟨m, q', rfl, _⟩ := below_name hq
        have := congrArg List.length e
        simp at this
      · obtain ⟨q2, e, hb⟩ := (mem_calls _ _ _).1 hb
        obtain ⟨m, q', rfl, hn⟩ := below_name hb
        rw [List.append_assoc] at e
        have := List.append_cancel_left e
        simp only [List.singleton_append, List.cons.injEq] at this
        exact h.1 (this.1 ▸ hn)

/-- **A recursive listing gives each path once**: if the callback never stops, it is called with the paths in the directory and below
it, each exactly once, and with no others. -/
theorem lists_all_partial (cb : List (List Nat) → List Nat → Bool) (h0 : ∀ h p, cb h p = true) (es : Ents) (hd : es.Distinct) :
    (ls cb true es [] []).Nodup ∧ ∀ p, p ∈ ls cb true es [] [] ↔ Below es p := by
  rw [ls_calls cb h0, List.nil_append]
  refine ⟨nodup_calls es [] hd, fun p => (mem_calls es [] p).trans ?_⟩
  constructor
  · rintro ⟨q, rfl, h⟩; exact h
  · intro h; exact ⟨p, rfl, h⟩

/-- The calls so far before each call of a list. -/
def Accepted (cb : List (List Nat) → List Nat → Bool) (h ps : List (List Nat)) : Prop :=
  ∀ a p b, ps = a ++ p :: b → b ≠ [] → cb (h ++ a) p = true

/-- **A flat listing stops when it is told to**: the calls are the names of the directory in order, up to the first that is refused. -/
theorem flat_stops (cb : List (List Nat) → List Nat → Bool) : ∀ (es : Ents) (pre : List Nat) (h : List (List Nat)),
    ∃ ps, ls cb false es pre h = h ++ ps ∧ ps <+: es.names.map (fun n => pre ++ [n]) ∧ Accepted cb h ps ∧
      (ps ≠ es.names.map (fun n => pre ++ [n]) → ∃ a p, ps = a ++ [p] ∧ cb (h ++ a) p = false) := by
  have main : ∀ (n : Nat) (r : Ents) (pre : List Nat) (h : List (List Nat))
      (_ : ∀ h, ∃ ps, ls cb false r pre h = h ++ ps ∧ ps <+: r.names.map (fun n => pre ++ [n]) ∧ Accepted cb h ps ∧
        (ps ≠ r.names.map (fun n => pre ++ [n]) → ∃ a p, ps = a ++ [p] ∧ cb (h ++ a) p = false)),
      ∃ ps, (if cb h (pre ++ [n]) then ls cb false r pre (h ++ [pre ++ [n]]) else h ++ [pre ++ [n]]) = h ++ ps ∧
        ps <+: (n :: r.names).map (fun n => pre ++ [n]) ∧ Accepted cb h ps ∧
        (ps ≠ (n :: r.names).map (fun n => pre ++ [n]) → ∃ a p, ps = a ++ [p] ∧ cb (h ++ a) p = false) := by
    intro n r pre h ih
    cases hc : cb h (pre ++ [n]) with
    | false =>
      refine ⟨[pre ++ [n]], by simp, by simp, ?_, fun _ => ⟨[], _, rfl, by simpa using hc⟩⟩
      intro a p b e hb
      cases a with
      | nil => simp only [List.nil_append, List.cons.injEq] at e; exact absurd e.2.symm hb
      | cons x a => simp at e
    | true =>
      obtain ⟨ps, e, hp, ha, hs⟩ := ih (h ++ [pre ++ [n]])
      refine ⟨(pre ++ [n]) :: ps, by simp [e], ?_, ?_, ?_⟩
      · obtain ⟨t, ht⟩ := hp
        exact ⟨t, by simp [← ht]⟩
      · intro a p b e hb
        cases a with
        | nil => simp only [List.nil_append, List.cons.injEq] at e; rw [← e.1]; simpa using hc
        | cons x a =>
          simp only [List.cons_append, List.cons.injEq] at e
          have := ha a p b e.2 hb
          rw [← e.1]; simpa using this
      · intro hne
        have : ps ≠ r.names.map (fun n => pre ++ [n]) := fun h => hne (by simp [h])
        obtain ⟨a, p, ea, hc⟩ := hs this
        exact ⟨(pre ++ [n]) :: a, p, by simp [ea], by simpa using hc⟩
  intro es
  induction es with
  | nil => intro pre h; exact ⟨[], by simp [ls], by simp [Ents.names], fun a p b e => by simp at e, fun h => absurd rfl h⟩
  | file n r ih => intro pre h; exact main n r pre h (ih pre)
  | dir n s r _ ih =>
    intro pre h
    have := main n r pre h (ih pre)
    simpa [ls, Ents.names] using this

theorem ls_extends (cb : List (List Nat) → List Nat → Bool) (b : Bool) : ∀ (es : Ents) (pre : List Nat) (h : List (List Nat)),
    h <+: ls cb b es pre h := by
  intro es
  induction es with
  | nil => intro pre h; exact List.prefix_refl _
  | file n r ih =>
    intro pre h
    simp only [ls]
    split
    · exact (List.prefix_append _ _).trans (ih _ _)
    · exact List.prefix_append _ _
  | dir n s r ihs ihr =>
    intro pre h
    have h1 : h <+: (if b then ls cb b s (pre ++ [n]) h else h) := by
      split
      · exact ihs _ _
      · exact List.prefix_refl _
    rw [ls]
    generalize (if b then ls cb b s (pre ++ [n]) h else h) = k at h1
    by_cases hc : cb k (pre ++ [n]) = true
    · rw [if_pos hc]; exact (h1.trans (List.prefix_append _ _)).trans (ihr _ _)
    · rw [if_neg hc]; exact h1.trans (List.prefix_append _ _)

/-- **A recursive listing does not stop**: whatever the callback said inside a directory, it is called again, with that directory. -/
theorem stop_not_heard (cb : List (List Nat) → List Nat → Bool) (n : Nat) (s r : Ents) (pre : List Nat) (h : List (List Nat)) :
    ls cb true s (pre ++ [n]) h ++ [pre ++ [n]] <+: ls cb true (.dir n s r) pre h := by
  simp only [ls, if_true]
  split
  · exact ls_extends cb true r pre _
  · exact List.prefix_refl _

/-! ## Cases -/

/-- A file 1, a directory 2 with files 3 and 4, a file 5. -/
def demo : Ents := .file 1 (.dir 2 (.file 3 (.file 4 .nil)) (.file 5 .nil))

example : demo.Distinct ∧ ls (fun _ _ => true) true demo [] [] = [[1], [2, 3], [2, 4], [2], [5]] :=
  ⟨by simp [demo, Ents.Distinct, Ents.names], rfl⟩

example : ls (fun _ p => p != [2]) false demo [] [] = [[1], [2]] := rfl

/-- The callback refuses 2/3; it is called with 2 and 5 after that. -/
example : ls (fun _ p => p != [2, 3]) true demo [] [] = [[1], [2, 3], [2], [5]] := rfl

end Verif.FsOps.Listing
