import Verif.Std.Path
/-!
# Making directories

`src/cxy/stdlib/path.cxy` 289-295 (`mkdir`), 297-306 (`mkdirs`), 201-207 (`exists`); `dirname` is `Verif.Path.dirname`.

The file system is the set of directories, each as the list of names from the root. Left out: files in the way, permissions, links,
`.` and `..` (taken as names), other processes.
-/
namespace Verif.FsOps.Mkdirs

abbrev Dirs := List (List Nat) → Bool

/-- The names in a path, as the operating system reads it: empty ones do not count. -/
def comps : List Nat → List Nat → List (List Nat)
  | [], cur => if cur = [] then [] else [cur]
  | x :: xs, cur => if x = 47 then (if cur = [] then [] else [cur]) ++ comps xs [] else comps xs (cur ++ [x])

/-- The directory that a path means, seen from `cwd`. -/
def key (cwd : List (List Nat)) (path : List Nat) : List (List Nat) :=
  if path.head? = some 47 then comps path [] else cwd ++ comps path []

/-- 201-207: `access` -/
def present (cwd : List (List Nat)) (st : Dirs) (path : List Nat) : Bool := !path.isEmpty && st (key cwd path)

/-- 289-295: `mkdir` of the operating system, and an exception if it fails (`EEXIST`, `ENOENT`). -/
def mkdir (cwd : List (List Nat)) (st : Dirs) (path : List Nat) : Dirs × Bool :=
  let k := key cwd path
  if path = [] ∨ st k = true ∨ k = [] ∨ st k.dropLast = false then (st, false)
  else (fun x => decide (x = k) || st x, true)

/-- 297-306. The second part of the result is whether it returned without an exception; each call is on a shorter path (`n` is enough if
it is larger than the length). -/
def mkdirs (cwd : List (List Nat)) : Nat → Dirs → List Nat → Dirs × Bool
  | 0, st, _ => (st, false)
  | n + 1, st, path =>
    if present cwd st path then (st, true)
    else match Path.dirname path with
      | .ok base =>
        let r := if base ≠ [] ∧ path ≠ base then mkdirs cwd n st base else (st, true)
        if r.2 then mkdir cwd r.1 path else r
      | _ => (st, false)

/-! ## Properties -/

/-- Names put together with `/`. -/
def rel : List (List Nat) → List Nat
  | [] => []
  | [c] => c
  | c :: d :: cs => c ++ 47 :: rel (d :: cs)

/-- A path as it is usually written. -/
def render (abs : Bool) (cs : List (List Nat)) : List Nat := if abs then 47 :: rel cs else rel cs

/-- The directory where the path starts. -/
def start (cwd : List (List Nat)) (abs : Bool) : List (List Nat) := if abs then [] else cwd

def Name (c : List Nat) : Prop := c ≠ [] ∧ 47 ∉ c

theorem rel_snoc : ∀ {cs : List (List Nat)} (c : List Nat), cs ≠ [] → rel (cs ++ [c]) = rel cs ++ 47 :: c
  | [], _, h => absurd rfl h
  | [d], c, _ => rfl
  | d :: e :: cs, c, _ => by
    have ih := rel_snoc (cs := e :: cs) c (by simp)
    simp only [List.cons_append] at ih ⊢
    simp only [rel, ih, List.append_assoc, List.cons_append]

theorem comps_name : ∀ (b rest cur : List Nat), 47 ∉ b → comps (b ++ rest) cur = comps rest (cur ++ b)
  | [], rest, cur, _ => by simp
  | x :: b, rest, cur, h => by
    have hx : x ≠ 47 := fun e => h (by simp [e])
    have hb : 47 ∉ b := fun e => h (List.mem_cons_of_mem _ e)
    simp only [List.cons_append, comps, if_neg hx]
    rw [comps_name b rest _ hb]; simp

theorem comps_rel : ∀ (cs : List (List Nat)) (rest : List Nat), (∀ c ∈ cs, Name c) → (rest = [] ∨ ∃ r, rest = 47 :: r) →
    comps (rel cs ++ rest) [] = cs ++ comps rest []
  | [], rest, _, _ => by simp [rel]
  | [c], rest, h, hr => by
    obtain ⟨h1, h2⟩ := h c (by simp)
    rw [rel, comps_name c rest [] h2, List.nil_append]
    rcases hr with rfl | ⟨r, rfl⟩
    · simp [comps, h1]
    · simp [comps, h1]
  | c :: d :: cs, rest, h, hr => by
    obtain ⟨h1, h2⟩ := h c (by simp)
    have ih := comps_rel (d :: cs) rest (fun x hx => h x (List.mem_cons_of_mem _ hx)) hr
    rw [rel, List.append_assoc, comps_name c _ [] h2, List.nil_append, List.cons_append]
    simp only [comps, if_true, if_neg h1]
    rw [ih]; simp

theorem head_rel {cs : List (List Nat)} (h : ∀ c ∈ cs, Name c) : ∀ rest : List Nat, cs ≠ [] → (rel cs ++ rest).head? ≠ some 47 := by
  intro rest hne
  match cs, hne with
  | c :: cs, _ =>
    obtain ⟨h1, h2⟩ := h c (by simp)
    match c, h1 with
    | x :: c, _ =>
      have : x ≠ 47 := fun e => h2 (by simp [e])
      cases cs <;> simp [rel, this]

theorem key_render (cwd : List (List Nat)) (abs : Bool) (cs : List (List Nat)) (h : ∀ c ∈ cs, Name c) (hne : cs ≠ []) (rest : List Nat)
    (hr : rest = [] ∨ rest = [47]) : key cwd (render abs cs ++ rest) = start cwd abs ++ cs := by
  have hr' : rest = [] ∨ ∃ r, rest = 47 :: r := hr.imp id (fun e => ⟨[], e⟩)
  have hc : comps rest [] = [] := by rcases hr with rfl | rfl <;> rfl
  cases abs with
  | true =>
    have : comps (47 :: (rel cs ++ rest)) [] = cs := by
      simp only [comps, if_true]
      rw [comps_rel cs rest h hr', hc]; simp
    simp [key, render, start, this]
  | false =>
    have hh := head_rel h rest hne
    show (if (rel cs ++ rest).head? = some 47 then _ else cwd ++ comps (rel cs ++ rest) []) = cwd ++ cs
    rw [if_neg hh, comps_rel cs rest h hr', hc, List.append_nil]

theorem cut_unique : ∀ {p d b c : List Nat}, p ++ 47 :: b = d ++ 47 :: c → 47 ∉ b → 47 ∉ c → p = d
  | [], [], _, _, _, _, _ => rfl
  | [], x :: d, b, c, e, hb, _ => by
    simp only [List.nil_append, List.cons_append, List.cons.injEq] at e
    exact absurd (by rw [e.2]; simp) hb
  | x :: p, [], b, c, e, _, hc => by
    simp only [List.nil_append, List.cons_append, List.cons.injEq] at e
    exact absurd (by rw [← e.2]; simp) hc
  | x :: p, y :: d, b, c, e, hb, hc => by
    simp only [List.cons_append, List.cons.injEq] at e
    rw [e.1, cut_unique e.2 hb hc]

theorem dirname_cut (p b : List Nat) (hb : 47 ∉ b) : Path.dirname (p ++ 47 :: b) = .ok p := by
  obtain ⟨d, c, h1, _, e, hc⟩ := (Path.split_lossless (p ++ 47 :: b)).1 (by simp)
  rw [h1]
  have : p = d := cut_unique (by rw [e]; simp) hb hc
  rw [this]

theorem dirname_plain (b : List Nat) (hb : 47 ∉ b) : Path.dirname b = .ok b := ((Path.split_lossless b).2 hb).1

/-- The directories from where the path starts to where it ends. -/
def OnWay (s cs k : List (List Nat)) : Prop := ∃ a b, cs = a ++ b ∧ k = s ++ a

/-- Directories are in directories. -/
def Closed (st : Dirs) : Prop := ∀ k c, st (k ++ [c]) = true → st k = true

theorem closed_way {st : Dirs} (hc : Closed st) {s cs k : List (List Nat)} (h : st (s ++ cs) = true) (hw : OnWay s cs k) : st k = true := by
  obtain ⟨a, b, rfl, rfl⟩ := hw
  rw [← List.append_assoc] at h
  generalize s ++ a = k at h
  induction hb : b.length generalizing b with
  | zero => rw [List.length_eq_zero_iff.1 hb] at h; simpa using h
  | succ n ih =>
    rcases List.eq_nil_or_concat b with rfl | ⟨b', x, rfl⟩
    · simp at hb
    · simp only [List.concat_eq_append] at h hb
      rw [← List.append_assoc] at h
      exact ih b' (hc _ _ h) (by simp at hb; exact hb)

/-- Making a directory whose parent is there. -/
theorem mkdir_new {cwd : List (List Nat)} {st : Dirs} {path : List Nat} {k : List (List Nat)} {c : List Nat}
    (hk : key cwd path = k ++ [c]) (hp : path ≠ []) (h0 : st (k ++ [c]) = false) (h1 : st k = true) :
    mkdir cwd st path = (fun x => decide (x = k ++ [c]) || st x, true) := by
  unfold mkdir
  simp [hk, hp, h0, h1]

theorem way_snoc {s cs k : List (List Nat)} {c : List Nat} : OnWay s (cs ++ [c]) k ↔ k = s ++ (cs ++ [c]) ∨ OnWay s cs k := by
  constructor
  · rintro ⟨a, b, e, rfl⟩
    rcases List.eq_nil_or_concat b with rfl | ⟨b', x, rfl⟩
    · rw [List.append_nil] at e; rw [← e]; exact .inl rfl
    · rw [List.concat_eq_append, ← List.append_assoc] at e
      have := (List.append_inj' e rfl).1
      exact .inr ⟨a, b', this, rfl⟩
  · rintro (rfl | ⟨a, b, rfl, rfl⟩)
    · exact ⟨cs ++ [c], [], by simp, rfl⟩
    · exact ⟨a, b ++ [c], by simp, rfl⟩

theorem render_ne {abs : Bool} {cs : List (List Nat)} (h : ∀ c ∈ cs, Name c) (hne : cs ≠ []) : render abs cs ≠ [] := by
  cases abs with
  | true => simp [render]
  | false =>
    match cs, hne with
    | [c], _ => simpa [render, rel] using (h c (by simp)).1
    | c :: d :: cs, _ => simp [render, rel]

theorem render_snoc (abs : Bool) {cs : List (List Nat)} (c : List Nat) (hne : cs ≠ []) :
    render abs (cs ++ [c]) = render abs cs ++ 47 :: c := by
  cases abs <;> simp [render, rel_snoc c hne]

theorem present_render (cwd : List (List Nat)) (st : Dirs) (abs : Bool) {cs : List (List Nat)} (h : ∀ c ∈ cs, Name c) (hne : cs ≠ []) :
    present cwd st (render abs cs) = st (start cwd abs ++ cs) := by
  have := key_render cwd abs cs h hne [] (.inl rfl)
  rw [List.append_nil] at this
  unfold present
  rw [this]
  have := render_ne (abs := abs) h hne
  cases hr : render abs cs with
  | nil => exact absurd hr this
  | cons x xs => rfl

/-- **All missing directories are made, and no others.** For a path of names with single separators (from the root or from the current
directory), afterwards every directory on the way exists, everything that was there is still there, and nothing else is new. -/
theorem mkdirs_right_partial (cwd : List (List Nat)) (abs : Bool) (st : Dirs) (hc : Closed st) (hs : st (start cwd abs) = true) :
    ∀ (m : Nat) (cs : List (List Nat)), cs.length = m + 1 → (∀ c ∈ cs, Name c) → ∀ n, m < n →
      ∃ st', mkdirs cwd n st (render abs cs) = (st', true) ∧ ∀ k, st' k = true ↔ st k = true ∨ OnWay (start cwd abs) cs k := by
  intro m
  induction m with
  | zero =>
    intro cs hl h n hn
    obtain ⟨n, rfl⟩ : ∃ k, n = k + 1 := ⟨n - 1, by omega⟩
    obtain ⟨c, rfl⟩ : ∃ c, cs = [c] := List.length_eq_one_iff.1 hl
    rw [mkdirs, present_render cwd st abs h (by simp)]
    by_cases hp : st (start cwd abs ++ [c]) = true
    · rw [if_pos hp]
      exact ⟨st, rfl, fun k => ⟨.inl, fun h => h.elim id (closed_way hc hp)⟩⟩
    · rw [if_neg hp]
      have hn := h c (by simp)
      have hk := key_render cwd abs [c] h (by simp) [] (.inl rfl)
      rw [List.append_nil] at hk
      have hmk := mkdir_new hk (render_ne h (by simp)) (by simpa using hp) hs
      have fin : ∃ st', mkdir cwd st (render abs [c]) = (st', true) ∧
          ∀ k, st' k = true ↔ st k = true ∨ OnWay (start cwd abs) [c] k := by
        refine ⟨_, hmk, fun k => ?_⟩
        have : OnWay (start cwd abs) [c] k ↔ k = start cwd abs ++ [c] ∨ OnWay (start cwd abs) [] k := way_snoc (cs := [])
        rw [this]
        have h0 : OnWay (start cwd abs) [] k → st k = true := by
          rintro ⟨a, b, e, rfl⟩
          have := (List.append_eq_nil_iff.1 e.symm).1
          subst this; simpa using hs
        constructor
        · intro h; simp at h; exact h.elim (fun e => .inr (.inl e)) .inl
        · rintro (h | h | h)
          · simp [h]
          · simp [h]
          · simp [h0 h]
      cases abs with
      | true =>
        have hd : Path.dirname (render true [c]) = .ok [] := dirname_cut [] c hn.2
        rw [hd]
        simpa using fin
      | false =>
        have hd : Path.dirname (render false [c]) = .ok (render false [c]) := dirname_plain c hn.2
        rw [hd]
        simpa using fin
  | succ m ih =>
    intro cs hl h n hn
    obtain ⟨n, rfl⟩ : ∃ k, n = k + 1 := ⟨n - 1, by omega⟩
    rcases List.eq_nil_or_concat cs with rfl | ⟨cs', c, rfl⟩
    · simp at hl
    simp only [List.concat_eq_append] at hl h ⊢
    have hl' : cs'.length = m + 1 := by simpa using hl
    have hne : cs' ≠ [] := fun e => by rw [e] at hl'; simp at hl'
    have h' : ∀ x ∈ cs', Name x := fun x hx => h x (by simp [hx])
    rw [mkdirs, present_render cwd st abs h (by simp)]
    by_cases hp : st (start cwd abs ++ (cs' ++ [c])) = true
    · rw [if_pos hp]
      exact ⟨st, rfl, fun k => ⟨.inl, fun h => h.elim id (closed_way hc hp)⟩⟩
    · rw [if_neg hp, render_snoc abs c hne, dirname_cut _ c (h c (by simp)).2]
      obtain ⟨st1, e1, hk1⟩ := ih cs' hl' h' n (by omega)
      have hcond : render abs cs' ≠ [] ∧ render abs cs' ++ 47 :: c ≠ render abs cs' := by
        refine ⟨render_ne h' hne, fun e => ?_⟩
        have := congrArg List.length e
        simp at this
      simp only [if_pos hcond, e1, if_true]
      have hk := key_render cwd abs (cs' ++ [c]) h (by simp) [] (.inl rfl)
      rw [List.append_nil, render_snoc abs c hne, ← List.append_assoc] at hk
      have h0 : st1 (start cwd abs ++ cs' ++ [c]) = false := by
        rw [Bool.eq_false_iff]
        intro ht
        rcases (hk1 _).1 ht with h | ⟨a, b, e, e'⟩
        · exact hp (by simpa using h)
        · have l1 := congrArg List.length e
          have l2 := congrArg List.length e'
          simp at l1 l2
          omega
      have h1 : st1 (start cwd abs ++ cs') = true := (hk1 _).2 (.inr ⟨cs', [], by simp, rfl⟩)
      refine ⟨_, mkdir_new hk (by simp) h0 h1, fun k => ?_⟩
      rw [way_snoc]
      simp only [Bool.or_eq_true, decide_eq_true_eq, hk1, List.append_assoc]
      constructor
      · rintro (h | h | h)
        · exact .inr (.inl h)
        · exact .inl h
        · exact .inr (.inr h)
      · rintro (h | h | h)
        · exact .inr (.inl h)
        · exact .inl h
        · exact .inr (.inr h)

/-- **With a separator at the end it fails after it has done its work**: if the directory is not there, it is made with all on the way
to it, and then an exception is raised. -/
theorem trailing_separator_fails (cwd : List (List Nat)) (abs : Bool) (st : Dirs) (hc : Closed st) (hs : st (start cwd abs) = true)
    (cs : List (List Nat)) (hne : cs ≠ []) (h : ∀ c ∈ cs, Name c) (missing : st (start cwd abs ++ cs) = false) (n : Nat)
    (hn : cs.length < n) :
    ∃ st', mkdirs cwd n st (render abs cs ++ [47]) = (st', false) ∧ ∀ k, st' k = true ↔ st k = true ∨ OnWay (start cwd abs) cs k := by
  obtain ⟨n, rfl⟩ : ∃ k, n = k + 1 := ⟨n - 1, by omega⟩
  have hpos : 0 < cs.length := List.length_pos_iff.2 hne
  obtain ⟨st1, e1, hk1⟩ := mkdirs_right_partial cwd abs st hc hs (cs.length - 1) cs (by omega) h n (by omega)
  have hk := key_render cwd abs cs h hne [47] (.inr rfl)
  have hp : present cwd st (render abs cs ++ [47]) = false := by
    unfold present; rw [hk, missing]; simp
  refine ⟨st1, ?_, hk1⟩
  rw [mkdirs, hp, dirname_cut _ [] (by simp)]
  have hcond : render abs cs ≠ [] ∧ render abs cs ++ [47] ≠ render abs cs :=
    ⟨render_ne h hne, fun e => by have := congrArg List.length e; simp at this⟩
  simp only [Bool.false_eq_true, if_false, if_pos hcond, e1, if_true]
  unfold mkdir
  have : st1 (start cwd abs ++ cs) = true := (hk1 _).2 (.inr ⟨cs, [], by simp, rfl⟩)
  simp [hk, this]

/-! ## Cases -/

/-- The root, and `a` in it. -/
def demo : Dirs := fun k => k == [] || k == [[97]]

example : Closed demo := by
  intro k c h
  simp only [demo, Bool.or_eq_true, beq_iff_eq] at h ⊢
  rcases h with h | h
  · simp at h
  · have := congrArg List.length h
    simp at this
    exact .inl (by simpa using this)

/-- `mkdirs("/a/b/c")` -/
example : ∃ st', mkdirs [] 3 demo (render true [[97], [98], [99]]) = (st', true) ∧ st' [[97], [98], [99]] = true ∧
    st' [[97], [98]] = true ∧ st' [[98]] = false := ⟨_, rfl, rfl, rfl, rfl⟩

/-- `mkdirs("/a/b/")` -/
example : ∃ st', mkdirs [] 3 demo (render true [[97], [98]] ++ [47]) = (st', false) ∧ st' [[97], [98]] = true ∧
    demo [[97], [98]] = false := ⟨_, rfl, rfl, rfl⟩

example : Name [97] ∧ Name [98] := ⟨⟨by simp, by simp⟩, ⟨by simp, by simp⟩⟩

end Verif.FsOps.Mkdirs
