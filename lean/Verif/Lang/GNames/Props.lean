import Verif.Lang.GNames.Model

/-!
# Theorems on the C names of declarations (C225)
-/

namespace Verif.GNames

/-- Specification: one thing, declared where it may be declared twice; an external
function is the same in every file. -/
def Same (d e : Nat × D) : Prop := d = e ∨ ∃ f, d.2 = .ext f ∧ e.2 = .ext f

/-- Specification: the C compiler takes the names: no identifier stands for two
things. -/
def Distinct (p : Program) : Prop :=
  ∀ d ∈ p.decls, ∀ e ∈ p.decls, cname (p.name d.1) d.2 = cname (p.name e.1) e.2 → Same d e

/-- What the checker makes sure of: in a file a name is a variable, a function, a type
or an external function, and a type has functions or options but not both. -/
structure Accepted (p : Program) : Prop where
  var_func : ∀ i x, (i, D.var x) ∈ p.decls → (i, D.func x) ∉ p.decls
  var_type : ∀ i x, (i, D.var x) ∈ p.decls → (i, D.type x) ∉ p.decls
  func_type : ∀ i x, (i, D.func x) ∈ p.decls → (i, D.type x) ∉ p.decls
  method_option : ∀ i s f a, (i, D.method s f) ∈ p.decls → (i, D.option s a) ∉ p.decls

/-- Specification: `t` is the name of a type in file `i`. -/
def IsType (p : Program) (i : Nat) (t : Name) : Prop :=
  (i, D.type t) ∈ p.decls ∨ (∃ f, (i, D.method t f) ∈ p.decls) ∨
    ∃ a, (i, D.option t a) ∈ p.decls

/-- The conditions on underscores. -/
structure Clean (p : Program) : Prop where
  files : ∀ i j, p.name i = p.name j → i = j
  modules : ∀ i m, p.name i = some m → m ≠ [] ∧ 95 ∉ m
  types : ∀ i t, IsType p i t → t ≠ [] ∧ 95 ∉ t
  /-- no variable or function is called `T_…` beside a type `T` -/
  prefixes : ∀ i t r, IsType p i t →
    (i, D.var (t ++ 95 :: r)) ∉ p.decls ∧ (i, D.func (t ++ 95 :: r)) ∉ p.decls
  /-- no type of the main file is called like a module -/
  main : ∀ i j t, p.name i = none → IsType p i t → p.name j ≠ some t
  /-- no external function is called like a type of the main file -/
  extern : ∀ i j f, (i, D.ext f) ∈ p.decls → p.name j = none → ¬ IsType p j f
  /-- nor `a_…`, where `a` is empty, a module or a type of the main file -/
  extern' : ∀ i a b, 95 ∉ a → (i, D.ext (a ++ 95 :: b)) ∈ p.decls →
    a ≠ [] ∧ (∀ j, p.name j ≠ some a) ∧ ∀ j, p.name j = none → ¬ IsType p j a

theorem split_eq : ∀ {a c b d : Name}, 95 ∉ a → 95 ∉ c → a ++ 95 :: b = c ++ 95 :: d →
    a = c ∧ b = d
  | [], [], b, d, _, _, h => by simpa using h
  | [], y :: c, b, d, _, hc, h => by
    simp only [List.nil_append, List.cons_append, List.cons.injEq] at h
    exact absurd (by simp [← h.1]) hc
  | x :: a, [], b, d, ha, _, h => by
    simp only [List.nil_append, List.cons_append, List.cons.injEq] at h
    exact absurd (by simp [h.1]) ha
  | x :: a, y :: c, b, d, ha, hc, h => by
    simp only [List.cons_append, List.cons.injEq] at h
    have := split_eq (a := a) (c := c) (fun q => ha (List.mem_cons_of_mem _ q))
      (fun q => hc (List.mem_cons_of_mem _ q)) h.2
    exact ⟨by rw [h.1, this.1], this.2⟩

/-- Where a name comes from: what is in front of the first underscore, and what is
behind it in the main file and in a module. -/
inductive Form (p : Program) (d : Nat × D) : Prop where
  /-- `m_r`, or `_r` in the main file -/
  | file (r : Name) (h : cname (p.name d.1) d.2 = (p.name d.1).getD [] ++ 95 :: r)
      (k : d.2 = .var r ∨ d.2 = .func r ∨ (∃ s f, d.2 = .method s f ∧ r = s ++ 95 :: f) ∨
        (d.2 = .type r ∧ p.name d.1 ≠ none) ∨
        (∃ e a, d.2 = .option e a ∧ r = e ++ 95 :: a ∧ p.name d.1 ≠ none))
  | mainType (t : Name) (hn : p.name d.1 = none) (k : d.2 = .type t)
      (h : cname (p.name d.1) d.2 = t)
  | mainOption (e a : Name) (hn : p.name d.1 = none) (k : d.2 = .option e a)
      (h : cname (p.name d.1) d.2 = e ++ 95 :: a)
  | ext (f : Name) (k : d.2 = .ext f) (h : cname (p.name d.1) d.2 = f)

theorem form (p : Program) (d : Nat × D) : Form p d := by
  obtain ⟨i, d⟩ := d
  cases d with
  | var x => exact .file x (by simp [cname, nsUnder]) (Or.inl rfl)
  | func x => exact .file x (by simp [cname, nsUnder]) (Or.inr (Or.inl rfl))
  | method s f =>
    exact .file (s ++ 95 :: f) (by simp [cname, nsUnder]) (Or.inr (Or.inr (Or.inl ⟨s, f, rfl, rfl⟩)))
  | type t =>
    cases hn : p.name i with
    | none => exact .mainType t hn rfl (by simp [cname, typeName, hn])
    | some m =>
      exact .file t (by simp [cname, typeName, hn])
        (Or.inr (Or.inr (Or.inr (Or.inl ⟨rfl, by simp [hn]⟩))))
  | option e a =>
    cases hn : p.name i with
    | none => exact .mainOption e a hn rfl (by simp [cname, typeName, hn])
    | some m =>
      exact .file (e ++ 95 :: a) (by simp [cname, typeName, hn])
        (Or.inr (Or.inr (Or.inr (Or.inr ⟨e, a, rfl, rfl, by simp [hn]⟩))))
  | ext f => exact .ext f rfl (by simp [cname])

theorem ns_no_underscore {p : Program} (c : Clean p) (i : Nat) : 95 ∉ (p.name i).getD [] := by
  cases h : p.name i with
  | none => simp
  | some m => simpa using (c.modules i m h).2

theorem ns_inj {p : Program} (c : Clean p) {i j : Nat}
    (h : (p.name i).getD [] = (p.name j).getD []) : i = j := by
  apply c.files
  cases hi : p.name i with
  | none =>
    cases hj : p.name j with
    | none => rfl
    | some m => rw [hi, hj] at h; exact absurd h.symm (c.modules j m hj).1
  | some m =>
    cases hj : p.name j with
    | none => rw [hi, hj] at h; exact absurd h (c.modules i m hi).1
    | some n => rw [hi, hj] at h; simpa using h

/-- What is behind the first underscore settles the declaration. -/
theorem rest_inj {p : Program} (ac : Accepted p) (c : Clean p) {i : Nat} {d e : D} {r : Name}
    (hd : (i, d) ∈ p.decls) (he : (i, e) ∈ p.decls)
    (kd : d = .var r ∨ d = .func r ∨ (∃ s f, d = .method s f ∧ r = s ++ 95 :: f) ∨
        (d = .type r ∧ p.name i ≠ none) ∨
        (∃ e a, d = .option e a ∧ r = e ++ 95 :: a ∧ p.name i ≠ none))
    (ke : e = .var r ∨ e = .func r ∨ (∃ s f, e = .method s f ∧ r = s ++ 95 :: f) ∨
        (e = .type r ∧ p.name i ≠ none) ∨
        (∃ e' a, e = .option e' a ∧ r = e' ++ 95 :: a ∧ p.name i ≠ none)) : d = e := by
  have tm : ∀ s f, (i, D.method s f) ∈ p.decls → IsType p i s :=
    fun s f h => Or.inr (Or.inl ⟨f, h⟩)
  have to : ∀ s f, (i, D.option s f) ∈ p.decls → IsType p i s :=
    fun s f h => Or.inr (Or.inr ⟨f, h⟩)
  have tt : ∀ s, (i, D.type s) ∈ p.decls → IsType p i s := fun s h => Or.inl h
  have un : ∀ (s f : Name), 95 ∈ s ++ 95 :: f := fun s f => by simp
  rcases kd with rfl | rfl | ⟨s, f, rfl, rfl⟩ | ⟨rfl, _⟩ | ⟨s, f, rfl, rfl, _⟩ <;>
    rcases ke with rfl | rfl | ⟨s', f', rfl, hr⟩ | ⟨rfl, _⟩ | ⟨s', f', rfl, hr, _⟩
  · rfl
  · exact absurd he (ac.var_func i _ hd)
  · subst hr; exact absurd hd (c.prefixes i s' f' (tm _ _ he)).1
  · exact absurd he (ac.var_type i _ hd)
  · subst hr; exact absurd hd (c.prefixes i s' f' (to _ _ he)).1
  · exact absurd hd (ac.var_func i _ he)
  · rfl
  · subst hr; exact absurd hd (c.prefixes i s' f' (tm _ _ he)).2
  · exact absurd he (ac.func_type i _ hd)
  · subst hr; exact absurd hd (c.prefixes i s' f' (to _ _ he)).2
  · exact absurd he (c.prefixes i s f (tm _ _ hd)).1
  · exact absurd he (c.prefixes i s f (tm _ _ hd)).2
  · have := split_eq (c.types i s (tm _ _ hd)).2 (c.types i s' (tm _ _ he)).2 hr
    rw [this.1, this.2]
  · exact absurd (un s f) (c.types i _ (tt _ he)).2
  · have := split_eq (c.types i s (tm _ _ hd)).2 (c.types i s' (to _ _ he)).2 hr
    rw [← this.1] at he
    exact absurd he (ac.method_option i s f f' hd)
  · exact absurd hd (ac.var_type i _ he)
  · exact absurd hd (ac.func_type i _ he)
  · rw [hr] at hd; exact absurd (un s' f') (c.types i _ (tt _ hd)).2
  · rfl
  · rw [hr] at hd; exact absurd (un s' f') (c.types i _ (tt _ hd)).2
  · exact absurd he (c.prefixes i s f (to _ _ hd)).1
  · exact absurd he (c.prefixes i s f (to _ _ hd)).2
  · have := split_eq (c.types i s (to _ _ hd)).2 (c.types i s' (tm _ _ he)).2 hr
    rw [← this.1] at he
    exact absurd hd (ac.method_option i s f' f he)
  · exact absurd (un s f) (c.types i _ (tt _ he)).2
  · have := split_eq (c.types i s (to _ _ hd)).2 (c.types i s' (to _ _ he)).2 hr
    rw [this.1, this.2]

theorem pair_eta (d : Nat × D) {e : D} (k : d.2 = e) : d = (d.1, e) := by
  cases d; simp at k; simp [k]

/-- Half of the comparison: no name of a file is the name of a type of the main file,
of an option there, or of an external function. -/
theorem file_ne {p : Program} (c : Clean p) {d e : Nat × D} (he : e ∈ p.decls) {r : Name}
    (h : cname (p.name d.1) d.2 = (p.name d.1).getD [] ++ 95 :: r)
    (hx : cname (p.name d.1) d.2 = cname (p.name e.1) e.2)
    (k : (∃ t, p.name e.1 = none ∧ e.2 = .type t) ∨
      (∃ t a, p.name e.1 = none ∧ e.2 = .option t a) ∨ ∃ f, e.2 = .ext f) : False := by
  rw [h] at hx
  have hd := ns_no_underscore c d.1
  rcases k with ⟨t, hn, k⟩ | ⟨t, a, hn, k⟩ | ⟨f, k⟩
  · have ht : IsType p e.1 t := Or.inl (by rw [← pair_eta e k]; exact he)
    rw [k, hn] at hx
    exact (c.types _ _ ht).2 (by simp [cname, typeName] at hx; simp [← hx])
  · have ht : IsType p e.1 t := Or.inr (Or.inr ⟨a, by rw [← pair_eta e k]; exact he⟩)
    rw [k, hn] at hx
    simp only [cname, typeName] at hx
    have q := (split_eq hd (c.types _ _ ht).2 hx).1
    cases hm : p.name d.1 with
    | none => rw [hm] at q; exact (c.types _ _ ht).1 q.symm
    | some m =>
      rw [hm] at q
      exact c.main e.1 d.1 t hn ht (by rw [hm]; simpa using q)
  · rw [k] at hx
    simp only [cname] at hx
    have he' : (e.1, D.ext ((p.name d.1).getD [] ++ 95 :: r)) ∈ p.decls := by
      rw [hx, ← pair_eta e k]; exact he
    have q := c.extern' e.1 _ r hd he'
    cases hm : p.name d.1 with
    | none => rw [hm] at q; exact q.1 rfl
    | some m => rw [hm] at q; exact q.2.1 d.1 (by simp [hm])

/-- C225: in a program that is accepted and whose underscores are clean, different
declarations have different names in the C file. -/
theorem names_distinct_partial (p : Program) (ac : Accepted p) (c : Clean p) : Distinct p := by
  intro d hd e he hx
  rcases form p d with ⟨r, h, k⟩ | ⟨t, hn, k, h⟩ | ⟨t, a, hn, k, h⟩ | ⟨f, k, h⟩ <;>
    rcases form p e with ⟨r', h', k'⟩ | ⟨t', hn', k', h'⟩ | ⟨t', a', hn', k', h'⟩ | ⟨f', k', h'⟩
  · have q := split_eq (ns_no_underscore c d.1) (ns_no_underscore c e.1) (by rw [← h, ← h', hx])
    have hi := ns_inj c q.1
    obtain ⟨i, d⟩ := d
    obtain ⟨j, e⟩ := e
    simp only at hi
    subst hi
    rw [← q.2] at k'
    exact Or.inl (by rw [rest_inj ac c hd he k k'])
  · exact (file_ne c he h hx (Or.inl ⟨t', hn', k'⟩)).elim
  · exact (file_ne c he h hx (Or.inr (Or.inl ⟨t', a', hn', k'⟩))).elim
  · exact (file_ne c he h hx (Or.inr (Or.inr ⟨f', k'⟩))).elim
  · exact (file_ne c hd h' hx.symm (Or.inl ⟨t, hn, k⟩)).elim
  · have hi := c.files _ _ (hn.trans hn'.symm)
    left
    rw [pair_eta d k, pair_eta e k', hi, ← h, ← h', hx]
  · have ht : IsType p d.1 t := Or.inl (by rw [← pair_eta d k]; exact hd)
    exact absurd (by rw [← h, hx, h']; simp) (c.types _ _ ht).2
  · exfalso
    have ht : IsType p d.1 t := Or.inl (by rw [← pair_eta d k]; exact hd)
    refine c.extern e.1 d.1 f' (by rw [← pair_eta e k']; exact he) hn ?_
    rw [← h', ← hx, h]; exact ht
  · exact (file_ne c hd h' hx.symm (Or.inr (Or.inl ⟨t, a, hn, k⟩))).elim
  · have ht : IsType p e.1 t' := Or.inl (by rw [← pair_eta e k']; exact he)
    exact absurd (by rw [← h', ← hx, h]; simp) (c.types _ _ ht).2
  · have hi := c.files _ _ (hn.trans hn'.symm)
    have ht : IsType p d.1 t := Or.inr (Or.inr ⟨a, by rw [← pair_eta d k]; exact hd⟩)
    have ht' : IsType p e.1 t' := Or.inr (Or.inr ⟨a', by rw [← pair_eta e k']; exact he⟩)
    have q := split_eq (c.types _ _ ht).2 (c.types _ _ ht').2 (by rw [← h, ← h', hx])
    left
    rw [pair_eta d k, pair_eta e k', hi, q.1, q.2]
  · exfalso
    have ht : IsType p d.1 t := Or.inr (Or.inr ⟨a, by rw [← pair_eta d k]; exact hd⟩)
    have he' : (e.1, D.ext (t ++ 95 :: a)) ∈ p.decls := by
      rw [← h, hx, h', ← pair_eta e k']; exact he
    exact (c.extern' e.1 t a (c.types _ _ ht).2 he').2.2 d.1 hn ht
  · exact (file_ne c hd h' hx.symm (Or.inr (Or.inr ⟨f, k⟩))).elim
  · exfalso
    have ht : IsType p e.1 t' := Or.inl (by rw [← pair_eta e k']; exact he)
    refine c.extern d.1 e.1 f (by rw [← pair_eta d k]; exact hd) hn' ?_
    rw [← h, hx, h']; exact ht
  · exfalso
    have ht : IsType p e.1 t' := Or.inr (Or.inr ⟨a', by rw [← pair_eta e k']; exact he⟩)
    have hd' : (d.1, D.ext (t' ++ 95 :: a')) ∈ p.decls := by
      rw [← h', ← hx, h, ← pair_eta d k]; exact hd
    exact (c.extern' d.1 t' a' (c.types _ _ ht).2 hd').2.2 e.1 hn' ht
  · right
    exact ⟨f, k, by rw [k', ← h', ← hx, h]⟩

/-! ### A program that meets the conditions -/

/-- `main` (file 0) with a type `T` (84) and its function `f`, a module `m` (109) with an
enumeration `E` (69), its option `A` and a variable `x_y`, an external `a_b`. -/
def sample : Program where
  name := fun i => if i = 0 then none else some (List.replicate i 109)
  decls := [(0, .type [84]), (0, .method [84] [102]), (1, .type [69]), (1, .option [69] [65]),
    (1, .var [120, 95, 121]), (1, .ext [97, 95, 98])]

theorem sample_type {i : Nat} {t : Name} (h : IsType sample i t) :
    (i = 0 ∧ t = [84]) ∨ (i = 1 ∧ t = [69]) := by
  rcases h with h | ⟨f, h⟩ | ⟨a, h⟩ <;> simp [sample] at h <;> simp [h]

theorem sample_ext {i : Nat} {f : Name} (h : (i, D.ext f) ∈ sample.decls) :
    f = [97, 95, 98] := by
  simp [sample] at h
  exact h.2

example : Accepted sample where
  var_func := fun i x h => by simp [sample]
  var_type := fun i x h => by
    simp [sample] at h ⊢
    simp [h]
  func_type := fun i x h => by simp [sample] at h
  method_option := fun i s f a h => by
    simp [sample] at h ⊢
    simp [h]

example : Clean sample where
  files := fun i j h => by
    simp only [sample] at h
    split at h <;> split at h
    · omega
    · simp at h
    · simp at h
    · simpa using h
  modules := fun i m h => by
    simp only [sample] at h
    split at h
    · simp at h
    · rename_i hi
      simp only [Option.some.injEq] at h
      subst h
      exact ⟨by simpa using hi, by simp⟩
  types := fun i t h => by
    rcases sample_type h with ⟨_, rfl⟩ | ⟨_, rfl⟩ <;> simp
  prefixes := fun i t r h => by
    rcases sample_type h with ⟨rfl, rfl⟩ | ⟨rfl, rfl⟩ <;> simp [sample]
  main := fun i j t hn h => by
    rcases sample_type h with ⟨rfl, rfl⟩ | ⟨rfl, rfl⟩
    · simp only [sample]
      split
      · simp
      · intro q
        simp only [Option.some.injEq] at q
        have : 84 ∈ List.replicate j 109 := by rw [q]; simp
        simp at this
    · simp [sample] at hn
  extern := fun i j f h hn ht => by
    have := sample_ext h
    subst this
    rcases sample_type ht with ⟨_, q⟩ | ⟨_, q⟩ <;> simp at q
  extern' := fun i a b ha h => by
    have q := sample_ext h
    have : a = [97] := (split_eq (c := [97]) (d := [98]) ha (by simp) (by simpa using q)).1
    subst this
    refine ⟨by simp, fun j => ?_, fun j hn ht => ?_⟩
    · simp only [sample]
      split
      · simp
      · intro q
        simp only [Option.some.injEq] at q
        have : 97 ∈ List.replicate j 109 := by rw [q]; simp
        simp at this
    · rcases sample_type ht with ⟨_, q⟩ | ⟨_, q⟩ <;> simp at q

/-! ### The conditions are needed -/

/-- C225 is false of the code: a function or variable `T_f` beside a type `T` with a
function `f`, or (outside the main file) an option `f`, whatever the names are. -/
theorem member_clash (p : Program) (i : Nat) (t f : Name)
    (h : (i, D.func (t ++ 95 :: f)) ∈ p.decls ∨ (i, D.var (t ++ 95 :: f)) ∈ p.decls)
    (hm : (i, D.method t f) ∈ p.decls ∨ (i, D.option t f) ∈ p.decls ∧ p.name i ≠ none) :
    ¬ Distinct p := by
  intro q
  have nm : ∀ n, p.name i = some n → cname (p.name i) (.option t f) = n ++ 95 :: (t ++ 95 :: f) :=
    fun n hn => by simp [cname, typeName, hn]
  rcases h with h | h <;> rcases hm with hm | ⟨hm, hn⟩
  · rcases q _ h _ hm (by simp [cname, nsUnder]) with r | ⟨_, r, _⟩ <;> simp at r
  · obtain ⟨n, hn⟩ := Option.ne_none_iff_exists'.mp hn
    rcases q _ h _ hm (by rw [nm n hn]; simp [cname, nsUnder, hn]) with r | ⟨_, r, _⟩ <;> simp at r
  · rcases q _ h _ hm (by simp [cname, nsUnder]) with r | ⟨_, r, _⟩ <;> simp at r
  · obtain ⟨n, hn⟩ := Option.ne_none_iff_exists'.mp hn
    rcases q _ h _ hm (by rw [nm n hn]; simp [cname, nsUnder, hn]) with r | ⟨_, r, _⟩ <;> simp at r

/-- C225 is false of the code: a function `b_c` in a module `a` and a function `c` in a
module `a_b`. -/
theorem module_clash (p : Program) (i j : Nat) (a b c : Name) (hi : p.name i = some a)
    (hj : p.name j = some (a ++ 95 :: b)) (h : (i, D.func (b ++ 95 :: c)) ∈ p.decls)
    (h' : (j, D.func c) ∈ p.decls) : ¬ Distinct p := by
  intro q
  rcases q _ h _ h' (by simp [cname, nsUnder, hi, hj]) with r | ⟨_, r, _⟩
  · have : b ++ 95 :: c = c := by simpa using congrArg (fun x => x.2) r
    have := congrArg List.length this
    simp at this
    omega
  · simp at r

/-- C225 is false of the code: whatever two modules of the same name both declare,
though they stand in different files and no program imports both by the same path. -/
theorem same_module_name_clash (p : Program) (i j : Nat) (m : Name) (d : D) (hij : i ≠ j)
    (hi : p.name i = some m) (hj : p.name j = some m) (hd : ∀ f, d ≠ .ext f)
    (h : (i, d) ∈ p.decls) (h' : (j, d) ∈ p.decls) : ¬ Distinct p := by
  intro q
  rcases q _ h _ h' (by simp [hi, hj]) with r | ⟨f, r, _⟩
  · exact hij (by simpa using congrArg (fun x => x.1) r)
  · exact hd f r

example : ¬ Distinct ⟨fun _ => some [109], [(0, .type [80]), (0, .method [80] [110]),
    (0, .func [80, 95, 110])]⟩ :=
  member_clash _ 0 [80] [110] (Or.inl (by decide)) (Or.inl (by decide))

end Verif.GNames
