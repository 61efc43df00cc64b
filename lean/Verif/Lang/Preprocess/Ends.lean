import Verif.Lang.Preprocess.Props

/-! # Whether macro expansion ends, and names that are captured -/
namespace Verif.Preprocess

variable {G : Table}

/-- A call has as many arguments as the macro has parameters. -/
def FitsArity (G : Table) (m : Nat) (as : List Tm) : Prop :=
  ∀ ps b, G m = some (.decl ps (some b)) → as.length = ps.length

/-- The macros used in a body or value come before the macro itself in some order, and are used with
the right number of arguments. -/
structure Ordered (G : Table) (rank : Nat → Nat) : Prop where
  bodies : ∀ n ps b, G n = some (.decl ps (some b)) →
    Uses (fun m as => FitsArity G m as ∧ ((G m).isSome → rank m < rank n)) b
  values : ∀ n v, G n = some (.value v) →
    Uses (fun m as => FitsArity G m as ∧ ((G m).isSome → rank m < rank n)) v

/-- Calls of a term that can be expanded using macros below `r`. -/
def Below (G : Table) (rank : Nat → Nat) (r : Nat) (m : Nat) (as : List Tm) : Prop :=
  ¬ IsParam G m ∧ FitsArity G m as ∧ ((G m).isSome → rank m < r)

theorem subst_uses {Q : Nat → List Tm → Prop} (hQ : ∀ m as bs, as.length = bs.length → Q m as → Q m bs)
    {σ : Nat → Option Tm} (t : Tm) (hσ : ∀ m v, σ m = some v → Uses Q v)
    (ht : Uses (fun m as => (σ m).isSome ∨ Q m as) t) : Uses Q (subst σ t) := by
  induction t using Tm.ind with
  | hn c ts ih =>
    simp only [Uses, usesAll_iff, subst, substs_eq] at *
    intro u hu
    obtain ⟨t, ht', rfl⟩ := List.mem_map.1 hu
    exact ih t ht' (ht t ht')
  | hc n ts ih =>
    simp only [Uses, usesAll_iff] at ht
    simp only [subst]
    cases hn : σ n with
    | some v => exact hσ n v hn
    | none =>
      simp only [Option.getD_none, Uses, substs_eq, usesAll_iff]
      refine ⟨?_, fun u hu => ?_⟩
      · rcases ht.1 with h | h
        · rw [hn] at h; cases h
        · exact hQ n ts _ (by simp) h
      · obtain ⟨t, ht', rfl⟩ := List.mem_map.1 hu
        exact ih t ht' (ht.2 t ht')

theorem below_length {rank : Nat → Nat} {r : Nat} (m : Nat) (as bs : List Tm) (h : as.length = bs.length)
    (hb : Below G rank r m as) : Below G rank r m bs :=
  ⟨hb.1, fun ps b hg => by rw [← h]; exact hb.2.1 ps b hg, hb.2.2⟩

theorem uses_and {Q R : Nat → List Tm → Prop} (t : Tm) (h1 : Uses Q t) (h2 : Uses R t) :
    Uses (fun m as => Q m as ∧ R m as) t := by
  induction t using Tm.ind with
  | hn c ts ih =>
    simp only [Uses, usesAll_iff] at *
    exact fun t ht => ih t ht (h1 t ht) (h2 t ht)
  | hc n ts ih =>
    simp only [Uses, usesAll_iff] at *
    exact ⟨⟨h1.1, h2.1⟩, fun t ht => ih t ht (h1.2 t ht) (h2.2 t ht)⟩

/-- Every term has a meaning when the macros are ordered. -/
theorem meaning_exists (hG : Hygienic G) (rank : Nat → Nat) (ho : Ordered G rank) (r : Nat) :
    ∀ t, Uses (Below G rank r) t → ∀ us us', Expands G us us' → ∃ t', Expands G (t :: us) (t' :: us') := by
  induction r using Nat.strongRecOn with
  | _ r ihr =>
    intro t
    induction t using Tm.ind with
    | hn c ts ih =>
      intro h us us' hu
      simp only [Uses, usesAll_iff] at h
      have : ∃ ts', Expands G ts ts' := by
        clear hu
        induction ts with
        | nil => exact ⟨[], .nil⟩
        | cons t ts ih2 =>
          obtain ⟨ts', h2⟩ := ih2 (fun u hu => ih u (by simp [hu])) (fun u hu => h u (by simp [hu]))
          obtain ⟨t', h1⟩ := ih t (by simp) (h t (by simp)) ts ts' h2
          exact ⟨_, h1⟩
      obtain ⟨ts', hts⟩ := this
      exact ⟨_, .node c ts ts' us us' hts hu⟩
    | hc n ts ih =>
      intro h us us' hu
      simp only [Uses, usesAll_iff] at h
      have : ∃ ts', Expands G ts ts' := by
        replace h := h.2
        clear hu
        induction ts with
        | nil => exact ⟨[], .nil⟩
        | cons t ts ih2 =>
          obtain ⟨ts', h2⟩ := ih2 (fun u hu => ih u (by simp [hu])) (fun u hu => h u (by simp [hu]))
          obtain ⟨t', h1⟩ := ih t (by simp) (h t (by simp)) ts ts' h2
          exact ⟨_, h1⟩
      obtain ⟨ts', hts⟩ := this
      obtain ⟨⟨hnp, har, hr⟩, hts0⟩ := h
      cases hg : G n with
      | none => exact ⟨_, .other n ts ts' us us' hg hts hu⟩
      | some e =>
        have hlt := hr (by simp [hg])
        cases e with
        | value v =>
          obtain ⟨v', hv⟩ := ihr (rank n) hlt v (Uses.mono (fun m as h => ⟨h.1, h.2.1, h.2.2⟩) v
            (uses_and v (hG.values n v hg) (ho.values n v hg))) [] [] .nil
          exact ⟨_, .value n v v' ts ts' us us' hg hts hv hu⟩
        | decl ps b =>
          cases b with
          | none => exact ⟨_, .empty n ps ts ts' us us' hg hts hu⟩
          | some b =>
            have hl := har ps b hg
            have hl' : ts'.length = ps.length := by rw [← hl]; exact expands_length hts
            have hclean := expands_clean hG hts (usesAll_iff.2 fun t ht =>
              Uses.mono (fun m as h => h.1) t (hts0 t ht))
            have hbody : Uses (Below G rank (rank n)) (subst (pairing ps ts') b) := by
              refine subst_uses below_length b (fun m v hv => ?_) ?_
              · refine Uses.mono (fun m as h => ?_) v (usesAll_iff.1 hclean v (pairing_some hv).2)
                exact ⟨h.1, fun ps b hb => by rw [h.2] at hb; (cases hb), fun hs => by rw [h.2] at hs; cases hs⟩
              · refine Uses.mono (fun m as h => ?_) b (uses_and b (hG.bodies n ps b hg) (ho.bodies n ps b hg))
                rcases h.1 with ⟨h1, _⟩ | h1
                · left
                  obtain ⟨v, hv⟩ := pairing_of_mem h1 hl'
                  rw [hv]; rfl
                · exact .inr ⟨h1, h.2.1, h.2.2⟩
            obtain ⟨t', ht'⟩ := ihr (rank n) hlt _ hbody [] [] .nil
            exact ⟨_, .call n ps b t' ts ts' us us' hg hts hl ht' hu⟩

/-- What is missing of C126: macros that use themselves (`recursive_macro_never_ends`), and names that
are captured (`argument_captured`). **C126** for the others: when the macros are ordered and used with
the right number of arguments, the preprocessor expands every program, with the meaning of C125. -/
theorem expansion_ends_partial (hG : Hygienic G) (rank : Nat → Nat) (ho : Ordered G rank) (t : Tm)
    (ht : Outside G t) (ha : Uses (FitsArity G) t) :
    ∃ t', (∃ f, expand G f [] t = .ok t') ∧ Expands G [t] [t'] ∧
      ∀ f t'', expand G f [] t = .ok t'' → t'' = t' := by
  obtain ⟨r, hr⟩ : ∃ r, Uses (Below G rank r) t := by
    have hmax : ∀ t, Outside G t → Uses (FitsArity G) t → ∃ r, ∀ r', r ≤ r' → Uses (Below G rank r') t := by
      intro t
      have hall : ∀ ts : List Tm, (∀ t ∈ ts, Outside G t → Uses (FitsArity G) t →
          ∃ r, ∀ r', r ≤ r' → Uses (Below G rank r') t) → (∀ t ∈ ts, Outside G t) →
          (∀ t ∈ ts, Uses (FitsArity G) t) → ∃ r, ∀ r', r ≤ r' → ∀ t ∈ ts, Uses (Below G rank r') t := by
        intro ts
        induction ts with
        | nil => intro _ _ _; exact ⟨0, by simp⟩
        | cons t ts ih =>
          intro h1 h2 h3
          obtain ⟨r1, hr1⟩ := ih (fun u hu => h1 u (by simp [hu])) (fun u hu => h2 u (by simp [hu]))
            (fun u hu => h3 u (by simp [hu]))
          obtain ⟨r2, hr2⟩ := h1 t (by simp) (h2 t (by simp)) (h3 t (by simp))
          refine ⟨max r1 r2, fun r' hr' u hu => ?_⟩
          rcases List.mem_cons.1 hu with rfl | hu
          · exact hr2 r' (by omega)
          · exact hr1 r' (by omega) u hu
      induction t using Tm.ind with
      | hn c ts ih =>
        intro h1 h2
        obtain ⟨r, hr⟩ := hall ts ih (usesAll_iff.1 h1) (usesAll_iff.1 h2)
        exact ⟨r, fun r' hr' => usesAll_iff.2 (hr r' hr')⟩
      | hc n ts ih =>
        intro h1 h2
        obtain ⟨r, hr⟩ := hall ts ih (usesAll_iff.1 h1.2) (usesAll_iff.1 h2.2)
        refine ⟨max r (rank n + 1), fun r' hr' => ⟨⟨h1.1, h2.1, fun _ => by omega⟩, ?_⟩⟩
        exact usesAll_iff.2 (hr r' (by omega))
    obtain ⟨r, hr⟩ := hmax t ht ha
    exact ⟨r, hr r (Nat.le_refl r)⟩
  obtain ⟨t', h⟩ := meaning_exists hG rank ho r t hr [] [] .nil
  refine ⟨t', (expansion_is_substitution_partial hG t t' ht).2 h, h, fun f t'' hf => ?_⟩
  obtain ⟨N, hN⟩ := ev_single (expand_complete hG h [] [t] envOk_nil ⟨outside_suits ht, trivial⟩ (substs_nil _))
  have h2 := (expansion_is_substitution_partial hG t t'' ht).1 ⟨f, hf⟩
  obtain ⟨M, hM⟩ := ev_single (expand_complete hG h2 [] [t] envOk_nil ⟨outside_suits ht, trivial⟩ (substs_nil _))
  have a1 := hN (max N M) (by omega)
  have a2 := hM (max N M) (by omega)
  simp only at a1 a2
  rw [a1] at a2
  cases a2
  rfl

/-! ## An example -/

/-- `macro twice(x) =(x! + x!)`, `macro four(y) =(twice!(twice!(y!)))`: macro 1 with parameter 11, macro
2 with parameter 12, and node 7 for `+`. -/
def sample : Table := fun n =>
  if n = 1 then some (.decl [11] (some (.node 7 [.call 11 [], .call 11 []])))
  else if n = 2 then some (.decl [12] (some (.call 1 [.call 1 [.call 12 []]])))
  else none

theorem sample_params (p : Nat) (h : IsParam sample p) : p = 11 ∨ p = 12 := by
  obtain ⟨n, ps, b, hn, hp⟩ := h
  unfold sample at hn
  split at hn
  · cases hn; simp at hp; exact .inl hp
  · split at hn
    · cases hn; simp at hp; exact .inr hp
    · cases hn

theorem sample_hygienic : Hygienic sample where
  apart := by
    intro p h
    rcases sample_params p h with rfl | rfl <;> rfl
  nodup := by
    intro n ps b hn
    unfold sample at hn
    split at hn
    · cases hn; simp [ignored]
    · split at hn
      · cases hn; simp [ignored]
      · cases hn
  bodies := by
    intro n ps b hn
    unfold sample at hn
    split at hn
    · cases hn; simp [Uses, UsesAll]
    · split at hn
      · cases hn
        have h1 : ¬ IsParam sample 1 := fun h => by rcases sample_params 1 h with h | h <;> cases h
        simp [Uses, UsesAll, h1]
      · cases hn
  values := by
    intro n v hn
    unfold sample at hn
    split at hn
    · cases hn
    · split at hn <;> cases hn

theorem sample_ordered : Ordered sample id where
  bodies := by
    intro n ps b hn
    unfold sample at hn
    split at hn
    · cases hn; simp [Uses, UsesAll, FitsArity, sample]
    · split at hn
      · cases hn
        rename_i _ h; subst h
        simp [Uses, UsesAll, FitsArity, sample]
      · cases hn
  values := by
    intro n v hn
    unfold sample at hn
    split at hn
    · cases hn
    · split at hn <;> cases hn

/-- `four!(5)` is `(5 + 5) + (5 + 5)` -/
example : expand sample 10 [] (.call 2 [.node 5 []]) =
    .ok (.node 7 [.node 7 [.node 5 [], .node 5 []], .node 7 [.node 5 [], .node 5 []]]) := rfl

example : Outside sample (.call 2 [.node 5 []]) ∧ Uses (FitsArity sample) (.call 2 [.node 5 []]) := by
  have h1 : ¬ IsParam sample 2 := fun h => by rcases sample_params 2 h with h | h <;> cases h
  simp [Outside, Uses, UsesAll, FitsArity, sample, h1]

/-! ## Expansions that do not end -/

theorem visitAll_mem_ok {visit : Tm → Out Tm} {ts us : List Tm} (h : visitAll visit ts = .ok us) :
    ∀ t ∈ ts, ∃ u, visit t = .ok u := by
  induction ts generalizing us with
  | nil => simp
  | cons t ts ih =>
    obtain ⟨u, us', rfl, h1, h2⟩ := visitAll_cons_ok h
    intro x hx
    rcases List.mem_cons.1 hx with rfl | hx
    · exact ⟨u, h1⟩
    · exact ih h2 x hx

/-- A call in a term is expanded, in the same scopes, before the term is. -/
theorem mentioned_expanded {m : Nat} {b : Tm} (hm : Mentions m b) :
    ∀ (f : Nat) (env : Env) (t' : Tm), expand G f env b = .ok t' →
      ∃ g args u, g ≤ f ∧ expand G g env (.call m args) = .ok u := by
  induction hm with
  | here args => exact fun f env t' h => ⟨f, args, t', Nat.le_refl f, h⟩
  | node c ts t ht _ ih =>
    intro f env t' h
    cases f with
    | zero => cases h
    | succ f =>
      obtain ⟨ts', h1, _⟩ := expand_node_ok h
      obtain ⟨u, hu⟩ := visitAll_mem_ok h1 t ht
      obtain ⟨g, args, v, hg, hv⟩ := ih f env u hu
      exact ⟨g, args, v, by omega, hv⟩
  | arg n ts t ht _ ih =>
    intro f env t' h
    cases f with
    | zero => cases h
    | succ f =>
      obtain ⟨ts', h1⟩ := expand_call_ok h
      obtain ⟨u, hu⟩ := visitAll_mem_ok h1 t ht
      obtain ⟨g, args, v, hg, hv⟩ := ih f env u hu
      exact ⟨g, args, v, by omega, hv⟩

/-- C126 is false of the code: no expansion of a macro that uses itself in its body ever ends well. -/
theorem recursive_macro_never_ends (m : Nat) (ps : List Nat) (b : Tm) (hg : G m = some (.decl ps (some b)))
    (hm : Mentions m b) (f : Nat) : ∀ (env : Env) (args : List Tm) (t' : Tm),
      expand G f env (.call m args) ≠ .ok t' := by
  induction f using Nat.strongRecOn with
  | _ f ih =>
    intro env args t' h
    cases f with
    | zero => cases h
    | succ f =>
      obtain ⟨args', h1⟩ := expand_call_ok h
      simp only [expand, h1, Out.bind_ok, find, hg] at h
      split at h
      · cases h
      · cases hb : bindArgs (expand G f) [] ps args' env with
        | ok env' =>
          rw [hb, Out.bind_ok] at h
          obtain ⟨g, as, u, hle, hu⟩ := mentioned_expanded hm f env' t' h
          exact ih g (by omega) env' as u hu
        | _ => simp [hb] at h

/-- With no arguments it recurses without end. -/
theorem recursive_macro_diverges (m : Nat) (hg : G m = some (.decl [] (some (.call m [])))) (f : Nat)
    (env : Env) : expand G f env (.call m []) = .diverge := by
  induction f with
  | zero => rfl
  | succ f ih => simp [expand, visitAll, find, hg, bindArgs, ih]

/-- `macro m(x) =(m!(x!))` -/
example : Mentions 1 (.call 1 [.call 11 []]) := .here _

/-- C126 is false of the code also without recursion: let a macro have a parameter `p` that it uses, and
let `p!` be no macro of the program (for example one of the builtin macros `file!`, `line!`). Calling the
macro with `p!` as its argument for `p` never ends well, as the argument refers to itself. -/
theorem argument_captured (m p : Nat) (b : Tm) (hg : G m = some (.decl [p] (some b))) (hp : G p = none)
    (hm : Mentions p b) (f : Nat) (t' : Tm) :
    expand G f [] (.call m [.call p []]) ≠ .ok t' := by
  intro h
  cases f with
  | zero => cases h
  | succ f =>
    obtain ⟨args', h1⟩ := expand_call_ok h
    have hself : ∀ (g : Nat) (args : List Tm) (t' : Tm),
        expand G g [(p, .call p [])] (.call p args) ≠ .ok t' := by
      intro g
      induction g with
      | zero => intro args t' h; cases h
      | succ g ih =>
        intro args t' h
        obtain ⟨as', h2⟩ := expand_call_ok h
        simp only [expand, h2, Out.bind_ok, find, hp, List.lookup_cons, beq_self_eq_true, Option.map_some] at h
        exact ih [] t' h
    have hargs : args' = [.call p []] := by
      obtain ⟨u, us, rfl, h2, h3⟩ := visitAll_cons_ok h1
      simp only [visitAll, Out.ok.injEq] at h3
      subst h3
      cases f with
      | zero => cases h2
      | succ f =>
        simp only [expand, visitAll, Out.bind_ok, find, hp, List.lookup_nil, Option.map_none, Out.ok.injEq] at h2
        rw [h2]
    subst hargs
    simp only [expand, h1, Out.bind_ok, find, hg] at h
    split at h
    · cases h
    · cases hb : bindArgs (expand G f) [] [p] [.call p []] [] with
      | ok env' =>
        rw [hb, Out.bind_ok] at h
        have henv : env' = [(p, .call p [])] := by
          simp only [bindArgs] at hb
          cases f with
          | zero => simp [expand] at hb
          | succ f =>
            simp only [expand, visitAll, Out.bind_ok, find, hp, List.lookup_nil, Option.map_none] at hb
            split at hb
            · cases hb
            · simp only [Out.ok.injEq] at hb; exact hb.symm
        subst henv
        obtain ⟨g, as, u, _, hu⟩ := mentioned_expanded hm f _ t' h
        exact hself g as u hu
      | _ => simp [hb] at h

/-- `macro log(file) =(print(file!))`, called as `log!(file!)`. -/
example : Mentions 11 (.node 7 [.call 11 []]) := .node 7 [.call 11 []] (.call 11 []) (by simp) (.here _)

/-! ## Names that are captured -/

theorem expand_leaf (f : Nat) (env : Env) (d : Nat) : expand G (f + 1) env (.node d []) = .ok (.node d []) := rfl

theorem expand_plain (f : Nat) (env : Env) (n : Nat) (b : Tm) (h : G n = some (.decl [] (some b))) :
    expand G (f + 1) env (.call n []) = expand G f env b := by
  simp only [expand, visitAll, Out.bind_ok, find, h]
  rfl

theorem expand_one (f : Nat) (env : Env) (n x d : Nat) (b : Tm) (h : G n = some (.decl [x] (some b)))
    (hx : x ≠ ignored) :
    expand G (f + 2) env (.call n [.node d []]) = expand G (f + 1) ((x, .node d []) :: env) b := by
  rw [expand]
  simp only [visitAll, expand_leaf, Out.bind_ok, find, h, List.length_singleton, ne_eq, not_true_eq_false,
    if_false, bindArgs, hx, List.not_mem_nil, or_self]

theorem expand_scope (f : Nat) (env : Env) (x d : Nat) (h : G x = none) :
    expand G (f + 2) ((x, .node d []) :: env) (.call x []) = .ok (.node d []) := by
  rw [expand]
  simp only [visitAll, Out.bind_ok, find, h, List.lookup_cons, beq_self_eq_true, Option.map_some, expand_leaf]

/-- C125 is false of the code: a macro of the program replaces the parameters of the same name of all
other macros. `isSpace!(c)` for `macro isSpace(X) =(...X!...)` becomes `isSpace!(5)` in a program that
has `macro X 5`; here the body is just `X!`. -/
theorem global_captures_parameter (m x c d : Nat) (hx : x ≠ ignored)
    (hm : G m = some (.decl [x] (some (.call x [])))) (hg : G x = some (.decl [] (some (.node c [])))) :
    Ev (fun f => expand G f [] (.call m [.node d []])) (.ok (.node c [])) ∧
    Expands G [.call m [.node d []]] [.node d []] := by
  constructor
  · refine ⟨4, fun f hf => ?_⟩
    obtain ⟨g, rfl⟩ : ∃ g, f = g + 4 := ⟨f - 4, by omega⟩
    show expand G (g + 2 + 2) _ _ = _
    rw [expand_one _ _ _ _ _ _ hm hx, expand_plain _ _ _ _ hg, expand_leaf]
  · refine .call m [x] (.call x []) (.node d []) _ [.node d []] _ _ hm ?_ rfl ?_ .nil
    · exact .node d _ _ _ _ .nil .nil
    · simp only [subst, pairing, List.zip_cons_cons, List.lookup_cons, beq_self_eq_true, Option.getD_some]
      exact .node d _ _ _ _ .nil .nil

example : ∃ G : Table, G 1 = some (.decl [11] (some (.call 11 []))) ∧ G 11 = some (.decl [] (some (.node 5 []))) :=
  ⟨fun n => if n = 1 then some (.decl [11] (some (.call 11 []))) else if n = 11 then
    some (.decl [] (some (.node 5 []))) else none, rfl, rfl⟩

/-- C125 is false of the code: the body of a macro sees the parameters of the macros it is expanded
in. Here `inner` uses the builtin `x!` (as `assert` uses `line!`), and `outer(x)` calls `inner`. -/
theorem inner_macro_sees_parameter (outer inner x d : Nat) (hx : x ≠ ignored) (hb : G x = none)
    (ho : G outer = some (.decl [x] (some (.call inner [])))) (hi : G inner = some (.decl [] (some (.call x [])))) :
    Ev (fun f => expand G f [] (.call outer [.node d []])) (.ok (.node d [])) ∧
    Expands G [.call outer [.node d []]] [.call x []] := by
  constructor
  · refine ⟨5, fun f hf => ?_⟩
    obtain ⟨g, rfl⟩ : ∃ g, f = g + 5 := ⟨f - 5, by omega⟩
    show expand G (g + 3 + 2) _ _ = _
    rw [expand_one _ _ _ _ _ _ ho hx, expand_plain _ _ _ _ hi, expand_scope _ _ _ _ hb]
  · refine .call outer [x] (.call inner []) (.call x []) _ [.node d []] _ _ ho ?_ rfl ?_ .nil
    · exact .node d _ _ _ _ .nil .nil
    · have hne : inner ≠ x := by rintro rfl; rw [hb] at hi; cases hi
      have hb' : (inner == x) = false := by simpa using hne
      simp only [subst, pairing, List.zip_cons_cons, List.lookup_cons, hb', List.zip_nil_right, List.lookup_nil,
        Option.getD_none, substs]
      refine .call inner [] (.call x []) (.call x []) _ [] _ _ hi .nil rfl ?_ .nil
      simp only [subst, pairing, List.zip_nil_right, List.lookup_nil, Option.getD_none, substs]
      exact .other x _ _ _ _ hb .nil .nil

example : ∃ G : Table, G 11 = none ∧ G 1 = some (.decl [11] (some (.call 2 []))) ∧
    G 2 = some (.decl [] (some (.call 11 []))) :=
  ⟨fun n => if n = 1 then some (.decl [11] (some (.call 2 []))) else if n = 2 then
    some (.decl [] (some (.call 11 []))) else none, rfl, rfl, rfl⟩

end Verif.Preprocess
