import Verif.Driver.Modules.Model

/-! # Which modules are compiled, and in which order

C218: when a program compiles, the code of every module it needs is written exactly once, after the code of the modules
it imports.  C219: a program compiles exactly when all the files it needs are there and no module imports itself, directly
or through others; when one does, the compiler never answers. -/

namespace Verif.Modules

/-! ## Specification -/

/-- File `p` has an import of file `q`. -/
def Imports (g : Files) (p q : Nat) : Prop := ∃ is, (p, is) ∈ g ∧ g.lookup p = some is ∧ q ∈ is

/-- `q` is `p`, or something that `p` imports, directly or through others. -/
inductive Needs (g : Files) : Nat → Nat → Prop
  | refl (p) : Needs g p p
  | step {p q r} : Imports g p q → Needs g q r → Needs g p r

/-- The file exists. -/
def Exists (g : Files) (p : Nat) : Prop := ∃ is, (p, is) ∈ g

theorem Needs.trans {g : Files} {a b c : Nat} (h : Needs g a b) (h' : Needs g b c) : Needs g a c := by
  induction h with
  | refl => exact h'
  | step e _ ih => exact .step e (ih h')

theorem lookup_mem {g : Files} {p : Nat} {is : List Nat} (h : g.lookup p = some is) : (p, is) ∈ g := by
  induction g with
  | nil => simp at h
  | cons x xs ih =>
    obtain ⟨k, v⟩ := x
    simp only [List.lookup_cons] at h
    by_cases hk : p = k
    · subst hk; simp at h; subst h; simp
    · have : (p == k) = false := by simp [hk]
      rw [this] at h
      exact List.mem_cons_of_mem _ (ih h)

theorem exists_iff {g : Files} {p : Nat} : Exists g p ↔ ∃ is, g.get p = some is := by
  constructor
  · rintro ⟨is, h⟩
    induction g with
    | nil => simp at h
    | cons x xs ih =>
      obtain ⟨k, v⟩ := x
      unfold Files.get at ih ⊢
      rw [List.lookup_cons]
      by_cases hk : p = k
      · subst hk; exact ⟨v, by simp⟩
      · have hf : (p == k) = false := by simp [hk]
        rw [hf]
        rcases List.mem_cons.1 h with h | h
        · exact absurd (Prod.mk.inj h).1 hk
        · exact ih h
  · rintro ⟨is, h⟩; exact ⟨is, lookup_mem h⟩

theorem imports_of {g : Files} {p q : Nat} {is : List Nat} (h : g.get p = some is) (hq : q ∈ is) : Imports g p q :=
  ⟨is, lookup_mem h, h, hq⟩

/-! ## More nesting allowed gives the same answer -/

theorem importAll_mono {f f' : St → Nat → R} (hf : ∀ st p r, f st p = r → r ≠ .more → f' st p = r) :
    ∀ (ps : List Nat) (st : St) (r : R), importAll f st ps = r → r ≠ .more → importAll f' st ps = r := by
  intro ps
  induction ps with
  | nil => intro st r h _; exact h
  | cons p ps ih =>
    intro st r h hr
    simp only [importAll] at h ⊢
    cases hp : f st p with
    | ok st' => rw [hp] at h; rw [hf st p _ hp (by simp)]; exact ih st' r h hr
    | fail => rw [hp] at h; rw [hf st p _ hp (by simp)]; exact h
    | more => rw [hp] at h; exact absurd h.symm hr

theorem compile_mono (g : Files) : ∀ (n : Nat) (st : St) (p : Nat) (r : R),
    compileModule g n st p = r → r ≠ .more → compileModule g (n + 1) st p = r := by
  intro n
  induction n with
  | zero => intro st p r h hr; exact absurd h.symm hr
  | succ n ih =>
    intro st p r h hr
    rw [compileModule] at h ⊢
    by_cases hc : p ∈ st.cache
    · rw [if_pos hc] at h ⊢; exact h
    · rw [if_neg hc] at h ⊢
      cases hg : g.get p with
      | none => rw [hg] at h; exact h
      | some is =>
        rw [hg] at h
        simp only at h ⊢
        cases hi : importAll (compileModule g n) st is with
        | ok st' => rw [hi] at h; rw [importAll_mono ih is st _ hi (by simp)]; exact h
        | fail => rw [hi] at h; rw [importAll_mono ih is st _ hi (by simp)]; exact h
        | more => rw [hi] at h; exact absurd h.symm hr

theorem compile_mono_le (g : Files) {n m : Nat} (hnm : n ≤ m) (st : St) (p : Nat) (r : R)
    (h : compileModule g n st p = r) (hr : r ≠ .more) : compileModule g m st p = r := by
  induction hnm with
  | refl => exact h
  | step _ ih => exact compile_mono g _ st p r ih hr

/-! ## The invariant -/

/-- What holds of the cache and of the code written so far. -/
structure Inv (g : Files) (st : St) : Prop where
  same : ∀ p, p ∈ st.cache ↔ p ∈ st.out
  nodup : st.out.Nodup
  order : ∀ a p b, st.out = a ++ p :: b → ∀ q, Imports g p q → q ∈ a
  there : ∀ p ∈ st.out, Exists g p

theorem Inv.snoc {g : Files} {st : St} (h : Inv g st) {p : Nat} (hp : p ∉ st.out) (he : Exists g p)
    (hi : ∀ q, Imports g p q → q ∈ st.out) : Inv g ⟨p :: st.cache, st.out ++ [p]⟩ := by
  refine ⟨?_, ?_, ?_, ?_⟩
  · intro q; simp [h.same q, or_comm]
  · rw [List.nodup_append]
    refine ⟨h.nodup, by simp, ?_⟩
    intro a ha b hb
    simp at hb; subst hb
    intro hab; subst hab; exact hp ha
  · intro a x b hab q hq
    rcases List.append_eq_append_iff.1 hab with ⟨l, h1, h2⟩ | ⟨l, h1, h2⟩
    · cases l with
      | nil =>
        simp at h1 h2
        obtain ⟨h2, _⟩ := h2
        subst h2; subst h1
        exact hi q hq
      | cons y ys => simp at h2
    · cases l with
      | nil =>
        simp at h1 h2
        obtain ⟨h2, _⟩ := h2
        subst h2; subst h1
        exact hi q hq
      | cons y ys =>
        simp at h2
        obtain ⟨h2, _⟩ := h2
        subst h2
        exact h.order a x ys h1 q hq
  · intro q hq
    rcases List.mem_append.1 hq with hq | hq
    · exact h.there q hq
    · simp at hq; subst hq; exact he

/-- What compiling one module does to a good state. -/
def Good (g : Files) (f : St → Nat → R) : Prop :=
  ∀ st p st', Inv g st → f st p = .ok st' →
    Inv g st' ∧ p ∈ st'.out ∧ (∃ l, st'.out = st.out ++ l ∧ ∀ q ∈ l, Needs g p q)

theorem importAll_good {g : Files} {f : St → Nat → R} (hf : Good g f) :
    ∀ (ps : List Nat) (st st' : St), Inv g st → importAll f st ps = .ok st' →
      Inv g st' ∧ (∀ p ∈ ps, p ∈ st'.out) ∧ (∃ l, st'.out = st.out ++ l ∧ ∀ q ∈ l, ∃ p ∈ ps, Needs g p q) := by
  intro ps
  induction ps with
  | nil =>
    intro st st' hI h
    simp only [importAll, R.ok.injEq] at h
    subst h
    exact ⟨hI, by simp, [], by simp, by simp⟩
  | cons p ps ih =>
    intro st st' hI h
    simp only [importAll] at h
    cases hp : f st p with
    | fail => rw [hp] at h; cases h
    | more => rw [hp] at h; cases h
    | ok s =>
      rw [hp] at h
      obtain ⟨hI1, hm, l1, e1, n1⟩ := hf st p s hI hp
      obtain ⟨hI2, hm2, l2, e2, n2⟩ := ih s st' hI1 h
      refine ⟨hI2, ?_, l1 ++ l2, by rw [e2, e1, List.append_assoc], ?_⟩
      · intro q hq
        rcases List.mem_cons.1 hq with hq | hq
        · subst hq; rw [e2]; exact List.mem_append_left _ hm
        · exact hm2 q hq
      · intro q hq
        rcases List.mem_append.1 hq with hq | hq
        · exact ⟨p, by simp, n1 q hq⟩
        · obtain ⟨x, hx, hn⟩ := n2 q hq
          exact ⟨x, by simp [hx], hn⟩

/-- A file already written brings all it needs with it. -/
theorem Inv.closed {g : Files} {st : St} (h : Inv g st) {p q : Nat} (hn : Needs g p q) (hp : p ∈ st.out) :
    q ∈ st.out := by
  induction hn with
  | refl => exact hp
  | step e _ ih =>
    apply ih
    obtain ⟨a, b, hab⟩ := List.append_of_mem hp
    have := h.order a _ b hab _ e
    rw [hab]; exact List.mem_append_left _ this

/-- Each file written comes after all that it needs; so no file written needs something that imports it. -/
theorem Inv.acyclic {g : Files} : ∀ (out : List Nat) (st : St), st.out = out → Inv g st →
    ∀ p ∈ out, ∀ q, Imports g p q → ¬ Needs g q p := by
  intro out st ho hI p hp q hq hn
  obtain ⟨a, b, hab⟩ := List.append_of_mem (ho ▸ hp)
  have hqa : q ∈ a := hI.order a p b hab q hq
  -- everything needed by an element of `a` lies in `a`
  have key : ∀ x y, Needs g x y → x ∈ a → y ∈ a := by
    intro x y hxy
    induction hxy with
    | refl => exact fun h => h
    | step e _ ih =>
      intro hx
      apply ih
      obtain ⟨c, d, hcd⟩ := List.append_of_mem hx
      have := hI.order c _ (d ++ p :: b) (by rw [hab, hcd]; simp) _ e
      rw [hcd]; exact List.mem_append_left _ this
  have hpa := key q p hn hqa
  have hnd := hI.nodup
  rw [hab, List.nodup_append] at hnd
  exact hnd.2.2 p hpa p (by simp) rfl

theorem compile_good (g : Files) : ∀ n, Good g (compileModule g n) := by
  intro n
  induction n with
  | zero => intro st p st' _ h; cases h
  | succ n ih =>
    intro st p st' hI h
    rw [compileModule] at h
    by_cases hc : p ∈ st.cache
    · rw [if_pos hc] at h
      cases h
      exact ⟨hI, (hI.same p).1 hc, [], by simp, by simp⟩
    · rw [if_neg hc] at h
      cases hg : g.get p with
      | none => rw [hg] at h; cases h
      | some is =>
        rw [hg] at h
        simp only at h
        cases hi : importAll (compileModule g n) st is with
        | fail => rw [hi] at h; cases h
        | more => rw [hi] at h; cases h
        | ok s =>
          rw [hi] at h
          simp only [R.ok.injEq] at h
          subst h
          obtain ⟨hI', hm, l, e, hn⟩ := importAll_good ih is st s hI hi
          have hedge : ∀ q, Imports g p q → q ∈ s.out := by
            rintro q ⟨is', _, hl, hq⟩
            have : is' = is := by
              have h2 : g.get p = some is' := hl
              rw [hg] at h2; exact (Option.some.inj h2).symm
            subst this
            exact hm q hq
          have hps : p ∉ s.out := by
            intro hin
            rw [e] at hin
            rcases List.mem_append.1 hin with hin | hin
            · exact hc ((hI.same p).2 hin)
            · obtain ⟨x, hx, hnx⟩ := hn p hin
              have hps : p ∈ s.out := by rw [e]; exact List.mem_append_right _ hin
              exact Inv.acyclic s.out s rfl hI' p hps x (imports_of hg hx) hnx
          refine ⟨hI'.snoc hps (exists_iff.2 ⟨is, hg⟩) hedge, by simp, l ++ [p], by simp [e], ?_⟩
          intro q hq
          rcases List.mem_append.1 hq with hq | hq
          · obtain ⟨x, hx, hnx⟩ := hn q hq
            exact .step (imports_of hg hx) hnx
          · simp at hq; subst hq; exact .refl _

/-! ## C218 -/

/-- **C218**: when compilation of a program ends without an error, the modules written are exactly the ones the main file
needs, each once, each after everything it imports, and the main file comes last. -/
theorem once_after_imports (g : Files) (n main : Nat) (st : St) (h : compileFile g n main = .ok st) :
    st.out.Nodup ∧ (∀ p, p ∈ st.out ↔ Needs g main p) ∧
      (∀ a p b, st.out = a ++ p :: b → ∀ q, Imports g p q → q ∈ a) ∧ (∃ l, st.out = l ++ [main]) := by
  unfold compileFile at h
  cases hg : g.get main with
  | none => rw [hg] at h; cases h
  | some is =>
    rw [hg] at h
    simp only at h
    cases hi : importAll (compileModule g n) ⟨[], []⟩ is with
    | fail => rw [hi] at h; cases h
    | more => rw [hi] at h; cases h
    | ok s =>
      rw [hi] at h
      simp only [R.ok.injEq] at h
      subst h
      have h0 : Inv g ⟨[], []⟩ := ⟨by simp, by simp, by simp, by simp⟩
      obtain ⟨hI, hm, l, e, hn⟩ := importAll_good (compile_good g n) is _ s h0 hi
      simp only [List.nil_append] at e
      have hedge : ∀ q, Imports g main q → q ∈ s.out := by
        rintro q ⟨is', _, hl, hq⟩
        have : is' = is := by
          have h2 : g.get main = some is' := hl
          rw [hg] at h2; exact (Option.some.inj h2).symm
        subst this
        exact hm q hq
      have hps : main ∉ s.out := by
        intro hin
        obtain ⟨x, hx, hnx⟩ := hn main (e ▸ hin)
        exact Inv.acyclic s.out s rfl hI main hin x (imports_of hg hx) hnx
      have hI' := hI.snoc hps (exists_iff.2 ⟨is, hg⟩) hedge
      refine ⟨hI'.nodup, ?_, hI'.order, s.out, rfl⟩
      intro p
      constructor
      · intro hp
        rcases List.mem_append.1 hp with hp | hp
        · obtain ⟨x, hx, hnx⟩ := hn p (e ▸ hp)
          exact .step (imports_of hg hx) hnx
        · simp at hp; subst hp; exact .refl _
      · intro hnp
        exact hI'.closed hnp (by simp)

/-! ## C219 -/

theorem nodup_length_le : ∀ (l m : List Nat), l.Nodup → (∀ x ∈ l, x ∈ m) → l.length ≤ m.length
  | [], _, _, _ => by simp
  | x :: xs, m, hnd, hs => by
    have hx : x ∈ m := hs x (by simp)
    have hnd' := List.nodup_cons.1 hnd
    have ih := nodup_length_le xs (m.erase x) hnd'.2 (by
      intro y hy
      have hne : y ≠ x := fun h => hnd'.1 (h ▸ hy)
      exact (List.mem_erase_of_ne hne).2 (hs y (by simp [hy])))
    rw [List.length_erase_of_mem hx] at ih
    have hpos : 0 < m.length := List.length_pos_of_mem hx
    simp only [List.length_cons]
    omega

/-- The files are there and no file needs itself: then every chain of imports ends. -/
theorem acc_of_acyclic (g : Files) : ∀ (k : Nat) (p : Nat) (seen : List Nat), seen.Nodup →
    (∀ s ∈ seen, Needs g s p ∧ Exists g s) → (∀ s ∈ seen, s ≠ p) →
    (∀ q, Needs g p q → Exists g q) →
    (∀ s q r, (s = p ∨ s ∈ seen) → Needs g s q → Imports g q r → ¬ Needs g r q) →
    g.length < k + seen.length + 1 → Acc (fun q p => Imports g p q) p := by
  intro k
  induction k with
  | zero =>
    intro p seen hnd hs hne he _ hlen
    exfalso
    have hsub : ∀ x ∈ p :: seen, x ∈ g.map Prod.fst := by
      intro x hx
      rcases List.mem_cons.1 hx with hx | hx
      · subst hx
        obtain ⟨is, h⟩ := he x (.refl _)
        exact List.mem_map.2 ⟨_, h, rfl⟩
      · obtain ⟨is, h⟩ := (hs x hx).2
        exact List.mem_map.2 ⟨_, h, rfl⟩
    have hnd' : (p :: seen).Nodup := List.nodup_cons.2 ⟨fun h => hne p h rfl, hnd⟩
    have hle := nodup_length_le _ _ hnd' hsub
    simp at hle
    omega
  | succ k ih =>
    intro p seen hnd hs hne he hac hlen
    constructor
    intro q hq
    have hpq : Needs g p q := .step hq (.refl _)
    refine ih q (p :: seen) (List.nodup_cons.2 ⟨fun h => hne p h rfl, hnd⟩) ?_ ?_ ?_ ?_ ?_
    · intro s hs'
      rcases List.mem_cons.1 hs' with h | h
      · subst h; exact ⟨hpq, he s (.refl _)⟩
      · exact ⟨(hs s h).1.trans hpq, (hs s h).2⟩
    · intro s hs' heq
      subst heq
      have hnsp : Needs g s p := by
        rcases List.mem_cons.1 hs' with h | h
        · rw [h]; exact .refl _
        · exact (hs s h).1
      exact hac p p s (Or.inl rfl) (.refl _) hq hnsp
    · intro x hx; exact he x (hpq.trans hx)
    · intro s x y hsx hx hxy
      rcases hsx with h | h
      · subst h
        exact hac p x y (Or.inl rfl) (hpq.trans hx) hxy
      · rcases List.mem_cons.1 h with h | h
        · subst h; exact hac s x y (Or.inl rfl) hx hxy
        · exact hac s x y (Or.inr h) hx hxy
    · simp only [List.length_cons]; omega

/-- A chain of imports that ends gives a compilation that ends. -/
theorem ends_of_acc (g : Files) {p : Nat} (h : Acc (fun q p => Imports g p q) p)
    (he : ∀ q, Needs g p q → Exists g q) : ∀ st, ∃ n st', compileModule g n st p = .ok st' := by
  induction h with
  | intro p _ ih =>
    intro st
    by_cases hc : p ∈ st.cache
    · exact ⟨1, st, by simp [compileModule, hc]⟩
    · obtain ⟨is, hg⟩ := exists_iff.1 (he p (.refl _))
      have hall : ∀ (ps : List Nat), (∀ q ∈ ps, q ∈ is) → ∀ st,
          ∃ n st', importAll (compileModule g n) st ps = .ok st' := by
        intro ps
        induction ps with
        | nil => intro _ st; exact ⟨0, st, rfl⟩
        | cons q qs ihq =>
          intro hsub st
          have hpq : Imports g p q := imports_of hg (hsub q (by simp))
          obtain ⟨n1, s1, h1⟩ := ih q hpq (fun x hx => he x (.step hpq hx)) st
          obtain ⟨n2, s2, h2⟩ := ihq (fun x hx => hsub x (by simp [hx])) s1
          refine ⟨max n1 n2, s2, ?_⟩
          simp only [importAll]
          rw [compile_mono_le g (Nat.le_max_left n1 n2) st q _ h1 (by simp)]
          exact importAll_mono (fun st p r h hr => compile_mono_le g (Nat.le_max_right n1 n2) st p r h hr) qs s1 _ h2
            (by simp)
      obtain ⟨n, s, hi⟩ := hall is (fun _ h => h) st
      refine ⟨n + 1, ⟨p :: s.cache, s.out ++ [p]⟩, ?_⟩
      rw [compileModule, if_neg hc, hg]
      simp only [hi]

/-- **C219**: a program compiles exactly when every file it needs is there and none of them is needed by something it
imports. -/
theorem compiles_iff (g : Files) (main : Nat) :
    (∃ n st, compileFile g n main = .ok st) ↔
      (∀ p, Needs g main p → Exists g p) ∧ (∀ p q, Needs g main p → Imports g p q → ¬ Needs g q p) := by
  constructor
  · rintro ⟨n, st, h⟩
    have hall := once_after_imports g n main st h
    have hmain : Exists g main := by
      unfold compileFile at h
      cases hg : g.get main with
      | none => rw [hg] at h; cases h
      | some is => exact exists_iff.2 ⟨is, hg⟩
    have key : ∀ p q, Needs g main p → Imports g p q → ¬ Needs g q p := by
      intro p q hp hq hn
      obtain ⟨a, b, hab⟩ := List.append_of_mem ((hall.2.1 p).2 hp)
      have hqa := hall.2.2.1 a p b hab q hq
      have key : ∀ x y, Needs g x y → x ∈ a → y ∈ a := by
        intro x y hxy
        induction hxy with
        | refl => exact fun h => h
        | step e _ ih =>
          intro hx
          apply ih
          obtain ⟨c, d, hcd⟩ := List.append_of_mem hx
          have := hall.2.2.1 c _ (d ++ p :: b) (by rw [hab, hcd]; simp) _ e
          rw [hcd]; exact List.mem_append_left _ this
      have hpa := key q p hn hqa
      have hnd := hall.1
      rw [hab, List.nodup_append] at hnd
      exact hnd.2.2 p hpa p (by simp) rfl
    refine ⟨?_, key⟩
    -- files that were written are there
    unfold compileFile at h
    obtain ⟨is, hg⟩ := exists_iff.1 hmain
    rw [hg] at h
    simp only at h
    cases hi : importAll (compileModule g n) ⟨[], []⟩ is with
    | fail => rw [hi] at h; cases h
    | more => rw [hi] at h; cases h
    | ok s =>
      rw [hi] at h
      simp only [R.ok.injEq] at h
      have h0 : Inv g ⟨[], []⟩ := ⟨by simp, by simp, by simp, by simp⟩
      have hI := (importAll_good (compile_good g n) is _ s h0 hi).1
      intro p hp
      have := (hall.2.1 p).2 hp
      rw [← h] at this
      rcases List.mem_append.1 this with hp' | hp'
      · exact hI.there p hp'
      · simp at hp'; subst hp'; exact hmain
  · rintro ⟨he, hac⟩
    have hacc : Acc (fun q p => Imports g p q) main := by
      refine acc_of_acyclic g g.length main [] (by simp) (by simp) (by simp) he ?_ (by simp)
      intro s q r hs hq hr
      rcases hs with h | h
      · subst h; exact hac q r hq hr
      · simp at h
    obtain ⟨n, st, h⟩ := ends_of_acc g hacc he ⟨[], []⟩
    cases n with
    | zero => cases h
    | succ n =>
      rw [compileModule, if_neg (by simp)] at h
      obtain ⟨is, hg⟩ := exists_iff.1 (he main (.refl _))
      rw [hg] at h
      simp only at h
      cases hi : importAll (compileModule g n) ⟨[], []⟩ is with
      | fail => rw [hi] at h; cases h
      | more => rw [hi] at h; cases h
      | ok s =>
        refine ⟨n, ⟨s.cache, s.out ++ [main]⟩, ?_⟩
        unfold compileFile
        rw [hg]
        simp only [hi]

/-- A compilation that ends with an error was short of a file. -/
theorem importAll_fail {g : Files} {f : St → Nat → R} {ps : List Nat}
    (hf : ∀ st p, p ∈ ps → f st p = .fail → ∃ q, Needs g p q ∧ ¬ Exists g q) :
    ∀ st, importAll f st ps = .fail → ∃ p ∈ ps, ∃ q, Needs g p q ∧ ¬ Exists g q := by
  induction ps with
  | nil => intro st h; cases h
  | cons p ps ih =>
    intro st h
    simp only [importAll] at h
    cases hp : f st p with
    | fail =>
      obtain ⟨q, h1, h2⟩ := hf st p (by simp) hp
      exact ⟨p, by simp, q, h1, h2⟩
    | more => rw [hp] at h; cases h
    | ok s =>
      rw [hp] at h
      obtain ⟨x, hx, q, h1, h2⟩ := ih (fun st p h => hf st p (by simp [h])) s h
      exact ⟨x, by simp [hx], q, h1, h2⟩

theorem compile_fail (g : Files) : ∀ n st p, compileModule g n st p = .fail → ∃ q, Needs g p q ∧ ¬ Exists g q := by
  intro n
  induction n with
  | zero => intro st p h; cases h
  | succ n ih =>
    intro st p h
    rw [compileModule] at h
    by_cases hc : p ∈ st.cache
    · rw [if_pos hc] at h; cases h
    · rw [if_neg hc] at h
      cases hg : g.get p with
      | none =>
        refine ⟨p, .refl _, fun hx => ?_⟩
        obtain ⟨is, h'⟩ := exists_iff.1 hx
        rw [hg] at h'; cases h'
      | some is =>
        rw [hg] at h
        simp only at h
        cases hi : importAll (compileModule g n) st is with
        | ok s => rw [hi] at h; cases h
        | more => rw [hi] at h; cases h
        | fail =>
          obtain ⟨x, hx, q, h1, h2⟩ := importAll_fail (fun st p _ h => ih st p h) st hi
          exact ⟨q, .step (imports_of hg hx) h1, h2⟩

/-- **C219**: when all the files are there and one of them is needed by something it imports, no amount of nesting is
enough: the compiler reports no error and produces nothing, it recurses until its stack is used up. -/
theorem cycle_never_answers (g : Files) (main p q : Nat) (he : ∀ p, Needs g main p → Exists g p)
    (hp : Needs g main p) (hq : Imports g p q) (hc : Needs g q p) (n : Nat) : compileFile g n main = .more := by
  cases h : compileFile g n main with
  | more => rfl
  | ok st => exact absurd hc (((compiles_iff g main).1 ⟨n, st, h⟩).2 p q hp hq)
  | fail =>
    exfalso
    unfold compileFile at h
    obtain ⟨is, hg⟩ := exists_iff.1 (he main (.refl _))
    rw [hg] at h
    simp only at h
    cases hi : importAll (compileModule g n) ⟨[], []⟩ is with
    | ok s => rw [hi] at h; cases h
    | more => rw [hi] at h; cases h
    | fail =>
      obtain ⟨x, hx, q, h1, h2⟩ := importAll_fail (fun st p _ h => compile_fail g n st p h) ⟨[], []⟩ hi
      exact h2 (he q (.step (imports_of hg hx) h1))

/-! ## Cases -/

/-- A diamond: 0 imports 1 and 2, both import 3. -/
def diamond : Files := [(0, [1, 2]), (1, [3]), (2, [3]), (3, [])]

example : compileFile diamond 3 0 = .ok ⟨[2, 1, 3], [3, 1, 2, 0]⟩ := by decide

/-- Two modules that import each other. -/
def pair : Files := [(0, [1]), (1, [2]), (2, [1])]

example (n : Nat) : compileFile pair n 0 = .more := by
  have i01 : Imports pair 0 1 := ⟨[1], by decide, by decide, by decide⟩
  have i12 : Imports pair 1 2 := ⟨[2], by decide, by decide, by decide⟩
  have i21 : Imports pair 2 1 := ⟨[1], by decide, by decide, by decide⟩
  refine cycle_never_answers pair 0 1 2 ?_ (.step i01 (.refl _)) i12 (.step i21 (.refl _)) n
  have key : ∀ x y, Needs pair x y → x = 0 ∨ x = 1 ∨ x = 2 → y = 0 ∨ y = 1 ∨ y = 2 := by
    intro x y h
    induction h with
    | refl => exact fun h => h
    | step e _ ih =>
      intro hx
      apply ih
      obtain ⟨is, hm, _, hq⟩ := e
      simp only [pair, List.mem_cons, Prod.mk.injEq, List.not_mem_nil, or_false] at hm
      rcases hm with ⟨_, h⟩ | ⟨_, h⟩ | ⟨_, h⟩ <;> subst h <;> simp at hq <;> omega
  intro p hp
  rcases key 0 p hp (by simp) with h | h | h <;> subst h
  · exact ⟨[1], by decide⟩
  · exact ⟨[2], by decide⟩
  · exact ⟨[1], by decide⟩

end Verif.Modules
