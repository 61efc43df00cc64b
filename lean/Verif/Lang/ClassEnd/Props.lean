import Verif.Lang.ClassEnd.Model
/-!
# The end of an object: properties
-/
namespace Verif.ClassEnd

/-! ## Everything once -/

/-- What has to happen at the end of an object, in some order: each `deinit` in its class and the bases, and a release of each managed
field declared in any of them. -/
def due (ch : List Cls) : List Ev :=
  ch.flatMap (fun c => (match c.deinit with | some k => [Ev.deinit k] | none => []) ++
    c.fields.flatMap (fun f => if f.managed then [Ev.release f.name] else []))

theorem releases_eq (c : Cls) : c.releases = c.fields.flatMap (fun f => if f.managed then [Ev.release f.name] else []) := by
  unfold Cls.releases
  induction c.fields with
  | nil => rfl
  | cons f fs ih => cases h : f.managed <;> simp [h, ih]

theorem due_cons (c : Cls) (bs : List Cls) : due (c :: bs) = (c.deinits ++ c.releases) ++ due bs := by
  rw [releases_eq]; rfl

theorem kept_of_due : ∀ {ch : List Cls}, kept ch = false → due ch = [] := by
  intro ch
  induction ch with
  | nil => intro _; rfl
  | cons c bs ih =>
    intro h
    simp only [kept, Bool.or_eq_false_iff] at h
    obtain ⟨⟨⟨⟨h1, _⟩, h2⟩, _⟩, h3⟩ := h
    rw [due_cons, ih h3]
    have : c.releases = [] := by
      unfold Cls.releases
      rw [List.filter_eq_nil_iff.2]; · rfl
      intro f hf
      unfold Cls.holds at h1
      have := List.any_eq_false.1 h1 f hf
      simpa using this
    cases hd : c.deinit with
    | none => simp [Cls.deinits, hd, this]
    | some k => simp [hd] at h2

/-- The order in which it happens: the last base first. -/
theorem destroy_order (ch : List Cls) (h : ∀ c ∈ ch, c.destructor = none) :
    destroy ch = ch.reverse.flatMap (fun c => c.deinits ++ c.releases) := by
  induction ch with
  | nil => rfl
  | cons c bs ih =>
    have ih := ih (fun d hd => h d (List.mem_cons_of_mem _ hd))
    have nil_of : kept bs = false → bs.reverse.flatMap (fun c => c.deinits ++ c.releases) = [] := by
      intro hk
      have := kept_of_due hk
      rw [List.flatMap_eq_nil_iff]
      intro d hd
      have hd := List.mem_reverse.1 hd
      have : (bs.flatMap fun c => c.deinits ++ c.releases) = [] := by
        rw [← this]; unfold due
        congr 1; funext c; rw [releases_eq]; rfl
      exact List.flatMap_eq_nil_iff.1 this d hd
    rw [destroy, h c List.mem_cons_self]
    simp only [List.reverse_cons, List.flatMap_append, List.flatMap_cons, List.flatMap_nil, List.append_nil]
    cases hk : kept (c :: bs) with
    | false =>
      have h0 := kept_of_due hk
      rw [due_cons] at h0
      have hb : kept bs = false := by simp only [kept, Bool.or_eq_false_iff] at hk; exact hk.2
      simp only [Bool.false_eq_true, if_false]
      rw [nil_of hb, (List.append_eq_nil_iff.1 h0).1]; rfl
    | true =>
      simp only [if_true]
      cases hb : kept bs with
      | false => simp [nil_of hb]
      | true => simp [ih]

/-- **Each `deinit` and each field once.** If no class of the chain has a destructor that was written, then at the end of an object each
`deinit` of its class and its bases is run and each managed field is released, each exactly once. -/
theorem destroy_complete_partial (ch : List Cls) (h : ∀ c ∈ ch, c.destructor = none) : (destroy ch).Perm (due ch) := by
  rw [destroy_order ch h]
  have : due ch = ch.flatMap (fun c => c.deinits ++ c.releases) := by
    unfold due; congr 1; funext c; rw [releases_eq]; rfl
  rw [this]
  exact (List.reverse_perm ch).flatMap_right _

/-- The bodies of destructors that were written aside. -/
def noWritten : List Ev → List Ev := List.filter (fun | .written _ => false | _ => true)

theorem noWritten_append (a b : List Ev) : noWritten (a ++ b) = noWritten a ++ noWritten b := List.filter_append ..

theorem noWritten_own (c : Cls) : noWritten (c.deinits ++ c.releases) = c.deinits ++ c.releases := by
  unfold noWritten
  rw [List.filter_eq_self]
  intro e he
  rcases List.mem_append.1 he with h | h
  · unfold Cls.deinits at h
    split at h
    · simp only [List.mem_singleton] at h; subst h; rfl
    · cases h
  · unfold Cls.releases at h
    obtain ⟨f, _, rfl⟩ := List.mem_map.1 h
    rfl

theorem destroy_length : ∀ (ch : List Cls), (noWritten (destroy ch)).length ≤ (due ch).length
  | [] => Nat.le_refl _
  | c :: bs => by
    rw [destroy, due_cons]
    cases c.destructor with
    | some k => simp [noWritten]
    | none =>
      have ih := destroy_length bs
      simp only
      split
      · rw [List.append_assoc, noWritten_append, noWritten_own, List.length_append, List.length_append (as := c.deinits ++ c.releases)]
        have : (noWritten (if kept bs = true then destroy bs else [])).length ≤ (due bs).length := by
          split
          · exact ih
          · simp [noWritten]
        omega
      · simp [noWritten]

/-- **A destructor that is written stands for everything below it**: all that is due happens exactly if no class with such a destructor
has a `deinit` or a managed field, in itself or in a base. -/
theorem destroy_complete_iff : ∀ (ch : List Cls), (noWritten (destroy ch)).Perm (due ch) ↔
    ∀ pre c rest, ch = pre ++ c :: rest → c.destructor.isSome = true → due (c :: rest) = []
  | [] => by
    constructor
    · intro _ pre c rest h; simp at h
    · intro _; exact .refl _
  | c :: bs => by
    cases hc : c.destructor with
    | some k =>
      have hd : noWritten (destroy (c :: bs)) = [] := by rw [destroy, hc]; rfl
      rw [hd]
      constructor
      · intro h pre d rest he _
        have h0 : due (c :: bs) = [] := List.nil_perm.1 h
        rw [he] at h0
        unfold due at h0 ⊢
        rw [List.flatMap_append] at h0
        exact (List.append_eq_nil_iff.1 h0).2
      · intro h
        rw [h [] c bs rfl (by simp [hc])]
    | none =>
      have ih := destroy_complete_iff bs
      have eqv : (∀ pre d rest, c :: bs = pre ++ d :: rest → d.destructor.isSome = true → due (d :: rest) = []) ↔
          (∀ pre d rest, bs = pre ++ d :: rest → d.destructor.isSome = true → due (d :: rest) = []) := by
        constructor
        · intro h pre d rest he; exact h (c :: pre) d rest (by rw [he]; rfl)
        · intro h pre d rest he hs
          cases pre with
          | nil =>
            simp only [List.nil_append, List.cons.injEq] at he
            rw [← he.1, hc] at hs; cases hs
          | cons x pre =>
            simp only [List.cons_append, List.cons.injEq] at he
            exact h pre d rest he.2 hs
      rw [eqv, ← ih]
      cases hk : kept (c :: bs) with
      | false =>
        have hb : kept bs = false := by simp only [kept, Bool.or_eq_false_iff] at hk; exact hk.2
        have h1 : destroy (c :: bs) = [] := by rw [destroy, hc]; simp [hk]
        rw [h1, kept_of_due hk, kept_of_due hb]
        constructor
        · intro _
          have := destroy_length bs
          rw [kept_of_due hb] at this
          have : noWritten (destroy bs) = [] := List.length_eq_zero_iff.1 (Nat.le_zero.1 this)
          rw [this]
        · intro _; exact .refl _
      | true =>
        have hdb : noWritten (if kept bs = true then destroy bs else []) = noWritten (destroy bs) := by
          cases hb : kept bs with
          | true => rfl
          | false =>
            have := destroy_length bs
            rw [kept_of_due hb] at this
            have : noWritten (destroy bs) = [] := List.length_eq_zero_iff.1 (Nat.le_zero.1 this)
            rw [this]; rfl
        have h1 : noWritten (destroy (c :: bs)) = noWritten (destroy bs) ++ (c.deinits ++ c.releases) := by
          rw [destroy, hc]
          simp only [hk, if_true]
          rw [List.append_assoc, noWritten_append, noWritten_own, hdb]
        rw [h1, due_cons]
        constructor
        · intro h
          exact (List.perm_append_left_iff (c.deinits ++ c.releases)).1 (List.perm_append_comm.trans h)
        · intro h
          exact List.perm_append_comm.trans (h.append_left _)

/-! ## What a `deinit` sees -/

/-- The managed fields of some classes. -/
def managedIn (bs : List Cls) (f : Nat) : Prop := ∃ c ∈ bs, ∃ x ∈ c.fields, x.managed = true ∧ x.name = f

/-- All fields of some classes. -/
def fieldIn (bs : List Cls) (f : Nat) : Prop := ∃ c ∈ bs, ∃ x ∈ c.fields, x.name = f

/-- What is in the fields when some events are over. -/
def after : List Ev → (Nat → Nat) → Nat → Nat
  | [], st => st
  | .release f :: es, st => after es (fun g => if g = f then 0 else st g)
  | _ :: es, st => after es st

theorem run_append : ∀ (a b : List Ev) (st : Nat → Nat), run (a ++ b) st = run a st ++ run b (after a st)
  | [], _, _ => rfl
  | .deinit _ :: a, b, st => by simp [run, after, run_append a b]
  | .written _ :: a, b, st => by simp [run, after, run_append a b]
  | .release f :: a, b, st => by
    simp only [List.cons_append, run, after, run_append a b]
    split <;> simp

open Classical in
theorem after_eq : ∀ (es : List Ev) (st : Nat → Nat) (f : Nat), after es st f = if Ev.release f ∈ es then 0 else st f
  | [], st, f => by simp [after]
  | .deinit _ :: a, st, f => by simp [after, after_eq a]
  | .written _ :: a, st, f => by simp [after, after_eq a]
  | .release g :: a, st, f => by
    rw [after, after_eq a]
    by_cases h : Ev.release f ∈ a
    · simp [h]
    · by_cases e : f = g
      · subst e; simp
      · have : ¬ Ev.release f = Ev.release g := fun h => e (by cases h; rfl)
        simp [h, e]

theorem release_mem_due {ch : List Cls} {f : Nat} : Ev.release f ∈ due ch ↔ managedIn ch f := by
  unfold due managedIn
  simp only [List.mem_flatMap]
  constructor
  · rintro ⟨c, hc, h⟩
    rcases List.mem_append.1 h with h | h
    · split at h <;> simp at h
    · obtain ⟨x, hx, h⟩ := List.mem_flatMap.1 h
      split at h
      · rename_i hm
        simp only [List.mem_singleton, Ev.release.injEq] at h
        exact ⟨c, hc, x, hx, hm, h.symm⟩
      · cases h
  · rintro ⟨c, hc, x, hx, hm, rfl⟩
    exact ⟨c, hc, List.mem_append.2 (.inr (List.mem_flatMap.2 ⟨x, hx, by simp [hm]⟩))⟩

open Classical in
/-- What a `deinit` finds in the fields: zero in those that a base manages, and otherwise what they held. -/
theorem deinit_sees (pre rest : List Cls) (c : Cls) (k : Nat) (st : Nat → Nat) (h : ∀ d ∈ pre ++ c :: rest, d.destructor = none)
    (hk : c.deinit = some k) :
    ∃ s b, run (destroy (pre ++ c :: rest)) st = run (destroy rest) st ++ Obs.deinit k s :: b ∧
      ∀ f, s f = if managedIn rest f then 0 else st f := by
  have hrest : ∀ d ∈ rest, d.destructor = none := fun d hd => h d (by simp [hd])
  have e : destroy (pre ++ c :: rest) =
      destroy rest ++ (Ev.deinit k :: (c.releases ++ pre.reverse.flatMap (fun c => c.deinits ++ c.releases))) := by
    rw [destroy_order _ h, destroy_order _ hrest]
    simp [List.flatMap_append, Cls.deinits, hk]
  rw [e, run_append]
  refine ⟨_, _, rfl, ?_⟩
  intro f
  rw [after_eq]
  have : Ev.release f ∈ destroy rest ↔ managedIn rest f :=
    ((destroy_complete_partial rest hrest).mem_iff).trans release_mem_due
  by_cases hm : managedIn rest f
  · simp [this.2 hm, hm]
  · have h' : ¬ Ev.release f ∈ destroy rest := fun x => hm (this.1 x)
    simp [h', hm]

/-- **A `deinit` finds the fields of its class as they were.** -/
theorem deinit_sees_own_partial (pre rest : List Cls) (c : Cls) (k : Nat) (st : Nat → Nat)
    (h : ∀ d ∈ pre ++ c :: rest, d.destructor = none) (hk : c.deinit = some k)
    (apart : ∀ x ∈ c.fields, ¬ fieldIn rest x.name) :
    ∃ a s b, run (destroy (pre ++ c :: rest)) st = a ++ Obs.deinit k s :: b ∧ ∀ x ∈ c.fields, s x.name = st x.name := by
  obtain ⟨s, b, e, hs⟩ := deinit_sees pre rest c k st h hk
  refine ⟨_, s, b, e, fun x hx => ?_⟩
  have : ¬ managedIn rest x.name := fun ⟨d, hd, y, hy, _, e⟩ => apart x hx ⟨d, hd, y, hy, e⟩
  rw [hs]; simp [this]

/-- **The inherited ones are gone**: `deinit` of a class finds what the object held in all fields it can use, its own and inherited ones,
exactly if no base has a managed field with something in it. -/
theorem deinit_sees_all_iff (pre rest : List Cls) (c : Cls) (k : Nat) (st : Nat → Nat)
    (h : ∀ d ∈ pre ++ c :: rest, d.destructor = none) (hk : c.deinit = some k) :
    ∃ s b, run (destroy (pre ++ c :: rest)) st = run (destroy rest) st ++ Obs.deinit k s :: b ∧
      ((∀ f, fieldIn (c :: rest) f → s f = st f) ↔ ∀ f, managedIn rest f → st f = 0) := by
  obtain ⟨s, b, e, hs⟩ := deinit_sees pre rest c k st h hk
  refine ⟨s, b, e, ?_, ?_⟩
  · intro hall f hf
    have hin : fieldIn (c :: rest) f := by
      obtain ⟨d, hd, x, hx, _, e⟩ := hf
      exact ⟨d, List.mem_cons_of_mem _ hd, x, hx, e⟩
    have h1 := hall f hin
    rw [hs] at h1
    simp only [hf, if_true] at h1
    exact h1.symm
  · intro h0 f _
    rw [hs]
    split
    · rename_i hm; rw [h0 f hm]
    · rfl

/-! ## What is released -/

/-- The managed fields of a chain. -/
def managedNames (ch : List Cls) : List Nat := ch.flatMap (fun c => (c.fields.filter Field.managed).map Field.name)

/-- The objects released. -/
def given : List Obs → List Nat := List.filterMap (fun | .release v => some v | _ => none)

/-- The fields that events release. -/
def targets : List Ev → List Nat := List.filterMap (fun | .release f => some f | _ => none)

theorem given_run : ∀ (es : List Ev) (st : Nat → Nat), (targets es).Nodup →
    given (run es st) = ((targets es).map st).filter (fun v => v != 0)
  | [], _, _ => rfl
  | .deinit _ :: es, st, h => given_run es st h
  | .written _ :: es, st, h => given_run es st h
  | .release f :: es, st, h => by
    have ht : targets (.release f :: es) = f :: targets es := rfl
    rw [ht] at h ⊢
    obtain ⟨h1, h2⟩ := List.nodup_cons.1 h
    have ih := given_run es (fun g => if g = f then 0 else st g) h2
    have hm : (targets es).map (fun g => if g = f then 0 else st g) = (targets es).map st := by
      apply List.map_congr_left
      intro g hg
      have : g ≠ f := fun e => h1 (e ▸ hg)
      simp [this]
    rw [hm] at ih
    simp only [run, List.map_cons]
    by_cases h0 : st f = 0
    · simp [h0, ih]
    · have : given (.release (st f) :: run es (fun g => if g = f then 0 else st g)) =
          st f :: given (run es (fun g => if g = f then 0 else st g)) := rfl
      simp [h0, this, ih]

theorem targets_due (ch : List Cls) : targets (due ch) = managedNames ch := by
  induction ch with
  | nil => rfl
  | cons c bs ih =>
    rw [due_cons]
    unfold targets at ih ⊢
    rw [List.filterMap_append, List.filterMap_append, ih]
    have h1 : List.filterMap (fun | Ev.release f => some f | _ => none) c.deinits = [] := by
      unfold Cls.deinits; split <;> rfl
    have h2 : List.filterMap (fun | Ev.release f => some f | _ => none) c.releases = (c.fields.filter Field.managed).map Field.name := by
      unfold Cls.releases
      rw [List.filterMap_map]
      induction c.fields.filter Field.managed with
      | nil => rfl
      | cons x xs ih => simp [Function.comp_def]
    rw [h1, h2]
    rfl

/-- **What the fields hold is released, each once**: the objects given back at the end of an object are those in the managed fields of
its class and its bases. -/
theorem released_partial (ch : List Cls) (st : Nat → Nat) (h : ∀ c ∈ ch, c.destructor = none) (apart : (managedNames ch).Nodup) :
    (given (run (destroy ch) st)).Perm (((managedNames ch).map st).filter (fun v => v != 0)) := by
  have p : (targets (destroy ch)).Perm (managedNames ch) := by
    rw [← targets_due]
    exact (destroy_complete_partial ch h).filterMap _
  rw [given_run _ _ (p.nodup_iff.2 apart)]
  exact (p.map st).filter _

/-! ## Cases -/

/-- `class A { s: String; func deinit() }`, `class B: A { t: String; n: i32; func deinit() }`. -/
def base : Cls := ⟨[⟨0, true⟩], some 10, none⟩
def derived : Cls := ⟨[⟨1, true⟩, ⟨2, false⟩], some 11, none⟩

example : destroy [derived, base] = [.deinit 10, .release 0, .deinit 11, .release 1] := rfl

example : ∀ c ∈ [derived, base], c.destructor = none := by
  intro c h; simp at h; rcases h with rfl | rfl <;> rfl

example : (managedNames [derived, base]).Nodup ∧ given (run (destroy [derived, base]) (fun f => f + 7)) = [7, 8] := ⟨by decide, rfl⟩

/-- `B.deinit` finds `null` in `s`. -/
example : ∃ s b, run (destroy [derived, base]) (fun f => f + 7) =
    [.deinit 10 (fun f => f + 7), .release 7] ++ Obs.deinit 11 s :: b ∧ s 0 = 0 ∧ s 1 = 8 ∧ s 2 = 9 := ⟨_, _, rfl, rfl, rfl, rfl⟩

/-- The same with a destructor in `B`: nothing of `A` happens. -/
example : destroy [{ derived with destructor := some 5 }, base] = [.written 5] ∧ due [base] ≠ [] := ⟨rfl, by simp [due, base]⟩

/-- A base with nothing to do below a class with a destructor. -/
example : (noWritten (destroy [⟨[⟨3, false⟩], none, some 5⟩, ⟨[⟨4, false⟩], none, none⟩])).Perm
    (due [⟨[⟨3, false⟩], none, some 5⟩, ⟨[⟨4, false⟩], none, none⟩]) := .refl _

end Verif.ClassEnd
