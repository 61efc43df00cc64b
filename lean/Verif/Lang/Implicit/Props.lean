import Verif.Lang.Implicit.Model
/-!
# Constructors that are called without being written: properties
-/
namespace Verif.Implicit

/-! ## What is inserted -/

/-- What may stand where a `t` is expected, for an argument of type `src`: the argument itself if it can be assigned, or a construction
of `t` by one of its constructors that has one parameter and is not `@explicit`, from something that may stand for the parameter. -/
inductive Fits (w : World) (src : Nat) : Expr → Nat → Prop where
  | arg {t : Nat} : w.asg t src = true → Fits w src .arg t
  | build {t p d : Nat} {e : Expr} {cs : List Ctor} : w.isObj t = true → w.ctors t = some cs → ⟨[p], d, false⟩ ∈ cs →
      Fits w src e p → Fits w src (.build t e) t

theorem pick_mem {w : World} {ask : Nat → Option Bool} {src : Nat} :
    ∀ {cs : List Ctor} {found : Option Ctor} {c : Ctor}, pick w ask src cs found = some (some c) → c ∈ cs ∨ found = some c := by
  intro cs
  induction cs with
  | nil => intro found c h; simp only [pick, Option.some.injEq] at h; exact .inr h
  | cons k cs ih =>
    intro found c h
    have skip : pick w ask src cs found = some (some c) → c ∈ k :: cs ∨ found = some c :=
      fun h => (ih h).elim (fun m => .inl (List.mem_cons_of_mem _ m)) .inr
    have take : pick w ask src cs (some k) = some (some c) → c ∈ k :: cs ∨ found = some c :=
      fun h => (ih h).elim (fun m => .inl (List.mem_cons_of_mem _ m))
        (fun e => .inl (by cases e; exact List.mem_cons_self))
    unfold pick at h
    split at h
    · exact skip h
    · split at h
      · exact skip h
      · split at h
        · simp only [Option.some.injEq] at h; exact .inl (by rw [h]; exact List.mem_cons_self)
        · split at h
          · exact take h
          · split at h
            · cases h
            · exact take h
            · exact skip h

/-- What is put in the place of an argument fits. -/
theorem construct_fits (w : World) (src : Nat) : ∀ (n t : Nat) (e : Expr), construct w src n t = some (some e) → Fits w src e t := by
  intro n
  induction n with
  | zero => intro t e h; simp [construct] at h
  | succ n ih =>
    intro t e h
    unfold construct at h
    split at h
    · rename_i ha
      simp only [Option.some.injEq] at h
      subst h; exact .arg ha
    · split at h
      · simp at h
      · rename_i ho
        split at h
        · simp at h
        · rename_i cs hc
          split at h
          · simp at h
          · simp at h
          · rename_i c hp
            split at h
            · simp at h
            · rename_i he
              split at h
              · rename_i p hps
                split at h
                · simp at h
                · simp at h
                · rename_i e' hk
                  simp only [Option.some.injEq] at h
                  subst h
                  refine .build (p := p) (d := c.defaults) (by simpa using ho) hc ?_ (ih _ _ hk)
                  rcases pick_mem hp with m | m
                  · have : c = ⟨[p], c.defaults, false⟩ := by
                      cases c; simp only [Bool.not_eq_true] at he; simp_all
                    exact this ▸ m
                  · cases m
              · simp at h

/-- What the check of the arguments accepts is then constructed. -/
theorem construct_of_canBuild (w : World) (src : Nat) : ∀ (n t : Nat), canBuild w src n t = some true →
    ∃ e, construct w src n t = some (some e) := by
  intro n
  induction n with
  | zero => intro t h; simp [canBuild] at h
  | succ n ih =>
    intro t h
    unfold canBuild at h
    unfold construct
    by_cases ha : w.asg t src = true
    · exact ⟨.arg, by simp [ha]⟩
    · simp only [ha, if_false]
      split at h
      · simp only [Option.some.injEq] at h; exact absurd h ha
      · rename_i ho
        simp only [ho]
        split at h
        · simp at h
        · rename_i cs hc
          split at h
          · simp at h
          · simp at h
          · rename_i c hp
            split at h
            · simp at h
            · rename_i he
              split at h
              · rename_i p hps
                obtain ⟨e, h'⟩ := ih p h
                exact ⟨.build t e, by simp [hc, hp, he, hps, h']⟩
              · simp at h

/-- **An argument that is accepted gets constructors that exist.** If an argument goes with a parameter, then what stands in its place
after the check is the argument itself, where it can be assigned, or constructions around it: each by a constructor with one parameter
that is not `@explicit`, each of the type that the one around it takes. (A type is assignable from itself.) -/
theorem accepted_fits_partial (w : World) (src n t : Nat) (self : w.asg src src = true) (h : argOk w src n t = some true) :
    ∃ e, construct w src (n + 1) t = some (some e) ∧ Fits w src e t ∧ (w.asg t src = true → e = .arg) := by
  have direct : w.asg t src = true → ∃ e, construct w src (n + 1) t = some (some e) ∧ Fits w src e t ∧ (w.asg t src = true → e = .arg) :=
    fun ha => ⟨.arg, by unfold construct; simp [ha], .arg ha, fun _ => rfl⟩
  by_cases ha : w.asg t src = true
  · exact direct ha
  · have hne : t ≠ src := fun e => ha (by rw [e]; exact self)
    have hb : canBuild w src n t = some true := by
      unfold argOk at h; simp only [hne, if_false, ha] at h; exact h
    obtain ⟨e, he⟩ := construct_of_canBuild w src n t hb
    have mono : construct w src (n + 1) t = some (some e) := by
      have pm : ∀ (f g : Nat → Option Bool), (∀ p b, f p = some b → g p = some b) → ∀ cs found r,
          pick w f src cs found = some r → pick w g src cs found = some r := by
        intro f g fg cs
        induction cs with
        | nil => intro found r h; simpa [pick] using h
        | cons k cs ih =>
          intro found r h
          unfold pick at h ⊢
          split at h
          · exact ih _ _ h
          · split at h
            · rename_i hr; simp only [hr, if_true]; exact ih _ _ h
            · rename_i hr
              simp only [hr, if_false]
              split at h
              · rename_i hs; simp only [hs, if_true]; exact h
              · rename_i hs
                simp only [hs, if_false]
                split at h
                · rename_i hk; simp only [hk, if_true]; exact ih _ _ h
                · rename_i hk
                  simp only [hk]
                  split at h
                  · cases h
                  · rename_i hf; rw [fg _ _ hf]; exact ih _ _ h
                  · rename_i hf; rw [fg _ _ hf]; exact ih _ _ h
      have bm : ∀ n t b, canBuild w src n t = some b → canBuild w src (n + 1) t = some b := by
        intro n
        induction n with
        | zero => intro t b h; simp [canBuild] at h
        | succ n ih =>
          intro t b h
          rw [canBuild.eq_def] at h ⊢
          simp only at h ⊢
          split at h
          · rename_i ho; simp only [ho, if_true]; exact h
          · rename_i ho
            simp only [ho, if_false]
            split at h
            · rename_i hc; simpa [hc] using h
            · rename_i cs hc
              split at h
              · cases h
              · rename_i hp; simp only [hc, pm _ _ ih _ _ _ hp]; exact h
              · rename_i c hp
                simp only [hc, pm _ _ ih _ _ _ hp]
                split at h
                · rename_i hx; simp only [hx, if_true]; exact h
                · rename_i hx
                  simp only [hx]
                  split at h
                  · exact ih _ _ h
                  · exact h
      have cm : ∀ n t e, construct w src n t = some (some e) → construct w src (n + 1) t = some (some e) := by
        intro n
        induction n with
        | zero => intro t b h; simp [construct] at h
        | succ n ih =>
          intro t e h
          rw [construct.eq_def] at h ⊢
          simp only at h ⊢
          split at h
          · rename_i ha; simp only [ha, if_true]; exact h
          · rename_i ha
            simp only [ha]
            split at h
            · cases h
            · rename_i ho
              simp only [ho]
              split at h
              · cases h
              · rename_i cs hc
                split at h
                · cases h
                · cases h
                · rename_i c hp
                  simp only [hc, pm _ _ (bm n) _ _ _ hp]
                  split at h
                  · cases h
                  · rename_i hx
                    simp only [hx]
                    split at h
                    · split at h
                      · cases h
                      · cases h
                      · rename_i e' hk; simp only [ih _ _ hk]; exact h
                    · cases h
      exact cm n t e he
    exact ⟨e, mono, construct_fits w src _ _ _ mono, fun h => absurd h ha⟩

/-- A value of a type that only classes and structs can be assigned from: nothing is constructed from it. -/
theorem canBuild_true_leaf (w : World) (src : Nat) : ∀ (n t : Nat), canBuild w src n t = some true →
    ∃ p, w.isObj p = false ∧ w.asg p src = true := by
  intro n
  induction n with
  | zero => intro t h; simp [canBuild] at h
  | succ n ih =>
    intro t h
    unfold canBuild at h
    split at h
    · rename_i ho; exact ⟨t, ho, by simpa using h⟩
    · split at h
      · simp at h
      · split at h
        · simp at h
        · simp at h
        · split at h
          · simp at h
          · split at h
            · exact ih _ h
            · simp at h

/-- **A constructor is never called for an object or a struct**: if the type of the argument can be assigned to no type but classes and
structs, the argument is accepted only where it could be assigned anyway, whatever constructors there are. -/
theorem object_not_converted (w : World) (src : Nat) (obj : ∀ p, w.asg p src = true → w.isObj p = true) (n t : Nat)
    (h : argOk w src n t = some true) : t = src ∨ w.asg t src = true := by
  unfold argOk at h
  split at h
  · rename_i e; exact .inl e
  · split at h
    · rename_i e; exact .inr e
    · obtain ⟨p, ho, ha⟩ := canBuild_true_leaf w src n t h
      rw [obj p ha] at ho; cases ho

/-- The chain of constructors by which a type is reached: each type in it is a class or struct with that one constructor. -/
inductive Chain (w : World) (src : Nat) : Nat → Nat → Prop where
  | leaf {t : Nat} : w.isObj t = false → w.asg t src = true → Chain w src t 0
  | build {t p d k : Nat} : w.isObj t = true → w.ctors t = some [⟨[p], d, false⟩] → Chain w src p k → Chain w src t (k + 1)

/-- **Conversions in several steps are found.** A type whose one constructor takes something from which ... down to a value that can be
assigned accepts that value, at any depth. -/
theorem chain_accepted {w : World} {src t k : Nat} (h : Chain w src t k) : canBuild w src (k + 1) t = some true := by
  induction h with
  | leaf ho ha => unfold canBuild; simp [ho, ha]
  | @build t p d k ho hc _ ih =>
    rw [canBuild.eq_def]
    simp only [ho, hc]
    have : pick w (canBuild w src (k + 1)) src [⟨[p], d, false⟩] none = some (some ⟨[p], d, false⟩) := by
      unfold pick
      simp only [List.length_singleton]
      have : ¬ (1 - d > 1) := by omega
      simp only [this, if_false]
      split
      · rfl
      · split
        · rfl
        · rw [ih]; rfl
    simp [this, ih]

/-! ## When the check ends -/

/-- `c` is looked at: it can be called with one argument, and no constructor before it takes exactly the type of the argument. -/
def Reached (src : Nat) (cs : List Ctor) (p : Nat) : Prop :=
  ∃ pre ps d x post, cs = pre ++ ⟨p :: ps, d, x⟩ :: post ∧ ps.length ≤ d ∧
    ∀ c ∈ pre, ∀ q qs, c.params = q :: qs → qs.length ≤ c.defaults → q ≠ src

theorem pick_reached {w : World} {ask : Nat → Option Bool} {src : Nat} {cs : List Ctor} {p : Nat} (h : Reached src cs p)
    (hne : p ≠ src) (ha : w.asg p src = false) (hask : ask p = none) : ∀ found, pick w ask src cs found = none := by
  obtain ⟨pre, ps, d, x, post, rfl, hd, hpre⟩ := h
  induction pre with
  | nil =>
    intro found
    have : ¬ ((p :: ps).length - d > 1) := by simp only [List.length_cons]; omega
    simp only [List.nil_append]
    unfold pick
    simp only [this, if_false, hne, ha, hask]
    rfl
  | cons k pre ih =>
    intro found
    have ih := ih (fun c hc => hpre c (List.mem_cons_of_mem _ hc))
    rw [List.cons_append]
    unfold pick
    split
    · exact ih _
    · rename_i q qs hk
      split
      · exact ih _
      · rename_i hr
        have : q ≠ src := hpre k List.mem_cons_self q qs hk (by rw [hk] at hr; simp only [List.length_cons] at hr; omega)
        simp only [this, if_false]
        split
        · exact ih _
        · split
          · rfl
          · exact ih _
          · exact ih _

/-- **Constructors in a circle keep the compiler busy for ever.** If each of some classes or structs has a constructor that takes
another one of them (or itself, as a constructor that copies does), and a value is passed that can be assigned to none of them, then the
question whether it can be passed never gets an answer, however many calls are allowed. -/
theorem circle_never_ends (w : World) (src : Nat) (S : Nat → Prop)
    (step : ∀ t, S t → w.isObj t = true ∧ t ≠ src ∧ w.asg t src = false ∧ ∃ cs p, w.ctors t = some cs ∧ Reached src cs p ∧ S p)
    {t : Nat} (ht : S t) (n : Nat) : argOk w src n t = none := by
  have key : ∀ n t, S t → canBuild w src n t = none := by
    intro n
    induction n with
    | zero => intro t _; rfl
    | succ n ih =>
      intro t ht
      obtain ⟨ho, _, _, cs, p, hc, hr, hp⟩ := step t ht
      obtain ⟨_, hpn, hpa, _⟩ := step p hp
      rw [canBuild.eq_def]
      simp only [ho, hc]
      rw [pick_reached hr hpn hpa (ih p hp)]
      rfl
  obtain ⟨_, hn, ha, _⟩ := step t ht
  unfold argOk
  simp [hn, ha, key n t ht]

/-- A struct with a constructor that copies it: no value of another type can be passed where it is expected. -/
theorem copy_constructor_never_ends (w : World) (src t : Nat) (cs : List Ctor) (ho : w.isObj t = true) (hn : t ≠ src)
    (ha : w.asg t src = false) (hc : w.ctors t = some cs) (hr : Reached src cs t) (n : Nat) : argOk w src n t = none :=
  circle_never_ends w src (· = t) (fun s e => by subst e; exact ⟨ho, hn, ha, cs, s, hc, hr, rfl⟩) rfl n

/-- The first constructor that takes exactly `src` is not `@explicit` and has no other parameter. -/
def Exact (src : Nat) (cs : List Ctor) : Prop :=
  ∃ pre d post, cs = pre ++ ⟨[src], d, false⟩ :: post ∧
    ∀ c ∈ pre, ∀ q qs, c.params = q :: qs → qs.length ≤ c.defaults → q ≠ src

theorem pick_exact {w : World} {ask : Nat → Option Bool} {src : Nat} {cs : List Ctor} (h : Exact src cs) :
    ∀ found, pick w ask src cs found = none ∨ ∃ d, pick w ask src cs found = some (some ⟨[src], d, false⟩) := by
  obtain ⟨pre, d, post, rfl, hpre⟩ := h
  induction pre with
  | nil =>
    intro found
    have : ¬ ([src].length - d > 1) := by simp only [List.length_cons, List.length_nil]; omega
    refine .inr ⟨d, ?_⟩
    simp only [List.nil_append]
    unfold pick
    simp only [this, if_false, if_true]
  | cons k pre ih =>
    intro found
    have ih := ih (fun c hc => hpre c (List.mem_cons_of_mem _ hc))
    rw [List.cons_append]
    unfold pick
    split
    · exact ih _
    · rename_i q qs hk
      split
      · exact ih _
      · rename_i hr
        have : q ≠ src := hpre k List.mem_cons_self q qs hk (by rw [hk] at hr; simp only [List.length_cons] at hr; omega)
        simp only [this, if_false]
        split
        · exact ih _
        · split
          · exact .inl rfl
          · exact ih _
          · exact ih _

/-- A value whose own type has a constructor that copies, passed where a type is expected that is constructed from it: no answer. -/
theorem copied_source_never_ends (w : World) (src t : Nat) (cs ks : List Ctor) (hs : w.isObj src = true) (hsc : w.ctors src = some cs)
    (hse : Exact src cs) (ht : w.isObj t = true) (hn : t ≠ src) (ha : w.asg t src = false) (htc : w.ctors t = some ks)
    (hte : Exact src ks) (n : Nat) : argOk w src n t = none := by
  have one : ∀ t cs, w.isObj t = true → w.ctors t = some cs → Exact src cs → ∀ n, canBuild w src n src = none →
      canBuild w src (n + 1) t = none := by
    intro t cs ho hc he n h0
    rw [canBuild.eq_def]
    simp only [ho, hc]
    rcases pick_exact (w := w) (ask := canBuild w src n) he none with h | ⟨d, h⟩
    · rw [h]; rfl
    · rw [h]; simpa using h0
  have base : ∀ n, canBuild w src n src = none := by
    intro n
    induction n with
    | zero => rfl
    | succ n ih => exact one src cs hs hsc hse n ih
  unfold argOk
  simp only [hn, if_false, ha]
  cases n with
  | zero => rfl
  | succ n => exact one t ks ht htc hte n (base n)

theorem pick_ends {w : World} {ask : Nat → Option Bool} {src : Nat} : ∀ {cs : List Ctor}
    (_ : ∀ c ∈ cs, ∀ p ps, c.params = p :: ps → ∃ b, ask p = some b) (found : Option Ctor), ∃ r, pick w ask src cs found = some r := by
  intro cs
  induction cs with
  | nil => intro _ found; exact ⟨_, rfl⟩
  | cons k cs ih =>
    intro h found
    have ih := ih (fun c hc => h c (List.mem_cons_of_mem _ hc))
    unfold pick
    split
    · exact ih _
    · rename_i p ps hk
      split
      · exact ih _
      · split
        · exact ⟨_, rfl⟩
        · split
          · exact ih _
          · obtain ⟨b, hb⟩ := h k List.mem_cons_self p ps hk
            rw [hb]
            cases b
            · exact ih _
            · exact ih _

/-- **Without a circle the check ends**: if classes and structs can be ordered so that constructors take only what comes before (first
parameters are what counts), every argument gets an answer. -/
theorem ordered_ends_partial (w : World) (rank : Nat → Nat)
    (down : ∀ t cs, w.isObj t = true → w.ctors t = some cs → ∀ c ∈ cs, ∀ p ps, c.params = p :: ps → rank p < rank t) (src t : Nat) :
    ∃ b, argOk w src (rank t + 1) t = some b := by
  have key : ∀ n t, rank t < n → ∃ b, canBuild w src n t = some b := by
    intro n
    induction n with
    | zero => intro t h; omega
    | succ n ih =>
      intro t ht
      rw [canBuild.eq_def]
      simp only
      split
      · exact ⟨_, rfl⟩
      · rename_i ho
        have ho : w.isObj t = true := by simpa using ho
        split
        · exact ⟨_, rfl⟩
        · rename_i cs hc
          have d := down t cs ho hc
          have ask : ∀ c ∈ cs, ∀ p ps, c.params = p :: ps → ∃ b, canBuild w src n p = some b :=
            fun c hm p ps hk => ih p (by have := d c hm p ps hk; omega)
          obtain ⟨r, hr⟩ := pick_ends ask none
          rw [hr]
          cases r with
          | none => exact ⟨_, rfl⟩
          | some c =>
            simp only
            split
            · exact ⟨_, rfl⟩
            · split
              · rename_i p hk
                rcases pick_mem hr with m | m
                · exact ask c m p [] hk
                · cases m
              · exact ⟨_, rfl⟩
  unfold argOk
  split
  · exact ⟨_, rfl⟩
  · split
    · exact ⟨_, rfl⟩
    · exact key _ t (by omega)

/-! ## Cases -/

/-- 0 is `i32`, 1 is `struct P { func init(x: i32) }`, 2 is `struct A { func init(p: P) }`, 3 is
`struct C { func init(c: C) }`, 4 is `string`. -/
def demo : World where
  isObj t := t == 1 || t == 2 || t == 3
  ctors t := match t with
    | 1 => some [⟨[0], 0, false⟩]
    | 2 => some [⟨[1], 0, false⟩]
    | 3 => some [⟨[3], 0, false⟩]
    | _ => none
  asg a b := a == b

/-- `f(5)` for `func f(a: A)` becomes `f(A(P(5)))`. -/
example : argOk demo 0 3 2 = some true ∧ construct demo 0 4 2 = some (some (.build 2 (.build 1 .arg))) := ⟨rfl, rfl⟩

example : Chain demo 0 2 2 := .build rfl rfl (.build rfl rfl (.leaf rfl rfl))

/-- `f(P(5))` is not accepted, although `A` has a constructor that takes a `P`. -/
example : argOk demo 1 3 2 = some false ∧ Fits demo 1 (.build 2 .arg) 2 :=
  ⟨rfl, .build rfl rfl (List.mem_singleton.2 rfl) (.arg rfl)⟩

example : ∀ p, demo.asg p 1 = true → demo.isObj p = true := by
  intro p h; have : p = 1 := by simpa [demo] using h
  subst this; rfl

/-- A string passed where a `C` is expected. -/
example (n : Nat) : argOk demo 4 n 3 = none :=
  copy_constructor_never_ends demo 4 3 [⟨[3], 0, false⟩] rfl (by decide) rfl rfl
    ⟨[], [], 0, false, [], rfl, Nat.le_refl _, fun _ h => by cases h⟩ n

/-- A `P` that can be copied, passed where an `A` is expected. -/
example (n : Nat) : argOk { demo with ctors := fun t => if t = 1 then some [⟨[0], 0, false⟩, ⟨[1], 0, false⟩] else demo.ctors t } 1 n 2 =
    none :=
  copied_source_never_ends _ 1 2 [⟨[0], 0, false⟩, ⟨[1], 0, false⟩] [⟨[1], 0, false⟩] rfl rfl
    ⟨[⟨[0], 0, false⟩], 0, [], rfl, by
      intro c hc q qs hk _; simp at hc; subst hc; simp at hk; omega⟩ rfl (by decide) rfl rfl
    ⟨[], 0, [], rfl, by intro c hc; cases hc⟩ n

/-- The same types without the constructor that copies. -/
example (src t : Nat) : ∃ b, argOk { demo with ctors := fun t => if t = 3 then none else demo.ctors t } src (t + 1) t = some b :=
  ordered_ends_partial _ (fun t => t) (by
    intro t cs ho hc c hm p ps hk
    by_cases h3 : t = 3
    · subst h3; simp at hc
    · have ht : t = 1 ∨ t = 2 := by simp [demo] at ho; omega
      rcases ht with rfl | rfl
      · simp [demo] at hc; subst hc; simp at hm; subst hm; simp at hk; omega
      · simp [demo] at hc; subst hc; simp at hm; subst hm; simp at hk; omega) src t

end Verif.Implicit
