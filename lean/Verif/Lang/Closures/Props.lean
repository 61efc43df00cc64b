import Verif.Lang.Closures.Model

/-!
# What a closure can reach

`Closed` says when the C that is written can be compiled; `Reach` says, of the source alone, which
uses of variables the compiler gets right.
-/

namespace Verif.Closures

/-! ## Specification -/

/-- A body is well scoped at depth `d`: it names variables declared at most that deep. -/
def Scoped (d : Nat) : Body → Prop
  | .done => True
  | .use v rest => v.home ≤ d ∧ Scoped d rest
  | .clo inner rest => Scoped (d + 1) inner ∧ Scoped d rest

/-- The C of a function `d` closures deep whose object has the fields `fs`: a bare name must be a
variable of this very function, `this->v` must be one of the fields. -/
def Closed (d : Nat) (fs : List Var) : Code → Prop
  | .done => True
  | .plain v rest => v.home = d ∧ Closed d fs rest
  | .field v rest => v ∈ fs ∧ Closed d fs rest
  | .make vs inner rest => (∀ v ∈ vs, v.home = d) ∧ Closed (d + 1) vs inner ∧ Closed d fs rest

/-- The variables named in a body, at any depth. -/
def named : Body → List Var
  | .done => []
  | .use v rest => v :: named rest
  | .clo inner rest => named inner ++ named rest

/-- Of the source alone: once a closure has been written in a closure (`seen`), variables from
further out are named no more directly in the outer one; and of the functions around it a closure, with
everything written in it, uses only the variables of the one it is written in. -/
def Reach (d : Nat) (seen : Bool) : Body → Prop
  | .done => True
  | .use v rest => (seen = true → v.home = d) ∧ Reach d seen rest
  | .clo inner rest =>
      (∀ v ∈ named inner, d ≤ v.home) ∧ Reach (d + 1) false inner ∧ Reach d true rest

/-- The source a piece of C stands for. -/
def source : Code → Body
  | .done => .done
  | .plain v rest => .use v (source rest)
  | .field v rest => .use v (source rest)
  | .make _ inner rest => .clo (source inner) (source rest)

/-! ## Lemmas -/

theorem mem_addCapture (vs : List Var) (v w : Var) : w ∈ addCapture vs v ↔ w ∈ vs ∨ w = v := by
  unfold addCapture
  split
  · constructor
    · exact Or.inl
    · rintro (h | h)
      · exact h
      · subst h; assumption
  · simp

theorem mem_passOn (d : Nat) (inner vs : List Var) (w : Var) :
    w ∈ passOn d vs inner ↔ w ∈ vs ∨ (w ∈ inner ∧ w.home < d) := by
  induction inner generalizing vs with
  | nil => simp [passOn]
  | cons v inner ih =>
    simp only [passOn, List.foldl_cons] at ih ⊢
    rw [ih]
    by_cases h : v.home < d
    · simp only [h, if_true, mem_addCapture, List.mem_cons]
      constructor
      · rintro ((h1 | rfl) | h1)
        · exact Or.inl h1
        · exact Or.inr ⟨Or.inl rfl, h⟩
        · exact Or.inr ⟨Or.inr h1.1, h1.2⟩
      · rintro (h1 | ⟨rfl | h1, h2⟩)
        · exact Or.inl (Or.inl h1)
        · exact Or.inl (Or.inr rfl)
        · exact Or.inr ⟨h1, h2⟩
    · simp only [h, if_false, List.mem_cons]
      constructor
      · rintro (h1 | h1)
        · exact Or.inl h1
        · exact Or.inr ⟨Or.inr h1.1, h1.2⟩
      · rintro (h1 | ⟨rfl | h1, h2⟩)
        · exact Or.inl h1
        · exact absurd h2 h
        · exact Or.inr ⟨h1, h2⟩

/-- Captures are only added. -/
theorem caps_mono (b : Body) (d : Nat) (vs : List Var) (cur : Bool) (w : Var) (h : w ∈ vs) :
    w ∈ (bind d vs cur b).caps := by
  induction b generalizing vs cur with
  | done => exact h
  | use v rest ih =>
    unfold bind
    split
    · exact ih _ _ ((mem_addCapture _ _ _).2 (Or.inl h))
    · exact ih _ _ h
  | clo inner rest _ ih => exact ih _ _ ((mem_passOn _ _ _ _).2 (Or.inl h))

/-- What is captured is named in the body and comes from further out. -/
theorem caps_sound (b : Body) (d : Nat) (vs : List Var) (cur : Bool) (w : Var)
    (h : w ∈ (bind d vs cur b).caps) : w ∈ vs ∨ (w ∈ named b ∧ w.home < d) := by
  induction b generalizing d vs cur with
  | done => exact Or.inl h
  | use v rest ih =>
    unfold bind at h
    split at h
    case isTrue hc =>
      rcases ih _ _ _ h with h | h
      · rcases (mem_addCapture _ _ _).1 h with h | rfl
        · exact Or.inl h
        · exact Or.inr ⟨by simp [named], hc.2⟩
      · exact Or.inr ⟨by simp [named, h.1], h.2⟩
    case isFalse =>
      rcases ih _ _ _ h with h | h
      · exact Or.inl h
      · exact Or.inr ⟨by simp [named, h.1], h.2⟩
  | clo inner rest ih1 ih2 =>
    rcases ih2 _ _ _ h with h | h
    · rcases (mem_passOn _ _ _ _).1 h with h | h
      · exact Or.inl h
      · rcases ih1 _ _ _ h.1 with h1 | h1
        · cases h1
        · exact Or.inr ⟨by simp [named, h1.1], h.2⟩
    · exact Or.inr ⟨by simp [named, h.1], h.2⟩

/-- In code that is closed, everything from further out that the body names is captured. -/
theorem caps_complete (b : Body) (d : Nat) (vs : List Var) (cur : Bool) (fs : List Var)
    (hc : Closed d fs (bind d vs cur b).code) (w : Var) (h : w ∈ named b) (hw : w.home < d) :
    w ∈ (bind d vs cur b).caps := by
  induction b generalizing d vs cur fs with
  | done => cases h
  | use v rest ih =>
    unfold bind at hc ⊢
    simp only [named, List.mem_cons] at h
    split at hc
    case isTrue hv =>
      rw [if_pos hv]
      rcases h with rfl | h
      · exact caps_mono _ _ _ _ _ ((mem_addCapture _ _ _).2 (Or.inr rfl))
      · exact ih _ _ _ _ hc.2 h hw
    case isFalse hv =>
      rw [if_neg hv]
      rcases h with rfl | h
      · have := hc.1; omega
      · exact ih _ _ _ _ hc.2 h hw
  | clo inner rest ih1 ih2 =>
    simp only [named, List.mem_append] at h
    obtain ⟨_, h2, h3⟩ := hc
    rcases h with h | h
    · exact caps_mono rest _ _ _ _ ((mem_passOn _ _ _ _).2
        (Or.inr ⟨ih1 _ _ _ _ h2 h (by omega), hw⟩))
    · exact ih2 _ _ _ _ h3 h hw

/-- The two descriptions agree, for a body `d` closures deep. -/
theorem closed_iff (b : Body) (d : Nat) (vs : List Var) (cur : Bool) (fs : List Var)
    (hs : Scoped d b) (hfs : ∀ w ∈ (bind d vs cur b).caps, w ∈ fs)
    (seen : Bool)
    (hseen : d ≠ 0 → seen = !cur) :
    Closed d fs (bind d vs cur b).code ↔ Reach d seen b := by
  induction b generalizing d vs cur fs seen with
  | done => exact Iff.rfl
  | use v rest ih =>
    obtain ⟨hv, hs⟩ := hs
    unfold bind at hfs ⊢
    split at hfs
    case isTrue hc =>
      rw [if_pos hc]
      have hne : d ≠ 0 := by omega
      have hsn : seen = false := by rw [hseen hne, hc.1]; rfl
      have hm : v ∈ fs := hfs _ (caps_mono _ _ _ _ _ ((mem_addCapture _ _ _).2 (Or.inr rfl)))
      simp only [Closed, Reach, hm, true_and, ih d _ _ fs hs hfs seen hseen, hsn]
      simp
    case isFalse hc =>
      rw [if_neg hc]
      simp only [Closed, Reach, ih d _ _ fs hs hfs seen hseen]
      have : v.home = d ↔ (seen = true → v.home = d) := by
        constructor
        · intro h _; exact h
        · intro h
          by_cases h0 : d = 0
          · omega
          · cases cur with
            | true =>
              have : ¬ v.home < d := fun hl => hc ⟨rfl, hl⟩
              omega
            | false => exact h (hseen h0)
      rw [← this]
  | clo inner rest ih1 ih2 =>
    obtain ⟨hs1, hs2⟩ := hs
    simp only [bind] at hfs ⊢
    simp only [Closed, Reach]
    have e2 := ih2 d (passOn d vs (bind (d + 1) [] true inner).caps) false fs hs2 hfs true (fun _ => rfl)
    have e1 := ih1 (d + 1) [] true (bind (d + 1) [] true inner).caps hs1 (fun _ h => h)
      false (fun _ => rfl)
    rw [e2, e1]
    constructor
    · rintro ⟨h1, h2, h3⟩
      refine ⟨?_, h2, h3⟩
      intro w hw
      by_cases hl : w.home < d + 1
      · have := h1 w (caps_complete inner (d + 1) [] true _ (e1.2 h2) w hw hl)
        omega
      · omega
    · rintro ⟨h1, h2, h3⟩
      refine ⟨?_, h2, h3⟩
      intro w hw
      rcases caps_sound _ _ _ _ _ hw with hw | hw
      · cases hw
      · have := h1 w hw.1
        have := hw.2
        omega

/-! ## Theorems -/

/-- Binding names the same variables in the same places. -/
theorem same_variables (b : Body) (d : Nat) (vs : List Var) (cur : Bool) :
    source (bind d vs cur b).code = b := by
  induction b generalizing d vs cur with
  | done => rfl
  | use v rest ih =>
    unfold bind
    split
    · simp [source, ih]
    · simp [source, ih]
  | clo inner rest ih1 ih2 => simp [bind, source, ih1, ih2]

/-- **C195, exactly which programs.**  The C written for a function can name everything it names if
and only if each closure uses, of the functions around it, only the variables of the one it is
written in, and names none of them directly after a closure of its own. -/
theorem closure_reaches_iff (b : Body) (hs : Scoped 0 b) :
    Closed 0 [] (compile b) ↔ Reach 0 false b := by
  have hfs : ∀ w ∈ (bind 0 [] false b).caps, w ∈ ([] : List Var) := by
    intro w hw
    rcases caps_sound _ _ _ _ _ hw with h | h
    · exact h
    · exact absurd h.2 (by omega)
  exact closed_iff b 0 [] false [] hs hfs false (fun h => absurd rfl h)

/-- A body without closures. -/
def flat : Body → Bool
  | .done => true
  | .use _ rest => flat rest
  | .clo _ _ => false

/-- A function whose closures have no closures in them. -/
def shallow : Body → Bool
  | .done => true
  | .use _ rest => shallow rest
  | .clo inner rest => flat inner && shallow rest

theorem reach_flat (b : Body) (d : Nat) (h : flat b = true) : Reach d false b := by
  induction b with
  | done => trivial
  | use v rest ih => exact ⟨fun hf => (by cases hf), ih h⟩
  | clo => cases h

theorem reach_shallow (b : Body) (seen : Bool) (hs : Scoped 0 b) (h : shallow b = true) :
    Reach 0 seen b := by
  induction b generalizing seen with
  | done => trivial
  | use v rest ih => exact ⟨fun _ => by have := hs.1; omega, ih seen hs.2 h⟩
  | clo inner rest _ ih =>
    simp only [shallow, Bool.and_eq_true] at h
    exact ⟨fun _ _ => by omega, reach_flat _ _ h.1, ih true hs.2 h.2⟩

/-- **C195 for closures that have no closures in them.**  Any number of closures, each naming
anything of its own and of the function around it, in any order. -/
theorem closure_reaches_partial (b : Body) (hs : Scoped 0 b) (h : shallow b = true) :
    Closed 0 [] (compile b) :=
  (closure_reaches_iff b hs).2 (reach_shallow b false hs h)

/-- Each closure gets a field for each variable of the function around it that it names, and no
others. -/
theorem fields_are_what_is_named (inner rest : Body) (d : Nat) (vs : List Var) (cur : Bool)
    (h : flat inner = true) (w : Var) :
    ∃ fs c r, (bind d vs cur (.clo inner rest)).code = .make fs c r ∧
      (w ∈ fs ↔ w ∈ named inner ∧ w.home ≤ d) := by
  refine ⟨_, _, _, rfl, ?_⟩
  constructor
  · intro hw
    rcases caps_sound _ _ _ _ _ hw with hw | hw
    · cases hw
    · exact ⟨hw.1, by have := hw.2; omega⟩
  · rintro ⟨hw, hl⟩
    have key : ∀ (b : Body) (us : List Var), flat b = true → w ∈ named b →
        w ∈ (bind (d + 1) us true b).caps := by
      intro b
      induction b with
      | done => intro _ _ h; cases h
      | use v rest ih =>
        intro us hf hn
        simp only [named, List.mem_cons] at hn
        unfold bind
        split
        · rcases hn with rfl | hn
          · exact caps_mono _ _ _ _ _ ((mem_addCapture _ _ _).2 (Or.inr rfl))
          · exact ih _ hf hn
        case isFalse hc =>
          rcases hn with rfl | hn
          · exact absurd ⟨rfl, by omega⟩ hc
          · exact ih _ hf hn
      | clo => intro _ h; cases h
    exact key inner [] h hw

/-- **Negation.**  A variable used two closures in is never reached: wherever, in a closure of a
function, another closure names a variable of that function, the C that is written does not
compile. -/
theorem two_closures_out_not_reached (v : Var) (hv : v.home = 0) (b c e : Body)
    (hs : Scoped 0 (.clo (.clo b c) e)) (h : v ∈ named b) :
    ¬ Closed 0 [] (compile (.clo (.clo b c) e)) := by
  rw [closure_reaches_iff _ hs]
  rintro ⟨_, ⟨h2, _⟩, _⟩
  have := h2 v h
  omega

/-- **Negation.**  A variable of the function that a closure names after a closure of its own is not
reached, whatever that inner closure does, even if the outer one has named the variable before. -/
theorem after_inner_closure_not_reached (v : Var) (hv : v.home = 0) (inner rest e : Body)
    (hs : Scoped 0 (.clo (.use v (.clo inner (.use v rest))) e)) :
    ¬ Closed 0 [] (compile (.clo (.use v (.clo inner (.use v rest))) e)) := by
  rw [closure_reaches_iff _ hs]
  rintro ⟨_, ⟨_, _, _, h, _⟩, _⟩
  have := h rfl
  omega

/-! ## Non-vacuity -/

private def x : Var := ⟨0, 1⟩
private def y : Var := ⟨1, 2⟩
private def z : Var := ⟨2, 3⟩

/-- Two closures, naming a variable of the function and one of their own. -/
private def two : Body := .use x (.clo (.use x (.use y (.use x .done))) (.clo (.use x .done) (.use x .done)))

example : Scoped 0 two ∧ shallow two = true := by simp [Scoped, two, x, y, shallow, flat]

example : compile two = .plain x (.make [x] (.field x (.plain y (.field x .done)))
    (.make [x] (.field x .done) (.plain x .done))) := by rfl

/-- A closure in a closure, naming a variable of the outer one: reached. -/
private def nest : Body := .clo (.use x (.use y (.clo (.use y (.use z .done)) (.use y .done)))) .done

example : Scoped 0 nest ∧ Reach 0 false nest ∧ Closed 0 [] (compile nest) := by
  simp [Scoped, nest, x, y, z, Reach, named, compile, bind, Closed, addCapture, passOn]

/-- The inner closure names a variable of the function. -/
private def far : Body := .clo (.clo (.use x .done) .done) .done

example : Scoped 0 far ∧ x ∈ named (.use x .done) ∧ ¬ Closed 0 [] (compile far) := by
  simp [Scoped, far, x, named, compile, bind, Closed, addCapture, passOn]

example : Scoped 0 (.clo (.use x (.clo .done (.use x .done))) .done) := by simp [Scoped, x]

end Verif.Closures
