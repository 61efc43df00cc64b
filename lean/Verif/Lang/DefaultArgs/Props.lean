import Verif.Lang.DefaultArgs.Model

/-!
# Default arguments: what the parameters get

A parameter for which there is no argument gets the value its default has where the function is declared: a parameter in the default is the
one of this call.
-/
namespace Verif.DefaultArgs

variable {V σ : Type} (P : Prims V σ)

/-! ## Specification -/

def put (ρ : Nat → V) (x : Nat) (v : V) : Nat → V := fun y => if y = x then v else ρ y

/-- The defaults in turn, each with the parameters before it. -/
def defaults : List (Param V) → (Nat → V) → σ → Option (List V × σ)
  | [], _, s => some ([], s)
  | p :: ps, ρ, s => match p.dflt with
    | none => none
    | some e => (eval P e ρ s).bind fun r => (defaults ps (put ρ p.name r.1) r.2).map fun q => (r.1 :: q.1, q.2)

/-- The arguments that are written go to the first parameters, the others get their defaults. -/
def meaning : List (Param V) → List V → (Nat → V) → σ → Option (List V × σ)
  | ps, [], ρ, s => defaults P ps ρ s
  | [], _ :: _, _, _ => none
  | p :: ps, v :: vs, ρ, s => (meaning ps vs (put ρ p.name v) s).map fun q => (v :: q.1, q.2)

mutual
/-- The expression reads no parameter. -/
def Closed : Expr V → Prop
  | .lit _ => True
  | .global _ => True
  | .param _ => False
  | .call _ as => ClosedArgs as
def ClosedArgs : Args V → Prop
  | .nil => True
  | .cons e es => Closed e ∧ ClosedArgs es
end

/-! ## Helpers -/

mutual
theorem eval_closed : ∀ (e : Expr V) (ρ ρ' : Nat → V) (s : σ), Closed e → eval P e ρ s = eval P e ρ' s
  | .lit _, _, _, _, _ => by simp [eval]
  | .global _, _, _, _, _ => by simp [eval]
  | .param _, _, _, _, h => by simp [Closed] at h
  | .call f as, ρ, ρ', s, h => by rw [eval, eval, evalArgs_closed as ρ ρ' s (by simpa [Closed] using h)]
theorem evalArgs_closed : ∀ (as : Args V) (ρ ρ' : Nat → V) (s : σ), ClosedArgs as → evalArgs P as ρ s = evalArgs P as ρ' s
  | .nil, _, _, _, _ => by simp [evalArgs]
  | .cons e es, ρ, ρ', s, h => by
      simp only [ClosedArgs] at h
      rw [evalArgs, evalArgs, eval_closed e ρ ρ' s h.1]
      congr 1; funext r
      rw [evalArgs_closed es ρ ρ' r.2 h.2]
end

mutual
theorem declared_nowhere : ∀ e : Expr V, declared (fun _ => false) e = true ↔ Closed e
  | .lit _ => by simp [declared, Closed]
  | .global _ => by simp [declared, Closed]
  | .param _ => by simp [declared, Closed]
  | .call _ as => by simp [declared, Closed, declaredArgs_nowhere as]
theorem declaredArgs_nowhere : ∀ as : Args V, declaredArgs (fun _ => false) as = true ↔ ClosedArgs as
  | .nil => by simp [declaredArgs, ClosedArgs]
  | .cons e es => by simp [declaredArgs, ClosedArgs, declared_nowhere e, declaredArgs_nowhere es]
end

mutual
theorem declared_closed (scope : Nat → Bool) : ∀ e : Expr V, Closed e → declared scope e = true
  | .lit _, _ => by simp [declared]
  | .global _, _ => by simp [declared]
  | .param _, h => by simp [Closed] at h
  | .call _ as, h => by simp [declared, declaredArgs_closed scope as (by simpa [Closed] using h)]
theorem declaredArgs_closed (scope : Nat → Bool) : ∀ as : Args V, ClosedArgs as → declaredArgs scope as = true
  | .nil, _ => by simp [declaredArgs]
  | .cons e es, h => by
      simp only [ClosedArgs] at h
      simp [declaredArgs, declared_closed scope e h.1, declaredArgs_closed scope es h.2]
end

theorem clones_mem : ∀ (ps : List (Param V)) es, clones ps = some es → ∀ e, e ∈ es ↔ ∃ p ∈ ps, p.dflt = some e
  | [], es, h, e => by simp [clones] at h; subst h; simp
  | p :: ps, es, h, e => by
      simp only [clones] at h
      cases hd : p.dflt with
      | none => rw [hd] at h; simp at h
      | some d =>
          rw [hd] at h
          obtain ⟨es', h', rfl⟩ := Option.map_eq_some_iff.mp h
          simp only [List.mem_cons, clones_mem ps es' h' e, exists_eq_or_imp, hd, Option.some.injEq]
          rw [eq_comm]

theorem run_clones (ρ : Nat → V) : ∀ (ps : List (Param V)) es, clones ps = some es → (∀ e ∈ es, Closed e) → ∀ (ρ' : Nat → V) (s : σ),
    run P es ρ s = defaults P ps ρ' s
  | [], es, h, _, ρ', s => by simp [clones] at h; subst h; simp [run, defaults]
  | p :: ps, es, h, hc, ρ', s => by
      simp only [clones] at h
      cases hd : p.dflt with
      | none => rw [hd] at h; simp at h
      | some d =>
          rw [hd] at h
          obtain ⟨es', h', rfl⟩ := Option.map_eq_some_iff.mp h
          simp only [run, defaults, hd, eval_closed P d ρ ρ' s (hc d (by simp))]
          congr 1; funext r
          rw [run_clones ρ ps es' h' (fun e he => hc e (by simp [he])) (put ρ' p.name r.1) r.2]

theorem meaning_eq (ρ : Nat → V) (s : σ) : ∀ (ps : List (Param V)) (vs : List V) es, vs.length ≤ ps.length →
    clones (ps.drop vs.length) = some es → (∀ e ∈ es, Closed e) → ∀ ρ' : Nat → V, pass P es vs ρ s = meaning P ps vs ρ' s
  | ps, [], es, _, h, hc, ρ' => by
      simp only [pass, meaning, List.nil_append]
      rw [run_clones P ρ ps es (by simpa using h) hc ρ' s]
      cases defaults P ps ρ' s <;> rfl
  | [], _ :: _, _, hl, _, _, _ => by simp at hl
  | p :: ps, v :: vs, es, hl, h, hc, ρ' => by
      have := meaning_eq ρ s ps vs es (by simpa using hl) (by simpa using h) hc (put ρ' p.name v)
      simp only [meaning, ← this, pass]
      cases run P es ρ s <;> rfl

/-! ## Theorems -/

/-- Defaults that read no parameter: the call is accepted wherever it stands, and every parameter gets what it should. -/
theorem default_arguments_partial (params : List (Param V)) (vs : List V) (hl : vs.length ≤ params.length)
    (hd : ∀ p ∈ params.drop vs.length, ∃ e, p.dflt = some e ∧ Closed e) (scope : Nat → Bool) :
    ∃ es, compile params vs.length scope = some es ∧ ∀ (ρ ρ' : Nat → V) (s : σ), pass P es vs ρ s = meaning P params vs ρ' s := by
  have hsome : ∀ ps : List (Param V), (∀ p ∈ ps, ∃ e, p.dflt = some e ∧ Closed e) → ∃ es, clones ps = some es := by
    intro ps
    induction ps with
    | nil => intro _; exact ⟨[], rfl⟩
    | cons p ps ih =>
        intro h
        obtain ⟨es, hes⟩ := ih (fun q hq => h q (by simp [hq]))
        obtain ⟨e, he, _⟩ := h p (by simp)
        exact ⟨e :: es, by simp [clones, he, hes]⟩
  obtain ⟨es, hes⟩ := hsome _ hd
  have hc : ∀ e ∈ es, Closed e := fun e he => by
    obtain ⟨p, hp, hpe⟩ := (clones_mem _ es hes e).mp he
    obtain ⟨e', he', hcl⟩ := hd p hp
    rw [hpe] at he'
    simp only [Option.some.injEq] at he'
    exact he' ▸ hcl
  refine ⟨es, ?_, fun ρ ρ' s => meaning_eq P ρ s params vs es hl hes hc ρ'⟩
  have : es.all (declared scope) = true := List.all_eq_true.mpr fun e he => declared_closed scope e (hc e he)
  simp [compile, hl, hes, this]

/-- A call that leaves arguments out works wherever it stands exactly if none of the defaults it needs reads a parameter. -/
theorem default_arguments_iff (params : List (Param V)) (vs : List V) (hl : vs.length ≤ params.length)
    (hd : ∀ p ∈ params.drop vs.length, p.dflt.isSome = true) :
    (∀ scope : Nat → Bool, ∃ es, compile params vs.length scope = some es ∧
        ∀ (ρ ρ' : Nat → V) (s : σ), pass P es vs ρ s = meaning P params vs ρ' s) ↔
      ∀ p ∈ params.drop vs.length, ∀ e, p.dflt = some e → Closed e := by
  constructor
  · intro h p hp e he
    obtain ⟨es, hes, _⟩ := h (fun _ => false)
    simp only [compile, hl, if_true] at hes
    cases hc : clones (params.drop vs.length) with
    | none => rw [hc] at hes; simp at hes
    | some es' =>
        rw [hc] at hes
        by_cases ha : es'.all (declared fun _ => false) = true
        · exact (declared_nowhere e).mp (List.all_eq_true.mp ha e ((clones_mem _ es' hc e).mpr ⟨p, hp, he⟩))
        · simp [ha] at hes
  · intro h scope
    refine default_arguments_partial P params vs hl (fun p hp => ?_) scope
    obtain ⟨e, he⟩ := Option.isSome_iff_exists.mp (hd p hp)
    exact ⟨e, he, h p hp e he⟩

/-- `func f(…, a: T, b: T = a)`: a caller that has a variable `a` of its own passes that one for `b`, whatever it passes for `a`. -/
theorem default_reads_callers_variable (ps : List (Param V)) (d : Option (Expr V)) (a b : Nat) (vs : List V) (v : V) (hl : vs.length = ps.length)
    (scope : Nat → Bool) (ha : scope a = true) :
    ∃ es, compile (ps ++ [⟨a, d⟩, ⟨b, some (.param a)⟩]) (vs ++ [v]).length scope = some es ∧
      ∀ (ρ ρ' : Nat → V) (s : σ), pass P es (vs ++ [v]) ρ s = some (vs ++ [v, ρ a], s) ∧
        meaning P (ps ++ [⟨a, d⟩, ⟨b, some (.param a)⟩]) (vs ++ [v]) ρ' s = some (vs ++ [v, v], s) := by
  refine ⟨[.param a], ?_, fun ρ ρ' s => ⟨?_, ?_⟩⟩
  · have hdrop : (ps ++ [(⟨a, d⟩ : Param V), ⟨b, some (.param a)⟩]).drop (vs ++ [v]).length = [⟨b, some (.param a)⟩] := by
      rw [List.length_append, hl, List.drop_append]
      simp
    have hle : (vs ++ [v]).length ≤ (ps ++ [(⟨a, d⟩ : Param V), ⟨b, some (.param a)⟩]).length := by simp [hl]
    simp only [compile, hle, if_true, hdrop, clones, Option.map_some]
    simp [declared, ha]
  · simp [pass, run, eval]
  · have key : ∀ (ps : List (Param V)) (vs : List V) (ρ' : Nat → V), vs.length = ps.length →
        meaning P (ps ++ [⟨a, d⟩, ⟨b, some (.param a)⟩]) (vs ++ [v]) ρ' s = some (vs ++ [v, v], s) := by
      intro ps
      induction ps with
      | nil =>
          intro vs ρ' h
          have : vs = [] := List.eq_nil_of_length_eq_zero h
          subst this
          simp [meaning, defaults, eval, put]
      | cons p ps ih =>
          intro vs ρ' h
          cases vs with
          | nil => simp at h
          | cons w vs =>
              simp only [List.cons_append, meaning, ih vs _ (by simpa using h), Option.map_some]
    exact key ps vs ρ' hl

/-! ## Cases -/

def demo : Prims Nat Nat := { call := fun _ vs s => some (vs.sum, s + 1), global := fun g _ => g + 100 }

/-- `func f(a, b = 7, c = next(g))`, called as `f(1)`. -/
example : ((compile [⟨0, none⟩, ⟨1, some (.lit 7)⟩, ⟨2, some (.call 3 (.cons (.global 5) .nil))⟩] 1 fun _ => false).bind fun es =>
    pass demo es [1] (fun _ => 0) 0) = some ([1, 7, 105], 1) := by
  simp [compile, clones, declared, declaredArgs, pass, run, eval, evalArgs, demo]
/-- `func f(a, b = a)`, called as `f(1)` where `a` is 9, and where there is no `a`. -/
example : ((compile [⟨0, none⟩, ⟨1, some (.param 0)⟩] 1 fun x => x == 0).bind fun es => pass demo es [1] (fun _ => 9) 0) = some ([1, 9], 0) := by
  simp [compile, clones, declared, pass, run, eval]
example : compile [⟨0, none⟩, ⟨1, some (.param 0 : Expr Nat)⟩] 1 (fun _ => false) = none := by
  simp [compile, clones, declared]
example : meaning demo [⟨0, none⟩, ⟨1, some (.param 0)⟩] [1] (fun _ => 0) 0 = some ([1, 1], 0) := by
  simp [meaning, defaults, eval, put]

end Verif.DefaultArgs
