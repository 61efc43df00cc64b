import Verif.Lang.MultiDecl.Model

/-!
# Declarations of several variables: what is declared

The meaning of `var a, _, b = init`: the initialiser is evaluated, once and as a whole, where the declaration stands; then each variable gets
its component, `_` drops one.
-/
namespace Verif.MultiDecl

variable {V σ : Type} (P : Prims V σ)

/-! ## The meaning -/

/-- The values of the elements of a tuple, from the left. -/
def evalAll : List (Expr V) → (Nat → V) → σ → Option (List V × σ)
  | [], _, s => some ([], s)
  | e :: es, ρ, s => (eval P e ρ s).bind fun r => (evalAll es ρ r.2).map fun q => (r.1 :: q.1, q.2)

/-- The components of the initialiser, computed as a whole. -/
def components (init : Init V) (ρ : Nat → V) (s : σ) : Option ((Nat → V) × σ) :=
  match init with
  | .missing => some (fun _ => P.zero, s)
  | .tuple es => (evalAll P es ρ s).map fun r => (fun i => r.1.getD i P.zero, r.2)
  | .name x _ => some (fun i => P.proj (ρ x) i, s)
  | .value e _ => (eval P e ρ s).map fun r => (fun i => P.proj r.1 i, r.2)

/-- Each name gets the component at its place. -/
def bindAll (c : Nat → V) : Nat → List (Option Nat) → (Nat → V) → (Nat → V)
  | _, [], ρ => ρ
  | i, none :: ns, ρ => bindAll c (i + 1) ns ρ
  | i, some x :: ns, ρ => bindAll c (i + 1) ns (put ρ x (c i))

/-- The variables and the state behind the declaration. -/
def meaning (ns : List (Option Nat)) (init : Init V) (ρ : Nat → V) (s : σ) : Option ((Nat → V) × σ) :=
  (components P init ρ s).map fun r => (bindAll r.1 0 ns ρ, r.2)

/-- The variables an expression reads. -/
def Expr.Reads (x : Nat) : Expr V → Prop
  | .lit _ => False
  | .var y => x = y
  | .call _ as => argsRead x as
where argsRead (x : Nat) : Args V → Prop
  | .nil => False
  | .cons e es => e.Reads x ∨ argsRead x es

/-! ## Helpers -/

mutual
theorem eval_agree : ∀ (e : Expr V) (ρ ρ' : Nat → V) (s : σ), (∀ x, e.Reads x → ρ x = ρ' x) → eval P e ρ s = eval P e ρ' s
  | .lit _, _, _, _, _ => by simp [eval]
  | .var y, _, _, _, h => by simp [eval, h y (by simp [Expr.Reads])]
  | .call f as, ρ, ρ', s, h => by
      rw [eval, eval, evalArgs_agree as ρ ρ' s (fun x hx => h x (by simpa [Expr.Reads] using hx))]
theorem evalArgs_agree : ∀ (as : Args V) (ρ ρ' : Nat → V) (s : σ), (∀ x, Expr.Reads.argsRead x as → ρ x = ρ' x) →
    evalArgs P as ρ s = evalArgs P as ρ' s
  | .nil, _, _, _, _ => by simp [evalArgs]
  | .cons e es, ρ, ρ', s, h => by
      rw [evalArgs, evalArgs, eval_agree e ρ ρ' s (fun x hx => h x (by simp [Expr.Reads.argsRead, hx]))]
      congr 1
      funext r
      rw [evalArgs_agree es ρ ρ' r.2 (fun x hx => h x (by simp [Expr.Reads.argsRead, hx]))]
end

theorem run_tmp (e : Expr V) (k : Nat) (t : V) (s : σ) : ∀ (ns : List (Option Nat)) (i : Nat) (ρ : Nat → V),
    runVars P t (loop (.value e k) i ns) ρ s = some (bindAll (fun i => P.proj t i) i ns ρ, s)
  | [], _, _ => by simp [loop, runVars, bindAll]
  | none :: ns, i, ρ => by simpa [loop, bindAll] using run_tmp e k t s ns (i + 1) ρ
  | some x :: ns, i, ρ => by
      simpa [loop, bindAll, runVars, member, readSrc] using run_tmp e k t s ns (i + 1) (put ρ x (P.proj t i))

/-- The names that are declared. -/
abbrev declared (ns : List (Option Nat)) : List Nat := ns.filterMap (fun n => n)

theorem run_name (y k : Nat) (t v : V) (s : σ) : ∀ (ns : List (Option Nat)) (i : Nat) (ρ : Nat → V),
    ρ y = v → y ∉ (declared ns).dropLast →
    runVars P t (loop (.name y k) i ns) ρ s = some (bindAll (fun i => P.proj v i) i ns ρ, s)
  | [], _, _, _, _ => by simp [loop, runVars, bindAll]
  | none :: ns, i, ρ, hv, h => by
      simpa [loop, bindAll] using run_name y k t v s ns (i + 1) ρ hv (by simpa [declared] using h)
  | some x :: ns, i, ρ, hv, h => by
      simp only [loop, runVars, member, readSrc, bindAll, Option.bind_some, hv]
      cases hd : declared ns with
      | nil =>
          have hn : ∀ (ms : List (Option Nat)) (j : Nat) (ρ' : Nat → V), declared ms = [] →
              runVars P t (loop (.name y k) j ms) ρ' s = some (bindAll (fun i => P.proj v i) j ms ρ', s) := by
            intro ms
            induction ms with
            | nil => intro j ρ' _; simp [loop, runVars, bindAll]
            | cons m ms ih =>
                intro j ρ' hm
                cases m with
                | none => simpa [loop, bindAll] using ih (j + 1) ρ' (by simpa [declared] using hm)
                | some z => simp [declared] at hm
          exact hn ns (i + 1) _ hd
      | cons z zs =>
          have hh : y ≠ x ∧ y ∉ (declared ns).dropLast := by
            have : declared (some x :: ns) = x :: declared ns := by simp [declared]
            rw [this, hd, List.dropLast_cons_of_ne_nil (by simp)] at h
            rw [hd]
            exact ⟨fun e => h (by simp [e]), fun e => h (List.mem_cons_of_mem _ e)⟩
          exact run_name y k t v s ns (i + 1) _ (by simp [put, hh.1, hv]) hh.2

theorem loop_isEmpty (init : Init V) : ∀ (ns : List (Option Nat)) (i : Nat),
    (loop init i ns).isEmpty = (declared ns).isEmpty
  | [], _ => by simp [loop, declared]
  | none :: ns, i => by simpa [loop, declared] using loop_isEmpty init ns (i + 1)
  | some x :: ns, i => by simp [loop, declared]

theorem inRange_of_le (init : Init V) (k : Nat) (hk : (∃ x, init = .name x k) ∨ (∃ e, init = .value e k)) :
    ∀ (ns : List (Option Nat)) (i : Nat), i + ns.length ≤ k → inRange init i ns = true
  | [], _, _ => by simp [inRange]
  | none :: ns, i, h => by
      simp only [inRange]
      exact inRange_of_le init k hk ns (i + 1) (by simp at h; omega)
  | some x :: ns, i, h => by
      have := inRange_of_le init k hk ns (i + 1) (by simp at h; omega)
      have hi : i < k := by simp at h; omega
      rcases hk with ⟨y, rfl⟩ | ⟨e, rfl⟩ <;> simp [inRange, hi] <;> simpa using this

theorem inRange_tuple (es : List (Expr V)) : ∀ (ns : List (Option Nat)) (i : Nat), inRange (.tuple es) i ns = true
  | [], _ => by simp [inRange]
  | none :: ns, i => by simpa [inRange] using inRange_tuple es ns (i + 1)
  | some x :: ns, i => by simpa [inRange] using inRange_tuple es ns (i + 1)

/-! ## Values that are computed -/

/-- `var a, _, b = f()`: whatever the initialiser is, unless it is a tuple expression or a name, it is computed once, before anything is
declared, and each variable gets its component. -/
theorem declares_components (ns : List (Option Nat)) (e : Expr V) (k : Nat) (hn : declared ns ≠ []) (hk : ns.length ≤ k) :
    ∃ d, compile ns (.value e k) = .ok d ∧ ∀ ρ s, run P d ρ s = meaning P ns (.value e k) ρ s := by
  refine ⟨{ tmp := some e, vars := loop (.value e k) 0 ns }, ?_, ?_⟩
  · have h1 : (loop (.value e k) 0 ns).isEmpty = false := by
      rw [loop_isEmpty]; cases h : declared ns with
      | nil => exact absurd h hn
      | cons _ _ => rfl
    simp [compile, Init.isMissing, h1, inRange_of_le (.value e k) k (.inr ⟨e, rfl⟩) ns 0 (by omega)]
  · intro ρ s
    simp only [run, meaning, components]
    cases eval P e ρ s with
    | none => rfl
    | some r => simp [run_tmp]

/-! ## A name -/

/-- `var a, b = t`: right as long as none of the variables but the last is called like the one that is taken apart. -/
theorem declares_from_variable_partial (ns : List (Option Nat)) (y k : Nat) (hn : declared ns ≠ []) (hk : ns.length ≤ k)
    (hy : y ∉ (declared ns).dropLast) :
    ∃ d, compile ns (.name y k) = .ok d ∧ ∀ ρ s, run P d ρ s = meaning P ns (.name y k) ρ s := by
  refine ⟨{ tmp := none, vars := loop (.name y k) 0 ns }, ?_, ?_⟩
  · have h1 : (loop (.name y k : Init V) 0 ns).isEmpty = false := by
      rw [loop_isEmpty]; cases h : declared ns with
      | nil => exact absurd h hn
      | cons _ _ => rfl
    simp [compile, Init.isMissing, h1, inRange_of_le (.name y k : Init V) k (.inl ⟨y, rfl⟩) ns 0 (by omega)]
  · intro ρ s
    simp only [run, meaning, components, Option.map_some]
    exact run_name P y k _ (ρ y) s ns 0 ρ rfl hy

/-- Otherwise the components behind that variable are those of its own component: in `var t, b = t` the second variable gets the second
component of the first component of the old `t`. -/
theorem variable_taken_apart_twice (y b k : Nat) (hk : 2 ≤ k) :
    ∃ d, compile [some y, some b] (.name y k : Init V) = .ok d ∧
      ∀ ρ (s : σ), (run P d ρ s).map (fun r => r.1 b) = some (P.proj (P.proj (ρ y) 0) 1) ∧
        (meaning P [some y, some b] (.name y k) ρ s).map (fun r => r.1 b) = some (P.proj (ρ y) 1) := by
  refine ⟨{ tmp := none, vars := [(y, .ofVar y 0), (b, .ofVar y 1)] }, ?_, ?_⟩
  · simp [compile, Init.isMissing, loop, member, inRange, show 0 < k by omega, show 1 < k by omega]
  · intro ρ s
    simp [run, runVars, readSrc, put, meaning, components, bindAll]

/-! ## A tuple expression -/

theorem run_tuple (es₀ : List (Expr V)) (t : V) (s₀ : Nat → V) : ∀ (xs : List Nat) (es : List (Expr V)) (i : Nat) (ρ : Nat → V) (s : σ),
    es₀.drop i = es → es.length = xs.length →
    (∀ e ∈ es, ∀ x, e.Reads x → ρ x = s₀ x) →
    (∀ (a b : Nat) (e : Expr V) (x : Nat), a < b → es[b]? = some e → xs[a]? = some x → ¬ e.Reads x) →
    ∀ c : Nat → V, ∀ q, evalAll P es s₀ s = q →
    (∀ vs s', q = some (vs, s') → ∀ j, c (i + j) = vs.getD j P.zero) →
    runVars P t (loop (.tuple es₀) i (xs.map some)) ρ s = q.map fun r => (bindAll c i (xs.map some) ρ, r.2)
  | [], es, i, ρ, s, _, hl, _, _, c, q, hq, _ => by
      have : es = [] := List.eq_nil_of_length_eq_zero hl
      subst this
      simp only [evalAll] at hq
      subst hq
      simp [loop, runVars, bindAll]
  | x :: xs, [], _, _, _, _, hl, _, _, _, _, _, _ => by simp at hl
  | x :: xs, e :: es, i, ρ, s, hd, hl, hr, hx, c, q, hq, hc => by
      have hi : es₀[i]? = some e := by
        have : (es₀.drop i)[0]? = some e := by rw [hd]; rfl
        simpa using this
      have hd' : es₀.drop (i + 1) = es := by
        rw [← List.drop_drop, hd]; rfl
      simp only [List.map_cons, loop, runVars, member, hi, readSrc]
      rw [eval_agree P e ρ s₀ s (hr e (by simp))]
      simp only [evalAll] at hq
      cases he : eval P e s₀ s with
      | none => rw [he] at hq; simp at hq; subst hq; rfl
      | some r =>
          rw [he] at hq
          simp only [Option.bind_some] at hq ⊢
          cases ha : evalAll P es s₀ r.2 with
          | none =>
              rw [ha] at hq; simp at hq; subst hq
              have := run_tuple es₀ t s₀ xs es (i + 1) (put ρ x r.1) r.2 hd' (by simpa using hl)
                (fun e' he' y hy => by
                  obtain ⟨b, hb⟩ := List.getElem?_of_mem he'
                  have : y ≠ x := fun h => hx 0 (b + 1) e' x (by omega) (by simpa using hb) (by simp) (h ▸ hy)
                  simp [put, this, hr e' (by simp [he']) y hy])
                (fun a b e' y hab hb hy => hx (a + 1) (b + 1) e' y (by omega) (by simpa using hb) (by simpa using hy))
                c none ha (fun _ _ h => by simp at h)
              rw [this]; rfl
          | some q' =>
              rw [ha] at hq; simp at hq; subst hq
              have hc' := hc _ _ rfl
              have := run_tuple es₀ t s₀ xs es (i + 1) (put ρ x r.1) r.2 hd' (by simpa using hl)
                (fun e' he' y hy => by
                  obtain ⟨b, hb⟩ := List.getElem?_of_mem he'
                  have : y ≠ x := fun h => hx 0 (b + 1) e' x (by omega) (by simpa using hb) (by simp) (h ▸ hy)
                  simp [put, this, hr e' (by simp [he']) y hy])
                (fun a b e' y hab hb hy => hx (a + 1) (b + 1) e' y (by omega) (by simpa using hb) (by simpa using hy))
                c (some q') ha (fun vs s' h j => by
                  simp only [Option.some.injEq] at h
                  have := hc' (j + 1)
                  simp only [h, List.getD_cons_succ] at this
                  rw [← this]; congr 1; omega)
              rw [this]
              have h0 : c i = r.1 := by simpa using hc' 0
              simp [bindAll, h0]

/-- `var a, b = (e, f)`, as many elements as names and no `_`: right as long as no element reads a variable declared before its own. -/
theorem declares_elements_partial (xs : List Nat) (es : List (Expr V)) (hn : xs ≠ []) (hl : es.length = xs.length)
    (hx : ∀ (a b : Nat) (e : Expr V) (x : Nat), a < b → es[b]? = some e → xs[a]? = some x → ¬ e.Reads x) :
    ∃ d, compile (xs.map some) (.tuple es) = .ok d ∧ ∀ ρ s, run P d ρ s = meaning P (xs.map some) (.tuple es) ρ s := by
  refine ⟨{ tmp := none, vars := loop (.tuple es) 0 (xs.map some) }, ?_, ?_⟩
  · have h1 : (loop (.tuple es) 0 (xs.map some)).isEmpty = false := by
      rw [loop_isEmpty]; cases xs with
      | nil => exact absurd rfl hn
      | cons _ _ => rfl
    simp [compile, Init.isMissing, h1, inRange_tuple]
  · intro ρ s
    simp only [run, meaning, components]
    cases hq : evalAll P es ρ s with
    | none =>
        rw [run_tuple P es P.zero ρ xs es 0 ρ s rfl hl (fun _ _ _ _ => rfl) hx (fun _ => P.zero) none hq (by simp)]
        rfl
    | some q =>
        rw [run_tuple P es P.zero ρ xs es 0 ρ s rfl hl (fun _ _ _ _ => rfl) hx (fun i => q.1.getD i P.zero) (some q) hq
          (fun vs s' h j => by simp only [Option.some.injEq] at h; simp [h])]
        simp

/-- Elements that stand at a `_` and those behind the last name: what is declared does not depend on them. -/
theorem dropped_element_irrelevant (ns : List (Option Nat)) (es : List (Expr V)) (i : Nat) (e : Expr V)
    (hi : ∀ x, ns[i]? ≠ some (some x)) : compile ns (.tuple (es.set i e)) = compile ns (.tuple es) := by
  have h : ∀ (ms : List (Option Nat)) (j : Nat), (∀ k x, ms[k]? = some (some x) → j + k ≠ i) →
      loop (.tuple (es.set i e)) j ms = loop (.tuple es) j ms := by
    intro ms
    induction ms with
    | nil => intro j _; rfl
    | cons m ms ih =>
        intro j hj
        have ih' := ih (j + 1) (fun k x hk => by
          have := hj (k + 1) x (by simpa using hk)
          omega)
        cases m with
        | none => simpa [loop] using ih'
        | some x =>
            have hne : i ≠ j := fun h => hj 0 x (by simp) (by omega)
            simp [loop, ih', member, List.getElem?_set_ne hne]
  have h0 := h ns 0 (fun k x hk hki => hi x (by rw [← hki, Nat.zero_add]; exact hk))
  simp [compile, Init.isMissing, h0, inRange_tuple]

/-- So a call that stands there is not made, although it is part of the initialiser: there are always states where the declaration means
that the program does not come back and it does. -/
theorem dropped_call_not_made (xs : List Nat) (es : List (Expr V)) (f : Nat) (hn : xs ≠ []) (hl : es.length = xs.length)
    (hx : ∀ (a b : Nat) (e : Expr V) (x : Nat), a < b → es[b]? = some e → xs[a]? = some x → ¬ e.Reads x)
    (hf : ∀ s, P.call f [] s = none) (ρ : Nat → V) (s : σ) :
    ∃ d, compile (xs.map some ++ [none]) (.tuple (es ++ [.call f .nil])) = .ok d ∧
      run P d ρ s = meaning P (xs.map some) (.tuple es) ρ s ∧
      meaning P (xs.map some ++ [none]) (.tuple (es ++ [.call f .nil])) ρ s = none := by
  obtain ⟨d, hd, hr⟩ := declares_elements_partial P xs es hn hl hx
  refine ⟨d, ?_, hr ρ s, ?_⟩
  · have hloop : ∀ (ms : List Nat) (j : Nat), j + ms.length ≤ es.length →
        loop (.tuple (es ++ [.call f .nil])) j (ms.map some ++ [none]) = loop (.tuple es) j (ms.map some) := by
      intro ms
      induction ms with
      | nil => intro j _; simp [loop]
      | cons m ms ih =>
          intro j hj
          simp only [List.length_cons] at hj
          have hlt : j < es.length := by omega
          simp [loop, ih (j + 1) (by omega), member, List.getElem?_append_left hlt]
    have := hloop xs 0 (by omega)
    rw [← hd]
    simp [compile, Init.isMissing, this, inRange_tuple]
  · have : ∀ (l : List (Expr V)) (s : σ), evalAll P (l ++ [.call f .nil]) ρ s = none := by
      intro l
      induction l with
      | nil => intro s; simp [evalAll, eval, evalArgs, hf]
      | cons e l ih => intro s; simp [evalAll, ih]
    simp [meaning, components, this]

/-- Only `_`: the compiler reads through a null pointer, whatever the initialiser is. -/
theorem only_ignored_crashes (n : Nat) (init : Init V) (h : init.isMissing = false) :
    compile (List.replicate n none) init = .crash := by
  have : ∀ i, loop init i (List.replicate n none) = [] := by
    induction n with
    | zero => intro i; rfl
    | succ n ih => intro i; simp [List.replicate_succ, loop, ih]
  simp [compile, h, this]

/-- More names than elements: nothing is said about it, the variables left are not given a value. -/
theorem missing_element_accepted (x y : Nat) (e : Expr V) :
    compile [some x, some y] (.tuple [e]) = .ok { tmp := none, vars := [(x, .expr e), (y, .nothing)] } := by
  simp [compile, Init.isMissing, loop, member, inRange]

/-! ## Variables put in another order -/

theorem run_vars (es₀ : List Nat) (t : V) (s : σ) : ∀ (xs ys : List Nat) (i : Nat) (ρ : Nat → V),
    es₀.drop i = ys → ys.length = xs.length →
    runVars P t (loop (.tuple (es₀.map Expr.var)) i (xs.map some)) ρ s = some ((xs.zip ys).foldl (fun ρ p => put ρ p.1 (ρ p.2)) ρ, s)
  | [], ys, i, ρ, _, hl => by
      have : ys = [] := List.eq_nil_of_length_eq_zero hl
      subst this
      simp [loop, runVars]
  | x :: xs, [], _, _, _, hl => by simp at hl
  | x :: xs, y :: ys, i, ρ, hd, hl => by
      have hi : es₀[i]? = some y := by
        have : (es₀.drop i)[0]? = some y := by rw [hd]; rfl
        simpa using this
      have hd' : es₀.drop (i + 1) = ys := by
        rw [← List.drop_drop, hd]; rfl
      simp only [List.map_cons, loop, runVars, member, List.getElem?_map, hi, Option.map_some, readSrc, eval, Option.bind_some,
        List.zip_cons_cons, List.foldl_cons]
      exact run_vars es₀ t s xs ys (i + 1) _ hd' (by simpa using hl)

theorem evalAll_vars (ρ : Nat → V) (s : σ) : ∀ ys : List Nat, evalAll P (ys.map Expr.var) ρ s = some (ys.map ρ, s)
  | [] => by simp [evalAll]
  | y :: ys => by simp [evalAll, eval, evalAll_vars ρ s ys]

/-- One variable after the other. -/
abbrev inTurn (ps : List (Nat × Nat)) (ρ : Nat → V) : Nat → V := ps.foldl (fun r p => put r p.1 (r p.2)) ρ
/-- All at once. -/
abbrev atOnce (ps : List (Nat × Nat)) (ρ r : Nat → V) : Nat → V := ps.foldl (fun r p => put r p.1 (ρ p.2)) r

theorem atOnce_same (ρ : Nat → V) (z : Nat) : ∀ (ps : List (Nat × Nat)) (r : Nat → V), r z = ρ z →
    (∀ q ∈ ps, z = q.1 → q.2 = q.1) → atOnce ps ρ r z = ρ z
  | [], _, h, _ => h
  | q :: ps, r, h, hp => by
      simp only [atOnce, List.foldl_cons]
      refine atOnce_same ρ z ps _ ?_ (fun q' hq' => hp q' (by simp [hq']))
      by_cases hz : z = q.1
      · simp only [put, hz, if_true]; rw [hp q (by simp) hz]
      · simp only [put, if_neg hz]; exact h

theorem atOnce_other (ρ : Nat → V) (z : Nat) : ∀ (ps : List (Nat × Nat)) (r : Nat → V), z ∉ ps.map (·.1) → atOnce ps ρ r z = r z
  | [], _, _ => rfl
  | q :: ps, r, h => by
      simp only [List.map_cons, List.mem_cons, not_or] at h
      simp only [atOnce, List.foldl_cons]
      rw [show ps.foldl (fun r p => put r p.1 (ρ p.2)) (put r q.1 (ρ q.2)) = atOnce ps ρ (put r q.1 (ρ q.2)) from rfl,
        atOnce_other ρ z ps _ h.2]
      simp [put, h.1]

theorem inTurn_other (z : Nat) : ∀ (ps : List (Nat × Nat)) (r : Nat → V), z ∉ ps.map (·.1) → inTurn ps r z = r z
  | [], _, _ => rfl
  | q :: ps, r, h => by
      simp only [List.map_cons, List.mem_cons, not_or] at h
      simp only [inTurn, List.foldl_cons]
      rw [show ps.foldl (fun r p => put r p.1 (r p.2)) (put r q.1 (r q.2)) = inTurn ps (put r q.1 (r q.2)) from rfl,
        inTurn_other z ps _ h.2]
      simp [put, h.1]

theorem atOnce_here (ρ : Nat → V) (q : Nat × Nat) : ∀ (ps : List (Nat × Nat)) (r : Nat → V), (ps.map (·.1)).Nodup → q ∈ ps →
    atOnce ps ρ r q.1 = ρ q.2
  | [], _, _, h => by simp at h
  | p :: ps, r, hn, h => by
      simp only [List.map_cons, List.nodup_cons] at hn
      simp only [atOnce, List.foldl_cons]
      rcases List.mem_cons.mp h with rfl | h
      · rw [show ps.foldl (fun r p => put r p.1 (ρ p.2)) (put r q.1 (ρ q.2)) = atOnce ps ρ (put r q.1 (ρ q.2)) from rfl,
          atOnce_other ρ q.1 ps _ hn.1]
        simp [put]
      · exact atOnce_here ρ q ps _ hn.2 h

/-- No variable but those given to themselves is read behind its declaration. -/
abbrev Harmless (ps : List (Nat × Nat)) : Prop := ps.Pairwise fun q p => p.2 = q.1 → q.2 = q.1

theorem inTurn_eq (ρ : Nat → V) (ps : List (Nat × Nat)) : ∀ n, Harmless (ps.take n) → inTurn (ps.take n) ρ = atOnce (ps.take n) ρ ρ
  | 0, _ => by simp [inTurn, atOnce]
  | n + 1, h => by
      rw [List.take_add_one] at h ⊢
      have h' := List.pairwise_append.mp h
      have ih := inTurn_eq ρ ps n h'.1
      cases hp : ps[n]? with
      | none => simpa using ih
      | some p =>
          rw [hp] at h'
          have e := atOnce_same ρ p.2 (ps.take n) ρ rfl (fun q hq hz => h'.2.2 q hq p (by simp) hz)
          simp only [inTurn, atOnce, Option.toList_some, List.foldl_append, List.foldl_cons, List.foldl_nil] at ih e ⊢
          rw [ih, e]

theorem harmless_of_eq {v w : V} (hvw : v ≠ w) (ps : List (Nat × Nat)) (hn : (ps.map (·.1)).Nodup)
    (h : ∀ ρ : Nat → V, inTurn ps ρ = atOnce ps ρ ρ) : ∀ n, Harmless (ps.take n)
  | 0 => by simp [Harmless]
  | n + 1 => by
      have ih := harmless_of_eq hvw ps hn h n
      rw [Harmless, List.take_add_one]
      refine List.pairwise_append.mpr ⟨ih, by cases ps[n]? <;> simp, ?_⟩
      intro q hq p hp e
      have hp' : ps[n]? = some p := by
        cases hx : ps[n]? with
        | none => rw [hx] at hp; simp at hp
        | some p' => rw [hx] at hp; simp at hp; rw [hp]
      refine Classical.byContradiction fun hne => hvw ?_
      have hsplit : ps = ps.take n ++ p :: ps.drop (n + 1) := by
        have hlt : n < ps.length := by
          have := List.getElem?_eq_some_iff.mp hp'; exact this.1
        have hd : ps.drop n = p :: ps.drop (n + 1) := by
          rw [List.drop_eq_getElem_cons hlt]
          congr 1
          have := List.getElem?_eq_some_iff.mp hp'
          exact this.2
        rw [← hd, List.take_append_drop]
      let ρ : Nat → V := fun z => if z = q.1 then v else w
      have hf := congrFun (h ρ) p.1
      rw [hsplit, List.map_append, List.map_cons] at hn
      have hn' := List.nodup_append.mp hn
      have hn2 := List.nodup_cons.mp hn'.2.1
      have e1 : inTurn ps ρ p.1 = ρ q.2 := by
        rw [hsplit]
        simp only [inTurn, List.foldl_append, List.foldl_cons]
        rw [show ∀ r : Nat → V, (ps.drop (n + 1)).foldl (fun r p => put r p.1 (r p.2)) r = inTurn (ps.drop (n + 1)) r from fun _ => rfl,
          inTurn_other p.1 _ _ hn2.1]
        rw [show (ps.take n).foldl (fun r p => put r p.1 (r p.2)) ρ = inTurn (ps.take n) ρ from rfl, inTurn_eq ρ ps n ih]
        simp only [put, if_true]
        rw [e]
        exact atOnce_here ρ q _ ρ hn'.1 hq
      have e2 : atOnce ps ρ ρ p.1 = ρ p.2 :=
        atOnce_here ρ p ps ρ (by rw [hsplit, List.map_append, List.map_cons]; exact hn) (by rw [hsplit]; simp)
      rw [e1, e2, e] at hf
      simp only [ρ, if_neg hne, if_true] at hf
      exact hf.symm

theorem bindAll_zip (ρ : Nat → V) (z : V) (c : Nat → V) : ∀ (xs ys : List Nat) (i : Nat) (r : Nat → V), ys.length = xs.length →
    (∀ j, c (i + j) = (ys.map ρ).getD j z) → bindAll c i (xs.map some) r = atOnce (xs.zip ys) ρ r
  | [], ys, i, r, _, _ => by simp [bindAll, atOnce]
  | x :: xs, [], _, _, hl, _ => by simp at hl
  | x :: xs, y :: ys, i, r, hl, hc => by
      have h0 : c i = ρ y := by simpa using hc 0
      simp only [List.map_cons, bindAll, h0, List.zip_cons_cons, atOnce, List.foldl_cons]
      exact bindAll_zip ρ z c xs ys (i + 1) _ (by simpa using hl) (fun j => by
        have := hc (j + 1)
        simp only [List.map_cons, List.getD_cons_succ] at this
        rw [← this]; congr 1; omega)

/-- Variables from variables, `var a, b = (y, z)`: it is right, for all values of the variables, exactly if none of them is read behind
its declaration, but for those that are given to themselves. -/
theorem reordering_right_iff (xs ys : List Nat) (hn : xs.Nodup) (hne : xs ≠ []) (hl : ys.length = xs.length) (s : σ) {v w : V} (hvw : v ≠ w) :
    ∃ d, compile (xs.map some) (.tuple (ys.map Expr.var)) = .ok d ∧
      ((∀ ρ, run P d ρ s = meaning P (xs.map some) (.tuple (ys.map Expr.var)) ρ s) ↔
        (xs.zip ys).Pairwise fun q p => p.2 = q.1 → q.2 = q.1) := by
  refine ⟨{ tmp := none, vars := loop (.tuple (ys.map Expr.var)) 0 (xs.map some) }, ?_, ?_⟩
  · have h1 : (loop (.tuple (ys.map (Expr.var (V := V)))) 0 (xs.map some)).isEmpty = false := by
      rw [loop_isEmpty]; cases xs with
      | nil => exact absurd rfl hne
      | cons _ _ => rfl
    simp [compile, Init.isMissing, h1, inRange_tuple]
  · have hr : ∀ ρ : Nat → V, run P { tmp := none, vars := loop (.tuple (ys.map Expr.var)) 0 (xs.map some) } ρ s =
        some (inTurn (xs.zip ys) ρ, s) := fun ρ => run_vars P ys P.zero s xs ys 0 ρ rfl hl
    have hm : ∀ ρ : Nat → V, meaning P (xs.map some) (.tuple (ys.map Expr.var)) ρ s = some (atOnce (xs.zip ys) ρ ρ, s) := fun ρ => by
      simp only [meaning, components, evalAll_vars, Option.map_some]
      rw [bindAll_zip ρ P.zero _ xs ys 0 ρ hl (fun j => by rw [Nat.zero_add])]
    have hfst : (xs.zip ys).map (·.1) = xs := by
      rw [List.map_fst_zip]; omega
    constructor
    · intro h
      have := harmless_of_eq hvw (xs.zip ys) (by rw [hfst]; exact hn) (fun ρ => by
        have := h ρ
        rw [hr, hm] at this
        simpa using this) (xs.zip ys).length
      rwa [List.take_length] at this
    · intro h ρ
      rw [hr, hm]
      have := inTurn_eq ρ (xs.zip ys) (xs.zip ys).length (by rw [List.take_length]; exact h)
      rw [List.take_length] at this
      rw [this]

/-! ## Cases -/

def demo : Prims (List Nat) Nat := { call := fun f vs s => if f = 9 then none else some (vs.flatten, s + 1), proj := fun v i => [v.getD i 0], zero := [] }

/-- `var a, _, c = f(x)` -/
example : (match compile [some 0, none, some 2] (.value (.call 1 (.cons (.var 5) .nil)) 3) with
    | .ok d => (run demo d (fun _ => [7, 8, 9]) 0).map fun r => (r.1 0, r.1 2, r.2)
    | _ => none) = some ([7], [9], 1) := by decide

/-- `var a, b = (b, a)` gives both the old `b`. -/
example : (match compile [some 0, some 1] (.tuple [.var 1, .var 0]) with
    | .ok d => (run demo d (fun x => [x + 3]) 0).map fun r => (r.1 0, r.1 1)
    | _ => none) = some ([4], [4]) := by decide
example : (meaning demo [some 0, some 1] (.tuple [.var 1, .var 0]) (fun x => [x + 3]) 0).map (fun r => (r.1 0, r.1 1)) = some ([4], [3]) := by
  decide

/-- `var a, b = (c, d)` meets the condition, `var a, b = (b, a)` does not. -/
example : ([0, 1].zip [2, 3]).Pairwise fun q p => p.2 = q.1 → q.2 = q.1 := by decide
example : ¬ ([0, 1].zip [1, 0]).Pairwise fun q p => p.2 = q.1 → q.2 = q.1 := by decide

/-- `var a, _ = (1, abort())` -/
example : ∃ d, compile [some 0, none] (.tuple [.lit [1], .call 9 .nil]) = .ok d ∧ (run demo d (fun _ => []) 0).isSome ∧
    meaning demo [some 0, none] (.tuple [.lit [1], .call 9 .nil]) (fun _ => []) 0 = none := by
  refine ⟨{ tmp := none, vars := [(0, .expr (.lit [1]))] }, ?_, ?_, ?_⟩ <;>
    simp [compile, Init.isMissing, loop, member, inRange, run, runVars, readSrc, eval, evalArgs, evalAll, meaning, components, demo]

end Verif.MultiDecl
