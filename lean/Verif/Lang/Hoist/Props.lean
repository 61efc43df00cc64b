import Verif.Lang.Hoist.Model
/-!
# What the temporaries do to the order of evaluation
-/
namespace Verif.Hoist

variable {V σ : Type}

/-- An operator with two or three operands, or a call. -/
def compound : Expr V → Bool
  | .bin _ _ _ => true
  | .and _ _ => true
  | .or _ _ => true
  | .tern _ _ _ => true
  | .call _ _ => true
  | _ => false

/-- A literal. -/
def isLit : Expr V → Bool
  | .lit _ => true
  | _ => false

mutual
/-- As written by a user: no variables of the compiler. -/
def src : Expr V → Bool
  | .lit _ => true
  | .var _ => true
  | .tmp _ => false
  | .un _ e => src e
  | .bin _ a b => src a && src b
  | .and a b => src a && src b
  | .or a b => src a && src b
  | .tern c a b => src c && src a && src b
  | .call _ as => srcArgs as

def srcArgs : Args V → Bool
  | .nil => true
  | .cons e es => src e && srcArgs es
end

mutual
/-- No argument inside is compound. -/
def quiet : Expr V → Bool
  | .lit _ => true
  | .var _ => true
  | .tmp _ => true
  | .un _ e => quiet e
  | .bin _ a b => quiet a && quiet b
  | .and a b => quiet a && quiet b
  | .or a b => quiet a && quiet b
  | .tern c a b => quiet c && quiet a && quiet b
  | .call _ as => quietArgs as

def quietArgs : Args V → Bool
  | .nil => true
  | .cons e es => !compound e && quiet e && quietArgs es
end

mutual
/-- Compound arguments only where they are computed first anyway: not in what `&&`, `||` and `?:` may skip, and behind nothing but
literals and other compound arguments. -/
def tidy : Expr V → Bool
  | .lit _ => true
  | .var _ => true
  | .tmp _ => true
  | .un _ e => tidy e
  | .bin _ a b => tidy a && tidy b && (quiet b || isLit a)
  | .and a b => tidy a && quiet b
  | .or a b => tidy a && quiet b
  | .tern c a b => tidy c && quiet a && quiet b
  | .call _ as => tidyArgs as

def tidyArgs : Args V → Bool
  | .nil => true
  | .cons e es => tidy e && tidyArgs es && (quietArgs es || isLit e || compound e)
end

theorem needs_eq (e : Expr V) : needs e = compound e := by cases e <;> rfl

variable (P : Prims V σ)

mutual
theorem eval_src (ts : List V) : ∀ (e : Expr V), src e = true → ∀ s, eval P e ts s = eval P e [] s
  | .lit _, _, _ => by simp [eval]
  | .var _, _, _ => by simp [eval]
  | .tmp _, h, _ => by simp [src] at h
  | .un op e, h, s => by
    simp only [src] at h
    simp only [eval, eval_src ts e h]
  | .bin op a b, h, s => by
    simp only [src, Bool.and_eq_true] at h
    simp only [eval, eval_src ts a h.1, eval_src ts b h.2]
  | .and a b, h, s => by
    simp only [src, Bool.and_eq_true] at h
    simp only [eval, eval_src ts a h.1, eval_src ts b h.2]
  | .or a b, h, s => by
    simp only [src, Bool.and_eq_true] at h
    simp only [eval, eval_src ts a h.1, eval_src ts b h.2]
  | .tern c a b, h, s => by
    simp only [src, Bool.and_eq_true] at h
    simp only [eval, eval_src ts c h.1.1, eval_src ts a h.1.2, eval_src ts b h.2]
  | .call f as, h, s => by
    simp only [src] at h
    simp only [eval, evalArgs_src ts as h]

theorem evalArgs_src (ts : List V) : ∀ (as : Args V), srcArgs as = true → ∀ s, evalArgs P as ts s = evalArgs P as [] s
  | .nil, _, _ => by simp [evalArgs]
  | .cons e es, h, s => by
    simp only [srcArgs, Bool.and_eq_true] at h
    simp only [evalArgs, eval_src ts e h.1, evalArgs_src ts es h.2]
end

mutual
theorem hoist_quiet : ∀ (e : Expr V) (n : Nat), quiet e = true → hoist n e = ([], e)
  | .lit _, _, _ => by simp [hoist]
  | .var _, _, _ => by simp [hoist]
  | .tmp _, _, _ => by simp [hoist]
  | .un op e, n, h => by
    simp only [quiet] at h
    simp [hoist, hoist_quiet e n h]
  | .bin op a b, n, h => by
    simp only [quiet, Bool.and_eq_true] at h
    simp [hoist, hoist_quiet a n h.1, hoist_quiet b _ h.2]
  | .and a b, n, h => by
    simp only [quiet, Bool.and_eq_true] at h
    simp [hoist, hoist_quiet a n h.1, hoist_quiet b _ h.2]
  | .or a b, n, h => by
    simp only [quiet, Bool.and_eq_true] at h
    simp [hoist, hoist_quiet a n h.1, hoist_quiet b _ h.2]
  | .tern c a b, n, h => by
    simp only [quiet, Bool.and_eq_true] at h
    simp [hoist, hoist_quiet c n h.1.1, hoist_quiet a _ h.1.2, hoist_quiet b _ h.2]
  | .call f as, n, h => by
    simp only [quiet] at h
    simp [hoist, temps_quiet as n h, rest_quiet as n _ h]

theorem temps_quiet : ∀ (as : Args V) (n : Nat), quietArgs as = true → temps n as = ([], [])
  | .nil, _, _ => by simp [temps]
  | .cons e es, n, h => by
    simp only [quietArgs, Bool.and_eq_true, Bool.not_eq_true'] at h
    simp [temps, needs_eq, h.1.1, temps_quiet es n h.2]

theorem rest_quiet : ∀ (as : Args V) (n : Nat) (ks : List Nat), quietArgs as = true → rest n as ks = ([], as)
  | .nil, _, _, _ => by simp [rest]
  | .cons e es, n, ks, h => by
    simp only [quietArgs, Bool.and_eq_true, Bool.not_eq_true'] at h
    simp [rest, needs_eq, h.1.1, hoist_quiet e n h.1.2, rest_quiet es n ks h.2]
end

theorem runBinds_append : ∀ (a b : List (Expr V)) (ts : List V) (s : σ),
    runBinds P (a ++ b) ts s = (runBinds P a ts s).bind fun r => runBinds P b r.1 r.2
  | [], _, _, _ => rfl
  | x :: a, b, ts, s => by
    simp only [List.cons_append, runBinds]
    cases h : eval P x ts s with
    | none => rfl
    | some r => simp only [Option.bind_some]; exact runBinds_append a b _ _

/-- The variables of the compiler are only added to. -/
theorem runBinds_ext : ∀ (a : List (Expr V)) (ts : List V) (s : σ) (r : List V × σ), runBinds P a ts s = some r →
    ∃ vs, r.1 = ts ++ vs ∧ vs.length = a.length
  | [], ts, s, r, h => by
    simp only [runBinds, Option.some.injEq] at h
    exact ⟨[], by simp [← h], rfl⟩
  | x :: a, ts, s, r, h => by
    simp only [runBinds] at h
    cases hx : eval P x ts s with
    | none => rw [hx] at h; cases h
    | some q =>
      rw [hx] at h
      obtain ⟨vs, h1, h2⟩ := runBinds_ext a _ _ r h
      exact ⟨q.1 :: vs, by simp [h1], by simp [h2]⟩

theorem runBinds_length {a : List (Expr V)} {ts : List V} {s : σ} {r : List V × σ} (h : runBinds P a ts s = some r) :
    r.1.length = ts.length + a.length := by
  obtain ⟨vs, h1, h2⟩ := runBinds_ext P a ts s r h
  simp [h1, h2]

mutual
theorem hoist_ok : ∀ (e : Expr V) (ts : List V) (s : σ), src e = true → tidy e = true →
    ((runBinds P (hoist ts.length e).1 ts s).bind fun r => eval P (hoist ts.length e).2 r.1 r.2) = eval P e [] s
  | .lit v, ts, s, _, _ => by simp [hoist, runBinds, eval]
  | .var x, ts, s, _, _ => by simp [hoist, runBinds, eval]
  | .tmp k, ts, s, h, _ => by simp [src] at h
  | .un op e, ts, s, h, t => by
    simp only [src] at h
    simp only [tidy] at t
    have := hoist_ok e ts s h t
    simp only [hoist, eval, ← this, Option.bind_assoc]
  | .bin op a b, ts, s, h, t => by
    simp only [src, Bool.and_eq_true] at h
    simp only [tidy, Bool.and_eq_true, Bool.or_eq_true] at t
    obtain ⟨⟨ta, tb⟩, t⟩ := t
    rcases t with q | l
    · have := hoist_ok a ts s h.1 ta
      simp only [hoist, hoist_quiet b _ q, List.append_nil, eval, ← this, Option.bind_assoc, eval_src P _ b h.2]
    · cases a <;> simp only [isLit, Bool.false_eq_true] at l
      have := hoist_ok b ts s h.2 tb
      simp only [hoist, List.length_nil, Nat.add_zero, List.nil_append, eval, Option.bind_some, ← this, Option.bind_assoc]
  | .and a b, ts, s, h, t => by
    simp only [src, Bool.and_eq_true] at h
    simp only [tidy, Bool.and_eq_true] at t
    have := hoist_ok a ts s h.1 t.1
    simp only [hoist, hoist_quiet b _ t.2, List.append_nil, eval, ← this, Option.bind_assoc, eval_src P _ b h.2]
  | .or a b, ts, s, h, t => by
    simp only [src, Bool.and_eq_true] at h
    simp only [tidy, Bool.and_eq_true] at t
    have := hoist_ok a ts s h.1 t.1
    simp only [hoist, hoist_quiet b _ t.2, List.append_nil, eval, ← this, Option.bind_assoc, eval_src P _ b h.2]
  | .tern c a b, ts, s, h, t => by
    simp only [src, Bool.and_eq_true] at h
    simp only [tidy, Bool.and_eq_true] at t
    have := hoist_ok c ts s h.1.1 t.1.1
    simp only [hoist, hoist_quiet a _ t.1.2, hoist_quiet b _ t.2, List.append_nil, eval, ← this, Option.bind_assoc,
      eval_src P _ a h.1.2, eval_src P _ b h.2]
  | .call f as, ts, s, h, t => by
    simp only [src] at h
    simp only [tidy] at t
    have := args_ok as ts s h t
    simp only [hoist, eval, ← this, Option.bind_assoc]

theorem args_ok : ∀ (as : Args V) (ts : List V) (s : σ), srcArgs as = true → tidyArgs as = true →
    ((runBinds P ((temps ts.length as).1 ++ (rest (ts.length + (temps ts.length as).1.length) as (temps ts.length as).2).1) ts s).bind
      fun r => evalArgs P (rest (ts.length + (temps ts.length as).1.length) as (temps ts.length as).2).2 r.1 r.2) = evalArgs P as [] s
  | .nil, ts, s, _, _ => by simp [temps, rest, runBinds, evalArgs]
  | .cons e es, ts, s, h, t => by
    simp only [srcArgs, Bool.and_eq_true] at h
    simp only [tidyArgs, Bool.and_eq_true, Bool.or_eq_true] at t
    obtain ⟨⟨te, tes⟩, t⟩ := t
    by_cases hc : compound e = true
    · have ie := hoist_ok e ts s h.1 te
      simp only [temps, rest, needs_eq, hc, ↓reduceIte]
      rw [show ∀ (a : List (Expr V)) x b c, (a ++ x :: b) ++ c = (a ++ [x]) ++ (b ++ c) by simp, runBinds_append, runBinds_append]
      simp only [evalArgs, ← ie]
      cases h1 : runBinds P (hoist ts.length e).1 ts s with
      | none => rfl
      | some q =>
        have hl := runBinds_length P h1
        simp only [Option.bind_some, runBinds]
        cases h2 : eval P (hoist ts.length e).2 q.1 q.2 with
        | none => rfl
        | some w =>
          simp only [Option.bind_some]
          have ies := args_ok es (q.1 ++ [w.1]) w.2 h.2 tes
          have hn : (q.1 ++ [w.1]).length = ts.length + (hoist ts.length e).1.length + 1 := by simp [hl]
          rw [hn] at ies
          have hx : ts.length + ((hoist ts.length e).1 ++ (hoist ts.length e).2 ::
              (temps (ts.length + (hoist ts.length e).1.length + 1) es).1).length =
              ts.length + (hoist ts.length e).1.length + 1 +
                (temps (ts.length + (hoist ts.length e).1.length + 1) es).1.length := by
            simp only [List.length_append, List.length_cons]; omega
          rw [hx, ← ies]
          generalize hT : temps (ts.length + (hoist ts.length e).1.length + 1) es = T
          generalize rest (ts.length + (hoist ts.length e).1.length + 1 + T.1.length) es T.2 = R
          cases h3 : runBinds P (T.1 ++ R.1) (q.1 ++ [w.1]) w.2 with
          | none => rfl
          | some z =>
            obtain ⟨vs, hz, _⟩ := runBinds_ext P _ _ _ _ h3
            have hk : z.1[ts.length + (hoist ts.length e).1.length]? = some w.1 := by
              rw [hz, ← hl]; simp
            simp only [Option.bind_some, eval, hk, Option.map_some]
    · simp only [temps, rest, needs_eq, hc, Bool.false_eq_true, ↓reduceIte]
      have q : quietArgs es = true ∨ isLit e = true := by
        rcases t with q | q
        · exact q
        · exact absurd q hc
      rcases q with q | l
      · have ie := hoist_ok e ts s h.1 te
        simp only [temps_quiet es _ q, rest_quiet es _ _ q, List.length_nil, Nat.add_zero, List.nil_append, List.append_nil, evalArgs,
          ← ie, Option.bind_assoc, evalArgs_src P _ es h.2]
      · cases e <;> simp only [isLit, Bool.false_eq_true] at l
        have ies := args_ok es ts s h.2 tes
        simp only [hoist, List.length_nil, Nat.add_zero, List.nil_append, evalArgs, eval, Option.bind_some, ← ies, Option.map_bind]
        rfl
end

/-- **C160** (partial). The operands and arguments of an expression are computed from left to right, each once, if its compound
arguments come in front, behind literals and other compound arguments at most, and are not skipped by `&&`, `||` or `?:`.

Missing: compound arguments elsewhere, for which it is false. -/
theorem left_to_right_partial (e : Expr V) (s : σ) (h : src e = true) (t : tidy e = true) : compiled P e s = eval P e [] s :=
  hoist_ok P e [] s h t

example : tidy (.call 0 (.cons (.call 1 (.cons (.lit 1) (.cons (.call 2 .nil) .nil))) (.cons (.bin 0 (.var 0) (.lit 2)) (.cons (.var 1) .nil))) : Expr Nat)
    = true := by decide

/-! ## Without effects -/

/-- Nothing fails and nothing changes the state; everything may read it. -/
structure Harmless : Prop where
  un : ∀ op v, ∃ w, P.un op v = some w
  bin : ∀ op v w, ∃ x, P.bin op v w = some x
  call : ∀ f vs s, ∃ w, P.call f vs s = some (w, s)

mutual
theorem eval_harmless (H : Harmless P) (s : σ) : ∀ (e : Expr V), src e = true → ∃ v, eval P e [] s = some (v, s)
  | .lit v, _ => ⟨v, by simp [eval]⟩
  | .var x, _ => ⟨_, by simp [eval]; rfl⟩
  | .tmp _, h => by simp [src] at h
  | .un op e, h => by
    simp only [src] at h
    obtain ⟨v, hv⟩ := eval_harmless H s e h
    obtain ⟨w, hw⟩ := H.un op v
    exact ⟨w, by simp [eval, hv, hw]⟩
  | .bin op a b, h => by
    simp only [src, Bool.and_eq_true] at h
    obtain ⟨v, hv⟩ := eval_harmless H s a h.1
    obtain ⟨w, hw⟩ := eval_harmless H s b h.2
    obtain ⟨x, hx⟩ := H.bin op v w
    exact ⟨x, by simp [eval, hv, hw, hx]⟩
  | .and a b, h => by
    simp only [src, Bool.and_eq_true] at h
    obtain ⟨v, hv⟩ := eval_harmless H s a h.1
    obtain ⟨w, hw⟩ := eval_harmless H s b h.2
    exact ⟨if P.truth v then w else v, by cases ht : P.truth v <;> simp [eval, hv, hw, ht]⟩
  | .or a b, h => by
    simp only [src, Bool.and_eq_true] at h
    obtain ⟨v, hv⟩ := eval_harmless H s a h.1
    obtain ⟨w, hw⟩ := eval_harmless H s b h.2
    exact ⟨if P.truth v then v else w, by cases ht : P.truth v <;> simp [eval, hv, hw, ht]⟩
  | .tern c a b, h => by
    simp only [src, Bool.and_eq_true] at h
    obtain ⟨v, hv⟩ := eval_harmless H s c h.1.1
    obtain ⟨w, hw⟩ := eval_harmless H s a h.1.2
    obtain ⟨x, hx⟩ := eval_harmless H s b h.2
    exact ⟨if P.truth v then w else x, by cases ht : P.truth v <;> simp [eval, hv, hw, hx, ht]⟩
  | .call f as, h => by
    simp only [src] at h
    obtain ⟨vs, hv⟩ := evalArgs_harmless H s as h
    obtain ⟨w, hw⟩ := H.call f vs s
    exact ⟨w, by simp [eval, hv, hw]⟩

theorem evalArgs_harmless (H : Harmless P) (s : σ) : ∀ (as : Args V), srcArgs as = true → ∃ vs, evalArgs P as [] s = some (vs, s)
  | .nil, _ => ⟨[], by simp [evalArgs]⟩
  | .cons e es, h => by
    simp only [srcArgs, Bool.and_eq_true] at h
    obtain ⟨v, hv⟩ := eval_harmless H s e h.1
    obtain ⟨vs, hvs⟩ := evalArgs_harmless H s es h.2
    exact ⟨v :: vs, by simp [evalArgs, hv, hvs]⟩
end

/-- What is to be shown of an expression. -/
def Kept (s : σ) (e : Expr V) (ts : List V) : Prop :=
  ∃ vs, runBinds P (hoist ts.length e).1 ts s = some (ts ++ vs, s) ∧
    ∀ more, eval P (hoist ts.length e).2 (ts ++ vs ++ more) s = eval P e [] s

theorem two_harmless (s : σ) (a b : Expr V) (ts : List V) (ha : Kept P s a ts) (hb : ∀ ts, Kept P s b ts) :
    ∃ vs, runBinds P ((hoist ts.length a).1 ++ (hoist (ts.length + (hoist ts.length a).1.length) b).1) ts s = some (ts ++ vs, s) ∧
      ∀ more, eval P (hoist ts.length a).2 (ts ++ vs ++ more) s = eval P a [] s ∧
        eval P (hoist (ts.length + (hoist ts.length a).1.length) b).2 (ts ++ vs ++ more) s = eval P b [] s := by
  obtain ⟨vs, h1, h2⟩ := ha
  have hl := runBinds_length P h1
  obtain ⟨ws, g1, g2⟩ := hb (ts ++ vs)
  rw [hl] at g1 g2
  refine ⟨vs ++ ws, ?_, fun more => ⟨?_, ?_⟩⟩
  · rw [runBinds_append, h1, Option.bind_some, g1, List.append_assoc]
  · rw [← h2 (ws ++ more)]; simp
  · rw [← g2 more]; simp

mutual
theorem hoist_harmless (H : Harmless P) (s : σ) : ∀ (e : Expr V) (ts : List V), src e = true → Kept P s e ts
  | .lit v, ts, _ => ⟨[], by simp [hoist, runBinds], by simp [hoist, eval]⟩
  | .var x, ts, _ => ⟨[], by simp [hoist, runBinds], by simp [hoist, eval]⟩
  | .tmp _, _, h => by simp [src] at h
  | .un op e, ts, h => by
    simp only [src] at h
    obtain ⟨vs, h1, h2⟩ := hoist_harmless H s e ts h
    exact ⟨vs, by simpa only [hoist] using h1, fun more => by simp only [hoist, eval, h2]⟩
  | .bin op a b, ts, h => by
    simp only [src, Bool.and_eq_true] at h
    obtain ⟨vs, hr, he⟩ := two_harmless P s a b ts (hoist_harmless H s a ts h.1) (fun ts => hoist_harmless H s b ts h.2)
    obtain ⟨v, hv⟩ := eval_harmless P H s a h.1
    refine ⟨vs, hr, fun more => ?_⟩
    simp only [hoist, eval, (he more).1, hv, Option.bind_some, (he more).2]
  | .and a b, ts, h => by
    simp only [src, Bool.and_eq_true] at h
    obtain ⟨vs, hr, he⟩ := two_harmless P s a b ts (hoist_harmless H s a ts h.1) (fun ts => hoist_harmless H s b ts h.2)
    obtain ⟨v, hv⟩ := eval_harmless P H s a h.1
    refine ⟨vs, hr, fun more => ?_⟩
    simp only [hoist, eval, (he more).1, hv, Option.bind_some, (he more).2]
  | .or a b, ts, h => by
    simp only [src, Bool.and_eq_true] at h
    obtain ⟨vs, hr, he⟩ := two_harmless P s a b ts (hoist_harmless H s a ts h.1) (fun ts => hoist_harmless H s b ts h.2)
    obtain ⟨v, hv⟩ := eval_harmless P H s a h.1
    refine ⟨vs, hr, fun more => ?_⟩
    simp only [hoist, eval, (he more).1, hv, Option.bind_some, (he more).2]
  | .tern c a b, ts, h => by
    simp only [src, Bool.and_eq_true] at h
    obtain ⟨vs, hr, he⟩ := two_harmless P s c a ts (hoist_harmless H s c ts h.1.1) (fun ts => hoist_harmless H s a ts h.1.2)
    obtain ⟨v, hv⟩ := eval_harmless P H s c h.1.1
    have hl := runBinds_length P hr
    obtain ⟨ws, gr, ge⟩ := hoist_harmless H s b (ts ++ vs) h.2
    rw [show (ts ++ vs).length = ts.length + (hoist ts.length c).1.length + (hoist (ts.length + (hoist ts.length c).1.length) a).1.length by
      rw [hl, List.length_append]; omega] at gr ge
    refine ⟨vs ++ ws, ?_, fun more => ?_⟩
    · simp only [hoist]
      rw [runBinds_append, hr, Option.bind_some, gr, List.append_assoc]
    · have e1 := he (ws ++ more)
      have e2 := ge more
      simp only [List.append_assoc] at e1 e2 ⊢
      simp only [hoist, eval, e1.1, hv, Option.bind_some, e1.2, e2]
  | .call f as, ts, h => by
    simp only [src] at h
    obtain ⟨vs, h1, h2⟩ := args_harmless H s as ts h
    have hl := runBinds_length P h1
    obtain ⟨ws, g1, g2⟩ := h2 []
    simp only [List.append_nil] at g1 g2
    rw [hl] at g1 g2
    refine ⟨vs ++ ws, ?_, fun more => ?_⟩
    · simp only [hoist]
      rw [runBinds_append, h1, Option.bind_some, g1, List.append_assoc]
    · have := g2 more
      simp only [List.append_assoc] at this ⊢
      simp only [hoist, eval, this]

theorem args_harmless (H : Harmless P) (s : σ) : ∀ (as : Args V) (ts : List V), srcArgs as = true →
    ∃ vs, runBinds P (temps ts.length as).1 ts s = some (ts ++ vs, s) ∧
      ∀ us, ∃ ws, runBinds P (rest (ts ++ vs ++ us).length as (temps ts.length as).2).1 (ts ++ vs ++ us) s = some (ts ++ vs ++ us ++ ws, s) ∧
        ∀ more, evalArgs P (rest (ts ++ vs ++ us).length as (temps ts.length as).2).2 (ts ++ vs ++ us ++ ws ++ more) s = evalArgs P as [] s
  | .nil, ts, _ => ⟨[], by simp [temps, runBinds], fun us => ⟨[], by simp [rest, runBinds], fun more => by simp [rest, evalArgs]⟩⟩
  | .cons e es, ts, h => by
    simp only [srcArgs, Bool.and_eq_true] at h
    obtain ⟨v, hv⟩ := eval_harmless P H s e h.1
    by_cases hc : compound e = true
    · obtain ⟨vs, h1, h2⟩ := hoist_harmless H s e ts h.1
      have hl := runBinds_length P h1
      obtain ⟨ws, g1, g2⟩ := args_harmless H s es (ts ++ vs ++ [v]) h.2
      have hn : (ts ++ vs ++ [v]).length = ts.length + (hoist ts.length e).1.length + 1 := by
        rw [← hl]; simp; omega
      rw [hn] at g1 g2
      have h2' := h2 []
      rw [List.append_nil, hv] at h2'
      simp only [temps, rest, needs_eq, hc, ↓reduceIte]
      refine ⟨vs ++ v :: ws, ?_, fun us => ?_⟩
      · rw [runBinds_append, h1, Option.bind_some]
        simp only [runBinds, h2', Option.bind_some, g1]
        simp
      · obtain ⟨xs, k1, k2⟩ := g2 us
        have hk : ∀ more : List V, (ts ++ (vs ++ v :: ws) ++ us ++ xs ++ more)[ts.length + (hoist ts.length e).1.length]? = some v := by
          intro more
          simp only [List.length_append] at hl
          rw [← hl]
          simp only [List.append_assoc, List.cons_append]
          rw [← List.append_assoc ts vs, List.getElem?_append_right (by simp)]
          simp
        refine ⟨xs, ?_, fun more => ?_⟩
        · have : ts ++ (vs ++ v :: ws) ++ us = ts ++ vs ++ [v] ++ ws ++ us := by simp
          rw [this]; exact k1
        · have := k2 more
          have e1 : ts ++ (vs ++ v :: ws) ++ us = ts ++ vs ++ [v] ++ ws ++ us := by simp
          have hk' := hk more
          rw [e1] at hk' ⊢
          simp only [evalArgs, eval, hk', Option.map_some, Option.bind_some, this, hv]
    · obtain ⟨ws, g1, g2⟩ := args_harmless H s es ts h.2
      simp only [temps, rest, needs_eq, hc, Bool.false_eq_true, ↓reduceIte]
      refine ⟨ws, g1, fun us => ?_⟩
      obtain ⟨vs, h1, h2⟩ := hoist_harmless H s e (ts ++ ws ++ us) h.1
      have hl := runBinds_length P h1
      obtain ⟨xs, k1, k2⟩ := g2 (us ++ vs)
      simp only [← List.append_assoc] at k1 k2
      rw [hl] at k1 k2
      refine ⟨vs ++ xs, ?_, fun more => ?_⟩
      · rw [runBinds_append, h1, Option.bind_some, k1]
        simp
      · have e1 := h2 (xs ++ more)
        have e2 := k2 more
        simp only [List.append_assoc] at e1 e2 ⊢
        simp only [evalArgs, e1, hv, Option.bind_some, e2]
end

/-- **C160** and **C159** (partial). If no operator or call in the expression fails or has an effect, the value is the one of the
language, wherever the compound arguments are.

Missing: effects and failures, with which it is false. -/
theorem harmless_value_partial (H : Harmless P) (e : Expr V) (s : σ) (h : src e = true) : compiled P e s = eval P e [] s := by
  obtain ⟨vs, h1, h2⟩ := hoist_harmless P H s e [] h
  have := h2 []
  simp only [List.length_nil, List.nil_append, List.append_nil] at h1 this
  simp only [compiled, h1, Option.bind_some, this]

example : Harmless (V := Nat) (σ := Nat) ⟨fun x s => x + s, fun _ v => some v, fun _ v w => some (v + w), fun f vs s => some (f + vs.length + s, s), fun v => v ≠ 0⟩ :=
  ⟨fun _ v => ⟨v, rfl⟩, fun _ v w => ⟨v + w, rfl⟩, fun f vs s => ⟨f + vs.length + s, rfl⟩⟩

/-! ## With effects -/

/-- A call of `f` with one argument. -/
def app (f : Nat) (e : Expr V) : Expr V := .call f (.cons e .nil)

theorem hoist_app (n f : Nat) (e : Expr V) (hc : compound e = true) (hq : quiet e = true) :
    hoist n (app f e) = ([e], app f (.tmp n)) := by
  simp [app, hoist, temps, rest, needs_eq, hc, hoist_quiet e n hq]

/-- **C159** fails: a compound argument behind `&&` is computed first, whatever is in front of it; if that fails, all does. -/
theorem and_runs_argument (l r : Expr V) (f : Nat) (s : σ) (hl : quiet l = true) (hc : compound r = true) (hq : quiet r = true) :
    compiled P (.and l (app f r)) s = (eval P r [] s).bind fun q => eval P (.and l (app f (.tmp 0))) [q.1] q.2 := by
  simp only [compiled, hoist, hoist_quiet l 0 hl, hoist_app 0 f r hc hq, List.length_nil, Nat.add_zero, List.nil_append, runBinds]
  cases eval P r [] s <;> rfl

/-- **C159** fails: the guard in `l && f(r)` does not guard. -/
theorem and_guard_is_late (l r : Expr V) (f : Nat) (s s' : σ) (v : V) (hl : quiet l = true) (hc : compound r = true)
    (hq : quiet r = true) (hv : eval P l [] s = some (v, s')) (ht : P.truth v = false) (hr : eval P r [] s = none) :
    eval P (.and l (app f r)) [] s = some (v, s') ∧ compiled P (.and l (app f r)) s = none := by
  refine ⟨by simp [eval, hv, ht], ?_⟩
  rw [and_runs_argument P l r f s hl hc hq, hr]; rfl

/-- Numbers with a division that fails at 0, for `x != 0 && f(10 / x)`. -/
def division : Prims Nat Nat := ⟨fun _ s => s, fun _ v => some v, fun _ v w => if w = 0 then none else some (v / w), fun _ _ s => some (1, s), fun v => v ≠ 0⟩

example : eval division (.var 0) [] 0 = some (0, 0) ∧ division.truth 0 = false ∧ eval division (.bin 0 (.lit 10) (.var 0)) [] 0 = none := by
  decide

/-- **C159** fails: the same for `||`. -/
theorem or_guard_is_late (l r : Expr V) (f : Nat) (s s' : σ) (v : V) (hl : quiet l = true) (hc : compound r = true)
    (hq : quiet r = true) (hv : eval P l [] s = some (v, s')) (ht : P.truth v = true) (hr : eval P r [] s = none) :
    eval P (.or l (app f r)) [] s = some (v, s') ∧ compiled P (.or l (app f r)) s = none := by
  refine ⟨by simp [eval, hv, ht], ?_⟩
  simp [compiled, hoist, hoist_quiet l 0 hl, hoist_app 0 f r hc hq, runBinds, hr]

/-- **C159** fails: of `c ? f(a) : g(b)` both `a` and `b` are computed, in this order, before `c`. -/
theorem ternary_runs_both (c a b : Expr V) (f g : Nat) (s : σ) (hc : quiet c = true) (ca : compound a = true) (qa : quiet a = true)
    (cb : compound b = true) (qb : quiet b = true) (sb : src b = true) :
    compiled P (.tern c (app f a) (app g b)) s =
      (eval P a [] s).bind fun x => (eval P b [] x.2).bind fun y => eval P (.tern c (app f (.tmp 0)) (app g (.tmp 1))) [x.1, y.1] y.2 := by
  simp only [compiled, hoist, hoist_quiet c 0 hc, hoist_app _ f a ca qa, hoist_app _ g b cb qb, List.length_nil, List.length_cons,
    Nat.add_zero, Nat.zero_add, List.nil_append, List.cons_append, runBinds]
  cases eval P a [] s with
  | none => rfl
  | some x =>
    simp only [Option.bind_some, eval_src P [x.1] b sb]
    cases eval P b [] x.2 with
    | none => rfl
    | some y => rfl

/-- **C160** fails: in `f(x, r)` the variable `x` is read after `r` was computed. -/
theorem variable_read_late (x f : Nat) (r : Expr V) (s : σ) (hc : compound r = true) (hq : quiet r = true) :
    eval P (.call f (.cons (.var x) (.cons r .nil))) [] s = (eval P r [] s).bind (fun q => P.call f [P.get x s, q.1] q.2) ∧
    compiled P (.call f (.cons (.var x) (.cons r .nil))) s = (eval P r [] s).bind (fun q => P.call f [P.get x q.2, q.1] q.2) := by
  refine ⟨?_, ?_⟩
  · simp only [eval, evalArgs, Option.bind_some]
    cases eval P r [] s <;> rfl
  · have hv : compound (.var x : Expr V) = false := rfl
    simp only [compiled, hoist, temps, rest, needs_eq, hc, hoist_quiet r _ hq, hv, Bool.false_eq_true, ↓reduceIte, List.length_nil,
      Nat.add_zero, List.nil_append, List.append_nil, runBinds]
    cases eval P r [] s with
    | none => rfl
    | some q => simp [eval, evalArgs]

/-- **C160** fails: in `g(x) + f(r)` the call of `g` comes after `r` was computed. -/
theorem operand_called_late (op g f : Nat) (x : V) (r : Expr V) (s : σ) (hc : compound r = true) (hq : quiet r = true) :
    compiled P (.bin op (app g (.lit x)) (app f r)) s =
      (eval P r [] s).bind fun q => (P.call g [x] q.2).bind fun u => (P.call f [q.1] u.2).bind fun w => (P.bin op u.1 w.1).map (·, w.2) := by
  have hg : quiet (app g (.lit x : Expr V)) = true := by simp [app, quiet, quietArgs, compound]
  simp only [compiled, hoist, hoist_quiet _ 0 hg, List.length_nil, Nat.add_zero, hoist_app 0 f r hc hq, List.nil_append, runBinds]
  cases eval P r [] s with
  | none => rfl
  | some q => simp [app, eval, evalArgs]

example : quiet (.var 0 : Expr Nat) = true ∧ compound (.bin 0 (.lit 1) (.var 0) : Expr Nat) = true ∧ quiet (.bin 0 (.lit 1) (.var 0) : Expr Nat) = true := by
  decide

/-! ## Chains -/

/-- Branches whose conditions are expressions without compound arguments. -/
def QuietTests (bs : Chain V σ) : Prop := ∀ b ∈ bs, ∃ e, b.1 = .test e ∧ src e = true ∧ quiet e = true

theorem decls_quiet : ∀ (bs : Chain V σ) (n : Nat), QuietTests bs → decls n bs = ([], [])
  | [], _, _ => rfl
  | (c, body) :: bs, n, h => by
    obtain ⟨e, he, _, _⟩ := h (c, body) (by simp)
    simp only at he
    subst he
    exact decls_quiet bs n (fun b hb => h b (by simp [hb]))

theorem tests_quiet : ∀ (bs : Chain V σ) (n : Nat) (ks : List Nat), QuietTests bs → tests n bs ks = ([], bs)
  | [], _, _, _ => rfl
  | (c, body) :: bs, n, ks, h => by
    obtain ⟨e, he, _, hq⟩ := h (c, body) (by simp)
    simp only at he
    subst he
    simp [tests, hoist_quiet e n hq, tests_quiet bs n ks (fun b hb => h b (by simp [hb]))]

theorem chain_src (other : σ → Option σ) : ∀ (bs : Chain V σ) (ts : List V) (s : σ), QuietTests bs →
    chain P other bs ts s = chain P other bs [] s
  | [], _, _, _ => rfl
  | (c, body) :: bs, ts, s, h => by
    obtain ⟨e, he, hs, _⟩ := h (c, body) (by simp)
    simp only at he
    subst he
    simp only [chain, eval_src P ts e hs]
    congr 1
    funext r
    split
    · rfl
    · exact chain_src other bs ts r.2 (fun b hb => h b (by simp [hb]))

/-- The expression of a condition. -/
def Cond.expr : Cond V → Expr V
  | .test e => e
  | .decl e => e

/-- **C159** (partial), for chains: conditions are computed one after the other until one is true, if only the first declares a variable
or has compound arguments (where they are allowed by `tidy`).

Missing: variables and compound arguments in the conditions behind `else if`. -/
theorem chain_partial (other : σ → Option σ) (c : Cond V) (body : V → σ → Option σ) (bs : Chain V σ) (s : σ) (hs : src c.expr = true)
    (ht : tidy c.expr = true) (h : QuietTests bs) : compiledChain P other ((c, body) :: bs) s = chain P other ((c, body) :: bs) [] s := by
  cases c with
  | test e =>
    have := hoist_ok P e [] s hs ht
    simp only [List.length_nil] at this
    simp only [Cond.expr] at hs ht
    simp only [compiledChain, decls, decls_quiet bs _ h, tests, tests_quiet bs _ _ h, List.length_nil, List.nil_append, List.append_nil,
      chain, ← this, Option.bind_assoc]
    congr 1
    funext r
    congr 1
    funext q
    split
    · rfl
    · exact chain_src P other bs r.1 q.2 h
  | decl e =>
    have := hoist_ok P e [] s hs ht
    simp only [List.length_nil] at this
    simp only [compiledChain, decls, decls_quiet bs _ h, tests, tests_quiet bs _ _ h, List.append_nil, Nat.zero_add, chain]
    rw [runBinds_append, ← this]
    cases h1 : runBinds P (hoist 0 e).1 [] s with
    | none => rfl
    | some r =>
      have hl := runBinds_length P h1
      simp only [List.length_nil, Nat.zero_add] at hl
      simp only [Option.bind_some, runBinds]
      cases h2 : eval P (hoist 0 e).2 r.1 r.2 with
      | none => rfl
      | some q =>
        simp only [Option.bind_some, eval, ← hl]
        simp only [List.getElem?_concat_length, Option.map_some, Option.bind_some]
        split
        · rfl
        · exact chain_src P other bs _ q.2 h

example : QuietTests (σ := Nat) [((.test (.var 0) : Cond Nat), fun _ s => some s)] := by
  intro b hb
  rw [List.mem_singleton] at hb
  subst hb
  exact ⟨.var 0, rfl, by decide, by decide⟩

/-- **C159** fails: the variable of `else if (const x = e)` is computed before the first condition, also when that is true. -/
theorem else_if_decl_runs_first (other : σ → Option σ) (c e : Expr V) (b1 b2 : V → σ → Option σ) (s : σ) (hc : quiet c = true)
    (he : quiet e = true) :
    compiledChain P other [(.test c, b1), (.decl e, b2)] s =
      (eval P e [] s).bind fun q => chain P other [(.test c, b1), (.test (.tmp 0), b2)] [q.1] q.2 := by
  simp only [compiledChain, decls, hoist_quiet e _ he, tests, List.length_nil, Nat.add_zero, List.nil_append, List.length_cons,
    hoist_quiet c _ hc, List.append_nil, runBinds]
  cases eval P e [] s <;> rfl

/-- **C159** fails: so `if (c) … else if (const x = e) …` fails when `e` does, even if `c` is true. -/
theorem else_if_not_guarded (other : σ → Option σ) (c e : Expr V) (b1 b2 : V → σ → Option σ) (s s' : σ) (v : V) (hc : quiet c = true)
    (he : quiet e = true) (hv : eval P c [] s = some (v, s')) (ht : P.truth v = true) (hn : eval P e [] s = none) :
    chain P other [(.test c, b1), (.decl e, b2)] [] s = b1 v s' ∧ compiledChain P other [(.test c, b1), (.decl e, b2)] s = none := by
  refine ⟨by simp [chain, hv, ht], ?_⟩
  rw [else_if_decl_runs_first P other c e b1 b2 s hc he, hn]; rfl

/-- **C159** fails: the same for a compound argument in the condition of an `else if`. -/
theorem else_if_argument_not_guarded (other : σ → Option σ) (c r : Expr V) (f : Nat) (b1 b2 : V → σ → Option σ) (s s' : σ) (v : V)
    (hc : quiet c = true) (cr : compound r = true) (qr : quiet r = true) (hv : eval P c [] s = some (v, s')) (ht : P.truth v = true)
    (hn : eval P r [] s = none) :
    chain P other [(.test c, b1), (.test (app f r), b2)] [] s = b1 v s' ∧
      compiledChain P other [(.test c, b1), (.test (app f r), b2)] s = none := by
  refine ⟨by simp [chain, hv, ht], ?_⟩
  simp [compiledChain, decls, tests, hoist_quiet c _ hc, hoist_app _ f r cr qr, runBinds, hn]

end Verif.Hoist
