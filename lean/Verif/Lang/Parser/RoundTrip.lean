import Verif.Lang.Parser.Lemmas
/-! # Reading back what was printed: the induction -/
namespace Verif.Parser
open Lexer (Sym)

/-- Tokens that may not follow an operand in a chain. -/
def bad : Tok → Bool
  | .sym .LNot | .sym .BangColon | .sym .Quote | .sym .LBracket | .sym .LBrace | .kw .as => true
  | _ => false

def After (e : Expr) (rest : List Tok) : Prop :=
  (∀ t, rest.head? = some t → bad t = false) ∧ (endsInPath e = true → ∀ n r, rest ≠ .sym .Dot :: .ident n :: r)

theorem Stop0.after {rest : List Tok} (h : Stop0 rest) (e : Expr) : After e rest := by
  refine ⟨fun t ht => ?_, fun _ n r hr => ?_⟩
  · have := h t ht
    cases t with
    | sym s => cases s <;> simp_all [extends_, bad]
    | kw k => cases k <;> simp_all [extends_, bad]
    | _ => rfl
  · have := h _ (by rw [hr]; rfl)
    simp [extends_] at this

def chain (f : Nat) (ts : List Tok) : Out (Expr × List Tok) :=
  (primary f ts).bind fun (e, r) => postfix_ f e r

def P (e : Expr) : Prop := ∀ rest v, After e rest → Ev (fun f => postfix_ f e rest) v →
  Ev (fun f => chain f (print e ++ rest)) v

def U (e : Expr) : Prop := ∀ rest, Stop0 rest → Ev (fun f => prefixP f (print e ++ rest)) (.ok (e, rest))

def B (e : Expr) : Prop := ∃ l0 tail, print e = print l0 ++ tail ∧ U l0 ∧
  (∀ rest, Stop0 rest → Stop0 (tail ++ rest)) ∧ (∀ rest, StopA rest → StopA (tail ++ rest)) ∧
  ∀ p rest v, level e + 1 < p → Stop0 rest → StopB (level e) rest → Ev (fun f => binary f e p rest) v →
    Ev (fun f => binary f l0 p (tail ++ rest)) v

def A (e : Expr) : Prop := ∀ rest, Stop0 rest → StopB 13 rest → StopA rest →
  Ev (fun f => assign f (print e ++ rest)) (.ok (e, rest))

def T (e : Expr) : Prop := ∀ rest, Stop0 rest → StopB 13 rest → StopA rest → StopT rest →
  Ev (fun f => ternary f (print e ++ rest)) (.ok (e, rest))

structure Full (e : Expr) : Prop where
  p : isPost e = true → P e
  u : level e = 0 → U e
  b : level e ≤ 12 → B e
  a : level e ≤ 13 → A e
  t : T e

theorem pathRest_dots : ∀ (ms : List Nat) (rest : List Tok), (∀ n r, rest ≠ .sym .Dot :: .ident n :: r) →
    pathRest (dots ms ++ rest) = (ms, rest)
  | [], rest, h => by
    show pathRest rest = _
    unfold pathRest
    split
    · exact absurd rfl (h _ _)
    · rfl
  | m :: ms, rest, h => by
    show pathRest (.sym .Dot :: .ident m :: (dots ms ++ rest)) = _
    rw [pathRest, pathRest_dots ms rest h]

theorem parsePath_dots {mk : List Nat → Expr} {ms : List Nat} {rest : List Tok}
    (h1 : ∀ t, rest.head? = some t → bad t = false) (h2 : ∀ n r, rest ≠ .sym .Dot :: .ident n :: r) :
    parsePath mk (dots ms ++ rest) = .ok (mk ms, rest) := by
  unfold parsePath
  split
  · rename_i r hr
    cases ms with
    | nil => have := h1 (.sym .LNot) (by rw [show rest = _ from hr]; rfl); simp [bad] at this
    | cons m ms => simp [dots] at hr
  · rw [pathRest_dots ms rest h2]
    simp only []
    split
    · have := h1 (.sym .LBracket) rfl; simp [bad] at this
    · rfl

theorem cast_ok {e : Expr} {rest : List Tok} (h : ∀ t, rest.head? = some t → bad t = false) :
    cast e rest = .ok (e, rest) := by
  unfold cast
  split
  · have := h (.kw .as) rfl; simp [bad] at this
  · have := h (.sym .LNot) rfl; simp [bad] at this
  · have := h (.sym .BangColon) rfl; simp [bad] at this
  · rfl

theorem literal_ok {e : Expr} {rest : List Tok} (h : ∀ t, rest.head? = some t → bad t = false) :
    literal e rest = .ok (e, rest) := by
  unfold literal
  split
  · have := h (.sym .Quote) rfl; simp [bad] at this
  · rfl

theorem postfix_stop {e : Expr} {rest : List Tok} (h : Stop0 rest) :
    Ev (fun f => postfix_ f e rest) (.ok (e, rest)) := by
  refine ⟨1, fun f hf => ?_⟩
  obtain ⟨f, rfl⟩ : ∃ g, f = g + 1 := ⟨f - 1, by omega⟩
  cases rest with
  | nil => rfl
  | cons t r =>
    have := h t rfl
    cases t with
    | sym s => cases s <;> first | rfl | simp [extends_] at this
    | kw k => cases k <;> first | rfl | simp [extends_] at this
    | _ => rfl

theorem binary_stop {e : Expr} {p : Nat} {rest : List Tok} (h : StopB (p - 1) rest) :
    Ev (fun f => binary f e p rest) (.ok (e, rest)) := by
  refine ⟨1, fun f hf => ?_⟩
  obtain ⟨f, rfl⟩ : ∃ g, f = g + 1 := ⟨f - 1, by omega⟩
  cases rest with
  | nil => rfl
  | cons t r =>
    show binary (f + 1) e p (t :: r) = _
    unfold binary
    simp only []
    split
    · rfl
    · cases ho : binOp t with
      | none => rfl
      | some op =>
        have := h t rfl op ho
        have h2 := prec_tier op
        simp only []
        rw [if_pos (by omega)]

theorem lead_post : ∀ e, isPost e = true → Wf e →
    (∃ n, lead e = .ident n) ∨ (∃ v, lead e = .int v) ∨ lead e = .sym .LParen
  | .path n _, _, _ => .inl ⟨n, rfl⟩
  | .int v, _, _ => .inr (.inl ⟨v, rfl⟩)
  | .group _, _, _ => .inr (.inr rfl)
  | .member e _ _, _, h => lead_post e h.2.1 h.1
  | .memberInt e _, _, h => lead_post e h.2 h.1
  | .index e _, _, h => lead_post e h.2.1 h.1
  | .call e _, _, h => lead_post e h.2.1 h.1

theorem prefixP_chain {e : Expr} (h : isPost e = true) (hw : Wf e) (s : List Tok) (f : Nat) :
    prefixP (f + 1) (print e ++ s) = chain f (print e ++ s) := by
  obtain ⟨t, ht⟩ := print_lead e
  rw [ht]
  rcases lead_post e h hw with ⟨n, hl⟩ | ⟨v, hl⟩ | hl <;> rw [hl] <;> rfl

theorem expression_ev {e : Expr} {rest : List Tok} (ht : T e) (h0 : Stop0 rest) (hB : StopB 13 rest) (hA : StopA rest)
    (hT : StopT rest) : Ev (fun f => expression f (print e ++ rest)) (.ok (e, rest)) := by
  refine Ev.succ (ht rest h0 hB hA hT) fun f => ?_
  obtain ⟨t, hl⟩ := print_lead e
  have hs := starts_lead e
  rw [hl]
  show expression (f + 1) (lead e :: (t ++ rest)) = ternary f (lead e :: (t ++ rest))
  generalize lead e = l at *
  cases l with
  | sym s => cases s <;> first | rfl | simp [starts, preOp] at hs
  | _ => rfl

def argsK (f : Nat) (s : Bool) (x : Expr × List Tok) : Out (Args × List Tok) :=
  match x.2 with
  | .sym .Comma :: r2 => (args f r2).bind fun (as, r3) => .ok (.cons s x.1 as, r3)
  | .sym .RParen :: r2 => (args f (.sym .RParen :: r2)).bind fun (as, r3) => .ok (.cons s x.1 as, r3)
  | _ => .error

theorem args_succ (f : Nat) (t : Tok) (r : List Tok) (h : t ≠ .sym .RParen) :
    args (f + 1) (t :: r) = (expression f (if t = .sym .Elipsis then r else t :: r)).bind
      (argsK f (t = .sym .Elipsis)) := by
  rw [args]
  · congr 1
    funext x
    obtain ⟨e, r1⟩ := x
    unfold argsK
    simp only []
    split
    · rfl
    · rfl
    · rename_i h1 h2
      split
      · rename_i r2; exact absurd rfl (h1 r2)
      · rename_i r2; exact absurd rfl (h2 r2)
      · rfl
  · exact h

theorem arg_ev {s : Bool} {e : Expr} {rest : List Tok} (ht : T e) (hs : s = false → lead e ≠ .sym .Elipsis)
    (h0 : Stop0 rest) (hB : StopB 13 rest) (hA : StopA rest) (hT : StopT rest) {v : Out (Args × List Tok)}
    (hv : Ev (fun f => argsK f s (e, rest)) v) :
    Ev (fun f => args f (spreadTok s ++ (print e ++ rest))) v := by
  have hE := expression_ev ht h0 hB hA hT
  refine Ev.succ (Ev.bind hE hv) fun f => ?_
  cases s with
  | true => exact args_succ f (.sym .Elipsis) _ (by simp)
  | false =>
    obtain ⟨t, hl⟩ := print_lead e
    have hst := starts_lead e
    show args (f + 1) (print e ++ rest) = _
    rw [hl]
    show args (f + 1) (lead e :: (t ++ rest)) = _
    rw [args_succ _ _ _ (by intro hc; rw [hc] at hst; simp [starts, preOp] at hst), if_neg (hs rfl),
      decide_eq_false (hs rfl)]
    rfl

theorem stops_close (s : Sym) (hs : s = .RParen ∨ s = .RBracket ∨ s = .Comma ∨ s = .Colon) (r : List Tok) :
    Stop0 (.sym s :: r) ∧ StopB 13 (.sym s :: r) ∧ StopA (.sym s :: r) ∧ StopT (.sym s :: r) := by
  refine ⟨?_, ?_, ?_, ?_⟩
  · intro t ht; injection ht with ht; subst ht; rcases hs with rfl | rfl | rfl | rfl <;> rfl
  · intro t ht; injection ht with ht; subst ht; rcases hs with rfl | rfl | rfl | rfl <;> simp [binOp]
  · intro t ht; injection ht with ht; subst ht; rcases hs with rfl | rfl | rfl | rfl <;> rfl
  · rcases hs with rfl | rfl | rfl | rfl <;> simp [StopT]

theorem args_nil_ev (r : List Tok) : Ev (fun f => args f (.sym .RParen :: r)) (.ok (.nil, r)) :=
  ⟨1, fun f hf => by
    obtain ⟨f, rfl⟩ : ∃ g, f = g + 1 := ⟨f - 1, by omega⟩
    rfl⟩

theorem args_ev : ∀ (as : Args), (∀ e, sizeOf e < sizeOf as → Wf e → T e) → WfArgs as → ∀ r,
    Ev (fun f => args f (printArgs as ++ .sym .RParen :: r)) (.ok (as, r))
  | .nil, _, _, r => ⟨1, fun f hf => by
      obtain ⟨f, rfl⟩ : ∃ g, f = g + 1 := ⟨f - 1, by omega⟩
      rfl⟩
  | .cons s e .nil, ih, hw, r => by
    obtain ⟨h1, h2, h3, h4⟩ := stops_close .RParen (by simp) r
    have := arg_ev (s := s) (ih e (by simp; omega) hw.1) hw.2.1 h1 h2 h3 h4 (v := .ok (.cons s e .nil, r))
      (Ev.bind (F := fun f => args f (.sym .RParen :: r)) (args_nil_ev r) (Ev.const _))
    simpa [printArgs] using this
  | .cons s e (.cons s' e' as), ih, hw, r => by
    have hrec := args_ev (.cons s' e' as) (fun x hx => ih x (by simp at *; omega)) hw.2.2 r
    obtain ⟨h1, h2, h3, h4⟩ := stops_close .Comma (by simp) (printArgs (.cons s' e' as) ++ .sym .RParen :: r)
    have := arg_ev (s := s) (ih e (by simp; omega) hw.1) hw.2.1 h1 h2 h3 h4 (v := .ok (.cons s e (.cons s' e' as), r))
      (Ev.bind hrec (Ev.const _))
    simpa [printArgs] using this

/-! ## Operands -/

theorem head_cons_bad {t : Tok} {r : List Tok} (h : bad t = false) : ∀ t', (t :: r).head? = some t' → bad t' = false := by
  intro t' ht; injection ht with ht; rw [← ht]; exact h

theorem p_ev {e : Expr} (hw : Wf e) (hp : isPost e = true) (ih : ∀ x, sizeOf x < sizeOf e → Wf x → Full x) : P e := by
  intro rest v ha hv
  have base : ∀ {ts : List Tok}, (∀ f, primary (f + 1) ts = .ok (e, rest)) → Ev (fun f => chain f ts) v := by
    intro ts h
    exact Ev.bind ⟨1, fun f hf => by
      obtain ⟨f, rfl⟩ : ∃ g, f = g + 1 := ⟨f - 1, by omega⟩
      exact h f⟩ hv
  cases e with
  | path n ms =>
    apply base
    intro f
    show primary (f + 1) (.ident n :: (dots ms ++ rest)) = _
    rw [primary, parsePath_dots ha.1 (ha.2 rfl)]
    simp only [Out.bind_ok]
    split
    · have := ha.1 (.sym .LBrace) rfl; simp [bad] at this
    · exact cast_ok ha.1
  | int k =>
    apply base
    intro f
    show primary (f + 1) (.int k :: rest) = _
    rw [primary, literal_ok ha.1]
    exact cast_ok ha.1
  | group x =>
    have hx := ih x (by simp) hw
    obtain ⟨h1, h2, h3, h4⟩ := stops_close .RParen (by simp) rest
    have hE := expression_ev hx.t h1 h2 h3 h4
    refine Ev.bind (a := (.group x, rest)) ?_ hv
    refine Ev.succ (Ev.bind (K := fun _ (y : Expr × List Tok) => match y.2 with
      | .sym .RParen :: r2 => cast (.group y.1) r2
      | .sym .Comma :: _ => .outside
      | _ => .error) hE (v := .ok (.group x, rest)) ⟨0, fun f _ => cast_ok ha.1⟩) fun f => ?_
    rw [show print (.group x) ++ rest = .sym .LParen :: (print x ++ .sym .RParen :: rest) by simp [print]]
    have hc : maybeClosure (print x ++ .sym .RParen :: rest) = false := by
      obtain ⟨t, hl⟩ := print_lead x
      have hst := starts_lead x
      have hnc := no_colon x (.sym .RParen :: rest) (by simp)
      rw [hl] at hnc ⊢
      simp only [List.cons_append] at hnc ⊢
      generalize lead x = l at *
      unfold maybeClosure
      split
      · simp_all [starts, preOp]
      · rename_i h; exact absurd h (hnc _ _)
      · simp_all [starts, preOp]
      · simp_all [starts, preOp]
      · rfl
    show (if maybeClosure (print x ++ .sym .RParen :: rest) = true then _ else _) = _
    rw [hc]
    rfl
  | member x n ms =>
    have hx := ih x (by simp; omega) hw.1
    have := hx.p hw.2.1 (.sym .Dot :: .ident n :: (dots ms ++ rest)) v
      ⟨head_cons_bad rfl, fun he => absurd he (by rw [hw.2.2]; simp)⟩ (by
        refine Ev.succ hv fun f => ?_
        show (parsePath (.member x n) (dots ms ++ rest)).bind _ = _
        rw [parsePath_dots ha.1 (ha.2 rfl)]
        rfl)
    simpa [print] using this
  | memberInt x k =>
    have hx := ih x (by simp; omega) hw.1
    have := hx.p hw.2 (.sym .Dot :: .int k :: rest) v
      ⟨head_cons_bad rfl, fun _ n r => by simp⟩ (by
        refine Ev.succ hv fun f => ?_
        show (literal (.memberInt x k) rest).bind _ = _
        rw [literal_ok ha.1]
        rfl)
    simpa [print] using this
  | index x i =>
    have hx := ih x (by simp; omega) hw.1
    have hi := ih i (by simp; omega) hw.2.2
    obtain ⟨h1, h2, h3, h4⟩ := stops_close .RBracket (by simp) rest
    have hE := expression_ev hi.t h1 h2 h3 h4
    have := hx.p hw.2.1 (.sym .IndexExpr :: (print i ++ .sym .RBracket :: rest)) v
      ⟨head_cons_bad rfl, fun _ n r => by simp⟩ (by
        refine Ev.succ (Ev.bind (K := fun f (x' : Expr × List Tok) => match x'.2 with
          | .sym .RBracket :: r2 => postfix_ f (.index x x'.1) r2
          | _ => .error) hE hv) fun f => ?_
        rfl)
    simpa [print] using this
  | call x as =>
    have hx := ih x (by simp; omega) hw.1
    have hE := args_ev as (fun y hy hwy => (ih y (by simp; omega) hwy).t) hw.2.2 rest
    have := hx.p hw.2.1 (.sym .LParen :: (printArgs as ++ .sym .RParen :: rest)) v
      ⟨head_cons_bad rfl, fun _ n r => by simp⟩ (by
        refine Ev.succ (Ev.bind (K := fun f (x' : Args × List Tok) => postfix_ f (.call x x'.1) x'.2) hE hv) fun f => ?_
        rfl)
    simpa [print] using this
  | _ => simp [isPost] at hp

theorem u_ev {e : Expr} (hw : Wf e) (hl : level e = 0) (ih : ∀ x, sizeOf x < sizeOf e → Wf x → Full x) : U e := by
  intro rest h0
  have hpost : isPost e = true → Ev (fun f => prefixP f (print e ++ rest)) (.ok (e, rest)) := fun hp =>
    Ev.succ (p_ev hw hp ih rest _ (h0.after e) (postfix_stop h0)) fun f => prefixP_chain hp hw rest f
  cases e with
  | neg v =>
    exact ⟨1, fun f hf => by
      obtain ⟨f, rfl⟩ : ∃ g, f = g + 1 := ⟨f - 1, by omega⟩
      exact literal_ok (h0.after (.neg v)).1⟩
  | dotName n =>
    refine ⟨1, fun f hf => ?_⟩
    obtain ⟨f, rfl⟩ : ∃ g, f = g + 1 := ⟨f - 1, by omega⟩
    show prefixP (f + 1) (.sym .Dot :: .ident n :: rest) = _
    rw [prefixP]
    rintro r rfl
    have := h0 (.sym .LNot) rfl
    simp [extends_] at this
  | post op x =>
    have hx := ih x (by simp; omega) hw.1
    refine Ev.succ (hx.p hw.2 (postTok op :: rest) (.ok (.post op x, rest)) ⟨head_cons_bad (by cases op <;> rfl), fun _ n r => by cases op <;> simp [postTok]⟩ ?_) fun f => ?_
    · refine ⟨1, fun f hf => ?_⟩
      obtain ⟨f, rfl⟩ : ∃ g, f = g + 1 := ⟨f - 1, by omega⟩
      cases op <;> rfl
    · rw [← prefixP_chain hw.2 hw.1]
      simp [print]
  | pre op x =>
    have hx := ih x (by simp; omega) hw.1
    refine Ev.succ (Ev.bind (K := fun _ (y : Expr × List Tok) => .ok (.pre op y.1, y.2)) (hx.u hw.2.1 rest h0) (Ev.const _)) fun f => ?_
    show prefixP (f + 1) (preTok op :: (print x ++ rest)) = _
    obtain ⟨t, hl⟩ := print_lead x
    have hs := hw.2.2
    unfold signed at hs
    rw [hl]
    simp only [List.cons_append]
    generalize lead x = l at *
    cases op <;> first
      | rfl
      | (cases l with
        | int v => simp [Tok.isInt] at hs
        | _ => rfl)
  | path _ _ => exact hpost rfl
  | int _ => exact hpost rfl
  | group _ => exact hpost rfl
  | member _ _ _ => exact hpost rfl
  | memberInt _ _ => exact hpost rfl
  | index _ _ => exact hpost rfl
  | call _ _ => exact hpost rfl
  | bin op _ _ => have := tier_pos op; simp [level] at hl; omega
  | catchDiscard _ => have := tier_pos .Catch; simp [level] at hl; omega
  | assign _ _ _ => simp [level] at hl
  | ternary _ _ _ => simp [level] at hl
  | elvis _ _ => simp [level] at hl

/-! ## Binary operators -/

theorem StopB.mono {j k : Nat} {r : List Tok} (h : StopB k r) (hjk : j ≤ k) : StopB j r :=
  fun t ht op ho => Nat.le_trans hjk (h t ht op ho)

theorem stops_bin (op : BinOp) (r : List Tok) :
    Stop0 (binTok op :: r) ∧ StopA (binTok op :: r) ∧ StopB (tier op) (binTok op :: r) := by
  refine ⟨?_, ?_, ?_⟩
  · intro t ht; injection ht with ht; rw [← ht]; exact extends_binTok op
  · intro t ht; injection ht with ht; rw [← ht]; exact asgOp_binTok op
  · intro t ht op' ho; injection ht with ht; rw [← ht, binOp_binTok] at ho; injection ho with ho; rw [ho]; exact Nat.le_refl _

theorem b_ev {e : Expr} (hw : Wf e) (hl : level e ≤ 12) (hu : level e = 0 → U e)
    (ih : ∀ x, sizeOf x < sizeOf e → Wf x → Full x) : B e := by
  have h0 : level e = 0 → B e := fun h => ⟨e, [], by simp, hu h, fun _ h => h, fun _ h => h, fun _ _ _ _ _ _ h => h⟩
  cases e with
  | bin op l r =>
    obtain ⟨hwl, hwr, hll, hlr⟩ := hw
    have htp := tier_pos op
    obtain ⟨l0, tl, hpl, hul, hs0, hsA, hbl⟩ := (ih l (by simp; omega) hwl).b (by omega)
    obtain ⟨r0, tr, hpr, hur, hr0, hrA, hbr⟩ := (ih r (by simp; omega) hwr).b (by omega)
    refine ⟨l0, tl ++ binTok op :: print r, by simp [print, hpl], hul, fun rest h => ?_, fun rest h => ?_, ?_⟩
    · simpa using hs0 _ (stops_bin op (print r ++ rest)).1
    · simpa using hsA _ (stops_bin op (print r ++ rest)).2.1
    · intro p rest v hp h0 hB hv
      simp only [level] at hp hB
      have hpt := prec_tier op
      have hst := stops_bin op (print r ++ rest)
      have hr : Ev (fun f => binary f r0 (prec op) (tr ++ rest)) (.ok (r, rest)) :=
        hbr (prec op) rest _ (by omega) h0 (hB.mono (by omega)) (binary_stop (by rw [hpt]; exact hB))
      have := hbl p (binTok op :: (print r ++ rest)) v (by omega) hst.1 (hst.2.2.mono hll) (by
        refine Ev.succ (Ev.bind (K := fun f (x : Expr × List Tok) =>
          (binary f x.1 (prec op) x.2).bind fun (rhs, r2) => binary f (.bin op l rhs) p r2) (hur _ (hr0 _ h0)) (Ev.bind hr hv)) fun f => ?_
        have hlead := starts_lead r
        obtain ⟨t, hpt'⟩ := print_lead r
        have hne : ∀ k, (k = .func ∨ k = .discard) → (print r ++ rest).head? ≠ some (.kw k) := by
          intro k hk h
          rw [hpt'] at h
          simp at h
          rw [h] at hlead
          rcases hk with rfl | rfl <;> simp [starts, preOp] at hlead
        rw [binary]
        rw [if_neg (fun h => hne _ (.inl rfl) h.2), binOp_binTok]
        simp only []
        rw [if_neg (by omega), if_neg (fun h => hne _ (.inr rfl) h.2), hpr, List.append_assoc])
      simpa using this
  | catchDiscard l =>
    obtain ⟨hwl, hll⟩ := hw
    have htp := tier_pos .Catch
    obtain ⟨l0, tl, hpl, hul, hs0, hsA, hbl⟩ := (ih l (by simp) hwl).b (by omega)
    refine ⟨l0, tl ++ [.kw .catch, .kw .discard], by simp [print, hpl], hul, fun rest h => ?_, fun rest h => ?_, ?_⟩
    · simpa [binTok] using hs0 _ (stops_bin .Catch (.kw .discard :: rest)).1
    · simpa [binTok] using hsA _ (stops_bin .Catch (.kw .discard :: rest)).2.1
    · intro p rest v hp h0 hB hv
      simp only [level] at hp hB
      have hpt := prec_tier .Catch
      have hst := stops_bin .Catch (.kw .discard :: rest)
      have := hbl p (.kw .catch :: .kw .discard :: rest) v (by omega) hst.1 (hst.2.2.mono hll) (by
        refine Ev.succ hv fun f => ?_
        rw [binary]
        rw [if_neg (by simp), show binOp (.kw .catch) = some .Catch from rfl]
        simp only []
        rw [if_neg (by omega), if_pos (by simp)]
        rfl)
      simpa using this
  | assign _ _ _ => simp [level] at hl
  | ternary _ _ _ => simp [level] at hl
  | elvis _ _ => simp [level] at hl
  | _ => exact h0 rfl

theorem a_ev {e : Expr} (hw : Wf e) (hl : level e ≤ 13) (hb : level e ≤ 12 → B e)
    (ih : ∀ x, sizeOf x < sizeOf e → Wf x → Full x) : A e := by
  intro rest h0 hB hA
  by_cases h12 : level e ≤ 12
  · obtain ⟨l0, tl, hp, hu, hs0, hsA, hbe⟩ := hb h12
    have := hbe 14 rest (.ok (e, rest)) (by omega) h0 (hB.mono (by omega)) (binary_stop hB)
    refine Ev.succ (Ev.bind (K := fun f (x : Expr × List Tok) => match x.2.head?.bind asgOp with
      | some op => (assign f x.2.tail).bind fun (y, r1) => .ok (.assign op x.1 y, r1)
      | none => binary f x.1 maxPrec x.2) (hu (tl ++ rest) (hs0 rest h0)) (v := .ok (e, rest)) ?_) fun f => ?_
    · have hn : (tl ++ rest).head?.bind asgOp = none := by
        have := hsA rest hA
        cases h : (tl ++ rest).head? with
        | none => rfl
        | some t => exact this t h
      simp only [hn]
      exact this
    · rw [hp, List.append_assoc, assign]
      rfl
  · cases e with
    | assign op l r =>
      obtain ⟨hwl, hwr, hll, hlr⟩ := hw
      have hul := (ih l (by simp; omega) hwl).u hll
      have har := (ih r (by simp; omega) hwr).a hlr
      refine Ev.succ (Ev.bind (K := fun f (x : Expr × List Tok) => match x.2.head?.bind asgOp with
        | some op => (assign f x.2.tail).bind fun (y, r1) => .ok (.assign op x.1 y, r1)
        | none => binary f x.1 maxPrec x.2) (hul (asgTok op :: (print r ++ rest)) ?_) (v := .ok (.assign op l r, rest)) ?_) fun f => ?_
      · intro t ht; injection ht with ht; rw [← ht]; exact extends_asgTok op
      · simp only [List.head?_cons, Option.bind_some, asgOp_asgTok, List.tail_cons]
        exact Ev.bind (har rest h0 hB hA) (Ev.const _)
      · rw [show print (.assign op l r) ++ rest = print l ++ asgTok op :: (print r ++ rest) by simp [print], assign]
        rfl
    | bin op _ _ => have := tier_pos op; simp [level] at h12; omega
    | catchDiscard _ => have := tier_pos .Catch; simp [level] at h12; omega
    | ternary _ _ _ => simp [level] at hl
    | elvis _ _ => simp [level] at hl
    | _ => simp [level] at h12

def ternK (f : Nat) (x : Expr × List Tok) : Out (Expr × List Tok) :=
  match x.2 with
  | .sym .Question :: .sym .Colon :: r1 => (ternary f r1).bind fun (o, r2) => .ok (.elvis x.1 o, r2)
  | .sym .Question :: r1 =>
    (ternary f r1).bind fun (b, r2) =>
      match r2 with
      | .sym .Colon :: r3 => (ternary f r3).bind fun (o, r4) => .ok (.ternary x.1 b o, r4)
      | _ => .error
  | _ => .ok x

theorem ternary_succ (f : Nat) (ts : List Tok) : ternary (f + 1) ts = (assign f ts).bind (ternK f) := by
  rw [ternary]; rfl

theorem stops_question (r : List Tok) : Stop0 (.sym .Question :: r) ∧ StopB 13 (.sym .Question :: r) ∧ StopA (.sym .Question :: r) := by
  refine ⟨?_, ?_, ?_⟩ <;> (intro t ht; injection ht with ht; subst ht)
  · rfl
  · simp [binOp]
  · rfl

theorem t_ev {e : Expr} (hw : Wf e) (ha : level e ≤ 13 → A e)
    (ih : ∀ x, sizeOf x < sizeOf e → Wf x → Full x) : T e := by
  intro rest h0 hB hA hT
  have hlow : level e ≤ 13 → Ev (fun f => ternary f (print e ++ rest)) (.ok (e, rest)) := fun h => by
    refine Ev.succ (Ev.bind (K := ternK) (ha h rest h0 hB hA) ⟨0, fun f _ => ?_⟩) fun f => ternary_succ f _
    unfold ternK
    simp only []
    split
    · exact absurd rfl hT
    · exact absurd rfl hT
    · rfl
  cases e with
  | ternary c b o =>
    obtain ⟨hwc, hwb, hwo, hlc⟩ := hw
    have hc := (ih c (by simp; omega) hwc).a hlc
    have hb := (ih b (by simp; omega) hwb).t
    have ho := (ih o (by simp; omega) hwo).t
    obtain ⟨q0, qB, qA⟩ := stops_question (print b ++ .sym .Colon :: (print o ++ rest))
    obtain ⟨c0, cB, cA, cT⟩ := stops_close .Colon (by simp) (print o ++ rest)
    refine Ev.succ (Ev.bind (K := ternK) (hc _ q0 qB qA) (v := .ok (.ternary c b o, rest)) ?_) fun f => ?_
    · have hE : ∀ f, ternK f (c, .sym .Question :: (print b ++ .sym .Colon :: (print o ++ rest))) =
        (ternary f (print b ++ .sym .Colon :: (print o ++ rest))).bind fun (b, r2) =>
          match r2 with
          | .sym .Colon :: r3 => (ternary f r3).bind fun (o, r4) => .ok (.ternary c b o, r4)
          | _ => .error := by
        intro f
        obtain ⟨t, hl⟩ := print_lead b
        have hst := starts_lead b
        rw [hl]
        simp only [List.cons_append]
        generalize lead b = l at *
        cases l with
        | sym s => cases s <;> first | rfl | simp [starts, preOp] at hst
        | _ => rfl
      simp only [hE]
      exact Ev.bind (hb _ c0 cB cA cT) (Ev.bind (ho rest h0 hB hA hT) (Ev.const _))
    · rw [ternary_succ]; simp [print]
  | elvis c o =>
    obtain ⟨hwc, hwo, hlc⟩ := hw
    have hc := (ih c (by simp; omega) hwc).a hlc
    have ho := (ih o (by simp; omega) hwo).t
    obtain ⟨q0, qB, qA⟩ := stops_question (.sym .Colon :: (print o ++ rest))
    refine Ev.succ (Ev.bind (K := ternK) (hc _ q0 qB qA) (v := .ok (.elvis c o, rest)) ?_) fun f => ?_
    · exact Ev.bind (ho rest h0 hB hA hT) (Ev.const _)
    · rw [ternary_succ]; simp [print]
  | bin op _ _ => exact hlow (by have := tier_pos op; simp [level]; omega)
  | catchDiscard _ => exact hlow (by have := tier_pos .Catch; simp [level]; omega)
  | assign _ _ _ => exact hlow (by simp [level])
  | _ => exact hlow (by simp [level])

theorem full : ∀ (n : Nat) (e : Expr), sizeOf e < n → Wf e → Full e
  | 0, _, h, _ => by omega
  | n + 1, e, h, hw => by
    have ih : ∀ x, sizeOf x < sizeOf e → Wf x → Full x := fun x hx => full n x (by omega)
    have hu : level e = 0 → U e := fun hl => u_ev hw hl ih
    have hb : level e ≤ 12 → B e := fun hl => b_ev hw hl hu ih
    have ha : level e ≤ 13 → A e := fun hl => a_ev hw hl hb ih
    exact ⟨fun hp => p_ev hw hp ih, hu, hb, ha, t_ev hw ha ih⟩

end Verif.Parser
