import Verif.Lang.Parser.Spec
/-! # Reading back what was printed -/
namespace Verif.Parser
open Lexer (Sym)

/-! ## Parentheses -/

theorem strip_wrap (b : Bool) (e : Expr) : strip (wrap b e) = strip e := by
  cases b <;> rfl

theorem wf_wrap {b : Bool} {e : Expr} (h : Wf e) : Wf (wrap b e) := by
  cases b
  · exact h
  · exact h

theorem wrap_spec (q : Expr → Bool) (hg : ∀ e, q (.group e) = true) (e : Expr) : q (wrap (q e) e) = true := by
  cases h : q e
  · exact hg e
  · exact h

mutual
theorem strip_paren : ∀ e, strip (paren e) = strip e
  | .path _ _ | .int _ | .neg _ | .dotName _ => rfl
  | .group e => strip_paren e
  | .member e _ _ => by simp [paren, strip, strip_wrap, strip_paren e]
  | .memberInt e _ => by simp [paren, strip, strip_wrap, strip_paren e]
  | .index e i => by simp [paren, strip, strip_wrap, strip_paren e, strip_paren i]
  | .call e as => by simp [paren, strip, strip_wrap, strip_paren e, strip_parenArgs as]
  | .post _ e => by simp [paren, strip, strip_wrap, strip_paren e]
  | .pre _ e => by simp [paren, strip, strip_wrap, strip_paren e]
  | .bin _ l r => by simp [paren, strip, strip_wrap, strip_paren l, strip_paren r]
  | .catchDiscard l => by simp [paren, strip, strip_wrap, strip_paren l]
  | .assign _ l r => by simp [paren, strip, strip_wrap, strip_paren l, strip_paren r]
  | .ternary c b o => by simp [paren, strip, strip_wrap, strip_paren c, strip_paren b, strip_paren o]
  | .elvis c o => by simp [paren, strip, strip_wrap, strip_paren c, strip_paren o]
theorem strip_parenArgs : ∀ as, stripArgs (parenArgs as) = stripArgs as
  | .nil => rfl
  | .cons _ e as => by simp [parenArgs, stripArgs, strip_wrap, strip_paren e, strip_parenArgs as]
end

mutual
theorem wf_paren : ∀ e, Wf (paren e)
  | .path _ _ | .int _ | .neg _ | .dotName _ => trivial
  | .group e => wf_paren e
  | .member e _ _ => by
    have := wrap_spec (fun e => isPost e && !endsInPath e) (fun _ => rfl) (paren e)
    simp only [Bool.and_eq_true, Bool.not_eq_true'] at this
    exact ⟨wf_wrap (wf_paren e), this.1, this.2⟩
  | .memberInt e _ => ⟨wf_wrap (wf_paren e), wrap_spec isPost (fun _ => rfl) _⟩
  | .index e i => ⟨wf_wrap (wf_paren e), wrap_spec isPost (fun _ => rfl) _, wf_paren i⟩
  | .call e as => ⟨wf_wrap (wf_paren e), wrap_spec isPost (fun _ => rfl) _, wf_parenArgs as⟩
  | .post _ e => ⟨wf_wrap (wf_paren e), wrap_spec isPost (fun _ => rfl) _⟩
  | .pre op e => by
    have := wrap_spec (fun e => level e == 0 && !signed op e)
      (fun _ => by simp [level, signed, lead, Tok.isInt]) (paren e)
    simp only [Bool.and_eq_true, Bool.not_eq_true', beq_iff_eq] at this
    exact ⟨wf_wrap (wf_paren e), this.1, this.2⟩
  | .bin op l r => by
    have h1 := wrap_spec (fun e => decide (level e ≤ tier op)) (fun _ => by simp [level]) (paren l)
    have h2 := wrap_spec (fun e => decide (level e < tier op)) (fun _ => by simp [level, tier]) (paren r)
    exact ⟨wf_wrap (wf_paren l), wf_wrap (wf_paren r), of_decide_eq_true h1, of_decide_eq_true h2⟩
  | .catchDiscard l => by
    have h1 := wrap_spec (fun e => decide (level e ≤ tier .Catch)) (fun _ => by simp [level]) (paren l)
    exact ⟨wf_wrap (wf_paren l), of_decide_eq_true h1⟩
  | .assign _ l r => by
    have h1 := wrap_spec (fun e => level e == 0) (fun _ => by simp [level]) (paren l)
    have h2 := wrap_spec (fun e => decide (level e ≤ 13)) (fun _ => by simp [level]) (paren r)
    exact ⟨wf_wrap (wf_paren l), wf_wrap (wf_paren r), by simpa using h1, of_decide_eq_true h2⟩
  | .ternary c b o => by
    have h1 := wrap_spec (fun e => decide (level e ≤ 13)) (fun _ => by simp [level]) (paren c)
    exact ⟨wf_wrap (wf_paren c), wf_paren b, wf_paren o, of_decide_eq_true h1⟩
  | .elvis c o => by
    have h1 := wrap_spec (fun e => decide (level e ≤ 13)) (fun _ => by simp [level]) (paren c)
    exact ⟨wf_wrap (wf_paren c), wf_paren o, of_decide_eq_true h1⟩
theorem wf_parenArgs : ∀ as, WfArgs (parenArgs as)
  | .nil => trivial
  | .cons s e as => by
    refine ⟨wf_wrap (wf_paren e), fun hs => ?_, wf_parenArgs as⟩
    subst hs
    have := wrap_spec (fun e => lead e != .sym .Elipsis) (fun _ => by simp [lead]) (paren e)
    simpa using this
end

mutual
theorem paren_wf : ∀ e, Wf e → paren e = e
  | .path _ _, _ | .int _, _ | .neg _, _ | .dotName _, _ => rfl
  | .group e, h => by rw [paren, paren_wf e h]
  | .member e _ _, h => by rw [paren, paren_wf e h.1, h.2.1, h.2.2]; rfl
  | .memberInt e _, h => by rw [paren, paren_wf e h.1, h.2]; rfl
  | .index e i, h => by rw [paren, paren_wf e h.1, h.2.1, paren_wf i h.2.2]; rfl
  | .call e as, h => by rw [paren, paren_wf e h.1, h.2.1, parenArgs_wf as h.2.2]; rfl
  | .post _ e, h => by rw [paren, paren_wf e h.1, h.2]; rfl
  | .pre _ e, h => by rw [paren, paren_wf e h.1, h.2.1, h.2.2]; rfl
  | .bin _ l r, h => by
    rw [paren, paren_wf l h.1, paren_wf r h.2.1, decide_eq_true h.2.2.1, decide_eq_true h.2.2.2]; rfl
  | .catchDiscard l, h => by rw [paren, paren_wf l h.1, decide_eq_true h.2]; rfl
  | .assign _ l r, h => by
    rw [paren, paren_wf l h.1, paren_wf r h.2.1, h.2.2.1, decide_eq_true h.2.2.2]; rfl
  | .ternary c b o, h => by
    rw [paren, paren_wf c h.1, paren_wf b h.2.1, paren_wf o h.2.2.1, decide_eq_true h.2.2.2]; rfl
  | .elvis c o, h => by rw [paren, paren_wf c h.1, paren_wf o h.2.1, decide_eq_true h.2.2]; rfl
theorem parenArgs_wf : ∀ as, WfArgs as → parenArgs as = as
  | .nil, _ => rfl
  | .cons s e as, h => by
    rw [parenArgs, paren_wf e h.1, parenArgs_wf as h.2.2]
    cases s
    · have := h.2.1 rfl
      rw [show (false || lead e != .sym .Elipsis) = true by simpa using this]; rfl
    · rfl
end

/-! ## Eventually constant -/

/-- With enough fuel the result is `v`. -/
def Ev {β : Type} (F : Nat → Out β) (v : Out β) : Prop := ∃ N, ∀ f, N ≤ f → F f = v

theorem Ev.succ {β : Type} {F G : Nat → Out β} {v : Out β} (hF : Ev F v) (h : ∀ f, G (f + 1) = F f) : Ev G v := by
  obtain ⟨N, hN⟩ := hF
  refine ⟨N + 1, fun f hf => ?_⟩
  obtain ⟨f, rfl⟩ : ∃ g, f = g + 1 := ⟨f - 1, by omega⟩
  rw [h, hN f (by omega)]

theorem Ev.bind {β γ : Type} {F : Nat → Out β} {K : Nat → β → Out γ} {a : β} {v : Out γ} (hF : Ev F (.ok a))
    (hK : Ev (fun f => K f a) v) : Ev (fun f => (F f).bind (K f)) v := by
  obtain ⟨N, hN⟩ := hF
  obtain ⟨M, hM⟩ := hK
  refine ⟨max N M, fun f hf => ?_⟩
  show (F f).bind (K f) = v
  rw [hN f (by omega)]
  exact hM f (by omega)

theorem Ev.const {β : Type} (v : Out β) : Ev (fun _ => v) v := ⟨0, fun _ _ => rfl⟩

/-! ## What may follow -/

/-- Tokens that extend an operand. -/
def extends_ : Tok → Bool
  | .sym .PlusPlus | .sym .MinusMinus | .sym .Dot | .sym .BAndDot | .sym .IndexExpr | .sym .LNot | .sym .LParen
  | .sym .BangColon | .sym .Quote | .sym .LBracket | .sym .LBrace | .kw .as => true
  | _ => false

/-- The rest does not extend an operand. -/
def Stop0 (r : List Tok) : Prop := ∀ t, r.head? = some t → extends_ t = false

/-- The rest does not continue a binary expression with an operator of a tier below `k`. -/
def StopB (k : Nat) (r : List Tok) : Prop := ∀ t, r.head? = some t → ∀ op, binOp t = some op → k ≤ tier op

def StopA (r : List Tok) : Prop := ∀ t, r.head? = some t → asgOp t = none

def StopT (r : List Tok) : Prop := r.head? ≠ some (.sym .Question)

theorem prec_tier (op : BinOp) : prec op = tier op + 1 := by cases op <;> rfl

theorem tier_pos (op : BinOp) : 1 ≤ tier op ∧ tier op ≤ 12 := by cases op <;> decide

theorem binOp_binTok (op : BinOp) : binOp (binTok op) = some op := by cases op <;> rfl
theorem extends_binTok (op : BinOp) : extends_ (binTok op) = false := by cases op <;> rfl
theorem asgOp_binTok (op : BinOp) : asgOp (binTok op) = none := by cases op <;> rfl
theorem asgOp_asgTok (op : AsgOp) : asgOp (asgTok op) = some op := by cases op <;> rfl
theorem extends_asgTok (op : AsgOp) : extends_ (asgTok op) = false := by cases op <;> rfl
theorem preOp_preTok (op : PreOp) : preOp (preTok op) = some op := by cases op <;> rfl

theorem print_lead : ∀ e, ∃ t, print e = lead e :: t
  | .path _ _ | .int _ | .neg _ | .dotName _ | .group _ | .pre _ _ => ⟨_, rfl⟩
  | .member e _ _ | .memberInt e _ | .index e _ | .call e _ | .post _ e => by
    obtain ⟨t, ht⟩ := print_lead e; simp [print, lead, ht]
  | .bin _ l _ | .catchDiscard l | .assign _ l _ => by
    obtain ⟨t, ht⟩ := print_lead l; simp [print, lead, ht]
  | .ternary c _ _ | .elvis c _ => by
    obtain ⟨t, ht⟩ := print_lead c; simp [print, lead, ht]

theorem post_level {e : Expr} (h : isPost e = true) : level e = 0 := by
  cases e <;> simp_all [isPost, level]

/-- Tokens a tree can start with. -/
def starts : Tok → Bool
  | .ident _ | .int _ | .sym .Dot | .sym .LParen => true
  | t => (preOp t).isSome

theorem starts_lead : ∀ e, starts (lead e) = true
  | .path _ _ | .int _ | .neg _ | .dotName _ | .group _ => rfl
  | .pre op _ => by cases op <;> rfl
  | .member e _ _ | .memberInt e _ | .index e _ | .call e _ | .post _ e => by rw [lead]; exact starts_lead e
  | .bin _ l _ | .catchDiscard l | .assign _ l _ => by rw [lead]; exact starts_lead l
  | .ternary c _ _ | .elvis c _ => by rw [lead]; exact starts_lead c

/-- A printed tree does not look like a closure parameter. -/
theorem no_colon : ∀ (e : Expr) (s : List Tok), s.head? ≠ some (.sym .Colon) → ∀ n r,
    print e ++ s ≠ .ident n :: .sym .Colon :: r
  | .path m ms, s, hs, n, r => by
    intro h
    cases ms with
    | nil => simp [print, dots] at h; rw [h.2] at hs; exact hs rfl
    | cons m ms => simp [print, dots] at h
  | .int _, _, _, _, _ | .neg _, _, _, _, _ | .dotName _, _, _, _, _ | .group _, _, _, _, _ => by
    simp [print]
  | .pre op _, _, _, _, _ => by cases op <;> simp [print, preTok]
  | .member e _ _, s, _, n, r => by simpa [print] using no_colon e _ (by simp) n r
  | .memberInt e _, s, _, n, r => by simpa [print] using no_colon e _ (by simp) n r
  | .index e _, s, _, n, r => by simpa [print] using no_colon e _ (by simp) n r
  | .call e _, s, _, n, r => by simpa [print] using no_colon e _ (by simp) n r
  | .post op e, s, _, n, r => by simpa [print] using no_colon e (postTok op :: s) (by cases op <;> simp [postTok]) n r
  | .bin op l x, s, _, n, r => by
    simpa [print] using no_colon l (binTok op :: (print x ++ s)) (by cases op <;> simp [binTok]) n r
  | .catchDiscard l, s, _, n, r => by simpa [print] using no_colon l _ (by simp) n r
  | .assign op l x, s, _, n, r => by
    simpa [print] using no_colon l (asgTok op :: (print x ++ s)) (by cases op <;> simp [asgTok]) n r
  | .ternary c _ _, s, _, n, r => by simpa [print] using no_colon c _ (by simp) n r
  | .elvis c _, s, _, n, r => by simpa [print] using no_colon c _ (by simp) n r

end Verif.Parser
