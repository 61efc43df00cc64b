import Verif.Lang.Parser.Sound
/-!
# The trees that the parser builds need no further parentheses
-/
namespace Verif.Parser
open Lexer (Sym)

/-- Token lists without a plus sign before a number, which leaves no trace in the tree, and without
`catch discard`, after which any operator may follow. -/
def PlainToks : List Tok → Prop
  | [] => True
  | t :: ts => t ≠ .kw .discard ∧ (t = .sym .Plus → ∀ v, ts.head? ≠ some (.int v)) ∧ PlainToks ts

theorem plain_append {c r : List Tok} (h : PlainToks (c ++ r)) : PlainToks r := by
  induction c with
  | nil => exact h
  | cons t c ih => exact ih h.2.2

theorem plain_rest {ts r : List Tok} {e : Expr} {pre : List Tok} {o : Out (Expr × List Tok)} (h : PlainToks ts)
    (hs : Sound pre ts o) (ho : o = .ok (e, r)) : PlainToks r := by
  obtain ⟨c, rfl, _⟩ := hs e r ho
  exact plain_append h

/-- The next operator is not taken. -/
def StopOp (P : BinOp → Prop) (ts : List Tok) : Prop :=
  ∀ t r op, ts = t :: r → binOp t = some op → ¬ (t = .sym .Minus ∧ r.head? = some (.kw .func)) → P op

theorem pathRest_stop : ∀ (k : Nat) (ts : List Tok), ts.length ≤ k → ∀ n r, (pathRest ts).2 ≠ .sym .Dot :: .ident n :: r
  | 0, ts, h => by
    have : ts = [] := List.length_eq_zero_iff.1 (by omega)
    subst this; simp [pathRest]
  | k + 1, ts, h => by
    intro n r
    unfold pathRest
    split
    · rename_i n' r'
      exact pathRest_stop k r' (by simp at h; omega) n r
    · rename_i hne
      intro heq
      exact hne n r heq

theorem parsePath_stop {mk : List Nat → Expr} {e : Expr} {ts r : List Tok} (h : parsePath mk ts = .ok (e, r)) :
    ∃ ms, e = mk ms ∧ ∀ n q, r ≠ .sym .Dot :: .ident n :: q := by
  unfold parsePath at h
  split at h
  · simp at h
  · split at h
    · simp at h
    · simp at h
      refine ⟨_, h.1.symm, ?_⟩
      rw [← h.2]
      exact pathRest_stop _ ts (Nat.le_refl _)

def NoName (ts : List Tok) : Prop := ∀ n q, ts ≠ .sym .Dot :: .ident n :: q

structure Shapes (f : Nat) : Prop where
  expression : ∀ ts e r, PlainToks ts → expression f ts = .ok (e, r) → Wf e ∧ ts.head? = some (lead e)
  ternary : ∀ ts e r, PlainToks ts → ternary f ts = .ok (e, r) → Wf e ∧ ts.head? = some (lead e)
  assign : ∀ ts e r, PlainToks ts → assign f ts = .ok (e, r) → Wf e ∧ level e ≤ 13 ∧ ts.head? = some (lead e)
  binary : ∀ l p ts e r, PlainToks ts → Wf l → level l ≤ 12 → StopOp (fun op => level l ≤ tier op) ts →
    binary f l p ts = .ok (e, r) → Wf e ∧ level e ≤ 12 ∧ lead e = lead l ∧ (level e = level l ∨ level e + 1 < p) ∧
      StopOp (fun op => p ≤ prec op) r
  prefixP : ∀ ts e r, PlainToks ts → prefixP f ts = .ok (e, r) → Wf e ∧ level e = 0 ∧ ts.head? = some (lead e)
  postfix_ : ∀ l ts e r, PlainToks ts → Wf l → isPost l = true → (endsInPath l = true → NoName ts) →
    postfix_ f l ts = .ok (e, r) → Wf e ∧ level e = 0 ∧ lead e = lead l
  primary : ∀ ts e r, PlainToks ts → primary f ts = .ok (e, r) → Wf e ∧ isPost e = true ∧ (endsInPath e = true → NoName r) ∧
    ts.head? = some (lead e)
  args : ∀ ts as r, PlainToks ts → args f ts = .ok (as, r) → WfArgs as

theorem level_post {e : Expr} (h : isPost e = true) : level e = 0 := by
  cases e <;> simp [isPost] at h <;> rfl

theorem tier_le (op : BinOp) : tier op ≤ 12 := by cases op <;> decide

theorem not_int_of_ne {t : Tok} (h : ∀ v, t ≠ .int v) : t.isInt = false := by
  cases t <;> simp [Tok.isInt] at h ⊢

theorem shapes : ∀ f, Shapes f
  | 0 => by
    constructor <;> (intros; simp_all [expression, ternary, assign, binary, prefixP, postfix_, primary, args])
  | f + 1 => by
    have ih := shapes f
    have so := sounds f
    constructor
    · intro ts e r hp h
      rw [expression.eq_def] at h
      simp only [] at h
      split at h
      · simp at h
      · exact ih.ternary ts e r hp h
    · intro ts e r hp h
      rw [ternary] at h
      obtain ⟨⟨c, r1⟩, h1, h2⟩ := bind_ok_iff.1 h
      obtain ⟨w1, v1, d1⟩ := ih.assign ts c r1 hp h1
      have p1 : PlainToks r1 := plain_rest hp (so.assign ts) h1
      simp only [] at h2
      split at h2
      · rename_i q
        obtain ⟨⟨o, r2⟩, h3, h4⟩ := bind_ok_iff.1 h2
        simp at h4
        obtain ⟨rfl, rfl⟩ := h4
        obtain ⟨w2, _⟩ := ih.ternary _ _ _ p1.2.2.2.2 h3
        exact ⟨⟨w1, w2, v1⟩, d1⟩
      · obtain ⟨⟨b, r2⟩, h3, h4⟩ := bind_ok_iff.1 h2
        obtain ⟨w2, _⟩ := ih.ternary _ _ _ p1.2.2 h3
        have p2 := plain_rest p1.2.2 (so.ternary _) h3
        simp only [] at h4
        split at h4
        · obtain ⟨⟨o, r4⟩, h5, h6⟩ := bind_ok_iff.1 h4
          simp at h6
          obtain ⟨rfl, rfl⟩ := h6
          obtain ⟨w3, _⟩ := ih.ternary _ _ _ p2.2.2 h5
          exact ⟨⟨w1, w2, w3, v1⟩, d1⟩
        · simp at h4
      · simp at h2
        obtain ⟨rfl, rfl⟩ := h2
        exact ⟨w1, d1⟩
    · intro ts e r hp h
      rw [assign] at h
      obtain ⟨⟨l, r1⟩, h1, h2⟩ := bind_ok_iff.1 h
      obtain ⟨w1, v1, d1⟩ := ih.prefixP ts l r1 hp h1
      have p1 : PlainToks r1 := plain_rest hp (so.prefixP ts) h1
      simp only [] at h2
      split at h2
      · obtain ⟨⟨x, r2⟩, h3, h4⟩ := bind_ok_iff.1 h2
        simp at h4
        obtain ⟨rfl, rfl⟩ := h4
        have pt : PlainToks r1.tail := by
          cases r1 with
          | nil => exact p1
          | cons t r1 => exact p1.2.2
        obtain ⟨w2, v2, _⟩ := ih.assign _ _ _ pt h3
        exact ⟨⟨w1, w2, v1, v2⟩, Nat.le_refl _, d1⟩
      · obtain ⟨w2, v2, d2, _⟩ := ih.binary l _ r1 e r p1 w1 (by omega) (fun _ _ _ _ _ _ => by omega) h2
        exact ⟨w2, by omega, by rw [d1, d2]⟩
    · intro l p ts e r hp hl hll hst h
      rw [binary.eq_def] at h
      simp only [] at h
      split at h
      · simp at h; obtain ⟨rfl, rfl⟩ := h; exact ⟨hl, hll, rfl, Or.inl rfl, fun _ _ _ h => by cases h⟩
      · rename_i t ts
        split at h
        · rename_i hm
          simp at h; obtain ⟨rfl, rfl⟩ := h
          exact ⟨hl, hll, rfl, Or.inl rfl, fun _ _ _ h _ hn => by cases h; exact absurd hm hn⟩
        · rename_i hm
          split at h
          · rename_i ho
            simp at h; obtain ⟨rfl, rfl⟩ := h
            exact ⟨hl, hll, rfl, Or.inl rfl, fun _ _ _ h h2 => by cases h; rw [ho] at h2; cases h2⟩
          · rename_i op ho
            split at h
            · rename_i hpp
              simp at h; obtain ⟨rfl, rfl⟩ := h
              exact ⟨hl, hll, rfl, Or.inl rfl, fun _ _ _ h h2 => by cases h; rw [ho] at h2; cases h2; intro _; exact hpp⟩
            · rename_i hpp
              split at h
              · rename_i hd
                obtain ⟨rfl, hd⟩ := hd
                cases ts with
                | nil => simp at hd
                | cons d ts =>
                  simp at hd
                  exact absurd hd hp.2.2.1
              · obtain ⟨⟨x, r1⟩, h1, h2⟩ := bind_ok_iff.1 h
                obtain ⟨⟨y, r2⟩, h3, h4⟩ := bind_ok_iff.1 h2
                obtain ⟨w1, v1, _⟩ := ih.prefixP _ _ _ hp.2.2 h1
                have p1 : PlainToks r1 := plain_rest hp.2.2 (so.prefixP ts) h1
                obtain ⟨w2, v2, _, g2, s2⟩ := ih.binary x _ r1 y r2 p1 w1 (by omega) (fun _ _ _ _ _ _ => by omega) h3
                obtain ⟨k, _, hk⟩ := so.prefixP _ _ _ h1
                have p2 : PlainToks r2 := plain_rest p1 (so.binary x k _ r1 (by simpa using hk)) h3
                have ht := prec_tier op
                have htl := tier_le op
                have htp : 0 < tier op := by cases op <;> decide
                have hlt := hst t ts op rfl ho hm
                have hw : Wf (.bin op l y) := ⟨hl, w2, hlt, by omega⟩
                obtain ⟨w3, v3, d3, g3, s3⟩ := ih.binary (.bin op l y) p r2 e r p2 hw htl
                  (fun t' q op' h5 h6 h7 => by
                    have := s2 t' q op' h5 h6 h7
                    have := prec_tier op'
                    simp only [level]
                    omega) h4
                refine ⟨w3, v3, d3, Or.inr ?_, s3⟩
                rcases g3 with g3 | g3
                · rw [g3]; simp only [level]; omega
                · exact g3
    · intro ts e r hp h
      rw [prefixP.eq_def] at h
      simp only [] at h
      split at h
      · rename_i v ts
        obtain ⟨rfl, rfl⟩ := literal_eq h
        exact ⟨trivial, rfl, rfl⟩
      · rename_i v ts
        exact absurd rfl (hp.2.1 rfl v)
      · rename_i n ts
        split at h
        · simp at h
        · simp at h; obtain ⟨rfl, rfl⟩ := h
          exact ⟨trivial, rfl, rfl⟩
      · simp at h
      · rename_i t ts n1 n2 _ _
        split at h
        · rename_i op ho
          obtain ⟨⟨x, r1⟩, h1, h2⟩ := bind_ok_iff.1 h
          simp at h2; obtain ⟨rfl, rfl⟩ := h2
          obtain ⟨w1, v1, d1⟩ := ih.prefixP _ _ _ hp.2.2 h1
          have ht := preTok_preOp ho
          refine ⟨⟨w1, v1, ?_⟩, rfl, by rw [ht]; rfl⟩
          have key : (op = .Minus ∨ op = .Plus) → (lead x).isInt = false := by
            intro hop
            apply not_int_of_ne
            intro v hv
            cases ts with
            | nil => simp at d1
            | cons t2 ts =>
              simp at d1
              rw [hv] at d1
              subst d1
              rcases hop with rfl | rfl
              · exact n1 v ts ht rfl
              · exact n2 v ts ht rfl
          unfold signed
          cases op <;> first | rfl | simp [key]
        · obtain ⟨⟨x, r1⟩, h1, h2⟩ := bind_ok_iff.1 h
          obtain ⟨w1, i1, e1, d1⟩ := ih.primary _ _ _ hp h1
          have p1 : PlainToks r1 := plain_rest hp (so.primary _) h1
          obtain ⟨w2, v2, d2⟩ := ih.postfix_ _ _ _ _ p1 w1 i1 e1 h2
          exact ⟨w2, v2, by rw [d1, d2]⟩
      · simp at h
    · intro l ts e r hp hl hi he h
      rw [postfix_.eq_def] at h
      simp only [] at h
      split at h
      any_goals simp at h; done
      · simp at h; obtain ⟨rfl, rfl⟩ := h; exact ⟨⟨hl, hi⟩, rfl, rfl⟩
      · simp at h; obtain ⟨rfl, rfl⟩ := h; exact ⟨⟨hl, hi⟩, rfl, rfl⟩
      · rename_i v ts
        obtain ⟨⟨x, r1⟩, h1, h2⟩ := bind_ok_iff.1 h
        obtain ⟨rfl, rfl⟩ := literal_eq h1
        exact ih.postfix_ (.memberInt l v) _ _ _ hp.2.2.2.2 ⟨hl, hi⟩ rfl (fun h => by cases h) h2
      · rename_i n ts
        obtain ⟨⟨x, r1⟩, h1, h2⟩ := bind_ok_iff.1 h
        obtain ⟨ms, hx, hst⟩ := parsePath_stop h1
        obtain ⟨_, _, hts⟩ := parsePath_eq h1
        have p1 : PlainToks r1 := plain_append (hts ▸ hp.2.2.2.2)
        subst hx
        have hne : endsInPath l = false := by
          cases hel : endsInPath l with
          | false => rfl
          | true => exact absurd rfl (he hel n ts)
        exact ih.postfix_ (.member l n ms) _ _ _ p1 ⟨hl, hi, hne⟩ rfl (fun _ => hst) h2
      · rename_i ts
        obtain ⟨⟨x, r1⟩, h1, h2⟩ := bind_ok_iff.1 h
        obtain ⟨w1, _⟩ := ih.expression _ _ _ hp.2.2 h1
        have p1 : PlainToks r1 := plain_rest hp.2.2 (so.expression _) h1
        simp only [] at h2
        split at h2
        · exact ih.postfix_ (.index l x) _ _ _ p1.2.2 ⟨hl, hi, w1⟩ rfl (fun h => by cases h) h2
        · simp at h2
      · rename_i ts
        obtain ⟨⟨as, r1⟩, h1, h2⟩ := bind_ok_iff.1 h
        have w1 := ih.args _ _ _ hp.2.2 h1
        obtain ⟨k1, hts, _⟩ := so.args _ _ _ h1
        have p1 : PlainToks (.sym .RParen :: r1) := plain_append (hts ▸ hp.2.2)
        exact ih.postfix_ (.call l as) _ _ _ p1.2.2 ⟨hl, hi, w1⟩ rfl (fun h => by cases h) h2
      · simp at h; obtain ⟨rfl, rfl⟩ := h; exact ⟨hl, level_post hi, rfl⟩
    · intro ts e r hp h
      rw [primary.eq_def] at h
      simp only [] at h
      split at h
      any_goals simp at h; done
      · rename_i v ts
        obtain ⟨⟨x, r1⟩, h1, h2⟩ := bind_ok_iff.1 h
        obtain ⟨rfl, rfl⟩ := literal_eq h1
        obtain ⟨rfl, rfl⟩ := cast_eq h2
        exact ⟨trivial, rfl, (fun h => nomatch h), rfl⟩
      · rename_i n ts
        obtain ⟨⟨x, r1⟩, h1, h2⟩ := bind_ok_iff.1 h
        obtain ⟨ms, rfl, hst⟩ := parsePath_stop h1
        simp only [] at h2
        split at h2
        · simp at h2
        · obtain ⟨rfl, rfl⟩ := cast_eq h2
          exact ⟨trivial, rfl, fun _ => hst, rfl⟩
      · rename_i ts
        split at h
        · simp at h
        · obtain ⟨⟨x, r1⟩, h1, h2⟩ := bind_ok_iff.1 h
          obtain ⟨w1, _⟩ := ih.expression _ _ _ hp.2.2 h1
          simp only [] at h2
          split at h2
          · obtain ⟨rfl, rfl⟩ := cast_eq h2
            exact ⟨w1, rfl, (fun h => nomatch h), rfl⟩
          · simp at h2
          · simp at h2
    · intro ts as r hp h
      rw [args.eq_def] at h
      simp only [] at h
      split at h
      · simp at h; obtain ⟨rfl, rfl⟩ := h; trivial
      · simp at h
      · rename_i t ts _
        obtain ⟨⟨x, r1⟩, h1, h2⟩ := bind_ok_iff.1 h
        have hp' : PlainToks (if t = .sym .Elipsis then ts else t :: ts) := by
          split
          · exact hp.2.2
          · exact hp
        obtain ⟨w1, d1⟩ := ih.expression _ _ _ hp' h1
        have p1 : PlainToks r1 := plain_rest hp' (so.expression _) h1
        have hlead : decide (t = .sym .Elipsis) = false → lead x ≠ .sym .Elipsis := by
          intro ht hx
          have ht' : t ≠ .sym .Elipsis := by simpa using ht
          rw [if_neg ht'] at d1
          simp at d1
          exact ht' (by rw [d1, hx])
        simp only [] at h2
        split at h2
        · obtain ⟨⟨as', r3⟩, h3, h4⟩ := bind_ok_iff.1 h2
          simp at h4; obtain ⟨rfl, rfl⟩ := h4
          exact ⟨w1, hlead, ih.args _ _ _ p1.2.2 h3⟩
        · obtain ⟨⟨as', r3⟩, h3, h4⟩ := bind_ok_iff.1 h2
          simp at h4; obtain ⟨rfl, rfl⟩ := h4
          exact ⟨w1, hlead, ih.args _ _ _ p1 h3⟩
        · simp at h2

end Verif.Parser
