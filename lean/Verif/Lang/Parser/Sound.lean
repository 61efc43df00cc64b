import Verif.Lang.Parser.Lemmas
/-! # The parser ends on every token list, and the tree has the tokens that were read -/
namespace Verif.Parser
open Lexer (Sym)

/-! ## Termination -/

/-- The outcome is not a lack of fuel, and a value leaves fewer than `n` tokens. -/
def Fin {β : Type} (n : Nat) (o : Out (β × List Tok)) : Prop :=
  o ≠ .fuel ∧ ∀ e r, o = .ok (e, r) → r.length < n

theorem Fin.bind {β γ : Type} {n m : Nat} {o : Out (β × List Tok)} {K : β × List Tok → Out (γ × List Tok)} (h : Fin n o)
    (hK : ∀ e r, r.length < n → Fin m (K (e, r))) : Fin m (o.bind K) := by
  cases o with
  | ok b => exact hK b.1 b.2 (h.2 b.1 b.2 rfl)
  | fuel => exact absurd rfl h.1
  | error => exact ⟨by simp [Out.bind], by simp [Out.bind]⟩
  | outside => exact ⟨by simp [Out.bind], by simp [Out.bind]⟩

theorem Fin.ok {β : Type} {n : Nat} {e : β} {r : List Tok} (h : r.length < n) : Fin n (.ok (e, r)) :=
  ⟨by simp, fun _ _ h' => by injection h' with h'; injection h' with _ h'; rw [← h']; exact h⟩

theorem Fin.error {β : Type} {n : Nat} : Fin n (.error : Out (β × List Tok)) := ⟨by simp, by simp⟩
theorem Fin.outside {β : Type} {n : Nat} : Fin n (.outside : Out (β × List Tok)) := ⟨by simp, by simp⟩

theorem Fin.mono {β : Type} {n m : Nat} {o : Out (β × List Tok)} (h : Fin n o) (hnm : n ≤ m) : Fin m o :=
  ⟨h.1, fun e r hr => Nat.lt_of_lt_of_le (h.2 e r hr) hnm⟩

theorem fin_literal {n : Nat} {e : Expr} {ts : List Tok} (h : ts.length < n) : Fin n (literal e ts) := by
  unfold literal; split
  · exact .outside
  · exact .ok h

theorem fin_cast {n : Nat} {e : Expr} {ts : List Tok} (h : ts.length < n) : Fin n (cast e ts) := by
  unfold cast; split <;> first | exact .outside | exact .ok h

theorem pathRest_length : ∀ (k : Nat) (ts : List Tok), ts.length ≤ k → (pathRest ts).2.length ≤ ts.length
  | 0, ts, h => by
    have : ts = [] := List.length_eq_zero_iff.1 (by omega)
    subst this; simp [pathRest]
  | k + 1, ts, h => by
    unfold pathRest
    split
    · rename_i n r
      have := pathRest_length k r (by simp at h; omega)
      simp; omega
    · exact Nat.le_refl _

theorem fin_parsePath {n : Nat} {mk : List Nat → Expr} {ts : List Tok} (h : ts.length < n) : Fin n (parsePath mk ts) := by
  unfold parsePath
  have := pathRest_length _ ts (Nat.le_refl _)
  split
  · exact .outside
  · split
    · exact .outside
    · exact .ok (by omega)

structure Ends (f : Nat) : Prop where
  expression : ∀ ts, 8 * ts.length + 5 ≤ f → Fin ts.length (expression f ts)
  ternary : ∀ ts, 8 * ts.length + 4 ≤ f → Fin ts.length (ternary f ts)
  assign : ∀ ts, 8 * ts.length + 3 ≤ f → Fin ts.length (assign f ts)
  binary : ∀ e p ts, 8 * ts.length + 1 ≤ f → Fin (ts.length + 1) (binary f e p ts)
  prefixP : ∀ ts, 8 * ts.length + 2 ≤ f → Fin ts.length (prefixP f ts)
  postfix_ : ∀ e ts, 8 * ts.length + 1 ≤ f → Fin (ts.length + 1) (postfix_ f e ts)
  primary : ∀ ts, 8 * ts.length + 1 ≤ f → Fin ts.length (primary f ts)
  args : ∀ ts, 8 * ts.length + 6 ≤ f → Fin ts.length (args f ts)

theorem ends : ∀ f, Ends f
  | 0 => by
    constructor <;> (intros; omega)
  | f + 1 => by
    have ih := ends f
    constructor
    · intro ts h
      rw [expression.eq_def]
      simp only []
      split
      · exact .outside
      · exact ih.ternary ts (by omega)
    · intro ts h
      rw [ternary]
      refine (ih.assign ts (by omega)).bind fun c r hr => ?_
      simp only []
      split
      · refine (ih.ternary _ (by simp at hr; omega)).bind fun o r2 h2 => .ok ?_
        simp at hr; dsimp only; omega
      · refine (ih.ternary _ (by simp at hr; omega)).bind fun b r2 h2 => ?_
        simp only []
        split
        · simp at hr h2
          refine (ih.ternary _ (by omega)).bind fun o r4 h4 => .ok (by dsimp only; omega)
        · exact .error
      · exact .ok hr
    · intro ts h
      rw [assign]
      refine (ih.prefixP ts (by omega)).bind fun l r hr => ?_
      simp only []
      split
      · have : r.tail.length ≤ r.length := by simp
        refine (ih.assign _ (by omega)).bind fun x r1 h1 => .ok (by dsimp only; omega)
      · exact (ih.binary l maxPrec r (by omega)).mono (by omega)
    · intro e p ts h
      rw [binary.eq_def]
      simp only []
      split
      · exact .ok (by simp)
      · rename_i t r
        simp at h
        split
        · exact .ok (by simp)
        · split
          · exact .ok (by simp)
          · rename_i op _
            split
            · exact .ok (by simp)
            · split
              · have : r.tail.length ≤ r.length := by simp
                exact (ih.binary _ p r.tail (by omega)).mono (by simp; omega)
              · refine (ih.prefixP r (by omega)).bind fun x r1 h1 => ?_
                refine (ih.binary x (prec op) r1 (by omega)).bind fun rhs r2 h2 => ?_
                exact (ih.binary _ p r2 (by omega)).mono (by simp; omega)
    · intro ts h
      rw [prefixP.eq_def]
      simp only []
      split
      · exact fin_literal (by simp; omega)
      · exact fin_literal (by simp; omega)
      · split
        · exact .outside
        · exact .ok (by simp; omega)
      · exact .outside
      · rename_i t r _ _ _ _
        simp at h
        split
        · exact (ih.prefixP r (by omega)).bind fun e r1 h1 => .ok (by simp; omega)
        · refine (ih.primary (t :: r) (by simp; omega)).bind fun e r1 h1 => ?_
          simp at h1
          exact (ih.postfix_ e r1 (by omega)).mono (by simp; omega)
      · exact .error
    · intro e ts h
      rw [postfix_.eq_def]
      simp only []
      split
      any_goals first | exact .outside | exact .error | exact .ok (by simp only [List.length_cons] at *; omega) | exact .ok (by omega)
      · rename_i v r
        simp at h
        refine (fin_literal (n := r.length + 1) (by omega)).bind fun e1 r1 h1 => ?_
        exact (ih.postfix_ e1 r1 (by omega)).mono (by simp; omega)
      · rename_i v r
        simp at h
        refine (fin_parsePath (n := r.length + 1) (by omega)).bind fun e1 r1 h1 => ?_
        exact (ih.postfix_ e1 r1 (by omega)).mono (by simp; omega)
      · rename_i r
        simp at h
        refine (ih.expression r (by omega)).bind fun i r1 h1 => ?_
        simp only []
        split
        · rename_i r2
          simp at h1
          exact (ih.postfix_ _ r2 (by omega)).mono (by simp; omega)
        · exact .error
      · rename_i r
        simp at h
        refine (ih.args r (by omega)).bind fun as r1 h1 => ?_
        exact (ih.postfix_ _ r1 (by omega)).mono (by simp; omega)
    · intro ts h
      rw [primary.eq_def]
      simp only []
      split
      any_goals first | exact .outside | exact .error
      · rename_i v r
        exact (fin_literal (n := r.length + 1) (by omega)).bind fun e r1 h1 => fin_cast (by simp; omega)
      · rename_i v r
        refine (fin_parsePath (n := r.length + 1) (by omega)).bind fun e r1 h1 => ?_
        simp only []
        split
        · exact .outside
        · exact fin_cast (by simp; omega)
      · rename_i r
        simp at h
        split
        · exact .outside
        · refine (ih.expression r (by omega)).bind fun e r1 h1 => ?_
          simp only []
          split
          · simp at h1; exact fin_cast (by simp; omega)
          · exact .outside
          · exact .error
    · intro ts h
      rw [args.eq_def]
      simp only []
      split
      · exact .ok (by simp)
      · exact .error
      · rename_i t r _
        simp at h
        refine (ih.expression (if t = .sym .Elipsis then r else t :: r) (by split <;> (try simp only [List.length_cons]) <;> omega)).bind fun e r1 h1 => ?_
        have h2 : r1.length < (t :: r).length := by
          refine Nat.lt_of_lt_of_le h1 ?_
          split <;> simp
        simp only [List.length_cons] at h2
        simp only []
        split
        · simp at h2
          refine (ih.args _ (by omega)).bind fun as r3 h3 => .ok (by simp; omega)
        · simp only [List.length_cons] at h2
          refine (ih.args _ (by simp; omega)).bind fun as r3 h3 => .ok (by simp at *; omega)
        · exact .error

/-! ## Soundness -/

mutual
/-- The token strings of a tree: those of `print`, or with a plus sign before a number, or with a comma
after the last argument. -/
inductive Spells : Expr → List Tok → Prop where
  | path (n ms) : Spells (.path n ms) (.ident n :: dots ms)
  | int (v) : Spells (.int v) [.int v]
  | plus (v) : Spells (.int v) [.sym .Plus, .int v]
  | neg (v) : Spells (.neg v) [.sym .Minus, .int v]
  | dotName (n) : Spells (.dotName n) [.sym .Dot, .ident n]
  | group {e c} : Spells e c → Spells (.group e) (.sym .LParen :: (c ++ [.sym .RParen]))
  | member {e c} (n ms) : Spells e c → Spells (.member e n ms) (c ++ .sym .Dot :: .ident n :: dots ms)
  | memberInt {e c} (v) : Spells e c → Spells (.memberInt e v) (c ++ [.sym .Dot, .int v])
  | index {e i c d} : Spells e c → Spells i d → Spells (.index e i) (c ++ .sym .IndexExpr :: (d ++ [.sym .RBracket]))
  | call {e as c d} : Spells e c → SpellsArgs as d → Spells (.call e as) (c ++ .sym .LParen :: (d ++ [.sym .RParen]))
  | post {e c} (op) : Spells e c → Spells (.post op e) (c ++ [postTok op])
  | pre {e c} (op) : Spells e c → Spells (.pre op e) (preTok op :: c)
  | bin {l r c d} (op) : Spells l c → Spells r d → Spells (.bin op l r) (c ++ binTok op :: d)
  | catchDiscard {l c} : Spells l c → Spells (.catchDiscard l) (c ++ [.kw .catch, .kw .discard])
  | assign {l r c d} (op) : Spells l c → Spells r d → Spells (.assign op l r) (c ++ asgTok op :: d)
  | ternary {x b o c d k} : Spells x c → Spells b d → Spells o k →
      Spells (.ternary x b o) (c ++ .sym .Question :: (d ++ .sym .Colon :: k))
  | elvis {x o c k} : Spells x c → Spells o k → Spells (.elvis x o) (c ++ .sym .Question :: .sym .Colon :: k)
inductive SpellsArgs : Args → List Tok → Prop where
  | nil : SpellsArgs .nil []
  | last {e c} (s) : Spells e c → SpellsArgs (.cons s e .nil) (spreadTok s ++ c)
  | cons {e c as d} (s) : Spells e c → SpellsArgs as d →
      SpellsArgs (.cons s e as) (spreadTok s ++ (c ++ .sym .Comma :: d))
end

/-- On success the tokens read, after the tokens `pre` read before, spell the tree. -/
def Sound (pre ts : List Tok) (o : Out (Expr × List Tok)) : Prop :=
  ∀ e r, o = .ok (e, r) → ∃ c, ts = c ++ r ∧ Spells e (pre ++ c)

theorem bind_ok_iff {β γ : Type} {o : Out β} {K : β → Out γ} {v : γ} :
    o.bind K = .ok v ↔ ∃ a, o = .ok a ∧ K a = .ok v := by
  cases o <;> simp [Out.bind]

theorem literal_eq {e e' : Expr} {ts r : List Tok} (h : literal e ts = .ok (e', r)) : e' = e ∧ r = ts := by
  unfold literal at h
  split at h
  · simp at h
  · simp at h; exact ⟨h.1.symm, h.2.symm⟩

theorem cast_eq {e e' : Expr} {ts r : List Tok} (h : cast e ts = .ok (e', r)) : e' = e ∧ r = ts := by
  unfold cast at h
  split at h
  · simp at h
  · simp at h
  · simp at h
  · simp at h; exact ⟨h.1.symm, h.2.symm⟩

theorem pathRest_eq : ∀ (k : Nat) (ts : List Tok), ts.length ≤ k → ts = dots (pathRest ts).1 ++ (pathRest ts).2
  | 0, ts, h => by
    have : ts = [] := List.length_eq_zero_iff.1 (by omega)
    subst this; simp [pathRest, dots]
  | k + 1, ts, h => by
    unfold pathRest
    split
    · rename_i n r
      have := pathRest_eq k r (by simp at h; omega)
      simp [dots, ← this]
    · simp [dots]

theorem parsePath_eq {mk : List Nat → Expr} {e : Expr} {ts r : List Tok} (h : parsePath mk ts = .ok (e, r)) :
    ∃ ms, e = mk ms ∧ ts = dots ms ++ r := by
  unfold parsePath at h
  split at h
  · simp at h
  · split at h
    · simp at h
    · simp at h
      refine ⟨(pathRest ts).1, h.1.symm, ?_⟩
      rw [← h.2]
      exact pathRest_eq _ ts (Nat.le_refl _)

structure Sounds (f : Nat) : Prop where
  expression : ∀ ts, Sound [] ts (expression f ts)
  ternary : ∀ ts, Sound [] ts (ternary f ts)
  assign : ∀ ts, Sound [] ts (assign f ts)
  binary : ∀ e c p ts, Spells e c → Sound c ts (binary f e p ts)
  prefixP : ∀ ts, Sound [] ts (prefixP f ts)
  postfix_ : ∀ e c ts, Spells e c → Sound c ts (postfix_ f e ts)
  primary : ∀ ts, Sound [] ts (primary f ts)
  args : ∀ ts as r, args f ts = .ok (as, r) → ∃ c, ts = c ++ .sym .RParen :: r ∧ SpellsArgs as c

theorem binTok_binOp {t : Tok} {op : BinOp} (h : binOp t = some op) : t = binTok op := by
  unfold binOp at h
  split at h <;> first | (injection h with h; subst h; rfl) | simp at h

theorem asgTok_asgOp {t : Tok} {op : AsgOp} (h : asgOp t = some op) : t = asgTok op := by
  unfold asgOp at h
  split at h <;> first | (injection h with h; subst h; rfl) | simp at h

theorem preTok_preOp {t : Tok} {op : PreOp} (h : preOp t = some op) : t = preTok op := by
  unfold preOp at h
  split at h <;> first | (injection h with h; subst h; rfl) | simp at h

theorem sounds : ∀ f, Sounds f
  | 0 => by
    constructor <;> (intros; first | (intro e r h; simp [expression, ternary, assign, binary, prefixP, postfix_, primary] at h) | simp_all [args])
  | f + 1 => by
    have ih := sounds f
    constructor
    · intro ts e r h
      rw [expression.eq_def] at h
      simp only [] at h
      split at h
      · simp at h
      · exact ih.ternary ts e r h
    · intro ts e r h
      rw [ternary] at h
      obtain ⟨⟨c, r1⟩, h1, h2⟩ := bind_ok_iff.1 h
      obtain ⟨k, rfl, hk⟩ := ih.assign ts c r1 h1
      simp only [] at h2
      split at h2
      · obtain ⟨⟨o, r2⟩, h3, h4⟩ := bind_ok_iff.1 h2
        simp at h4
        obtain ⟨rfl, rfl⟩ := h4
        obtain ⟨k2, rfl, hk2⟩ := ih.ternary _ _ _ h3
        exact ⟨k ++ .sym .Question :: .sym .Colon :: k2, by simp, .elvis hk hk2⟩
      · obtain ⟨⟨b, r2⟩, h3, h4⟩ := bind_ok_iff.1 h2
        obtain ⟨k2, rfl, hk2⟩ := ih.ternary _ _ _ h3
        simp only [] at h4
        split at h4
        · obtain ⟨⟨o, r4⟩, h5, h6⟩ := bind_ok_iff.1 h4
          simp at h6
          obtain ⟨rfl, rfl⟩ := h6
          obtain ⟨k3, rfl, hk3⟩ := ih.ternary _ _ _ h5
          exact ⟨k ++ .sym .Question :: (k2 ++ .sym .Colon :: k3), by simp, .ternary hk hk2 hk3⟩
        · simp at h4
      · simp at h2
        obtain ⟨rfl, rfl⟩ := h2
        exact ⟨k, rfl, hk⟩
    · intro ts e r h
      rw [assign] at h
      obtain ⟨⟨l, r1⟩, h1, h2⟩ := bind_ok_iff.1 h
      obtain ⟨k, rfl, hk⟩ := ih.prefixP ts l r1 h1
      simp only [] at h2
      split at h2
      · rename_i op ho
        cases r1 with
        | nil => simp at ho
        | cons t r1 =>
          simp at ho
          obtain ⟨⟨x, r2⟩, h3, h4⟩ := bind_ok_iff.1 h2
          simp at h4
          obtain ⟨rfl, rfl⟩ := h4
          obtain ⟨k2, h5, hk2⟩ := ih.assign _ _ _ h3
          simp at h5
          subst h5
          rw [asgTok_asgOp ho]
          exact ⟨k ++ asgTok op :: k2, by simp, .assign op hk hk2⟩
      · obtain ⟨k2, rfl, hk2⟩ := ih.binary l _ _ _ hk e r h2
        exact ⟨k ++ k2, by simp, hk2⟩
    · intro l c p ts hl e r h
      rw [binary.eq_def] at h
      simp only [] at h
      split at h
      · simp at h; obtain ⟨rfl, rfl⟩ := h; exact ⟨[], rfl, by simpa using hl⟩
      · rename_i t ts
        split at h
        · simp at h; obtain ⟨rfl, rfl⟩ := h; exact ⟨[], rfl, by simpa using hl⟩
        · split at h
          · simp at h; obtain ⟨rfl, rfl⟩ := h; exact ⟨[], rfl, by simpa using hl⟩
          · rename_i op ho
            split at h
            · simp at h; obtain ⟨rfl, rfl⟩ := h; exact ⟨[], rfl, by simpa using hl⟩
            · split at h
              · rename_i hd
                obtain ⟨rfl, hd⟩ := hd
                cases ts with
                | nil => simp at hd
                | cons d ts =>
                  simp at hd
                  subst hd
                  obtain ⟨k, hk1, hk⟩ := ih.binary _ _ _ _ (.catchDiscard hl) e r h
                  simp at hk1
                  subst hk1
                  rw [binTok_binOp ho]
                  exact ⟨.kw .catch :: .kw .discard :: k, by simp [binTok], by simpa using hk⟩
              · obtain ⟨⟨x, r1⟩, h1, h2⟩ := bind_ok_iff.1 h
                obtain ⟨⟨y, r2⟩, h3, h4⟩ := bind_ok_iff.1 h2
                obtain ⟨k1, rfl, hk1⟩ := ih.prefixP _ _ _ h1
                obtain ⟨k2, rfl, hk2⟩ := ih.binary _ _ _ _ hk1 _ _ h3
                obtain ⟨k3, rfl, hk3⟩ := ih.binary _ _ _ _ (.bin op hl hk2) _ _ h4
                rw [binTok_binOp ho]
                exact ⟨binTok op :: (k1 ++ (k2 ++ k3)), by simp, by simpa using hk3⟩
    · intro ts e r h
      rw [prefixP.eq_def] at h
      simp only [] at h
      split at h
      · rename_i v ts
        obtain ⟨rfl, rfl⟩ := literal_eq h
        exact ⟨[.sym .Minus, .int v], rfl, .neg v⟩
      · rename_i v ts
        obtain ⟨rfl, rfl⟩ := literal_eq h
        exact ⟨[.sym .Plus, .int v], rfl, .plus v⟩
      · rename_i n ts
        split at h
        · simp at h
        · simp at h; obtain ⟨rfl, rfl⟩ := h
          exact ⟨[.sym .Dot, .ident n], rfl, .dotName n⟩
      · simp at h
      · rename_i t ts _ _ _ _
        split at h
        · rename_i op ho
          obtain ⟨⟨x, r1⟩, h1, h2⟩ := bind_ok_iff.1 h
          simp at h2; obtain ⟨rfl, rfl⟩ := h2
          obtain ⟨k, rfl, hk⟩ := ih.prefixP _ _ _ h1
          rw [preTok_preOp ho]
          exact ⟨preTok op :: k, rfl, .pre op hk⟩
        · obtain ⟨⟨x, r1⟩, h1, h2⟩ := bind_ok_iff.1 h
          obtain ⟨k, hk1, hk⟩ := ih.primary _ _ _ h1
          obtain ⟨k2, rfl, hk2⟩ := ih.postfix_ _ _ _ hk _ _ h2
          exact ⟨k ++ k2, by simp [hk1], by simpa using hk2⟩
      · simp at h
    · intro l c ts hl e r h
      rw [postfix_.eq_def] at h
      simp only [] at h
      split at h
      any_goals simp at h; done
      · simp at h; obtain ⟨rfl, rfl⟩ := h; exact ⟨[.sym .PlusPlus], rfl, .post .PostInc hl⟩
      · simp at h; obtain ⟨rfl, rfl⟩ := h; exact ⟨[.sym .MinusMinus], rfl, .post .PostDec hl⟩
      · rename_i v ts
        obtain ⟨⟨x, r1⟩, h1, h2⟩ := bind_ok_iff.1 h
        obtain ⟨rfl, rfl⟩ := literal_eq h1
        obtain ⟨k, rfl, hk⟩ := ih.postfix_ _ _ _ (.memberInt v hl) _ _ h2
        exact ⟨.sym .Dot :: .int v :: k, by simp, by simpa using hk⟩
      · rename_i n ts
        obtain ⟨⟨x, r1⟩, h1, h2⟩ := bind_ok_iff.1 h
        obtain ⟨ms, rfl, rfl⟩ := parsePath_eq h1
        obtain ⟨k, rfl, hk⟩ := ih.postfix_ _ _ _ (.member n ms hl) _ _ h2
        exact ⟨.sym .Dot :: .ident n :: (dots ms ++ k), by simp, by simpa using hk⟩
      · rename_i ts
        obtain ⟨⟨x, r1⟩, h1, h2⟩ := bind_ok_iff.1 h
        obtain ⟨k1, rfl, hk1⟩ := ih.expression _ _ _ h1
        simp only [] at h2
        split at h2
        · obtain ⟨k, rfl, hk⟩ := ih.postfix_ _ _ _ (.index hl hk1) _ _ h2
          exact ⟨.sym .IndexExpr :: (k1 ++ .sym .RBracket :: k), by simp, by simpa using hk⟩
        · simp at h2
      · rename_i ts
        obtain ⟨⟨as, r1⟩, h1, h2⟩ := bind_ok_iff.1 h
        obtain ⟨k1, rfl, hk1⟩ := ih.args _ _ _ h1
        obtain ⟨k, rfl, hk⟩ := ih.postfix_ _ _ _ (.call hl hk1) _ _ h2
        exact ⟨.sym .LParen :: (k1 ++ .sym .RParen :: k), by simp, by simpa using hk⟩
      · simp at h; obtain ⟨rfl, rfl⟩ := h; exact ⟨[], rfl, by simpa using hl⟩
    · intro ts e r h
      rw [primary.eq_def] at h
      simp only [] at h
      split at h
      any_goals simp at h; done
      · rename_i v ts
        obtain ⟨⟨x, r1⟩, h1, h2⟩ := bind_ok_iff.1 h
        obtain ⟨rfl, rfl⟩ := literal_eq h1
        obtain ⟨rfl, rfl⟩ := cast_eq h2
        exact ⟨[.int v], rfl, .int v⟩
      · rename_i n ts
        obtain ⟨⟨x, r1⟩, h1, h2⟩ := bind_ok_iff.1 h
        obtain ⟨ms, rfl, rfl⟩ := parsePath_eq h1
        simp only [] at h2
        split at h2
        · simp at h2
        · obtain ⟨rfl, rfl⟩ := cast_eq h2
          exact ⟨.ident n :: dots ms, rfl, .path n ms⟩
      · rename_i ts
        split at h
        · simp at h
        · obtain ⟨⟨x, r1⟩, h1, h2⟩ := bind_ok_iff.1 h
          obtain ⟨k1, rfl, hk1⟩ := ih.expression _ _ _ h1
          simp only [] at h2
          split at h2
          · obtain ⟨rfl, rfl⟩ := cast_eq h2
            exact ⟨Tok.sym Sym.LParen :: (k1 ++ [Tok.sym Sym.RParen]), by simp, Spells.group (c := k1) hk1⟩
          · simp at h2
          · simp at h2
    · intro ts as r h
      rw [args.eq_def] at h
      simp only [] at h
      split at h
      · simp at h; obtain ⟨rfl, rfl⟩ := h; exact ⟨[], rfl, .nil⟩
      · simp at h
      · rename_i t ts _
        obtain ⟨⟨x, r1⟩, h1, h2⟩ := bind_ok_iff.1 h
        obtain ⟨k1, hk0, hk1⟩ := ih.expression _ _ _ h1
        have hts : t :: ts = spreadTok (decide (t = .sym .Elipsis)) ++ (k1 ++ r1) := by
          by_cases ht : t = .sym .Elipsis
          · subst ht; simp at hk0; simp [spreadTok, hk0]
          · rw [if_neg ht] at hk0; simp [spreadTok, ht, hk0]
        simp only [] at h2
        split at h2
        · rename_i r2
          obtain ⟨⟨as', r3⟩, h3, h4⟩ := bind_ok_iff.1 h2
          simp at h4; obtain ⟨rfl, rfl⟩ := h4
          obtain ⟨k2, rfl, hk2⟩ := ih.args _ _ _ h3
          exact ⟨_, by rw [hts]; simp [List.append_assoc], .cons _ hk1 hk2⟩
        · rename_i r2
          obtain ⟨⟨as', r3⟩, h3, h4⟩ := bind_ok_iff.1 h2
          simp at h4; obtain ⟨rfl, rfl⟩ := h4
          have : as' = .nil ∧ r3 = r2 := by
            cases f with
            | zero => simp [args] at h3
            | succ f => simp [args] at h3; exact ⟨h3.1.symm, h3.2.symm⟩
          obtain ⟨rfl, rfl⟩ := this
          exact ⟨_, by rw [hts]; simp [List.append_assoc], .last _ hk1⟩
        · simp at h2

end Verif.Parser
