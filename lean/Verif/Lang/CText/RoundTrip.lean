import Verif.Lang.CText.Model
/-!
# The C text of an expression is read as the same expression

Expressions that need no parentheses in C (`Ok`), with their tokens, and the proof that the reader gets the tree back.
-/
namespace Verif.CText

open Verif.Parser (BinOp AsgOp PostOp)

/-- The production of C an expression belongs to: 0 postfix, 1 unary and cast, 5–14 binary, 15 conditional, 16 assignment. -/
def level : E → Nat
  | .id _ | .num _ | .group _ | .member .. | .index .. | .post .. => 0
  | .neg _ | .pre .. | .cast .. => 1
  | .bin op _ _ => (cPrec op).getD 17
  | .ternary .. | .elvis .. => 15
  | .assign .. => 16

/-- The first character of the operand does not join the operator's. -/
def Apart : PreOp → E → Prop
  | .minus, e => (text e).head? ≠ some .minus
  | .plus, e => (text e).head? ≠ some .plus
  | .ref, e => (text e).head? ≠ some .amp
  | _, _ => True

/-- Each operand belongs to the production its place asks for. -/
def Ok : E → Prop
  | .id _ => True
  | .num _ => True
  | .neg _ => True
  | .group e => Ok e
  | .member e _ => Ok e ∧ level e = 0
  | .index e i => Ok e ∧ level e = 0 ∧ Ok i
  | .post _ e => Ok e ∧ level e = 0
  | .pre op e => Ok e ∧ level e ≤ 1 ∧ Apart op e
  | .cast _ e => Ok e ∧ level e ≤ 1
  | .bin op l r => Ok l ∧ Ok r ∧ ∃ q, cPrec op = some q ∧ level l ≤ q ∧ level r < q
  | .ternary c b o => Ok c ∧ Ok b ∧ Ok o ∧ level c ≤ 14 ∧ level o ≤ 15
  | .elvis c o => Ok c ∧ Ok o ∧ level c ≤ 14 ∧ level o ≤ 15
  | .assign _ l r => Ok l ∧ Ok r ∧ level l ≤ 1 ∧ l.unary = true

def preTok : PreOp → Tok
  | .dec => .dec
  | .inc => .inc
  | .minus => .bin .Sub
  | .plus => .bin .Add
  | .not => .bang
  | .compl => .tilde
  | .ref => .bin .BAnd

def postTok : PostOp → Tok
  | .PostDec => .dec
  | .PostInc => .inc

def toks : E → List Tok
  | .id n => [.id n]
  | .num v => [.num v]
  | .neg v => [.bin .Sub, .num v]
  | .group e => .lpar :: toks e ++ [.rpar]
  | .member e n => toks e ++ [.dot, .id n]
  | .index e i => toks e ++ .lbr :: toks i ++ [.rbr]
  | .post op e => toks e ++ [postTok op]
  | .pre op e => preTok op :: toks e
  | .cast t e => .lpar :: .ty t :: .rpar :: toks e
  | .bin op l r => toks l ++ .bin op :: toks r
  | .ternary c b o => toks c ++ .quest :: toks b ++ .colon :: toks o
  | .elvis c o => toks c ++ .quest :: .colon :: toks o
  | .assign op l r => toks l ++ .asg op :: toks r

theorem text_ne (e : E) : text e ≠ [] := by
  cases e <;> simp [text]
  case pre op e => cases op <;> simp [preText]

theorem lex_minus (r : List Ch) (h : r.head? ≠ some .minus) : lex (.minus :: r) = .bin .Sub :: lex r := by
  cases r with
  | nil => rfl
  | cons c r => cases c <;> first | rfl | simp at h

theorem lex_plus (r : List Ch) (h : r.head? ≠ some .plus) : lex (.plus :: r) = .bin .Add :: lex r := by
  cases r with
  | nil => rfl
  | cons c r => cases c <;> first | rfl | simp at h

theorem lex_amp (r : List Ch) (h : r.head? ≠ some .amp) : lex (.amp :: r) = .bin .BAnd :: lex r := by
  cases r with
  | nil => rfl
  | cons c r => cases c <;> first | rfl | simp at h

theorem head_append (e : E) (m : List Ch) : (text e ++ m).head? = (text e).head? := by
  cases h : text e with
  | nil => exact absurd h (text_ne e)
  | cons c r => rfl

/-- The tokens of the text. -/
theorem lex_text (e : E) : Ok e → ∀ m, lex (text e ++ m) = toks e ++ lex m := by
  induction e with
  | id n => intro _ m; rfl
  | num n => intro _ m; rfl
  | neg n => intro _ m; rfl
  | group e ih =>
    intro h m
    have := ih h (.rpar :: m)
    simp [text, toks, lex, this]
  | member e n ih =>
    intro h m
    have := ih h.1 (.dot :: .id n :: m)
    simp [text, toks, lex, this]
  | index e i ih1 ih2 =>
    intro h m
    have h1 := ih1 h.1 (.lbr :: (text i ++ .rbr :: m))
    have h2 := ih2 h.2.2 (.rbr :: m)
    simp [text, toks, lex, h1, h2]
  | post op e ih =>
    intro h m
    have := ih h.1 (.post op :: m)
    cases op <;> simp [text, toks, lex, this, postTok]
  | pre op e ih =>
    intro h m
    have h1 := ih h.1 m
    have h2 := head_append e m
    obtain ⟨_, _, ha⟩ := h
    cases op <;> simp only [text, toks, preText, preTok, List.cons_append, List.nil_append]
    · simp [lex, h1]
    · simp [lex, h1]
    · rw [lex_minus _ (by rw [h2]; exact ha), h1]
    · rw [lex_plus _ (by rw [h2]; exact ha), h1]
    · simp [lex, h1]
    · simp [lex, h1]
    · rw [lex_amp _ (by rw [h2]; exact ha), h1]
  | cast t e ih =>
    intro h m
    have := ih h.1 m
    simp [text, toks, lex, this]
  | bin op l r ih1 ih2 =>
    intro h m
    have h1 := ih1 h.1 (.blank :: .bin op :: .blank :: (text r ++ m))
    have h2 := ih2 h.2.1 m
    simp [text, toks, lex, h1, h2]
  | ternary c b o ih1 ih2 ih3 =>
    intro h m
    have h1 := ih1 h.1 (.quest :: .blank :: (text b ++ .colon :: .blank :: (text o ++ m)))
    have h2 := ih2 h.2.1 (.colon :: .blank :: (text o ++ m))
    have h3 := ih3 h.2.2.1 m
    simp [text, toks, lex, h1, h2, h3]
  | elvis c o ih1 ih3 =>
    intro h m
    have h1 := ih1 h.1 (.quest :: .colon :: .blank :: (text o ++ m))
    have h3 := ih3 h.2.1 m
    simp [text, toks, lex, h1, h3]
  | assign op l r ih1 ih2 =>
    intro h m
    have h1 := ih1 h.1 (.blank :: .asg op :: .blank :: (text r ++ m))
    have h2 := ih2 h.2.1 m
    simp [text, toks, lex, h1, h2]

/-! ## What may follow -/

def StopP : List Tok → Prop
  | .dot :: _ | .lbr :: _ | .dec :: _ | .inc :: _ => False
  | _ => True

def StopB (lv : Nat) : List Tok → Prop
  | .bin op :: _ => ∃ q, cPrec op = some q ∧ lv ≤ q
  | .dot :: _ | .lbr :: _ | .dec :: _ | .inc :: _ => False
  | _ => True

def StopC : List Tok → Prop
  | .bin _ :: _ | .quest :: _ | .dot :: _ | .lbr :: _ | .dec :: _ | .inc :: _ => False
  | _ => True

def StopA : List Tok → Prop
  | .asg _ :: _ | .bin _ :: _ | .quest :: _ | .dot :: _ | .lbr :: _ | .dec :: _ | .inc :: _ => False
  | _ => True

theorem StopB.p {lv ts} (h : StopB lv ts) : StopP ts := by
  cases ts with
  | nil => trivial
  | cons t r => cases t <;> simp_all [StopB, StopP]

theorem StopB.mono {a b ts} (h : StopB b ts) (hab : a ≤ b) : StopB a ts := by
  cases ts with
  | nil => trivial
  | cons t r =>
    cases t <;> simp_all [StopB]
    obtain ⟨q, h1, h2⟩ := h
    exact ⟨q, h1, by omega⟩

theorem StopC.b {ts} (h : StopC ts) (lv : Nat) : StopB lv ts := by
  cases ts with
  | nil => trivial
  | cons t r => cases t <;> simp_all [StopB, StopC]

theorem StopA.c {ts} (h : StopA ts) : StopC ts := by
  cases ts with
  | nil => trivial
  | cons t r => cases t <;> simp_all [StopA, StopC]

/-- With enough fuel. -/
def Ev (F : Nat → Got) (g : Got) : Prop := ∃ N, ∀ f, N ≤ f → F f = g

theorem Ev.step {F G : Nat → Got} {g : Got} (h : Ev G g) (hs : ∀ f, F (f + 1) = G f) : Ev F g := by
  obtain ⟨N, h⟩ := h
  refine ⟨N + 1, fun f hf => ?_⟩
  obtain ⟨k, rfl⟩ : ∃ k, f = k + 1 := ⟨f - 1, by omega⟩
  rw [hs]; exact h k (by omega)

theorem Ev.bind {F : Nat → Got} {K : Nat → E → List Tok → Got} {e : E} {r : List Tok} {g : Got}
    (h : Ev F (.ok e r)) (hk : Ev (fun f => K f e r) g) : Ev (fun f => (F f).bind (K f)) g := by
  obtain ⟨N, h⟩ := h
  obtain ⟨M, hk⟩ := hk
  refine ⟨N + M, fun f hf => ?_⟩
  simp only [h f (by omega), Got.bind_ok]
  exact hk f (by omega)

theorem Ev.const (g : Got) : Ev (fun _ => g) g := ⟨0, fun _ _ => rfl⟩

theorem Ev.pure1 {F : Nat → Got} {g : Got} (hs : ∀ f, F (f + 1) = g) : Ev F g := (Ev.const g).step hs

theorem Got.bind_assoc (x : Got) (f g : E → List Tok → Got) :
    (x.bind f).bind g = x.bind fun e r => (f e r).bind g := by
  cases x <;> rfl

/-! ## Heads of token lists -/

/-- Neither a type nor a colon. -/
def Good : Tok → Prop
  | .ty _ | .colon | .rpar | .rbr => False
  | _ => True

theorem toks_head (e : E) : ∃ t r, toks e = t :: r ∧ Good t := by
  induction e with
  | id n => exact ⟨_, _, rfl, trivial⟩
  | num n => exact ⟨_, _, rfl, trivial⟩
  | neg n => exact ⟨_, _, rfl, trivial⟩
  | group e ih => exact ⟨_, _, rfl, trivial⟩
  | member e n ih => obtain ⟨t, r, h, g⟩ := ih; exact ⟨t, _, by simp [toks, h]; rfl, g⟩
  | index e i ih _ => obtain ⟨t, r, h, g⟩ := ih; exact ⟨t, _, by simp [toks, h]; rfl, g⟩
  | post op e ih => obtain ⟨t, r, h, g⟩ := ih; exact ⟨t, _, by simp [toks, h]; rfl, g⟩
  | pre op e ih => exact ⟨preTok op, _, rfl, by cases op <;> trivial⟩
  | cast t e ih => exact ⟨_, _, rfl, trivial⟩
  | bin op l r ih _ => obtain ⟨t, r, h, g⟩ := ih; exact ⟨t, _, by simp [toks, h]; rfl, g⟩
  | ternary c b o ih _ _ => obtain ⟨t, r, h, g⟩ := ih; exact ⟨t, _, by simp [toks, h]; rfl, g⟩
  | elvis c o ih _ => obtain ⟨t, r, h, g⟩ := ih; exact ⟨t, _, by simp [toks, h]; rfl, g⟩
  | assign op l r ih _ => obtain ⟨t, r, h, g⟩ := ih; exact ⟨t, _, by simp [toks, h]; rfl, g⟩

/-! ## Reading at each production -/

def P (e : E) : Prop := level e = 0 → ∀ rest g, Ev (fun f => readPost f (inC e) rest) g →
  Ev (fun f => readCast f (toks e ++ rest)) g

def U (e : E) : Prop := level e ≤ 1 → ∀ rest, StopP rest →
  Ev (fun f => readCast f (toks e ++ rest)) (.ok (inC e) rest)

def B (e : E) : Prop := ∀ p rest g, level e < p → level e ≤ 14 → StopB (level e) rest →
  Ev (fun f => readBin f (inC e) p rest) g →
  Ev (fun f => (readCast f (toks e ++ rest)).bind fun a s => readBin f a p s) g

def C (e : E) : Prop := level e ≤ 15 → ∀ rest, StopC rest →
  Ev (fun f => readCond f (toks e ++ rest)) (.ok (inC e) rest)

def A (e : E) : Prop := ∀ rest, StopA rest → Ev (fun f => readExpr f (toks e ++ rest)) (.ok (inC e) rest)

theorem readPost_stop (e : E) (rest : List Tok) (h : StopP rest) :
    Ev (fun f => readPost f e rest) (.ok e rest) := by
  apply Ev.pure1
  intro f
  cases rest with
  | nil => simp [readPost]
  | cons t r => cases t <;> simp_all [readPost, StopP]

theorem u_of_p {e : E} (h0 : level e = 0) (h : P e) : U e :=
  fun _ rest hs => h h0 rest _ (readPost_stop _ _ hs)

theorem b_of_u {e : E} (h1 : level e ≤ 1) (h : U e) : B e := by
  intro p rest g _ _ hs hg
  exact (h h1 rest hs.p).bind hg

theorem readBin_stop (e : E) (rest : List Tok) (p : Nat) (h : StopB p rest) :
    Ev (fun f => readBin f e p rest) (.ok e rest) := by
  apply Ev.pure1
  intro f
  cases rest with
  | nil => simp [readBin]
  | cons t r =>
    cases t <;> simp_all [readBin, StopB]
    obtain ⟨q, h1, h2⟩ := h
    simp [h1, Nat.not_lt.mpr h2]

theorem c_of_b {e : E} (hl : level e ≤ 14) (h : B e) : C e := by
  intro _ rest hs
  have h1 := h 15 rest _ (by omega) hl (hs.b _) (readBin_stop _ _ 15 (hs.b _))
  refine Ev.step ?_ (fun f => by rw [readCond])
  simp only [← Got.bind_assoc]
  refine h1.bind ?_
  cases rest with
  | nil => exact Ev.const _
  | cons t r => cases t <;> first | exact Ev.const _ | exact absurd hs (by simp [StopC])

theorem a_of_c {e : E} (hl : level e ≤ 15) (h : C e) : A e := by
  intro rest hs
  refine Ev.step ?_ (fun f => by rw [readExpr])
  refine (h hl rest hs.c).bind ?_
  cases rest with
  | nil => exact Ev.const _
  | cons t r => cases t <;> first | exact Ev.const _ | exact absurd hs (by simp [StopA])

structure All (e : E) : Prop where
  p : P e
  u : U e
  b : B e
  c : C e
  a : A e

theorem all_of_p {e : E} (h0 : level e = 0) (h : P e) : All e where
  p := h
  u := u_of_p h0 h
  b := b_of_u (by omega) (u_of_p h0 h)
  c := c_of_b (by omega) (b_of_u (by omega) (u_of_p h0 h))
  a := a_of_c (by omega) (c_of_b (by omega) (b_of_u (by omega) (u_of_p h0 h)))

theorem all_of_u {e : E} (h0 : level e = 1) (h : U e) : All e where
  p := fun h => by omega
  u := h
  b := b_of_u (by omega) h
  c := c_of_b (by omega) (b_of_u (by omega) h)
  a := a_of_c (by omega) (c_of_b (by omega) (b_of_u (by omega) h))

theorem all_of_b {e : E} (h0 : 1 < level e) (h1 : level e ≤ 14) (h : B e) : All e where
  p := fun h => by omega
  u := fun h => by omega
  b := h
  c := c_of_b (by omega) h
  a := a_of_c (by omega) (c_of_b (by omega) h)

theorem all_of_c {e : E} (h0 : level e = 15) (h : C e) : All e where
  p := fun h => by omega
  u := fun h => by omega
  b := fun _ _ _ _ h => by omega
  c := h
  a := a_of_c (by omega) h

theorem all_of_a {e : E} (h0 : level e = 16) (h : A e) : All e where
  p := fun h => by omega
  u := fun h => by omega
  b := fun _ _ _ _ h => by omega
  c := fun h => by omega
  a := h

theorem unaryOf_preTok (op : PreOp) : unaryOf (preTok op) = some op := by cases op <;> rfl

/-- What `readCond` does behind the condition. -/
def condTail (f : Nat) (c : E) (r : List Tok) : Got :=
  match r with
  | .quest :: .colon :: r' => (readCond f r').bind fun o s => .ok (.elvis c o) s
  | .quest :: r' => (readExpr f r').bind fun b s =>
    match s with
    | .colon :: s' => (readCond f s').bind fun o s => .ok (.ternary c b o) s
    | _ => .error
  | _ => .ok c r

/-- What it does behind the middle. -/
def ternTail (f : Nat) (c b : E) (s : List Tok) : Got :=
  match s with
  | .colon :: s' => (readCond f s').bind fun o s => .ok (.ternary c b o) s
  | _ => .error

theorem condTail_quest (f : Nat) (c : E) (t : Tok) (r : List Tok) (h : Good t) :
    condTail f c (.quest :: t :: r) = (readExpr f (t :: r)).bind (ternTail f c) := by
  cases t <;> first | exact h.elim | rfl

theorem readCond_succ (f : Nat) (ts : List Tok) :
    readCond (f + 1) ts = ((readCast f ts).bind fun a s => readBin f a 15 s).bind (condTail f) := by
  rw [readCond, Got.bind_assoc]; rfl

theorem readBin_op (f : Nat) (l : E) (p q : Nat) (op : BinOp) (r : List Tok) (h : cPrec op = some q) (hp : q < p) :
    readBin (f + 1) l p (.bin op :: r) =
      ((readCast f r).bind fun a s => readBin f a q s).bind fun x s => readBin f (.bin op l x) p s := by
  rw [readBin.eq_def]; simp only [h, hp, if_true, Got.bind_assoc]

theorem readCast_pre (op : PreOp) (f : Nat) (ts : List Tok) :
    readCast (f + 1) (preTok op :: ts) = (readCast f ts).bind fun e s => .ok (.pre op e) s := by
  cases op <;> simp [readCast, preTok, unaryOf]

theorem cPrec_pos {op q} (h : cPrec op = some q) : 5 ≤ q ∧ q ≤ 14 := by
  cases op <;> simp [cPrec] at h <;> omega

theorem inC_unary (e : E) (h : e.unary = true) : (inC e).unary = true := by
  cases e <;> simp_all [inC, E.unary]

theorem all (e : E) : Ok e → All e := by
  induction e with
  | id n =>
    intro _
    refine all_of_p rfl fun _ rest g hg => hg.step fun f => ?_
    cases f <;> simp [readCast, toks, unaryOf, readPrim, inC, Got.bind, readPost]
  | num n =>
    intro _
    refine all_of_p rfl fun _ rest g hg => hg.step fun f => ?_
    cases f <;> simp [readCast, toks, unaryOf, readPrim, inC, Got.bind, readPost]
  | neg v =>
    intro _
    refine all_of_u rfl fun _ rest hs => ?_
    have h1 : Ev (fun f => readCast f (.num v :: rest)) (.ok (.num v) rest) := by
      refine (readPost_stop (.num v) rest hs).step fun f => ?_
      cases f <;> simp [readCast, unaryOf, readPrim, Got.bind, readPost]
    refine Ev.step ?_ (fun f => readCast_pre .minus f _)
    exact h1.bind (Ev.const _)
  | group e ih =>
    intro h
    have he := (ih h).a
    refine all_of_p rfl fun _ rest g hg => ?_
    have h1 : Ev (fun f => readPrim f (toks (.group e) ++ rest)) (.ok (inC (.group e)) rest) := by
      refine Ev.step ?_ (fun f => by
        show readPrim (f + 1) (.lpar :: toks e ++ [.rpar] ++ rest) = _
        rw [readPrim.eq_def])
      have := he (.rpar :: rest) trivial
      simp only [List.append_assoc, List.singleton_append]
      exact this.bind (Ev.const _)
    refine Ev.step (h1.bind hg) (fun f => ?_)
    obtain ⟨t, r, ht, hgood⟩ := toks_head e
    simp only [toks, ht, List.cons_append]
    cases t <;> simp_all [readCast, unaryOf, Good]
  | member e n ih =>
    intro h
    have he := (ih h.1).p h.2
    refine all_of_p rfl fun _ rest g hg => ?_
    have := he (.dot :: .id n :: rest) g (hg.step fun f => by simp [readPost, inC])
    simpa [toks] using this
  | index e i ih1 ih2 =>
    intro h
    have he := (ih1 h.1).p h.2.1
    have hi := (ih2 h.2.2).a
    refine all_of_p rfl fun _ rest g hg => ?_
    have := he (.lbr :: (toks i ++ .rbr :: rest)) g (by
      refine Ev.step ?_ (fun f => by rw [readPost.eq_def])
      exact (hi (.rbr :: rest) trivial).bind hg)
    simpa [toks] using this
  | post op e ih =>
    intro h
    have he := (ih h.1).p h.2
    refine all_of_p rfl fun _ rest g hg => ?_
    have := he (postTok op :: rest) g (hg.step fun f => by cases op <;> simp [readPost, inC, postTok])
    simpa [toks] using this
  | pre op e ih =>
    intro h
    have he := (ih h.1).u h.2.1
    refine all_of_u rfl fun _ rest hs => ?_
    refine Ev.step ?_ (fun f => readCast_pre op f _)
    exact (he rest hs).bind (Ev.const _)
  | cast t e ih =>
    intro h
    have he := (ih h.1).u h.2
    refine all_of_u rfl fun _ rest hs => ?_
    refine Ev.step ?_ (fun f => by
      show readCast (f + 1) (.lpar :: .ty t :: .rpar :: (toks e ++ rest)) = _
      rw [readCast.eq_def])
    exact (he rest hs).bind (Ev.const _)
  | bin op l r ih1 ih2 =>
    intro h
    obtain ⟨hl, hr, q, hq, hlq, hrq⟩ := h
    have hq5 := cPrec_pos hq
    have hlev : level (.bin op l r) = q := by simp [level, hq]
    refine all_of_b (by omega) (by omega) ?_
    intro p rest g hp _ hs hg
    rw [hlev] at hp hs
    have h2 := (ih2 hr).b q rest _ hrq (by omega) (hs.mono (by omega)) (readBin_stop (inC r) rest q hs)
    have h1 := (ih1 hl).b p (.bin op :: (toks r ++ rest)) g (by omega) (by omega) ⟨q, hq, by omega⟩ (by
      refine Ev.step ?_ (fun f => readBin_op f _ p q op _ hq hp)
      exact h2.bind (K := fun f x s => readBin f (.bin op (inC l) x) p s) hg)
    simpa [toks] using h1
  | ternary c b o ih1 ih2 ih3 =>
    intro h
    obtain ⟨hc, hb, ho, hlc, hlo⟩ := h
    refine all_of_c rfl ?_
    intro _ rest hs
    have h3 := (ih3 ho).c hlo rest hs
    have h2 := (ih2 hb).a (.colon :: (toks o ++ rest)) trivial
    have h1 := (ih1 hc).b 15 (.quest :: (toks b ++ .colon :: (toks o ++ rest))) _ (by omega) hlc trivial
      (readBin_stop _ _ 15 trivial)
    refine Ev.step ?_ (fun f => readCond_succ f _)
    have e1 : toks (.ternary c b o) ++ rest = toks c ++ .quest :: (toks b ++ .colon :: (toks o ++ rest)) := by
      simp [toks]
    rw [e1]
    refine h1.bind ?_
    obtain ⟨t, r, ht, hgood⟩ := toks_head b
    simp only [ht, List.cons_append] at h2 ⊢
    simp only [condTail_quest _ _ _ _ hgood]
    exact h2.bind (K := fun f b s => ternTail f (inC c) b s) (h3.bind (Ev.const _))
  | elvis c o ih1 ih3 =>
    intro h
    obtain ⟨hc, ho, hlc, hlo⟩ := h
    refine all_of_c rfl ?_
    intro _ rest hs
    have h3 := (ih3 ho).c hlo rest hs
    have h1 := (ih1 hc).b 15 (.quest :: .colon :: (toks o ++ rest)) _ (by omega) hlc trivial
      (readBin_stop _ _ 15 trivial)
    refine Ev.step ?_ (fun f => readCond_succ f _)
    have e1 : toks (.elvis c o) ++ rest = toks c ++ .quest :: .colon :: (toks o ++ rest) := by simp [toks]
    rw [e1]
    exact h1.bind (h3.bind (Ev.const _))
  | assign op l r ih1 ih2 =>
    intro h
    obtain ⟨hl, hr, hll, hu⟩ := h
    refine all_of_a rfl ?_
    intro rest hs
    have h2 := (ih2 hr).a rest hs
    have h1 := (ih1 hl).c (by omega) (.asg op :: (toks r ++ rest)) trivial
    refine Ev.step ?_ (fun f => by rw [readExpr])
    have e1 : toks (.assign op l r) ++ rest = toks l ++ .asg op :: (toks r ++ rest) := by simp [toks]
    rw [e1]
    refine h1.bind ?_
    simp only [inC_unary l hu, if_true]
    exact h2.bind (Ev.const _)

/-- The text of an expression whose operands belong where they stand is read as that expression. -/
theorem reads_ok (e : E) (h : Ok e) : Reads (text e) (inC e) := by
  have h1 := (all e h).a [] trivial
  have h2 := lex_text e h []
  simp only [List.append_nil, lex] at h1 h2
  simp only [Reads, h2]
  exact h1

end Verif.CText
