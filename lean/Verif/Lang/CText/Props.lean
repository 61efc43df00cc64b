import Mathlib.Tactic.FieldSimp
import Mathlib.Tactic.Linarith
import Mathlib.Data.Rat.Defs
import Verif.Lang.CText.RoundTrip
import Verif.Lang.Parser.Props
/-!
# C161–C163: the C compiler reads the expression that was written

The chain from the tokens of the source to the tree the C compiler sees: the parser of the language (C20), the text the back end
writes, the tokens and the grammar of C. `Reads` says which tree C sees; `Parser.Wf` and `Parser.print` are the specification of
the language's own expressions.
-/
namespace Verif.CText

open Verif.Parser (BinOp AsgOp PostOp Expr Wf Parses)

/-- C sees one tree. -/
theorem Reads.unique {cs : List Ch} {a b : E} (ha : Reads cs a) (hb : Reads cs b) : a = b := by
  obtain ⟨n, ha⟩ := ha
  obtain ⟨m, hb⟩ := hb
  have h1 := ha (n + m) (by omega)
  have h2 := hb (n + m) (by omega)
  rw [h1] at h2
  exact (Got.ok.inj h2).1

/-! ## From the language's trees -/

/-- A path is a name with members. -/
def members (e : E) (ms : List Nat) : E := ms.foldl (fun e n => .member e n) e

/-- The tree that reaches the back end for an expression of names, numbers and operators; a dereferenced pointer is an index
expression (`sema/unary.c` 148–161). Nothing is said here about calls, `catch`, `is`, ranges, `await`, `delete`, `ptrof`, moves,
tuple members and catch blocks. -/
def toC : Expr → Option E
  | .path n ms => some (members (.id n) ms)
  | .int v => some (.num v)
  | .neg v => some (.neg v)
  | .group e => (toC e).map .group
  | .member e n ms => (toC e).map fun x => members (.member x n) ms
  | .index e i => (toC e).bind fun x => (toC i).map fun y => .index x y
  | .post op e => (toC e).map fun x => .post op x
  | .pre .PreDec e => (toC e).map fun x => .pre .dec x
  | .pre .PreInc e => (toC e).map fun x => .pre .inc x
  | .pre .Minus e => (toC e).map fun x => .pre .minus x
  | .pre .Plus e => (toC e).map fun x => .pre .plus x
  | .pre .Not e => (toC e).map fun x => .pre .not x
  | .pre .Compl e => (toC e).map fun x => .pre .compl x
  | .pre .Refof e => (toC e).map fun x => .pre .ref x
  | .pre .Deref e => (toC e).map fun x => .index x (.num 0)
  | .bin op l r => if (cPrec op).isSome then (toC l).bind fun x => (toC r).map fun y => .bin op x y else none
  | .assign op l r => (toC l).bind fun x => (toC r).map fun y => .assign op x y
  | .ternary c b o => (toC c).bind fun x => (toC b).bind fun y => (toC o).map fun z => .ternary x y z
  | .elvis c o => (toC c).bind fun x => (toC o).map fun z => .elvis x z
  | _ => none

/-- A sign is not followed by the same sign. -/
def signPair : Parser.PreOp → Parser.Tok → Bool
  | .Minus, .sym .Minus | .Minus, .sym .MinusMinus | .Plus, .sym .Plus | .Plus, .sym .PlusPlus | .Refof, .sym .BAnd => true
  | _, _ => false

/-- Nowhere two equal signs in a row, a dereferenced prefix expression, an assignment as a condition, or one behind the colon of a
conditional; assigned is a name, a member, an element or a dereferenced pointer. -/
def Plain : Expr → Prop
  | .group e => Plain e
  | .member e _ _ => Plain e
  | .index e i => Plain e ∧ Plain i
  | .post _ e => Plain e
  | .pre .Deref e => Plain e ∧ Parser.isPost e = true
  | .pre op e => Plain e ∧ signPair op (Parser.lead e) = false
  | .bin _ l r => Plain l ∧ Plain r
  | .assign _ l r => Plain l ∧ Plain r
  | .ternary c b o => Plain c ∧ Plain b ∧ Plain o ∧ Parser.level c ≠ 13 ∧ Parser.level o ≠ 13
  | .elvis c o => Plain c ∧ Plain o ∧ Parser.level c ≠ 13 ∧ Parser.level o ≠ 13
  | _ => True

theorem members_ok (ms : List Nat) : ∀ e : E, Ok e → level e = 0 → Ok (members e ms) ∧ level (members e ms) = 0 := by
  induction ms with
  | nil => intro e h h0; exact ⟨h, h0⟩
  | cons m ms ih => intro e h h0; exact ih (.member e m) ⟨h, h0⟩ rfl

theorem members_head (ms : List Nat) : ∀ e : E, (text (members e ms)).head? = (text e).head? := by
  induction ms with
  | nil => intro e; rfl
  | cons m ms ih =>
    intro e
    show (text (members (.member e m) ms)).head? = _
    rw [ih, text, head_append]

theorem members_unary (ms : List Nat) : ∀ e : E, e.unary = true → (members e ms).unary = true := by
  induction ms with
  | nil => intro e h; exact h
  | cons m ms ih => intro e _; exact ih (.member e m) rfl

/-- How the levels of the language and of C correspond. -/
def Corr (e : Expr) (x : E) : Prop :=
  (Parser.isPost e = true → level x = 0) ∧
  (Parser.level e = 0 → level x ≤ 1 ∧ x.unary = true) ∧
  (Parser.level e = 13 → level x = 16) ∧
  (Parser.level e = 14 → level x = 15) ∧
  (0 < Parser.level e → Parser.level e < 13 →
    (∃ op q, cPrec op = some q ∧ level x = q ∧ Parser.level e = Parser.tier op))

theorem tier_cPrec {a b : BinOp} {p q : Nat} (ha : cPrec a = some p) (hb : cPrec b = some q) :
    (Parser.tier a ≤ Parser.tier b → p ≤ q) ∧ (Parser.tier a < Parser.tier b → p < q) := by
  cases a <;> simp only [cPrec, Option.some.injEq, reduceCtorEq] at ha <;> subst ha <;>
    cases b <;> simp only [cPrec, Option.some.injEq, reduceCtorEq] at hb <;> subst hb <;> decide

theorem tier_range (op : BinOp) : 0 < Parser.tier op ∧ Parser.tier op < 13 := by
  cases op <;> decide

theorem level_le {e : Expr} {x : E} (h : Corr e x) {op : BinOp} {q : Nat} (hq : cPrec op = some q)
    (hl : Parser.level e ≤ Parser.tier op) : level x ≤ q := by
  have := cPrec_pos hq
  have := tier_range op
  by_cases h0 : Parser.level e = 0
  · have := (h.2.1 h0).1; omega
  · obtain ⟨op', q', h1, h2, h3⟩ := h.2.2.2.2 (by omega) (by omega)
    have := (tier_cPrec h1 hq).1 (by omega)
    omega

theorem level_lt {e : Expr} {x : E} (h : Corr e x) {op : BinOp} {q : Nat} (hq : cPrec op = some q)
    (hl : Parser.level e < Parser.tier op) : level x < q := by
  have := cPrec_pos hq
  have := tier_range op
  by_cases h0 : Parser.level e = 0
  · have := (h.2.1 h0).1; omega
  · obtain ⟨op', q', h1, h2, h3⟩ := h.2.2.2.2 (by omega) (by omega)
    have := (tier_cPrec h1 hq).2 (by omega)
    omega

theorem level_14 {e : Expr} {x : E} (h : Corr e x) (hl : Parser.level e ≤ 12) : level x ≤ 14 := by
  by_cases h0 : Parser.level e = 0
  · have := (h.2.1 h0).1; omega
  · obtain ⟨op', q', h1, h2, h3⟩ := h.2.2.2.2 (by omega) (by omega)
    have := cPrec_pos h1
    omega

theorem plevel_le (e : Expr) : Parser.level e ≤ 14 := by
  cases e <;> simp [Parser.level]
  case bin op l r => have := tier_range op; omega
  case catchDiscard l => have := tier_range .Catch; omega

/-- The first character comes from the first token. -/
def HeadOf (e : Expr) (x : E) : Prop :=
  ((text x).head? = some .minus → Parser.lead e = .sym .Minus ∨ Parser.lead e = .sym .MinusMinus) ∧
  ((text x).head? = some .plus → Parser.lead e = .sym .Plus ∨ Parser.lead e = .sym .PlusPlus) ∧
  ((text x).head? = some .amp → Parser.lead e = .sym .BAnd)

theorem post_head (e : Expr) : ∀ x, toC e = some x → Wf e → Parser.isPost e = true →
    (text x).head? ≠ some .minus ∧ (text x).head? ≠ some .plus ∧ (text x).head? ≠ some .amp := by
  induction e using Parser.Expr.rec (motive_2 := fun _ => True) with
  | path n ms => intro x h _ _; simp [toC] at h; subst h; simp [members_head, text]
  | int v => intro x h _ _; simp [toC] at h; subst h; simp [text]
  | group e ih => intro x h _ _; simp [toC] at h; obtain ⟨y, _, rfl⟩ := h; simp [text]
  | member e n ms ih =>
    intro x h hw hp
    simp only [toC, Option.map_eq_some_iff] at h
    obtain ⟨y, hy, rfl⟩ := h
    simp only [Wf] at hw
    simp only [members_head, text, head_append]
    exact ih y hy hw.1 hw.2.1
  | index e i ih _ =>
    intro x h hw hp
    simp only [toC, Option.bind_eq_some_iff, Option.map_eq_some_iff] at h
    obtain ⟨y, hy, z, hz, rfl⟩ := h
    simp only [Wf] at hw
    simp only [text, List.append_assoc, head_append]
    exact ih y hy hw.1 hw.2.1
  | nil => trivial
  | cons => trivial
  | _ => intro x h hw hp; first | (simp [toC] at h; done) | simp [Parser.isPost] at hp

theorem apart_minus {e : Expr} {y : E} (h3 : HeadOf e y) (h : signPair .Minus (Parser.lead e) = false) : Apart .minus y := by
  intro hc
  rcases h3.1 hc with h' | h' <;> rw [h'] at h <;> simp [signPair] at h

theorem apart_plus {e : Expr} {y : E} (h3 : HeadOf e y) (h : signPair .Plus (Parser.lead e) = false) : Apart .plus y := by
  intro hc
  rcases h3.2.1 hc with h' | h' <;> rw [h'] at h <;> simp [signPair] at h

theorem apart_ref {e : Expr} {y : E} (h3 : HeadOf e y) (h : signPair .Refof (Parser.lead e) = false) : Apart .ref y := by
  intro hc
  rw [h3.2.2 hc] at h
  simp [signPair] at h

theorem toC_ok (e : Expr) : ∀ x, toC e = some x → Wf e → Plain e → Ok x ∧ Corr e x ∧ HeadOf e x := by
  induction e using Parser.Expr.rec (motive_2 := fun _ => True) with
  | path n ms =>
    intro x h _ _
    simp only [toC, Option.some.injEq] at h
    subst h
    have := members_ok ms (.id n) trivial rfl
    refine ⟨this.1, ?_, ?_⟩
    · simp [Corr, Parser.level, Parser.isPost, this.2, members_unary ms (.id n) rfl]
    · simp [HeadOf, members_head, text]
  | int v =>
    intro x h _ _
    simp only [toC, Option.some.injEq] at h
    subst h
    exact ⟨trivial, by simp [Corr, Parser.level, Parser.isPost, level, E.unary], by simp [HeadOf, text]⟩
  | neg v =>
    intro x h _ _
    simp only [toC, Option.some.injEq] at h
    subst h
    exact ⟨trivial, by simp [Corr, Parser.level, Parser.isPost, level, E.unary], by simp [HeadOf, text, Parser.lead]⟩
  | group e ih =>
    intro x h hw hp
    simp only [toC, Option.map_eq_some_iff] at h
    obtain ⟨y, hy, rfl⟩ := h
    obtain ⟨h1, h2, h3⟩ := ih y hy (by simpa [Wf] using hw) (by simpa [Plain] using hp)
    exact ⟨h1, by simp [Corr, Parser.level, Parser.isPost, level, E.unary], by simp [HeadOf, text]⟩
  | member e n ms ih =>
    intro x h hw hp
    simp only [toC, Option.map_eq_some_iff] at h
    obtain ⟨y, hy, rfl⟩ := h
    simp only [Wf] at hw
    obtain ⟨h1, h2, h3⟩ := ih y hy hw.1 (by simpa [Plain] using hp)
    have := members_ok ms (.member y n) ⟨h1, h2.1 hw.2.1⟩ rfl
    refine ⟨this.1, ?_, ?_⟩
    · simp [Corr, Parser.level, Parser.isPost, this.2, members_unary ms (.member y n) rfl]
    · simpa only [HeadOf, members_head, text, List.append_assoc, head_append, Parser.lead] using h3
  | index e i ih ih2 =>
    intro x h hw hp
    simp only [toC, Option.bind_eq_some_iff, Option.map_eq_some_iff] at h
    obtain ⟨y, hy, z, hz, rfl⟩ := h
    simp only [Wf] at hw
    simp only [Plain] at hp
    obtain ⟨h1, h2, h3⟩ := ih y hy hw.1 hp.1
    obtain ⟨g1, g2, g3⟩ := ih2 z hz hw.2.2 hp.2
    refine ⟨⟨h1, h2.1 hw.2.1, g1⟩, ?_, ?_⟩
    · simp [Corr, Parser.level, Parser.isPost, level, E.unary]
    · simpa only [HeadOf, members_head, text, List.append_assoc, head_append, Parser.lead] using h3
  | post op e ih =>
    intro x h hw hp
    simp only [toC, Option.map_eq_some_iff] at h
    obtain ⟨y, hy, rfl⟩ := h
    simp only [Wf] at hw
    obtain ⟨h1, h2, h3⟩ := ih y hy hw.1 (by simpa [Plain] using hp)
    refine ⟨⟨h1, h2.1 hw.2⟩, ?_, ?_⟩
    · simp [Corr, Parser.level, Parser.isPost, level, E.unary]
    · simpa only [HeadOf, members_head, text, List.append_assoc, head_append, Parser.lead] using h3
  | pre op e ih =>
    intro x h hw hp
    simp only [Wf] at hw
    have key : ∀ (op' : PreOp) (y : E), toC e = some y → Plain e → Apart op' y →
        Ok (.pre op' y) ∧ Corr (.pre op e) (.pre op' y) := by
      intro op' y hy hpe ha
      obtain ⟨h1, h2, h3⟩ := ih y hy hw.1 hpe
      refine ⟨⟨h1, (h2.2.1 hw.2.1).1, ha⟩, ?_⟩
      simp [Corr, Parser.level, Parser.isPost, level, E.unary]
    cases op <;> simp only [toC, Option.map_eq_some_iff, reduceCtorEq] at h
    case Deref =>
      obtain ⟨y, hy, rfl⟩ := h
      simp only [Plain] at hp
      obtain ⟨h1, h2, h3⟩ := ih y hy hw.1 hp.1
      have hd := post_head e y hy hw.1 hp.2
      refine ⟨⟨h1, h2.1 hp.2, trivial⟩, ?_, ?_⟩
      · simp [Corr, Parser.level, Parser.isPost, level, E.unary]
      · simp only [HeadOf, text, List.append_assoc, head_append]
        exact ⟨fun h => absurd h hd.1, fun h => absurd h hd.2.1, fun h => absurd h hd.2.2⟩
    all_goals
      obtain ⟨y, hy, rfl⟩ := h
      simp only [Plain] at hp
      obtain ⟨h1, h2, h3⟩ := ih y hy hw.1 hp.1
      refine ⟨(key _ y hy hp.1 ?_).1, (key _ y hy hp.1 ?_).2, by simp [HeadOf, text, preText, Parser.lead, Parser.preTok]⟩
      all_goals
        first
        | trivial
        | exact apart_minus h3 hp.2
        | exact apart_plus h3 hp.2
        | exact apart_ref h3 hp.2
  | bin op l r ih1 ih2 =>
    intro x h hw hp
    simp only [Wf] at hw
    simp only [Plain] at hp
    obtain ⟨q, hq⟩ | hq : (∃ q, cPrec op = some q) ∨ cPrec op = none := by cases cPrec op <;> simp
    · simp only [toC, hq, Option.isSome_some, if_true, Option.bind_eq_some_iff, Option.map_eq_some_iff] at h
      obtain ⟨y, hy, z, hz, rfl⟩ := h
      obtain ⟨h1, h2, h3⟩ := ih1 y hy hw.1 hp.1
      obtain ⟨g1, g2, g3⟩ := ih2 z hz hw.2.1 hp.2
      refine ⟨⟨h1, g1, q, hq, level_le h2 hq hw.2.2.1, level_lt g2 hq hw.2.2.2⟩, ?_, ?_⟩
      · have := tier_range op
        refine ⟨by simp [Parser.isPost], ?_, ?_, ?_, ?_⟩ <;> simp only [Parser.level] <;>
          first | omega | skip
        exact fun _ _ => ⟨op, q, hq, by simp [level, hq], rfl⟩
      · simpa only [HeadOf, members_head, text, List.append_assoc, head_append, Parser.lead] using h3
    · simp [toC, hq] at h
  | assign op l r ih1 ih2 =>
    intro x h hw hp
    simp only [Wf] at hw
    simp only [Plain] at hp
    simp only [toC, Option.bind_eq_some_iff, Option.map_eq_some_iff] at h
    obtain ⟨y, hy, z, hz, rfl⟩ := h
    obtain ⟨h1, h2, h3⟩ := ih1 y hy hw.1 hp.1
    obtain ⟨g1, g2, g3⟩ := ih2 z hz hw.2.1 hp.2
    have := h2.2.1 hw.2.2.1
    refine ⟨⟨h1, g1, this.1, this.2⟩, ?_, ?_⟩
    · simp [Corr, Parser.level, Parser.isPost, level]
    · simpa only [HeadOf, members_head, text, List.append_assoc, head_append, Parser.lead] using h3
  | ternary c b o ih1 ih2 ih3 =>
    intro x h hw hp
    simp only [Wf] at hw
    simp only [Plain] at hp
    simp only [toC, Option.bind_eq_some_iff, Option.map_eq_some_iff] at h
    obtain ⟨y, hy, z, hz, w, hww, rfl⟩ := h
    obtain ⟨h1, h2, h3⟩ := ih1 y hy hw.1 hp.1
    obtain ⟨g1, g2, g3⟩ := ih2 z hz hw.2.1 hp.2.1
    obtain ⟨k1, k2, k3⟩ := ih3 w hww hw.2.2.1 hp.2.2.1
    refine ⟨⟨h1, g1, k1, level_14 h2 (by have := hp.2.2.2.1; have := hw.2.2.2; omega), ?_⟩, ?_, ?_⟩
    · have := plevel_le o
      by_cases h14 : Parser.level o = 14
      · have := k2.2.2.2.1 h14; omega
      · have := level_14 k2 (by have := hp.2.2.2.2; omega); omega
    · simp [Corr, Parser.level, Parser.isPost, level]
    · simpa only [HeadOf, members_head, text, List.append_assoc, head_append, Parser.lead] using h3
  | elvis c o ih1 ih3 =>
    intro x h hw hp
    simp only [Wf] at hw
    simp only [Plain] at hp
    simp only [toC, Option.bind_eq_some_iff, Option.map_eq_some_iff] at h
    obtain ⟨y, hy, w, hww, rfl⟩ := h
    obtain ⟨h1, h2, h3⟩ := ih1 y hy hw.1 hp.1
    obtain ⟨k1, k2, k3⟩ := ih3 w hww hw.2.1 hp.2.1
    refine ⟨⟨h1, k1, level_14 h2 (by have := hp.2.2.1; have := hw.2.2; omega), ?_⟩, ?_, ?_⟩
    · have := plevel_le o
      by_cases h14 : Parser.level o = 14
      · have := k2.2.2.2.1 h14; omega
      · have := level_14 k2 (by have := hp.2.2.2; omega); omega
    · simp [Corr, Parser.level, Parser.isPost, level]
    · simpa only [HeadOf, members_head, text, List.append_assoc, head_append, Parser.lead] using h3
  | nil => trivial
  | cons => trivial
  | _ => intro x h _ _; simp [toC] at h

/-! ## C161 -/

/-- **C161, the part that holds.** An expression of names, numbers, members, indices, parentheses and operators, of any size, is
parsed from its tokens as the tree `e`, and the C compiler reads the text written for `e` as the same tree, operator by operator —
as long as no two equal signs are in a row, no assignment is a condition or stands behind the colon of a conditional, and
only postfix expressions are dereferenced. -/
theorem c_reads_the_parsed_tree_partial (e : Expr) (x : E) (hw : Wf e) (hx : toC e = some x) (hp : Plain e) :
    Parses (Parser.print e) e [] ∧ Reads (text x) (inC x) := by
  refine ⟨?_, reads_ok x (toC_ok e x hx hw hp).1⟩
  have := (Parser.printed_expression_is_read_back e).1
  rwa [Parser.paren_wf e hw] at this

/-- `a.b = *p - -1 < c * (d + 2) && !f` -/
example : let e : Expr := .assign .Assign (.path 1 [2]) (.bin .LAnd (.bin .Lt (.bin .Sub (.pre .Deref (.path 3 [])) (.neg 1))
      (.bin .Mul (.path 4 []) (.group (.bin .Add (.path 5 []) (.int 2))))) (.pre .Not (.path 6 [])))
    Wf e ∧ Plain e ∧ toC e = some (.assign .Assign (.member (.id 1) 2) (.bin .LAnd (.bin .Lt
      (.bin .Sub (.index (.id 3) (.num 0)) (.neg 1)) (.bin .Mul (.id 4) (.group (.bin .Add (.id 5) (.num 2)))))
      (.pre .not (.id 6)))) := by
  refine ⟨?_, ?_, rfl⟩
  · simp [Wf, Parser.level, Parser.signed, Parser.lead, Parser.Tok.isInt]; decide
  · simp [Plain, Parser.isPost, signPair]

/-- The same text, the same tree for C. -/
theorem reads_same_text {a b : E} (hb : Ok b) (h : text a = text b) : Reads (text a) (inC b) :=
  h ▸ reads_ok b hb

/-- **C161 fails, dereferencing a conversion.** `*p as ^T` dereferences the converted pointer; C reads the text as the conversion of
the element. -/
theorem deref_of_cast_reads_element (t : Nat) (e i : E) (he : Ok e) (h0 : level e = 0) (hi : Ok i) :
    Reads (text (.index (.cast t e) i)) (.cast t (.index (inC e) (inC i))) :=
  reads_same_text (b := .cast t (.index e i)) ⟨⟨he, h0, hi⟩, by simp [level]⟩ (by simp [text])

example : Ok (.id 1) ∧ level (.id 1) = 0 ∧ Ok (.num 0) := ⟨trivial, rfl, trivial⟩

/-- **C161 fails, conditions that assign.** `(x = c) ? b : o` as the parser builds it (C73) is written without parentheses, and C
reads `x = (c ? b : o)`. -/
theorem assigned_condition_reads_assigned_choice (op : AsgOp) (l c b o : E) (hl : Ok l) (hl1 : level l ≤ 1)
    (hu : l.unary = true) (hc : Ok c) (hc1 : level c ≤ 14) (hb : Ok b) (ho : Ok o) (ho1 : level o ≤ 15) :
    Reads (text (.ternary (.assign op l c) b o)) (.assign op (inC l) (.ternary (inC c) (inC b) (inC o))) :=
  reads_same_text (b := .assign op l (.ternary c b o)) ⟨hl, ⟨hc, hb, ho, hc1, ho1⟩, hl1, hu⟩ (by simp [text])

example : Ok (.bin .Gt (.id 2) (.num 0)) ∧ level (.bin .Gt (.id 2) (.num 0)) ≤ 14 := by
  simp [Ok, level, cPrec]

/-- **C161 fails, assigning behind the colon.** `c ? b : l = r`, which the parser accepts with the assignment as the second choice, is
not an expression of C. -/
theorem assigning_choice_is_rejected (op : AsgOp) (c b l r : E) (hc : Ok c) (hc1 : level c ≤ 14) (hb : Ok b) (hl : Ok l)
    (hl1 : level l ≤ 1) (hr : Ok r) (e : E) : ¬ Reads (text (.ternary c b (.assign op l r))) e := by
  have ht : Ok (.ternary c b l) := ⟨hc, hb, hl, hc1, by omega⟩
  have htext : text (.ternary c b (.assign op l r)) = text (.ternary c b l) ++ .blank :: .asg op :: .blank :: (text r ++ []) := by
    simp [text]
  have hlex : lex (text (.ternary c b (.assign op l r))) = toks (.ternary c b l) ++ .asg op :: (toks r) := by
    rw [htext, lex_text _ ht]
    have := lex_text r hr []
    simp only [lex, List.append_nil] at this ⊢
    rw [this]
  have hcond := (all _ ht).c (by simp [level]) (.asg op :: toks r) trivial
  rintro ⟨n, h⟩
  obtain ⟨m, hcond⟩ := hcond
  have h1 := h (n + m + 1) (by omega)
  rw [hlex, readExpr] at h1
  simp [hcond (n + m) (by omega), inC, E.unary] at h1

/-- In the language it is an expression: `1 ? 2 : x = 3`. -/
example : Wf (.ternary (.int 1) (.int 2) (.assign .Assign (.path 1 []) (.int 3))) := by
  simp [Wf, Parser.level]

/-! ## C162 -/

/-- The conversion in front of the leftmost operand. -/
def castLeft (t : Nat) : E → E
  | .bin op l r => .bin op (castLeft t l) r
  | .ternary c b o => .ternary (castLeft t c) b o
  | .elvis c o => .elvis (castLeft t c) o
  | e => .cast t e

theorem castLeft_text (t : Nat) (e : E) : text (castLeft t e) = text (.cast t e) := by
  induction e with
  | bin op l r ih _ => simp only [castLeft, text, ih]; simp
  | ternary c b o ih _ _ => simp only [castLeft, text, ih]; simp
  | elvis c o ih _ => simp only [castLeft, text, ih]; simp
  | _ => rfl

theorem castLeft_ok (t : Nat) (e : E) : Ok e → level e ≤ 15 →
    Ok (castLeft t e) ∧ (level e ≤ 1 → level (castLeft t e) = 1) ∧ (1 < level e → level (castLeft t e) = level e) := by
  have base : ∀ e, castLeft t e = .cast t e → Ok e → level e ≤ 1 →
      Ok (castLeft t e) ∧ (level e ≤ 1 → level (castLeft t e) = 1) ∧ (1 < level e → level (castLeft t e) = level e) := by
    intro e h ho hl
    rw [h]
    exact ⟨⟨ho, hl⟩, fun _ => rfl, fun _ => by omega⟩
  induction e with
  | bin op l r ih _ =>
    intro h hl
    obtain ⟨h1, h2, q, hq, h3, h4⟩ := h
    have hq5 := cPrec_pos hq
    obtain ⟨i1, i2, i3⟩ := ih h1 (by omega)
    refine ⟨⟨i1, h2, q, hq, ?_, h4⟩, ?_, fun _ => rfl⟩
    · by_cases hll : level l ≤ 1
      · rw [i2 hll]; omega
      · rw [i3 (by omega)]; exact h3
    · intro h'
      simp only [level, hq, Option.getD_some] at h'
      omega
  | ternary c b o ih _ _ =>
    intro h hl
    obtain ⟨h1, h2, h3, h4, h5⟩ := h
    obtain ⟨i1, i2, i3⟩ := ih h1 (by omega)
    refine ⟨⟨i1, h2, h3, ?_, h5⟩, fun h' => by simp [level] at h', fun _ => rfl⟩
    by_cases hll : level c ≤ 1
    · rw [i2 hll]; omega
    · rw [i3 (by omega)]; exact h4
  | elvis c o ih _ =>
    intro h hl
    obtain ⟨h1, h2, h4, h5⟩ := h
    obtain ⟨i1, i2, i3⟩ := ih h1 (by omega)
    refine ⟨⟨i1, h2, ?_, h5⟩, fun h' => by simp [level] at h', fun _ => rfl⟩
    by_cases hll : level c ≤ 1
    · rw [i2 hll]; omega
    · rw [i3 (by omega)]; exact h4
  | assign op l r _ _ => intro h hl; simp [level] at hl
  | _ => intro h hl; exact base _ rfl h (by simp [level])

/-- **C162 is false of the code.** A conversion of an expression — `<T>a / b`, or the one put in when the argument `a / b` of a call
has another type than the parameter — is read by C as the conversion of the leftmost operand, whatever the expression. -/
theorem conversion_reads_leftmost (t : Nat) (e : E) (he : Ok e) (hl : level e ≤ 15) :
    Reads (text (.cast t e)) (inC (castLeft t e)) := by
  rw [← castLeft_text]
  exact reads_ok _ (castLeft_ok t e he hl).1

/-- So C never sees the conversion of an operator's result or of a conditional. -/
theorem conversion_not_read (t : Nat) (e : E) (he : Ok e) (hl : level e ≤ 15) (h1 : 1 < level e) :
    ¬ Reads (text (.cast t e)) (inC (.cast t e)) := by
  intro h
  have := h.unique (conversion_reads_leftmost t e he hl)
  cases e <;> first | (simp [castLeft, inC] at this; done) | (simp [level] at h1; done) | simp [level] at hl

example : let e : E := .bin .Sub (.bin .Mul (.id 1) (.id 2)) (.id 3)
    Ok e ∧ 1 < level e ∧ level e ≤ 15 ∧ castLeft 7 e = .bin .Sub (.bin .Mul (.cast 7 (.id 1)) (.id 2)) (.id 3) := by
  simp [Ok, level, cPrec, castLeft]

/-- **C162, the part that holds.** A conversion of a name, number, member, element, call result, parenthesis, or of a further prefix
expression is read as it is meant. -/
theorem conversion_of_operand_partial (t : Nat) (e : E) (he : Ok e) (hl : level e ≤ 1) :
    Reads (text (.cast t e)) (inC (.cast t e)) :=
  reads_ok (.cast t e) ⟨he, hl⟩

example : Ok (.group (.bin .Div (.id 1) (.id 2))) ∧ level (.group (.bin .Div (.id 1) (.id 2))) ≤ 1 := by
  simp [Ok, level, cPrec]

/-- Values for the comparison: integers and numbers with a fraction. -/
inductive Val where
  | int (i : Int)
  | real (q : Rat)
  deriving DecidableEq

def Val.toRat : Val → Rat
  | .int i => i
  | .real q => q

/-- Quotients in C and in the language: of integers towards zero, else exact; type 0 is the type of integers, type 1 that of real
numbers (exact here). -/
def value (env : Nat → Val) : E → Option Val
  | .id n => some (env n)
  | .group e => value env e
  | .cast 0 e => (value env e).bind fun v => match v with
    | .int i => some (.int i)
    | .real _ => none
  | .cast 1 e => (value env e).map fun v => .real v.toRat
  | .bin .Div l r => (value env l).bind fun a => (value env r).bind fun b =>
    match a, b with
    | .int x, .int y => if y = 0 then none else some (.int (x.tdiv y))
    | a, b => if b.toRat = 0 then none else some (.real (a.toRat / b.toRat))
  | _ => none

/-- **C162 fails in what is computed.** `<f64>a / b` of integers converts the integer quotient; what C reads has the exact one. They agree
only if `b` divides `a`. -/
theorem converted_quotient (a b : Nat) (x y : Int) (env : Nat → Val) (ha : env a = .int x) (hb : env b = .int y) (hy : y ≠ 0) :
    ∃ e, Reads (text (.cast 1 (.bin .Div (.id a) (.id b)))) e ∧
      value env (.cast 1 (.bin .Div (.id a) (.id b))) = some (.real ((x.tdiv y : Int) : Rat)) ∧
      value env e = some (.real ((x : Rat) / y)) ∧
      (value env e = value env (.cast 1 (.bin .Div (.id a) (.id b))) ↔ y ∣ x) := by
  have hyq : (y : Rat) ≠ 0 := by exact_mod_cast hy
  refine ⟨_, conversion_reads_leftmost 1 (.bin .Div (.id a) (.id b)) (by simp [Ok, level, cPrec]) (by simp [level, cPrec]), ?_, ?_, ?_⟩
  · simp [value, ha, hb, hy, Val.toRat]
  · simp [castLeft, inC, value, ha, hb, hyq, Val.toRat]
  · simp only [castLeft, inC, value, ha, hb, Val.toRat, Option.bind_some, Option.map_some, hy, if_false, hyq,
      Option.some.injEq, Val.real.injEq]
    constructor
    · intro h
      have h2 : (x : Rat) = ((x.tdiv y : Int) : Rat) * y := by rw [← h]; field_simp
      have h3 : x = x.tdiv y * y := by exact_mod_cast h2
      exact ⟨x.tdiv y, by rw [Int.mul_comm]; exact h3⟩
    · rintro ⟨k, rfl⟩
      rw [Int.mul_tdiv_cancel_left _ hy]
      push_cast
      field_simp

/-- `<f64>7 / 2` is 3.0 in the language and 3.5 in C. -/
example : ((Int.tdiv 7 2 : Int) : Rat) ≠ (7 : Rat) / 2 := by norm_num [Int.tdiv]

/-! ## C163 -/

/-- What C allows under `--` and `++` (6.5.2.4, 6.5.3.1): an lvalue. -/
def lvalue : E → Bool
  | .id _ | .member .. | .index .. => true
  | .group e => lvalue e
  | _ => false

/-- **C163 is false of the code.** The negation of a negation is read by C as a decrement. -/
theorem negation_twice_reads_decrement (e : E) (he : Ok e) (h1 : level e ≤ 1) :
    Reads (text (.pre .minus (.pre .minus e))) (.pre .dec (inC e)) :=
  reads_same_text (b := .pre .dec e) ⟨he, h1, trivial⟩ (by simp [text, preText])

/-- The same with `+`. -/
theorem plus_twice_reads_increment (e : E) (he : Ok e) (h1 : level e ≤ 1) :
    Reads (text (.pre .plus (.pre .plus e))) (.pre .inc (inC e)) :=
  reads_same_text (b := .pre .inc e) ⟨he, h1, trivial⟩ (by simp [text, preText])

example : Ok (.member (.id 1) 2) ∧ level (.member (.id 1) 2) ≤ 1 := by simp [Ok, level]

/-- The negation of a negative literal is a decrement of a number, which C rejects. -/
theorem negated_literal_reads_decrement (v : Nat) :
    Reads (text (.pre .minus (.neg v))) (.pre .dec (.num v)) ∧ lvalue (.num v) = false :=
  ⟨reads_same_text (b := .pre .dec (.num v)) ⟨trivial, by simp [level], trivial⟩ (by simp [text, preText]), rfl⟩

/-- **C163, the part that holds.** With parentheses between the signs, both are read. -/
theorem parenthesised_signs_partial (a b : PreOp) (e : E) (he : Ok e) (h1 : level e ≤ 1) (hb : Apart b e) :
    Reads (text (.pre a (.group (.pre b e)))) (.pre a (.group (.pre b (inC e)))) := by
  refine reads_ok (.pre a (.group (.pre b e))) ⟨⟨he, h1, hb⟩, by simp [level], ?_⟩
  cases a <;> simp [Apart, text]

/-- **C163, different signs.** `- +x`, `!-x`, `~-x`, `-!x` and so on need no parentheses. -/
theorem different_signs_partial (a b : PreOp) (e : E) (he : Ok e) (h1 : level e ≤ 1) (hb : Apart b e)
    (h : (preText a).getLast? ≠ (preText b).head?) : Reads (text (.pre a (.pre b e))) (.pre a (.pre b (inC e))) := by
  refine reads_ok (.pre a (.pre b e)) ⟨⟨he, h1, hb⟩, by simp [level], ?_⟩
  cases a <;> cases b <;> simp_all [Apart, text, preText]

example : (preText .minus).getLast? ≠ (preText .plus).head? ∧ Apart .plus (.id 3) := by
  simp [preText, Apart, text]

end Verif.CText
