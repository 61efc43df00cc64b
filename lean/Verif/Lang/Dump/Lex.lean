import Verif.Lang.Dump.Model
import Verif.Lang.Lexer.Props
/-!
# Reading a text that is made of tokens and spaces
-/
namespace Verif.Dump
open Lexer (str Sym Pos Flags L Token spelling isToken reserved NameStart NameChar)
open Parser (Tok Kw)

/-- A name of the language. -/
def IsName (w : List Nat) : Prop :=
  w ∉ reserved ∧ ∃ c s, w = c :: s ∧ NameStart c ∧ ∀ d ∈ s, NameChar d

/-- The names of a program: every number has its own name. -/
structure Names (spell : Nat → List Nat) (code : List Nat → Nat) : Prop where
  name : ∀ n, IsName (spell n)
  back : ∀ n, code (spell n) = n

def kwText : Kw → List Nat
  | .is => str "is" | .catch => str "catch" | .await => str "await" | .delete => str "delete" | .ptrof => str "ptrof"
  | .func => str "func" | .discard => str "discard" | .as => str "as" | .other => str "auto"

/-- The text of a token. -/
def tokText (spell : Nat → List Nat) : Tok → List Nat
  | .ident n => spell n
  | .int v => number v
  | .sym s => spelling s
  | .kw k => kwText k
  | .other => []

/-- Tokens and spaces (`none`). -/
def textOf (spell : Nat → List Nat) : List (Option Tok) → List Nat
  | [] => []
  | none :: ps => 32 :: textOf spell ps
  | some t :: ps => tokText spell t ++ textOf spell ps

/-- The first byte of the text, a line end after the text. -/
def first (spell : Nat → List Nat) (ps : List (Option Tok)) : Nat := (textOf spell ps ++ [10]).headD 10

def allSyms : List Sym :=
  [.LParen, .RParen, .LBracket, .RBracket, .LBrace, .RBrace, .At, .Hash, .LNot, .BNot, .Dot, .DotDot,
   .Elipsis, .Question, .Comma, .Colon, .Semicolon, .Assign, .Equal, .NotEqual, .FatArrow, .ThinArrow,
   .Less, .LessEqual, .Shl, .ShlEqual, .Greater, .GreaterEqual, .Shr, .ShrEqual, .Plus, .Minus, .Mult,
   .Div, .Mod, .BAnd, .BXor, .BOr, .LAnd, .LOr, .PlusPlus, .MinusMinus, .PlusEqual, .MinusEqual,
   .MultEqual, .DivEqual, .ModEqual, .BAndEqual, .BAndDot, .BXorEqual, .BOrEqual, .Quote, .Substitutue,
   .IndexExpr, .AstMacroAccess, .Define, .BangColon]

theorem mem_allSyms (s : Sym) (h : isToken s = true) : s ∈ allSyms := by
  revert h; cases s <;> decide

/-- A byte after the symbol that would make a longer symbol of it, or a comment. -/
def extends_ (s : Sym) (c : Nat) : Bool :=
  allSyms.any (fun s' => (spelling s ++ [c]).isPrefixOf (spelling s')) || (s == .Div && (c == 47 || c == 42))

/-- A number is not followed by a part of a number; a dot may follow if the number follows a dot. -/
def intOk (m : Bool) (c : Nat) (ps : List (Option Tok)) : Prop :=
  ¬ NameChar c ∧ (c = 46 → m = true ∨ ps.head? = some (some (.sym .IndexExpr)))

/-- Whether the token is read as it is before the rest; `m` says that a dot precedes. -/
def okTok (spell : Nat → List Nat) (m : Bool) (ps : List (Option Tok)) : Tok → Prop
  | .ident _ => ¬ NameChar (first spell ps) ∧ first spell ps ≠ 34
  | .int v => v < 2 ^ 64 ∧ intOk m (first spell ps) ps
  | .sym s => isToken s = true ∧ extends_ s (first spell ps) = false
  | .kw k => k ≠ .other ∧ ¬ NameChar (first spell ps) ∧ first spell ps ≠ 34
  | .other => False

/-- Whether the lexer still remembers the dot at the given byte. -/
def keep (m : Bool) (c : Nat) : Bool := m && (Lexer.isDig c || c == 46)

/-- The tokens are read back one by one. -/
def good (spell : Nat → List Nat) : Bool → List (Option Tok) → Prop
  | _, [] => True
  | _, none :: ps => good spell false ps
  | m, some t :: ps =>
    let m1 := keep m ((tokText spell t).headD 10)
    okTok spell m1 ps t ∧ good spell (t == .sym .Dot || m1) ps

theorem number_ne (v : Nat) : number v ≠ [] := by simp [number, decimal_ne_nil]

theorem number_dig (v : Nat) : ∀ c ∈ number v, Lexer.isDig c = true := by
  intro c hc
  simp only [number, List.mem_map] at hc
  obtain ⟨b, hb, rfl⟩ := hc
  have := decimal_digits v b hb
  simpa [isDigitByte, Lexer.isDig] using this

theorem number_value (v : Nat) : Lexer.number 10 (number v) = v := by
  have h := decimalValue_decimal v
  have hd := decimal_digits v
  unfold decimalValue at h
  unfold Lexer.number number
  rw [List.foldl_map]
  refine Eq.trans ?_ h
  have key : ∀ (l : List (BitVec 8)) (a : Nat), (∀ b ∈ l, isDigitByte b = true) →
      l.foldl (fun a c => a * 10 + Lexer.digitVal c.toNat) a = l.foldl (fun a b => a * 10 + (b.toNat - 48)) a := by
    intro l
    induction l with
    | nil => intro a _; rfl
    | cons b l ih =>
      intro a hl
      have hb := hl b (by simp)
      simp [isDigitByte] at hb
      simp only [List.foldl_cons]
      rw [ih _ (fun c hc => hl c (by simp [hc]))]
      unfold Lexer.digitVal
      rw [if_pos hb.2]
  exact key _ _ hd

theorem headD_append_ne {a b : List Nat} {d : Nat} (h : a ≠ []) : (a ++ b).headD d = a.headD d := by
  cases a with
  | nil => exact absurd rfl h
  | cons x a => rfl

theorem spelling_ne (s : Sym) : spelling s ≠ [] := by cases s <;> decide

theorem longest_of {s : Sym} {c : Nat} {r : List Nat} (h : extends_ s c = false) :
    Lexer.Longest s (spelling s ++ c :: r) ∧ ¬ Lexer.startsComment (spelling s ++ c :: r) := by
  unfold extends_ at h
  rw [Bool.or_eq_false_iff] at h
  refine ⟨⟨⟨_, rfl⟩, ?_⟩, ?_⟩
  · intro s' ht hp
    apply Decidable.byContradiction
    intro hlt
    have h1 : (spelling s ++ [c]) <+: spelling s' := by
      apply List.prefix_of_prefix_length_le (l₃ := spelling s ++ c :: r) ⟨r, by simp⟩ hp
      simp; omega
    have := h.1
    rw [List.any_eq_false] at this
    exact this s' (mem_allSyms s' ht) (by simpa [List.isPrefixOf_iff_prefix] using h1)
  · rintro (hp | hp) <;>
    · obtain ⟨q, hq⟩ := hp
      have h2 := h.2
      clear h
      cases s <;> simp [spelling, str] at hq h2
      all_goals (exact absurd hq.1.symm (by omega))

theorem spelling_first (s : Sym) : (spelling s).headD 10 ≠ 32 ∧ Lexer.isDig ((spelling s).headD 10) = false := by
  cases s <;> decide

theorem first_space (s : Sym) : Lexer.isSpace ((spelling s).headD 10) = false := by
  cases s <;> decide

/-- The state at a token or a space of the text. -/
def stateAt (pre rest : List Nat) (m : Bool) : L :=
  ⟨rest, Lexer.posAfter ⟨0, 1, 1⟩ pre, { maybeNotFloat := m }⟩

theorem slice_eq (pre w rest : List Nat) :
    ((pre ++ (w ++ rest)).drop (Lexer.posAfter ⟨0, 1, 1⟩ pre).off).take
      ((Lexer.posAfter (Lexer.posAfter ⟨0, 1, 1⟩ pre) w).off - (Lexer.posAfter ⟨0, 1, 1⟩ pre).off) = w := by
  rw [Lexer.posAfter_off, Lexer.posAfter_off]
  simp

/-- Reading one token. -/
theorem lexOne_tok {spell : Nat → List Nat} {code : List Nat → Nat} (hn : Names spell code)
    (adv : L → Res (L × Token)) (fuel : Nat) (t : Tok) (ps : List (Option Tok)) (pre : List Nat) (m : Bool)
    (h : okTok spell m ps t) :
    ∃ tok, Lexer.lexOne adv fuel (stateAt pre (tokText spell t ++ (textOf spell ps ++ [10])) m) =
        .ok (.tok (stateAt (pre ++ tokText spell t) (textOf spell ps ++ [10]) (t == .sym .Dot || m)) tok) ∧
      tok.tag ≠ .eof ∧ tokOf code (pre ++ (tokText spell t ++ (textOf spell ps ++ [10]))) tok = t := by
  have hR : ∃ c r, textOf spell ps ++ [10] = c :: r ∧ first spell ps = c := by
    unfold first
    cases h : textOf spell ps ++ [10] with
    | nil => simp at h
    | cons c r => exact ⟨c, r, rfl, rfl⟩
  obtain ⟨c, r, hR, hc⟩ := hR
  have hpos : ∀ w, Lexer.posAfter ⟨0, 1, 1⟩ (pre ++ w) = Lexer.posAfter (Lexer.posAfter ⟨0, 1, 1⟩ pre) w :=
    fun w => Lexer.posAfter_append _ _ _
  unfold stateAt
  cases t with
  | ident n =>
    obtain ⟨h1, h2⟩ := h
    rw [hc] at h1 h2
    obtain ⟨hres, d, s, hw, hds, hs⟩ := hn.name n
    have := Lexer.word_is_read adv fuel d s (textOf spell ps ++ [10]) (Lexer.posAfter ⟨0, 1, 1⟩ pre)
      { maybeNotFloat := m } rfl hds hs (by rw [hR]; intro d hd; cases hd; exact h1)
      (by rw [hR]; rintro ⟨_, h⟩; cases h; exact h2 rfl)
    rw [← hw, if_neg hres] at this
    refine ⟨⟨.ident, Lexer.posAfter ⟨0, 1, 1⟩ pre, Lexer.posAfter (Lexer.posAfter ⟨0, 1, 1⟩ pre) (spell n)⟩, ?_, ?_, ?_⟩
    · show Lexer.lexOne adv fuel ⟨spell n ++ _, _, _⟩ = _
      rw [this, hpos]
      rfl
    · simp
    · simp only [tokOf]
      show Tok.ident (code (List.take _ (List.drop _ (pre ++ (spell n ++ _))))) = _
      rw [slice_eq, hn.back]
  | int v =>
    obtain ⟨hv, h1, h2⟩ := h
    rw [hc] at h1 h2
    have hlit := Lexer.decimal_literal' adv fuel (number v) (textOf spell ps ++ [10]) (Lexer.posAfter ⟨0, 1, 1⟩ pre)
      { maybeNotFloat := m } rfl (number_ne v) (number_dig v) (by
        rw [hR]; intro d hd; cases hd
        refine ⟨?_, fun _ => ?_⟩
        · apply Bool.eq_false_iff.2
          intro hx
          apply h1
          right
          simpa [Lexer.isDig] using hx
        · refine ⟨?_, ?_, ?_⟩ <;> (rintro rfl; exact h1 (by decide)))
      (by
        rintro ⟨g1, g2, g3, g4⟩
        rw [hR] at g1
        cases g1
        rcases h2 rfl with h | h
        · subst h; cases g4
        · cases ps with
          | nil => cases h
          | cons q ps =>
            cases h
            exact g3 rfl)
    rw [number_value, Nat.min_eq_left (by omega)] at hlit
    refine ⟨⟨.intLit v, Lexer.posAfter ⟨0, 1, 1⟩ pre, Lexer.posAfter (Lexer.posAfter ⟨0, 1, 1⟩ pre) (number v)⟩, ?_, ?_, ?_⟩
    · show Lexer.lexOne adv fuel ⟨number v ++ _, _, _⟩ = _
      rw [hlit, hpos]
      rfl
    · simp
    · rfl
  | sym s =>
    obtain ⟨h1, h2⟩ := h
    rw [hc] at h2
    obtain ⟨g1, g2⟩ := longest_of (r := r) h2
    have := Lexer.longest_symbol_is_read adv fuel s (c :: r) (Lexer.posAfter ⟨0, 1, 1⟩ pre) { maybeNotFloat := m }
      ⟨rfl, rfl⟩ h1 g1 g2
    refine ⟨⟨.sym s, Lexer.posAfter ⟨0, 1, 1⟩ pre, Lexer.posAfter (Lexer.posAfter ⟨0, 1, 1⟩ pre) (spelling s)⟩, ?_, ?_, ?_⟩
    · show Lexer.lexOne adv fuel ⟨spelling s ++ _, _, _⟩ = _
      rw [hR, this, hpos]
      have : (s == Sym.Dot) = (Tok.sym s == Tok.sym Sym.Dot) := by cases s <;> rfl
      rw [← this]
      rfl
    · simp
    · rfl
  | kw k =>
    obtain ⟨h0, h1, h2⟩ := h
    rw [hc] at h1 h2
    have hkw : ∃ d s, kwText k = d :: s ∧ NameStart d ∧ (∀ x ∈ s, NameChar x) ∧ kwText k ∈ reserved := by
      cases k
      case other => exact absurd rfl h0
      all_goals exact ⟨_, _, rfl, by decide, by decide, by decide +kernel⟩
    obtain ⟨d, s, hw, hds, hs, hres⟩ := hkw
    have := Lexer.word_is_read adv fuel d s (textOf spell ps ++ [10]) (Lexer.posAfter ⟨0, 1, 1⟩ pre)
      { maybeNotFloat := m } rfl hds hs (by rw [hR]; intro d hd; cases hd; exact h1)
      (by rw [hR]; rintro ⟨_, h⟩; cases h; exact h2 rfl)
    rw [← hw, if_pos hres] at this
    refine ⟨⟨.kw (kwText k), Lexer.posAfter ⟨0, 1, 1⟩ pre, Lexer.posAfter (Lexer.posAfter ⟨0, 1, 1⟩ pre) (kwText k)⟩, ?_, ?_, ?_⟩
    · show Lexer.lexOne adv fuel ⟨kwText k ++ _, _, _⟩ = _
      rw [this, hpos]
      rfl
    · simp
    · cases k
      case other => exact absurd rfl h0
      all_goals rfl
  | other => exact h.elim

theorem lexOne_space (adv : L → Res (L × Token)) (fuel : Nat) (c : Nat) (hc : Lexer.isSpace c = true) (rest : List Nat)
    (p : Pos) (fl : Flags) (he : fl.enter = false) :
    Lexer.lexOne adv fuel ⟨c :: rest, p, fl⟩ = Lexer.lexOne adv fuel ⟨rest, Lexer.stepPos p c, fl⟩ := by
  have hs : Lexer.skipSpaces ⟨c :: rest, p, fl⟩ = Lexer.skipSpaces ⟨rest, Lexer.stepPos p c, fl⟩ := by
    simp [Lexer.skipSpaces, Lexer.skipWhile, Lexer.skipWhileAux, hc]
  simp only [Lexer.lexOne, he, hs, Bool.false_eq_true, if_false]

/-- The tokens of a list. -/
def toks (ps : List (Option Tok)) : List Tok := ps.filterMap id

/-- One call of the lexer: the next token of the list, after the spaces before it. -/
theorem lexOne_next {spell : Nat → List Nat} {code : List Nat → Nat} (hn : Names spell code)
    (adv : L → Res (L × Token)) (fuel : Nat) : ∀ (ps : List (Option Tok)) (m : Bool) (pre : List Nat),
    good spell m ps → (∀ t qs, ps = some t :: qs → keep m ((tokText spell t).headD 10) = m) →
    (∀ qs, ps = none :: qs → m = false) → (ps = [] → m = false) →
    (∃ t qs tok m' pre', toks ps = t :: toks qs ∧ qs.length < ps.length ∧ good spell m' qs ∧
      pre' ++ (textOf spell qs ++ [10]) = pre ++ (textOf spell ps ++ [10]) ∧
      Lexer.lexOne adv fuel (stateAt pre (textOf spell ps ++ [10]) m) =
        .ok (.tok (stateAt pre' (textOf spell qs ++ [10]) m') tok) ∧
      tok.tag ≠ .eof ∧ tokOf code (pre ++ (textOf spell ps ++ [10])) tok = t) ∨
    (toks ps = [] ∧ ∃ l tok, tok.tag = .eof ∧
      Lexer.lexOne adv fuel (stateAt pre (textOf spell ps ++ [10]) m) = .ok (.tok l tok)) := by
  intro ps
  induction ps with
  | nil =>
    intro m pre _ _ _ _
    right
    refine ⟨rfl, ⟨[], Lexer.stepPos (Lexer.posAfter ⟨0, 1, 1⟩ pre) 10, { maybeNotFloat := m }⟩,
      ⟨.eof, Lexer.stepPos (Lexer.posAfter ⟨0, 1, 1⟩ pre) 10, Lexer.stepPos (Lexer.posAfter ⟨0, 1, 1⟩ pre) 10⟩, rfl, ?_⟩
    · show Lexer.lexOne adv fuel ⟨[10], _, _⟩ = _
      rw [lexOne_space adv fuel 10 rfl [] _ _ rfl]
      simp only [Lexer.lexOne]
      rfl
  | cons q ps ih =>
    intro m pre hg hk hm0 _
    cases q with
    | none =>
      have hmf := hm0 ps rfl
      subst hmf
      have hg' : good spell false ps := hg
      have hpos : Lexer.posAfter ⟨0, 1, 1⟩ (pre ++ [32]) = Lexer.stepPos (Lexer.posAfter ⟨0, 1, 1⟩ pre) 32 := by
        rw [Lexer.posAfter_append]; rfl
      have hstep : ∀ rest, Lexer.lexOne adv fuel (stateAt pre (32 :: rest) false) =
          Lexer.lexOne adv fuel (stateAt (pre ++ [32]) rest false) := by
        intro rest
        unfold stateAt
        rw [lexOne_space adv fuel 32 rfl _ _ _ rfl, hpos]
      have htext : textOf spell (none :: ps) ++ [10] = 32 :: (textOf spell ps ++ [10]) := rfl
      have hsrc : pre ++ (32 :: (textOf spell ps ++ [10])) = (pre ++ [32]) ++ (textOf spell ps ++ [10]) := by simp
      rw [htext, hstep, hsrc]
      rcases ih false (pre ++ [32]) hg' (fun _ _ _ => rfl) (fun _ _ => rfl) (fun _ => rfl) with
        ⟨t, qs, tok, m', pre', h1, h2, h3, h4, h5, h6, h7⟩ | h
      · exact Or.inl ⟨t, qs, tok, m', pre', h1, by simp; omega, h3, h4, h5, h6, h7⟩
      · exact Or.inr h
    | some t =>
      have hk' := hk t ps rfl
      obtain ⟨h1, h2⟩ := hg
      simp only [hk'] at h1 h2
      obtain ⟨tok, e1, e2, e3⟩ := lexOne_tok hn adv fuel t ps pre m h1
      left
      refine ⟨t, ps, tok, _, pre ++ tokText spell t, rfl, by simp, h2, ?_, ?_, e2, ?_⟩
      · simp [textOf]
      · rw [← e1]; simp [textOf]
      · rw [show textOf spell (some t :: ps) ++ [10] = tokText spell t ++ (textOf spell ps ++ [10]) by simp [textOf]]
        exact e3

theorem tokText_ne {spell : Nat → List Nat} {code : List Nat → Nat} (hn : Names spell code) {m : Bool}
    {ps : List (Option Tok)} {t : Tok} (h : okTok spell m ps t) : tokText spell t ≠ [] := by
  cases t with
  | ident n => obtain ⟨_, c, s, hw, _⟩ := hn.name n; simp [tokText, hw]
  | int v => exact number_ne v
  | sym s => exact spelling_ne s
  | kw k => show kwText k ≠ []; cases k <;> decide
  | other => exact h.elim

theorem good_clear {spell : Nat → List Nat} {code : List Nat → Nat} (hn : Names spell code) (m : Bool)
    (ps : List (Option Tok)) (h : good spell m ps) :
    good spell (keep m (first spell ps)) ps ∧
    (∀ t qs, ps = some t :: qs → keep (keep m (first spell ps)) ((tokText spell t).headD 10) = keep m (first spell ps)) ∧
    (∀ qs, ps = none :: qs → keep m (first spell ps) = false) ∧ (ps = [] → keep m (first spell ps) = false) := by
  cases ps with
  | nil => exact ⟨trivial, by simp, by simp, fun _ => by cases m <;> rfl⟩
  | cons q ps =>
    cases q with
    | none => exact ⟨h, by simp, fun _ _ => by cases m <;> rfl, by simp⟩
    | some t =>
      have hne : tokText spell t ≠ [] := tokText_ne hn h.1
      have hf : first spell (some t :: ps) = (tokText spell t).headD 10 := by
        unfold first
        simp only [textOf, List.append_assoc]
        exact headD_append_ne hne
      have hkk : ∀ c, keep (keep m c) c = keep m c := by intro c; simp [keep]
      rw [hf]
      refine ⟨?_, ?_, by simp, by simp⟩
      · simp only [good, hkk]
        exact h
      · rintro t' qs hq
        cases hq
        exact hkk _

theorem clearMaybe_state (pre : List Nat) (spell : Nat → List Nat) (ps : List (Option Tok)) (m : Bool) :
    Lexer.clearMaybe (stateAt pre (textOf spell ps ++ [10]) m) =
      stateAt pre (textOf spell ps ++ [10]) (keep m (first spell ps)) := by
  have hc : Lexer.cur (stateAt pre (textOf spell ps ++ [10]) m) = first spell ps := by
    unfold Lexer.cur stateAt first
    cases h : textOf spell ps ++ [10] with
    | nil => simp at h
    | cons c r => rfl
  unfold Lexer.clearMaybe
  rw [hc]
  unfold keep stateAt
  cases m
  · simp
  · cases h1 : Lexer.isDig (first spell ps) <;> cases h2 : (first spell ps == 46) <;> simp [h2, bne]

/-- A text made of tokens and spaces is read as these tokens. -/
theorem lexAll_toks {spell : Nat → List Nat} {code : List Nat → Nat} (hn : Names spell code) :
    ∀ (k : Nat) (ps : List (Option Tok)) (m : Bool) (pre : List Nat) (n fuel : Nat), ps.length < k → k ≤ n → 2 ≤ fuel →
      good spell m ps →
      ∃ ts e, Lexer.lexAll fuel n (stateAt pre (textOf spell ps ++ [10]) m) = .ok (ts ++ [e]) ∧
        ts.map (tokOf code (pre ++ (textOf spell ps ++ [10]))) = toks ps := by
  intro k
  induction k with
  | zero => intro ps m pre n fuel h; omega
  | succ k ih =>
    intro ps m pre n fuel hk hkn hf hg
    obtain ⟨g1, g2, g3, g4⟩ := good_clear hn m ps hg
    obtain ⟨n, rfl⟩ : ∃ n', n = n' + 1 := ⟨n - 1, by omega⟩
    obtain ⟨f, rfl⟩ : ∃ f', fuel = f' + 2 := ⟨fuel - 2, by omega⟩
    have hadv : Lexer.advance (f + 2) (stateAt pre (textOf spell ps ++ [10]) m) =
        (Lexer.lexOne (Lexer.advance (f + 1)) (f + 1) (stateAt pre (textOf spell ps ++ [10]) (keep m (first spell ps)))).bind
          fun
          | .tok l' t => .ok (l', t)
          | .again l' => Lexer.lexLoop (Lexer.advance (f + 1)) (f + 1) f l' := by
      rw [Lexer.advance]
      rw [if_neg (by simp [stateAt]), if_neg (by simp [stateAt]), clearMaybe_state]
      rfl
    rcases lexOne_next hn (Lexer.advance (f + 1)) (f + 1) ps _ pre g1 g2 g3 g4 with
      ⟨t, qs, tok, m', pre', h1, h2, h3, h4, h5, h6, h7⟩ | ⟨h1, l, tok, h2, h3⟩
    · obtain ⟨ts, e, e1, e2⟩ := ih qs m' pre' n (f + 2) (by omega) (by omega) hf h3
      refine ⟨tok :: ts, e, ?_, ?_⟩
      · rw [Lexer.lexAll, hadv, h5]
        simp only [Res.bind_ok]
        rw [if_neg h6, e1]
        rfl
      · rw [List.map_cons, h7, h1, ← e2, ← h4]
    · refine ⟨[], tok, ?_, ?_⟩
      · rw [Lexer.lexAll, hadv, h3]
        simp only [Res.bind_ok]
        rw [if_pos h2]
        rfl
      · rw [h1]; rfl

/-- Reading the whole text. -/
theorem lex_toks {spell : Nat → List Nat} {code : List Nat → Nat} (hn : Names spell code) (ps : List (Option Tok))
    (hg : good spell false ps) (fuel : Nat) (hf : ps.length + 2 ≤ fuel) :
    ∃ ts, Lexer.lex fuel (textOf spell ps ++ [10]) = .ok ts ∧
      ts.dropLast.map (tokOf code (textOf spell ps ++ [10])) = toks ps := by
  obtain ⟨ts, e, h1, h2⟩ := lexAll_toks hn (ps.length + 1) ps false [] fuel fuel (by omega) (by omega) (by omega) hg
  exact ⟨ts ++ [e], h1, by simpa using h2⟩

end Verif.Dump
