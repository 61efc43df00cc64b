import Verif.Lang.Dump.Lex
import Verif.Lang.Parser.Props
import Verif.Lang.Parser.Shape
/-!
# C139-C141: source text written for a tree, read again
-/
namespace Verif.Dump
open Lexer (str Sym spelling isToken NameStart NameChar)
open Parser (Tok Kw BinOp PreOp PostOp AsgOp Expr Args Wf WfArgs level tier lead print printArgs dots isPost binTok preTok
  postTok asgTok spreadTok)

/-! ## Specification -/

/-- A prefix operator and the token after it are one longer symbol when no space stands between them. -/
def Joins : PreOp → Tok → Bool
  | .Minus, .sym .Minus | .Minus, .sym .MinusMinus => true
  | .Plus, .sym .Plus | .Plus, .sym .PlusPlus => true
  | .Refof, .sym .BAnd | .Refof, .sym .LAnd | .Refof, .sym .Dot | .Refof, .sym .Elipsis => true
  | _, _ => false

/-- An integer literal: a dot after it makes a float of it. -/
def isInt : Expr → Bool
  | .int _ => true
  | _ => false

mutual
/-- Trees whose tokens stay apart: no prefix operator joins with what follows it, no member of a bare number, no
spread arguments, no empty `catch` blocks, numbers in range. -/
def Apart : Expr → Prop
  | .path _ _ | .dotName _ => True
  | .int v => v < 2 ^ 64
  | .neg v => 0 < v ∧ v < 2 ^ 63
  | .group e => Apart e
  | .member e _ _ => Apart e ∧ isInt e = false
  | .memberInt e v => Apart e ∧ isInt e = false ∧ v < 2 ^ 64
  | .index e i => Apart e ∧ Apart i
  | .call e as => Apart e ∧ ApartArgs as
  | .post _ e => Apart e
  | .pre op e => Apart e ∧ Joins op (lead e) = false
  | .bin _ l r => Apart l ∧ Apart r
  | .catchDiscard _ => False
  | .assign _ l r => Apart l ∧ Apart r
  | .ternary c b o => Apart c ∧ Apart b ∧ Apart o
  | .elvis c o => Apart c ∧ Apart o
def ApartArgs : Args → Prop
  | .nil => True
  | .cons s e as => s = false ∧ Apart e ∧ ApartArgs as
end

/-- The text, as a line of a source file, is read as the tree and nothing is left over. -/
def ReadsAs (code : List Nat → Nat) (text : List Nat) (e : Expr) : Prop :=
  ∃ N, ∀ f, N ≤ f → read code f (text ++ [10]) = .ok (.ok (e, []))

/-! ## The text in tokens and spaces -/

def isWord : PreOp → Bool
  | .Await | .Delete | .Ptrof => true
  | _ => false

mutual
def pieces : Expr → List (Option Tok)
  | .path n ms => some (.ident n) :: (dots ms).map some
  | .int v => [some (.int v)]
  | .neg v => [some (.sym .Minus), some (.int v)]
  | .dotName n => [some (.sym .Dot), some (.ident n)]
  | .group e => some (.sym .LParen) :: (pieces e ++ [some (.sym .RParen)])
  | .member e n ms => pieces e ++ some (.sym .Dot) :: some (.ident n) :: (dots ms).map some
  | .memberInt e v => pieces e ++ [some (.sym .Dot), some (.int v)]
  | .index e i => pieces e ++ some (.sym .IndexExpr) :: (pieces i ++ [some (.sym .RBracket)])
  | .call e as => pieces e ++ some (.sym .LParen) :: (piecesArgs as ++ [some (.sym .RParen)])
  | .post op e => pieces e ++ [some (postTok op)]
  | .pre op e => some (preTok op) :: (if isWord op then none :: pieces e else pieces e)
  | .bin op l r => pieces l ++ none :: some (binTok op) :: none :: pieces r
  | .catchDiscard l => pieces l ++ [none, some (.kw .catch), none, some (.sym .LBrace), none, some (.sym .RBrace)]
  | .assign op l r => pieces l ++ none :: some (asgTok op) :: none :: pieces r
  | .ternary c b o =>
    pieces c ++ some (.sym .Question) :: none :: (pieces b ++ some (.sym .Colon) :: none :: pieces o)
  | .elvis c o => pieces c ++ some (.sym .Question) :: some (.sym .Colon) :: none :: pieces o
def piecesArgs : Args → List (Option Tok)
  | .nil => []
  | .cons _ e .nil => pieces e
  | .cons _ e (.cons s' e' as) => pieces e ++ some (.sym .Comma) :: none :: piecesArgs (.cons s' e' as)
end

theorem textOf_append (spell : Nat → List Nat) (a b : List (Option Tok)) :
    textOf spell (a ++ b) = textOf spell a ++ textOf spell b := by
  induction a with
  | nil => rfl
  | cons q a ih => cases q <;> simp [textOf, ih]

theorem textOf_dots (spell : Nat → List Nat) : ∀ ms, textOf spell ((dots ms).map some) = dumpNames spell ms := by
  intro ms
  induction ms with
  | nil => rfl
  | cons m ms ih =>
    simp only [dots, List.map_cons, textOf, tokText, dumpNames, ih]
    rfl

theorem preText_eq (spell : Nat → List Nat) (op : PreOp) :
    preText op = tokText spell (preTok op) ++ (if isWord op then [32] else []) := by cases op <;> rfl
theorem binText_eq (spell : Nat → List Nat) (op : BinOp) : tokText spell (binTok op) = binText op := by cases op <;> rfl
theorem asgText_eq (spell : Nat → List Nat) (op : AsgOp) : tokText spell (asgTok op) = asgText op := by cases op <;> rfl
theorem postText_eq (spell : Nat → List Nat) (op : PostOp) : tokText spell (postTok op) = postText op := by cases op <;> rfl

mutual
theorem textOf_pieces (spell : Nat → List Nat) : (e : Expr) → Apart e → textOf spell (pieces e) = dump spell e
  | .path n ms, _ => by simp [pieces, dump, textOf, tokText, textOf_dots]
  | .int v, _ => by simp [pieces, dump, textOf, tokText]
  | .neg v, h => by
    have : v ≠ 0 := by have := h.1; omega
    simp [pieces, dump, textOf, tokText, this, spelling, str]
  | .dotName n, _ => by simp [pieces, dump, textOf, tokText, spelling, str]
  | .group e, h => by
    simp [pieces, dump, textOf, tokText, textOf_append, textOf_pieces spell e h, spelling, str]
  | .member e n ms, h => by
    simp [pieces, dump, textOf, tokText, textOf_append, textOf_dots, textOf_pieces spell e h.1, spelling, str]
  | .memberInt e v, h => by
    simp [pieces, dump, textOf, tokText, textOf_append, textOf_pieces spell e h.1, spelling, str]
  | .index e i, h => by
    simp [pieces, dump, textOf, tokText, textOf_append, textOf_pieces spell e h.1, textOf_pieces spell i h.2, spelling,
      str]
  | .call e as, h => by
    simp [pieces, dump, textOf, tokText, textOf_append, textOf_pieces spell e h.1, textOf_args spell as h.2, spelling,
      str]
  | .post op e, h => by
    simp [pieces, dump, textOf, textOf_append, textOf_pieces spell e h, postText_eq]
  | .pre op e, h => by
    rw [pieces, dump, preText_eq spell]
    split
    · simp [textOf, textOf_pieces spell e h.1]
    · simp [textOf, textOf_pieces spell e h.1]
  | .bin op l r, h => by
    simp [pieces, dump, textOf, textOf_append, textOf_pieces spell l h.1, textOf_pieces spell r h.2, binText_eq]
  | .catchDiscard l, h => h.elim
  | .assign op l r, h => by
    simp [pieces, dump, textOf, textOf_append, textOf_pieces spell l h.1, textOf_pieces spell r h.2, asgText_eq]
  | .ternary c b o, h => by
    simp [pieces, dump, textOf, tokText, textOf_append, textOf_pieces spell c h.1, textOf_pieces spell b h.2.1,
      textOf_pieces spell o h.2.2, spelling, str]
  | .elvis c o, h => by
    simp [pieces, dump, textOf, tokText, textOf_append, textOf_pieces spell c h.1, textOf_pieces spell o h.2, spelling, str]
theorem textOf_args (spell : Nat → List Nat) : (as : Args) → ApartArgs as → textOf spell (piecesArgs as) = dumpArgs spell as
  | .nil, _ => by simp [piecesArgs, dumpArgs, textOf]
  | .cons s e .nil, h => by
    have hs := h.1
    subst hs
    simp [piecesArgs, dumpArgs, dumpArg, textOf_pieces spell e h.2.1]
  | .cons s e (.cons s' e' as), h => by
    have hs := h.1
    subst hs
    have := textOf_args spell (.cons s' e' as) h.2.2
    simp [piecesArgs, dumpArgs, dumpArg, textOf, tokText, textOf_append, textOf_pieces spell e h.2.1, this, spelling, str]
end

theorem toks_append (a b : List (Option Tok)) : toks (a ++ b) = toks a ++ toks b := by simp [toks]
theorem toks_some (t : Tok) (b : List (Option Tok)) : toks (some t :: b) = t :: toks b := rfl
theorem toks_none (b : List (Option Tok)) : toks (none :: b) = toks b := rfl
theorem toks_map (l : List Tok) : toks (l.map some) = l := by simp [toks, List.filterMap_map]

mutual
theorem toks_pieces : (e : Expr) → Apart e → toks (pieces e) = print e
  | .path n ms, _ => by simp [pieces, print, toks_some, toks_map]
  | .int v, _ => rfl
  | .neg v, _ => rfl
  | .dotName n, _ => rfl
  | .group e, h => by simp [pieces, print, toks_some, toks_append, toks_pieces e h]; rfl
  | .member e n ms, h => by simp [pieces, print, toks_some, toks_append, toks_map, toks_pieces e h.1]
  | .memberInt e v, h => by simp [pieces, print, toks_some, toks_append, toks_pieces e h.1]; rfl
  | .index e i, h => by simp [pieces, print, toks_some, toks_append, toks_pieces e h.1, toks_pieces i h.2]; rfl
  | .call e as, h => by simp [pieces, print, toks_some, toks_append, toks_pieces e h.1, toks_args as h.2]; rfl
  | .post op e, h => by simp [pieces, print, toks_some, toks_append, toks_pieces e h]; rfl
  | .pre op e, h => by
    rw [pieces, print]
    split <;> simp [toks_some, toks_none, toks_pieces e h.1]
  | .bin op l r, h => by simp [pieces, print, toks_some, toks_none, toks_append, toks_pieces l h.1, toks_pieces r h.2]
  | .catchDiscard l, h => h.elim
  | .assign op l r, h => by simp [pieces, print, toks_some, toks_none, toks_append, toks_pieces l h.1, toks_pieces r h.2]
  | .ternary c b o, h => by
    simp [pieces, print, toks_some, toks_none, toks_append, toks_pieces c h.1, toks_pieces b h.2.1, toks_pieces o h.2.2]
  | .elvis c o, h => by simp [pieces, print, toks_some, toks_none, toks_append, toks_pieces c h.1, toks_pieces o h.2]
theorem toks_args : (as : Args) → ApartArgs as → toks (piecesArgs as) = printArgs as
  | .nil, _ => rfl
  | .cons s e .nil, h => by
    have hs := h.1
    subst hs
    simp [piecesArgs, printArgs, spreadTok, toks_pieces e h.2.1]
  | .cons s e (.cons s' e' as), h => by
    have hs := h.1
    subst hs
    have := toks_args (.cons s' e' as) h.2.2
    simp [piecesArgs, printArgs, spreadTok, toks_some, toks_none, toks_append, toks_pieces e h.2.1, this]
end

/-! ## No two tokens join -/

/-- The bytes that make a longer symbol. -/
def ext (s : Sym) : List Nat :=
  allSyms.filterMap (fun s' => if (spelling s).isPrefixOf (spelling s') then (spelling s')[(spelling s).length]? else none) ++
    (if s = .Div then [47, 42] else [])

theorem extends_of_ext {s : Sym} {c : Nat} (h : c ∉ ext s) : extends_ s c = false := by
  unfold extends_
  rw [Bool.or_eq_false_iff]
  constructor
  · rw [List.any_eq_false]
    intro s' hs' hp
    apply h
    rw [List.isPrefixOf_iff_prefix] at hp
    obtain ⟨q, hq⟩ := hp
    unfold ext
    rw [List.mem_append]
    left
    rw [List.mem_filterMap]
    refine ⟨s', hs', ?_⟩
    have h1 : spelling s <+: spelling s' := ⟨[c] ++ q, by rw [← hq]; simp⟩
    rw [if_pos (by rwa [List.isPrefixOf_iff_prefix]), ← hq]
    simp
  · cases hs : (s == Sym.Div)
    · rfl
    · have hs' : s = .Div := by simpa using hs
      subst hs'
      simp only [Bool.true_and, Bool.or_eq_false_iff, beq_eq_false_iff_ne]
      constructor <;> (rintro rfl; exact h (by decide))

/-- The bytes that can stand after an expression. -/
def stops : List Nat := [10, 32, 40, 41, 43, 44, 45, 46, 58, 63, 93]

/-- What may follow an expression. -/
def Next (spell : Nat → List Nat) (e : Expr) (ps : List (Option Tok)) : Prop :=
  first spell ps ∈ stops ∧
    (first spell ps = 46 → isPost e = true ∧ (isInt e = true → ps.head? = some (some (.sym .IndexExpr))))

theorem stop_name {c : Nat} (h : c ∈ stops) : ¬ NameChar c ∧ c ≠ 34 := by
  simp only [stops, List.mem_cons, List.not_mem_nil, or_false] at h
  rcases h with rfl | rfl | rfl | rfl | rfl | rfl | rfl | rfl | rfl | rfl | rfl <;> decide

theorem first_tok {spell : Nat → List Nat} (t : Tok) (ps : List (Option Tok)) (h : tokText spell t ≠ []) :
    first spell (some t :: ps) = (tokText spell t).headD 10 := by
  unfold first
  simp only [textOf, List.append_assoc]
  exact headD_append_ne h

theorem first_sym (spell : Nat → List Nat) (s : Sym) (ps : List (Option Tok)) :
    first spell (some (.sym s) :: ps) = (spelling s).headD 10 := first_tok _ _ (spelling_ne s)

theorem first_none (spell : Nat → List Nat) (ps : List (Option Tok)) : first spell (none :: ps) = 32 := rfl

theorem pieces_lead : (e : Expr) → ∃ ps, pieces e = some (lead e) :: ps
  | .path n ms => ⟨_, rfl⟩
  | .int v => ⟨_, rfl⟩
  | .neg v => ⟨_, rfl⟩
  | .dotName n => ⟨_, rfl⟩
  | .group e => ⟨_, rfl⟩
  | .member e n ms => by obtain ⟨ps, h⟩ := pieces_lead e; exact ⟨_, by simp only [pieces, lead, h, List.cons_append]; rfl⟩
  | .memberInt e v => by obtain ⟨ps, h⟩ := pieces_lead e; exact ⟨_, by simp only [pieces, lead, h, List.cons_append]; rfl⟩
  | .index e i => by obtain ⟨ps, h⟩ := pieces_lead e; exact ⟨_, by simp only [pieces, lead, h, List.cons_append]; rfl⟩
  | .call e as => by obtain ⟨ps, h⟩ := pieces_lead e; exact ⟨_, by simp only [pieces, lead, h, List.cons_append]; rfl⟩
  | .post op e => by obtain ⟨ps, h⟩ := pieces_lead e; exact ⟨_, by simp only [pieces, lead, h, List.cons_append]; rfl⟩
  | .pre op e => ⟨_, rfl⟩
  | .bin op l r => by obtain ⟨ps, h⟩ := pieces_lead l; exact ⟨_, by simp only [pieces, lead, h, List.cons_append]; rfl⟩
  | .catchDiscard l => by obtain ⟨ps, h⟩ := pieces_lead l; exact ⟨_, by simp only [pieces, lead, h, List.cons_append]; rfl⟩
  | .assign op l r => by obtain ⟨ps, h⟩ := pieces_lead l; exact ⟨_, by simp only [pieces, lead, h, List.cons_append]; rfl⟩
  | .ternary c b o => by obtain ⟨ps, h⟩ := pieces_lead c; exact ⟨_, by simp only [pieces, lead, h, List.cons_append]; rfl⟩
  | .elvis c o => by obtain ⟨ps, h⟩ := pieces_lead c; exact ⟨_, by simp only [pieces, lead, h, List.cons_append]; rfl⟩

/-- The first tokens of expressions. -/
inductive Lead : Tok → Prop
  | ident (n : Nat) : Lead (.ident n)
  | int (v : Nat) : Lead (.int v)
  | paren : Lead (.sym .LParen)
  | dot : Lead (.sym .Dot)
  | pre (op : PreOp) : Lead (preTok op)

theorem lead_lead : (e : Expr) → Lead (lead e)
  | .path n _ => .ident n
  | .int v => .int v
  | .neg _ => .pre .Minus
  | .dotName _ => .dot
  | .group _ => .paren
  | .member e _ _ | .memberInt e _ | .index e _ | .call e _ | .post _ e => lead_lead e
  | .pre op _ => .pre op
  | .bin _ l _ | .catchDiscard l | .assign _ l _ => lead_lead l
  | .ternary c _ _ | .elvis c _ => lead_lead c

theorem lead_text {spell : Nat → List Nat} {code : List Nat → Nat} (hn : Names spell code) {t : Tok} (h : Lead t) :
    tokText spell t ≠ [] := by
  cases h with
  | ident n => obtain ⟨_, c, s, hw, _⟩ := hn.name n; simp [tokText, hw]
  | int v => exact number_ne v
  | paren => exact spelling_ne .LParen
  | dot => exact spelling_ne .Dot
  | pre op => cases op <;> simp [tokText, preTok, kwText, spelling, str]

theorem ext_pre (op : PreOp) (s : Sym) (hs : preTok op = .sym s) : ∀ x ∈ ext s, x ∈ [62, 45, 61, 43, 58, 38, 46] := by
  cases op <;> simp only [preTok] at hs <;> cases hs <;> decide +kernel

theorem pre_apart {spell : Nat → List Nat} {code : List Nat → Nat} (hn : Names spell code) (op : PreOp) (t : Tok)
    (ht : Lead t) (hj : Joins op t = false) (s : Sym) (hs : preTok op = .sym s) :
    (tokText spell t).headD 10 ∉ ext s := by
  cases ht with
  | ident n =>
    obtain ⟨_, c, w, hw, hc, _⟩ := hn.name n
    rw [show tokText spell (.ident n) = c :: w from hw]
    show c ∉ ext s
    intro hm
    have := ext_pre op s hs c hm
    unfold NameStart at hc
    simp at this
    omega
  | int v =>
    have hd := number_dig v
    have hne := number_ne v
    show (number v).headD 10 ∉ ext s
    revert hd hne
    cases number v with
    | nil => intro _ h; exact absurd rfl h
    | cons c w =>
      intro hd _ hm
      have hc := hd c (by simp)
      simp [Lexer.isDig] at hc
      have := ext_pre op s hs c hm
      simp at this
      omega
  | paren =>
    intro hm
    have := ext_pre op s hs _ hm
    revert this
    simp only [tokText]
    decide
  | dot =>
    cases op <;> simp only [preTok] at hs <;> cases hs <;>
      first | (exact absurd hj (by decide)) | (clear hj; simp only [tokText]; decide +kernel)
  | pre op' =>
    cases op <;> simp only [preTok] at hs <;> cases hs <;> cases op' <;>
      first | (exact absurd hj (by decide)) | (clear hj; simp only [preTok, tokText]; decide +kernel)

theorem sym_ok {spell : Nat → List Nat} {m : Bool} {ps : List (Option Tok)} {s : Sym} (ht : isToken s = true)
    (h : first spell ps ∉ ext s) : okTok spell m ps (.sym s) := ⟨ht, extends_of_ext h⟩

theorem good_sym {spell : Nat → List Nat} {ps : List (Option Tok)} {s : Sym} (ht : isToken s = true)
    (h : first spell ps ∉ ext s) (hg : ∀ m, good spell m ps) (m : Bool) : good spell m (some (.sym s) :: ps) :=
  ⟨sym_ok ht h, hg _⟩

theorem good_end {spell : Nat → List Nat} {ps : List (Option Tok)} {s : Sym} (ht : isToken s = true) (h : ext s = [])
    (hg : ∀ m, good spell m ps) (m : Bool) : good spell m (some (.sym s) :: ps) :=
  good_sym ht (by simp [h]) hg m

theorem good_none {spell : Nat → List Nat} {ps : List (Option Tok)} (hg : ∀ m, good spell m ps) (m : Bool) :
    good spell m (none :: ps) := hg _

theorem good_ident {spell : Nat → List Nat} {ps : List (Option Tok)} (n : Nat) (h : first spell ps ∈ stops)
    (hg : ∀ m, good spell m ps) (m : Bool) : good spell m (some (.ident n) :: ps) :=
  ⟨stop_name h, hg _⟩

theorem name_first {spell : Nat → List Nat} {code : List Nat → Nat} (hn : Names spell code) (n : Nat) (ps : List (Option Tok)) :
    NameStart (first spell (some (.ident n) :: ps)) := by
  obtain ⟨_, c, s, hw, hc, _⟩ := hn.name n
  rw [first_tok _ _ (by simp [tokText, hw])]
  simp [tokText, hw, hc]

theorem int_first {spell : Nat → List Nat} (v : Nat) (ps : List (Option Tok)) :
    Lexer.isDig (first spell (some (.int v) :: ps)) = true := by
  have hd := number_dig v
  rw [first_tok (spell := spell) (.int v) _ (number_ne v)]
  show Lexer.isDig ((number v).headD 10) = true
  revert hd
  cases h : number v with
  | nil => exact absurd h (number_ne v)
  | cons c w => intro hd; exact hd c (by simp)

theorem name_not_ext {c : Nat} (h : NameStart c) : c ∉ ext .Dot := by
  unfold NameStart at h
  have : ext .Dot = [46, 46, 91] := by decide
  rw [this]
  simp
  omega

theorem dig_not_ext {c : Nat} (h : Lexer.isDig c = true) : c ∉ ext .Dot ∧ c ∉ ext .Minus := by
  simp [Lexer.isDig] at h
  have h1 : ext .Dot = [46, 46, 91] := by decide
  have h2 : ext .Minus = [62, 45, 61] := by decide
  rw [h1, h2]
  simp
  omega

theorem dots_next {spell : Nat → List Nat} (ms : List Nat) (ps : List (Option Tok)) (h : first spell ps ∈ stops) :
    first spell ((dots ms).map some ++ ps) ∈ stops := by
  cases ms with
  | nil => exact h
  | cons m ms => show first spell (some (.sym .Dot) :: _) ∈ stops; rw [first_sym]; decide

theorem good_dots {spell : Nat → List Nat} {code : List Nat → Nat} (hn : Names spell code) (ps : List (Option Tok))
    (h : first spell ps ∈ stops) (hg : ∀ m, good spell m ps) : ∀ (ms : List Nat) (m : Bool),
    good spell m ((dots ms).map some ++ ps) := by
  intro ms
  induction ms with
  | nil => exact hg
  | cons n ms ih =>
    intro m
    show good spell m (some (.sym .Dot) :: some (.ident n) :: ((dots ms).map some ++ ps))
    exact good_sym rfl (name_not_ext (name_first hn n _)) (good_ident n (dots_next ms ps h) ih) m

/-- A number after a dot. -/
theorem good_dot_int {spell : Nat → List Nat} {ps : List (Option Tok)} {v : Nat} (hv : v < 2 ^ 64)
    (h : first spell ps ∈ stops) (hg : ∀ m, good spell m ps) (m : Bool) :
    good spell m (some (.sym .Dot) :: some (.int v) :: ps) := by
  refine ⟨sym_ok rfl (dig_not_ext (int_first v ps)).1, ?_⟩
  show good spell true (some (.int v) :: ps)
  have hk : keep true ((tokText spell (.int v)).headD 10) = true := by
    have := int_first (spell := spell) v ps
    rw [first_tok (spell := spell) (.int v) _ (number_ne v)] at this
    simp only [keep, this]
    rfl
  refine ⟨?_, hg _⟩
  rw [hk]
  exact ⟨hv, (stop_name h).1, fun _ => Or.inl rfl⟩

theorem good_int {spell : Nat → List Nat} {ps : List (Option Tok)} {v : Nat} (hv : v < 2 ^ 64)
    (h : first spell ps ∈ stops) (hd : first spell ps = 46 → ps.head? = some (some (.sym .IndexExpr)))
    (hg : ∀ m, good spell m ps) (m : Bool) : good spell m (some (.int v) :: ps) :=
  ⟨⟨hv, (stop_name h).1, fun hc => Or.inr (hd hc)⟩, hg _⟩

theorem good_kw {spell : Nat → List Nat} {ps : List (Option Tok)} {k : Kw} (hk : k ≠ .other)
    (hg : ∀ m, good spell m ps) (m : Bool) : good spell m (some (.kw k) :: none :: ps) :=
  ⟨⟨hk, by rw [first_none]; decide, by rw [first_none]; decide⟩, hg _⟩

theorem bin_space (spell : Nat → List Nat) (op : BinOp) (ps : List (Option Tok)) (hg : ∀ m, good spell m ps) (m : Bool) :
    good spell m (none :: some (binTok op) :: none :: ps) := by
  cases op
  case Catch => exact good_kw (by decide) hg _
  case Is => exact good_kw (by decide) hg _
  all_goals exact good_sym rfl (by rw [first_none]; decide +kernel) (good_none hg) _

theorem asg_space (spell : Nat → List Nat) (op : AsgOp) (ps : List (Option Tok)) (hg : ∀ m, good spell m ps) (m : Bool) :
    good spell m (none :: some (asgTok op) :: none :: ps) := by
  cases op <;> exact good_sym rfl (by rw [first_none]; decide +kernel) (good_none hg) _

theorem post_sym (op : PostOp) : ∃ s, postTok op = .sym s ∧ isToken s = true ∧ ext s = [] ∧ (spelling s).headD 10 ∈ stops ∧
    (spelling s).headD 10 ≠ 46 := by
  cases op
  · exact ⟨_, rfl, by decide +kernel⟩
  · exact ⟨_, rfl, by decide +kernel⟩

theorem next_of {spell : Nat → List Nat} {e : Expr} {ps : List (Option Tok)} (h : first spell ps ∈ stops)
    (h2 : first spell ps ≠ 46) : Next spell e ps := ⟨h, fun hc => absurd hc h2⟩

theorem next_sym {spell : Nat → List Nat} {e : Expr} {ps : List (Option Tok)} {s : Sym}
    (h : (spelling s).headD 10 ∈ stops) (h2 : (spelling s).headD 10 ≠ 46) : Next spell e (some (.sym s) :: ps) :=
  next_of (by rwa [first_sym]) (by rwa [first_sym])

theorem next_space {spell : Nat → List Nat} {e : Expr} {ps : List (Option Tok)} : Next spell e (none :: ps) :=
  next_of (by rw [first_none]; decide) (by rw [first_none]; decide)

theorem Next.plain {spell : Nat → List Nat} {e e' : Expr} {ps : List (Option Tok)} (h : Next spell e ps)
    (hp : isPost e = false) : Next spell e' ps :=
  next_of h.1 (fun hc => by have := (h.2 hc).1; rw [hp] at this; cases this)

mutual
theorem good_pieces {spell : Nat → List Nat} {code : List Nat → Nat} (hn : Names spell code) : (e : Expr) →
    (ps : List (Option Tok)) → Apart e → Wf e → Next spell e ps → (∀ m, good spell m ps) →
    ∀ m, good spell m (pieces e ++ ps)
  | .path n ms, ps, _, _, hx, hg => by
    rw [pieces, List.cons_append]
    exact good_ident n (dots_next ms ps hx.1) (good_dots hn ps hx.1 hg ms)
  | .int v, ps, ha, _, hx, hg => good_int ha hx.1 (fun hc => (hx.2 hc).2 rfl) hg
  | .neg v, ps, ha, _, hx, hg => by
    have hv : v < 2 ^ 64 := by have := ha.2; omega
    exact good_sym rfl (dig_not_ext (int_first v ps)).2
      (good_int hv hx.1 (fun hc => by have := (hx.2 hc).1; cases this) hg)
  | .dotName n, ps, _, _, hx, hg =>
    good_sym rfl (name_not_ext (name_first hn n ps)) (good_ident n hx.1 hg)
  | .group e, ps, ha, hw, hx, hg => by
    simp only [pieces, List.cons_append, List.append_assoc, List.nil_append]
    exact good_end rfl (by decide +kernel)
      (good_pieces hn e _ ha hw (next_sym (by decide) (by decide)) (good_end rfl (by decide +kernel) hg))
  | .member e n ms, ps, ha, hw, hx, hg => by
    simp only [pieces, List.cons_append, List.append_assoc]
    refine good_pieces hn e _ ha.1 hw.1 ⟨by rw [first_sym]; decide, fun _ => ⟨hw.2.1, fun hi => ?_⟩⟩
      (good_sym rfl (name_not_ext (name_first hn n _)) (good_ident n (dots_next ms ps hx.1) (good_dots hn ps hx.1 hg ms)))
    rw [ha.2] at hi; cases hi
  | .memberInt e v, ps, ha, hw, hx, hg => by
    simp only [pieces, List.cons_append, List.append_assoc, List.nil_append]
    refine good_pieces hn e _ ha.1 hw.1 ⟨by rw [first_sym]; decide, fun _ => ⟨hw.2, fun hi => ?_⟩⟩
      (good_dot_int ha.2.2 hx.1 hg)
    rw [ha.2.1] at hi; cases hi
  | .index e i, ps, ha, hw, hx, hg => by
    simp only [pieces, List.cons_append, List.append_assoc, List.nil_append]
    exact good_pieces hn e _ ha.1 hw.1 ⟨by rw [first_sym]; decide, fun _ => ⟨hw.2.1, fun _ => rfl⟩⟩
      (good_end rfl (by decide +kernel) (good_pieces hn i _ ha.2 hw.2.2 (next_sym (by decide) (by decide))
        (good_end rfl (by decide +kernel) hg)))
  | .call e as, ps, ha, hw, hx, hg => by
    simp only [pieces, List.cons_append, List.append_assoc, List.nil_append]
    exact good_pieces hn e _ ha.1 hw.1 (next_sym (by decide) (by decide))
      (good_end rfl (by decide +kernel) (good_args hn as _ ha.2 hw.2.2 (by rw [first_sym]; decide)
        (by rw [first_sym]; decide) (good_end rfl (by decide +kernel) hg)))
  | .post op e, ps, ha, hw, hx, hg => by
    obtain ⟨s, h1, h2, h3, h4, h5⟩ := post_sym op
    simp only [pieces, List.cons_append, List.append_assoc, List.nil_append, h1]
    exact good_pieces hn e _ ha hw.1 (next_sym h4 h5) (good_end h2 h3 hg)
  | .pre op e, ps, ha, hw, hx, hg => by
    have ih := good_pieces hn e ps ha.1 hw.1 (hx.plain rfl) hg
    obtain ⟨qs, hq⟩ := pieces_lead e
    have hf : first spell (pieces e ++ ps) = (tokText spell (lead e)).headD 10 := by
      rw [hq, List.cons_append]
      exact first_tok _ _ (lead_text hn (lead_lead e))
    have hj := pre_apart hn op (lead e) (lead_lead e) ha.2
    simp only [pieces, List.cons_append]
    cases op
    case Await => exact good_kw (by decide) ih
    case Delete => exact good_kw (by decide) ih
    case Ptrof => exact good_kw (by decide) ih
    all_goals exact good_sym rfl (by rw [if_neg (by decide), hf]; exact hj _ rfl) ih
  | .bin op l r, ps, ha, hw, hx, hg => by
    simp only [pieces, List.cons_append, List.append_assoc]
    exact good_pieces hn l _ ha.1 hw.1 next_space
      (bin_space spell op _ (good_pieces hn r ps ha.2 hw.2.1 (hx.plain rfl) hg))
  | .catchDiscard l, ps, ha, _, _, _ => ha.elim
  | .assign op l r, ps, ha, hw, hx, hg => by
    simp only [pieces, List.cons_append, List.append_assoc]
    exact good_pieces hn l _ ha.1 hw.1 next_space
      (asg_space spell op _ (good_pieces hn r ps ha.2 hw.2.1 (hx.plain rfl) hg))
  | .ternary c b o, ps, ha, hw, hx, hg => by
    simp only [pieces, List.cons_append, List.append_assoc]
    exact good_pieces hn c _ ha.1 hw.1 (next_sym (by decide) (by decide))
      (good_end rfl (by decide +kernel) (good_none (good_pieces hn b _ ha.2.1 hw.2.1 (next_sym (by decide) (by decide))
        (good_end rfl (by decide +kernel) (good_none (good_pieces hn o ps ha.2.2 hw.2.2.1 (hx.plain rfl) hg))))))
  | .elvis c o, ps, ha, hw, hx, hg => by
    simp only [pieces, List.cons_append, List.append_assoc]
    exact good_pieces hn c _ ha.1 hw.1 (next_sym (by decide) (by decide))
      (good_end rfl (by decide +kernel)
        (good_end rfl (by decide +kernel) (good_none (good_pieces hn o ps ha.2 hw.2.1 (hx.plain rfl) hg))))
theorem good_args {spell : Nat → List Nat} {code : List Nat → Nat} (hn : Names spell code) : (as : Args) →
    (ps : List (Option Tok)) → ApartArgs as → WfArgs as → first spell ps ∈ stops → first spell ps ≠ 46 →
    (∀ m, good spell m ps) → ∀ m, good spell m (piecesArgs as ++ ps)
  | .nil, ps, _, _, _, _, hg => by rw [piecesArgs]; exact hg
  | .cons s e .nil, ps, ha, hw, h1, h2, hg => by
    rw [piecesArgs]
    exact good_pieces hn e ps ha.2.1 hw.1 (next_of h1 h2) hg
  | .cons s e (.cons s' e' as), ps, ha, hw, h1, h2, hg => by
    simp only [piecesArgs, List.cons_append, List.append_assoc]
    exact good_pieces hn e _ ha.2.1 hw.1 (next_sym (by decide) (by decide))
      (good_end rfl (by decide +kernel) (good_none (good_args hn (.cons s' e' as) ps ha.2.2 hw.2.2 h1 h2 hg)))
end

/-- A text of tokens and spaces is read as the tree that the parser gives for the tokens. -/
theorem reads_of {spell : Nat → List Nat} {code : List Nat → Nat} (hn : Names spell code) (ps : List (Option Tok))
    (hg : good spell false ps) (e : Expr) (hp : Parser.Parses (toks ps) e []) : ReadsAs code (textOf spell ps) e := by
  obtain ⟨N, hN⟩ := hp
  refine ⟨N + ps.length + 2, fun f hf => ?_⟩
  obtain ⟨ts, h1, h2⟩ := lex_toks hn ps hg f (by omega)
  unfold read
  rw [h1]
  simp only [Res.bind_ok]
  rw [h2, hN f (by omega)]

theorem parses_wf (e : Expr) (h : Wf e) : Parser.Parses (print e) e [] := by
  have := (Parser.printed_expression_is_read_back e).1
  rwa [(Parser.printed_expression_is_read_back e).2.2 h] at this

/-! ## C139: the text is read back -/

/-- **C139 (partial).** The text written for an expression tree, of any depth, is read back, by the lexer and the
parser, as the same tree, if the tree is one the parser can build (`Wf`) and its tokens stay apart.  Missing: trees
that need parentheses they do not have, joined operators, spread arguments, `catch` blocks (theorems below), types,
literals other than integers, statements. -/
theorem written_expression_is_read_back_partial {spell : Nat → List Nat} {code : List Nat → Nat} (hn : Names spell code)
    (e : Expr) (hw : Wf e) (ha : Apart e) : ReadsAs code (dump spell e) e := by
  have hg := good_pieces hn e [] ha hw (next_of (by show 10 ∈ stops; decide) (by show 10 ≠ 46; decide)) (fun _ => trivial) false
  rw [List.append_nil] at hg
  rw [← textOf_pieces spell e ha]
  exact reads_of hn _ hg e (by rw [toks_pieces e ha]; exact parses_wf e hw)

/-- **C139, partial: expressions that were read.** Whatever tokens an expression was read from, the text written for
it is read as the same tree.  Missing: sources with a plus sign before a number or `catch discard` (`PlainToks`), and
trees whose written tokens join or are left out (`Apart`). -/
theorem parsed_expression_is_read_back_partial {spell : Nat → List Nat} {code : List Nat → Nat} (hn : Names spell code)
    (f : Nat) (ts r : List Tok) (e : Expr) (hp : Parser.PlainToks ts) (h : Parser.expression f ts = .ok (e, r))
    (ha : Apart e) : ReadsAs code (dump spell e) e :=
  written_expression_is_read_back_partial hn e ((Parser.shapes f).expression ts e r hp h).1 ha

/-- `x0 - (x1 = 2) * x2, ...` -/
example : ∃ e, Parser.expression 100 [.ident 0, .sym .Minus, .sym .LParen, .ident 1, .sym .Assign, .int 2, .sym .RParen,
      .sym .Mult, .ident 2, .sym .Comma] = .ok (e, [.sym .Comma]) ∧ Apart e ∧
    Parser.PlainToks [.ident 0, .sym .Minus, .sym .LParen, .ident 1, .sym .Assign, .int 2, .sym .RParen,
      .sym .Mult, .ident 2, .sym .Comma] :=
  ⟨.bin .Sub (.path 0 []) (.bin .Mul (.group (.assign .Assign (.path 1 []) (.int 2))) (.path 2 [])), rfl,
    by simp [Apart], by simp [Parser.PlainToks]⟩

/-- The names `x`, `xx`, `xxx`, ... -/
theorem names_exist : Names (fun n => List.replicate (n + 1) 120) (fun w => w.length - 1) where
  name n := by
    refine ⟨fun h => ?_, 120, List.replicate n 120, rfl, by decide, fun d hd => by
      rw [List.eq_of_mem_replicate hd]; decide⟩
    have key : ∀ w ∈ Lexer.reserved, ¬ ∀ c ∈ w, c = 120 := by decide +kernel
    exact key _ h (fun c hc => List.eq_of_mem_replicate hc)
  back n := by simp

/-- `x.0.xx = -(-xxx) - 1 ? *x.[0 .. 9] : !x(7, ++x)`, a tree of the parser whose tokens stay apart. -/
example : Wf (.ternary (.assign .Assign (.member (.memberInt (.path 0 []) 0) 1 [])
      (.bin .Sub (.pre .Minus (.group (.pre .Minus (.path 2 [])))) (.int 1)))
    (.pre .Deref (.index (.path 0 []) (.bin .Range (.int 0) (.int 9))))
    (.pre .Not (.call (.path 0 []) (.cons false (.int 7) (.cons false (.pre .PreInc (.path 0 [])) .nil))))) ∧
  Apart (.ternary (.assign .Assign (.member (.memberInt (.path 0 []) 0) 1 [])
      (.bin .Sub (.pre .Minus (.group (.pre .Minus (.path 2 [])))) (.int 1)))
    (.pre .Deref (.index (.path 0 []) (.bin .Range (.int 0) (.int 9))))
    (.pre .Not (.call (.path 0 []) (.cons false (.int 7) (.cons false (.pre .PreInc (.path 0 [])) .nil))))) := by
  simp [Wf, WfArgs, Apart, ApartArgs, Joins, isInt, lead, isPost, Parser.endsInPath, level, Parser.signed, Parser.Tok.isInt,
    preTok]
  decide

/-! ## C140: operators that join -/

/-- **C140 is false of the code.** A sign or address operator before the same operator is written without a space,
and the two are read as one operator: `- -x` becomes `--x`, `+ +x` becomes `++x`, `& &x` becomes `&&x`. -/
theorem joined_operators_are_another {spell : Nat → List Nat} {code : List Nat → Nat} (hn : Names spell code)
    (op joined : PreOp) (h : (op, joined) ∈ [(PreOp.Minus, PreOp.PreDec), (.Plus, .PreInc), (.Refof, .Move)])
    (e : Expr) (hw : Wf (.pre op (.pre op e))) (ha : Apart e) :
    ReadsAs code (dump spell (.pre op (.pre op e))) (.pre joined e) := by
  have ht : dump spell (.pre op (.pre op e)) = dump spell (.pre joined e) := by
    simp only [List.mem_cons, List.not_mem_nil, or_false, Prod.mk.injEq] at h
    rcases h with ⟨rfl, rfl⟩ | ⟨rfl, rfl⟩ | ⟨rfl, rfl⟩ <;> simp [dump, preText, str]
  rw [ht]
  apply written_expression_is_read_back_partial hn
  · refine ⟨hw.1.1, hw.1.2.1, ?_⟩
    simp only [List.mem_cons, List.not_mem_nil, or_false, Prod.mk.injEq] at h
    rcases h with ⟨rfl, rfl⟩ | ⟨rfl, rfl⟩ | ⟨rfl, rfl⟩ <;> rfl
  · refine ⟨ha, ?_⟩
    simp only [List.mem_cons, List.not_mem_nil, or_false, Prod.mk.injEq] at h
    rcases h with ⟨rfl, rfl⟩ | ⟨rfl, rfl⟩ | ⟨rfl, rfl⟩ <;> cases lead e <;> rfl

example : Wf (.pre .Minus (.pre .Minus (.path 0 []))) ∧ Apart (.path 0 []) := by
  simp [Wf, Apart, level, Parser.signed, lead, Parser.Tok.isInt, preTok]

/-- **C140 is false of the code.** A minus before a negative number is written as a decrement of the number. -/
theorem minus_negative_number_is_decrement {spell : Nat → List Nat} {code : List Nat → Nat} (hn : Names spell code)
    (v : Nat) (h : 0 < v ∧ v < 2 ^ 63) :
    Wf (.pre .Minus (.neg v)) ∧ ReadsAs code (dump spell (.pre .Minus (.neg v))) (.pre .PreDec (.int v)) := by
  constructor
  · simp [Wf, level, Parser.signed, lead, Parser.Tok.isInt]
  · have h0 : v ≠ 0 := by omega
    have ht : dump spell (.pre .Minus (.neg v)) = dump spell (.pre .PreDec (.int v)) := by
      simp [dump, preText, str, h0]
    rw [ht]
    apply written_expression_is_read_back_partial hn
    · simp [Wf, level, Parser.signed]
    · simp [Apart, Joins]; omega

example : (0 : Nat) < 5 ∧ 5 < 2 ^ 63 := by decide

/-! ## C139 is false of the code -/

/-- **C139 is false of the code.** Parentheses are written only where the tree has a group.  A tree without the group,
as the expansion of a macro builds it, is read back with its operators grouped otherwise: on the left, ... -/
theorem ungrouped_left_operand_regroups {spell : Nat → List Nat} {code : List Nat → Nat} (hn : Names spell code)
    (o1 o2 : BinOp) (h : tier o1 < tier o2) (a b c : Expr) (ha : Wf a ∧ Apart a ∧ level a ≤ tier o2)
    (hb : Wf b ∧ Apart b ∧ level b ≤ tier o1) (hc : Wf c ∧ Apart c ∧ level c < tier o1) :
    ReadsAs code (dump spell (.bin o1 (.bin o2 a b) c)) (.bin o2 a (.bin o1 b c)) := by
  have ht : dump spell (.bin o1 (.bin o2 a b) c) = dump spell (.bin o2 a (.bin o1 b c)) := by simp [dump]
  rw [ht]
  apply written_expression_is_read_back_partial hn
  · exact ⟨ha.1, ⟨hb.1, hc.1, hb.2.2, hc.2.2⟩, ha.2.2, h⟩
  · exact ⟨ha.2.1, hb.2.1, hc.2.1⟩

/-- ... on the right, ... -/
theorem ungrouped_right_operand_regroups {spell : Nat → List Nat} {code : List Nat → Nat} (hn : Names spell code)
    (o1 o2 : BinOp) (h : tier o1 ≤ tier o2) (a b c : Expr) (ha : Wf a ∧ Apart a ∧ level a ≤ tier o1)
    (hb : Wf b ∧ Apart b ∧ level b < tier o1) (hc : Wf c ∧ Apart c ∧ level c < tier o2) :
    ReadsAs code (dump spell (.bin o1 a (.bin o2 b c))) (.bin o2 (.bin o1 a b) c) := by
  have ht : dump spell (.bin o1 a (.bin o2 b c)) = dump spell (.bin o2 (.bin o1 a b) c) := by simp [dump]
  rw [ht]
  apply written_expression_is_read_back_partial hn
  · exact ⟨⟨ha.1, hb.1, ha.2.2, hb.2.2⟩, hc.1, h, hc.2.2⟩
  · exact ⟨⟨ha.2.1, hb.2.1⟩, hc.2.1⟩

/-- ... and under a prefix operator. -/
theorem ungrouped_prefix_operand_regroups {spell : Nat → List Nat} {code : List Nat → Nat} (hn : Names spell code)
    (op : PreOp) (o : BinOp) (a b : Expr) (ha : Wf (.pre op a) ∧ Apart (.pre op a)) (hb : Wf b ∧ Apart b ∧ level b < tier o) :
    ReadsAs code (dump spell (.pre op (.bin o a b))) (.bin o (.pre op a) b) := by
  have ht : dump spell (.pre op (.bin o a b)) = dump spell (.bin o (.pre op a) b) := by simp [dump]
  rw [ht]
  apply written_expression_is_read_back_partial hn
  · exact ⟨ha.1, hb.1, Nat.zero_le _, hb.2.2⟩
  · exact ⟨ha.2, hb.2.1⟩

/-- `(x + x) * 2` and `-(x + 1)` without their groups -/
example : tier .Mul < tier .Add ∧ level (.path 0 []) ≤ tier .Mul ∧ level (.int 2) < tier .Mul ∧
    Wf (.pre .Minus (.path 0 [])) ∧ Apart (.pre .Minus (.path 0 [])) := by
  refine ⟨by decide, by decide, by decide, ?_, ?_⟩
  · simp [Wf, level, Parser.signed, lead, Parser.Tok.isInt]
  · simp [Apart, Joins, lead]

/-! ## C141: spread arguments -/

/-- The arguments with `x` as the operand of every spread argument. -/
def spreadWith (x : Expr) : Args → Args
  | .nil => .nil
  | .cons true _ as => .cons true x (spreadWith x as)
  | .cons false e as => .cons false e (spreadWith x as)

theorem dumpArgs_spread (spell : Nat → List Nat) (x : Expr) : (as : Args) →
    dumpArgs spell (spreadWith x as) = dumpArgs spell as
  | .nil => rfl
  | .cons true e .nil => by simp [spreadWith, dumpArgs, dumpArg]
  | .cons false e .nil => by simp [spreadWith, dumpArgs]
  | .cons true e (.cons s' e' as) => by
    have ih := dumpArgs_spread spell x (.cons s' e' as)
    cases s' <;> simp only [spreadWith, dumpArgs, dumpArg] at ih ⊢ <;> rw [ih]
  | .cons false e (.cons s' e' as) => by
    have ih := dumpArgs_spread spell x (.cons s' e' as)
    cases s' <;> simp only [spreadWith, dumpArgs] at ih ⊢ <;> rw [ih]

/-- **C141 is false of the code.** What a call spreads is not written at all: calls that differ only in it have the
same text, ... -/
theorem spread_operand_not_written (spell : Nat → List Nat) (f x : Expr) (as : Args) :
    dump spell (.call f (spreadWith x as)) = dump spell (.call f as) := by
  simp only [dump, dumpArgs_spread]

/-- ... and `f(...x)` is read back as `f()`. -/
theorem spread_call_reads_as_empty {spell : Nat → List Nat} {code : List Nat → Nat} (hn : Names spell code)
    (f x : Expr) (hf : Wf f ∧ Apart f ∧ isPost f = true) :
    ReadsAs code (dump spell (.call f (.cons true x .nil))) (.call f .nil) := by
  have ht : dump spell (.call f (.cons true x .nil)) = dump spell (.call f .nil) := by simp [dump, dumpArgs, dumpArg]
  rw [ht]
  apply written_expression_is_read_back_partial hn
  · exact ⟨hf.1, hf.2.2, trivial⟩
  · exact ⟨hf.2.1, trivial⟩

/-- **C141, the part that holds.** A call of any number of arguments, none of them spread, is read back with all its
arguments in order. -/
theorem call_is_read_back_partial {spell : Nat → List Nat} {code : List Nat → Nat} (hn : Names spell code)
    (f : Expr) (as : Args) (hf : Wf f ∧ Apart f ∧ isPost f = true) (has : WfArgs as ∧ ApartArgs as) :
    ReadsAs code (dump spell (.call f as)) (.call f as) :=
  written_expression_is_read_back_partial hn _ ⟨hf.1, hf.2.2, has.1⟩ ⟨hf.2.1, has.2⟩

example : Wf (.path 0 [1]) ∧ Apart (.path 0 [1]) ∧ isPost (.path 0 [1]) = true ∧
    WfArgs (.cons false (.int 1) (.cons false (.path 2 []) .nil)) ∧
    ApartArgs (.cons false (.int 1) (.cons false (.path 2 []) .nil)) := by
  simp [Wf, WfArgs, Apart, ApartArgs, isPost, lead]

end Verif.Dump
