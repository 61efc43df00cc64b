import Verif.Lang.Lexer.Terminate
/-!
# Which token is read: symbols (C68), words (C69), integer literals (C70)
-/
namespace Verif.Lexer

/-! ## Specification -/

/-- token.h 12-71: the text of each symbol, from the second column of `SYMBOL_LIST`. -/
def spelling : Sym → List Nat
  | .LParen => str "(" | .RParen => str ")" | .LBracket => str "[" | .RBracket => str "]"
  | .LBrace => str "{" | .RBrace => str "}" | .At => str "@" | .Hash => str "#" | .LNot => str "!"
  | .BNot => str "~" | .Dot => str "." | .DotDot => str ".." | .Elipsis => str "..." | .Question => str "?"
  | .Comma => str "," | .Colon => str ":" | .Semicolon => str ";" | .Assign => str "=" | .Equal => str "=="
  | .NotEqual => str "!=" | .FatArrow => str "=>" | .ThinArrow => str "->" | .Less => str "<"
  | .LessEqual => str "<=" | .Shl => str "<<" | .ShlEqual => str "<<=" | .Greater => str ">"
  | .GreaterEqual => str ">=" | .Shr => str ">>" | .ShrEqual => str ">>=" | .Plus => str "+" | .Minus => str "-"
  | .Mult => str "*" | .Div => str "/" | .Mod => str "%" | .BAnd => str "&" | .BXor => str "^" | .BOr => str "|"
  | .LAnd => str "&&" | .LOr => str "||" | .PlusPlus => str "++" | .MinusMinus => str "--"
  | .PlusEqual => str "+=" | .MinusEqual => str "-=" | .MultEqual => str "*=" | .DivEqual => str "/="
  | .ModEqual => str "%=" | .BAndEqual => str "&=" | .BAndDot => str "&." | .BXorEqual => str "^="
  | .BOrEqual => str "|=" | .Quote => str "`" | .Substitutue => str "#{" | .IndexExpr => str ".["
  | .CallOverride => str "()" | .IndexOverride => str "[]" | .IndexAssignOvd => str "[]="
  | .AstMacroAccess => str "#." | .Define => str "##" | .BangColon => str "!:"

/-- The three names of overloadable operators are put together by the parser from other tokens. -/
def isToken (s : Sym) : Bool := s != .CallOverride && s != .IndexOverride && s != .IndexAssignOvd

/-- The text starts a comment. -/
def startsComment (s : List Nat) : Prop := [47, 47] <+: s ∨ [47, 42] <+: s

/-- `s` is the longest symbol at the start of the text. -/
def Longest (s : Sym) (src : List Nat) : Prop :=
  spelling s <+: src ∧ ∀ s', isToken s' = true → spelling s' <+: src → (spelling s').length ≤ (spelling s).length

/-! ## C68: symbols -/

theorem not_ext {s : Sym} {r : List Nat} (hl : Longest s (spelling s ++ r)) (s' : Sym) (ht : isToken s' = true) (d : Nat)
    (h : spelling s' = spelling s ++ [d]) : r.head? ≠ some d := by
  intro hr
  cases r with
  | nil => cases hr
  | cons e r =>
    cases hr
    have := hl.2 s' ht ⟨r, by rw [h]; simp⟩
    rw [h] at this
    simp at this
    omega

macro "read_symbol" : tactic => `(tactic| (
  unfold lexOne
  simp [spelling, str, skipSpaces, skipWhile, skipWhileAux, isSpace, isEof, accepts, cur, skipChar, punctuation,
    Chain.runAlts, Chain.run, done, mk, lexDot, lexSlash, posAfter, *]))

/-- **C68.** Symbols are read by longest match: at the longest symbol of the table the lexer returns that
symbol, with its text as range, and goes on after it. -/
theorem longest_symbol_is_read (adv : L → Res (L × Token)) (fuel : Nat) (s : Sym) (r : List Nat) (p : Pos) (fl : Flags)
    (hfl : fl.enter = false ∧ fl.cont = false) (ht : isToken s = true) (hl : Longest s (spelling s ++ r))
    (hc : ¬ startsComment (spelling s ++ r)) :
    lexOne adv fuel ⟨spelling s ++ r, p, fl⟩ =
      .ok (.tok ⟨r, posAfter p (spelling s), { fl with maybeNotFloat := s == .Dot || fl.maybeNotFloat }⟩ ⟨.sym s, p, posAfter p (spelling s)⟩) := by
  obtain ⟨e, c, x, rf, m⟩ := fl
  simp only at hfl
  obtain ⟨rfl, rfl⟩ := hfl
  have hx := not_ext hl
  have hcs : s = .Div → ∀ q, r ≠ 47 :: q ∧ r ≠ 42 :: q := by
    rintro rfl q
    constructor
    · rintro rfl; exact hc (Or.inl ⟨q, rfl⟩)
    · rintro rfl; exact hc (Or.inr ⟨q, rfl⟩)
  clear hl hc
  cases s
  case Hash =>
    have h0 := hx .Substitutue rfl 123 rfl
    have h1 := hx .AstMacroAccess rfl 46 rfl
    have h2 := hx .Define rfl 35 rfl
    cases r with
    | nil => rfl
    | cons d r =>
      simp at h0 h1 h2
      clear hx hcs
      read_symbol
  case LNot =>
    have h0 := hx .NotEqual rfl 61 rfl
    have h1 := hx .BangColon rfl 58 rfl
    cases r with
    | nil => rfl
    | cons d r =>
      simp at h0 h1
      clear hx hcs
      read_symbol
  case Dot =>
    have h0 := hx .DotDot rfl 46 rfl
    have h1 := hx .IndexExpr rfl 91 rfl
    cases r with
    | nil => rfl
    | cons d r =>
      simp at h0 h1
      clear hx hcs
      read_symbol
  case DotDot =>
    have h0 := hx .Elipsis rfl 46 rfl
    cases r with
    | nil => rfl
    | cons d r =>
      simp at h0
      clear hx hcs
      read_symbol
  case Assign =>
    have h0 := hx .Equal rfl 61 rfl
    have h1 := hx .FatArrow rfl 62 rfl
    cases r with
    | nil => rfl
    | cons d r =>
      simp at h0 h1
      clear hx hcs
      read_symbol
  case Less =>
    have h0 := hx .LessEqual rfl 61 rfl
    have h1 := hx .Shl rfl 60 rfl
    cases r with
    | nil => rfl
    | cons d r =>
      simp at h0 h1
      clear hx hcs
      read_symbol
  case Shl =>
    have h0 := hx .ShlEqual rfl 61 rfl
    cases r with
    | nil => rfl
    | cons d r =>
      simp at h0
      clear hx hcs
      read_symbol
  case Greater =>
    have h0 := hx .GreaterEqual rfl 61 rfl
    have h1 := hx .Shr rfl 62 rfl
    cases r with
    | nil => rfl
    | cons d r =>
      simp at h0 h1
      clear hx hcs
      read_symbol
  case Shr =>
    have h0 := hx .ShrEqual rfl 61 rfl
    cases r with
    | nil => rfl
    | cons d r =>
      simp at h0
      clear hx hcs
      read_symbol
  case Plus =>
    have h0 := hx .PlusPlus rfl 43 rfl
    have h1 := hx .PlusEqual rfl 61 rfl
    cases r with
    | nil => rfl
    | cons d r =>
      simp at h0 h1
      clear hx hcs
      read_symbol
  case Minus =>
    have h0 := hx .ThinArrow rfl 62 rfl
    have h1 := hx .MinusMinus rfl 45 rfl
    have h2 := hx .MinusEqual rfl 61 rfl
    cases r with
    | nil => rfl
    | cons d r =>
      simp at h0 h1 h2
      clear hx hcs
      read_symbol
  case Mult =>
    have h0 := hx .MultEqual rfl 61 rfl
    cases r with
    | nil => rfl
    | cons d r =>
      simp at h0
      clear hx hcs
      read_symbol
  case Div =>
    have h0 := hx .DivEqual rfl 61 rfl
    have hd := hcs rfl
    cases r with
    | nil => rfl
    | cons d r =>
      simp at h0
      have c1 : d ≠ 47 := fun h => (hd r).1 (by rw [h])
      have c2 : d ≠ 42 := fun h => (hd r).2 (by rw [h])
      clear hx hcs
      read_symbol
  case Mod =>
    have h0 := hx .ModEqual rfl 61 rfl
    cases r with
    | nil => rfl
    | cons d r =>
      simp at h0
      clear hx hcs
      read_symbol
  case BAnd =>
    have h0 := hx .LAnd rfl 38 rfl
    have h1 := hx .BAndEqual rfl 61 rfl
    have h2 := hx .BAndDot rfl 46 rfl
    cases r with
    | nil => rfl
    | cons d r =>
      simp at h0 h1 h2
      clear hx hcs
      read_symbol
  case BXor =>
    have h0 := hx .BXorEqual rfl 61 rfl
    cases r with
    | nil => rfl
    | cons d r =>
      simp at h0
      clear hx hcs
      read_symbol
  case BOr =>
    have h0 := hx .LOr rfl 124 rfl
    have h1 := hx .BOrEqual rfl 61 rfl
    cases r with
    | nil => rfl
    | cons d r =>
      simp at h0 h1
      clear hx hcs
      read_symbol
  case CallOverride => cases ht
  case IndexOverride => cases ht
  case IndexAssignOvd => cases ht
  all_goals rfl

example : isToken .Shl = true ∧ Longest .Shl (spelling .Shl ++ str "x") ∧ ¬ startsComment (spelling .Shl ++ str "x") := by
  refine ⟨rfl, ⟨⟨_, rfl⟩, ?_⟩, ?_⟩
  · intro s'; cases s' <;> decide
  · unfold startsComment; decide

/-! ## C69: identifiers and keywords -/

theorem idStart_word {c : Nat} (h : isIdStart c = true) : isSpaceOrPunct c = false := by
  simp [isIdStart, isAlpha, isSpaceOrPunct, isSpace, isPunct] at *
  omega

theorem skipWhile_exact (p : Nat → Bool) (fl : Flags) : ∀ (a b : List Nat) (q : Pos), (∀ c ∈ a, p c = true) →
    (∀ c, b.head? = some c → p c = false) → skipWhile p ⟨a ++ b, q, fl⟩ = ⟨b, posAfter q a, fl⟩ := by
  intro a
  induction a with
  | nil =>
    intro b q _ hb
    cases b with
    | nil => rfl
    | cons c b => simp [skipWhile, skipWhileAux, hb c rfl, posAfter]
  | cons c a ih =>
    intro b q ha hb
    have hc : p c = true := ha c (by simp)
    have := ih b (stepPos q c) (fun d hd => ha d (by simp [hd])) hb
    simp only [skipWhile] at this
    simp [skipWhile, skipWhileAux, hc, this, posAfter]

/-- A letter or underscore. -/
def NameStart (c : Nat) : Prop := c = 95 ∨ (65 ≤ c ∧ c ≤ 90) ∨ (97 ≤ c ∧ c ≤ 122)
/-- A letter, digit or underscore. -/
def NameChar (c : Nat) : Prop := NameStart c ∨ (48 ≤ c ∧ c ≤ 57)

instance (c : Nat) : Decidable (NameStart c) := by unfold NameStart; infer_instance
instance (c : Nat) : Decidable (NameChar c) := by unfold NameChar; infer_instance

theorem isIdStart_iff (c : Nat) : isIdStart c = true ↔ NameStart c := by
  simp [isIdStart, isAlpha, NameStart]

theorem isIdChar_iff (c : Nat) : isIdChar c = true ↔ NameChar c := by
  simp [isIdChar, isAlpha, isDig, NameChar, NameStart, or_assoc]

/-- The reserved words of the language, by kind. -/
def reserved : List (List Nat) :=
  (["if", "else", "match", "for", "in", "is", "while", "break", "return", "yield", "continue", "switch", "case",
    "default", "defer", "catch", "raise", "discard"] ++
   ["func", "var", "const", "type", "struct", "class", "enum", "interface", "exception", "macro", "module",
    "import", "include", "from", "test"] ++
   ["pub", "virtual", "native", "extern", "opaque", "async", "unsafe"] ++
   ["true", "false", "null", "this", "This", "super"] ++
   ["launch", "await", "delete", "ptrof", "as", "asm", "defined", "range", "cDefine", "cInclude", "cSources", "__cc"] ++
   ["auto", "void", "string", "bool", "char", "wchar", "i8", "i16", "i32", "i64", "u8", "u16", "u32", "u64", "f32",
    "f64"]).map str

theorem keywords_perm : keywords.Perm reserved := by decide +kernel

theorem mem_keywords (w : List Nat) : w ∈ keywords ↔ w ∈ reserved := keywords_perm.mem_iff

/-- **C69.** A name is read as a whole, to the last letter, digit or underscore, and is a keyword exactly when
it is one of the reserved words.  (`f` before a quote starts a string expression instead.) -/
theorem word_is_read (adv : L → Res (L × Token)) (fuel : Nat) (c : Nat) (name r : List Nat) (p : Pos) (fl : Flags)
    (hfl : fl.enter = false) (hc : NameStart c) (hn : ∀ d ∈ name, NameChar d)
    (hr : ∀ d, r.head? = some d → ¬ NameChar d) (hf : ¬ (c :: name = str "f" ∧ r.head? = some 34)) :
    lexOne adv fuel ⟨c :: name ++ r, p, fl⟩ = .ok (.tok ⟨r, posAfter p (c :: name), fl⟩
      ⟨if c :: name ∈ reserved then .kw (c :: name) else .ident, p, posAfter p (c :: name)⟩) := by
  replace hc := (isIdStart_iff c).2 hc
  replace hn : ∀ d ∈ name, isIdChar d = true := fun d hd => (isIdChar_iff d).2 (hn d hd)
  replace hr : ∀ d, r.head? = some d → isIdChar d = false := fun d hd =>
    Bool.eq_false_iff.2 (fun h => hr d hd ((isIdChar_iff d).1 h))
  simp only [← mem_keywords]
  rw [lexOne_atWord (by simp) (by simpa [cur] using idStart_word hc) hfl]
  unfold lexWord
  rw [if_neg, if_pos (by simpa [cur] using hc)]
  · unfold lexIdent
    have h1 : skipChar ⟨c :: name ++ r, p, fl⟩ = ⟨name ++ r, stepPos p c, fl⟩ := rfl
    rw [h1, skipWhile_exact isIdChar fl name r _ hn hr]
    have h2 : posAfter (stepPos p c) name = posAfter p (c :: name) := rfl
    rw [h2]
    simp only []
    have h3 : (posAfter p (c :: name)).off - p.off = (c :: name).length := by rw [posAfter_off]; omega
    rw [h3, List.take_left']
    · rfl
    · rfl
  · rintro ⟨h1, h2⟩
    simp only [cur, List.cons_append, List.headD_cons] at h1
    cases name with
    | nil =>
      apply hf
      refine ⟨by rw [h1]; rfl, ?_⟩
      cases r with
      | nil => simp [peekNext] at h2
      | cons d r => simpa [peekNext] using h2
    | cons d name =>
      simp [peekNext] at h2
      have := hn d (by simp)
      rw [h2] at this
      revert this
      decide

example : NameStart 102 ∧ (∀ d ∈ str "or_1", NameChar d) ∧ str "continue" ∈ reserved ∧ str "for_1" ∉ reserved ∧ ¬ (102 :: str "or_1" = str "f" ∧ (str "+").head? = some 34) := by
  decide

/-! ## C70: integer literals -/

/-- The value of a digit character. -/
def digitVal (c : Nat) : Nat := if c ≤ 57 then c - 48 else if c ≤ 70 then c - 55 else c - 87

/-- The number written with the given digit characters. -/
def number (base : Nat) : List Nat → Nat := List.foldl (fun a c => a * base + digitVal c) 0

theorem digitValue_dig {c : Nat} (h : isXDigit c = true) : Text.digitValue c = some (digitVal c) ∧ digitVal c < 16 := by
  simp [isXDigit, isDig] at h
  unfold Text.digitValue digitVal
  rcases h with (h | h) | h
  · rw [if_pos h, if_pos h.2]; exact ⟨rfl, by omega⟩
  · rw [if_neg (by omega), if_neg (by omega), if_pos (by omega), if_neg (by omega), if_pos h.2]; exact ⟨rfl, by omega⟩
  · rw [if_neg (by omega), if_pos (by omega), if_neg (by omega), if_neg (by omega)]; exact ⟨rfl, by omega⟩

theorem digitsOf_exact (base : Nat) : ∀ (ds r : List Nat), (∀ c ∈ ds, isXDigit c = true ∧ digitVal c < base) →
    (∀ c, r.head? = some c → ∀ v, Text.digitValue c = some v → base ≤ v) → digitsOf base (ds ++ r) = ds.map digitVal := by
  intro ds
  induction ds with
  | nil =>
    intro r _ hr
    cases r with
    | nil => rfl
    | cons c r =>
      show digitsOf base (c :: r) = []
      unfold digitsOf
      cases h : Text.digitValue c with
      | none => rfl
      | some v => have := hr c rfl v h; simp; omega
  | cons c ds ih =>
    intro r h hr
    have hc := h c (by simp)
    show digitsOf base (c :: (ds ++ r)) = _
    unfold digitsOf
    rw [(digitValue_dig hc.1).1]
    simp only []
    rw [if_pos hc.2, ih r (fun d hd => h d (by simp [hd])) hr]
    rfl

theorem valueOf_map (base : Nat) (ds : List Nat) : valueOf base (ds.map digitVal) = number base ds := by
  unfold valueOf number
  rw [List.foldl_map]

/-- `strtoumax` of digits. -/
theorem strtoumax_digits (base : Nat) (ds r : List Nat) (hne : ds ≠ [])
    (h : ∀ c ∈ ds, isXDigit c = true ∧ digitVal c < base)
    (hr : ∀ c, r.head? = some c → ∀ v, Text.digitValue c = some v → base ≤ v)
    (hx : base = 16 → ∀ c, r.head? = some c → c ≠ 120 ∧ c ≠ 88) :
    strtoumax base (ds ++ r) = min (number base ds) (2 ^ 64 - 1) := by
  cases ds with
  | nil => exact absurd rfl hne
  | cons c ds =>
    have hc := (h c (by simp)).1
    have h1 : isSpace c = false := by
      simp [isXDigit, isDig, isSpace] at *; omega
    have h2 : c ≠ 45 ∧ c ≠ 43 := by
      simp [isXDigit, isDig] at hc; omega
    have hd := digitsOf_exact base (c :: ds) r h hr
    unfold strtoumax
    have hdrop : List.dropWhile isSpace (c :: ds ++ r) = c :: ds ++ r := by
      simp [h1]
    rw [hdrop]
    simp only [List.cons_append, List.headD_cons]
    have hs1 : (c == 43) = false := by simp [h2]
    have hs2 : (c == 45) = false := by simp [h2]
    simp only [hs1, hs2, Bool.or_false, Bool.false_eq_true, if_false]
    have hpre : ¬ (base = 16 ∧ (c :: (ds ++ r)).headD 0 = 48 ∧ ((c :: (ds ++ r)).getD 1 0 = 120 ∨ (c :: (ds ++ r)).getD 1 0 = 88) ∧
        isXDigit ((c :: (ds ++ r)).getD 2 0) = true) := by
      rintro ⟨hb, _, hh, _⟩
      cases ds with
      | nil =>
        cases r with
        | nil => simp at hh
        | cons d r =>
          have := hx hb d rfl
          simp at hh
          omega
      | cons d ds =>
        have hd := (h d (by simp)).1
        simp at hh
        simp [isXDigit, isDig] at hd
        omega
    rw [if_neg hpre]
    rw [show c :: (ds ++ r) = c :: ds ++ r from rfl, hd, valueOf_map]
    split <;> omega

/-- A dot after a number belongs to it, unless a second dot or a bracket follows, or a dot precedes the number. -/
def FloatFollows (r : List Nat) (fl : Flags) : Prop :=
  r.head? = some 46 ∧ r.getD 1 255 ≠ 46 ∧ r.getD 1 255 ≠ 91 ∧ fl.maybeNotFloat = false

theorem decimal_literal' (adv : L → Res (L × Token)) (fuel : Nat) (ds r : List Nat) (p : Pos) (fl : Flags)
    (hfl : fl.enter = false) (hne : ds ≠ []) (hd : ∀ c ∈ ds, isDig c = true)
    (hr : ∀ c, r.head? = some c → isDig c = false ∧ (ds = str "0" → c ≠ 98 ∧ c ≠ 120 ∧ c ≠ 111))
    (hdot : ¬ FloatFollows r fl) :
    lexOne adv fuel ⟨ds ++ r, p, fl⟩ =
      .ok (.tok ⟨r, posAfter p ds, fl⟩ ⟨.intLit (min (number 10 ds) (2 ^ 64 - 1)), p, posAfter p ds⟩) := by
  cases ds with
  | nil => exact absurd rfl hne
  | cons c ds =>
    have hc := hd c (by simp)
    have hsp : isSpaceOrPunct c = false := by
      simp [isDig, isSpaceOrPunct, isSpace, isPunct] at *; omega
    have h0 : isIdStart c = false := by
      simp [isDig, isIdStart, isAlpha] at *; omega
    rw [lexOne_atWord (by simp) (by simpa [cur] using hsp) hfl]
    unfold lexWord
    rw [if_neg (by simp [cur, isDig] at *; omega), if_neg (by simp [cur, h0]), if_pos (by simpa [cur] using hc)]
    have hnum : lexNumber adv fuel p ⟨c :: ds ++ r, p, fl⟩ =
        .ok (⟨r, posAfter p (c :: ds), fl⟩, ⟨.intLit (min (number 10 (c :: ds)) (2 ^ 64 - 1)), p, posAfter p (c :: ds)⟩) := by
      unfold lexNumber
      have h1 : skipChar ⟨c :: ds ++ r, p, fl⟩ = ⟨ds ++ r, stepPos p c, fl⟩ := rfl
      rw [h1]
      simp only []
      have hpre : ∀ x, (x = 98 ∨ x = 120 ∨ x = 111) →
          ¬ (cur ⟨c :: ds ++ r, p, fl⟩ = 48 ∧ accepts ⟨ds ++ r, stepPos p c, fl⟩ x = true) := by
        rintro x hx ⟨hz, ha⟩
        simp only [cur, List.cons_append, List.headD_cons] at hz
        have hcur := accepts_cur ha
        cases ds with
        | nil =>
          cases r with
          | nil => simp [accepts, isEof] at ha
          | cons d r =>
            simp [cur] at hcur
            have := (hr d rfl).2 (by rw [hz]; rfl)
            omega
        | cons d ds =>
          simp [cur] at hcur
          have := hd d (by simp)
          simp [isDig] at this
          omega
      rw [if_neg (hpre 98 (by simp)), if_neg (hpre 120 (by simp)), if_neg (hpre 111 (by simp))]
      unfold lexDecimal
      rw [skipWhile_exact isDig fl ds r _ (fun d h => hd d (by simp [h])) (fun d h => (hr d h).1)]
      simp only []
      rw [if_neg]
      · have hs : strtoumax 10 (c :: ds ++ r) = min (number 10 (c :: ds)) (2 ^ 64 - 1) := by
          apply strtoumax_digits 10 (c :: ds) r (by simp) _ _ (by omega)
          · intro d hd'
            have := hd d hd'
            refine ⟨by simp [isXDigit, this], ?_⟩
            simp [isDig] at this
            simp [digitVal, this.2]
            omega
          · intro d hd' v hvv
            have := (hr d hd').1
            simp [isDig] at this
            unfold Text.digitValue at hvv
            split at hvv
            · omega
            · split at hvv
              · injection hvv with hvv; omega
              · split at hvv
                · injection hvv with hvv; omega
                · cases hvv
        rw [hs]
        rfl
      · rintro ⟨h46, h1, h2, h3⟩
        cases r with
        | nil => simp [cur] at h46
        | cons d r =>
          simp [cur] at h46
          subst h46
          exact hdot ⟨rfl, h1, h2, h3⟩
    rw [show (⟨c :: ds ++ r, p, fl⟩ : L).pos = p from rfl, hnum]
    rfl

theorem decimal_literal (adv : L → Res (L × Token)) (fuel : Nat) (ds r : List Nat) (p : Pos) (fl : Flags)
    (hfl : fl.enter = false) (hne : ds ≠ []) (hd : ∀ c ∈ ds, isDig c = true)
    (hr : ∀ c, r.head? = some c → isDig c = false ∧ c ≠ 46 ∧ (ds = str "0" → c ≠ 98 ∧ c ≠ 120 ∧ c ≠ 111)) :
    lexOne adv fuel ⟨ds ++ r, p, fl⟩ =
      .ok (.tok ⟨r, posAfter p ds, fl⟩ ⟨.intLit (min (number 10 ds) (2 ^ 64 - 1)), p, posAfter p ds⟩) :=
  decimal_literal' adv fuel ds r p fl hfl hne hd (fun c hc => ⟨(hr c hc).1, (hr c hc).2.2⟩)
    (fun h => (hr 46 h.1).2.1 rfl)

/-- **C70 (partial).** A decimal literal below 2^64 is read as its value, whatever follows it, if what follows
is not part of a number or of a float. -/
theorem decimal_literal_partial (adv : L → Res (L × Token)) (fuel : Nat) (ds r : List Nat) (p : Pos) (fl : Flags)
    (hfl : fl.enter = false) (hne : ds ≠ []) (hd : ∀ c ∈ ds, isDig c = true)
    (hr : ∀ c, r.head? = some c → isDig c = false ∧ c ≠ 46 ∧ (ds = str "0" → c ≠ 98 ∧ c ≠ 120 ∧ c ≠ 111))
    (hv : number 10 ds < 2 ^ 64) :
    lexOne adv fuel ⟨ds ++ r, p, fl⟩ =
      .ok (.tok ⟨r, posAfter p ds, fl⟩ ⟨.intLit (number 10 ds), p, posAfter p ds⟩) := by
  rw [decimal_literal adv fuel ds r p fl hfl hne hd hr, Nat.min_eq_left (by omega)]

/-- **C70 is false of the code.** A decimal literal of 2^64 or more is silently read as 2^64 - 1. -/
theorem large_literal_saturates (adv : L → Res (L × Token)) (fuel : Nat) (ds r : List Nat) (p : Pos) (fl : Flags)
    (hfl : fl.enter = false) (hne : ds ≠ []) (hd : ∀ c ∈ ds, isDig c = true)
    (hr : ∀ c, r.head? = some c → isDig c = false ∧ c ≠ 46 ∧ (ds = str "0" → c ≠ 98 ∧ c ≠ 120 ∧ c ≠ 111))
    (hv : 2 ^ 64 ≤ number 10 ds) :
    lexOne adv fuel ⟨ds ++ r, p, fl⟩ =
      .ok (.tok ⟨r, posAfter p ds, fl⟩ ⟨.intLit (2 ^ 64 - 1), p, posAfter p ds⟩) := by
  rw [decimal_literal adv fuel ds r p fl hfl hne hd hr, Nat.min_eq_right (by omega)]

example : 2 ^ 64 ≤ number 10 (str "18446744073709551616") := by decide +kernel

example : number 10 (str "18446744073709551615") < 2 ^ 64 ∧ (∀ c ∈ str "18446744073709551615", isDig c = true) := by
  decide +kernel

/-- The digits of the three prefixed forms. -/
def prefixed : List (Nat × Nat × (Nat → Bool)) :=
  [(98, 2, fun c => c == 48 || c == 49), (120, 16, isXDigit), (111, 8, fun c => decide (48 ≤ c ∧ c ≤ 55))]

theorem prefixed_digit {x base : Nat} {q : Nat → Bool} (h : (x, base, q) ∈ prefixed) :
    (∀ c, q c = true → isXDigit c = true ∧ digitVal c < base) ∧ (∀ c, isSpaceOrPunct c = true → q c = false) := by
  simp only [prefixed, List.mem_cons, List.not_mem_nil, or_false, Prod.mk.injEq] at h
  rcases h with ⟨rfl, rfl, rfl⟩ | ⟨rfl, rfl, rfl⟩ | ⟨rfl, rfl, rfl⟩
  · refine ⟨fun c hc => ?_, fun c hc => ?_⟩
    · simp at hc; rcases hc with rfl | rfl <;> decide
    · simp [isSpaceOrPunct, isSpace, isPunct] at *; omega
  · refine ⟨fun c hc => ⟨hc, (digitValue_dig hc).2⟩, fun c hc => ?_⟩
    simp [isSpaceOrPunct, isSpace, isPunct, isXDigit, isDig] at *; omega
  · refine ⟨fun c hc => ?_, fun c hc => ?_⟩
    · simp at hc
      refine ⟨by simp [isXDigit, isDig]; omega, ?_⟩
      unfold digitVal; rw [if_pos (by omega)]; omega
    · simp [isSpaceOrPunct, isSpace, isPunct] at *; omega

theorem lexNumber_prefixed (adv : L → Res (L × Token)) (fuel : Nat) {x base : Nat} {q : Nat → Bool}
    (hx : (x, base, q) ∈ prefixed) (s : List Nat) (p : Pos) (fl : Flags) (hfl : fl.enter = false) :
    lexOne adv fuel ⟨48 :: x :: s, p, fl⟩ =
      (lexPrefixed adv fuel p base q ⟨s, posAfter p [48, x], fl⟩).bind done := by
  rw [lexOne_atWord (by simp) (by rfl) hfl]
  simp only [prefixed, List.mem_cons, List.not_mem_nil, or_false, Prod.mk.injEq] at hx
  rcases hx with ⟨rfl, rfl, rfl⟩ | ⟨rfl, rfl, rfl⟩ | ⟨rfl, rfl, rfl⟩ <;> rfl

/-- **C70 (partial).** A binary, hexadecimal or octal literal with at least one digit and a value below 2^64 is
read as its value when a space or punctuation follows. -/
theorem prefixed_literal_partial (adv : L → Res (L × Token)) (fuel x base : Nat) (q : Nat → Bool)
    (hx : (x, base, q) ∈ prefixed) (ds : List Nat) (e : Nat) (r : List Nat) (p : Pos) (fl : Flags)
    (hfl : fl.enter = false) (hne : ds ≠ []) (hd : ∀ c ∈ ds, q c = true) (he : isSpaceOrPunct e = true)
    (hv : number base ds < 2 ^ 64) :
    lexOne adv fuel ⟨48 :: x :: (ds ++ e :: r), p, fl⟩ =
      .ok (.tok ⟨e :: r, posAfter p (48 :: x :: ds), fl⟩
        ⟨.intLit (number base ds), p, posAfter p (48 :: x :: ds)⟩) := by
  obtain ⟨h1, h2⟩ := prefixed_digit hx
  rw [lexNumber_prefixed adv fuel hx _ p fl hfl]
  unfold lexPrefixed
  rw [skipWhile_exact q fl ds (e :: r) _ hd (by intro c hc; cases hc; exact h2 e he)]
  have hs : strtoumax base (ds ++ e :: r) = number base ds := by
    rw [← Nat.min_eq_left (show number base ds ≤ 2 ^ 64 - 1 by omega)]
    apply strtoumax_digits base ds (e :: r) hne (fun c hc => h1 c (hd c hc))
    · intro c hc v hvv
      cases hc
      unfold Text.digitValue at hvv
      simp [isSpaceOrPunct, isSpace, isPunct] at he
      split at hvv
      · omega
      · split at hvv
        · omega
        · split at hvv
          · omega
          · cases hvv
    · intro _ c hc
      cases hc
      constructor <;> (rintro rfl; revert he; decide)
  simp only []
  rw [if_neg (by simp [cur, he]), hs]
  rfl

example : number 16 (str "fF") = 255 ∧ (∀ c ∈ str "fF", isXDigit c = true) ∧ isSpaceOrPunct 59 = true := by decide

/-- **C70 is false of the code.** A hexadecimal prefix without digits is accepted, and its value is taken from
the text after the space: `0x 12` is the token `0x` with the value 18, followed by the token 12. -/
theorem prefix_without_digits_reads_ahead (adv : L → Res (L × Token)) (fuel : Nat) (ds : List Nat) (r : List Nat) (p : Pos)
    (fl : Flags) (hfl : fl.enter = false) (hne : ds ≠ []) (hd : ∀ c ∈ ds, isDig c = true)
    (hr : ∀ c, r.head? = some c → isSpaceOrPunct c = true) (hv : number 16 ds < 2 ^ 64) :
    lexOne adv fuel ⟨48 :: 120 :: 32 :: (ds ++ r), p, fl⟩ =
      .ok (.tok ⟨32 :: (ds ++ r), posAfter p [48, 120], fl⟩ ⟨.intLit (number 16 ds), p, posAfter p [48, 120]⟩) := by
  have hx : (120, 16, isXDigit) ∈ prefixed := by simp [prefixed]
  rw [lexNumber_prefixed adv fuel hx _ p fl hfl]
  unfold lexPrefixed
  rw [skipWhile_self _ _ (Or.inr (by rfl))]
  have hs : strtoumax 16 (32 :: (ds ++ r)) = number 16 ds := by
    have h0 : strtoumax 16 (32 :: (ds ++ r)) = strtoumax 16 (ds ++ r) := rfl
    rw [h0, ← Nat.min_eq_left (show number 16 ds ≤ 2 ^ 64 - 1 by omega)]
    apply strtoumax_digits 16 ds r hne
    · intro c hc
      have := hd c hc
      have h1 : isXDigit c = true := by simp [isXDigit, this]
      exact ⟨h1, (digitValue_dig h1).2⟩
    · intro c hc v hvv
      have he := hr c hc
      unfold Text.digitValue at hvv
      simp [isSpaceOrPunct, isSpace, isPunct] at he
      split at hvv
      · omega
      · split at hvv
        · omega
        · split at hvv
          · omega
          · cases hvv
    · intro _ c hc
      have he := hr c hc
      constructor <;> (rintro rfl; revert he; decide)
  simp only []
  rw [if_neg (by simp only [cur, List.headD_cons]; decide), hs]
  rfl

example : number 16 (str "12") = 18 := by decide

end Verif.Lexer
