import Verif.Common.Res
import Verif.Core.Text.Model
/-!
# The lexer: `lexer.c`, `token.h`

Bytes are natural numbers below 256.  One buffer only: `#include` buffers (`prev`, `lexerPush`) are not
modelled.  `row` and `col` are unbounded here (`uint32_t` in log.h 48), and so is the byte offset.
-/
namespace Verif.Lexer

/-- token.h 12-71 `SYMBOL_LIST`. -/
inductive Sym where
  | LParen | RParen | LBracket | RBracket | LBrace | RBrace | At | Hash | LNot | BNot | Dot | DotDot
  | Elipsis | Question | Comma | Colon | Semicolon | Assign | Equal | NotEqual | FatArrow | ThinArrow
  | Less | LessEqual | Shl | ShlEqual | Greater | GreaterEqual | Shr | ShrEqual | Plus | Minus | Mult
  | Div | Mod | BAnd | BXor | BOr | LAnd | LOr | PlusPlus | MinusMinus | PlusEqual | MinusEqual
  | MultEqual | DivEqual | ModEqual | BAndEqual | BAndDot | BXorEqual | BOrEqual | Quote | Substitutue
  | IndexExpr | CallOverride | IndexOverride | IndexAssignOvd | AstMacroAccess | Define | BangColon
  deriving DecidableEq, Repr

/-- The bytes of an ASCII string. -/
def str (s : String) : List Nat := s.toList.map (·.toNat)

/-- token.h 73-134 `KEYWORD_LIST` with types.h 30-49 `PRIM_TYPE_LIST`. -/
def keywords : List (List Nat) :=
  ["virtual", "auto", "true", "false", "null", "if", "else", "match", "for", "in", "is", "while", "break",
   "return", "yield", "continue", "func", "var", "const", "type", "native", "extern", "exception", "struct",
   "enum", "pub", "opaque", "catch", "raise", "async", "launch", "ptrof", "await", "delete", "discard",
   "switch", "case", "default", "defer", "macro", "void", "string", "range", "module", "import", "include",
   "cDefine", "cInclude", "cSources", "as", "asm", "from", "unsafe", "interface", "this", "This", "super",
   "class", "defined", "test", "__cc", "bool", "wchar", "char", "i8", "i16", "i32", "i64", "u8", "u16", "u32",
   "u64", "f32", "f64"].map str

/-- Token tags; a keyword is named by its spelling. -/
inductive Tag where
  | sym (s : Sym)
  | kw (name : List Nat)
  | ident
  | intLit (v : Nat)
  | floatLit
  | charLit (c : Nat)
  | stringLit
  | lString
  | rString
  | lStrFmt
  | eof
  | error
  deriving DecidableEq, Repr

/-- log.h 47-50 `FilePos`. -/
structure Pos where
  off : Nat
  row : Nat
  col : Nat
  deriving DecidableEq, Repr

/-- lexer.h 18-25: the flag bits. -/
structure Flags where
  enter : Bool := false
  cont : Bool := false
  exit : Bool := false
  retFmt : Bool := false
  maybeNotFloat : Bool := false
  deriving DecidableEq, Repr

/-- The lexer state: the unread part of the buffer, the position and the flags. -/
structure L where
  rest : List Nat
  pos : Pos
  fl : Flags
  deriving DecidableEq, Repr

/-- token.h 157-167 `Token` (the float value is not modelled). -/
structure Token where
  tag : Tag
  beg : Pos
  fin : Pos
  deriving DecidableEq, Repr

/-- lexer.c 78-96 `newLexer`, 39-51 `newLexerBuffer`. -/
def init (src : List Nat) : L := ⟨src, ⟨0, 1, 1⟩, {}⟩

/-- lexer.c 98-101 `isEofReached` -/
def isEof (l : L) : Bool := l.rest.isEmpty

/-- lexer.c 103-112 `getCurPtr`, `getCurChar`: at the end of the buffer the character is `EOF`, the
byte 255. -/
def cur (l : L) : Nat := l.rest.headD 255

/-- lexer.c 114-128 `peekNextChar`.  Every call is made with a known character at the current place, so
the read past the end of the buffer is not reachable and not modelled. -/
def peekNext (l : L) : Nat := l.rest.getD 1 255

/-- lexer.c 132-137: the position update of `skipChar`. -/
def stepPos (p : Pos) (c : Nat) : Pos :=
  if c = 10 then ⟨p.off + 1, p.row + 1, 1⟩ else ⟨p.off + 1, p.row, p.col + 1⟩

/-- lexer.c 130-141 `skipChar`; the offset also moves at the end of the buffer. -/
def skipChar (l : L) : L := { l with rest := l.rest.tail, pos := stepPos l.pos (cur l) }

/-- lexer.c 154-163 `acceptChar`, a successful one. -/
def accepts (l : L) (c : Nat) : Bool := !isEof l && cur l == c

def isSpace (c : Nat) : Bool := decide (9 ≤ c ∧ c ≤ 13) || c == 32
def isPunct (c : Nat) : Bool :=
  decide (33 ≤ c ∧ c ≤ 47) || decide (58 ≤ c ∧ c ≤ 64) || decide (91 ≤ c ∧ c ≤ 96) || decide (123 ≤ c ∧ c ≤ 126)
def isDig (c : Nat) : Bool := decide (48 ≤ c ∧ c ≤ 57)
def isAlpha (c : Nat) : Bool := decide (65 ≤ c ∧ c ≤ 90) || decide (97 ≤ c ∧ c ≤ 122)
def isXDigit (c : Nat) : Bool := isDig c || decide (65 ≤ c ∧ c ≤ 70) || decide (97 ≤ c ∧ c ≤ 102)
/-- `_` or a letter -/
def isIdStart (c : Nat) : Bool := c == 95 || isAlpha c
/-- `_`, a letter or a digit -/
def isIdChar (c : Nat) : Bool := c == 95 || isAlpha c || isDig c

/-- lexer.c 143-146 `isSpaceOrPunctuation` -/
def isSpaceOrPunct (c : Nat) : Bool := c != 95 && (isSpace c || isPunct c)

/-- A loop `while (p(getCurChar)) skipChar` over a predicate that is false at the end of the buffer (165-175
and the digit and identifier loops).  Recursion on the unread bytes. -/
def skipWhileAux (p : Nat → Bool) (fl : Flags) : List Nat → Pos → L
  | [], pos => ⟨[], pos, fl⟩
  | c :: r, pos => if p c then skipWhileAux p fl r (stepPos pos c) else ⟨c :: r, pos, fl⟩

def skipWhile (p : Nat → Bool) (l : L) : L := skipWhileAux p l.fl l.rest l.pos

/-- lexer.c 165-169 `skipSpaces` -/
def skipSpaces (l : L) : L := skipWhile isSpace l
/-- lexer.c 171-175 `skipSingleLineComment` -/
def skipSingleLineComment (l : L) : L := skipWhile (· != 10) l

/-- lexer.c 177-194 `skipMultiLineComment`: the loop with `nest`.  Every iteration skips a character, so
the fuel `rest.length` is enough. -/
def commentLoop : Nat → Nat → L → Bool × L
  | fuel, nest, l =>
    if nest = 0 then (true, l)
    else if isEof l then (false, l)
    else match fuel with
      | 0 => (false, l)
      | f + 1 =>
        if accepts l 47 then
          let l1 := skipChar l
          if accepts l1 42 then commentLoop f (nest + 1) (skipChar l1) else commentLoop f nest l1
        else if accepts l 42 then
          let l1 := skipChar l
          if accepts l1 47 then commentLoop f (nest - 1) (skipChar l1) else commentLoop f nest l1
        else commentLoop f nest (skipChar l)

/-- lexer.c 177-194 `skipMultiLineComment` -/
def skipMultiLineComment (l : L) : Bool × L := commentLoop l.rest.length 1 l

/-- lexer.c 196-205 `makeToken` (and 207-216 `makeToken_`, 218-240, which agree with it here). -/
def mk (l : L) (beg : Pos) (t : Tag) : Token := ⟨t, beg, l.pos⟩

/-- lexer.c 247-263: the loop of `multilineString`. -/
def multilineLoop (beg : Pos) : Nat → L → L × Token
  | 0, l => (l, mk l beg .error)
  | f + 1, l =>
    if isEof l then (l, mk l beg .error)
    else if accepts l 34 then
      let l1 := skipChar l
      if cur l1 = 34 ∧ peekNext l1 = 34 then (skipChar (skipChar l1), ⟨.stringLit, beg, l1.pos⟩)
      else multilineLoop beg f l1
    else multilineLoop beg f (skipChar l)

/-- lexer.c 242-265 `multilineString` -/
def multilineString (l : L) : L × Token :=
  let beg := l.pos
  let l1 := skipChar l
  multilineLoop beg (l1.rest.length + 1) l1

/-- How the loop 475-506 of a string literal ends: at a quote or a line end, or before `${`. -/
inductive StrEnd where
  | closed (l : L)
  | fmt (l : L) (t : Token)

/-- lexer.c 475-506: the loop of a string literal, `lit` is `parsingStringLiteral`. -/
def stringLoop (beg : Pos) (lit : Bool) : Nat → L → Res StrEnd
  | 0, _ => .diverge
  | f + 1, l =>
    if cur l = 34 then .ok (.closed l)
    else if accepts l 10 then
      let l1 := skipChar l
      if accepts l1 92 then stringLoop beg lit f (skipChar l1) else .ok (.closed l1)
    else if cur l = 92 then stringLoop beg lit f (skipChar (skipChar l))
    else if !lit && l.fl.cont && cur l == 36 && peekNext l == 123 then
      let l1 := skipChar l
      let tok := mk l1 beg .stringLit
      let l2 := skipChar { l1 with fl := { l1.fl with retFmt := true } }
      .ok (.fmt l2 tok)
    else stringLoop beg lit f (skipChar l)

/-- lexer.c 474-516: label `lexerLexString` up to the end of the string branch. -/
def lexString (fuel : Nat) (beg : Pos) (lit : Bool) (l : L) : Res (L × Token) :=
  (stringLoop beg lit fuel l).bind fun
    | .fmt l' t => .ok (l', t)
    | .closed l' =>
      let l1 := if lit then l' else { l' with fl := { l'.fl with cont := false, exit := true } }
      if accepts l1 34 then let l2 := skipChar l1; .ok (l2, mk l2 beg .stringLit)
      else .ok (l1, mk l1 beg .error)

/-- lexer.c 521-529: the loop of a character literal, with the count. -/
def charLoop : Nat → Nat → L → Res (Nat × L)
  | 0, _, _ => .diverge
  | f + 1, k, l =>
    if cur l = 39 ∨ cur l = 10 then .ok (k, l)
    else if cur l = 92 then charLoop f (k + 2) (skipChar (skipChar l))
    else charLoop f (k + 1) (skipChar l)

/-- lexer.c 518-539: a character literal, after the opening quote.  When the closing quote is the last byte
of the buffer `getCurPtr` returns the address of another object, and the pointer difference of line 535
is undefined. -/
def lexChar (fuel : Nat) (beg : Pos) (l : L) : Res (L × Token) :=
  (charLoop fuel 0 l).bind fun (k, l1) =>
    if accepts l1 39 then
      let l2 := skipChar l1
      if isEof l2 then .ub
      else (Text.convertEscapeSeq l.rest (l.rest.length - l2.rest.length - 1)).bind fun (n, c) =>
        if n = k then .ok (l2, mk l1 beg (.charLit c)) else .ok (l2, mk l2 beg .error)
    else .ok (l1, mk l1 beg .error)

/-! ### Numbers -/

/-- The digits read by `strtoumax`. -/
def digitsOf (base : Nat) : List Nat → List Nat
  | [] => []
  | c :: s => match Text.digitValue c with
    | some d => if d < base then d :: digitsOf base s else []
    | none => []

def valueOf (base : Nat) (ds : List Nat) : Nat := ds.foldl (fun a d => a * base + d) 0

/-- `strtoumax(s, NULL, base)` of the C library: white space, a sign, for base 16 an optional `0x`, digits;
saturating at 2^64-1, negated modulo 2^64 after a minus sign. -/
def strtoumax (base : Nat) (s : List Nat) : Nat :=
  let s := s.dropWhile isSpace
  let neg := s.headD 0 == 45
  let s := if s.headD 0 == 45 || s.headD 0 == 43 then s.tail else s
  let s := if base = 16 ∧ s.headD 0 = 48 ∧ (s.getD 1 0 = 120 ∨ s.getD 1 0 = 88) ∧ isXDigit (s.getD 2 0)
    then s.drop 2 else s
  let v := valueOf base (digitsOf base s)
  if v ≥ 2 ^ 64 then 2 ^ 64 - 1 else if neg then (2 ^ 64 - v) % 2 ^ 64 else v

/-- lexer.c 148-152 `skipUntilSpaceOrPunctuation`; `adv` is `advanceLexer`. -/
def skipUntil (adv : L → Res (L × Token)) : Nat → L → Res L
  | 0, _ => .diverge
  | f + 1, l => if isSpaceOrPunct (cur l) then .ok l else (adv l).bind fun (l', _) => skipUntil adv f l'

/-- lexer.c 576-591, 592-608, 609-622: a literal with a prefix, after the prefix. -/
def lexPrefixed (adv : L → Res (L × Token)) (fuel : Nat) (beg : Pos) (base : Nat) (p : Nat → Bool) (l : L) :
    Res (L × Token) :=
  let l1 := skipWhile p l
  if !isSpaceOrPunct (cur l1) then
    (skipUntil adv fuel l1).bind fun l2 => .ok (l2, mk l2 beg .error)
  else .ok (l1, mk l1 beg (.intLit (strtoumax base l.rest)))

/-- lexer.c 634-643: the part of a float after the point. -/
def lexFraction (l : L) : L :=
  let l1 := skipWhile isDig l
  if accepts l1 101 then
    let l2 := skipChar l1
    let l3 := if accepts l2 43 then skipChar l2 else if accepts l2 45 then skipChar l2 else l2
    skipWhile isDig l3
  else l1

/-- lexer.c 625-649: a decimal number; `p` is the text at its first digit. -/
def lexDecimal (beg : Pos) (p : List Nat) (l : L) : L × Token :=
  let l1 := skipWhile isDig l
  if cur l1 = 46 ∧ peekNext l1 ≠ 46 ∧ peekNext l1 ≠ 91 ∧ l1.fl.maybeNotFloat = false then
    let l2 := lexFraction (skipChar l1)
    (l2, mk l2 beg .floatLit)
  else (l1, mk l1 beg (.intLit (strtoumax 10 p)))

/-- lexer.c 569-650: a number, `l` is at its first digit. -/
def lexNumber (adv : L → Res (L × Token)) (fuel : Nat) (beg : Pos) (l : L) : Res (L × Token) :=
  let l1 := skipChar l
  if cur l = 48 ∧ accepts l1 98 then lexPrefixed adv fuel beg 2 (fun c => c == 48 || c == 49) (skipChar l1)
  else if cur l = 48 ∧ accepts l1 120 then lexPrefixed adv fuel beg 16 isXDigit (skipChar l1)
  else if cur l = 48 ∧ accepts l1 111 then
    lexPrefixed adv fuel beg 8 (fun c => decide (48 ≤ c ∧ c ≤ 55)) (skipChar l1)
  else .ok (lexDecimal beg l.rest l1)

/-- lexer.c 550-567: an identifier or keyword.  The hash table of keywords is replaced by the list it holds
(`Verif.HTable` covers the table). -/
def lexIdent (beg : Pos) (l : L) : L × Token :=
  let l1 := skipWhile isIdChar (skipChar l)
  let name := l.rest.take (l1.pos.off - beg.off)
  (l1, mk l1 beg (if name ∈ keywords then .kw name else .ident))

/-! ### Punctuation -/

/-- A nest of `if (acceptChar(..)) ..` that ends in `return makeToken(.., tag)`: alternatives in the order
of the code, then the default. -/
inductive Chain where
  | node (alts : List (Nat × Chain)) (dflt : Sym)

/-- lexer.c 307-457: the punctuation branches with one fixed outcome each, in source order.  `.`, `}`, `/`,
quotes are in `lexOne`. -/
def punctuation : List (Nat × Chain) :=
  [ (40, .node [] .LParen), (41, .node [] .RParen), (91, .node [] .LBracket), (93, .node [] .RBracket),
    (123, .node [] .LBrace),
    (44, .node [] .Comma), (58, .node [] .Colon), (59, .node [] .Semicolon),
    (35, .node [(123, .node [] .Substitutue), (46, .node [] .AstMacroAccess), (35, .node [] .Define)] .Hash),
    (96, .node [] .Quote), (64, .node [] .At), (63, .node [] .Question),
    (33, .node [(61, .node [] .NotEqual), (58, .node [] .BangColon)] .LNot),
    (126, .node [] .BNot),
    (43, .node [(43, .node [] .PlusPlus), (61, .node [] .PlusEqual)] .Plus),
    (45, .node [(45, .node [] .MinusMinus), (61, .node [] .MinusEqual), (62, .node [] .ThinArrow)] .Minus),
    (42, .node [(61, .node [] .MultEqual)] .Mult),
    (37, .node [(61, .node [] .ModEqual)] .Mod),
    (38, .node [(38, .node [] .LAnd), (61, .node [] .BAndEqual), (46, .node [] .BAndDot)] .BAnd),
    (124, .node [(124, .node [] .LOr), (61, .node [] .BOrEqual)] .BOr),
    (94, .node [(61, .node [] .BXorEqual)] .BXor),
    (60, .node [(60, .node [(61, .node [] .ShlEqual)] .Shl), (61, .node [] .LessEqual)] .Less),
    (62, .node [(62, .node [(61, .node [] .ShrEqual)] .Shr), (61, .node [] .GreaterEqual)] .Greater),
    (61, .node [(61, .node [] .Equal), (62, .node [] .FatArrow)] .Assign) ]

mutual
/-- Running a chain. -/
def Chain.run : Chain → L → L × Sym
  | .node alts dflt, l => (Chain.runAlts alts l).getD (l, dflt)
/-- The first alternative whose character is accepted. -/
def Chain.runAlts : List (Nat × Chain) → L → Option (L × Sym)
  | [], _ => none
  | (c, ch) :: alts, l => if accepts l c then some (ch.run (skipChar l)) else Chain.runAlts alts l
end

/-- One iteration of the loop of `advanceLexer`: a token, or a comment was skipped (`continue`). -/
inductive Step where
  | tok (l : L) (t : Token)
  | again (l : L)

def done (r : L × Token) : Res Step := .ok (.tok r.1 r.2)

/-- lexer.c 540-653: identifiers, numbers and everything else. -/
def lexWord (adv : L → Res (L × Token)) (fuel : Nat) (beg : Pos) (l : L) : Res Step :=
  if cur l = 102 ∧ peekNext l = 34 then
    let l1 := skipChar l
    if l1.fl.enter || l1.fl.cont then done (l1, mk l1 beg .error)
    else
      let l2 := { l1 with fl := { l1.fl with enter := true } }
      done (l2, mk l2 beg .lString)
  else if isIdStart (cur l) then done (lexIdent beg l)
  else if isDig (cur l) then (lexNumber adv fuel beg l).bind done
  else let l1 := skipChar l; done (l1, mk l1 beg .error)

/-- lexer.c 317-328: after a dot. -/
def lexDot (beg : Pos) (l : L) : L × Token :=
  if accepts l 46 then
    let l1 := skipChar l
    if accepts l1 46 then let l2 := skipChar l1; (l2, mk l2 beg (.sym .Elipsis)) else (l1, mk l1 beg (.sym .DotDot))
  else if accepts l 91 then let l1 := skipChar l; (l1, mk l1 beg (.sym .IndexExpr))
  else
    let l1 := { l with fl := { l.fl with maybeNotFloat := true } }
    (l1, mk l1 beg (.sym .Dot))

/-- lexer.c 447-463: after a slash. -/
def lexSlash (beg : Pos) (l : L) : Step :=
  if accepts l 47 then .again (skipSingleLineComment (skipChar l))
  else if accepts l 42 then
    let (ok, l1) := skipMultiLineComment (skipChar l)
    if ok then .again l1 else .tok l1 (mk l1 beg .error)
  else if accepts l 61 then let l1 := skipChar l; .tok l1 (mk l1 beg (.sym .DivEqual))
  else .tok l (mk l beg (.sym .Div))

/-- lexer.c 465-474, after an opening quote. -/
def lexQuote (fuel : Nat) (beg : Pos) (l : L) : Res (L × Token) :=
  if cur l = 34 ∧ peekNext l = 34 then .ok (multilineString (skipChar l))
  else lexString fuel beg true l

/-- lexer.c 284-653: the body of the loop of `advanceLexer`.  The order of the branches differs from the
code only between branches on different characters. -/
def lexOne (adv : L → Res (L × Token)) (fuel : Nat) (l0 : L) : Res Step :=
  if l0.fl.enter then
    let l := skipChar { l0 with fl := { l0.fl with enter := false, cont := true } }
    (lexString fuel l0.pos false l).bind done
  else
    let l := skipSpaces l0
    let beg := l.pos
    if isEof l then done (l, mk l beg .eof)
    else match Chain.runAlts punctuation l with
      | some (l1, s) => done (l1, mk l1 beg (.sym s))
      | none =>
        let l1 := skipChar l
        if accepts l 46 then done (lexDot beg l1)
        else if accepts l 125 then
          if l1.fl.cont then (lexString fuel beg false l1).bind done else done (l1, mk l1 beg (.sym .RBrace))
        else if accepts l 47 then .ok (lexSlash beg l1)
        else if accepts l 34 then (lexQuote fuel beg l1).bind done
        else if accepts l 39 then (lexChar fuel beg l1).bind done
        else lexWord adv fuel beg l

/-- lexer.c 284-653: `while (true)` of `advanceLexer`. -/
def lexLoop (adv : L → Res (L × Token)) (fuel : Nat) : Nat → L → Res (L × Token)
  | 0, _ => .diverge
  | f + 1, l => (lexOne adv fuel l).bind fun
    | .tok l' t => .ok (l', t)
    | .again l' => lexLoop adv fuel f l'

/-- lexer.c 278-282 -/
def clearMaybe (l : L) : L :=
  if l.fl.maybeNotFloat && !isDig (cur l) && cur l != 46 then { l with fl := { l.fl with maybeNotFloat := false } }
  else l

/-- lexer.c 267-654 `advanceLexer`, with fuel for all its loops. -/
def advance : Nat → L → Res (L × Token)
  | 0, _ => .diverge
  | f + 1, l =>
    if l.fl.exit then
      let l1 := { l with fl := { l.fl with exit := false } }
      .ok (l1, mk l1 l1.pos .rString)
    else if l.fl.retFmt then
      let l1 := { l with fl := { l.fl with retFmt := false } }
      .ok (l1, mk l1 l1.pos .lStrFmt)
    else lexLoop (advance f) f f (clearMaybe l)

/-- Reading tokens until the end of the file, as the parser does (parser.c 120-129, 3666-3671, without
`include`). -/
def lexAll (fuel : Nat) : Nat → L → Res (List Token)
  | 0, _ => .diverge
  | n + 1, l => (advance fuel l).bind fun (l', t) =>
    if t.tag = .eof then .ok [t] else (lexAll fuel n l').map (t :: ·)

/-- All tokens of a source text. -/
def lex (fuel : Nat) (src : List Nat) : Res (List Token) := lexAll fuel fuel (init src)

end Verif.Lexer
