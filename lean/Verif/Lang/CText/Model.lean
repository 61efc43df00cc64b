import Verif.Lang.Parser.Model
/-!
# Model of the C text of expressions

The back end that writes C, `src/cxy/lang/backend/c/generate.c` (the one that is built unless `ENABLE_LLVM_BACKEND` is set,
`CMakeLists.txt` 187–201): `visitBinaryExpr`, `visitAssignExpr`, `visitTernaryExpr`, `visitUnaryExpr`, `visitTypedExpr`,
`visitCastExpr`, `visitGroupExpr`, `visitMemberExpr`, `visitIndexExpr`, `visitIntegerLit` (lines 744–1069), with
`frontend/parser.c` 999–1011 (`implicitCast`) and `middle/sema/unary.c` 148–161 (a dereferenced pointer is an index expression).

The reader is the expression grammar of C (C11, 6.5.1–6.5.16, with the conditional without a middle that clang allows) and the rule
that the longest sequence of characters makes a token (6.4).

Simplified: names, numbers and types are words; calls are left out (their arguments are enclosed like an index); `->` is written
like `.`; `move`, which writes nothing, is left out.
-/
namespace Verif.CText

open Verif.Parser (BinOp AsgOp PostOp)

/-- The prefix operators that are written (`visitUnaryExpr`, `visitReferenceOfExpr`). -/
inductive PreOp where
  | dec | inc | minus | plus | not | compl | ref
  deriving DecidableEq, Repr

/-- Expressions as they reach the back end. `neg` is a negative integer literal; `cast` is a conversion, written `x as T` or `<T>x`
or put in by the compiler. -/
inductive E where
  | id (n : Nat)
  | num (v : Nat)
  | neg (v : Nat)
  | group (e : E)
  | member (e : E) (n : Nat)
  | index (e i : E)
  | post (op : PostOp) (e : E)
  | pre (op : PreOp) (e : E)
  | cast (t : Nat) (e : E)
  | bin (op : BinOp) (l r : E)
  | ternary (c b o : E)
  | elvis (c o : E)
  | assign (op : AsgOp) (l r : E)
  deriving DecidableEq, Repr

/-! ## The text -/

/-- Pieces of text. The three characters that join with a neighbour are on their own; all other operators have blanks or other
characters around them. -/
inductive Ch where
  | blank
  | minus | plus | amp
  | bang | tilde
  | id (n : Nat) | num (v : Nat) | ty (t : Nat)
  | lpar | rpar | lbr | rbr | dot | quest | colon
  | bin (op : BinOp)
  | asg (op : AsgOp)
  | post (op : PostOp)
  deriving DecidableEq, Repr

/-- `getUnaryOpString` (`operator.h` 59–72). -/
def preText : PreOp → List Ch
  | .dec => [.minus, .minus]
  | .inc => [.plus, .plus]
  | .minus => [.minus]
  | .plus => [.plus]
  | .not => [.bang]
  | .compl => [.tilde]
  | .ref => [.amp]

/-- What is written for an expression (`generate.c` 744–1069): operands without parentheses, a conversion as `(T)` in front of the
operand (931–937, 977–980). -/
def text : E → List Ch
  | .id n => [.id n]
  | .num v => [.num v]
  | .neg v => [.minus, .num v]
  | .group e => .lpar :: text e ++ [.rpar]
  | .member e n => text e ++ [.dot, .id n]
  | .index e i => text e ++ .lbr :: text i ++ [.rbr]
  | .post op e => text e ++ [.post op]
  | .pre op e => preText op ++ text e
  | .cast t e => .lpar :: .ty t :: .rpar :: text e
  | .bin op l r => text l ++ .blank :: .bin op :: .blank :: text r
  | .ternary c b o => text c ++ .quest :: .blank :: text b ++ .colon :: .blank :: text o
  | .elvis c o => text c ++ .quest :: .colon :: .blank :: text o
  | .assign op l r => text l ++ .blank :: .asg op :: .blank :: text r

/-! ## Tokens of C -/

/-- Tokens. A prefix `-`, `+` or `&` is the same token as the binary operator. -/
inductive Tok where
  | id (n : Nat) | num (v : Nat) | ty (t : Nat)
  | lpar | rpar | lbr | rbr | dot | quest | colon
  | bin (op : BinOp)
  | asg (op : AsgOp)
  | dec | inc
  | bang | tilde
  deriving DecidableEq, Repr

/-- Tokens of C: the longest sequence of characters that makes one. -/
def lex : List Ch → List Tok
  | [] => []
  | .minus :: .minus :: r => .dec :: lex r
  | .plus :: .plus :: r => .inc :: lex r
  | .amp :: .amp :: r => .bin .LAnd :: lex r
  | .minus :: r => .bin .Sub :: lex r
  | .plus :: r => .bin .Add :: lex r
  | .amp :: r => .bin .BAnd :: lex r
  | .blank :: r => lex r
  | .bang :: r => .bang :: lex r
  | .tilde :: r => .tilde :: lex r
  | .id n :: r => .id n :: lex r
  | .num v :: r => .num v :: lex r
  | .ty t :: r => .ty t :: lex r
  | .lpar :: r => .lpar :: lex r
  | .rpar :: r => .rpar :: lex r
  | .lbr :: r => .lbr :: lex r
  | .rbr :: r => .rbr :: lex r
  | .dot :: r => .dot :: lex r
  | .quest :: r => .quest :: lex r
  | .colon :: r => .colon :: lex r
  | .bin op :: r => .bin op :: lex r
  | .asg op :: r => .asg op :: lex r
  | .post .PostDec :: r => .dec :: lex r
  | .post .PostInc :: r => .inc :: lex r

/-! ## The grammar of C -/

/-- How tight the binary operators of C bind (C11 6.5.5–6.5.14), smaller is tighter. `..`, `catch` and `is` are not operators of C. -/
def cPrec : BinOp → Option Nat
  | .Mul => some 5
  | .Div => some 5
  | .Mod => some 5
  | .Add => some 6
  | .Sub => some 6
  | .Shl => some 7
  | .Shr => some 7
  | .Lt => some 8
  | .Gt => some 8
  | .Leq => some 8
  | .Geq => some 8
  | .Eq => some 9
  | .Ne => some 9
  | .BAnd => some 10
  | .BXor => some 11
  | .BOr => some 12
  | .LAnd => some 13
  | .LOr => some 14
  | _ => none

/-- The outcome of reading: a tree and the tokens behind it, an error, or no fuel left. -/
inductive Got where
  | ok (e : E) (r : List Tok)
  | error
  | fuel
  deriving DecidableEq, Repr

def Got.bind : Got → (E → List Tok → Got) → Got
  | .ok e r, f => f e r
  | .error, _ => .error
  | .fuel, _ => .fuel

@[simp] theorem Got.bind_ok (e : E) (r : List Tok) (f : E → List Tok → Got) : (Got.ok e r).bind f = f e r := rfl

/-- Unary operators of C (6.5.3). -/
def unaryOf : Tok → Option PreOp
  | .dec => some .dec
  | .inc => some .inc
  | .bin .Sub => some .minus
  | .bin .Add => some .plus
  | .bin .BAnd => some .ref
  | .bang => some .not
  | .tilde => some .compl
  | _ => none

/-- What may stand on the left of an assignment (6.5.16): a unary expression. -/
def E.unary : E → Bool
  | .id _ | .num _ | .neg _ | .group _ | .member .. | .index .. | .post .. | .pre .. => true
  | _ => false

mutual
/-- assignment-expression (6.5.16), which here is the whole expression. -/
def readExpr : Nat → List Tok → Got
  | 0, _ => .fuel
  | f + 1, ts => (readCond f ts).bind fun l r =>
    match r with
    | .asg op :: r' => if l.unary then (readExpr f r').bind fun x s => .ok (.assign op l x) s else .error
    | _ => .ok l r
/-- conditional-expression (6.5.15). -/
def readCond : Nat → List Tok → Got
  | 0, _ => .fuel
  | f + 1, ts => (readCast f ts).bind fun a r => (readBin f a 15 r).bind fun c r =>
    match r with
    | .quest :: .colon :: r' => (readCond f r').bind fun o s => .ok (.elvis c o) s
    | .quest :: r' => (readExpr f r').bind fun b s =>
      match s with
      | .colon :: s' => (readCond f s').bind fun o s => .ok (.ternary c b o) s
      | _ => .error
    | _ => .ok c r
/-- The operators (6.5.5–6.5.14) tighter than `p` behind the operand `l`. -/
def readBin : Nat → E → Nat → List Tok → Got
  | 0, _, _, _ => .fuel
  | f + 1, l, p, ts =>
    match ts with
    | .bin op :: r =>
      match cPrec op with
      | none => .error
      | some q => if q < p then
          (readCast f r).bind fun a s => (readBin f a q s).bind fun x s => readBin f (.bin op l x) p s
        else .ok l ts
    | _ => .ok l ts
/-- cast-expression (6.5.4) and unary-expression (6.5.3). -/
def readCast : Nat → List Tok → Got
  | 0, _ => .fuel
  | f + 1, ts =>
    match ts with
    | .lpar :: .ty t :: .rpar :: r => (readCast f r).bind fun e s => .ok (.cast t e) s
    | t :: r =>
      match unaryOf t with
      | some op => (readCast f r).bind fun e s => .ok (.pre op e) s
      | none => (readPrim f ts).bind fun e s => readPost f e s
    | [] => .error
/-- primary-expression (6.5.1). -/
def readPrim : Nat → List Tok → Got
  | 0, _ => .fuel
  | f + 1, ts =>
    match ts with
    | .id n :: r => .ok (.id n) r
    | .num v :: r => .ok (.num v) r
    | .lpar :: r => (readExpr f r).bind fun e s =>
      match s with
      | .rpar :: s' => .ok (.group e) s'
      | _ => .error
    | _ => .error
/-- postfix-expression (6.5.2) behind the operand. -/
def readPost : Nat → E → List Tok → Got
  | 0, _, _ => .fuel
  | f + 1, e, ts =>
    match ts with
    | .dot :: .id n :: r => readPost f (.member e n) r
    | .lbr :: r => (readExpr f r).bind fun i s =>
      match s with
      | .rbr :: s' => readPost f (.index e i) s'
      | _ => .error
    | .dec :: r => readPost f (.post .PostDec e) r
    | .inc :: r => readPost f (.post .PostInc e) r
    | _ => .ok e ts
end

/-- C reads the text as one expression. -/
def Reads (cs : List Ch) (e : E) : Prop := ∃ N, ∀ f, N ≤ f → readExpr f (lex cs) = .ok e []

/-- C has no negative literals: `-5` is the operator applied to `5`. Otherwise the same tree. -/
def inC : E → E
  | .id n => .id n
  | .num v => .num v
  | .neg v => .pre .minus (.num v)
  | .group e => .group (inC e)
  | .member e n => .member (inC e) n
  | .index e i => .index (inC e) (inC i)
  | .post op e => .post op (inC e)
  | .pre op e => .pre op (inC e)
  | .cast t e => .cast t (inC e)
  | .bin op l r => .bin op (inC l) (inC r)
  | .ternary c b o => .ternary (inC c) (inC b) (inC o)
  | .elvis c o => .elvis (inC c) (inC o)
  | .assign op l r => .assign op (inC l) (inC r)

end Verif.CText
