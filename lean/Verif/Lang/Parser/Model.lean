import Verif.Lang.Lexer.Model
/-!
# Expression parsing: `parser.c` 335-352, 475-499, 644-931, 951-965, 1266-1385, 1563-1626, 1702-1800, `operator.h`, `operator.c`

The parser reads a list of tokens; the end of the list is `tokEoF`.  Constructs that are not modelled
(types, closures, macros, tuples, arrays, struct literals, strings, `as` casts, generic arguments, typed
literals, attributes) give the outcome `outside`; a reported syntax error (`parserError`, which throws)
gives `error`.  Source locations are not modelled.  Names are numbers.
-/
namespace Verif.Parser
open Lexer (Sym)

/-- The keywords the modelled functions look at; `other` is any other keyword. -/
inductive Kw where
  | is | catch | await | delete | ptrof | func | discard | as | other
  deriving DecidableEq, Repr

/-- Tokens; `other` stands for literals that are not modelled. -/
inductive Tok where
  | ident (n : Nat)
  | int (v : Nat)
  | sym (s : Sym)
  | kw (k : Kw)
  | other
  deriving DecidableEq, Repr

/-- operator.h 15-51 `AST_BINARY_EXPR_LIST` -/
inductive BinOp where
  | Range | Catch | Add | Sub | Mul | Div | Mod | BAnd | BOr | BXor | Shl | Shr
  | Eq | Ne | Is | Gt | Lt | Geq | Leq | LAnd | LOr
  deriving DecidableEq, Repr

/-- operator.h 59-72 `AST_PREFIX_EXPR_LIST` -/
inductive PreOp where
  | PreDec | PreInc | Minus | Plus | Deref | Not | Compl | Refof | Move | Spread | Await | Delete | Ptrof
  deriving DecidableEq, Repr

/-- operator.h 74-76 `AST_POSTFIX_EXPR_LIST` -/
inductive PostOp where
  | PostDec | PostInc
  deriving DecidableEq, Repr

/-- operator.h 53-57 `AST_ASSIGN_EXPR_LIST` -/
inductive AsgOp where
  | Assign | Add | Sub | Mul | Div | Mod | BAnd | BOr | BXor | Shl | Shr
  deriving DecidableEq, Repr

mutual
/-- The syntax trees the modelled functions build.  `neg` is a negative integer literal, `dotName` a member
expression without a target, `catchDiscard` a catch with an empty block, `elvis` a ternary without a middle. -/
inductive Expr where
  | path (n : Nat) (ms : List Nat)
  | int (v : Nat)
  | neg (v : Nat)
  | dotName (n : Nat)
  | group (e : Expr)
  | member (e : Expr) (n : Nat) (ms : List Nat)
  | memberInt (e : Expr) (v : Nat)
  | index (e i : Expr)
  | call (e : Expr) (as : Args)
  | post (op : PostOp) (e : Expr)
  | pre (op : PreOp) (e : Expr)
  | bin (op : BinOp) (l r : Expr)
  | catchDiscard (l : Expr)
  | assign (op : AsgOp) (l r : Expr)
  | ternary (c b o : Expr)
  | elvis (c o : Expr)
/-- Call arguments, with the spread mark. -/
inductive Args where
  | nil
  | cons (spread : Bool) (e : Expr) (rest : Args)
end

/-- Outcomes: a value, a reported error, something not modelled, no fuel left. -/
inductive Out (β : Type) where
  | ok (b : β)
  | error
  | outside
  | fuel
  deriving DecidableEq, Repr

def Out.bind {β γ : Type} : Out β → (β → Out γ) → Out γ
  | .ok b, f => f b
  | .error, _ => .error
  | .outside, _ => .outside
  | .fuel, _ => .fuel

@[simp] theorem Out.bind_ok {β γ : Type} (b : β) (f : β → Out γ) : (Out.ok b).bind f = f b := rfl

/-- operator.c 137-148 `tokenToBinaryOperator` with the tokens of operator.h 15-51 -/
def binOp : Tok → Option BinOp
  | .sym .DotDot => some .Range
  | .kw .catch => some .Catch
  | .sym .Plus => some .Add
  | .sym .Minus => some .Sub
  | .sym .Mult => some .Mul
  | .sym .Div => some .Div
  | .sym .Mod => some .Mod
  | .sym .BAnd => some .BAnd
  | .sym .BOr => some .BOr
  | .sym .BXor => some .BXor
  | .sym .Shl => some .Shl
  | .sym .Shr => some .Shr
  | .sym .Equal => some .Eq
  | .sym .NotEqual => some .Ne
  | .kw .is => some .Is
  | .sym .Greater => some .Gt
  | .sym .Less => some .Lt
  | .sym .GreaterEqual => some .Geq
  | .sym .LessEqual => some .Leq
  | .sym .LAnd => some .LAnd
  | .sym .LOr => some .LOr
  | _ => none

/-- operator.c 84-97 `getBinaryOpPrecedence` -/
def prec : BinOp → Nat
  | .Range => 13
  | .Catch => 10
  | .Add => 3
  | .Sub => 3
  | .Mul => 2
  | .Div => 2
  | .Mod => 2
  | .BAnd => 7
  | .BOr => 9
  | .BXor => 8
  | .Shl => 4
  | .Shr => 4
  | .Eq => 6
  | .Ne => 6
  | .Is => 6
  | .Gt => 5
  | .Lt => 5
  | .Geq => 5
  | .Leq => 5
  | .LAnd => 11
  | .LOr => 12

/-- operator.c 66-82 `getMaxBinaryOpPrecedence` -/
def maxPrec : Nat := 14

/-- operator.c 111-122 `tokenToUnaryOperator`, the tokens of operator.h 59-72 -/
def preOp : Tok → Option PreOp
  | .sym .MinusMinus => some .PreDec
  | .sym .PlusPlus => some .PreInc
  | .sym .Minus => some .Minus
  | .sym .Plus => some .Plus
  | .sym .Mult => some .Deref
  | .sym .LNot => some .Not
  | .sym .BNot => some .Compl
  | .sym .BAnd => some .Refof
  | .sym .LAnd => some .Move
  | .sym .Elipsis => some .Spread
  | .kw .await => some .Await
  | .kw .delete => some .Delete
  | .kw .ptrof => some .Ptrof
  | _ => none

/-- operator.c 99-109 `isAssignmentOperator`, 150-161 `tokenToAssignmentOperator` -/
def asgOp : Tok → Option AsgOp
  | .sym .Assign => some .Assign
  | .sym .PlusEqual => some .Add
  | .sym .MinusEqual => some .Sub
  | .sym .MultEqual => some .Mul
  | .sym .DivEqual => some .Div
  | .sym .ModEqual => some .Mod
  | .sym .BAndEqual => some .BAnd
  | .sym .BOrEqual => some .BOr
  | .sym .BXorEqual => some .BXor
  | .sym .ShlEqual => some .Shl
  | .sym .ShrEqual => some .Shr
  | _ => none

/-- parser.c 475-499 `parseInteger` after the token: a quote starts a type (not modelled). -/
def literal (e : Expr) (ts : List Tok) : Out (Expr × List Tok) :=
  match ts with
  | .sym .Quote :: _ => .outside
  | _ => .ok (e, ts)

/-- parser.c 1612-1622, the loop of `parsePath` -/
def pathRest : List Tok → List Nat × List Tok
  | .sym .Dot :: .ident n :: r => (n :: (pathRest r).1, (pathRest r).2)
  | ts => ([], ts)

/-- parser.c 1563-1602 `pathElement`, 1604-1626 `parsePath`, after the first name: an exclamation mark is a
macro call and a bracket starts generic arguments (not modelled). -/
def parsePath (mk : List Nat → Expr) (ts : List Tok) : Out (Expr × List Tok) :=
  match ts with
  | .sym .LNot :: _ => .outside
  | _ =>
    match (pathRest ts).2 with
    | .sym .LBracket :: _ => .outside
    | _ => .ok (mk (pathRest ts).1, (pathRest ts).2)

/-- parser.c 951-965 `maybeClosure`, seen after the parenthesis -/
def maybeClosure : List Tok → Bool
  | .sym .At :: .ident _ :: _ => true
  | .ident _ :: .sym .Colon :: _ => true
  | .sym .RParen :: .sym .Colon :: _ => true
  | .sym .RParen :: .sym .FatArrow :: _ => true
  | _ => false

/-- parser.c 1785-1789 `primary`, 1754-1783 `postfixCast`: casts are not modelled. -/
def cast (e : Expr) (ts : List Tok) : Out (Expr × List Tok) :=
  match ts with
  | .kw .as :: _ => .outside
  | .sym .LNot :: .kw .as :: _ => .outside
  | .sym .BangColon :: _ => .outside
  | _ => .ok (e, ts)

mutual
/-- parser.c 1791-1800 `expression`: an `@` starts attributes (not modelled); 910-931 `ternary`. -/
def expression : Nat → List Tok → Out (Expr × List Tok)
  | 0, _ => .fuel
  | f + 1, ts =>
    match ts with
    | .sym .At :: _ => .outside
    | _ => ternary f ts

/-- parser.c 910-931 `ternary` -/
def ternary : Nat → List Tok → Out (Expr × List Tok)
  | 0, _ => .fuel
  | f + 1, ts =>
    (assign f ts).bind fun (c, r) =>
      match r with
      | .sym .Question :: .sym .Colon :: r1 => (ternary f r1).bind fun (o, r2) => .ok (.elvis c o, r2)
      | .sym .Question :: r1 =>
        (ternary f r1).bind fun (b, r2) =>
          match r2 with
          | .sym .Colon :: r3 => (ternary f r3).bind fun (o, r4) => .ok (.ternary c b o, r4)
          | _ => .error
      | _ => .ok (c, r)

/-- parser.c 890-908 `assign` -/
def assign : Nat → List Tok → Out (Expr × List Tok)
  | 0, _ => .fuel
  | f + 1, ts =>
    (prefixP f ts).bind fun (l, r) =>
      match r.head?.bind asgOp with
      | some op => (assign f r.tail).bind fun (x, r1) => .ok (.assign op l x, r1)
      | none => binary f l maxPrec r

/-- parser.c 852-888 `binary` with the left operand given -/
def binary : Nat → Expr → Nat → List Tok → Out (Expr × List Tok)
  | 0, _, _, _ => .fuel
  | f + 1, lhs, p, ts =>
    match ts with
    | [] => .ok (lhs, [])
    | t :: r =>
      if t = .sym .Minus ∧ r.head? = some (.kw .func) then .ok (lhs, t :: r)
      else
        match binOp t with
        | none => .ok (lhs, t :: r)
        | some op =>
          if p ≤ prec op then .ok (lhs, t :: r)
          else if op = .Catch ∧ r.head? = some (.kw .discard) then binary f (.catchDiscard lhs) p r.tail
          else
            (prefixP f r).bind fun (x, r1) =>
              (binary f x (prec op) r1).bind fun (rhs, r2) => binary f (.bin op lhs rhs) p r2

/-- parser.c 765-848 `prefix`: signed literals, `.name`, the prefix operators. -/
def prefixP : Nat → List Tok → Out (Expr × List Tok)
  | 0, _ => .fuel
  | f + 1, ts =>
    match ts with
    | .sym .Minus :: .int v :: r => literal (.neg v) r
    | .sym .Plus :: .int v :: r => literal (.int v) r
    | .sym .Dot :: .ident n :: r =>
      match r with
      | .sym .LNot :: _ => .outside
      | _ => .ok (.dotName n, r)
    | .sym .Colon :: _ => .outside
    | t :: r =>
      match preOp t with
      | some op => (prefixP f r).bind fun (e, r1) => .ok (.pre op e, r1)
      | none => (primary f (t :: r)).bind fun (e, r1) => postfix_ f e r1
    | [] => .error

/-- parser.c 682-752 `postfix`, the loop; 644-667 `member`, 669-680 `indexExpr`, 1374-1385 `callExpression`. -/
def postfix_ : Nat → Expr → List Tok → Out (Expr × List Tok)
  | 0, _, _ => .fuel
  | f + 1, e, ts =>
    match ts with
    | .sym .PlusPlus :: r => .ok (.post .PostInc e, r)
    | .sym .MinusMinus :: r => .ok (.post .PostDec e, r)
    | .sym .Dot :: .int v :: r => (literal (.memberInt e v) r).bind fun (e1, r1) => postfix_ f e1 r1
    | .sym .Dot :: .ident n :: r => (parsePath (.member e n) r).bind fun (e1, r1) => postfix_ f e1 r1
    | .sym .Dot :: .sym .Hash :: _ => .outside
    | .sym .Dot :: .sym .Quote :: _ => .outside
    | .sym .Dot :: .sym .Substitutue :: _ => .outside
    | .sym .Dot :: .kw .other :: _ => .outside
    | .sym .Dot :: _ => .error
    | .sym .BAndDot :: _ => .outside
    | .sym .IndexExpr :: r =>
      (expression f r).bind fun (i, r1) =>
        match r1 with
        | .sym .RBracket :: r2 => postfix_ f (.index e i) r2
        | _ => .error
    | .sym .LNot :: _ => .outside
    | .sym .LParen :: r => (args f r).bind fun (as, r1) => postfix_ f (.call e as) r1
    | .kw .as :: _ => .outside
    | .sym .BangColon :: _ => .outside
    | _ => .ok (e, ts)

/-- parser.c 1702-1751 `primary_`, 1785-1789 `primary`; 1266-1289 `parenExpr`: tuples are not modelled. -/
def primary : Nat → List Tok → Out (Expr × List Tok)
  | 0, _ => .fuel
  | f + 1, ts =>
    match ts with
    | .int v :: r => (literal (.int v) r).bind fun (e, r1) => cast e r1
    | .ident n :: r =>
      (parsePath (.path n) r).bind fun (e, r1) =>
        match r1 with
        | .sym .LBrace :: _ => .outside
        | _ => cast e r1
    | .sym .LParen :: r =>
      if maybeClosure r then .outside
      else
        (expression f r).bind fun (e, r1) =>
          match r1 with
          | .sym .RParen :: r2 => cast (.group e) r2
          | .sym .Comma :: _ => .outside
          | _ => .error
    | .sym .LBrace :: _ => .outside
    | .sym .LBracket :: _ => .outside
    | .sym .Hash :: _ => .outside
    | .sym .Substitutue :: _ => .outside
    | .sym .Less :: _ => .outside
    | .sym _ :: _ => .error
    | .kw .other :: _ => .outside
    | .kw _ :: _ => .error
    | .other :: _ => .outside
    | [] => .error

/-- parser.c 335-352 `parseMany` with 1362-1372 `parseCallArguments`, up to the closing parenthesis -/
def args : Nat → List Tok → Out (Args × List Tok)
  | 0, _ => .fuel
  | f + 1, ts =>
    match ts with
    | .sym .RParen :: r => .ok (.nil, r)
    | [] => .error
    | t :: r =>
      (expression f (if t = .sym .Elipsis then r else t :: r)).bind fun (e, r1) =>
        match r1 with
        | .sym .Comma :: r2 => (args f r2).bind fun (as, r3) => .ok (.cons (t = .sym .Elipsis) e as, r3)
        | .sym .RParen :: _ => (args f r1).bind fun (as, r3) => .ok (.cons (t = .sym .Elipsis) e as, r3)
        | _ => .error
end

end Verif.Parser
