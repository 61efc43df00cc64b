import Verif.Lang.Parser.Model
/-!
# The expression grammar, independently of the parser

`print` writes a tree down, token by token, without adding parentheses.  `Wf` says which trees can be written
down like that and read back, from the table of operator tiers alone.  `paren` adds the parentheses a tree
needs, `strip` removes all of them.
-/
namespace Verif.Parser
open Lexer (Sym)

/-- Binary operators from the tightest to the loosest; the operators of one tier group to the left. -/
def tiers : List (List BinOp) :=
  [[.Mul, .Div, .Mod], [.Add, .Sub], [.Shl, .Shr], [.Gt, .Lt, .Geq, .Leq], [.Eq, .Ne, .Is], [.BAnd], [.BXor],
   [.BOr], [.Catch], [.LAnd], [.LOr], [.Range]]

/-- The tier of an operator, from 1. -/
def tier (op : BinOp) : Nat := tiers.findIdx (·.contains op) + 1

/-- How loosely the outermost construct of a tree binds: 0 for operands with prefix and postfix operators, the
tier for binary operators, then assignments, then conditionals. -/
def level : Expr → Nat
  | .bin op _ _ => tier op
  | .catchDiscard _ => tier .Catch
  | .assign _ _ _ => 13
  | .ternary _ _ _ => 14
  | .elvis _ _ => 14
  | _ => 0

def binTok : BinOp → Tok
  | .Range => .sym .DotDot | .Catch => .kw .catch | .Add => .sym .Plus | .Sub => .sym .Minus | .Mul => .sym .Mult
  | .Div => .sym .Div | .Mod => .sym .Mod | .BAnd => .sym .BAnd | .BOr => .sym .BOr | .BXor => .sym .BXor
  | .Shl => .sym .Shl | .Shr => .sym .Shr | .Eq => .sym .Equal | .Ne => .sym .NotEqual | .Is => .kw .is
  | .Gt => .sym .Greater | .Lt => .sym .Less | .Geq => .sym .GreaterEqual | .Leq => .sym .LessEqual
  | .LAnd => .sym .LAnd | .LOr => .sym .LOr

def preTok : PreOp → Tok
  | .PreDec => .sym .MinusMinus | .PreInc => .sym .PlusPlus | .Minus => .sym .Minus | .Plus => .sym .Plus
  | .Deref => .sym .Mult | .Not => .sym .LNot | .Compl => .sym .BNot | .Refof => .sym .BAnd | .Move => .sym .LAnd
  | .Spread => .sym .Elipsis | .Await => .kw .await | .Delete => .kw .delete | .Ptrof => .kw .ptrof

def postTok : PostOp → Tok
  | .PostDec => .sym .MinusMinus
  | .PostInc => .sym .PlusPlus

def asgTok : AsgOp → Tok
  | .Assign => .sym .Assign | .Add => .sym .PlusEqual | .Sub => .sym .MinusEqual | .Mul => .sym .MultEqual
  | .Div => .sym .DivEqual | .Mod => .sym .ModEqual | .BAnd => .sym .BAndEqual | .BOr => .sym .BOrEqual
  | .BXor => .sym .BXorEqual | .Shl => .sym .ShlEqual | .Shr => .sym .ShrEqual

/-- `.a.b.c` -/
def dots : List Nat → List Tok
  | [] => []
  | m :: ms => .sym .Dot :: .ident m :: dots ms

/-- The mark of a spread argument. -/
def spreadTok (s : Bool) : List Tok := if s then [.sym .Elipsis] else []

mutual
/-- The tokens of a tree. -/
def print : Expr → List Tok
  | .path n ms => .ident n :: dots ms
  | .int v => [.int v]
  | .neg v => [.sym .Minus, .int v]
  | .dotName n => [.sym .Dot, .ident n]
  | .group e => .sym .LParen :: (print e ++ [.sym .RParen])
  | .member e n ms => print e ++ .sym .Dot :: .ident n :: dots ms
  | .memberInt e v => print e ++ [.sym .Dot, .int v]
  | .index e i => print e ++ .sym .IndexExpr :: (print i ++ [.sym .RBracket])
  | .call e as => print e ++ .sym .LParen :: (printArgs as ++ [.sym .RParen])
  | .post op e => print e ++ [postTok op]
  | .pre op e => preTok op :: print e
  | .bin op l r => print l ++ binTok op :: print r
  | .catchDiscard l => print l ++ [.kw .catch, .kw .discard]
  | .assign op l r => print l ++ asgTok op :: print r
  | .ternary c b o => print c ++ .sym .Question :: (print b ++ .sym .Colon :: print o)
  | .elvis c o => print c ++ .sym .Question :: .sym .Colon :: print o
def printArgs : Args → List Tok
  | .nil => []
  | .cons s e .nil => spreadTok s ++ print e
  | .cons s e (.cons s' e' as) => spreadTok s ++ (print e ++ .sym .Comma :: printArgs (.cons s' e' as))
end

/-- Trees that postfix operators apply to without parentheses. -/
def isPost : Expr → Bool
  | .path _ _ | .int _ | .group _ | .member _ _ _ | .memberInt _ _ | .index _ _ | .call _ _ => true
  | _ => false

/-- The tree ends in a dotted name, which a further `.name` would extend. -/
def endsInPath : Expr → Bool
  | .path _ _ | .member _ _ _ => true
  | _ => false

/-- The first token of a tree. -/
def lead : Expr → Tok
  | .path n _ => .ident n
  | .int v => .int v
  | .neg _ => .sym .Minus
  | .dotName _ => .sym .Dot
  | .group _ => .sym .LParen
  | .member e _ _ | .memberInt e _ | .index e _ | .call e _ | .post _ e => lead e
  | .pre op _ => preTok op
  | .bin _ l _ | .catchDiscard l | .assign _ l _ => lead l
  | .ternary c _ _ | .elvis c _ => lead c

def Tok.isInt : Tok → Bool
  | .int _ => true
  | _ => false

/-- A sign before a number would make a signed literal. -/
def signed (op : PreOp) (e : Expr) : Bool := (op == .Minus || op == .Plus) && (lead e).isInt

mutual
/-- Trees that need no further parentheses. -/
def Wf : Expr → Prop
  | .path _ _ | .int _ | .neg _ | .dotName _ => True
  | .group e => Wf e
  | .member e _ _ => Wf e ∧ isPost e = true ∧ endsInPath e = false
  | .memberInt e _ => Wf e ∧ isPost e = true
  | .index e i => Wf e ∧ isPost e = true ∧ Wf i
  | .call e as => Wf e ∧ isPost e = true ∧ WfArgs as
  | .post _ e => Wf e ∧ isPost e = true
  | .pre op e => Wf e ∧ level e = 0 ∧ signed op e = false
  | .bin op l r => Wf l ∧ Wf r ∧ level l ≤ tier op ∧ level r < tier op
  | .catchDiscard l => Wf l ∧ level l ≤ tier .Catch
  | .assign _ l r => Wf l ∧ Wf r ∧ level l = 0 ∧ level r ≤ 13
  | .ternary c b o => Wf c ∧ Wf b ∧ Wf o ∧ level c ≤ 13
  | .elvis c o => Wf c ∧ Wf o ∧ level c ≤ 13
def WfArgs : Args → Prop
  | .nil => True
  | .cons s e as => Wf e ∧ (s = false → lead e ≠ .sym .Elipsis) ∧ WfArgs as
end

/-- Parentheses, if needed. -/
def wrap (ok : Bool) (e : Expr) : Expr := if ok then e else .group e

mutual
/-- Adds the parentheses a tree needs. -/
def paren : Expr → Expr
  | .path n ms => .path n ms
  | .int v => .int v
  | .neg v => .neg v
  | .dotName n => .dotName n
  | .group e => .group (paren e)
  | .member e n ms => .member (wrap (isPost (paren e) && !endsInPath (paren e)) (paren e)) n ms
  | .memberInt e v => .memberInt (wrap (isPost (paren e)) (paren e)) v
  | .index e i => .index (wrap (isPost (paren e)) (paren e)) (paren i)
  | .call e as => .call (wrap (isPost (paren e)) (paren e)) (parenArgs as)
  | .post op e => .post op (wrap (isPost (paren e)) (paren e))
  | .pre op e => .pre op (wrap (level (paren e) == 0 && !signed op (paren e)) (paren e))
  | .bin op l r =>
    .bin op (wrap (level (paren l) ≤ tier op) (paren l)) (wrap (level (paren r) < tier op) (paren r))
  | .catchDiscard l => .catchDiscard (wrap (level (paren l) ≤ tier .Catch) (paren l))
  | .assign op l r => .assign op (wrap (level (paren l) == 0) (paren l)) (wrap (level (paren r) ≤ 13) (paren r))
  | .ternary c b o => .ternary (wrap (level (paren c) ≤ 13) (paren c)) (paren b) (paren o)
  | .elvis c o => .elvis (wrap (level (paren c) ≤ 13) (paren c)) (paren o)
def parenArgs : Args → Args
  | .nil => .nil
  | .cons s e as => .cons s (wrap (s || lead (paren e) != .sym .Elipsis) (paren e)) (parenArgs as)
end

mutual
/-- Removes all parentheses. -/
def strip : Expr → Expr
  | .path n ms => .path n ms
  | .int v => .int v
  | .neg v => .neg v
  | .dotName n => .dotName n
  | .group e => strip e
  | .member e n ms => .member (strip e) n ms
  | .memberInt e v => .memberInt (strip e) v
  | .index e i => .index (strip e) (strip i)
  | .call e as => .call (strip e) (stripArgs as)
  | .post op e => .post op (strip e)
  | .pre op e => .pre op (strip e)
  | .bin op l r => .bin op (strip l) (strip r)
  | .catchDiscard l => .catchDiscard (strip l)
  | .assign op l r => .assign op (strip l) (strip r)
  | .ternary c b o => .ternary (strip c) (strip b) (strip o)
  | .elvis c o => .elvis (strip c) (strip o)
def stripArgs : Args → Args
  | .nil => .nil
  | .cons s e as => .cons s (strip e) (stripArgs as)
end

end Verif.Parser
