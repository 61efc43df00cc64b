import Verif.Lang.Parser.Spec
import Verif.Lang.Lexer.Tokens
import Verif.Common.Decimal
/-!
# Expressions written as source text: `middle/dump/cxy.c` 20-49, 259-291, 384-400, 527-609, 649-681, `operator.c` 9-45

`cxy dev --dump-ast=CXY` writes a syntax tree as source text.  The text is a list of bytes; colours are left out,
as they are when the output is not a terminal (1279).  The trees are those of the parser model, before types are
known: no attributes, no generic arguments, no `this.` added to paths, no name of a generic parameter replaced by
its type.  `spell` gives the text of a name.
-/
namespace Verif.Dump
open Lexer (str Sym)
open Parser (BinOp PreOp PostOp AsgOp Expr Args)

/-- operator.h 15-51 through operator.c 22-33 `getBinaryOpString` -/
def binText : BinOp → List Nat
  | .Range => str ".." | .Catch => str "catch" | .Add => str "+" | .Sub => str "-" | .Mul => str "*"
  | .Div => str "/" | .Mod => str "%" | .BAnd => str "&" | .BOr => str "|" | .BXor => str "^"
  | .Shl => str "<<" | .Shr => str ">>" | .Eq => str "==" | .Ne => str "!=" | .Is => str "is"
  | .Gt => str ">" | .Lt => str "<" | .Geq => str ">=" | .Leq => str "<=" | .LAnd => str "&&" | .LOr => str "||"

/-- operator.h 59-72 through operator.c 9-20 `getUnaryOpString`; dump/cxy.c 547-567: a space after `delete`, `await`
and `ptrof` only; 576-582 `dumpPointerOfExpr`. -/
def preText : PreOp → List Nat
  | .PreDec => str "--" | .PreInc => str "++" | .Minus => str "-" | .Plus => str "+" | .Deref => str "*"
  | .Not => str "!" | .Compl => str "~" | .Refof => str "&" | .Move => str "&&" | .Spread => str "..."
  | .Await => str "await " | .Delete => str "delete " | .Ptrof => str "ptrof "

/-- operator.h 74-76 -/
def postText : PostOp → List Nat
  | .PostDec => str "--" | .PostInc => str "++"

/-- operator.c 35-45 `getAssignOpString`: the operator and `=` -/
def asgText : AsgOp → List Nat
  | .Assign => str "=" | .Add => str "+=" | .Sub => str "-=" | .Mul => str "*=" | .Div => str "/=" | .Mod => str "%="
  | .BAnd => str "&=" | .BOr => str "|=" | .BXor => str "^=" | .Shl => str "<<=" | .Shr => str ">>="

/-- `{u64}` -/
def number (v : Nat) : List Nat := (decimal v).map BitVec.toNat

/-- The names of a path after the first, 274-284 `dumpPath` -/
def dumpNames (spell : Nat → List Nat) : List Nat → List Nat
  | [] => []
  | m :: ms => 46 :: (spell m ++ dumpNames spell ms)

mutual
/-- 259-291 names and paths, 384-400 `dumpIntegerLit` (`-0` is written as `0`), 527-609 and 649-666 operators,
members and indices.  `catchDiscard` has an empty block, written as `{ }` and a line end (713-731). -/
def dump (spell : Nat → List Nat) : Expr → List Nat
  | .path n ms => spell n ++ dumpNames spell ms
  | .int v => number v
  | .neg v => if v = 0 then number 0 else 45 :: number v
  | .dotName n => 46 :: spell n
  | .group e => 40 :: (dump spell e ++ [41])
  | .member e n ms => dump spell e ++ 46 :: (spell n ++ dumpNames spell ms)
  | .memberInt e v => dump spell e ++ 46 :: number v
  | .index e i => dump spell e ++ (str ".[" ++ (dump spell i ++ [93]))
  | .call e as => dump spell e ++ 40 :: (dumpArgs spell as ++ [41])
  | .post op e => dump spell e ++ postText op
  | .pre op e => preText op ++ dump spell e
  | .bin op l r => dump spell l ++ 32 :: (binText op ++ 32 :: dump spell r)
  | .catchDiscard l => dump spell l ++ str " catch { }\n"
  | .assign op l r => dump spell l ++ 32 :: (asgText op ++ 32 :: dump spell r)
  | .ternary c b o => dump spell c ++ (str "? " ++ (dump spell b ++ (str ": " ++ dump spell o)))
  | .elvis c o => dump spell c ++ (str "?: " ++ dump spell o)
/-- 20-41 `dumpManyAstNodesEnclosed` between the parentheses, from 668-681 `dumpCallExpr`.  An argument with the
spread mark is a node of its own (parser.c 1362-1372), for which the table of 1288-1366 has no entry: nothing is
written for it (visitor.c 346-349). -/
def dumpArgs (spell : Nat → List Nat) : Args → List Nat
  | .nil => []
  | .cons s e .nil => dumpArg spell s e
  | .cons s e (.cons s' e' as) => dumpArg spell s e ++ (str ", " ++ dumpArgs spell (.cons s' e' as))
/-- One argument. -/
def dumpArg (spell : Nat → List Nat) : Bool → Expr → List Nat
  | true, _ => []
  | false, e => dump spell e
end

/-- What the parser sees of a token (parser.c 90-100 `getTokenString` takes a name from the source text); `code`
numbers the names. -/
def tokOf (code : List Nat → Nat) (src : List Nat) (t : Lexer.Token) : Parser.Tok :=
  match t.tag with
  | .sym s => .sym s
  | .ident => .ident (code ((src.drop t.beg.off).take (t.fin.off - t.beg.off)))
  | .intLit v => .int v
  | .kw w =>
    .kw (if w = str "is" then .is else if w = str "catch" then .catch else if w = str "await" then .await
      else if w = str "delete" then .delete else if w = str "ptrof" then .ptrof else if w = str "func" then .func
      else if w = str "discard" then .discard else if w = str "as" then .as else .other)
  | _ => .other

/-- Reading an expression from a text: the lexer, then the parser up to the end of the file. -/
def read (code : List Nat → Nat) (fuel : Nat) (src : List Nat) : Res (Parser.Out (Expr × List Parser.Tok)) :=
  (Lexer.lex fuel src).bind fun toks =>
    .ok (Parser.expression fuel (toks.dropLast.map (tokOf code src)))

end Verif.Dump
