/-!
# Attributes and their arguments
-/
namespace Verif.Attr

/-- Tokens by their tag (`src/cxy/lang/frontend/token.h`). All literals, `true` and `false` among
them, are `lit`, told apart by a number; tags that `attribute` does not ask for are `other`. -/
inductive Tok where
  | lit (v : Nat) | plus | minus
  | ident (n : Nat) | colon | comma | lparen | rparen
  | other (n : Nat)
deriving DecidableEq, Repr

/-- Arguments: a literal, with a name or without. -/
inductive Arg where
  | pos (v : Nat)
  | named (n v : Nat)
deriving DecidableEq, Repr

/-- The loop over arguments without names, with the closing parenthesis,
`src/cxy/lang/frontend/parser.c` 1810-1867. `none` is a syntax error. On a sign `match` and `check`
look at the sign itself, not at what is behind it (1837-1847). Simplified: types behind numbers are
left out. -/
def args : List Tok → Option (List Arg × List Tok)
  | .rparen :: r => some ([], r)
  | .lit v :: .comma :: r => (args r).map fun x => (.pos v :: x.1, x.2)
  | .lit v :: r => (args r).map fun x => (.pos v :: x.1, x.2)
  | _ => none

/-- The same loop over arguments with names, `src/cxy/lang/frontend/parser.c` 1810-1867. -/
def kvps : List Tok → Option (List Arg × List Tok)
  | .rparen :: r => some ([], r)
  | .ident n :: .colon :: .lit v :: .comma :: r => (kvps r).map fun x => (.named n v :: x.1, x.2)
  | .ident n :: .colon :: .lit v :: r => (kvps r).map fun x => (.named n v :: x.1, x.2)
  | _ => none

/-- `attribute`, `src/cxy/lang/frontend/parser.c` 1802-1876: the name, the arguments and the tokens
left. Simplified: without the flag for named arguments, which the arguments show. At the end of the
file behind the parenthesis (1808) the attribute has no arguments. -/
def attrib : List Tok → Option (Nat × List Arg × List Tok)
  | .ident name :: .lparen :: [] => some (name, [], [])
  | .ident name :: .lparen :: .ident n :: .colon :: r =>
    (kvps (.ident n :: .colon :: r)).map fun x => (name, x.1, x.2)
  | .ident name :: .lparen :: r => (args r).map fun x => (name, x.1, x.2)
  | .ident name :: r => some (name, [], r)
  | _ => none

end Verif.Attr
