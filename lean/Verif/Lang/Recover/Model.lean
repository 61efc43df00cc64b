/-!
# Where parsing goes on after a syntax error

The tokens of a file are a list that ends at the end of the file. A syntax error is at the first
token of the list, the one that was not expected.
-/
namespace Verif.Recover

/-- Tokens by their tag (`src/cxy/lang/frontend/token.h`). Tags that none of the functions below
asks for are `other`, told apart by a number. -/
inductive Tok where
  | lbrace | rbrace | semi
  | type | struct | class | enum | var | const | async | func | at | define | cdefine
  | interface | pub | macro
  | if | for | switch | while | match
  | extern | test | exception | hash
  | other (n : Nat)
deriving DecidableEq, Repr

/-- `advance`, `src/cxy/lang/frontend/parser.c` 120-130: stays at the end of the file. Simplified:
the tokens looked ahead at are part of the list. -/
def advance (ts : List Tok) : List Tok := ts.tail

/-- `parserError`, `src/cxy/lang/frontend/parser.c` 184-193: the token of the error is passed before
the exception is raised. Simplified: only what is left to parse, not the message. -/
def raised (ts : List Tok) : List Tok := advance ts

/-- The cases of the `switch` in `synchronize`, `src/cxy/lang/frontend/parser.c` 3437-3457. -/
def stops : Tok → Bool
  | .type | .struct | .class | .enum | .var | .const | .async | .func | .at | .define | .cdefine
  | .interface | .pub | .macro | .if | .for | .switch | .while | .match => true
  | _ => false

/-- The loop in `synchronize`, `src/cxy/lang/frontend/parser.c` 3436-3461. -/
def syncLoop : List Tok → List Tok
  | [] => []
  | t :: ts => if t = .semi then ts else if stops t then t :: ts else syncLoop ts

/-- `synchronize`, `src/cxy/lang/frontend/parser.c` 3432-3462. -/
def synchronize (ts : List Tok) : List Tok := syncLoop (advance ts)

/-- `synchronizeUntil`, `src/cxy/lang/frontend/parser.c` 3654-3658. -/
def syncUntil (tag : Tok) : List Tok → List Tok
  | [] => []
  | t :: ts => if t = tag then t :: ts else syncUntil tag ts

/-- Where `block` goes on after an error in one of its statements,
`src/cxy/lang/frontend/parser.c` 1399-1402. -/
def inBlock (ts : List Tok) : List Tok := syncUntil .rbrace (raised ts)

/-- Where `parseProgram` goes on after an error in a declaration that is not in a block,
`src/cxy/lang/frontend/parser.c` 3701-3708. -/
def inProgram (ts : List Tok) : List Tok := synchronize (raised ts)

end Verif.Recover
