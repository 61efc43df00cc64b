import Verif.Std.FixedWidth

/-!
# The logger

Model of `src/cxy/stdlib/log.cxy` (5-16, 38-69, 94-98) and of the macro `lshift!` in
`src/cxy/lang/middle/eval/macro.c` (515-548).

An expression is an operand of any other form, a shift to the left, an expression in parentheses or
the call of `log`, which only the macro writes. The text that an operand prints as is a parameter; to
evaluate an operand changes nothing but is recorded. The stream is the list of bytes written to it.
The text of the time is part of the operation.
-/
namespace Verif.Logger

/-- log.cxy 5-16 `Level`; members are numbered from 0. -/
inductive Level where
  | trace
  | debug
  | info
  | warning
  | error
  deriving DecidableEq, Repr

def Level.val : Level → Nat
  | .trace => 0
  | .debug => 1
  | .info => 2
  | .warning => 3
  | .error => 4

/-- the names in `@str` -/
def Level.name : Level → List Nat
  | .trace => [84, 82, 67]
  | .debug => [68, 66, 71]
  | .info => [73, 78, 70]
  | .warning => [87, 82, 78]
  | .error => [69, 82, 82]

inductive Expr where
  | operand (n : Nat)
  | shl (l r : Expr)
  | group (e : Expr)
  | stream
  | newline
  deriving DecidableEq, Repr

/-- macro.c 515-530 `lShift` -/
def lShift (left : Expr) : Expr → Expr
  | .shl l r => .shl (lShift left l) r
  | e => .shl left e

/-- macro.c 532-546 `makeLShiftNode` -/
def makeLShift (left right : Expr) : Expr :=
  match right with
  | .shl _ _ => lShift left right
  | e => .shl left e

structure St where
  level : Level
  out : List Nat
  evals : List Expr
  deriving DecidableEq, Repr

/-- log.cxy 59-63 `log`: nothing when the padding of the tag does not come about -/
def log (lvl : Level) (tag now : List Nat) (s : St) : Option St :=
  match FixedWidth.fixedWidth 11 tag 10 with
  | some (.ok t) => some { s with out := s.out ++ now ++ [32] ++ lvl.name ++ [32] ++ t ++ [32] }
  | _ => none

/-- evaluation of an expression that is the stream: the left operand of `<<` is the stream, the right
one is evaluated and printed -/
def exec (text : Expr → List Nat) (lvl : Level) (tag now : List Nat) : Expr → St → Option St
  | .stream, s => log lvl tag now s
  | .shl l r, s =>
    match exec text lvl tag now l s with
    | some s => some { s with out := s.out ++ (if r = .newline then [10] else text r), evals := s.evals ++ (if r = .newline then [] else [r]) }
    | none => none
  | _, _ => none

/-- log.cxy 68 `__LOG` -/
def message (text : Expr → List Nat) (lvl : Level) (tag now : List Nat) (msg : Expr) (s : St) : Option St :=
  if lvl.val ≥ s.level.val then exec text lvl tag now (.shl (makeLShift .stream msg) .newline) s else some s

/-- what a program does with the logger -/
inductive Op where
  | setLevel (l : Level)
  | say (lvl : Level) (tag now : List Nat) (msg : Expr)

/-- log.cxy 51-53 `level`, 94-98 `setLogLevel` and the messages, in turn -/
def run (text : Expr → List Nat) : List Op → St → Option St
  | [], s => some s
  | .setLevel l :: ops, s => run text ops { s with level := l }
  | .say lvl tag now msg :: ops, s =>
    match message text lvl tag now msg s with
    | some s => run text ops s
    | none => none

end Verif.Logger
