/-! # The warning about redundant statements

Models `/repo/src/cxy/lang/middle/simplify/simplify.c` 424-512 (`isRedundantExpression` and its helpers,
`isRedundantStatement`) and 1071-1105 (`visitBlockStmt`).

Modelled: which statements of a block are reported with "removing this statement because it is redundant" and which
statements the block has afterwards.  Simplified: rewriting of the statements themselves is left out; the flag on the
value of a block that returns one is a property of the statement (`isValue`). -/

namespace Verif.Redundant

/-- Expressions: `leaf` is a literal, a variable or a path; `effect` is anything the function does not look into (a call,
an assignment, ...); `step` is an increment, decrement or `delete`. -/
inductive Expr where
  | leaf (n : Nat)
  | effect (n : Nat)
  | step (e : Expr)
  | member (e : Expr)
  | index (e i : Expr)
  | array (es : List Expr)
  | tuple (es : List Expr)
  | strct (es : List Expr)
  | group (e : Expr)
  | unary (e : Expr)
  | binary (a b : Expr)
  | ternary (c a b : Expr)

mutual
/-- `isRedundantExpression` (446-496). -/
def redundant : Expr → Bool
  | .leaf _ => true
  | .effect _ => false
  | .step _ => false
  | .member e => redundant e
  | .index e _ => redundant e
  | .array es => redundantMany es
  | .tuple es => redundantMany es
  | .strct es => redundantMany es
  | .group e => redundant e
  | .unary e => redundant e
  | .binary a b => redundant a || redundant b
  | .ternary c a b => redundant c || redundant a || redundant b

/-- `isRedundantExpressionMany` and `isRedundantStructExpression` (424-444). -/
def redundantMany : List Expr → Bool
  | [] => false
  | e :: es => if redundant e then true else redundantMany es
end

inductive Stmt where
  /-- an expression on its own -/
  | expr (e : Expr)
  /-- a block -/
  | block (ss : List Stmt)
  /-- any other statement -/
  | other (n : Nat)
  /-- what is left of a compile-time statement -/
  | noop

/-- `isRedundantStatement` (498-511). -/
def redundantStmt : Stmt → Bool
  | .expr e => redundant e
  | .block ss => ss.isEmpty
  | .other _ => false
  | .noop => false

/-- `visitBlockStmt` (1071-1105): the statements that stay, and the ones that are reported. `returns` is the flag of a block
whose last statement is its value. -/
def visitBlock (returns : Bool) : List Stmt → List Stmt × List Stmt
  | [] => ([], [])
  | .noop :: ss => visitBlock returns ss
  | s :: ss =>
    let (keep, warn) := visitBlock returns ss
    if (!returns || !ss.isEmpty) && redundantStmt s then (s :: keep, s :: warn) else (s :: keep, warn)

end Verif.Redundant
