import Verif.Lang.Codegen.Model
/-!
# Compile-time evaluation of integer expressions

Model of `src/cxy/lang/middle/eval/binary.c`, `unary.c` and `literal.c` on integer literals. All
arithmetic goes through `f64`; on integers that is exact arithmetic followed by rounding to 53
significant bits (`rnd`), because sums, differences and products of integers are integers.
-/
namespace Verif.Eval
open Verif.Codegen (Op)

/-- Round a natural number to 53 significant bits, ties to even (IEEE 754 binary64, no overflow:
all magnitudes here are below `2^129`). -/
def rndNat (n : Nat) : Nat :=
  if n < 2 ^ 53 then n
  else
    let k := Nat.log2 n - 52
    let q := n / 2 ^ k
    let r := n % 2 ^ k
    if 2 * r < 2 ^ k then q * 2 ^ k
    else if 2 * r > 2 ^ k then (q + 1) * 2 ^ k
    else if q % 2 = 0 then q * 2 ^ k else (q + 1) * 2 ^ k

/-- The C conversion `(f64)v` of an integer, and the rounding of an exact integer result. -/
def rnd (v : Int) : Int := if v < 0 then -(rndNat v.natAbs : Int) else rndNat v.natAbs

/-- The C conversion `(i64)value` of an integral double: undefined outside the range. -/
def toI64 (v : Int) : Res Int := if -2 ^ 63 ≤ v ∧ v < 2 ^ 63 then .ok v else .ub

/-- The C conversion `(u64)value` of an integral double, read back as `i64` by
`integerLiteralValue` (ast.h 1614). -/
def toU64AsI64 (v : Int) : Res Int :=
  if 0 ≤ v ∧ v < 2 ^ 64 then .ok (if v < 2 ^ 63 then v else v - 2 ^ 64) else .ub

/-- literal.c 47-103 `nodeSetNumericLiteral`, case of two integer literals: the value is converted
to `i64`, then again depending on `intLiteral.isNegative`, which at that point still holds whatever
the binary node stored there: `isNegative` lies over the low byte of `binaryExpr.lhs` (ast.h
369-375, 636-641). `stale` is that byte's truth value. -/
def setInt (stale : Bool) (value : Int) : Res Int :=
  (toI64 value).bind fun _ => if stale then toI64 value else toU64AsI64 value

/-- Signed 64-bit wrap-around (the compilers' behaviour for `<<`). -/
def wrap64 (v : Int) : Int := Int.bmod v (2 ^ 64)

/-- Two's complement bit operation on `i64`. -/
def bitop (f : Nat → Nat → Nat) (x y : Int) : Int :=
  wrap64 (f (Codegen.enc 64 x) (Codegen.enc 64 y))

/-- `(i64)nodeGetNumericLiteral(lhs)` for both operands (binary.c 219, 250, 308) -/
def both (x y : Int) (f : Int → Int → Res Int) : Res Int :=
  (toI64 (rnd x)).bind fun a => (toI64 (rnd y)).bind fun b => f a b

/-- The outcome of an operator: an integer or a boolean literal. -/
inductive Val where
  | int (v : Int)
  | bool (b : Bool)
  deriving DecidableEq, Repr

/-- binary.c 92-473 on two integer literals with values `x` and `y`. -/
def binary (stale : Bool) (op : Op) (x y : Int) : Res Val :=
  match op with
  | .add => (setInt stale (rnd (rnd x + rnd y))).map .int
  | .sub => (setInt stale (rnd (rnd x - rnd y))).map .int
  | .mul => (setInt stale (rnd (rnd x * rnd y))).map .int
  | .div => (both x y fun a b =>
      if b = 0 ∨ (a = -2 ^ 63 ∧ b = -1) then .ub else setInt stale (rnd (Int.tdiv a b))).map .int
  | .mod => (both x y fun a b =>
      if b = 0 ∨ (a = -2 ^ 63 ∧ b = -1) then .ub else setInt stale (rnd (Int.tmod a b))).map .int
  | .shl => (both x y fun a b =>
      if b < 0 ∨ b ≥ 64 then .ub else setInt stale (rnd (wrap64 (a * 2 ^ b.toNat)))).map .int
  | .shr => (both x y fun a b =>
      if b < 0 ∨ b ≥ 64 then .ub else setInt stale (rnd (a / 2 ^ b.toNat))).map .int
  | .band => (both x y fun a b => setInt stale (rnd (bitop (· &&& ·) a b))).map .int
  | .bor => (both x y fun a b => setInt stale (rnd (bitop (· ||| ·) a b))).map .int
  | .bxor => (both x y fun a b => setInt stale (rnd (bitop (· ^^^ ·) a b))).map .int
  | .lt => .ok (.bool (decide (rnd x < rnd y)))
  | .gt => .ok (.bool (decide (rnd x > rnd y)))
  | .leq => .ok (.bool (decide (rnd x ≤ rnd y)))
  | .geq => .ok (.bool (decide (rnd x ≥ rnd y)))
  | .eq => .ok (.bool (decide (rnd x = rnd y)))
  | .ne => .ok (.bool (decide (rnd x ≠ rnd y)))

/-- unary.c 40-59 `evalPrefixMinusOperation` on an integer literal: here `isNegative` is set before
it is read. -/
def neg (x : Int) : Res Int :=
  let value := rnd (-(rnd x))
  if value < 0 then toI64 value else toU64AsI64 value

/-- Integer expressions: literals, operators, prefix minus. -/
inductive Expr where
  | lit (v : Int)
  | bin (op : Op) (a b : Expr)
  | neg (a : Expr)
  deriving DecidableEq, Repr

/-- binary.c 502-533 `evalBinaryExpr`, unary.c 109-146 `evalUnaryExpr` on expression trees: operands
first, then the operator. `stale` gives the stale byte of each node. Only integer results are used
as operands here; a boolean operand is outside this model (`ub`). -/
def eval (stale : Expr → Bool) : Expr → Res Int
  | .lit v => .ok v
  | .bin op a b => (eval stale a).bind fun x => (eval stale b).bind fun y =>
      (binary (stale (.bin op a b)) op x y).bind fun v =>
        match v with
        | .int z => .ok z
        | .bool _ => .ub
  | .neg a => (eval stale a).bind neg

/-- unary.c 40-59 on a float literal: the test at 47 looks at the unary node itself, not at its
operand, so the result is always an integer literal: the truncated value. A float literal is given as
`num / 2^scale` with the sign of `num`. -/
def negFloat (num : Int) (scale : Nat) : Res Int :=
  let value := -num
  if value < 0 then toI64 (Int.tdiv value (2 ^ scale)) else toU64AsI64 (Int.tdiv value (2 ^ scale))

end Verif.Eval
