import Verif.Lang.Prim.Model
import Verif.Common.Res
/-!
# Code generated for arithmetic on primitive types

Model of `src/cxy/lang/backend/llvm/binary.cpp` (`generateBinaryExpr`), `context.cpp`
(`generateCastExpr`) and `generate.cpp` (`visitAssignExpr`) for operands of primitive type. The LLVM
instructions they emit are given the meaning of the LLVM language reference: an integer value is a
bit pattern of some width, poison and malformed instructions are `Res.ub`. Floats are an abstract
type with the operations LLVM needs.
-/
namespace Verif.Codegen
open Verif.Prim
open Verif.Prim.Prim

/-! ## LLVM integers -/

/-- Signed reading of a `w`-bit pattern. -/
def sval (w n : Nat) : Int := if n < 2 ^ (w - 1) then (n : Int) else (n : Int) - 2 ^ w

/-- `w`-bit pattern of an integer. -/
def enc (w : Nat) (v : Int) : Nat := (v % 2 ^ w).toNat

/-- Operations a float type must supply. `ofInt sz v` rounds the integer `v` to a float of `sz` bytes, `toInt` is the
integer part. -/
structure FloatOps (F : Type) where
  ofInt : Nat → Int → F
  resize : Nat → F → F
  toInt : F → Int
  add : Nat → F → F → F
  sub : Nat → F → F → F
  mul : Nat → F → F → F
  div : Nat → F → F → F
  rem : Nat → F → F → F
  isNan : F → Bool
  lt : F → F → Bool
  eq : F → F → Bool

/-- An LLVM value: an integer of `w` bits or a float of `sz` bytes. -/
inductive LVal (F : Type) where
  | int (w n : Nat)
  | flt (sz : Nat) (x : F)
  deriving DecidableEq, Repr

/-- operator.h: the binary operators generateBinaryExpr handles without branches. -/
inductive Op where
  | add | sub | mul | div | mod | band | bor | bxor | shl | shr | lt | gt | leq | geq | eq | ne
  deriving DecidableEq, Repr

/-- context.cpp `getLLVMType` of a primitive type: `8 * size` bits (`i1` for `bool`). -/
def width (p : Prim) : Nat := if p = boolean then 1 else 8 * size p

variable {F : Type}

/-- LLVM CreateZExtOrTrunc -/
def zextOrTrunc (w' n : Nat) : Nat := n % 2 ^ w'

/-- LLVM CreateSExtOrTrunc -/
def sextOrTrunc (w w' n : Nat) : Nat :=
  if w ≤ w' then (if n < 2 ^ (w - 1) then n else n + (2 ^ w' - 2 ^ w)) else n % 2 ^ w'

/-- LLVM FPToUI and FPToSI to `w` bits: poison when the integer part is out of range. -/
def fpToInt (unsigned : Bool) (w : Nat) (v : Int) : Res (LVal F) :=
  if unsigned then (if 0 ≤ v ∧ v < 2 ^ w then .ok (.int w (enc w v)) else .ub)
  else if -2 ^ (w - 1) ≤ v ∧ v < 2 ^ (w - 1) then .ok (.int w (enc w v)) else .ub

/-- context.cpp 404-458 `generateCastExpr` for primitive types: `v` is the value generated for an
expression of type `from_`. Casting from `bool` to an integer reaches `unreachable`, and casting to `bool` from another
type is not handled there (`ub`). -/
def cast (fo : FloatOps F) (to from_ : Prim) (v : LVal F) : Res (LVal F) :=
  if to = from_ then .ok v
  else if isFloat to then
    match v with
    | .flt _ x => if isFloat from_ then .ok (.flt (size to) (fo.resize (size to) x)) else .ub
    | .int w n =>
      if isFloat from_ then .ub
      else if isUnsigned from_ || isCharacter from_ then
        .ok (.flt (size to) (fo.ofInt (size to) (sval w n)))        -- SIToFP
      else .ok (.flt (size to) (fo.ofInt (size to) (n : Int)))       -- UIToFP
  else if isInteger to || isCharacter to then
    match v with
    | .int w n =>
      if isUnsigned from_ || isCharacter from_ then .ok (.int (width to) (zextOrTrunc (width to) n))
      else if isSignedInteger from_ then .ok (.int (width to) (sextOrTrunc w (width to) n))
      else .ub
    | .flt _ x => if isFloat from_ then fpToInt (isUnsigned to) (width to) (fo.toInt x) else .ub
  else .ub

/-- An `i1` result. -/
def i1 (b : Bool) : LVal F := .int 1 (if b then 1 else 0)

/-- LLVM sdiv/srem: undefined for a zero divisor and for the overflowing quotient. -/
def sdivOk (w a b : Nat) : Bool :=
  b != 0 && !(sval w a == -2 ^ (w - 1) && sval w b == -1)

/-- binary.cpp 117-208: the instruction chosen for an operator, `type` being the type that selects
between the signed, unsigned and float instruction, on two integers of `w` bits. -/
def intOp (op : Op) (type : Prim) (w a b : Nat) : Res (LVal F) :=
  match op with
  | .add => .ok (.int w ((a + b) % 2 ^ w))
  | .sub => .ok (.int w ((a + (2 ^ w - b)) % 2 ^ w))
  | .mul => .ok (.int w (a * b % 2 ^ w))
  | .div =>
    if isSigned type then
      if sdivOk w a b then .ok (.int w (enc w (Int.tdiv (sval w a) (sval w b)))) else .ub
    else if b = 0 then .ub else .ok (.int w (a / b))
  | .mod =>
    if isSigned type then
      if sdivOk w a b then .ok (.int w (enc w (Int.tmod (sval w a) (sval w b)))) else .ub
    else if b = 0 then .ub else .ok (.int w (a % b))
  | .band => .ok (.int w (a &&& b))
  | .bor => .ok (.int w (a ||| b))
  | .bxor => .ok (.int w (a ^^^ b))
  | .shl => if b < w then .ok (.int w (a * 2 ^ b % 2 ^ w)) else .ub
  | .shr => if b < w then .ok (.int w (a / 2 ^ b)) else .ub          -- always LShr
  | .lt => .ok (i1 (if isSigned type then decide (sval w a < sval w b) else decide (a < b)))
  | .gt => .ok (i1 (if isSigned type then decide (sval w a > sval w b) else decide (a > b)))
  | .leq => .ok (i1 (if isSigned type then decide (sval w a ≤ sval w b) else decide (a ≤ b)))
  | .geq => .ok (i1 (if isSigned type then decide (sval w a ≥ sval w b) else decide (a ≥ b)))
  | .eq => .ok (i1 (decide (a = b)))
  | .ne => .ok (i1 (decide (a ≠ b)))

/-- binary.cpp 117-208 on two floats: the comparisons are the unordered predicates `FCmpU*`. -/
def fltOp (fo : FloatOps F) (op : Op) (sz : Nat) (x y : F) : Res (LVal F) :=
  let uno := fo.isNan x || fo.isNan y
  match op with
  | .add => .ok (.flt sz (fo.add sz x y))
  | .sub => .ok (.flt sz (fo.sub sz x y))
  | .mul => .ok (.flt sz (fo.mul sz x y))
  | .div => .ok (.flt sz (fo.div sz x y))
  | .mod => .ok (.flt sz (fo.rem sz x y))
  | .lt => .ok (i1 (uno || fo.lt x y))
  | .gt => .ok (i1 (uno || fo.lt y x))
  | .leq => .ok (i1 (uno || fo.lt x y || fo.eq x y))
  | .geq => .ok (i1 (uno || fo.lt y x || fo.eq x y))
  | .eq => .ok (i1 (uno || fo.eq x y))
  | .ne => .ok (i1 (uno || !fo.eq x y))
  | _ => .ub

/-- binary.cpp 93-208 `generateBinaryExpr` for primitive operand types `l` and `r`: the operand of
the type that is not strictly bigger is cast to the other type, whose signedness then selects the
instruction. A float instruction on integers (or the reverse, or two widths) is malformed. -/
def binary (fo : FloatOps F) (op : Op) (l r : Prim) (a b : LVal F) : Res (LVal F) :=
  let go (type : Prim) (a b : LVal F) : Res (LVal F) :=
    match a, b with
    | .int w x, .int w' y => if w = w' ∧ isFloat type = false then intOp op type w x y else .ub
    | .flt s x, .flt s' y => if s = s' ∧ isFloat type = true then fltOp fo op s x y else .ub
    | _, _ => .ub
  if l = r then go l a b
  else if bigger l r then (cast fo l r b).bind fun b' => go l a b'
  else (cast fo r l a).bind fun a' => go r a' b

/-- generate.cpp 445-485 `visitAssignExpr` for `x op= y` with `x : l` and `y : r`: the value stored
in `x`. The rewritten right-hand side `x op y` carries the type of `y`, and a cast from that type to
`l` is generated when the two differ. -/
def compoundAssign (fo : FloatOps F) (op : Op) (l r : Prim) (a b : LVal F) : Res (LVal F) :=
  (binary fo op l r a b).bind fun v => if l = r then .ok v else cast fo l r v

/-- generate.cpp 445-485 `visitAssignExpr` for `x = y`. -/
def assign (fo : FloatOps F) (l r : Prim) (b : LVal F) : Res (LVal F) :=
  if l = r then .ok b else cast fo l r b

end Verif.Codegen
