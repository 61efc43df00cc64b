import Verif.Lang.CLit.Model
import Verif.Lang.Codegen.Spec
/-!
# Integer expressions in the C that is written

Model of what C computes for the integer expressions written by `src/cxy/lang/backend/c/generate.c` (`visitBinaryExpr` 560,
`visitIntegerLit` 796, `visitCastExpr`; the integer types are the typedefs of lines 2020–2029) and of the types
`src/cxy/lang/middle/sema/binary.c` 161 `checkBinaryExpr` gives them. The operands are written as they are: no conversion to the
checked type is added. `long` stands for `long` and `long long`, which are alike.
-/
namespace Verif.CArith
open Verif.Prim (Prim isInteger isSignedInteger size promote)
open Verif.Codegen (Op)
open Verif.CLit (CT)

/-- Expressions of variables, literals (with their checked type), operators and conversions. Parentheses are not needed here (C161);
the operand of a conversion is taken to be in parentheses (C162). -/
inductive E where
  | var (n : Nat)
  | lit (t : Prim) (v : Int)
  | bin (op : Op) (l r : E)
  | cast (t : Prim) (e : E)

/-! ## Checked types -/

/-- The types covered: integers and `wchar`. A `char` is left out. -/
def okType (t : Prim) : Bool := isInteger t || t == .wchar

def isArith : Op → Bool
  | .add | .sub | .mul | .div | .mod | .shl | .shr => true
  | _ => false

def isShift : Op → Bool
  | .shl | .shr => true
  | _ => false

def isCompare : Op → Bool
  | .lt | .gt | .leq | .geq | .eq | .ne => true
  | _ => false

/-- sema/binary.c 254: the common type; comparisons are `bool` (line 325). `none` is an error, or an expression left out here. -/
def typeOf (G : Nat → Prim) : E → Option Prim
  | .var n => if okType (G n) then some (G n) else none
  | .lit t _ => if isInteger t then some t else none
  | .cast t e => (typeOf G e).bind fun u => if okType t && okType u then some t else none
  | .bin op l r =>
    (typeOf G l).bind fun tl => (typeOf G r).bind fun tr =>
      if okType tl && okType tr then
        (promote tl tr).bind fun T =>
          if isCompare op then some .boolean else if isArith op then some T else none
      else none

/-! ## C -/

/-- The type a value of a type is computed in: the integer promotions (6.3.1.1). -/
def CT.of : Prim → CT
  | .u32 | .wchar => .uint
  | .u64 => .ulong
  | .i64 => .long
  | _ => .int

/-- The usual arithmetic conversions (6.3.1.8). -/
def usual : CT → CT → CT
  | .ulong, _ | _, .ulong => .ulong
  | .long, _ | _, .long => .long
  | .uint, _ | _, .uint => .uint
  | .int, .int => .int

/-- A result: unsigned ones wrap, signed ones must fit (6.5, 5). -/
def settle (t : CT) (v : Int) : Option (CT × Int) :=
  if t.signed then (if t.holds v then some (t, v) else none) else some (t, t.conv v)

def b2i (b : Bool) : Int := if b then 1 else 0

/-- An operator of C on two operands of integer type; `none` is undefined. A right shift of a negative number is arithmetic. -/
def cbin (op : Op) (a : CT × Int) (b : CT × Int) : Option (CT × Int) :=
  let t := usual a.1 b.1
  let x := t.conv a.2
  let y := t.conv b.2
  match op with
  | .add => settle t (x + y)
  | .sub => settle t (x - y)
  | .mul => settle t (x * y)
  | .div => if y = 0 then none else settle t (Int.tdiv x y)
  | .mod => if y = 0 then none else if t.holds (Int.tdiv x y) then some (t, Int.tmod x y) else none
  | .shl =>
    if 0 ≤ b.2 ∧ b.2 < a.1.width then
      if a.1.signed && decide (a.2 < 0) then none else settle a.1 (a.2 * 2 ^ b.2.toNat)
    else none
  | .shr => if 0 ≤ b.2 ∧ b.2 < a.1.width then some (a.1, a.2 / 2 ^ b.2.toNat) else none
  | .lt => some (.int, b2i (decide (x < y)))
  | .gt => some (.int, b2i (decide (x > y)))
  | .leq => some (.int, b2i (decide (x ≤ y)))
  | .geq => some (.int, b2i (decide (x ≥ y)))
  | .eq => some (.int, b2i (decide (x = y)))
  | .ne => some (.int, b2i (decide (x ≠ y)))
  | _ => none

/-- What C computes, with the type it has for C. -/
def evalC (G : Nat → Prim) (ρ : Nat → Int) : E → Option (CT × Int)
  | .var n => some (CT.of (G n), ρ n)
  | .lit t v => CLit.cInt (CLit.writeInt t v)
  | .cast t e => (evalC G ρ e).map fun a => (CT.of t, Codegen.conv t a.2)
  | .bin op l r => (evalC G ρ l).bind fun a => (evalC G ρ r).bind fun b => cbin op a b

end Verif.CArith
