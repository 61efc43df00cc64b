import Verif.Lang.Prim.Spec
import Verif.Lang.Codegen.Model
/-! # Source-level meaning of integer arithmetic -/
namespace Verif.Codegen
open Verif.Prim
open Verif.Prim.Prim

/-- Integer and character types. -/
def isIntLike (p : Prim) : Bool := isInteger p || isCharacter p

/-- Conversion of an integer to type `p`: the value of `p` congruent to it modulo the type's range. -/
def conv (p : Prim) (v : Int) : Int :=
  if isSignedInteger p then Int.bmod v (2 ^ (8 * size p)) else v % 2 ^ (8 * size p)

/-- The LLVM value that represents `v` in type `p`. -/
def rep {F : Type} (p : Prim) (v : Int) : LVal F := .int (8 * size p) (enc (8 * size p) v)

/-- Meaning of an arithmetic operator in type `p` on two values of `p`: the exact result converted
to `p`; `none` when it has no meaning. -/
def arith (p : Prim) : Op → Int → Int → Option Int
  | .add, x, y => some (conv p (x + y))
  | .sub, x, y => some (conv p (x - y))
  | .mul, x, y => some (conv p (x * y))
  | .div, x, y => if y = 0 then none else if Holds p (Int.tdiv x y) then some (Int.tdiv x y) else none
  | .mod, x, y => if y = 0 then none else if Holds p (Int.tdiv x y) then some (Int.tmod x y) else none
  | .shl, x, y => if 0 ≤ y ∧ y < 8 * size p then some (conv p (x * 2 ^ y.toNat)) else none
  | .shr, x, y => if 0 ≤ y ∧ y < 8 * size p then some (x / 2 ^ y.toNat) else none
  | _, _, _ => none

/-- Meaning of a comparison. -/
def compare : Op → Int → Int → Option Bool
  | .lt, x, y => some (decide (x < y))
  | .gt, x, y => some (decide (x > y))
  | .leq, x, y => some (decide (x ≤ y))
  | .geq, x, y => some (decide (x ≥ y))
  | .eq, x, y => some (decide (x = y))
  | .ne, x, y => some (decide (x ≠ y))
  | _, _, _ => none

end Verif.Codegen
