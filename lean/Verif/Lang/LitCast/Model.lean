import Verif.Lang.Codegen.Model
import Verif.Common.Out
/-!
# Casts of literals

Model of `castLiteral` (`src/cxy/lang/middle/sema/cast.c` 10-115), which replaces a cast of a literal by a
literal during type checking, and of the code the LLVM backend generates for literals
(`src/cxy/lang/backend/llvm/generate.cpp` 181-213).
-/
namespace Verif.LitCast
open Verif.Prim
open Verif.Prim.Prim
open Verif.Codegen (FloatOps LVal sval enc)
variable {F : Type}

/-- ast.h 365-388 the literal nodes; `bits` is the 64-bit field `value`/`uValue`. `wrapped` stands for any other
expression `isLiteralExpr` (ast.c 1659-1681) accepts: a literal in parentheses or under a unary operator.  Enum
literals and `null` are left out. -/
inductive Lit (F : Type) where
  | int (bits : Nat) (isNegative : Bool)
  | char (v : Nat)
  | bool (b : Bool)
  | float (x : F)
  | wrapped
  deriving DecidableEq, Repr

/-- ast.h 1614 `integerLiteralValue`: both branches read the same 64 bits as an `i64`. -/
def integerLiteralValue (bits : Nat) : Int := sval 64 bits

/-- The C conversion `(i64)(TYP)v` or `(u64)(TYP)v` on a 64-bit field, for an integer type `TYP` of `8 * size` bits:
truncate, then extend with the sign of `TYP`. -/
def castField (to : Prim) (bits : Nat) : Nat :=
  let low := bits % 2 ^ (8 * size to)
  if isSignedInteger to then enc 64 (sval (8 * size to) low) else low

/-- cast.c 49-115 `castLiteral` (with `castIntegerLiteral` 10-47) to a primitive type.

* A failed `csAssert0` and `unreachable` end the compiler (`abort`).
* `(i64)` or `(u64)` of a float is given by `fo.toInt`; out of the range of the destination it is undefined.
* Line 97 sets the tag to `CharLit` before line 98 reads the value, so the value read is the low half of the 64-bit
  field (or of the float's bits, which this model leaves out: `ub`).  Line 98 converts it to `i32` through `f64`,
  undefined from `2^31` up.  Line 99 looks at `node->primitiveType.id` of the cast node, which overlaps
  `castExpr.idx` (0 here), so the value is never cut to 8 bits. -/
def castLiteral (fo : FloatOps F) (to : Prim) (l : Lit F) : Out (Lit F) :=
  if isInteger to then
    match l with
    | .int bits n => .ok (.int (castField to bits) n)
    | .char v => .ok (.int (castField to v) false)
    | .bool b => .ok (.int (castField to (if b then 1 else 0)) false)
    | .float x =>
      let v := fo.toInt x
      if v < 0 then (if -2 ^ 63 ≤ v then .ok (.int (castField to (enc 64 v)) true) else .ub)
      else if v < 2 ^ 64 then .ok (.int (castField to (enc 64 v)) false) else .ub
    | .wrapped => .abort
  else if isFloat to then
    match l with
    | .float x => .ok (.float (if to = f32 then fo.resize 4 x else x))
    | .int bits _ =>
      let x := fo.ofInt 8 (integerLiteralValue bits)
      .ok (.float (if to = f32 then fo.resize 4 x else x))
    | _ => .abort
  else if isCharacter to then
    match l with
    | .int bits _ => if bits % 2 ^ 32 < 2 ^ 31 then .ok (.char (bits % 2 ^ 32)) else .ub
    | .char v => if v < 2 ^ 31 then .ok (.char v) else .ub
    | .bool _ => .ub
    | .float _ => .ub
    | .wrapped => .ub
  else .abort

/-- generate.cpp 181-213: the constant generated for a literal of type `t`.  A float literal is always a `double`. -/
def gen (t : Prim) : Lit F → LVal F
  | .int bits _ => .int (Codegen.width t) (bits % 2 ^ Codegen.width t)
  | .char v => if t = wchar then .int 32 (v % 2 ^ 32) else .int 8 (v % 2 ^ 8)
  | .bool b => .int 1 (if b then 1 else 0)
  | .float x => .flt 8 x
  | .wrapped => .int 0 0

end Verif.LitCast
