/-!
# Primitive types of the compiler

Model of the primitive-type part of `src/cxy/lang/frontend/types.c` and `ttable.c`: the size table,
the type predicates, implicit assignability, cast assignability, promotion, the literal type and
the switch-case range check.
-/
namespace Verif.Prim

/-- types.h 24-56 `PRIM_TYPE_LIST`, `PrtId`. `wchar` is `prtChar`, `char` is `prtCChar`. -/
inductive Prim where
  | boolean | wchar | char
  | u8 | u16 | u32 | u64
  | i8 | i16 | i32 | i64
  | f32 | f64
  deriving DecidableEq, Repr

open Prim

/-- types.h 24-49: the third column of the table; types.c 1053 `getPrimitiveTypeSizeFromTag`. -/
def size : Prim → Nat
  | boolean => 1 | wchar => 4 | char => 1
  | u8 => 1 | u16 => 2 | u32 => 4 | u64 => 8
  | i8 => 1 | i16 => 2 | i32 => 4 | i64 => 8
  | f32 => 4 | f64 => 8

/-- types.c 548 `isUnsignedType` -/
def isUnsigned : Prim → Bool
  | u8 | u16 | u32 | u64 => true
  | _ => false

/-- types.c 528 `isSignedIntegerType` -/
def isSignedInteger : Prim → Bool
  | i8 | i16 | i32 | i64 => true
  | _ => false

/-- types.c 569 `isFloatType` -/
def isFloat : Prim → Bool
  | f32 | f64 => true
  | _ => false

/-- types.c 507 `isSignedType`: signed integers and floats. -/
def isSigned (p : Prim) : Bool := isSignedInteger p || isFloat p

/-- types.c 459 `isIntegerType` -/
def isInteger (p : Prim) : Bool := isUnsigned p || isSignedInteger p

/-- types.c 625 `isCharacterType` -/
def isCharacter : Prim → Bool
  | wchar | char => true
  | _ => false

/-- types.c 480 `isIntegralType` -/
def isIntegral (p : Prim) : Bool := isInteger p || isCharacter p || p == boolean

/-- types.c 591 `isNumericType`: every primitive type except `bool`. -/
def isNumeric (p : Prim) : Bool := p != boolean

/-- types.c 159-229 `isTypeAssignableFrom`, restricted to two primitive types (types are interned,
so `to == from` is equality; the flag tests before it are about pointers and optionals). -/
def assignable (to from_ : Prim) : Bool :=
  if to = from_ then true
  else if isSignedInteger to then
    if isInteger from_ then
      if isUnsigned from_ then decide (size to > size from_) else decide (size to ≥ size from_)
    else false
  else if isUnsigned to then isInteger from_ && decide (size to ≥ size from_)
  else if isFloat to then isFloat from_ || isInteger from_
  else if isCharacter to then isCharacter from_
  else false

/-- types.c 354-409 `isTypeCastAssignable`, restricted to two primitive types. -/
def castAssignable (to from_ : Prim) : Bool :=
  if to = from_ then true
  else if isInteger to then from_ == boolean || isNumeric from_
  else if isFloat to then isNumeric from_
  else match to with
    | wchar => (isUnsigned from_ && decide (size from_ ≤ 4)) || from_ == char
    | char => (isUnsigned from_ && decide (size from_ ≤ 4)) || from_ == wchar
    | _ => false

/-- ttable.c 1336-1391 `promoteType` on two primitive types; `none` is the NULL result. The float
case with a `bool` or `char` right operand falls through into the `prtChar` case. -/
def promote (l r : Prim) : Option Prim :=
  if l = r then some l
  else if isInteger l then
    if isInteger r then some (if size l ≥ size r then l else r)
    else if isFloat r then some r
    else if r = wchar then some (if size l ≥ 4 then l else u32)
    else none
  else if isFloat l then
    if isFloat r then some (if size l ≥ size r then l else r)
    else if isInteger r || r == wchar then some l
    else none
  else if l = wchar then
    if isInteger r then some (if size r ≥ 4 then r else u32) else none
  else none

/-- types.c 440-457 `isPrimitiveTypeBigger` -/
def bigger (l r : Prim) : Bool :=
  if isFloat l then !isFloat r || decide (size l > size r)
  else if !isFloat r then decide (size l > size r)
  else false

/-- ttable.c 1444-1454 `getIntegerTypeForLiteral` -/
def literalType (v : Int) : Prim :=
  if v ≥ -128 ∧ v ≤ 127 then i8
  else if v ≥ -32768 ∧ v ≤ 32767 then i16
  else if v ≥ -2147483648 ∧ v ≤ 2147483647 then i32
  else i64

/-- types.c 1066-1082 `getIntegerTypeMinMax`, the primitive table; `none` for the float types,
which fail the assertion. The first component is an `i64`, the second a `u64` (types.h 314). -/
def minMax : Prim → Option (Int × Nat)
  | boolean => some (0, 1)
  | char => some (0, 255)
  | wchar => some (0, 4294967295)
  | i8 => some (-128, 127)
  | u8 => some (0, 255)
  | i16 => some (-32768, 32767)
  | u16 => some (0, 65535)
  | i32 => some (-2147483648, 2147483647)
  | u32 => some (0, 4294967295)
  | i64 => some (-9223372036854775808, 9223372036854775807)
  | u64 => some (0, 18446744073709551615)
  | f32 => none
  | f64 => none

/-- The C conversion of an `i64` to `u64`. -/
def toU64 (v : Int) : Nat := (v % 18446744073709551616).toNat

/-- ttable.c 1456-1464 `isIntegerTypeInRange`, used by sema/switch.c 168 and 182 to reject a case
range or case value. -/
def inRange (p : Prim) (min max : Int) : Option Bool :=
  (minMax p).map fun (f, s) =>
    if isSigned p then decide (min ≤ (s : Int)) && decide (max ≥ f)
    else decide (toU64 min ≤ s) && decide (max ≥ f)

end Verif.Prim
