/-!
# Questions about types at compile time (`T.isInteger`, `T.isPointer`, …)

`src/cxy/lang/middle/eval/comptime.c` 407-770 (the functions behind the members `is…`), 870-930 (`initDefaultMembers`),
`src/cxy/lang/frontend/ttable.c` 542-611 (`resolveType`, `resolveAndUnThisType`, `resolveUnThisUnwrapType`), 1023-1031
(`makeWrappedType`), 1048-1063 (`unwrapType`) and `src/cxy/lang/frontend/types.c` 459-658, 727-735, 806-812 (`isIntegerType` and the
like).

A type is a type proper under the layers a program can put around it: an alias, the information `typInfo`, the type of `this` and
`const`. A type proper has what the questions look at. Left out: forward declarations, literal types, errors, and questions about
other nodes than types.
-/
namespace Verif.TypeQ

/-- types.h 24-50 `PRIM_TYPE_LIST`: integers by sign and size. -/
inductive Prim where
  | bool
  | char
  | wchar
  | int (signed : Bool) (bytes : Nat)
  | float (bytes : Nat)
  deriving DecidableEq, Repr

/-- A type without layers, with the flags the questions look at. -/
inductive Base where
  | prim (p : Prim)
  | enum
  | struct (slice optional builtinString anonymous : Bool)
  | class (closure : Bool)
  | tuple (funcTypeParam : Bool)
  | union (result : Bool)
  | array
  | pointer
  | reference
  | string
  | func
  | void
  deriving DecidableEq, Repr

/-- A type: `alias`, `info`, `this` and `wrapped` (`const`) around another one. -/
inductive Ty where
  | base (b : Base)
  | alias (t : Ty)
  | info (t : Ty)
  | this (t : Ty)
  | const (t : Ty)
  deriving DecidableEq, Repr

/-- ttable.c 542-562 `resolveType` -/
def resolve : Ty → Ty
  | .alias t => resolve t
  | .info t => resolve t
  | t => t

/-- ttable.c 564-587 `resolveAndUnThisType` -/
def resolveThis : Ty → Ty
  | .alias t => resolveThis t
  | .info t => resolveThis t
  | .this t => resolveThis t
  | t => t

/-- ttable.c 589-615 `resolveUnThisUnwrapType` -/
def resolveAll : Ty → Ty
  | .alias t => resolveAll t
  | .info t => resolveAll t
  | .this t => resolveAll t
  | .const t => resolveAll t
  | t => t

/-- ttable.c 1048-1063 `unwrapType` -/
def unwrap : Ty → Ty
  | .const t => unwrap t
  | t => t

/-- The start of `isIntegerType` and the like (types.c 461-467): aliases and `const` in turn. -/
def resolveUnwrap : Ty → Ty
  | .alias t => resolveUnwrap t
  | .info t => resolveUnwrap t
  | .const t => resolveUnwrap t
  | t => t

/-- The questions. -/
inductive Q where
  | integer | signed | unsigned | float | number | boolean | char
  | array | slice | pointer | reference | optional | struct | class | tuple | union | enum | string | void
  | function | closure | funcTypeParam | anonymous | result
  deriving DecidableEq, Repr

/-- types.c 459-658: the tests on what is left of the type. -/
def testInteger : Ty → Bool
  | .base (.prim (.int _ _)) => true
  | _ => false
/-- types.c 510-530: floats are listed with the signed integers. -/
def testSigned : Ty → Bool
  | .base (.prim (.int s _)) => s
  | .base (.prim (.float _)) => true
  | _ => false
def testUnsigned : Ty → Bool
  | .base (.prim (.int s _)) => !s
  | _ => false
def testFloat : Ty → Bool
  | .base (.prim (.float _)) => true
  | _ => false
/-- types.c 596-613: enumerations and every primitive type but `bool`. -/
def testNumeric : Ty → Bool
  | .base .enum => true
  | .base (.prim .bool) => false
  | .base (.prim _) => true
  | _ => false
def testBoolean : Ty → Bool
  | .base (.prim .bool) => true
  | _ => false
def testChar : Ty → Bool
  | .base (.prim .char) => true
  | .base (.prim .wchar) => true
  | _ => false
def testArray : Ty → Bool
  | .base .array => true
  | _ => false
def testSlice : Ty → Bool
  | .base (.struct s _ _ _) => s
  | _ => false
def testPointer : Ty → Bool
  | .base .pointer => true
  | _ => false
def testReference : Ty → Bool
  | .base .reference => true
  | _ => false
def testOptional : Ty → Bool
  | .base (.struct _ o _ _) => o
  | _ => false
def testStruct : Ty → Bool
  | .base (.struct _ _ _ _) => true
  | _ => false
def testClass : Ty → Bool
  | .base (.class _) => true
  | _ => false
def testTuple : Ty → Bool
  | .base (.tuple _) => true
  | _ => false
def testUnion : Ty → Bool
  | .base (.union _) => true
  | _ => false
def testEnum : Ty → Bool
  | .base .enum => true
  | _ => false
def testString : Ty → Bool
  | .base .string => true
  | .base (.struct _ _ b _) => b
  | _ => false
def testVoid : Ty → Bool
  | .base .void => true
  | _ => false
/-- comptime.c 748-750 -/
def testFunction : Ty → Bool
  | .base .func => true
  | .base (.tuple p) => p
  | _ => false
/-- comptime.c 767: `typeIs(type, Class) || hasFlag(type, Closure)` -/
def testClosure : Ty → Bool
  | .base (.class _) => true
  | _ => false
def testFuncTypeParam : Ty → Bool
  | .base (.tuple p) => p
  | _ => false
/-- comptime.c 806: the flag, which structs have. -/
def testAnonymous : Ty → Bool
  | .base (.struct _ _ _ a) => a
  | _ => false
def testResult : Ty → Bool
  | .base (.union r) => r
  | _ => false

/-- comptime.c 407-830: which layers each question removes before its test. -/
def answer : Q → Ty → Bool
  | .string, t => testString (resolve (unwrap t))
  | .char, t => testChar (resolveUnwrap (resolve t))
  | .array, t => testArray (resolveUnwrap (resolve t))
  | .slice, t => testSlice (resolve t)
  | .boolean, t => testBoolean (resolveUnwrap (resolve t))
  | .number, t => testNumeric (resolveUnwrap (resolve t))
  | .integer, t => testInteger (resolveUnwrap (resolve t))
  | .signed, t => testSigned (resolveUnwrap (resolve t))
  | .unsigned, t => testUnsigned (resolveUnwrap (resolve t))
  | .float, t => testFloat (resolveUnwrap (resolve t))
  | .optional, t => testOptional (resolveThis (unwrap t))
  | .pointer, t => testPointer (resolve t)
  | .reference, t => testReference (resolve t)
  | .struct, t => testStruct (unwrap (resolveThis t))
  | .class, t => testClass (resolveThis (unwrap t))
  | .tuple, t => testTuple (unwrap (resolve t))
  | .union, t => testUnion (unwrap (resolve t))
  | .enum, t => testEnum t
  | .void, t => testVoid (resolveAll t)
  | .function, t => testFunction (resolve (unwrap t))
  | .closure, t => testClosure (resolveAll t)
  | .funcTypeParam, t => testFuncTypeParam (resolveAll t)
  | .anonymous, t => testAnonymous (resolveAll t)
  | .result, t => testResult (resolveAll t)

end Verif.TypeQ
