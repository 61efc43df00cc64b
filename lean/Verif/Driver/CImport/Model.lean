/-!
# Importing C headers

Code modelled: /repo/src/cxy/driver/c-import/import.cpp — the translation of types
(`getIntegerTypeFromBitWidth` 44–60, `toCxy` for built-in types 62–112, enumerations
238–245, qualified types 279–355), of fields and records (358–441), of constants
(`MacroImporter` 664–768); and what
/repo/src/cxy/lang/backend/c/generate.c writes for the types (`generateStructType`
215–259, `generateUntaggedUnionType` 363–393, `generateTypeName` 483–585,
prelude 2020–2021: `typedef int bool; typedef unsigned int wchar_t;`).

The headers themselves are not included by the C that is written: a structure of a
header is written out again, field by field, with the types it was imported with.

Simplifications: the target is 64-bit Linux (LP64), where only the signedness of plain
`char` differs between machines.  No bit fields.  A type is seen as its layout; qualifiers and the targets
of pointers do not count.
-/

namespace Verif.CImport

mutual
/-- The types of C.  `enum_ wide known`: an enumeration with constants that need eight
bytes or not, which the type table finds by its name or not; `other`: the classes of
types the importer does not know (complex numbers, vectors, …) with size and alignment;
`aligned` of a structure is the argument of `__attribute__((aligned(n)))`, 0 without. -/
inductive CTy where
  | bool | char | schar | uchar | short | ushort | int | uint | long | ulong
  | longlong | ulonglong | float16 | float | double | longDouble
  | pointer
  | array (t : CTy) (n : Nat)
  | flexible (t : CTy)
  | enum_ (wide known : Bool)
  | other (size align : Nat)
  | struct (packed : Bool) (aligned : Nat) (fs : Fields)
  | union (fs : Fields)
inductive Fields where
  | nil
  | cons (t : CTy) (fs : Fields)
end

/-- The least multiple of `a` that is not below `n`. -/
def up (n a : Nat) : Nat := (n + a - 1) / a * a

/-- Alignment in a packed structure is 1. -/
def fieldAlign (packed : Bool) (a : Nat) : Nat := if packed then 1 else a

mutual
/-- `_Alignof` (System V ABI, 64 bit). -/
def CTy.align : CTy → Nat
  | .bool | .char | .schar | .uchar => 1
  | .short | .ushort | .float16 => 2
  | .int | .uint | .float => 4
  | .long | .ulong | .longlong | .ulonglong | .double | .pointer => 8
  | .longDouble => 16
  | .array t _ => t.align
  | .flexible t => t.align
  | .enum_ wide _ => if wide then 8 else 4
  | .other _ a => a
  | .struct packed aligned fs => max aligned (fs.align packed)
  | .union fs => fs.align false
/-- The alignment of fields: the greatest. -/
def Fields.align (packed : Bool) : Fields → Nat
  | .nil => 1
  | .cons t fs => max (fieldAlign packed t.align) (fs.align packed)
end

mutual
/-- `sizeof`. -/
def CTy.size : CTy → Nat
  | .bool | .char | .schar | .uchar => 1
  | .short | .ushort | .float16 => 2
  | .int | .uint | .float => 4
  | .long | .ulong | .longlong | .ulonglong | .double | .pointer => 8
  | .longDouble => 16
  | .array t n => t.size * n
  | .flexible _ => 0
  | .enum_ wide _ => if wide then 8 else 4
  | .other s _ => s
  | .struct packed aligned fs => up (fs.stop packed 0) (max aligned (fs.align packed))
  | .union fs => up fs.widest (fs.align false)
/-- Where fields that start behind byte `n` end. -/
def Fields.stop (packed : Bool) : Fields → Nat → Nat
  | .nil, n => n
  | .cons t fs, n => fs.stop packed (up n (fieldAlign packed t.align) + t.size)
/-- The size of the biggest field. -/
def Fields.widest : Fields → Nat
  | .nil => 0
  | .cons t fs => max t.size fs.widest
end

/-- The offsets of the fields. -/
def Fields.offsets (packed : Bool) : Fields → Nat → List Nat
  | .nil, _ => []
  | .cons t fs, n =>
    let o := up n (fieldAlign packed t.align)
    o :: fs.offsets packed (o + t.size)

mutual
/-- import.cpp and generate.c together: the C type that is written for a C type.
`signedChar` tells the machine (clang's `Char_S` and `Char_U`).

`_Bool` becomes `bool`, which is `int`; plain `char` becomes `char` if signed, else
`wchar`, which is `unsigned int` (68–71, generate.c 499–506, 2021); `_Float16` becomes
`float`, `long double` `double` (102–107); an array of unknown length becomes a pointer
(325–331); an enumeration that is not found becomes `int` (244), else its integer
type; types of unknown classes become `int` (348–354); of the attributes of a structure
only `packed` is kept (395–399), of a union none are written that matter. -/
def CTy.emit (signedChar : Bool) : CTy → CTy
  | .bool => .int
  | .char => if signedChar then .char else .uint
  | .float16 => .float
  | .longDouble => .double
  | .array t n => .array (t.emit signedChar) n
  | .flexible _ => .pointer
  | .enum_ wide known => if wide && known then .long else .int
  | .other _ _ => .int
  | .struct packed _ fs => .struct packed 0 (fs.emit signedChar)
  | .union fs => .union (fs.emit signedChar)
  | .schar => .schar
  | .uchar => .uchar
  | .short => .short
  | .ushort => .ushort
  | .int => .int
  | .uint => .uint
  | .long => .long
  | .ulong => .ulong
  | .longlong => .longlong
  | .ulonglong => .ulonglong
  | .float => .float
  | .double => .double
  | .pointer => .pointer
/-- The same for fields, 404–423. -/
def Fields.emit (signedChar : Bool) : Fields → Fields
  | .nil => .nil
  | .cons t fs => .cons (t.emit signedChar) (fs.emit signedChar)
end

/-! ### Constants -/

/-- What a header says about names: a macro for one number (with the width of its type
and whether it is unsigned), for one identifier, for a longer expression (with its
value), the end of a macro. -/
inductive Dir where
  | num (x : Nat) (v : Nat) (width : Nat) (unsigned : Bool)
  | alias (x y : Nat)
  | expr (x : Nat) (v : Int)
  | undef (x : Nat)
  deriving Repr

/-- import.cpp 740–749: `APSInt(value, unsigned).getSExtValue()`, the value read as a signed
number of its width, whatever its type. -/
def sext (v width : Nat) : Int := if v < 2 ^ (width - 1) then v else (v : Int) - 2 ^ width

/-- The macros the importer has defined. -/
abbrev Tab := Nat → Option Int

/-- One call of `MacroDefined` (671–701): macros of more than one token are passed over, a
number is stored, for an identifier the present value of that macro is copied (704–725).
There is no callback for `#undef`. -/
def importDir (t : Tab) : Dir → Tab
  | .num x v w _ => fun k => if k = x then some (sext v w) else t k
  | .alias x y =>
    match t y with
    | some v => fun k => if k = x then some v else t k
    | none => t
  | .expr _ _ => t
  | .undef _ => t

/-- Reading a header from top to bottom. -/
def importHeader : List Dir → Tab → Tab
  | [], t => t
  | d :: ds, t => importHeader ds (importDir t d)

end Verif.CImport
