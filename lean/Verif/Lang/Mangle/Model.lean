import Verif.Common.Decimal
import Verif.Lang.Prim.Model
/-! # Model of name mangling, `src/cxy/lang/middle/mangle.c` -/
namespace Verif.Mangle
open Verif.Prim (Prim)

/-- Literals that occur as type arguments (mangle.c 11-42).  Float and string literals, which are written as an index, are
left out. -/
inductive Lit where
  | null
  | bool (b : Bool)
  | char (c : Nat)
  | nat (n : Nat)
  | neg (n : Nat)
  deriving DecidableEq, Repr

/-- Types as `mangleType` sees them.  `cnst` is a type carrying `flgConst`; wrapped types are flat
(`flattenWrappedType`), so there is one such flag.  `result` stands for the types that have neither a namespace nor a
name (`makeResultType`, ttable.c 1033-1037); `named` for all others that reach the `default` branch. -/
inductive Ty where
  | prim (p : Prim)
  | string
  | array (n : Nat) (t : Ty)
  | tuple (ts : List Ty)
  | union (ts : List Ty)
  | func (ps : List Ty) (ret : Ty)
  | ptr (t : Ty)
  | ref (t : Ty)
  | lit (l : Lit)
  | named (ns name : List Nat)
  | result (t : Ty)
  | cnst (t : Ty)

/-- What `{u64}` writes, as character codes. -/
def dec (n : Nat) : List Nat := (decimal n).map (·.toNat)

/-- mangle.c 54-66 with the names of types.h 24-49: integers and floats in full, of the others the first letter. -/
def mangleId : Prim → List Nat
  | .u8 => [117, 56] | .u16 => [117, 49, 54] | .u32 => [117, 51, 50] | .u64 => [117, 54, 52]
  | .i8 => [105, 56] | .i16 => [105, 49, 54] | .i32 => [105, 51, 50] | .i64 => [105, 54, 52]
  | .f32 => [102, 51, 50] | .f64 => [102, 54, 52]
  | .boolean => [98] | .wchar => [119] | .char => [99]

/-- mangle.c 11-42 `mangleAstNode`.  Characters are written as one symbol (UTF-8 in the code). -/
def mangleLit : Lit → List Nat
  | .null => [76, 110, 95]
  | .bool true => [76, 98, 95, 116, 114, 117, 101]
  | .bool false => [76, 98, 95, 102, 97, 108, 115, 101]
  | .char c => [76, 99, 95, c]
  | .nat n => [76, 117, 95] ++ dec n
  | .neg n => [76, 105, 95, 45] ++ dec n

mutual
/-- mangle.c 44-123 `mangleType`; `idx` gives `type->index`, the serial number of the interned type. -/
def mangle (idx : List Ty → Nat) : Ty → List Nat
  | .prim p => mangleId p
  | .string => [115]
  | .array n t => 65 :: (dec n ++ mangle idx t)
  | .tuple ts => 84 :: (mangleAll idx ts ++ [95])
  | .union ts =>
    if 3 < ts.length then 85 :: (dec (idx ts) ++ [95])
    else [85, 95] ++ mangleAll idx ts ++ [95]
  | .func ps ret => 70 :: (mangleAll idx ps ++ mangle idx ret ++ [95])
  | .ptr t => 80 :: mangle idx t
  | .ref t => 82 :: mangle idx t
  | .lit l => mangleLit l
  | .named ns name => 90 :: (ns ++ name ++ [95])
  | .result _ => [90, 95]
  | .cnst t => 99 :: mangle idx t
/-- The loops of mangle.c 78, 89, 97 and 135. -/
def mangleAll (idx : List Ty → Nat) : List Ty → List Nat
  | [] => []
  | t :: ts => mangle idx t ++ mangleAll idx ts
end

/-- mangle.c 125-144 `makeMangledName`. -/
def makeMangledName (idx : List Ty → Nat) (name : List Nat) (types : List Ty) (isConst : Bool) : List Nat :=
  name ++ (if isConst then [73, 99, 95] else [73, 95]) ++ mangleAll idx types ++ [69]

end Verif.Mangle
