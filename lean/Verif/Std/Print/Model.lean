import Verif.Std.JsonVal.Model
import Verif.Core.Text.Model
/-! # Printing values: `OutputStream.<<`

Models src/cxy/runtime/builtins.cxy 558-756 (`appendSignedInt`, `appendChar`, `appendBool`, `<<`) with the C back end
(src/cxy/lang/backend/c/generate.c 2020-2029: `char` is the C type `char`, signed on x86-64 and arm64 macOS). Not modelled: floats and pointers (`%g`, `%p`),
classes and structures with their own `str` operator, functions, and `null` strings (of which nothing is printed). -/
namespace Verif.Print
open Verif.JsonVal (IntTy showInt digits value)

mutual
/-- The types that can be printed. `enum` has the text printed for each value (builtins.cxy 656-672: the `str` attribute, or `Enum.Member`);
`wide` is `wchar`. -/
inductive Ty where
  | int (t : IntTy)
  | bool
  | char
  | wide
  | str
  | enum (members : List (Int × List Nat))
  | opt (t : Ty)
  | struct (name : List Nat) (fs : Fields)
  | tuple (ts : Tys)
  | array (t : Ty)
  | union (ts : Tys)
inductive Tys where
  | nil
  | cons (t : Ty) (ts : Tys)
/-- Names and types of the fields; an anonymous structure has the empty name. -/
inductive Fields where
  | nil
  | cons (name : List Nat) (t : Ty) (fs : Fields)
end

/-- Values. `list` is used for arrays, slices, tuples and structures, `mem i v` for a union that holds `v` at its `i`-th member. -/
inductive Val where
  | int (v : Int)
  | bool (b : Bool)
  | chr (c : Nat)
  | str (s : List Nat)
  | none
  | some (v : Val)
  | nil
  | cons (v : Val) (vs : Val)
  | mem (i : Nat) (v : Val)
deriving DecidableEq

/-- Text printed for a value of an enumeration: the `case` of the `switch` with this value; without one the C written for the `switch` calls `abort`
(generate.c `unreachable`). -/
def enumText (ms : List (Int × List Nat)) (v : Int) : Option (List Nat) := (ms.find? (fun m => decide (m.1 = v))).map (·.2)

/-- builtins.cxy 652-653 `appendChar(val)` with a `char`: C converts the signed `char` to `unsigned int` (`wchar_t`). -/
def charText (c : Nat) : List Nat := Text.streamChar (if c < 128 then c else 2 ^ 32 - 256 + c)

/-- builtins.cxy 646-647: every integer is cast to `i64` and printed with `%lld`. -/
def intText (v : Int) : List Nat := showInt (Int.bmod v (2 ^ 64))

/-- builtins.cxy 705-713: what is printed before and after the value of a field. -/
def quote : Ty → List Nat
  | .str => [34]
  | .char => [39]
  | .wide => [39]
  | _ => []

mutual
/-- builtins.cxy 636-755 `<<`; `none` if the program is aborted (or the value is not of the type). -/
def print : Ty → Val → Option (List Nat)
  | .int _, .int v => some (intText v)
  | .bool, .bool b => some (if b then [116, 114, 117, 101] else [102, 97, 108, 115, 101])
  | .char, .chr c => some (charText c)
  | .wide, .chr c => some (Text.streamChar c)
  | .str, .str s => some s
  | .enum ms, .int v => enumText ms v
  | .opt t, .some v => print t v
  | .opt _, .none => some [110, 117, 108, 108]
  | .struct name fs, v => (printFields true fs v).map fun b => name ++ [123] ++ b ++ [125]
  | .tuple ts, v => (printAll true ts v).map fun b => [40] ++ b ++ [41]
  | .array t, v => (printElems true (print t) v).map fun b => [91] ++ b ++ [93]
  | .union ts, .mem i v => printMember ts i v
  | _, _ => none
/-- builtins.cxy 720-728: the members of a tuple. -/
def printAll (first : Bool) : Tys → Val → Option (List Nat)
  | .nil, .nil => some []
  | .cons t ts, .cons v vs => (print t v).bind fun a => (printAll false ts vs).map fun b => (if first then [] else [44, 32]) ++ a ++ b
  | _, _ => none
/-- builtins.cxy 698-716: the fields of a structure. -/
def printFields (first : Bool) : Fields → Val → Option (List Nat)
  | .nil, .nil => some []
  | .cons n t fs, .cons v vs => (print t v).bind fun a => (printFields false fs vs).map fun b =>
      (if first then [] else [44, 32]) ++ n ++ [58, 32] ++ quote t ++ a ++ quote t ++ b
  | _, _ => none
/-- builtins.cxy 729-737: the elements of an array or slice. -/
def printElems (first : Bool) (p : Val → Option (List Nat)) : Val → Option (List Nat)
  | .nil => some []
  | .cons v vs => (p v).bind fun a => (printElems false p vs).map fun b => (if first then [] else [44, 32]) ++ a ++ b
  | _ => none
/-- builtins.cxy 738-744: the member of a union. -/
def printMember : Tys → Nat → Val → Option (List Nat)
  | .cons t _, 0, v => print t v
  | .cons _ ts, i + 1, v => printMember ts i v
  | .nil, _, _ => none
end

end Verif.Print
