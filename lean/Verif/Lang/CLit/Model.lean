import Verif.Core.Text.Model
import Verif.Lang.Prim.Model
/-!
# Literals in the C that is written

Model of `src/cxy/lang/backend/c/generate.c` 781–833 (`visitCharLit`, `visitIntegerLit`, `visitFloatLit`, `visitStringLit`) with the
formats of `src/cxy/core/format.c` 74–470 they use, and of how C reads these literals. Bytes are numbers below 256.
-/
namespace Verif.CLit
open Verif.Text (printUtf8Raw printUtf8Escaped isDigit)
open Verif.Prim (Prim)

/-! ## Strings and characters -/

/-- format.c 406 `printUtf8`; `none` when it ends the compiler (line 468, `unreachable`). -/
def printUtf8 (chr : Nat) (escaped : Bool) : Option (List Nat) :=
  if escaped then printUtf8Escaped chr else printUtf8Raw chr

/-- The `uint32_t` that `*p` is converted to in generate.c 829: a `char` is signed with most compilers. -/
def widen (signed : Bool) (b : Nat) : Nat := if signed && decide (128 ≤ b) then b + 4294967040 else b

/-- generate.c 827–828: is the byte written escaped? `next` is the byte behind it, 0 at the end. -/
def escapes (b next : Nat) : Bool := b != 92 || (next != 120 && next != 88 && !isDigit next)

/-- generate.c 826–830, the loop up to the first NUL. -/
def body (signed : Bool) : List Nat → Option (List Nat)
  | [] => some []
  | b :: s =>
    if b = 0 then some []
    else (printUtf8 (widen signed b) (escapes b (s.headD 0))).bind fun t => (body signed s).map (t ++ ·)

/-- generate.c 821–832 `visitStringLit` -/
def writeString (signed : Bool) (s : List Nat) : Option (List Nat) := (body signed s).map fun t => 34 :: t ++ [34]

/-- generate.c 781–794 `visitCharLit` with format.c 158: both branches write the same. -/
def writeChar (c : Nat) : Option (List Nat) := (printUtf8 c true).map fun t => 39 :: t ++ [39]

/-! ## How C reads them -/

/-- The simple escapes of C (6.4.4.4). -/
def simple : Nat → Option Nat
  | 110 => some 10 | 116 => some 9 | 118 => some 11 | 114 => some 13 | 97 => some 7 | 98 => some 8 | 102 => some 12
  | 34 => some 34 | 39 => some 39 | 92 => some 92 | 63 => some 63
  | _ => none

def isOct (c : Nat) : Bool := decide (48 ≤ c ∧ c ≤ 55)

def hexVal (c : Nat) : Option Nat :=
  if 48 ≤ c ∧ c ≤ 57 then some (c - 48)
  else if 65 ≤ c ∧ c ≤ 70 then some (c - 55)
  else if 97 ≤ c ∧ c ≤ 102 then some (c - 87)
  else none

/-- Where the reader stands: in plain text, behind a backslash, in an octal escape (with `left` digits allowed), behind `\x`, in a
hexadecimal escape. -/
inductive St where
  | plain | esc | oct (left v : Nat) | hex0 | hex (v : Nat)

/-- The bytes read and the text behind the closing quote. -/
abbrev Got := Option (List Nat × List Nat)

/-- One more byte; an escape must fit in a byte. -/
def emit (v : Nat) (g : Got) : Got := if v < 256 then g.map fun p => (v :: p.1, p.2) else none

/-- A character of the plain text: the closing quote `q` ends, a line end is an error, a backslash starts an escape. -/
def plainly (q c : Nat) (r : List Nat) (esc plain : Got) : Got :=
  if c = q then some ([], r) else if c = 10 ∨ c = 13 then none else if c = 92 then esc else emit c plain

/-- The text behind the opening quote `q`. Escapes that C does not know are errors; adjacent literals, trigraphs and
`\u` are left out. -/
def reader (q : Nat) : St → List Nat → Got
  | _, [] => none
  | .plain, c :: r => plainly q c r (reader q .esc r) (reader q .plain r)
  | .esc, c :: r =>
    match simple c with
    | some v => emit v (reader q .plain r)
    | none => if isOct c then reader q (.oct 2 (c - 48)) r else if c = 120 then reader q .hex0 r else none
  | .oct left v, c :: r =>
    if 0 < left ∧ isOct c = true then reader q (.oct (left - 1) (8 * v + (c - 48))) r
    else emit v (plainly q c r (reader q .esc r) (reader q .plain r))
  | .hex0, c :: r =>
    match hexVal c with
    | some d => reader q (.hex d) r
    | none => none
  | .hex v, c :: r =>
    match hexVal c with
    | some d => reader q (.hex (16 * v + d)) r
    | none => emit v (plainly q c r (reader q .esc r) (reader q .plain r))

/-- A string literal at the head of a text: its bytes (without the NUL C adds) and the rest. -/
def cString : List Nat → Got
  | 34 :: r => reader 34 .plain r
  | _ => none

/-- A character constant: exactly one character, a byte of ASCII or an escape (a letter beyond ASCII does not fit). -/
def cChar : List Nat → Option (Nat × List Nat)
  | 39 :: r =>
    match reader 39 .plain r with
    | some ([v], rest) => if v < 128 then some (v, rest) else none
    | _ => none
  | _ => none

/-! ## Integers -/

/-- The integer types C computes in (LP64). -/
inductive CT where
  | int | uint | long | ulong
  deriving DecidableEq, Repr

def CT.width : CT → Nat
  | .int | .uint => 32
  | .long | .ulong => 64

def CT.signed : CT → Bool
  | .int | .long => true
  | .uint | .ulong => false

/-- The values of a type of C. -/
def CT.holds (t : CT) (v : Int) : Prop :=
  if t.signed then -2 ^ (t.width - 1) ≤ v ∧ v < 2 ^ (t.width - 1) else 0 ≤ v ∧ v < 2 ^ t.width

instance (t : CT) (v : Int) : Decidable (t.holds v) := by unfold CT.holds; infer_instance

/-- Conversion to a type of C. -/
def CT.conv (t : CT) (v : Int) : Int := if t.signed then Int.bmod v (2 ^ t.width) else v % 2 ^ t.width

/-- The decimal digits of a number, `%" PRIu64`. -/
def digits (n : Nat) : List Nat :=
  if h : n < 10 then [48 + n] else digits (n / 10) ++ [48 + n % 10]
termination_by n
decreasing_by omega

/-- generate.c 796–811 `visitIntegerLit`: a negative number with its sign, an unsigned type with `u`. `value` is the number. -/
def writeInt (t : Prim) (value : Int) : List Nat :=
  if value < 0 then 45 :: digits value.natAbs
  else if Prim.isUnsigned t then digits value.natAbs ++ [117]
  else digits value.natAbs

/-- The value of decimal digits; `none` if there is something else. -/
def decimal (acc : Nat) : List Nat → Option Nat
  | [] => some acc
  | c :: r => if isDigit c then decimal (10 * acc + (c - 48)) r else none

/-- The type of a decimal constant without suffix (6.4.4.1; clang takes `unsigned long` for what fits nowhere else). -/
def plainType (n : Nat) : CT := if n < 2 ^ 31 then .int else if n < 2 ^ 63 then .long else .ulong

/-- The type of a decimal constant with `u`. -/
def unsignedType (n : Nat) : CT := if n < 2 ^ 32 then .uint else .ulong

/-- What C reads for a constant or the negation of one: type and value. -/
def cInt (s : List Nat) : Option (CT × Int) :=
  match s with
  | 45 :: r => (decimal 0 r).map fun n => (plainType n, (plainType n).conv (-(n : Int)))
  | _ =>
    if s.getLast? = some 117 then (decimal 0 s.dropLast).map fun n => (unsignedType n, (n : Int))
    else (decimal 0 s).map fun n => (plainType n, (n : Int))

end Verif.CLit
