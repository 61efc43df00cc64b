import Verif.Common.Res
/-!
# Character encoding and escapes: `sb.c`, `format.c`, `utils.c`, `builtins.cxy`

Bytes and code points are natural numbers (bytes below 256, code points below 2^32); `% 256` is the
cast to `char`.
-/
namespace Verif.Text

/-! ## Encoders -/

/-- sb.c 17-46 `wcharToStr`: the eight bytes of `Stack_str_8`; `none` is `unreachable`. -/
def wcharToStr (c : Nat) : Option (List Nat) :=
  if c < 0x80 then some [c % 256, 0, 0, 0, 0, 1, 0, 0]
  else if c < 0x800 then some [(0xC0 ||| c >>> 6) % 256, (0x80 ||| (c &&& 0x3F)) % 256, 0, 0, 0, 2, 0, 0]
  else if c < 0x10000 then
    some [(0xE0 ||| c >>> 12) % 256, (0x80 ||| (c >>> 6 &&& 0x3F)) % 256, (0x80 ||| (c &&& 0x3F)) % 256, 0, 0, 3, 0, 0]
  else if c < 0x200000 then
    some [(0xF0 ||| c >>> 18) % 256, (0x80 ||| (c >>> 12 &&& 0x3F)) % 256, (0x80 ||| (c >>> 6 &&& 0x3F)) % 256,
      (0x80 ||| (c &&& 0x3F)) % 256, 0, 4, 0, 0]
  else none

/-- sb.h 55-60 `stringBuilderAppendChar`: the bytes appended (`s.str[5]` is the length). -/
def builderChar (c : Nat) : Option (List Nat) := (wcharToStr c).map fun s => s.take (s.getD 5 0)

/-- format.c 443-467, the encoding part of `printUtf8`.  `writeStr` stops at a NUL byte, which none of
these contain. -/
def printUtf8Raw (c : Nat) : Option (List Nat) :=
  if c < 0x80 then some [c % 256]
  else if c < 0x800 then some [(0xC0 ||| c >>> 6) % 256, (0x80 ||| (c &&& 0x3F)) % 256]
  else if c < 0x10000 then
    some [(0xE0 ||| c >>> 12) % 256, (0x80 ||| (c >>> 6 &&& 0x3F)) % 256, (0x80 ||| (c &&& 0x3F)) % 256]
  else if c < 0x200000 then
    some [(0xF0 ||| c >>> 18) % 256, (0x80 ||| (c >>> 12 &&& 0x3F)) % 256, (0x80 ||| (c >>> 6 &&& 0x3F)) % 256,
      (0x80 ||| (c &&& 0x3F)) % 256]
  else none

/-- builtins.cxy 590-619 `OutputStream.appendChar`. -/
def streamChar (c : Nat) : List Nat :=
  if c < 0x80 then [c % 256]
  else if c < 0x800 then [(0xC0 ||| c >>> 6) % 256, (0x80 ||| (c &&& 0x3F)) % 256]
  else if c < 0x10000 then
    [(0xE0 ||| c >>> 12) % 256, (0x80 ||| (c >>> 6 &&& 0x3F)) % 256, (0x80 ||| (c &&& 0x3F)) % 256]
  else if c < 0x200000 then
    [(0xF0 ||| c >>> 16) % 256, (0x80 ||| (c >>> 12 &&& 0x3F)) % 256, (0x80 ||| (c >>> 6 &&& 0x3F)) % 256,
      (0x80 ||| (c &&& 0x3F)) % 256]
  else []

/-! ## Escape printers -/

/-- The escapes common to `printEscapedChar` and `printUtf8` (format.c 376-402, 409-436). -/
def simpleEscape (c : Nat) : Option (List Nat) :=
  if c = 0 then some [92, 48]
  else if c = 10 then some [92, 110]
  else if c = 9 then some [92, 116]
  else if c = 11 then some [92, 118]
  else if c = 13 then some [92, 114]
  else if c = 7 then some [92, 97]
  else if c = 8 then some [92, 98]
  else if c = 34 then some [92, 34]
  else none

/-- format.c 374-404 `printEscapedChar` (one byte). -/
def printEscapedChar (c : Nat) : List Nat := (simpleEscape c).getD [c]

/-- format.c 406-468 `printUtf8` with `escaped = true`. -/
def printUtf8Escaped (c : Nat) : Option (List Nat) :=
  match simpleEscape c with
  | some s => some s
  | none => if c = 92 then some [92, 92] else printUtf8Raw c

/-! ## Readers -/

/-- utils.c 37-44 `countLeadingZeros` (it counts leading ones). -/
def leadingOnesFrom (b : Nat) : Nat → Nat
  | 0 => if b &&& 1 = 0 then 7 else 8
  | i + 1 => if b &&& (1 <<< (i + 1)) = 0 then 7 - (i + 1) else leadingOnesFrom b i

def leadingOnes (b : Nat) : Nat := leadingOnesFrom b 7

/-- Byte `i` of NUL-terminated text. -/
def byteAt (s : List Nat) (i : Nat) : Nat := s.getD i 0

/-- utils.c 46-70 `convertStrToUtf32`: length and code point; a failed assertion is `.ub`. -/
def strToUtf32 (s : List Nat) (count : Nat) : Res (Nat × Nat) :=
  let b := byteAt s
  let len := leadingOnes (b 0)
  if len = 0 then .ok (1, b 0)
  else if ¬ count ≤ len then .ub
  else if len = 2 then .ok (2, ((b 0 &&& 0x1F) <<< 6) ||| (b 1 &&& 0x3F))
  else if len = 3 then .ok (3, ((b 0 &&& 0xF) <<< 12) ||| ((b 1 &&& 0x3F) <<< 6) ||| (b 2 &&& 0x3F))
  else if len = 4 then .ok (4, ((b 0 &&& 0x7) <<< 18) ||| ((b 1 &&& 0x3F) <<< 12) ||| ((b 2 &&& 0x3F) <<< 6) ||| (b 3 &&& 0x3F))
  else .ub

/-- Value of a digit for `strtoul`. -/
def digitValue (c : Nat) : Option Nat :=
  if 48 ≤ c ∧ c ≤ 57 then some (c - 48)
  else if 97 ≤ c ∧ c ≤ 122 then some (c - 87)
  else if 65 ≤ c ∧ c ≤ 90 then some (c - 55)
  else none

/-- `strtoul` on text that starts with a digit: value and number of digits read.  White space, signs
and a `0x` prefix, which `strtoul` also skips, are not modelled (they are read as no digits). -/
def strtoul (base : Nat) : List Nat → Nat → Nat → Nat × Nat
  | [], acc, k => (acc, k)
  | c :: s, acc, k =>
    match digitValue c with
    | some d => if d < base then strtoul base s (acc * base + d) (k + 1) else (acc, k)
    | none => (acc, k)

/-- utils.c 29-35 `convertStrToCharOrd`, with `errno` clear: length (0 when the value exceeds 255) and
value modulo 2^32. -/
def charOrd (s : List Nat) (base : Nat) : Nat × Nat :=
  let (v, k) := strtoul base s 0 0
  let ord := v % 2 ^ 32
  (if ord ≤ 255 then k else 0, ord)

def isODigit (c : Nat) : Bool := decide (48 ≤ c ∧ c ≤ 55)
def isDigit (c : Nat) : Bool := decide (48 ≤ c ∧ c ≤ 57)

/-- utils.c 72-134 `convertEscapeSeq`: number of bytes consumed and the code point. -/
def convertEscapeSeq (s : List Nat) (n : Nat) : Res (Nat × Nat) :=
  if n = 0 then .ok (0, 0)
  else if byteAt s 0 = 92 then
    if n ≤ 1 then .ok (0, 0)
    else
      let c := byteAt s 1
      if c = 110 then .ok (2, 10)
      else if c = 116 then .ok (2, 9)
      else if c = 118 then .ok (2, 11)
      else if c = 114 then .ok (2, 13)
      else if c = 97 then .ok (2, 7)
      else if c = 98 then .ok (2, 8)
      else if c = 36 then .ok (2, 36)
      else if c = 34 then .ok (2, 34)
      else if c = 39 then .ok (2, 39)
      else if c = 92 then .ok (2, 92)
      else if c = 120 then
        if n ≤ 2 then .ok (0, 0)
        else let (k, v) := charOrd (s.drop 2) 16; .ok (2 + k, v)
      else if c = 48 then
        if !isODigit (byteAt s 2) || !isODigit (byteAt s 3) then .ok (2, 0)
        else let (k, v) := charOrd (s.drop 1) 8; .ok (1 + k, v)
      else if isDigit c then let (k, v) := charOrd (s.drop 1) 8; .ok (1 + k, v)
      else .ok (0, 0)
  else if byteAt s 0 ≥ 0x80 then strToUtf32 s n
  else .ok (1, byteAt s 0)

/-- utils.c 136-144 `readChar` -/
def readChar (s : List Nat) (len : Nat) : Res (Nat × Nat) :=
  if byteAt s 0 ≥ 0x80 then
    let tmp := leadingOnes (byteAt s 0)
    if ¬ tmp ≤ len then .ub else convertEscapeSeq s tmp
  else convertEscapeSeq s len

/-- Reading a whole text with `readChar`; `.ub` also when a character cannot be read. -/
def readText : Nat → List Nat → Res (List Nat)
  | _, [] => .ok []
  | 0, _ :: _ => .diverge
  | f + 1, s@(_ :: _) =>
    (readChar s s.length).bind fun (k, c) => if k = 0 then .ub else (readText f (s.drop k)).map (c :: ·)

/-- utils.c 146-209 `escapeString` on the bytes of a string literal; `after` is the byte that follows
them in the source buffer (the closing quote), which line 196 may read. -/
def escapeString (after : Nat) : List Nat → List Nat
  | [] => []
  | [c] => if c = 92 then [] else [c]
  | c :: d :: s =>
    if c ≠ 92 then c :: escapeString after (d :: s)
    else if d = 110 then 10 :: escapeString after s
    else if d = 116 then 9 :: escapeString after s
    else if d = 118 then 11 :: escapeString after s
    else if d = 114 then 13 :: escapeString after s
    else if d = 97 then 7 :: escapeString after s
    else if d = 98 then 8 :: escapeString after s
    else if d = 36 then 36 :: escapeString after s
    else if d = 34 then 34 :: escapeString after s
    else if d = 48 ∧ isDigit (s.headD after) = false then 0 :: escapeString after s
    else 92 :: escapeString after (d :: s)

end Verif.Text
