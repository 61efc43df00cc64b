import Verif.Common.Res
import Verif.Core.Text.Model
/-!
# Model of `src/cxy/stdlib/base64.cxy`

A buffer is a list of bytes; reading past its end is undefined behaviour.  `p.[i..]` is the rest of the list.
The operands of `&`, `|`, `<<` and `>>` are widened by the compiler as in `Verif.Lang.Codegen`; for these
expressions the low bits are those of the operation on naturals.  `os << <char>c` goes through
`OutputStream.appendChar` (builtins.cxy 652-653), which writes the UTF-8 encoding of the code point `c`.
-/
namespace Verif.Base64

open Verif.Text (streamChar)

/-- base64.cxy 3 `b64table` -/
def table (i : Nat) : Nat :=
  if i < 26 then 65 + i else if i < 52 then 97 + (i - 26) else if i < 62 then 48 + (i - 52)
  else if i = 62 then 43 else 47

/-- base64.cxy 148 `b64tableU` -/
def tableU (i : Nat) : Nat :=
  if i < 26 then 65 + i else if i < 52 then 97 + (i - 26) else if i < 62 then 48 + (i - 52)
  else if i = 62 then 45 else 95

/-- base64.cxy 4-23 `ASCII_LOOKUP` -/
def lookup (c : Nat) : Nat :=
  if c = 43 then 62 else if c = 47 then 63
  else if 48 ≤ c ∧ c ≤ 57 then c - 48 + 52
  else if 65 ≤ c ∧ c ≤ 90 then c - 65
  else if 97 ≤ c ∧ c ≤ 122 then c - 97 + 26
  else 64

/-- base64.cxy 30-40: the four characters of a group. -/
def sx0 (a : Nat) : Nat := (a &&& 0xFC) >>> 2
def sx1 (a b : Nat) : Nat := ((a &&& 3) <<< 4) ||| ((b &&& 0xF0) >>> 4)
def sx2 (b c : Nat) : Nat := ((b &&& 0xF) <<< 2) ||| ((c &&& 0xC0) >>> 6)
def sx3 (c : Nat) : Nat := c &&& 0x3F

/-- base64.cxy 25-65 `encodeBuffer` -/
def encode : List Nat → List Nat
  | a :: b :: c :: rest => [table (sx0 a), table (sx1 a b), table (sx2 b c), table (sx3 c)] ++ encode rest
  | [a] => [table (sx0 a), table ((a &&& 3) <<< 4), 61, 61]
  | [a, b] => [table (sx0 a), table (sx1 a b), table ((b &&& 0xF) <<< 2), 61]
  | [] => []

/-- base64.cxy 100-102: the three bytes of a group; the conversions to `u8` and `char` keep eight bits. -/
def by0 (x y : Nat) : Nat := ((x <<< 2) ||| (y >>> 4)) % 256
def by1 (y z : Nat) : Nat := ((y <<< 4) ||| (z >>> 2)) % 256
def by2 (z w : Nat) : Nat := ((z <<< 6) ||| w) % 256

/-- Reading a byte of the buffer. -/
def rd (d : List Nat) (i : Nat) : Res Nat :=
  match d[i]? with
  | some c => .ok c
  | none => .ub

/-- What a decoder has written, and whether it raised `Base64Error`. -/
structure Decoded where
  out : List Nat
  raised : Bool
  deriving DecidableEq, Repr

/-- base64.cxy 109-110: the loop over the last group; `d` is the data and `it` the last group. -/
def scan (d it : List Nat) : Nat → Nat → Res Nat
  | 0, i => .ok i
  | n + 1, i =>
    if i < 4 then
      (rd d i).bind fun p =>
        if p ≠ 61 then (rd it i).bind fun c => if lookup c ≠ 64 then scan d it n (i + 1) else .ok i
        else .ok i
    else .ok i

/-- base64.cxy 118-126, 210-218: the bytes of the last group. -/
def emitTail (it : List Nat) (sz : Nat) : Res (List Nat) :=
  (if sz > 1 then (rd it 0).bind fun x => (rd it 1).bind fun y => .ok (streamChar (by0 (lookup x) (lookup y))) else .ok []).bind fun o0 =>
  (if sz > 2 then (rd it 1).bind fun y => (rd it 2).bind fun z => .ok (streamChar (by1 (lookup y) (lookup z))) else .ok []).bind fun o1 =>
  (if sz > 3 then (rd it 2).bind fun z => (rd it 3).bind fun w => .ok (streamChar (by2 (lookup z) (lookup w))) else .ok []).bind fun o2 =>
  .ok (o0 ++ o1 ++ o2)

/-- base64.cxy 107-126: the last group, `sz` bytes of which are left. -/
def decodeTail (d it : List Nat) (sz : Nat) (out : List Nat) : Res Decoded :=
  (scan d it 4 0).bind fun i =>
    (if (sz + 2 ^ 64 - i) % 2 ^ 64 ≠ 0 then (rd it i).bind fun c => .ok (decide (c ≠ 61)) else .ok false).bind fun bad =>
      if bad then .ok ⟨out, true⟩
      else (emitTail it ((sz + 2 ^ 64 - (4 - i)) % 2 ^ 64)).bind fun o => .ok ⟨out ++ o, false⟩

/-- base64.cxy 89-105, 192-207: the groups before the last; `last` treats the rest.  The list is the memory from
`p + i` on, and may go on after the data. -/
def groups (last : List Nat → Nat → List Nat → Res Decoded) : List Nat → Nat → List Nat → Res Decoded
  | a :: b :: c :: e :: rest, sz, out =>
    if sz > 4 then
      if lookup a = 64 ∨ lookup b = 64 ∨ lookup c = 64 ∨ lookup e = 64 then .ok ⟨out, true⟩
      else groups last rest (sz - 4) (out ++ (streamChar (by0 (lookup a) (lookup b)) ++
        streamChar (by1 (lookup b) (lookup c)) ++ streamChar (by2 (lookup c) (lookup e))))
    else last (a :: b :: c :: e :: rest) sz out
  | it, sz, out => if sz > 4 then .ub else last it sz out

/-- base64.cxy 84-127 `decodeBuffer`: the data, and the readable memory that follows it (a NUL byte for strings). -/
def decode (d after : List Nat) : Res Decoded := groups (decodeTail (d ++ after)) (d ++ after) d.length []

/-- base64.cxy 150-170 `urlEncodeBuffer`; `i < size - 2` is a signed comparison and `i` advances by two. -/
def urlEncode : List Nat → List Nat
  | a :: b :: c :: rest => [tableU (sx0 a), tableU (sx1 a b), tableU (sx2 b c), tableU (sx3 c)] ++ urlEncode (c :: rest)
  | [a] => [tableU (sx0 a), tableU ((a &&& 3) <<< 4)]
  | [a, b] => [tableU (sx0 a), tableU (sx1 a b), tableU ((b &&& 0xF) <<< 2)]
  | [] => []

/-- base64.cxy 172-186 `urlEncodeSize` -/
def urlEncodeSize (size : Nat) : Nat :=
  let i := size - size % 2
  let len := if i > 0 then i * 2 else 0
  if i < size then if i = size - 1 then len + 1 + 1 else len + 1 + 2 else len

/-- base64.cxy 188-219 `urlDecodeBuffer`: the last group is not checked. -/
def urlDecode (d after : List Nat) : Res Decoded :=
  groups (fun it sz out => (emitTail it sz).bind fun o => .ok ⟨out ++ o, false⟩) (d ++ after) d.length []

end Verif.Base64
