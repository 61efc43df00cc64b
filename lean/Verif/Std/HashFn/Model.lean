import Verif.Common.Res
import Verif.Lang.Codegen.Model
/-!
# Model of the hash functions of the runtime

`src/cxy/runtime/builtins.cxy` 255–350 (`hash_fnv1a_uint8` … `hash_fnv1a_bytes`, `hash`), 444 (`__string.hash`), 896–904
(`String.hash`), 1260–1297 (`EqualsCase`, `HashCase`).

Text is memory around its first byte: `m i` is the byte `i` bytes behind (or before) it, `none` outside of what may be read.
`var i = 0` is an `i8`, the type of the literal (`getIntegerTypeForLiteral`), so `i++` wraps at 127. A comparison of an `i8` with
a `u64` is made on 64 unsigned bits after extending the sign (`generateBinaryExpr`, `generateCastExpr`); an index of type `i8`
is signed.

Simplified: `toupper`, `strcasecmp` and `strncasecmp` are those of the C locale. Left out: `hash` of enumerations, tuples, arrays
and unions, which only call these functions.
-/
namespace Verif.HashFn

abbrev Byte := BitVec 8

/-- The memory around a text. -/
abbrev Mem := Int → Option Byte

/-- builtins.cxy 256 `FNV_32_PRIME`, which is also what all hashes start from. -/
def prime : BitVec 32 := 0x01000193#32

/-- builtins.cxy 258–262. -/
def u8 (h : BitVec 32) (x : Byte) : BitVec 32 := (h ^^^ x.setWidth 32) * prime

/-- builtins.cxy 264–265. -/
def u16 (h : BitVec 32) (x : BitVec 16) : BitVec 32 := u8 (u8 h ((x &&& 0xff#16).setWidth 8)) ((x >>> 8).setWidth 8)

/-- builtins.cxy 267–268. -/
def u32 (h : BitVec 32) (x : BitVec 32) : BitVec 32 := u16 (u16 h ((x &&& 0xffff#32).setWidth 16)) ((x >>> 16).setWidth 16)

/-- builtins.cxy 270–271, and 273–274 for pointers. -/
def u64 (h : BitVec 32) (x : BitVec 64) : BitVec 32 :=
  u32 (u32 h ((x &&& 0xffffffff#64).setWidth 32)) ((x >>> 32).setWidth 32)

/-- builtins.cxy 343–345: `hash` of a float converts it to a `u64`. -/
def float {F : Type} (fo : Codegen.FloatOps F) (h : BitVec 32) (p : Prim.Prim) (x : F) : Res (BitVec 32) :=
  match Codegen.cast fo .u64 p (.flt (Prim.size p) x) with
  | .ok (.int _ n) => .ok (u64 h (BitVec.ofNat 64 n))
  | .ok (.flt _ _) => .ub
  | .ub => .ub
  | .diverge => .diverge

/-- builtins.cxy 276–284 and 307–316: the loop over a text that ends with NUL; `f` is what is done to a byte. After 256 rounds the
index is what it was, and the loop has no end. -/
def cstrLoop (f : Byte → Byte) (m : Mem) : Nat → BitVec 8 → BitVec 32 → Res (BitVec 32)
  | 0, _, _ => .diverge
  | n + 1, i, h =>
    match m i.toInt with
    | none => .ub
    | some c => if c = 0#8 then .ok h else cstrLoop f m n (i + 1) (u8 h (f c))

/-- builtins.cxy 276–284 `hash_fnv1a_string`. -/
def cstr (h : BitVec 32) (m : Mem) : Res (BitVec 32) := cstrLoop (fun c => c) m 256 0 h

/-- builtins.cxy 286–294 and 296–305: the loop over a text of a given size. -/
def sizedLoop (f : Byte → Byte) (m : Mem) (len : BitVec 64) : Nat → BitVec 8 → BitVec 32 → Res (BitVec 32)
  | 0, _, _ => .diverge
  | n + 1, i, h =>
    if i.signExtend 64 < len then
      match m i.toInt with
      | none => .ub
      | some c => sizedLoop f m len n (i + 1) (u8 h (f c))
    else .ok h

/-- builtins.cxy 286–294 `hash_fnv1a_n_string`. -/
def sized (h : BitVec 32) (m : Mem) (len : BitVec 64) : Res (BitVec 32) := sizedLoop (fun c => c) m len 257 0 h

/-- `toupper` in the C locale; builtins.cxy 300 widens the byte to an `i32` and cuts the result down to a `u8`. -/
def upper (c : Byte) : Byte := if 97 ≤ c.toNat ∧ c.toNat ≤ 122 then c - 32#8 else c

/-- builtins.cxy 296–305 `hash_fnv1a_string_n_igc`. -/
def sizedCase (h : BitVec 32) (m : Mem) (len : BitVec 64) : Res (BitVec 32) := sizedLoop upper m len 257 0 h

/-- builtins.cxy 307–316 `hash_fnv1a_string_igc`. -/
def cstrCase (h : BitVec 32) (m : Mem) : Res (BitVec 32) := cstrLoop upper m 256 0 h

/-- builtins.cxy 324–325: `for (const i: 0..size-1)`, a loop that ends when `i`, an `i64`, is `size - 1` (simplify.c 129–183). -/
def bytesLoop (m : Mem) (stop : BitVec 64) : Nat → BitVec 64 → BitVec 32 → Res (BitVec 32)
  | 0, _, _ => .diverge
  | n + 1, i, h =>
    if i ≠ stop then
      match m i.toInt with
      | none => .ub
      | some c => bytesLoop m stop n (i + 1) (u8 h c)
    else .ok h

/-- The number of values of a `u64`; opaque to reduction. -/
@[irreducible] def rounds : Nat := 2 ^ 64

/-- builtins.cxy 318–327 `hash_fnv1a_bytes`. -/
def bytes (h : BitVec 32) (m : Mem) (size : BitVec 64) : Res (BitVec 32) := bytesLoop m (size - 1) rounds 0 h

/-- builtins.cxy 330–333: `hash` of a `string`. -/
def hashCstr (m : Mem) : Res (BitVec 32) := cstr prime m

/-- builtins.cxy 444: `hash` of a `__string`. -/
def hashView (m : Mem) (size : BitVec 64) : Res (BitVec 32) := sized prime m size

/-- builtins.cxy 896–904: `hash` of a `String`; `none` is `_data == null`. -/
def hashOwned (data : Option Mem) (size : BitVec 64) : Res (BitVec 32) :=
  match data with
  | some m => bytes prime m size
  | none => .ok prime

/-- `tolower` in the C locale. -/
def lower (c : Byte) : Byte := if 65 ≤ c.toNat ∧ c.toNat ≤ 90 then c + 32#8 else c

/-- `strncasecmp(a, b, n) == 0`, from byte `k` on. Reading outside is undefined. -/
def strncaseEq (a b : Mem) : Nat → Nat → Res Bool
  | _, 0 => .ok true
  | k, n + 1 =>
    match a k, b k with
    | some x, some y => if lower x ≠ lower y then .ok false else if x = 0#8 then .ok true else strncaseEq a b (k + 1) n
    | _, _ => .ub

/-- builtins.cxy 1262–1267, 1273–1278 `EqualsCase` of two `String`s or two `__string`s. -/
def equalsCase (a : Mem) (na : BitVec 64) (b : Mem) (nb : BitVec 64) : Res Bool :=
  if na ≠ nb then .ok false else strncaseEq a b 0 na.toNat

/-- builtins.cxy 1282–1291 `HashCase` of a `String` or a `__string`. -/
def hashCase (m : Mem) (size : BitVec 64) : Res (BitVec 32) := sizedCase prime m size

end Verif.HashFn
