import Verif.Core.HTable.Model
import Verif.Core.Hash.Model
/-!
# Model of `src/cxy/core/strpool.c` (string interning)

The pool is the hash table of `htable.c` holding pointers to interned strings.  A pointer is a
number (`Nat`, fresh for every allocation) and comes with the bytes it refers to; the terminating
NUL is implicit.
-/
namespace Verif.StrPool

open Verif.HTable

abbrev Byte := Verif.Hash.Byte
abbrev Str := List Byte

/-- `strncmp(a, b, n) == 0` where `b` has exactly `n` bytes and `a` is NUL-terminated. -/
def strncmpEq : Str → Str → Bool
  | _, [] => true
  | [], y :: _ => y = 0#8
  | x :: a, y :: b => if x ≠ y then false else if x = 0#8 then true else strncmpEq a b

/-- An interned string: address and contents. -/
abbrev Handle := Nat × Str

/-- strpool.c 26-30 `compareStrFind`: stored string against the requested one, up to the requested
length. -/
def compareStrFind (stored requested : Handle) : Bool := strncmpEq stored.2 requested.2

structure Pool where
  table : Table Handle
  /-- next address handed out by the memory pool -/
  next : Nat

/-- strpool.c 13-17 `newStrPool`. -/
def newPool : Pool := ⟨new Handle, 0⟩

/-- `hashRawBytes(hashInit(), str, len)` (strpool.c 75). -/
def hashOf (s : Str) : BitVec 32 := Verif.Hash.hashRawBytes Verif.Hash.hashInit s

/-- strpool.c 71-89 `makeStringSized`.  The insertion passes a `char **` where the comparison
expects a `SizedString *` (line 86 and 32-36): if the comparison is called at all, it reads a length
from beyond the variable, which is undefined.  So the insertion is run with a comparison that always
answers yes, and a rejected insertion is reported as undefined. -/
def makeStringSized (p : Pool) (s : Str) : Res (Handle × Pool) :=
  match find compareStrFind p.table (0, s) (hashOf s) with
  | .diverge => .diverge
  | .ub => .ub
  | .ok (some h) => .ok (h, p)
  | .ok none =>
    let h : Handle := (p.next, s)
    match insert (fun _ _ => true) p.table h (hashOf s) with
    | .diverge => .diverge
    | .ub => .ub
    | .ok (false, _) => .ub
    | .ok (true, t) => .ok (h, ⟨t, p.next + 1⟩)

/-- strpool.c 51-54 `makeString` on a NUL-terminated argument: the bytes before the NUL. -/
def makeString (p : Pool) (mem : Str) : Res (Handle × Pool) := makeStringSized p (mem.takeWhile (· ≠ 0#8))

/-- C locale `isspace`. -/
def isSpace (b : Byte) : Bool := b = 0x20#8 || (decide (0x09#8 ≤ b) && decide (b ≤ 0x0d#8))

/-- strpool.c 56-69 `makeTrimmedString`: skip leading white space, take up to the next one. -/
def makeTrimmedString (p : Pool) (mem : Str) : Res (Handle × Pool) :=
  let s := mem.dropWhile (fun b => b ≠ 0#8 && isSpace b)
  makeStringSized p (s.takeWhile (fun b => b ≠ 0#8 && !isSpace b))

/-- A history of requests. -/
def run : Pool → List Str → Res (List Handle × Pool)
  | p, [] => .ok ([], p)
  | p, s :: ss =>
    match makeStringSized p s with
    | .diverge => .diverge
    | .ub => .ub
    | .ok (h, p') =>
      match run p' ss with
      | .diverge => .diverge
      | .ub => .ub
      | .ok (hs, p'') => .ok (h :: hs, p'')

end Verif.StrPool
