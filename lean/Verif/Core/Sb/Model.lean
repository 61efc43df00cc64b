import Verif.Common.Mem
import Verif.Common.Res
import Verif.Common.Decimal
import Verif.Core.Text.Model
/-!
# Model of `src/cxy/core/sb.c` (string builder)

Bytes are natural numbers.  A byte that was never written holds `none`.  `room` is the number of
bytes allocated, `none` when `data` is NULL.  `u64` arithmetic is not bounded.
-/
namespace Verif.Sb

/-- sb.h 26-30 -/
structure Builder where
  capacity : Nat
  size : Nat
  room : Option Nat
  mem : Nat → Option Nat

/-- A zeroed builder: what `calloc` gives, and what is left after `stringBuilderRelease`. -/
def zeroed : Builder := ⟨0, 0, none, fun _ => none⟩

/-- sb.c 55-57: `while (capacity < need) capacity <<= 1`. -/
def doubleUntil (need : Nat) : Nat → Nat → Res Nat
  | 0, _ => .diverge
  | f + 1, cap => if cap < need then doubleUntil need f (cap * 2) else .ok cap

/-- sb.c 48-60 `stringBuilderGrow`.  The loop doubles, so `need + 1` rounds are more than it can take
unless it never ends. -/
def grow (sb : Builder) (size : Nat) : Res Builder :=
  match sb.room with
  | none => .ok { sb with room := some (size + 1), capacity := size, mem := fun _ => none }
  | some _ =>
    if size > sb.capacity - sb.size then
      (doubleUntil (sb.size + size) (sb.size + size + 1) sb.capacity).map fun c =>
        { sb with capacity := c, room := some (c + 1) }
    else .ok sb

/-- sb.c 62-67, sb.h 35-38: `stringBuilderNew` / `stringBuilderInit`, capacity 32. -/
def new : Builder := ⟨32, 0, some 33, fun _ => none⟩

/-- sb.c 76-82 `stringBuilderAppendCstr0`: every write is checked against the allocation. -/
def append (sb : Builder) (s : List Nat) : Res Builder :=
  (grow sb s.length).bind fun sb =>
    match sb.room with
    | none => .ub
    | some r =>
      if sb.size + s.length < r then
        .ok { sb with
          mem := upd (fun i => if sb.size ≤ i ∧ i < sb.size + s.length then s[i - sb.size]? else sb.mem i)
            (sb.size + s.length) (some 0)
          size := sb.size + s.length }
      else .ub

/-- What can be appended (sb.c 76-111, sb.h 48-60); `stringBuilderAppendFloat` is not modelled. -/
inductive Piece where
  | str (s : List Nat)
  | char (c : Nat)
  | uint (n : Nat)
  | int (z : Int)
  | bool (b : Bool)

def digits (n : Nat) : List Nat := (decimal n).map BitVec.toNat

/-- The bytes each call passes on; `none` for `unreachable`. -/
def Piece.bytes : Piece → Option (List Nat)
  | .str s => some s
  | .char c => Text.builderChar c
  | .uint n => some (digits n)
  | .int z => some (if z < 0 then 45 :: digits z.natAbs else digits z.natAbs)
  | .bool true => some [116, 114, 117, 101]
  | .bool false => some [102, 97, 108, 115, 101]

def appendPiece (sb : Builder) (p : Piece) : Res Builder :=
  match p.bytes with
  | some s => append sb s
  | none => .ub

/-- sb.c 113-119 `stringBuilderRelease`: the buffer, and the zeroed builder. -/
def release (sb : Builder) : (Nat → Option Nat) × Builder := (sb.mem, zeroed)

end Verif.Sb
