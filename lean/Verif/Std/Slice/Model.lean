import Verif.Common.Mem
import Verif.Common.Out

/-!
# Slices

Source: `src/cxy/runtime/builtins.cxy` 1060–1121 (`Slice`).

A slice is a pointer and a length.  Memory is a function from element addresses to elements; the
pointer is the address of the first element.  Numbers are what the types of the parameters hold: a
`u64` is a natural number below `2 ^ 64`, an `i64` an integer.  Assertions are on (they are unless
`DISABLE_ASSERT` is defined).  That the pointer and the length describe memory the program owns is
the business of whoever makes the slice (1064–1067 store what they are given).
-/

namespace Verif.Slice

open Verif

/-- builtins.cxy 1060–1067. -/
structure Slice where
  data : Nat
  len : Nat
  deriving DecidableEq, Repr

/-- Lines 1075–1085, `[]` (both the plain and the `const` one). -/
def get {α : Type} (m : Nat → α) (s : Slice) (i : Nat) : Out α :=
  if i < s.len then .ok (m (s.data + i)) else .abort

/-- Lines 1069–1073, `[]=`. -/
def set {α : Type} (m : Nat → α) (s : Slice) (i : Nat) (v : α) : Out (Nat → α) :=
  if i < s.len then .ok (upd m (s.data + i) v) else .abort

/-- Lines 1097–1108, `view`, where `-1` asks for everything from `start` on.  `count` is not
negative where it is compared with the difference of the `u64`s, so the comparison is one of
numbers (1105). -/
def view (s : Slice) (start : Nat) (count : Int) : Out Slice :=
  if start ≤ s.len then
    if count = -1 then .ok ⟨s.data + start, s.len - start⟩
    else if 0 ≤ count ∧ count ≤ ((s.len - start : Nat) : Int) then .ok ⟨s.data + start, count.toNat⟩
    else .abort
  else .abort

/-- The variable of the closure that `..` returns (line 1088): an `i32`, so incrementing the greatest
one is undefined in the C that is written. -/
def incr32 (i : Nat) : Out Nat := if i + 1 < 2 ^ 31 then .ok (i + 1) else .ub

/-- One call of the closure that `..` returns (1089–1093), with `i` its captured variable: the pair,
if any, and the variable afterwards.  The pair's members are evaluated from left to right. -/
def next {α : Type} (m : Nat → α) (s : Slice) (i : Nat) : Out (Option (α × Nat) × Nat) :=
  if i < s.len then
    match incr32 i with
    | .ok j => .ok (some (m (s.data + i), i), j)
    | .ub => .ub
    | .abort => .abort
    | .diverge => .diverge
  else .ok (none, i)

/-- What a `for` over the slice visits: the closure is called until it returns `None`. -/
def loop {α : Type} (m : Nat → α) (s : Slice) : Nat → Nat → Out (List (α × Nat))
  | 0, _ => .diverge
  | fuel + 1, i =>
      match next m s i with
      | .ok (none, _) => .ok []
      | .ok (some p, j) =>
          (match loop m s fuel j with
          | .ok ps => .ok (p :: ps)
          | .ub => .ub
          | .abort => .abort
          | .diverge => .diverge)
      | .ub => .ub
      | .abort => .abort
      | .diverge => .diverge

end Verif.Slice
