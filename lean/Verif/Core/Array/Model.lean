import Verif.Common.Mem
import Verif.Common.Res
/-!
# Model of `src/cxy/core/array.c` (dynamic arrays)

Elements are abstract values; a cell that was never written holds `none`.  `room` is the number of
cells really allocated; every access is checked against it.
-/
namespace Verif.DynArray

variable {α : Type}

/-- array.h 21-27 -/
structure Arr (α : Type) where
  size : Nat
  capacity : Nat
  room : Nat
  mem : Nat → Option α

/-- array.c 9-14 `newDynArrayWithCapacity` -/
def newWithCapacity (α : Type) (capacity : Nat) : Arr α := ⟨0, capacity, capacity, fun _ => none⟩

/-- array.c 21-24 `newDynArray` -/
def new (α : Type) : Arr α := newWithCapacity α 4

/-- array.c 26-31 `newDynArrayWithSize` -/
def newWithSize (α : Type) (size : Nat) : Arr α := { newWithCapacity α size with size := size }

/-- array.c 40-46 `growDynArray`: `realloc` keeps the old cells. -/
def grow (a : Arr α) (capacity : Nat) : Arr α :=
  let doubled := a.capacity * 2
  let c := if doubled > capacity then doubled else capacity
  { a with capacity := c, room := c }

/-- array.c 48-58 `pushOnDynArrayExplicit`; also returns the index the result points at. -/
def push (a : Arr α) (x : α) : Res (Nat × Arr α) :=
  let a := if a.size ≥ a.capacity then grow a (a.size + 1) else a
  if a.size < a.room then .ok (a.size + 1, { a with mem := upd a.mem a.size (some x), size := a.size + 1 })
  else .ub

/-- array.c 60-68 `copyDynArray`, the loop from index `i`; source and destination are different
arrays.  Reading a cell that was never written is undefined. -/
def copyFrom (src : Arr α) : Nat → Nat → Arr α → Res (Arr α)
  | 0, _, dst => .ok dst
  | n + 1, i, dst =>
    if i < src.room then
      match src.mem i with
      | none => .ub
      | some x => (push dst x).bind fun r => copyFrom src n (i + 1) r.2
    else .ub

def copy (dst src : Arr α) : Res (Arr α) := if src.size = 0 then .ok dst else copyFrom src src.size 0 dst

/-- array.c 70-77 `popDynArray`: the index of the popped cell. -/
def pop (a : Arr α) : Option Nat × Arr α :=
  if a.size > 0 then (some (a.size - 1), { a with size := a.size - 1 }) else (none, a)

/-- array.c 79-84 `resizeDynArrayExplicit` -/
def resize (a : Arr α) (size : Nat) : Arr α :=
  let a := if size > a.capacity then grow a size else a
  { a with size := size }

/-- Client operations; `copy xs` copies from another array holding `xs`. -/
inductive Op (α : Type) where
  | push (x : α)
  | pop
  | resize (n : Nat)
  | copy (xs : List α)

/-- An array holding exactly `xs` (array.c 33-38 `newDynArrayFromDataExplicit`). -/
def fromData (xs : List α) : Arr α := ⟨xs.length, xs.length, xs.length, fun i => xs[i]?⟩

/-- One operation; the output is the popped cell's content (outer `none`: nothing to pop). -/
def step (a : Arr α) : Op α → Res (Option (Option α) × Arr α)
  | .push x => (push a x).map fun r => (none, r.2)
  | .pop =>
    match pop a with
    | (none, a') => .ok (none, a')
    | (some i, a') => if i < a.room then .ok (some (a.mem i), a') else .ub
  | .resize n => .ok (none, resize a n)
  | .copy xs => (copy a (fromData xs)).map fun a' => (none, a')

def run : Arr α → List (Op α) → Res (List (Option (Option α)) × Arr α)
  | a, [] => .ok ([], a)
  | a, o :: os => (step a o).bind fun (x, a') => (run a' os).map fun (xs, a'') => (x :: xs, a'')

end Verif.DynArray
