import Verif.Core.RobinHood.Model
import Verif.Common.Res
/-!
# Model of `src/cxy/core/hmap.c`

The robin-hood map of the compiler (memory management pass).  A stored blob of `elemSize` bytes is
an abstract element.  Allocation succeeds.
-/
namespace Verif.Hmap

open Verif.RH

variable {α : Type}

/-- hmap.c 48-55 `hmapProbe` and 137: the distance is signed and wrapped by the capacity; an
insertion swaps when `j >= p`. -/
def params : Params where
  probe := fun cap i h => some (if h ≤ i then i - h else cap + i - h)
  swap := fun j p => match p with | some p => decide (j ≥ p) | none => false

/-- hmap.c 155-175 `hmapInitWithCapacity` on a zeroed map (hmap.h `hmapCreateWithCapacity`). -/
def create (α : Type) (capacity : Nat) : Map α := ⟨idealSize capacity, 0, fun _ => none⟩

/-- hmap.c 103-152 `hmapPutInternal`: `% nslots` with no slots is undefined. -/
def putInternal (hash : α → Nat) (eq : α → α → Bool) (m : Map α) (e : α) : Res (Bool × Map α) :=
  if m.cap = 0 then .ub
  else
    let i := hash e % m.cap
    match putLoop params eq m.cap true m.cap m.data ⟨i, e⟩ i 0 with
    | .added d => .ok (true, ⟨m.cap, m.size + 1, d⟩)
    | .present d => .ok (false, ⟨m.cap, m.size, d⟩)
    | .diverge => .diverge

/-- hmap.c 241-247 `hmapPut`, with `hmapResizeMore` (86-93) and `hmapRehash` (67-84) inlined.
`hmapRehash` calls `hmapPut` again, so the recursion is bounded by a depth; running out of it is
`diverge`.  The status flag is kept, the returned pointer is not (no caller uses it). -/
def put (hash : α → Nat) (eq : α → α → Bool) : Nat → Map α → α → Res (Bool × Map α)
  | 0, _, _ => .diverge
  | depth + 1, m, e =>
    (putInternal hash eq m e).bind fun (b, m1) =>
      if b then
        let newSize := idealSize m1.size
        if newSize > m1.cap then
          (Res.foldl (fun m x => (put hash eq depth m x).map (·.2)) ⟨newSize, 0, fun _ => none⟩
            (contents m1.cap m1.data)).map fun m2 => (b, m2)
        else .ok (b, m1)
      else .ok (b, m1)

/-- hmap.c 67-84 `hmapRehash`. -/
def rehash (hash : α → Nat) (eq : α → α → Bool) (depth : Nat) (m : Map α) (newCap : Nat) : Res (Map α) :=
  Res.foldl (fun m x => (put hash eq depth m x).map (·.2)) ⟨newCap, 0, fun _ => none⟩ (contents m.cap m.data)

/-- hmap.c 249-275 `hmapGet` for an argument outside the table's own memory. -/
def get (hash : α → Nat) (eq : α → α → Bool) (m : Map α) (k : α) : Res (Option α) :=
  if m.cap = 0 then .ok none
  else
    match getLoop (params.stop m.cap) (fun x => eq x k) m.cap m.data m.cap (hash k % m.cap) 0 with
    | .found i => .ok ((m.data i).map Node.elem)
    | .absent => .ok none
    | .diverge => .diverge

/-- hmap.c 193-239 `hmapRemove` with `hmapResizeLess` (95-101). -/
def remove (hash : α → Nat) (eq : α → α → Bool) (depth : Nat) (m : Map α) (k : α) : Res (Map α) :=
  if m.cap = 0 then .ok m
  else
    match getLoop (params.stop m.cap) (fun x => eq x k) m.cap m.data m.cap (hash k % m.cap) 0 with
    | .absent => .ok m
    | .diverge => .diverge
    | .found i =>
      match shiftLoop params m.cap m.cap (upd m.data i none) i with
      | none => .diverge
      | some d =>
        let m1 : Map α := ⟨m.cap, m.size - 1, d⟩
        let newSize := idealSize m1.size
        if newSize < m1.cap then rehash hash eq depth m1 newSize else .ok m1

/-- hmap.c 185-191 `hmapClear`. -/
def clear (_ : Map α) : Map α := ⟨0, 0, fun _ => none⟩

/-- hmap.c 279-290: one call of `hmapNext`; the result is the element and the new index. -/
def next (m : Map α) : Nat → Nat → Option (α × Nat)
  | 0, _ => none
  | fuel + 1, index =>
    if index < m.cap then
      match m.data index with
      | some n => some (n.elem, index + 1)
      | none => next m fuel (index + 1)
    else none

/-- hmap.c 277-290: the whole iteration. -/
def iterate (m : Map α) : Nat → Nat → List α
  | 0, _ => []
  | fuel + 1, index =>
    match next m (m.cap + 1) index with
    | some (x, j) => x :: iterate m fuel j
    | none => []

end Verif.Hmap
