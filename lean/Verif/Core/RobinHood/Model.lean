import Verif.Common.Mem
/-!
# Robin-hood probing, shared by `src/cxy/core/hmap.c` and `src/cxy/stdlib/hash.cxy`

The two maps are the same algorithm in two languages.  They differ in

* how the distance of a stored item from its home is computed (`probe`), and
* the test that decides whether an insertion swaps with the stored item (`swap`).

Both are parameters here and are instantiated in `Core/Hmap/Model.lean` and
`Std/HashMap/Model.lean`.

A slot with header 0 is empty (`none`); header `h > 0` means home slot `h - 1`.  Elements are
abstract (`α`): in hmap.c the stored blob, in hash.cxy the key together with the value.  Sizes and
capacities are unbounded naturals.
-/
namespace Verif.RH

/-- One occupied slot: header minus one, and the element. -/
structure Node (α : Type) where
  home : Nat
  elem : α

/-- hmap.h 21-30 / hash.cxy 34-37. -/
structure Map (α : Type) where
  cap : Nat
  size : Nat
  data : Nat → Option (Node α)

/-- A distance; `none` stands for a number larger than any probe count. -/
abbrev Dist := Option Nat

/-- The test `j > probe(i, h)` (hmap.c 206, 265; hash.cxy 138, 158, 202). -/
def gtDist (j : Nat) : Dist → Bool
  | none => false
  | some p => j > p

structure Params where
  /-- `probe cap i home` -/
  probe : Nat → Nat → Nat → Dist
  /-- `swap j p` -/
  swap : Nat → Dist → Bool

variable {α : Type}

/-- Outcome of the insertion loop: slots, and whether a new slot was used. -/
inductive PutRes (α : Type) where
  | added (data : Nat → Option (Node α))
  | present (data : Nat → Option (Node α))
  /-- no empty slot, no equal element: the loop never ends -/
  | diverge

/-- hmap.c 118-152 / hash.cxy 103-126: the `while` loop of an insertion.  `it` is the item in hand
(its header already set), `i` the slot, `j` the counter.  Fuel is the capacity: the set of occupied
slots does not change inside the loop and `i` visits every slot in that many steps. -/
def putLoop (P : Params) (eq : α → α → Bool) (cap : Nat) (replace : Bool) :
    Nat → (Nat → Option (Node α)) → Node α → Nat → Nat → PutRes α
  | 0, _, _, _, _ => .diverge
  | fuel + 1, d, it, i, j =>
    match d i with
    | none => .added (upd d i (some it))
    | some x =>
      if eq x.elem it.elem then .present (if replace then upd d i (some it) else d)
      else
        let p := P.probe cap i x.home
        if P.swap j p then
          -- the stored item is taken out and carried on; `j = p`
          putLoop P eq cap replace fuel (upd d i (some it)) x ((i + 1) % cap) (p.getD 0 + 1)
        else putLoop P eq cap replace fuel d it ((i + 1) % cap) (j + 1)

/-- Outcome of a lookup loop. -/
inductive GetRes where
  | found (i : Nat)
  | absent
  | diverge
  deriving DecidableEq, Repr

/-- hmap.c 263-274 / hash.cxy 136-146, 156-166 (and the search part of `remove`, hmap.c 203-213,
235-237 / hash.cxy 200-206, 227-229).  `stop j i home` is the test on the counter that ends the
search and `test` the comparison with the key looked for. -/
def getLoop (stop : Nat → Nat → Nat → Bool) (test : α → Bool) (cap : Nat) (d : Nat → Option (Node α)) :
    Nat → Nat → Nat → GetRes
  | 0, _, _ => .diverge
  | fuel + 1, i, j =>
    match d i with
    | none => .absent
    | some x =>
      if stop j i x.home then .absent
      else if test x.elem then .found i
      else getLoop stop test cap d fuel ((i + 1) % cap) (j + 1)

/-- The usual `stop`: `j > probe(i, h)`. -/
def Params.stop (P : Params) (cap : Nat) : Nat → Nat → Nat → Bool := fun j i h => gtDist j (P.probe cap i h)

/-- hmap.c 213-228 / hash.cxy 209-220: shifting the chain back after slot `i` was emptied.  `none`
when no slot stops the shift within `cap` steps. -/
def shiftLoop (P : Params) (cap : Nat) : Nat → (Nat → Option (Node α)) → Nat → Option (Nat → Option (Node α))
  | 0, _, _ => none
  | fuel + 1, d, i =>
    let ni := (i + 1) % cap
    match d ni with
    | none => some d
    | some x =>
      if P.probe cap ni x.home = some 0 then some d
      else shiftLoop P cap fuel (upd (upd d i (some x)) ni none) ni

/-- The elements of the occupied slots, in slot order: what the loops of `rehash` (hmap.c 75-81 /
hash.cxy 69-73) and of the iterators (hmap.c 285-295) go through. -/
def contents (cap : Nat) (d : Nat → Option (Node α)) : List α :=
  (List.range cap).filterMap (fun i => (d i).map Node.elem)

/-- hmap.c 12-15 / hash.cxy 8-12. -/
def primes : List Nat :=
  [0, 1, 5, 11, 23, 53, 101, 197, 389, 683, 1259, 2417, 4733, 9371, 18617, 37097,
   74093, 148073, 296099, 592019, 1100009, 2200013, 4400021, 8800019]

/-- hmap.c 28-29 / hash.cxy 47-48: `while (last < size) last <<= 1`.  Fuel `size` is enough. -/
def doubling (size : Nat) : Nat → Nat → Nat
  | 0, last => last
  | fuel + 1, last => if last < size then doubling size fuel (last * 2) else last

/-- hmap.c 19-31 / hash.cxy 39-50 `idealSize`.  `(u64)((double)(size + 1) / 0.9)` is
`(size + 1) * 10 / 9` rounded down for every size that fits in memory: the division is correctly
rounded, and the quotient is either an integer or at least 1/9 away from one. -/
def idealSize (size : Nat) : Nat :=
  let s := (size + 1) * 10 / 9
  match primes.find? (fun p => p ≥ s) with
  | some p => p
  | none => doubling s s 8800019

end Verif.RH
