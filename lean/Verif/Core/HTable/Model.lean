import Verif.Common.Mem
/-!
# Model of `src/cxy/core/htable.c` and `src/cxy/core/primes.h`

Open addressing with linear probing.  The element type is abstract; `memcpy` of an element
is the copy of a value.  Sizes are unbounded naturals (the C code uses `size_t`; overflow of
`size * 100` needs more elements than memory holds).  Allocation succeeds.  The element size is
at least four bytes: `rehashTable` allocates the hash array with `elemSize` bytes per bucket
(line 66), and every caller stores at least a pointer.
-/
namespace Verif.HTable

/-- primes.h 12-20: the table of capacities. -/
def primes : List Nat :=
  [7, 17, 31, 67, 257, 1031, 4093, 8191, 16381, 32381, 65539, 131071, 262147, 524287, 1048583]

/-- primes.h 26-38: the `while (j < k)` loop of `nextPrime`.  Fuel bounds the recursion; the
interval halves, so `prime_count` steps suffice (see `nextPrime_spec`). -/
def nextPrimeLoop (i : Nat) : Nat → Nat → Nat → Nat
  | 0, _, k => k
  | fuel + 1, j, k =>
    if j < k then
      let m := (j + k) / 2
      let p := primes.getD m 0
      if p ≤ i then nextPrimeLoop i fuel (m + 1) k else nextPrimeLoop i fuel j m
    else k

/-- primes.h 26-38 `nextPrime`. -/
def nextPrime (i : Nat) : Nat :=
  let k := nextPrimeLoop i 15 0 15
  primes.getD (if k ≥ 15 then 14 else k) 0

/-- primes.h 41-52 `modPrime`: every case of the switch computes `i % p`. -/
def modPrime (i p : Nat) : Nat := i % p

/-- htable.c 9: `OCCUPIED_MASK`. -/
def occupiedMask : BitVec 32 := 0x80000000#32

/-- htable.c 50-53 `isOccupiedHash`. -/
def isOccupiedHash (h : BitVec 32) : Bool := (h &&& occupiedMask) != 0#32

/-- htable.h `HashTable`.  `hashes` and `elems` are the two arrays; an `elems` cell that has never
been written is `none`. -/
structure Table (α : Type) where
  cap : Nat
  size : Nat
  hashes : Nat → BitVec 32
  elems : Nat → Option α

variable {α : Type}

/-- htable.c 13-16 `incrementWrap`. -/
def incrementWrap (cap i : Nat) : Nat := if i + 1 ≥ cap then 0 else i + 1

/-- htable.c 23-26 `needsRehash`, `MAX_LOAD_FACTOR` 70. -/
def needsRehash (t : Table α) : Bool := t.size * 100 ≥ t.cap * 70

/-- htable.c 33-39 `newHashTableWithCapacity`: `calloc`ed hashes, uninitialised elements. -/
def newWithCapacity (α : Type) (c : Nat) : Table α :=
  { cap := nextPrime c, size := 0, hashes := fun _ => 0#32, elems := fun _ => none }

/-- htable.c 28-31 `newHashTable`. -/
def new (α : Type) : Table α := newWithCapacity α 4

/-- htable.c 55-58 `isBucketOccupied`. -/
def occupied (t : Table α) (i : Nat) : Bool := isOccupiedHash (t.hashes i)

/-- Outcome of a probe loop. -/
inductive Probe where
  /-- an equal element sits in this bucket -/
  | hit (i : Nat)
  /-- the loop stopped at this unoccupied bucket -/
  | free (i : Nat)
  /-- every bucket is occupied by a different element: the C loop never ends -/
  | diverge
  /-- the loop read an element that was never written -/
  | uninit
  deriving DecidableEq, Repr

/-- htable.c 94-100 and 116-122: the common `while (isBucketOccupied(..))` loop of
`insertInHashTable` and `findInHashTable`.  The loop has no bound of its own; it is run with the
capacity as fuel, after which it would be back at its first bucket in an unchanged table, so
running out means the C loop never ends. -/
def probeLoop (cmp : α → α → Bool) (t : Table α) (h : BitVec 32) (e : α) : Nat → Nat → Probe
  | 0, _ => .diverge
  | fuel + 1, i =>
    if occupied t i then
      if t.hashes i = h then
        match t.elems i with
        | none => .uninit
        | some x => if cmp x e then .hit i else probeLoop cmp t h e fuel (incrementWrap t.cap i)
      else probeLoop cmp t h e fuel (incrementWrap t.cap i)
    else .free i

/-- htable.c 71-72: the inner loop of `rehashTable`, looking for an unoccupied new bucket. -/
def freeLoop (hashes : Nat → BitVec 32) (cap : Nat) : Nat → Nat → Option Nat
  | 0, _ => none
  | fuel + 1, i =>
    if isOccupiedHash (hashes i) then freeLoop hashes cap fuel (incrementWrap cap i) else some i

/-- htable.c 67-79: the body of the `for` loop of `rehashTable` for old bucket `i`. `none` means
that the inner loop does not end. -/
def rehashStep (t : Table α) (nt : Table α) (i : Nat) : Option (Table α) :=
  let h := t.hashes i
  if isOccupiedHash h then
    match freeLoop nt.hashes nt.cap nt.cap (modPrime h.toNat nt.cap) with
    | none => none
    | some j => some { nt with elems := upd nt.elems j (t.elems i), hashes := upd nt.hashes j h }
  else some nt

/-- htable.c 62-64: the new capacity. -/
def newCapacity (cap : Nat) : Nat :=
  let c := nextPrime cap
  if c ≤ cap then cap * 2 + 1 else c

/-- htable.c 60-85 `rehashTable`. -/
def rehash (t : Table α) : Option (Table α) :=
  let nt : Table α :=
    { cap := newCapacity t.cap, size := t.size, hashes := fun _ => 0#32, elems := fun _ => none }
  (List.range t.cap).foldlM (rehashStep t) nt

/-- Result of an operation: a value, a loop that never ends, or undefined behaviour. -/
inductive Res (β : Type) where
  | ok (b : β)
  | diverge
  | ub
  deriving DecidableEq, Repr

/-- htable.c 87-107 `insertInHashTable`.  With capacity 0 (a freed table) `modPrime` divides by
zero. -/
def insert (cmp : α → α → Bool) (t : Table α) (e : α) (hash : BitVec 32) : Res (Bool × Table α) :=
  let h := hash ||| occupiedMask
  if t.cap = 0 then .ub else
  match probeLoop cmp t h e t.cap (modPrime h.toNat t.cap) with
  | .diverge => .diverge
  | .uninit => .ub
  | .hit _ => .ok (false, t)
  | .free i =>
    let t' := { t with elems := upd t.elems i (some e), hashes := upd t.hashes i h, size := t.size + 1 }
    if needsRehash t' then
      match rehash t' with
      | none => .diverge
      | some t'' => .ok (true, t'')
    else .ok (true, t')

/-- htable.c 109-124 `findInHashTable`, returning the bucket. -/
def findIdx (cmp : α → α → Bool) (t : Table α) (e : α) (hash : BitVec 32) : Res (Option Nat) :=
  let h := hash ||| occupiedMask
  if t.cap = 0 then .ub else
  match probeLoop cmp t h e t.cap (modPrime h.toNat t.cap) with
  | .diverge => .diverge
  | .uninit => .ub
  | .hit i => .ok (some i)
  | .free _ => .ok none

/-- htable.c 109-124 `findInHashTable`, returning the element the pointer refers to. -/
def find (cmp : α → α → Bool) (t : Table α) (e : α) (hash : BitVec 32) : Res (Option α) :=
  match findIdx cmp t e hash with
  | .ok (some i) => .ok (t.elems i)
  | .ok none => .ok none
  | .diverge => .diverge
  | .ub => .ub

/-- htable.c 126-138 `enumerateHashTable`: the loop over buckets, `with` returning whether to go
on; the model collects the elements handed to the callback. -/
def enumerate (t : Table α) («with» : α → Bool) : List α := go (List.range t.cap)
where
  go : List Nat → List α
  | [] => []
  | i :: is =>
    if isOccupiedHash (t.hashes i) then
      match t.elems i with
      | none => go is   -- unreachable: an occupied bucket has been written
      | some x => if «with» x then x :: go is else [x]
    else go is

/-- htable.c 145-155 `hashTableItNext`: the loop from position `i`; returns the element and the
next position. -/
def itNext (t : Table α) : Nat → Nat → Option (α × Nat)
  | 0, _ => none
  | fuel + 1, i =>
    if i < t.cap then
      if isOccupiedHash (t.hashes i) then (t.elems i).map (fun x => (x, i + 1))
      else itNext t fuel (i + 1)
    else none

/-- A client draining the iterator: `while ((e = hashTableItNext(&it)))`. -/
def drain (t : Table α) : Nat → Nat → List α
  | 0, _ => []
  | fuel + 1, i =>
    match itNext t (t.cap - i + 1) i with
    | none => []
    | some (x, j) => x :: drain t fuel j

/-- htable.c 181-193: the `while` loop of `removeFromHashTable`.  `index` is the hole, `next` the
bucket examined.  `none` when the loop does not end (fuel is the capacity). -/
def removeLoop (t : Table α) : Nat → Nat → Nat → Option (Table α × Nat)
  | 0, _, _ => none
  | fuel + 1, index, next =>
    if occupied t next then
      let h := t.hashes next
      let desired := modPrime h.toNat t.cap
      if desired ≤ index ∨ desired > next then
        let t' := { t with elems := upd t.elems index (t.elems next), hashes := upd t.hashes index h }
        removeLoop t' fuel next (incrementWrap t.cap next)
      else removeLoop t fuel index (incrementWrap t.cap next)
    else some (t, index)

/-- htable.c 174-196 `removeFromHashTable`; the element pointer is given by its bucket.  The two
asserts (lines 176, 177, 179) become the guard. -/
def remove (t : Table α) (index : Nat) : Res (Table α) :=
  if index < t.cap ∧ occupied t index then
    match removeLoop t t.cap index (incrementWrap t.cap index) with
    | none => .diverge
    | some (t', i) => .ok { t' with hashes := upd t'.hashes i 0#32, size := t'.size - 1 }
  else .ub

/-- htable.c 198-204 `clearHashTable`. -/
def clear (t : Table α) : Table α :=
  if t.size = 0 then t else { t with size := 0, hashes := fun i => if i < t.cap then 0#32 else t.hashes i }

end Verif.HTable
