import Verif.Common.Mem
import Verif.Common.Res
/-!
# Model of `src/cxy/core/mempool.c`

A pointer into a pool is a block number and an offset into the data of that block.  Blocks are
numbered in list order.  `size_t` arithmetic is not bounded.  Tracked allocations (lines 76-104) are
not modelled.
-/
namespace Verif.MemPool

/-- Memory handed out: block, offset, length. -/
structure Region where
  blk : Nat
  off : Nat
  len : Nat
deriving DecidableEq, Repr

/-- mempool.c 9-14, mempool.h 29-38: the block list.  `n` blocks; block `i` has capacity `cap i` and
`used i` bytes in use; `cur` is the current block (meaningless when there are none). -/
structure Pool where
  n : Nat
  cap : Nat → Nat
  used : Nat → Nat
  cur : Nat
  /-- the free lists, as queues -/
  caches : Nat → List Region

/-- mempool.c 18-23 `newMemPool` -/
def newPool : Pool := ⟨0, fun _ => 0, fun _ => 0, 0, fun _ => []⟩

/-- `sizeof(max_align_t)` on the supported 64-bit targets -/
def maxAlign : Nat := 32

/-- mempool.c 44-48 -/
def alignTo (size align : Nat) : Nat :=
  if size % align ≠ 0 then size + align - size % align else size

/-- mempool.c 31-42 `allocMemBlock` appended after the last block; it becomes the current one. -/
def addBlock (p : Pool) (capacity : Nat) : Pool :=
  let capacity := if capacity < 1024 then 1024 else capacity
  { p with n := p.n + 1, cap := upd p.cap p.n capacity, used := upd p.used p.n 0, cur := p.n }

/-- mempool.c 25-29 -/
def remaining (p : Pool) : Nat := p.cap p.cur - p.used p.cur

/-- mempool.c 60-68: the search for a block.  A failed assertion is `.ub`. -/
def seek (size : Nat) : Nat → Pool → Res Pool
  | 0, _ => .diverge
  | f + 1, p =>
    if p.used p.cur > p.cap p.cur then .ub
    else if remaining p < size then
      if p.cur + 1 = p.n then .ok (addBlock p size)
      else if p.used (p.cur + 1) ≠ 0 then .ub
      else seek size f { p with cur := p.cur + 1 }
    else .ok p

/-- mempool.c 50-74 `allocFromMemPool`; `none` is NULL. -/
def alloc (p : Pool) (size : Nat) : Res (Option Region × Pool) :=
  if size = 0 then .ok (none, p)
  else
    let sz := alignTo size maxAlign
    let q := if p.n = 0 then .ok (addBlock p sz) else seek sz (p.n + 1) p
    q.bind fun q =>
      if remaining q < sz then .ub
      else .ok (some ⟨q.cur, q.used q.cur, size⟩, { q with used := upd q.used q.cur (q.used q.cur + sz) })

/-- mempool.c 106-116 `allocFromCacheOrPool`: the first cached item whatever its size. -/
def allocCached (p : Pool) (c : Nat) (size : Nat) : Res (Option Region × Pool) :=
  match p.caches c with
  | [] => alloc p size
  | r :: rest => .ok (some ⟨r.blk, r.off, size⟩, { p with caches := upd p.caches c rest })

/-- mempool.c 118-136 `freeMemToPoolCache`: append to the free list. -/
def freeToCache (p : Pool) (c : Nat) (r : Region) : Pool :=
  { p with caches := upd p.caches c (p.caches c ++ [r]) }

/-- mempool.c 138-146 `resetMemPool`: every block empty again, the free lists stay. -/
def reset (p : Pool) : Pool := { p with used := fun _ => 0, cur := 0 }

/-- Client operations. -/
inductive Op where
  | alloc (size : Nat)
  /-- allocate through free list `c` -/
  | allocCached (c size : Nat)
  /-- give the `i`-th live allocation back to the free list it was allocated through -/
  | free (i : Nat)
  | reset
deriving DecidableEq

/-- A live allocation and the free list it was allocated through. -/
abbrev Live := Region × Option Nat

/-- One client operation on the pool and the client's list of live allocations. -/
def step (s : Pool × List Live) : Op → Res (Pool × List Live)
  | .alloc size => (alloc s.1 size).bind fun (r, p) =>
      .ok (p, match r with | some r => (r, none) :: s.2 | none => s.2)
  | .allocCached c size => (allocCached s.1 c size).bind fun (r, p) =>
      .ok (p, match r with | some r => (r, some c) :: s.2 | none => s.2)
  | .free i =>
    match s.2[i]? with
    | some (r, some c) => .ok (freeToCache s.1 c r, s.2.eraseIdx i)
    | _ => .ok s
  | .reset => .ok (Verif.MemPool.reset s.1, [])

def run (s : Pool × List Live) (ops : List Op) : Res (Pool × List Live) := Res.foldl step s ops

end Verif.MemPool
