import Verif.Core.RobinHood.Model
import Verif.Common.Res
/-!
# Model of `src/cxy/stdlib/hash.cxy`: `HashMap[K, V]` (and `HashSet[K]` with `V = Unit`)

Keys and values are abstract.  Numbers of type `u64` are naturals except where the code depends on
wrap-around: `probe` and the counters declared `var i = 0` / `var j = 0`, which are `i8` because an
integer literal has the smallest signed type that holds it (`lang/frontend/check.c` 748-751,
`ttable.c` 1444) and a variable takes the type of its initialiser.  Comparing an `i8` with a `u64`
sign-extends the `i8` and compares unsigned (`backend/llvm/binary.cpp` 93-115).  Allocation succeeds;
`delete` of a removed entry is not modelled.
-/
namespace Verif.HashMap

open Verif.RH

variable {K V : Type}

/-- hash.cxy 52-57 `probe`: `v` is unsigned, so `v < 0` is never true and a wrapped item gets a
distance near 2^64; 116: an insertion swaps when `j > p`. -/
def params : Params where
  probe := fun _ i h => if h ≤ i then some (i - h) else none
  swap := gtDist

/-- The value of an `i8` counter that was incremented `n` times, sign-extended to `u64`. -/
def i8AsU64 (n : Nat) : Nat := if n % 256 < 128 then n % 256 else 2 ^ 64 - 256 + n % 256

/-- hash.cxy 202: `j > probe(i, h)` with `j` an `i8`. -/
def stopI8 : Nat → Nat → Nat → Bool :=
  fun j i h => decide (i8AsU64 j > (if h ≤ i then i - h else 2 ^ 64 + i - h))

/-- hash.cxy 171-176 `init`. -/
def init (K V : Type) (initialCapacity : Nat) : Map (K × V) := ⟨idealSize initialCapacity, 0, fun _ => none⟩

/-- hash.cxy 93-127 `insertInternal`. -/
def insertInternal (hash : K → Nat) (eq : K → K → Bool) (m0 : Map (K × V)) (e : K × V) (replace : Bool) :
    Res (Bool × Map (K × V)) :=
  let m := if m0.cap = 0 then ⟨idealSize 1, m0.size, fun _ => none⟩ else m0
  let i := hash e.1 % m.cap
  match putLoop params (fun a b => eq a.1 b.1) m.cap replace m.cap m.data ⟨i, e⟩ i 0 with
  | .added d => .ok (true, ⟨m.cap, m.size + 1, d⟩)
  | .present d => .ok (false, ⟨m.cap, m.size, d⟩)
  | .diverge => .diverge

/-- hash.cxy 61-77 `rehash`. -/
def rehash (hash : K → Nat) (eq : K → K → Bool) (m : Map (K × V)) (newCap : Nat) : Res (Map (K × V)) :=
  Res.foldl (fun m e => (insertInternal hash eq m e true).map (·.2)) ⟨newCap, 0, fun _ => none⟩
    (contents m.cap m.data)

/-- hash.cxy 248-254 `insert` with `resizeMore` (79-84). -/
def insert (hash : K → Nat) (eq : K → K → Bool) (m : Map (K × V)) (k : K) (v : V) (replace : Bool) :
    Res (Bool × Map (K × V)) :=
  (insertInternal hash eq m (k, v) replace).bind fun (b, m1) =>
    if b then
      let newSize := idealSize m1.size
      if newSize > m1.cap then (rehash hash eq m1 newSize).map fun m2 => (b, m2) else .ok (b, m1)
    else .ok (b, m1)

/-- hash.cxy 129-147 `getInternal`: the slot, as an optional. -/
def getInternal (hash : K → Nat) (eq : K → K → Bool) (m : Map (K × V)) (k : K) : Res (Option Nat) :=
  if m.size = 0 then .ok none
  else
    match getLoop (params.stop m.cap) (fun e => eq e.1 k) m.cap m.data m.cap (hash k % m.cap) 0 with
    | .found i => .ok (some i)
    | .absent => .ok none
    | .diverge => .diverge

/-- hash.cxy 256-262 `get`. -/
def get (hash : K → Nat) (eq : K → K → Bool) (m : Map (K × V)) (k : K) : Res (Option V) :=
  (getInternal hash eq m k).map fun r => r.bind fun i => (m.data i).map fun n => n.elem.2

/-- hash.cxy 235 `contains`. -/
def containsKey (hash : K → Nat) (eq : K → K → Bool) (m : Map (K × V)) (k : K) : Res Bool :=
  (getInternal hash eq m k).map Option.isSome

/-- hash.cxy 183-194 `clear`. -/
def clear (m : Map (K × V)) : Map (K × V) := if m.cap ≠ 0 then ⟨0, 0, fun _ => none⟩ else m

/-- hash.cxy 196-232 `remove` with `resizeLess` (86-91). -/
def remove (hash : K → Nat) (eq : K → K → Bool) (m : Map (K × V)) (k : K) : Res (Map (K × V)) :=
  if m.size = 0 then .ok m
  else
    match getLoop stopI8 (fun e => eq e.1 k) m.cap m.data m.cap (hash k % m.cap) 0 with
    | .absent => .ok m
    | .diverge => .diverge
    | .found i =>
      match shiftLoop params m.cap m.cap (upd m.data i none) i with
      | none => .diverge
      | some d =>
        let m1 : Map (K × V) := ⟨m.cap, m.size - 1, d⟩
        let newSize := idealSize m1.size
        if newSize < m1.cap then rehash hash eq m1 newSize else .ok m1

/-- hash.cxy 306-313 `each` (and 278-290, 292-304 `..`, called until it yields null): the entries
handed to the callback.  `n` counts the increments of the `i8` index. -/
def eachLoop (m : Map (K × V)) : Nat → Nat → List (K × V)
  | 0, _ => []
  | fuel + 1, n =>
    let i := i8AsU64 n
    if i < m.cap then
      match m.data i with
      | some x => x.elem :: eachLoop m fuel (n + 1)
      | none => eachLoop m fuel (n + 1)
    else []

/-- The index reaches a value outside the table after at most 128 increments. -/
def each (m : Map (K × V)) : List (K × V) := eachLoop m 129 0

/-- hash.cxy 315-323 `map`: the index is never incremented.  `none`: the loop does not end within
the given number of iterations. -/
def mapLoop (m : Map (K × V)) : Nat → List (K × V) → Option (List (K × V))
  | 0, _ => none
  | fuel + 1, acc =>
    if 0 < m.cap then
      match m.data 0 with
      | some x => mapLoop m fuel (acc ++ [x.elem])
      | none => mapLoop m fuel acc
    else some acc

end Verif.HashMap
