import Verif.Common.Mem
/-!
# Model of `src/cxy/stdlib/list.cxy`

Items are addresses, 0 being `null`; `link` is the field of every item.  The count is below 2^64.
-/
namespace Verif.ListQ

/-- list.cxy 3-6, with the `link` fields of the items. -/
structure Q where
  head : Nat
  tail : Nat
  count : Nat
  link : Nat → Nat

/-- An empty list and items whose links are null. -/
def empty : Q := ⟨0, 0, 0, fun _ => 0⟩

/-- list.cxy 8-18 `push`; `none` is the failed assertion (or a null item). -/
def push (q : Q) (item : Nat) : Option Q :=
  if item = 0 then none
  else if q.link item = 0 then
    if q.head = 0 then some { q with head := item, count := q.count + 1, tail := item }
    else some { q with link := upd q.link q.tail item, count := q.count + 1, tail := item }
  else none

/-- list.cxy 20-30 `pop` -/
def pop (q : Q) : Nat × Q :=
  if q.head ≠ 0 then
    let h := q.link q.head
    (q.head, { q with count := q.count - 1, head := h, tail := if h = 0 then 0 else q.tail, link := upd q.link q.head 0 })
  else (q.head, q)

/-- list.cxy 32-43 `..`: the items seen in `n` steps of the iterator, and whether it has ended. -/
def walk (q : Q) : Nat → Nat → List Nat × Bool
  | 0, item => ([], item = 0)
  | n + 1, item => if item ≠ 0 then ((item :: (walk q n (q.link item)).1), (walk q n (q.link item)).2) else ([], true)

def iterate (q : Q) (n : Nat) : List Nat × Bool := walk q n q.head

/-- list.cxy 45-51, 53-59, 61-65 -/
def front (q : Q) : Nat := q.head
def back (q : Q) : Nat := q.tail
def size (q : Q) : Nat := q.count
def isEmpty (q : Q) : Bool := q.head = 0

inductive Op where
  | push (item : Nat)
  | pop
  deriving DecidableEq

/-- A history: the popped items, and the final list; `none` when an assertion fails. -/
def run (q : Q) : List Op → Option (List Nat × Q)
  | [] => some ([], q)
  | .push i :: os => (push q i).bind fun q => run q os
  | .pop :: os => (run (pop q).2 os).map fun r => ((pop q).1 :: r.1, r.2)

end Verif.ListQ
