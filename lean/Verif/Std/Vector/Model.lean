import Verif.Common.Mem
import Verif.Common.Res
/-!
# Model of `src/cxy/stdlib/vector.cxy`

Elements are abstract values, moved in and out; a cell that was never written holds `none`.  `room` is the
number of cells really allocated and every access is checked against it.  Allocation succeeds and sizes are
below 2^64.  Destructor calls on elements are not modelled.
-/
namespace Verif.Vector

variable {α : Type}

/-- vector.cxy 6-8 -/
structure Vec (α : Type) where
  size : Nat
  capacity : Nat
  room : Nat
  mem : Nat → Option α

/-- A value, a failed `assert!`, or undefined behaviour. -/
inductive Out (β : Type) where
  | ok (b : β)
  | abort
  | ub
  deriving DecidableEq, Repr

def Out.bind {β γ : Type} : Out β → (β → Out γ) → Out γ
  | .ok b, f => f b
  | .abort, _ => .abort
  | .ub, _ => .ub

/-- vector.cxy 28-32 `init` -/
def new (α : Type) (initialSize : Nat) : Vec α := ⟨0, initialSize, initialSize, fun _ => none⟩

/-- vector.cxy 18-26 `grow` -/
def grow (v : Vec α) : Vec α :=
  if v.size ≥ v.capacity then
    { v with capacity := v.capacity + v.capacity / 2, room := v.capacity + v.capacity / 2 }
  else v

/-- vector.cxy 44-48 `push` -/
def push (v : Vec α) (x : α) : Out (Vec α) :=
  let v := grow v
  if v.size < v.room then .ok { v with mem := upd v.mem v.size (some x), size := v.size + 1 } else .ub

/-- A read of an element. -/
def read (v : Vec α) (i : Nat) : Out α :=
  if i < v.room then
    match v.mem i with
    | some x => .ok x
    | none => .ub
  else .ub

/-- vector.cxy 50-54 `pop` -/
def pop (v : Vec α) : Out (α × Vec α) :=
  if v.size > 0 then (read v (v.size - 1)).bind fun x => .ok (x, { v with size := v.size - 1 }) else .abort

/-- vector.cxy 56-63 `shift`: `memmove` of all but the first element. -/
def shift (v : Vec α) : Out (α × Vec α) :=
  if v.size > 0 then
    (read v 0).bind fun x =>
      if v.size ≤ v.room then
        .ok (x, { v with size := v.size - 1, mem := fun i => if i < v.size - 1 then v.mem (i + 1) else v.mem i })
      else .ub
  else .abort

/-- vector.cxy 65-74 `resize`: `realloc` keeps the cells that remain. -/
def resize (v : Vec α) (n : Nat) : Vec α :=
  { v with size := if n < v.size then n else v.size, capacity := n, room := n }

/-- vector.cxy 76-79 `shrink` -/
def shrink (v : Vec α) : Vec α := resize v v.size

/-- vector.cxy 81-94: `index < _size` compares an `i32` with a `u64`; the `i32` is sign-extended and compared
unsigned (`backend/llvm/binary.cpp` 93-115). -/
def inRange (v : Vec α) (i : Int) : Bool := decide ((i % 2 ^ 64).toNat < v.size)

/-- vector.cxy 81-89 `[]` -/
def get (v : Vec α) (i : Int) : Out α := if inRange v i then read v (i % 2 ^ 64).toNat else .abort

/-- vector.cxy 91-94 `[]=` -/
def set (v : Vec α) (i : Int) (x : α) : Out (Vec α) :=
  if inRange v i then
    if (i % 2 ^ 64).toNat < v.room then .ok { v with mem := upd v.mem (i % 2 ^ 64).toNat (some x) } else .ub
  else .abort

/-- The loops `for (var i: 0.._size)`, whose counter is an `i64`: the elements they see. -/
def elems (v : Vec α) : Nat → Nat → Out (List α)
  | 0, _ => .ok []
  | n + 1, i => (read v i).bind fun x => (elems v n (i + 1)).bind fun xs => .ok (x :: xs)

/-- vector.cxy 120-124 `each`: the elements given to the callback, in order. -/
def each (v : Vec α) : Out (List α) := elems v v.size 0

def pushAll (v : Vec α) : List α → Out (Vec α)
  | [] => .ok v
  | x :: xs => (push v x).bind fun v => pushAll v xs

/-- vector.cxy 126-131 `accumulate` -/
def accumulate {β : Type} (f : β → α → β) (acc : β) (v : Vec α) : Out β := (each v).bind fun xs => .ok (xs.foldl f acc)

/-- vector.cxy 133-140 `filter`; line 3: the default capacity is 16. -/
def filter (p : α → Bool) (v : Vec α) : Out (Vec α) := (each v).bind fun xs => pushAll (new α 16) (xs.filter p)

/-- vector.cxy 142-148 `map` -/
def map {β : Type} (f : α → β) (v : Vec α) : Out (Vec β) := (each v).bind fun xs => pushAll (new β 16) (xs.map f)

/-- vector.cxy 150-156 `find` -/
def findFrom (p : α → Bool) (v : Vec α) : Nat → Nat → Out (Option (Nat × α))
  | 0, _ => .ok none
  | n + 1, i => (read v i).bind fun x => if p x then .ok (some (i, x)) else findFrom p v n (i + 1)

def find (p : α → Bool) (v : Vec α) : Out (Option (Nat × α)) := findFrom p v v.size 0

/-- The operations of a history. -/
inductive Op (α : Type) where
  | push (x : α)
  | pop
  | shift
  | resize (n : Nat)
  | shrink
  | get (i : Int)
  | set (i : Int) (x : α)
  | size

/-- What an operation returns. -/
inductive Ret (α : Type) where
  | unit
  | val (x : α)
  | num (n : Nat)

def step (v : Vec α) : Op α → Out (Ret α × Vec α)
  | .push x => (push v x).bind fun v => .ok (.unit, v)
  | .pop => (pop v).bind fun r => .ok (.val r.1, r.2)
  | .shift => (shift v).bind fun r => .ok (.val r.1, r.2)
  | .resize n => .ok (.unit, resize v n)
  | .shrink => .ok (.unit, shrink v)
  | .get i => (get v i).bind fun x => .ok (.val x, v)
  | .set i x => (set v i x).bind fun v => .ok (.unit, v)
  | .size => .ok (.num v.size, v)

/-- A history; it ends at the first failed assertion. -/
def run (v : Vec α) : List (Op α) → Out (List (Ret α) × Vec α)
  | [] => .ok ([], v)
  | o :: os => (step v o).bind fun r => (run r.2 os).bind fun s => .ok (r.1 :: s.1, s.2)

end Verif.Vector
