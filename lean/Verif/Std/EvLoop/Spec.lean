import Verif.Std.EvLoop.Timers
/-!
# Specification of the scheduler

What every coroutine is waiting for, the order of the ready ones, and the order of the deadlines; no list of timers, no records
of descriptors, no links.
-/
namespace Verif.EvLoop

/-- A coroutine is in exactly one of these. -/
inductive Status where
  | absent
  | running
  /-- ready; after a wait for a descriptor, that one and the result -/
  | ready (r : Option (Nat × Int))
  | sleeping (until_ : Int)
  | waiting (fd : Nat) (w : Bool) (until_ : Option Int)
  | parked
  deriving DecidableEq, Repr

def Status.deadline : Status → Option Int
  | .sleeping t => some t
  | .waiting _ _ t => t
  | _ => none

/-- What becomes of a coroutine whose deadline has passed. -/
def Status.expired : Status → Status
  | .sleeping _ => .ready none
  | .waiting fd _ _ => .ready (some (fd, 4))
  | s => s

structure Spec where
  /-- the one that runs, or ran last -/
  cur : Nat
  status : Nat → Status
  /-- the ready ones, first to run first -/
  queue : List Nat
  /-- those with a deadline, latest call first -/
  order : List Nat
  /-- who waits for a descriptor, until it goes on -/
  owner : Nat → Option Nat
  log : List (Nat × Option Int)
  clock : Int
  /-- descriptors of which the last wait with a timeout was ended by an event -/
  stale : List Nat

def Spec.start (main : Nat) (now : Int) : Spec where
  cur := main
  status := upd (fun _ => .absent) main .running
  queue := []
  order := []
  owner _ := none
  log := []
  clock := now
  stale := []

/-- An action of the running coroutine. -/
def Spec.act (a : Spec) (now : Int) : Act → Spec
  | .yield => { a with status := upd a.status a.cur (.ready none), queue := a.queue ++ [a.cur] }
  | .sleep ms => if ms > 0 then { a with status := upd a.status a.cur (.sleeping (now + ms)), order := a.cur :: a.order } else a
  | .wait fd w t =>
    if fd < 1024 then
      { a with
        status := upd a.status a.cur (.waiting fd w (if t > 0 then some (now + t) else none))
        order := if t > 0 then a.cur :: a.order else a.order
        owner := upd a.owner fd (some a.cur) }
    else a
  | .park => { a with status := upd a.status a.cur .parked }
  | .wake d => { a with status := upd a.status d (.ready none), queue := a.queue ++ [d] }
  | .spawn d => { a with status := upd (upd a.status a.cur (.ready none)) d .running, queue := a.queue ++ [a.cur], cur := d }
  | .finish => { a with status := upd a.status a.cur .absent }

/-- The descriptor `fd` is reported. -/
def Spec.fire (a : Spec) (fd : Nat) (e : Ev) : Spec :=
  match a.owner fd with
  | none => a
  | some c => { a with
      status := upd a.status c (.ready (some (fd, e.mask.val)))
      queue := a.queue ++ [c]
      order := a.order.filter fun x => decide (x ≠ c)
      stale := if (a.status c).deadline = none then a.stale else fd :: a.stale }

def Spec.fireAll (a : Spec) : List (Nat × Ev) → Spec
  | [] => a
  | (fd, e) :: rest => (a.fire fd e).fireAll rest

/-- Is the deadline of a coroutine past? -/
def late (clk : Nat → Int) (st : Nat → Status) (c : Nat) : Bool :=
  match (st c).deadline with
  | some t => decide (t ≤ clk c)
  | none => false

def Spec.expire (a : Spec) (clk : Nat → Int) : Spec :=
  { a with
    status := fun c => if late clk a.status c && decide (c ∈ a.order) then (a.status c).expired else a.status c
    queue := a.queue ++ a.order.filter (late clk a.status)
    order := a.order.filter fun c => !late clk a.status c
    stale := a.stale.filter fun fd => !(a.owner fd).any (late clk a.status) }

def Spec.poll (a : Spec) (p : Poll) : Spec := { (a.fireAll p.fired).expire p.clk with clock := p.now }

def Spec.switch (a : Spec) : Spec :=
  match a.queue with
  | [] => a
  | c :: q =>
    match a.status c with
    | .ready (some (fd, r)) =>
      { a with status := upd a.status c .running, cur := c, queue := q, owner := upd a.owner fd none, log := a.log ++ [(c, some r)] }
    | _ => { a with status := upd a.status c .running, cur := c, queue := q, log := a.log ++ [(c, none)] }

def Spec.step (a : Spec) : Event → Spec
  | .act x now => a.act now x
  | .poll p => a.poll p
  | .switch => a.switch

/-- What the program and its surroundings must keep to, for the theorem.

* Nobody else waits for the descriptor; and a wait without a timeout is not for one of which the last wait with a timeout was
  ended by an event.
* Only parked coroutines are resumed; a new coroutine is new.
* The clock is not set back; the kernel reports each descriptor once, one of a coroutine that still waits for it, and with an
  event that it waits for. -/
def Proper (a : Spec) : Event → Prop
  | .act x now => 0 ≤ now ∧
    match x with
    | .wait fd _ t => fd < 1024 → a.owner fd = none ∧ (t = 0 → fd ∉ a.stale)
    | .wake d => a.status d = .parked
    | .spawn d => d ≠ 0 ∧ a.status d = .absent
    | _ => True
  | .poll p => a.clock ≤ p.now ∧ (p.fired.map Prod.fst).Nodup ∧
    ∀ x ∈ p.fired, ∃ c w t, a.owner x.1 = some c ∧ a.status c = .waiting x.1 w t ∧ (if w then x.2.mask.w else x.2.mask.r) = true
  | .switch => True

end Verif.EvLoop
