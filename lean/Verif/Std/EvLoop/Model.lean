import Verif.Common.Res
import Verif.Common.Out
import Verif.Std.ListQ.Model
/-!
# The event loop and the coroutine scheduler

Model of `src/cxy/stdlib/native/evloop/ae.c` (timers, file events, `aeProcessEvents`, the epoll part of `aeApiPoll`) and of
`CoroutineScheduler` in `src/cxy/stdlib/coro.cxy`.

Records have names here and not addresses: `.fd n` is `events[n]`, `.heap k` is the k-th record that `malloc` gave; addresses
are not given twice.  The clock is a number of milliseconds, read by the caller.  What the kernel reports is an argument of
each poll.  `malloc` and `epoll_ctl` do not fail.  The stacks of the coroutines are in `Std/Coro.lean`; saving and restoring
registers is not modelled: to switch to a coroutine is to run the next action of its program.
-/
namespace Verif.EvLoop

/-- A timer record: that of a descriptor (`aeFileEvent.timer`) or one of its own (`aeTimeEvent`), ae.h 66-82. -/
inductive Node where
  | fd (n : Nat)
  | heap (k : Nat)
  deriving DecidableEq, Repr

/-- One store into a field of a record. -/
def set {α : Type} (f : Node → α) (n : Node) (v : α) : Node → α := fun m => if m = n then v else f m

/-- `when_sec` and `when_ms` -/
structure Tm where
  sec : Int
  ms : Int
  deriving DecidableEq, Repr

/-- `AE_READABLE`, `AE_WRITABLE`; `AE_BARRIER` is never used. -/
structure Mask where
  r : Bool
  w : Bool
  deriving DecidableEq, Repr

def Mask.none : Mask := ⟨false, false⟩

/-- One of the two. -/
def Mask.only (w : Bool) : Mask := ⟨!w, w⟩

/-- The mask as a number. -/
def Mask.val (m : Mask) : Int := (if m.r then 1 else 0) + (if m.w then 2 else 0)

/-- ae.h 18 `AE_TIMEOUT` -/
def timedOut : Int := 4

/-- ae.h 93-106 `aeEventLoop`; `maxfd` only saves the call of `epoll_wait` when there are no descriptors and is left out. -/
structure Loop where
  head : Option Node
  prev : Node → Option Node
  next : Node → Option Node
  due : Node → Tm
  /-- -1: `AE_DELETED_EVENT_ID` -/
  tid : Node → Int
  client : Node → Nat
  mask : Nat → Mask
  freed : Node → Bool
  nextId : Int
  nextHeap : Nat
  last : Int

/-- coro.cxy 138: the size of `events`. -/
def setsize : Nat := 1024

/-- ae.c 720-755 `aeCreateEventLoop` at the time `now`. The memory of `events` comes from `malloc`, and only the masks are
set: `due`, `prev` and `next` are what it holds. -/
def create (now : Int) (due : Node → Tm) (prev next : Node → Option Node) : Loop where
  head := none
  prev := prev
  next := next
  due := due
  tid _ := 0
  client _ := 0
  mask _ := .none
  freed _ := false
  nextId := 0
  nextHeap := 0
  last := now / 1000

/-- ae.c 670-683 `aeAddMillisecondsToNow`, 868-875 `aeGetTime` -/
def after (now : Int) (ms : Nat) : Tm :=
  let s := now / 1000 + ms / 1000
  let m := now % 1000 + ms % 1000
  if m ≥ 1000 then ⟨s + 1, m - 1000⟩ else ⟨s, m⟩

/-- ae.c 685-697 `aeAddTimeEvent` -/
def add (s : Loop) (n : Node) (now : Int) (ms : Nat) : Res Loop :=
  let s1 := { s with tid := set s.tid n s.nextId, nextId := s.nextId + 1, due := set s.due n (after now ms),
                     next := set s.next n s.head, head := some n }
  match s.head with
  | none => .ok { s1 with prev := set s.prev n none }
  | some h => if s.freed h then .ub else .ok { s1 with prev := set (set s.prev n none) h (some n) }

/-- ae.c 699-707 `aeRemoveTimerEvent` -/
def unlink (s : Loop) (n : Node) : Res Loop :=
  match s.prev n, s.next n with
  | some p, some q =>
    if s.freed p || s.freed q then .ub else .ok { s with next := set s.next p (some q), prev := set s.prev q (some p) }
  | some p, none => if s.freed p then .ub else .ok { s with next := set s.next p none }
  | none, some q => if s.freed q then .ub else .ok { s with head := some q, prev := set s.prev q none }
  | none, none => .ok { s with head := none }

/-- ae.c 897-914 `aeCreateTimeEvent` -/
def createTimer (s : Loop) (now : Int) (ms : Nat) (client : Nat) : Res Loop :=
  let n := Node.heap s.nextHeap
  add { s with client := set s.client n client, nextHeap := s.nextHeap + 1 } n now ms

/-- ae.c 801-831 `aeCreateFileEvent` for one direction and a descriptor below `setsize` -/
def createFile (s : Loop) (fd : Nat) (w : Bool) (client : Nat) (now : Int) (timeout : Nat) : Res Loop :=
  let t := if timeout > 0 then add s (.fd fd) now timeout else .ok s
  t.map fun s => { s with
    mask := upd s.mask fd ⟨(s.mask fd).r || !w, (s.mask fd).w || w⟩
    client := set s.client (.fd fd) client }

/-- ae.c 833-857 `aeDeleteFileEvent` for one direction -/
def deleteFile (s : Loop) (fd : Nat) (w : Bool) : Loop :=
  { s with mask := upd s.mask fd ⟨(s.mask fd).r && w, (s.mask fd).w && !w⟩ }

/-- The events of one descriptor in `struct epoll_event`. -/
structure Ev where
  inp : Bool
  out : Bool
  err : Bool
  hup : Bool
  deriving DecidableEq, Repr

/-- ae.c 443-457: the mask that is made of them. -/
def Ev.mask (e : Ev) : Mask := ⟨e.inp, e.out || e.err || e.hup⟩

/-- ae.c 1120-1172: one fired descriptor. Both callbacks are `eventLoopCallback` (coro.cxy 183-190), so at most one is
called; it resumes the coroutine of the record with the mask as the result. -/
def fireOne (s : Loop) (fd : Nat) (e : Ev) : Res (Loop × List (Nat × Int)) :=
  let t := if (s.due (.fd fd)).sec > 0 ∨ (s.due (.fd fd)).ms > 0 then unlink s (.fd fd) else .ok s
  t.map fun s => (s, if ((s.mask fd).r && e.mask.r) || ((s.mask fd).w && e.mask.w) then [(s.client (.fd fd), e.mask.val)] else [])

/-- ae.c 1120 -/
def fireAll (s : Loop) : List (Nat × Ev) → Res (Loop × List (Nat × Int))
  | [] => .ok (s, [])
  | (fd, e) :: rest =>
    (fireOne s fd e).bind fun x => (fireAll x.1 rest).map fun y => (y.1, x.2 ++ y.2)

/-- ae.c 971-977: all timers are made due. -/
def hurry : Nat → Loop → Option Node → Res Loop
  | _, s, none => .ok s
  | 0, _, some _ => .diverge
  | f + 1, s, some n =>
    if s.freed n then .ub else hurry f { s with due := set s.due n ⟨0, (s.due n).ms⟩ } (s.next n)

/-- ae.c 1012-1013 -/
def isDue (now : Int) (t : Tm) : Bool := decide (now / 1000 > t.sec) || (decide (now / 1000 = t.sec) && decide (now % 1000 ≥ t.ms))

/-- ae.c 980-1033: the timers from `n` on. `clk c` is the clock when the timer of the coroutine `c` is looked at. The callback
of a timer (coro.cxy 192-199) resumes the coroutine and asks for no more; that of a descriptor gets `AE_TIMEOUT`
(ae.c 709-718 `aeFileEventTimeout`). -/
def pass (maxId : Int) (clk : Nat → Int) : Nat → Loop → Option Node → Res (Loop × List (Nat × Int))
  | _, s, none => .ok (s, [])
  | 0, _, some _ => .diverge
  | f + 1, s, some n =>
    if s.freed n then .ub
    else if s.tid n = -1 then
      let next := s.next n
      (unlink s n).bind fun s => pass maxId clk f { s with freed := set s.freed n true } next
    else if s.tid n > maxId then pass maxId clk f s (s.next n)
    else if isDue (clk (s.client n)) (s.due n) then
      match n with
      | .heap _ =>
        (pass maxId clk f { s with tid := set s.tid n (-1) } (s.next n)).map fun y => (y.1, (s.client n, s.tid n) :: y.2)
      | .fd d =>
        (unlink s n).bind fun s1 =>
          let s2 := { s1 with due := set s1.due n ⟨0, 0⟩, mask := upd s1.mask d .none }
          (pass maxId clk f s2 (s2.next n)).map fun y =>
            (y.1, (if (s.mask d).r || (s.mask d).w then [(s.client n, timedOut)] else []) ++ y.2)
    else pass maxId clk f s (s.next n)

/-- What happens at one call of `aeProcessEvents`: the reported descriptors, the time after it, and the clock during the pass
over the timers. -/
structure Poll where
  fired : List (Nat × Ev)
  now : Int
  clk : Nat → Int

/-- ae.c 956-1035 `processTimeEvents` -/
def timers (f : Nat) (s : Loop) (p : Poll) : Res (Loop × List (Nat × Int)) :=
  let t := if p.now / 1000 < s.last then hurry f s s.head else .ok s
  t.bind fun s => pass (s.nextId - 1) p.clk f { s with last := p.now / 1000 } s.head

/-- ae.c 1051-1179 `aeProcessEvents` with both flags: the coroutines to resume, in order. -/
def process (f : Nat) (s : Loop) (p : Poll) : Res (Loop × List (Nat × Int)) :=
  (fireAll s p.fired).bind fun x => (timers f x.1 p).map fun y => (y.1, x.2 ++ y.2)

/-- ae.c 940-953 `aeSearchNearestTimer` -/
def nearest : Nat → Loop → Option Node → Option Node → Res (Option Node)
  | _, _, none, b => .ok b
  | 0, _, some _, _ => .diverge
  | f + 1, s, some n, b =>
    if s.freed n then .ub
    else
      let better := match b with
        | none => true
        | some m => (s.due n).sec < (s.due m).sec ∨ ((s.due n).sec = (s.due m).sec ∧ (s.due n).ms < (s.due m).ms)
      nearest f s (s.next n) (if better then some n else b)

/-- ae.c 1072-1110 and 435-438: how many milliseconds the poll may take, `none` being for ever; `wait` is false for the
`AE_DONT_WAIT` of a zero timeout, otherwise the timeout is -1 (coro.cxy 174-181, 203, 223). -/
def patience (f : Nat) (s : Loop) (wait : Bool) (now : Int) : Res (Option Int) :=
  if wait then
    (nearest f s s.head none).map fun b =>
      match b with
      | none => none
      | some n =>
        let ms := ((s.due n).sec - now / 1000) * 1000 + (s.due n).ms - now % 1000
        some (if ms > 0 then ms / 1000 * 1000 + ms % 1000 * 1000 / 1000 else 0)
  else .ok (some 0)

/-! ## The scheduler -/

/-- In a coroutine; at the start of `suspend`; in its loop. -/
inductive Phase where
  | run
  | enter
  | loop
  deriving DecidableEq, Repr

/-- coro.cxy 76-85, 120-133; `flag`, `result` are fields of the coroutines, `pending` the descriptor and direction that a coroutine
has to delete when it goes on (coro.cxy 273-275, 291-293), and `log` (not in the code) the coroutines that were switched
to, with what their call returns if it is a wait for a descriptor. -/
structure Sys where
  loop : Loop
  ready : Verif.ListQ.Q
  running : Nat
  counter : Nat
  phase : Phase
  flag : Nat → Bool
  result : Nat → Int
  pending : Nat → Option (Nat × Bool)
  log : List (Nat × Option Int)

/-- coro.cxy 135-139: the scheduler, with the main coroutine `main` running. -/
def start (main : Nat) (now : Int) (due : Node → Tm) (prev next : Node → Option Node) : Sys where
  loop := create now due prev next
  ready := Verif.ListQ.empty
  running := main
  counter := 0
  phase := .run
  flag _ := false
  result _ := 0
  pending _ := none
  log := []

/-- What a coroutine does next: `coroYield`, `sleepAsync`, `fdWaitRead` or `fdWaitWrite`, `coroSuspend`, `coroResume`, `async`,
or its end. -/
inductive Act where
  | yield
  | sleep (ms : Nat)
  | wait (fd : Nat) (w : Bool) (timeout : Nat)
  | park
  | wake (c : Nat)
  | spawn (c : Nat)
  | finish
  deriving DecidableEq, Repr

/-- coro.cxy 229-233 `resume`; the failed assertion of `push` aborts. -/
def resume (s : Sys) (c : Nat) (r : Int) : Out Sys :=
  match Verif.ListQ.push s.ready c with
  | some q => .ok { s with flag := upd s.flag c true, result := upd s.result c r, ready := q }
  | none => .abort

def resumeAll (s : Sys) : List (Nat × Int) → Out Sys
  | [] => .ok s
  | (c, r) :: rest => (resume s c r).bind fun s => resumeAll s rest

/-- Outcomes of the event loop as outcomes of the program. -/
def lift {α : Type} : Res α → Out α
  | .ok a => .ok a
  | .ub => .ub
  | .diverge => .diverge

/-- coro.cxy 235-238 `yld`, 298-310 `sleep`, 262-296 `fdWaitWrite`, `fdWaitRead`, 240-251 `prologue`, 253-260 `epilogue`, up to
the call of `suspend`. A descriptor out of range is refused at once. -/
def act (s : Sys) (now : Int) : Act → Out Sys
  | .yield => (resume s s.running 0).bind fun s => .ok { s with phase := .enter }
  | .sleep ms =>
    if ms > 0 then (lift (createTimer s.loop now ms s.running)).bind fun l => .ok { s with loop := l, phase := .enter }
    else .ok s
  | .wait fd w t =>
    if fd < setsize then
      (lift (createFile s.loop fd w s.running now t)).bind fun l =>
        .ok { s with loop := l, pending := upd s.pending s.running (some (fd, w)), phase := .enter }
    else .ok s
  | .park => .ok { s with phase := .enter }
  | .wake c => resume s c 0
  | .spawn c =>
    (resume { s with ready := { s.ready with link := upd s.ready.link c 0 }, flag := upd s.flag c false, pending := upd s.pending c none }
      s.running 0).bind fun s => .ok { s with running := c }
  | .finish => .ok { s with running := 0, phase := .enter }

/-- coro.cxy 174-181 `eventLoopWait` and 202-205, 223-224 -/
def poll (f : Nat) (s : Sys) (p : Poll) : Out Sys :=
  (lift (process f s.loop p)).bind fun x =>
    (resumeAll { s with loop := x.1 } x.2).bind fun s => .ok { s with counter := 0, phase := .loop }

/-- coro.cxy 214-221, then 208-210, then what the coroutine does after its call of `suspend`. -/
def switch (s : Sys) : Out Sys :=
  let r := Verif.ListQ.pop s.ready
  let c := r.1
  if s.flag c then
    .ok { s with
      ready := r.2
      counter := s.counter + 1
      flag := upd s.flag c false
      running := c
      phase := .run
      loop := match s.pending c with | some (fd, w) => deleteFile s.loop fd w | none => s.loop
      pending := upd s.pending c none
      log := s.log ++ [(c, (s.pending c).map fun _ => s.result c)] }
  else .abort

inductive Event where
  | act (a : Act) (now : Int)
  | poll (p : Poll)
  | switch

def step (f : Nat) (s : Sys) : Event → Out Sys
  | .act a now => act s now a
  | .poll p => poll f s p
  | .switch => switch s

def run (f : Nat) (s : Sys) : List Event → Out Sys
  | [] => .ok s
  | e :: es => (step f s e).bind fun s => run f s es

/-- coro.cxy 201-227 `suspend`: what comes next. A coroutine goes on until it suspends; then, after 103 switches, the event loop
is asked without waiting; then the first ready coroutine runs, or the event loop is asked if there is none. -/
def Turn (s : Sys) : Event → Prop
  | .act _ _ => s.phase = .run
  | .poll _ => s.phase = .enter ∧ s.counter ≥ 103 ∨ s.phase ≠ .run ∧ s.ready.head = 0
  | .switch => s.ready.head ≠ 0 ∧ (s.phase = .loop ∨ s.phase = .enter ∧ s.counter < 103)

end Verif.EvLoop
