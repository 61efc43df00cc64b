/-!
# TCP connections and listeners

Model of `tcpConnect` and `TcpListener` in `src/cxy/stdlib/tcp.cxy` (48-59, 165-283).

The open descriptors of the process are a list. The answers of the system calls are parameters.
`errno`, the text of the exceptions, the back log and the options of the sockets other than
`O_NONBLOCK` are left out, and the calls in `configureSocket` succeed, as its assertions demand.
-/
namespace Verif.Tcp

/-- what `connect` says: 0, an error other than `EINPROGRESS`, or `EINPROGRESS` -/
inductive Conn where
  | done
  | refused
  | inProgress
  deriving DecidableEq, Repr

/-- runtime/native/ae.h: `AE_READABLE`, `AE_WRITABLE` -/
def readable : Int := 1
def writable : Int := 2

/-- The answers that `tcpConnect` can get. `connect` depends on whether the socket blocks; `wake` is
the result of `fdWaitWrite`; `error` is what `getsockopt` stores, nothing when it fails. -/
structure Dial where
  socket : Option Nat
  connect : (blocking : Bool) → Conn
  wake : Int
  error : Option Int

/-- the open descriptors, and those in non-blocking mode -/
structure Fds where
  opened : List Nat
  nonblocking : List Nat
  deriving DecidableEq, Repr

/-- tcp.cxy 48-59 `configureSocket` -/
def configure (w : Fds) (fd : Nat) : Fds := { w with nonblocking := fd :: w.nonblocking }

/-- `close(2)` -/
def Fds.close (w : Fds) (fd : Nat) : Fds := { w with opened := w.opened.erase fd }

/-- `socket(2)` and `accept(2)`: a new descriptor, which blocks -/
def Fds.new (w : Fds) (fd : Nat) : Fds :=
  { opened := fd :: w.opened, nonblocking := w.nonblocking.filter (· ≠ fd) }

/-- tcp.cxy 240-283 `tcpConnect`: the descriptor, or nothing when it raises. -/
def tcpConnect (d : Dial) (w : Fds) : Option Nat × Fds :=
  match d.socket with
  | none => (none, w)
  | some fd =>
    let w := w.new fd
    match d.connect (decide (fd ∉ w.nonblocking)) with
    | .done => (some fd, configure w fd)
    | .refused => (none, w)
    | .inProgress =>
      if d.wake ≠ writable then (none, w)
      else
        match d.error with
        | none => (none, w.close fd)
        | some e => if e ≠ 0 then (none, w.close fd) else (some fd, configure w fd)

/-! ## Listeners -/

/-- tcp.cxy 165-172: the descriptor (nothing for -1) and the port to be bound -/
structure Lst where
  fd : Option Nat
  port : Nat
  deriving DecidableEq, Repr

/-- The answers that `listen` can get; `name` is the port that `getsockname` tells. -/
structure Try where
  socket : Option Nat
  bind : Bool
  listen : Bool
  name : Option Nat
  deriving DecidableEq, Repr

/-- tcp.cxy 228-234 `shutdown`, 225-226 `close`, 236 `deinit` -/
def close (l : Lst) (w : Fds) : Lst × Fds :=
  match l.fd with
  | some fd => ({ l with fd := none }, w.close fd)
  | none => (l, w)

/-- tcp.cxy 174-202 `listen` -/
def listen (t : Try) (l : Lst) (w : Fds) : Bool × Lst × Fds :=
  let l := { l with fd := t.socket }
  match t.socket with
  | none => (false, l, w)
  | some fd =>
    let w := configure (w.new fd) fd
    if !t.bind then (false, close l w)
    else if !t.listen then (false, close l w)
    else if l.port = 0 then
      match t.name with
      | none => (false, close l w)
      | some p => (true, { l with port := p }, w)
    else (true, l, w)

/-- One turn of the loop of `accept`: a connection, nothing waiting (`EAGAIN`) or another error. While
it waits another thread may close the listener; `wake` is the result of `fdWaitRead`. -/
structure Round where
  answer : Option (Option Nat)
  closed : Bool
  wake : Int
  deriving DecidableEq, Repr

/-- the result of `accept`; `waiting` when the rounds do not tell how the wait ends -/
inductive Got where
  | conn (fd : Nat)
  | null
  | waiting
  deriving DecidableEq, Repr

/-- tcp.cxy 204-226 `accept` -/
def accept : List Round → Lst → Fds → Got × Lst × Fds
  | [], l, w => if l.fd.isSome then (.waiting, l, w) else (.null, l, w)
  | r :: rs, l, w =>
    if l.fd.isSome then
      match r.answer with
      | some (some fd) => (.conn fd, l, configure (w.new fd) fd)
      | some none => (.null, l, w)
      | none =>
        let (l, w) := if r.closed then close l w else (l, w)
        if r.wake ≠ readable then (.null, l, w) else accept rs l w
    else (.null, l, w)

/-- what a program does with a listener -/
inductive Op where
  | listen (t : Try)
  | accept (rs : List Round)
  | close
  deriving DecidableEq, Repr

/-- the operations in turn; `taken` are the connections handed out -/
def run : List Op → Lst → Fds → List Nat → Lst × Fds × List Nat
  | [], l, w, taken => (l, w, taken)
  | .listen t :: ops, l, w, taken =>
    let r := listen t l w
    run ops r.2.1 r.2.2 taken
  | .accept rs :: ops, l, w, taken =>
    let r := accept rs l w
    match r.1 with
    | .conn fd => run ops r.2.1 r.2.2 (fd :: taken)
    | _ => run ops r.2.1 r.2.2 taken
  | .close :: ops, l, w, taken =>
    let r := close l w
    run ops r.1 r.2 taken

end Verif.Tcp
