import Verif.Common.Res
import Verif.Std.Str.Model
/-!
# Sockets and files

Model of `TcpSocket` in `src/cxy/stdlib/tcp.cxy` with `Socket.wait` in `src/cxy/stdlib/net.cxy`, and of the streams and the copying
of files in `src/cxy/stdlib/os.cxy` (on Linux).

The kernel is free: what it answers in each round of a loop is an argument, so a theorem for all lists of rounds is about every
kernel, network and peer. When the list is used up the call has not returned. Bytes are numbers. Sizes are below 2^63. Other
coroutines that use the same descriptor are left out. `MSG_` flags, signals and the buffers of the kernel are left out: a byte is
sent when the kernel has taken it.
-/
namespace Verif.StreamIO

/-- The values of `errno` that the code tells apart. -/
inductive Errno where
  | none | again | pipe | reset | timedOut | other
  deriving DecidableEq, Repr

/-- What a call to the kernel gives: a count, or -1 and `errno`. -/
inductive Ans where
  | count (n : Nat)
  | fail (e : Errno)
  deriving DecidableEq, Repr

/-- How `fdWaitRead` ends (coro.cxy 280–296, ae.c 709–718, 1120–1152): the event cannot be added; the reported events are given to
the callback only when the descriptor is readable, and are given whole, so a hang-up (ae.c 453) comes as readable and writable;
or the time is over. -/
inductive Wake where
  | failed | readable | hangup | timedOut
  deriving DecidableEq, Repr

/-- ae.h 8–18 -/
def Wake.value : Wake → Int
  | .failed => -1
  | .readable => 1
  | .hangup => 3
  | .timedOut => 4

/-- ae.h 16 `AE_READABLE` -/
def readableState : Int := 1

/-- ae.h 17 `AE_WRITABLE` -/
def writableState : Int := 2

/-- What happens in one round of a loop: the answer of the kernel; how the waiting ends, should there be one; and `errno` after it,
which other coroutines may have set. -/
structure Round where
  ans : Ans
  wake : Wake
  after : Errno
  deriving DecidableEq, Repr

/-- A connection: `fd != -1`, `errno`, the bytes the kernel has taken, and the bytes it has for us. -/
structure Sock where
  isOpen : Bool
  errno : Errno
  out : List Nat
  inp : List Nat
  deriving DecidableEq, Repr

/-- A `u64?`, or not returned. -/
inductive R where
  | some (n : Nat)
  | null
  | pending
  deriving DecidableEq, Repr

/-- net.cxy 495–521 `Socket.wait`: both states are waited for with `fdWaitRead` (502, 509). -/
def wait (state : Int) (r : Round) (s : Sock) : Bool × Sock :=
  if state = readableState then
    if r.wake.value ≠ readableState then (false, { s with errno := .timedOut }) else (true, { s with errno := r.after })
  else
    if r.wake.value ≠ writableState then (false, { s with errno := .timedOut }) else (true, { s with errno := r.after })

/-- net.cxy 481–486 `close` -/
def Sock.close (s : Sock) : Sock := { s with isOpen := false }

/-! ## Sending -/

/-- tcp.cxy 108–135 `sendBuffer`, with `total` bytes of `data` sent; the kernel takes no more than it is offered. -/
def sendLoop (data : List Nat) : List Round → Nat → Sock → R × Sock
  | rs, total, s =>
    if s.isOpen = true ∧ total < data.length then
      match rs with
      | [] => (.pending, s)
      | r :: rs =>
        let stuck (s : Sock) : R × Sock :=
          if s.errno = .pipe then (.null, { s.close with errno := .reset })
          else if s.errno ≠ .again then (.null, s)
          else if !(wait writableState r s).1 then (.null, (wait writableState r s).2)
          else sendLoop data rs total (wait writableState r s).2
        match r.ans with
        | .fail e => stuck { s with errno := e }
        | .count 0 => stuck s
        | .count (n + 1) =>
          let k := min (n + 1) (data.length - total)
          sendLoop data rs (total + k) { s with out := s.out ++ (data.drop total).take k }
    else (.some total, { s with errno := .none })

/-- tcp.cxy 108 -/
def sendBuffer (rs : List Round) (data : List Nat) (s : Sock) : R × Sock := sendLoop data rs 0 s

/-! ## Receiving -/

/-- tcp.cxy 70–106 `receive`: what the buffer holds so far is `got`. A count of 0, or of more than there is of an empty stream, is
the end of the stream. -/
def recvLoop (size : Nat) : List Round → List Nat → Sock → (R × List Nat) × Sock
  | rs, got, s =>
    if s.isOpen = true ∧ got.length < size then
      match rs with
      | [] => ((.pending, got), s)
      | r :: rs =>
        match r.ans with
        | .count n =>
          let k := min n (min (size - got.length) s.inp.length)
          if k = 0 then
            if 0 < got.length then ((.some got.length, got), s) else ((.null, got), s.close)
          else recvLoop size rs (got ++ s.inp.take k) { s with inp := s.inp.drop k }
        | .fail e =>
          let s := { s with errno := e }
          if e ≠ .again then
            if e = .reset then ((.null, got), s.close) else ((.null, got), s)
          else if 0 < got.length then ((.some got.length, got), s)
          else if !(wait readableState r s).1 then ((.null, got), (wait readableState r s).2)
          else recvLoop size rs got (wait readableState r s).2
    else ((.some got.length, got), s)

/-- tcp.cxy 70: the result with the bytes stored in the buffer. -/
def receive (rs : List Round) (size : Nat) (s : Sock) : (R × List Nat) × Sock := recvLoop size rs [] s

/-! ## Sending a part of a file -/

/-- What one `sendfile` takes: at most `count` bytes from `offset`, none at the end of the file. -/
def fileTakes (file : List Nat) (offset count n : Nat) : Nat := min n (min count (file.length - offset))

/-- tcp.cxy 137–162 `sendFile` with `Socket_sendfile` (28–35): `*off` gets the new offset only when nothing was sent. -/
def sendFileLoop (file : List Nat) (toffset : Nat) : List Round → (offset remaining : Nat) → Sock → R × Sock
  | rs, offset, remaining, s =>
    if toffset > offset then
      match rs with
      | [] => (.pending, s)
      | r :: rs =>
        let stuck (s : Sock) : R × Sock :=
          if s.errno = .pipe then (.null, { s.close with errno := .reset })
          else if s.errno ≠ .again then (.null, s)
          else if !(wait writableState r s).1 then (.null, (wait writableState r s).2)
          else sendFileLoop file toffset rs offset remaining (wait writableState r s).2
        match r.ans with
        | .fail e => stuck { s with errno := e }
        | .count n =>
          let sz := fileTakes file offset remaining n
          let newOffset := if sz = 0 then offset + sz else offset
          if sz = 0 then stuck s
          else sendFileLoop file toffset rs newOffset (remaining - sz) { s with out := s.out ++ (file.drop offset).take sz }
    else (.some remaining, { s with errno := .none })

/-- tcp.cxy 137, 161: the value of a successful call is `count`. -/
def sendFile (rs : List Round) (file : List Nat) (offset count : Nat) (s : Sock) : R × Sock :=
  match sendFileLoop file (offset + count) rs offset count s with
  | (.some _, s) => (.some count, s)
  | r => r

/-! ## Files -/

/-- The outcome of a function that may raise, stop in an assertion, or not have returned. -/
inductive F (β : Type) where
  | ok (b : β)
  | raised
  | abort
  | ub
  | pending
  deriving DecidableEq, Repr

/-- os.cxy 250–279 `copy` between two descriptors: `sendfile` moves `copied` on, and so does line 273. Returns what was written.
A count of 0 is handled like -1; the `errno` it looks at then is `stale`. -/
def copyLoop (src : List Nat) (stale : Errno) : List Round → (copied : Nat) → (dst : List Nat) → F (List Nat)
  | rs, copied, dst =>
    if copied < src.length then
      match rs with
      | [] => .pending
      | r :: rs =>
        let stuck (e : Errno) : F (List Nat) :=
          if e = .again then
            if r.wake.value ≠ readableState then .raised else copyLoop src stale rs copied dst
          else .raised
        match r.ans with
        | .fail e => stuck e
        | .count n =>
          let sz := fileTakes src copied (src.length - copied) n
          if sz = 0 then stuck stale
          else copyLoop src stale rs (copied + sz + sz) (dst ++ (src.drop copied).take sz)
    else .ok dst

/-- os.cxy 250 -/
def copy (rs : List Round) (src : List Nat) (stale : Errno) : F (List Nat) := copyLoop src stale rs 0 []

/-- os.cxy 331–350 `readAsync(os)`: `got` was given to the stream, `rest` is still to be read, 4092 bytes at a time. -/
def readAsyncLoop : List Round → (rest got : List Nat) → F (List Nat)
  | [], _, _ => .pending
  | r :: rs, rest, got =>
    match r.ans with
    | .fail e =>
      if e = .again then
        if r.wake.value ≠ readableState then .raised else readAsyncLoop rs rest got
      else .raised
    | .count n =>
      let k := min n (min 4092 rest.length)
      if k = 0 then .ok got else readAsyncLoop rs (rest.drop k) (got ++ rest.take k)

/-- os.cxy 358–363 `readAsync()` -/
def readAsync (rs : List Round) (file : List Nat) : F (List Nat) := readAsyncLoop rs file []

/-- os.cxy 397–408 `readAll(os)`: a failed read is `None`, whose value is 0 (builtins.cxy 207–217); `*tmp < 0` is never true. -/
def readAllLoop : List Round → (rest got : List Nat) → F (List Nat)
  | [], _, _ => .pending
  | r :: rs, rest, got =>
    match r.ans with
    | .fail _ => .ok got
    | .count n =>
      let k := min n (min 4092 rest.length)
      if k = 0 then .ok got else readAllLoop rs (rest.drop k) (got ++ rest.take k)

/-- os.cxy 384–392: reading a regular file of `size` bytes into a reserved buffer. -/
def fillLoop (size : Nat) : List Round → (rest got : List Nat) → F (List Nat)
  | rs, rest, got =>
    if got.length < size then
      match rs with
      | [] => .pending
      | r :: rs =>
        match r.ans with
        | .fail _ => .raised
        | .count n =>
          let k := min n (min (size - got.length) rest.length)
          fillLoop size rs (rest.drop k) (got ++ rest.take k)
    else .ok got

/-- From an outcome of the model of strings. -/
def F.ofOut {β : Type} : Str.Out β → F β
  | .ok b => .ok b
  | .abort => .abort
  | .ub => .ub
  | .diverge => .pending

def F.bind {β γ : Type} : F β → (β → F γ) → F γ
  | .ok b, f => f b
  | .raised, _ => .raised
  | .abort, _ => .abort
  | .ub, _ => .ub
  | .pending, _ => .pending

/-- os.cxy 366–395 `readAll()` of a file with the content `file`, whose size `fstat` gives as `size` (the file may have changed by
the time it is read). `reserve` and `resize` are those of `String`; the bytes read are in the reserved memory. -/
def readAll (rs : List Round) (regular : Bool) (size : Nat) (file : List Nat) : F (List Nat) :=
  if size > 1048576 then .raised
  else if !regular then readAllLoop rs file []
  else if size = 0 then .ok []
  else
    (F.ofOut (Str.grow Str.S.new size)).bind fun s =>
    (fillLoop size rs file []).bind fun got =>
    (F.ofOut (Str.copyIn s s.size got)).bind fun s =>
    (F.ofOut (Str.resize s got.length)).bind fun _ => .ok got

/-- os.cxy 468–486 `writeAsync` with `append` (454–463): waits with `fdWaitRead` and asks for `AE_WRITABLE` (475–476). The count
returned and the bytes written. -/
def writeLoop (data : List Nat) : List Round → (written : Nat) → (out : List Nat) → F Nat × List Nat
  | rs, written, out =>
    if written < data.length then
      match rs with
      | [] => (.pending, out)
      | r :: rs =>
        match r.ans with
        | .fail e =>
          if e = .again then
            if r.wake.value ≠ writableState then (.raised, out) else writeLoop data rs written out
          else (.raised, out)
        | .count n =>
          let k := min n (data.length - written)
          writeLoop data rs (written + k) (out ++ (data.drop written).take k)
    else (.ok written, out)

def writeAsync (rs : List Round) (data : List Nat) : F Nat × List Nat := writeLoop data rs 0 []

end Verif.StreamIO
