import Verif.Common.Mem
import Verif.Std.StreamIO.Model
/-!
# Processes

Model of `Process` and `execvpe` in `src/cxy/stdlib/os.cxy` (on Linux): the pipes between a program and the one it starts, and what is
reported about its end.

A table of descriptors says what each descriptor stands for. Pipes are numbered and never full; a pipe holds the bytes written and
not yet read. `execvp` keeps the table (no descriptor is closed on exec) and succeeds.
-/
namespace Verif.Proc
open StreamIO (Wake)

/-- What a descriptor stands for. -/
inductive End where
  | rd (pipe : Nat)
  | wr (pipe : Nat)
  | file (n : Nat)
  deriving DecidableEq, Repr

abbrev Table := Nat → Option End

/-- `pipe(fds)`: the first descriptor is for reading, the second for writing. -/
def pipe (t : Table) (fds : Nat × Nat) (p : Nat) : Table := upd (upd t fds.1 (some (.rd p))) fds.2 (some (.wr p))

/-- `dup2(a, b)` -/
def dup2 (t : Table) (a b : Nat) : Table := upd t b (t a)

/-- `close(a)` -/
def close (t : Table) (a : Nat) : Table := upd t a none

/-- The descriptors the kernel chose for the pipes `input`, `out` and `err`, and the numbers of the pipes. -/
structure Start where
  input : Nat × Nat
  out : Nat × Nat
  err : Nat × Nat
  pin : Nat
  pout : Nat
  perr : Nat
  deriving DecidableEq, Repr

/-- os.cxy 618–623: the table after the three `pipe`s. -/
def opened (t : Table) (k : Start) : Table := pipe (pipe (pipe t k.input k.pin) k.out k.pout) k.err k.perr

/-- os.cxy 631–636: the table of the child. -/
def child (t : Table) (k : Start) : Table :=
  let t := opened t k
  let t := dup2 t k.input.2 0
  let t := dup2 t k.out.2 1
  let t := dup2 t k.err.2 2
  let t := close t k.input.1
  let t := close t k.out.1
  close t k.err.1

/-- os.cxy 644–646: the table of the parent. -/
def parent (t : Table) (k : Start) : Table :=
  close (close (close (opened t k) k.input.2) k.out.2) k.err.2

/-- os.cxy 647, 505–510: the descriptors of the `Process`: `_fdin`, `_fdout`, `_fderr`. -/
def fdin (k : Start) : Nat := k.input.1
def fdout (k : Start) : Nat := k.out.1
def fderr (k : Start) : Nat := k.err.1

/-- Pipes and what they hold. -/
abbrev Pipes := Nat → List Nat

/-- `write(fd, bytes)`: `none` is `EBADF`. -/
def write (t : Table) (fd : Nat) (bytes : List Nat) (w : Pipes) : Option Pipes :=
  match t fd with
  | some (.wr p) => some (upd w p (w p ++ bytes))
  | some (.file _) => some w
  | _ => none

/-- Reading all there is: `none` is `EBADF`. Files are not the matter here. -/
def read (t : Table) (fd : Nat) (w : Pipes) : Option (List Nat) :=
  match t fd with
  | some (.rd p) => some (w p)
  | some (.file _) => some []
  | _ => none

/-- Several programs started one after another: the table of the parent in the end, and the tables of the children. -/
def starts : Table → List Start → Table × List Table
  | t, [] => (t, [])
  | t, k :: ks => ((starts (parent t k) ks).1, child t k :: (starts (parent t k) ks).2)

/-! ## The end of a process -/

/-- How a process ended: with an exit code, or by a signal, with or without a core dump. -/
inductive Ending where
  | exited (code : Nat)
  | killed (signal : Nat) (core : Bool)
  deriving DecidableEq, Repr

/-- The status `waitpid` gives (bits/waitstatus.h). -/
def status : Ending → Nat
  | .exited c => (c % 256) * 256
  | .killed s core => s % 128 + if core then 128 else 0

/-- os.cxy 117–119 `WIFEXITED`: `0177` is decimal in cxy (lexer.c 621–646: only `0b`, `0x` and `0o` change the base). -/
def wifexited (st : Nat) : Bool := (st &&& 177) = 0

/-- os.cxy 120 `WEXITSTATUS` -/
def wexitstatus (st : Nat) : Nat := (st >>> 8) &&& 255

/-- A child as the kernel knows it. -/
inductive Life where
  | running
  | ended (e : Ending)
  | reaped
  deriving DecidableEq, Repr

/-- `waitpid(pid, &status, WNOHANG)`: -1 if there is no such child, 0 if it runs, else its number; `status` is written in the last case
only. -/
inductive Waited where
  | none
  | running
  | status (st : Nat)
  deriving DecidableEq, Repr

def waitpid (l : Life) : Waited × Life :=
  match l with
  | .running => (.running, .running)
  | .ended e => (.status (status e), .reaped)
  | .reaped => (.none, .reaped)

/-- os.cxy 562–572 `wait`, of a process that has ended when it returns: `none` is raised. -/
def wait (l : Life) : Option Int × Life :=
  match waitpid l with
  | (.none, l) => (none, l)
  | (.running, l) => (none, l)
  | (.status st, l) => (some (if wifexited st then (wexitstatus st : Int) else -1), l)

/-- os.cxy 554–560 `isExited` -/
def isExited (l : Life) : Bool × Life :=
  match waitpid l with
  | (.none, l) => (true, l)
  | (.running, l) => (false, l)
  | (.status st, l) => (wifexited st, l)

/-- os.cxy 574–604 `waitAsync`, with `then_` the state of the process after the waiting, whose result is not looked at (line 593). The
status is 0 until `waitpid` writes it. -/
def waitAsync (l : Life) (_ : Wake) (then_ : Life) : Option Int × Life :=
  let result (st : Nat) : Int := if wifexited st then (wexitstatus st : Int) else -1
  match waitpid l with
  | (.none, l) => (none, l)
  | (.status st, l) => (some (result st), l)
  | (.running, _) =>
    match waitpid then_ with
    | (.none, l) => (none, l)
    | (.running, l) => (some (result 0), l)
    | (.status st, l) => (some (result st), l)

end Verif.Proc
