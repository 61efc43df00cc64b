import Verif.Common.Res
import Verif.Common.Mem
/-!
# Model of the strings and streams of `src/cxy/runtime/builtins.cxy`

Bytes are naturals below 256; sizes are below 2^63.  Allocation succeeds.  `Out` distinguishes a failed `assert!`
(enabled unless `DISABLE_ASSERT` is defined, lines 51-56) from undefined behaviour.
-/
namespace Verif.Str

/-- A value, a failed assertion, undefined behaviour or an endless loop. -/
inductive Out (β : Type) where
  | ok (b : β)
  | abort
  | ub
  | diverge
  deriving DecidableEq, Repr

def Out.bind {β γ : Type} : Out β → (β → Out γ) → Out γ
  | .ok b, f => f b
  | .abort, _ => .abort
  | .ub, _ => .ub
  | .diverge, _ => .diverge

@[simp] theorem Out.bind_ok {β γ : Type} (b : β) (f : β → Out γ) : (Out.ok b).bind f = f b := rfl

/-! ## `__string`: a view of bytes, given as their list -/

/-- `s.[i]` -/
def rd (d : List Nat) (i : Nat) : Out Nat :=
  match d[i]? with
  | some c => .ok c
  | none => .ub

/-- builtins.cxy 22: `isspace` in the C locale. -/
def isSpace (c : Nat) : Bool := c = 32 || (9 ≤ c && c ≤ 13)

/-- builtins.cxy 483-491 and 866-874 `indexOf`; `n` iterations are left. -/
def indexLoop (d : List Nat) (c : Nat) : Nat → Nat → Out (Option Nat)
  | 0, _ => .ok none
  | n + 1, i => (rd d i).bind fun x => if x = c then .ok (some i) else indexLoop d c n (i + 1)

def indexOf (d : List Nat) (c : Nat) : Out (Option Nat) := indexLoop d c d.length 0

/-- builtins.cxy 497-503 and 880-886: the loop `while (i > 0)`. -/
def rIndexLoop (d : List Nat) (c : Nat) : Nat → Out (Option Nat)
  | 0 => .ok none
  | i + 1 => (rd d (i + 1)).bind fun x => if x = c then .ok (some (i + 1)) else rIndexLoop d c i

/-- builtins.cxy 493-504 and 876-887 `rIndexOf` -/
def rIndexOf (d : List Nat) (c : Nat) : Out (Option Nat) :=
  if d.length = 0 then .ok none else rIndexLoop d c (d.length - 1)

/-- `memcmp(p + j, part.s, part._size) == 0` -/
def sameAt (d part : List Nat) (j : Nat) : Out Bool :=
  if j + part.length ≤ d.length then .ok (decide ((d.drop j).take part.length = part)) else .ub

/-- builtins.cxy 524-529: the loop of `find`, with `n` a bound on its iterations; `i--` wraps at 2^64. -/
def findLoop (d part : List Nat) : Nat → Nat → Nat → Out (Option Nat)
  | 0, _, _ => .diverge
  | n + 1, i, j =>
    if i ≥ part.length then
      (sameAt d part j).bind fun b => if b then .ok (some j) else findLoop d part n ((i + 2 ^ 64 - 1) % 2 ^ 64) (j + 1)
    else .ok none

/-- builtins.cxy 518-531 `find` -/
def find (d part : List Nat) : Out (Option Nat) :=
  if part = [] then .ok (if d = [] then none else some (d.length - 1))
  else findLoop d part (d.length + 1) d.length 0

/-- builtins.cxy 540-544: the loop of `rfind`; `j` is signed, so `j + 1` steps are left. -/
def rfindLoop (d part : List Nat) : Nat → Out (Option Nat)
  | 0 => .ok none
  | j + 1 => (sameAt d part j).bind fun b => if b then .ok (some j) else rfindLoop d part j

/-- builtins.cxy 533-547 `rfind` -/
def rfind (d part : List Nat) : Out (Option Nat) :=
  if d.length ≥ part.length then
    if part = [] then .ok (if d = [] then none else some (d.length - 1))
    else rfindLoop d part (d.length - part.length + 1)
  else .ok none

/-- builtins.cxy 455-463 `substr`; `count` is an `i64`. -/
def substr (d : List Nat) (start : Nat) (count : Int) : Out (List Nat) :=
  if start ≤ d.length then
    if count = -1 then .ok ((d.drop start).take (d.length - start))
    else if 0 ≤ count ∧ count ≤ ((d.length - start : Nat) : Int) then .ok ((d.drop start).take count.toNat)
    else .abort
  else .abort

/-- C `strncmp` on at least `n` bytes each: it stops at a NUL. -/
def strncmp : Nat → List Nat → List Nat → Int
  | 0, _, _ => 0
  | n + 1, a :: as, b :: bs => if a ≠ b then (a : Int) - b else if a = 0 then 0 else strncmp n as bs
  | _ + 1, _, _ => 0

/-- builtins.cxy 428-435 `__string.compare` -/
def viewCompare (a b : List Nat) : Int :=
  if a.length = b.length then strncmp a.length a b else if a.length < b.length then -1 else 1

/-- builtins.cxy 437 -/
def viewEq (a b : List Nat) : Bool := viewCompare a b = 0

/-- builtins.cxy 512-516 `startswith` -/
def startswith (d p : List Nat) : Out Bool :=
  if p.length > d.length then .ok false else (substr d 0 p.length).bind fun s => .ok (viewEq s p)

/-- builtins.cxy 506-510 `endswith` -/
def endswith (d p : List Nat) : Out Bool :=
  if p.length > d.length then .ok false else (substr d (d.length - p.length) (-1)).bind fun s => .ok (viewEq s p)

/-- builtins.cxy 402-411 `trimLeft` -/
def viewTrimLeft : List Nat → List Nat
  | c :: cs => if isSpace c then viewTrimLeft cs else c :: cs
  | [] => []

/-- builtins.cxy 413-421 `trimRight`: `i` bytes are kept. -/
def keepRight (d : List Nat) : Nat → Out Nat
  | 0 => .ok 0
  | i + 1 => (rd d i).bind fun c => if isSpace c then keepRight d i else .ok (i + 1)

def viewTrimRight (d : List Nat) : Out (List Nat) := (keepRight d d.length).bind fun n => .ok (d.take n)

/-- builtins.cxy 423-426 `trim` -/
def viewTrim (d : List Nat) : Out (List Nat) := viewTrimRight (viewTrimLeft d)

/-! ## `String` -/

/-- builtins.cxy 758-761: `null` is `_data == null`; the allocation has `room` bytes. -/
structure S where
  null : Bool
  capacity : Nat
  size : Nat
  room : Nat
  mem : Nat → Option Nat

/-- builtins.cxy 778 -/
def S.new : S := ⟨true, 0, 0, 0, fun _ => none⟩

/-- builtins.cxy 770-772 `while (_capacity < newSize) _capacity <<= 1` -/
def double : Nat → Nat → Nat → Out Nat
  | 0, cap, n => if cap < n then .diverge else .ok cap
  | f + 1, cap, n => if cap < n then double f (cap * 2) n else .ok cap

/-- builtins.cxy 763-775 `grow` -/
def grow (s : S) (growSize : Nat) : Out S :=
  let newSize := max (s.size + growSize) 16
  if s.null then .ok { s with null := false, capacity := newSize, room := newSize + 1, mem := fun _ => none }
  else if s.capacity < newSize then
    (double newSize s.capacity newSize).bind fun c => .ok { s with capacity := c, room := c + 1 }
  else .ok s

/-- A store of one byte. -/
def wr (s : S) (i : Nat) (c : Nat) : Out S := if !s.null && i < s.room then .ok { s with mem := upd s.mem i (some c) } else .ub

/-- A load of one byte; loading one that was never written is undefined. -/
def ld (s : S) (i : Nat) : Out Nat :=
  if !s.null && i < s.room then
    match s.mem i with
    | some c => .ok c
    | none => .ub
  else .ub

/-- `memmove(_data + at, bytes, n)` from memory that is not this string's. -/
def copyIn (s : S) (at_ : Nat) (bytes : List Nat) : Out S :=
  if at_ + bytes.length ≤ s.room then
    .ok { s with mem := fun i => if at_ ≤ i ∧ i < at_ + bytes.length then bytes[i - at_]? else s.mem i }
  else .ub

/-- builtins.cxy 828-837 `append`, from memory that is not this string's. -/
def append (s : S) (bytes : List Nat) : Out S :=
  if bytes.length ≠ 0 then
    (grow s bytes.length).bind fun s =>
    (copyIn s s.size bytes).bind fun s =>
    let s := { s with size := s.size + bytes.length }
    wr s s.size 0
  else .ok s

/-- `append(s._data, s._size)` on `s` itself (`s << s`, lines 636-645): the argument is evaluated first, so it
dangles when `grow` reallocates. -/
def appendSelf (s : S) : Out S :=
  if s.size ≠ 0 then
    if s.capacity < max (s.size + s.size) 16 then .ub
    else append s ((List.range s.size).map fun i => (s.mem i).getD 0)
  else .ok s

/-- builtins.cxy 819-826 `clear` -/
def clear (s : S) : S := if s.null then s else { s with null := true, capacity := 0, size := 0, room := 0 }

/-- builtins.cxy 813-817 `resize` -/
def resize (s : S) (n : Nat) : Out S :=
  if s.capacity ≤ n then wr { s with size := n } n 0 else .abort

/-- builtins.cxy 839-848 `trimLeft`: the number of bytes to skip. -/
def spaces (s : S) : Nat → Nat → Out Nat
  | 0, i => .ok i
  | n + 1, i => if i < s.size then (ld s i).bind fun c => if isSpace c then spaces s n (i + 1) else .ok i else .ok i

def trimLeft (s : S) : Out S :=
  (spaces s s.size 0).bind fun i =>
    if i ≠ 0 then
      if s.size ≤ s.room then
        .ok { s with mem := fun j => if j < s.size - i then s.mem (j + i) else s.mem j, size := s.size - i }
      else .ub
    else .ok s

/-- builtins.cxy 850-858 `trimRight`: the loop. -/
def dropSpaces (s : S) : Nat → Out Nat
  | 0 => .ok 0
  | n + 1 => (ld s n).bind fun c => if isSpace c then dropSpaces s n else .ok (n + 1)

def trimRight (s : S) : Out S :=
  (dropSpaces s s.size).bind fun n =>
    let s := { s with size := n }
    if s.capacity > 0 then wr s n 0 else .ok s

/-- builtins.cxy 860-864 `trim` -/
def trim (s : S) : Out S := (trimLeft s).bind trimRight

/-- Conversion to `i32`. -/
def toI32 (v : Int) : Int := v.bmod (2 ^ 32)

/-- builtins.cxy 911-916: the loop of `compare`. -/
def cmpBytes : List Nat → List Nat → Int
  | a :: as, b :: bs => if a ≠ b then (a : Int) - b else cmpBytes as bs
  | _, _ => 0

/-- builtins.cxy 907-917 `compare`, on the contents; `_size - size` is computed modulo 2^64. -/
def compare (a b : List Nat) : Int :=
  if a.length ≠ b.length then toI32 ((a.length : Int) - b.length) else cmpBytes a b

/-! ## `BufferedOutputStream` -/

/-- builtins.cxy 994-997, with what `flush` was given so far. -/
structure Buf where
  capacity : Nat
  buffer : List Nat
  sink : List Nat
  deriving DecidableEq, Repr

def Buf.new (capacity : Nat) : Buf := ⟨capacity, [], []⟩

/-- builtins.cxy 1007-1012 `sync` -/
def sync (b : Buf) : Buf := if b.buffer.length > 0 then { b with sink := b.sink ++ b.buffer, buffer := [] } else b

/-- builtins.cxy 1014-1029 `append`; the copy into the buffer must fit. -/
def bufAppend (b : Buf) (data : List Nat) : Out Buf :=
  let room := b.capacity - b.buffer.length
  let full := decide (data.length > room) && decide (b.buffer.length > 0)
  let b' := if full then sync b else b
  let room' := if full then b.capacity else room
  if data.length < room' then
    if b'.buffer.length + data.length ≤ b'.capacity then .ok { b' with buffer := b'.buffer ++ data } else .ub
  else .ok { b' with sink := b'.sink ++ data }

/-- A sequence of appends and syncs (`none`). -/
def bufRun (b : Buf) : List (Option (List Nat)) → Out Buf
  | [] => .ok b
  | some d :: r => (bufAppend b d).bind fun b => bufRun b r
  | none :: r => bufRun (sync b) r

/-! ## `MemoryOutputStream` -/

/-- builtins.cxy 1444-1447: a buffer of `capacity` bytes. -/
structure Ms where
  capacity : Nat
  size : Nat
  mem : Nat → Option Nat

def Ms.new (capacity : Nat) : Ms := ⟨capacity, 0, fun _ => none⟩

/-- builtins.cxy 1454-1463 `append` -/
def msAppend (m : Ms) (bytes : List Nat) : Out Ms :=
  if bytes.length ≠ 0 then
    if bytes.length < (m.capacity + 2 ^ 64 - m.size) % 2 ^ 64 then
      if m.size + bytes.length < m.capacity then
        .ok { m with size := m.size + bytes.length
                     mem := upd (fun i => if m.size ≤ i ∧ i < m.size + bytes.length then bytes[i - m.size]? else m.mem i)
                       (m.size + bytes.length) (some 0) }
      else .ub
    else .abort
  else .ok m

def msRun (m : Ms) : List (List Nat) → Out Ms
  | [] => .ok m
  | d :: r => (msAppend m d).bind fun m => msRun m r

end Verif.Str
