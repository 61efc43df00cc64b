import Verif.Common.Res
/-!
# Model of the buffer chain of `src/cxy/core/format.c`

A format state is a list of buffers, the last one being the current one.  A buffer is its capacity
and the bytes in use.  Only the buffer handling is modelled; the conversion of numbers by `snprintf`
is a parameter (the bytes written).
-/
namespace Verif.Format

structure Buf where
  capacity : Nat
  data : List Nat
deriving DecidableEq

/-- buffers before the current one, and the current one -/
structure State where
  before : List Buf
  cur : Option Buf

def new : State := ⟨[], none⟩

/-- format.c 25-41 `reserveBuf`: room for `size` bytes in the current buffer, or a new buffer. -/
def reserve (s : State) (size : Nat) : State :=
  match s.cur with
  | some b =>
    if b.data.length + size ≤ b.capacity then s
    else ⟨s.before ++ [b], some ⟨if b.data.length < size then size else b.data.length, []⟩⟩
  | none => ⟨s.before, some ⟨if 1024 < size then size else 1024, []⟩⟩

/-- format.c 49-53 `write` with 43-47 `advanceBuf`; writing past the buffer is undefined. -/
def write (s : State) (bytes : List Nat) : Res State :=
  let s := reserve s bytes.length
  match s.cur with
  | none => .ub
  | some b =>
    if b.data.length + bytes.length ≤ b.capacity then .ok ⟨s.before, some { b with data := b.data ++ bytes }⟩
    else .ub

/-- format.c 72-206 `formatArg` for a number: 64 bytes are reserved, `snprintf` writes them in place and
`advanceBuf` takes those written.  More than 63 characters fail the assertion (line 203). -/
def writeNumber (s : State) (bytes : List Nat) : Res State :=
  let s := reserve s 64
  match s.cur with
  | none => .ub
  | some b =>
    if ¬ bytes.length < 64 then .ub
    else if b.data.length + bytes.length ≤ b.capacity then .ok ⟨s.before, some { b with data := b.data ++ bytes }⟩
    else .ub

/-- format.c 164-199: a string, character or boolean argument also reserves 64 bytes first (line 78) and
then writes. -/
def writeArg (s : State) (bytes : List Nat) : Res State := write (reserve s 64) bytes

inductive Op where
  | text (s : List Nat)
  | number (s : List Nat)
  | arg (s : List Nat)

def Op.bytes : Op → List Nat
  | .text s => s
  | .number s => s
  | .arg s => s

def step (s : State) : Op → Res State
  | .text b => write s b
  | .number b => writeNumber s b
  | .arg b => writeArg s b

/-- format.c 476-490 `formatStateToString` (without the NUL), and 470-474 `writeFormatState`. -/
def toText (s : State) : List Nat :=
  s.before.flatMap Buf.data ++ (match s.cur with | some b => b.data | none => [])

end Verif.Format
