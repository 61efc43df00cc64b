/-!
# Receiving the response of a fetch

`src/cxy/stdlib/fetch.cxy` 419-431 (`onBodyPart`), 451-460 (`feed`), 462-473 (`receive`), 517-520 (`responseParserOnBody`) and 522-526
(`responseParserOnMessageComplete`).

Of the parser (llhttp, third party) only this is assumed: the bytes of a body are given to `on_body` as they come; with a known length
`on_message_complete` is called once all were; without one the body goes on to the end of the connection, and only `llhttp_finish`, which
fetch.cxy does not call, would complete the message; a result of `on_body` other than 0 makes `llhttp_execute` fail. What comes behind
a complete message is left out, as are headers (`Verif.Std.Http.Receive`) and bodies in chunks.
-/
namespace Verif.Fetch

/-- How the end of a body is found. -/
inductive Framing where
  | length (n : Nat)
  | untilClose

/-- What was given to the writer, or kept, part by part; and how much is still to come (`none`: not known). -/
structure St where
  parts : List (List Nat)
  left : Option Nat

/-- A writer: what it returns depends on the parts it was given so far. -/
abbrev Writer := List (List Nat) → Bool

/-- fetch.cxy 419-431 `onBodyPart`: false is an error. Without a writer the part is kept. -/
def onBodyPart (w : Option Writer) (parts : List (List Nat)) : Bool :=
  match w with
  | none => true
  | some w => !(w parts)

/-- The bytes of what was received that belong to the body. -/
def partOf (left : Option Nat) (chunk : List Nat) : List Nat :=
  match left with
  | none => chunk
  | some n => chunk.take n

/-- fetch.cxy 451-460 `feed` for bytes of the body: false if it failed. -/
def feed (w : Option Writer) (s : St) (chunk : List Nat) : Bool × St :=
  let part := partOf s.left chunk
  if part.isEmpty then (true, s)
  else
    let parts := s.parts ++ [part]
    (onBodyPart w parts, ⟨parts, s.left.map (· - part.length)⟩)

/-- `_isComplete` (fetch.cxy 522-526) -/
def complete (s : St) : Bool := s.left == some 0

inductive Res where
  | ok (parts : List (List Nat))
  | raised (parts : List (List Nat))
deriving DecidableEq, Repr

/-- fetch.cxy 462-473 `receive`: what the socket delivers, after which the connection ends and `receive` of the socket is null
(`src/cxy/stdlib/tcp.cxy` 75-83). -/
def receive (w : Option Writer) : List (List Nat) → St → Res
  | chunks, s =>
    if complete s then .ok s.parts
    else match chunks with
      | [] => .raised s.parts
      | c :: cs =>
        let r := feed w s c
        if r.1 then receive w cs r.2 else .raised r.2.parts

/-- The state once the headers were read. -/
def start : Framing → St
  | .length n => ⟨[], some n⟩
  | .untilClose => ⟨[], none⟩

end Verif.Fetch
