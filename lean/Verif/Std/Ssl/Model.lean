/-!
# Encrypted sockets: sending, receiving, sending files

`src/cxy/stdlib/ssl.cxy` 160-195 (`sendBuffer`), 197-214 (`sendFile`), 216-251 (`receive`).

What OpenSSL and the event loop do is a list of events, one for each call of `BIO_write` or `BIO_read`. If the list ends the call still
waits. Trusted of OpenSSL: a length that is not positive makes `BIO_write` and `BIO_read` transfer nothing and return 0, and
`SSL_get_error` then gives neither `SSL_ERROR_WANT_WRITE` nor `SSL_ERROR_WANT_READ`. Left out: a connection without `ssl_st` (162-166,
218-222), the flush for a null buffer (168-171), `errno` and messages, the handshake.
-/
namespace Verif.Ssl

inductive Out where
  /-- the number of bytes -/
  | done (n : Nat)
  /-- `null` -/
  | null
  /-- it still waits -/
  | pending
  /-- memory is read that is not there -/
  | crash
deriving DecidableEq

/-- 176, 227: `<i32>(size - written)`, with 0 for what is not positive. -/
def ask (rem : Nat) : Nat := if rem % 2 ^ 32 < 2 ^ 31 then rem % 2 ^ 32 else 0

/-- A call of `BIO_write`. -/
inductive WEv where
  /-- at most `k` bytes are taken -/
  | wrote (k : Nat)
  /-- `SSL_ERROR_WANT_WRITE`, and whether the socket became writable in time -/
  | wantWrite (ok : Bool)
  /-- any other error, `SSL_ERROR_WANT_READ` too -/
  | fail

/-- 175-194. The bytes that were taken are the second part of the result. -/
def sendLoop (data : List Nat) (size : Nat) : List WEv → Nat → List Nat → Out × List Nat
  | [], w, wire => if size ≤ w then (.done w, wire) else (.pending, wire)
  | e :: evs, w, wire =>
    if size ≤ w then (.done w, wire)
    else match e with
      | .wrote k =>
        let n := min k (ask (size - w))
        if n = 0 then (.null, wire)
        else sendLoop data size evs (w + n) (wire ++ (data.drop w).take n)
      | .wantWrite true => sendLoop data size evs w wire
      | .wantWrite false => (.null, wire)
      | .fail => (.null, wire)

/-- 160-195 -/
def sendBuffer (data : List Nat) (size : Nat) (evs : List WEv) : Out × List Nat := sendLoop data size evs 0 []

/-- A call of `BIO_read`. -/
inductive REv where
  /-- at most `k` bytes are given; the other side has closed if there are none -/
  | got (k : Nat)
  /-- `SSL_ERROR_WANT_READ`, and whether the socket became readable in time -/
  | wantRead (ok : Bool)
  /-- any other error -/
  | fail

/-- What is known behind `receive`: the result, the buffer, and what is still to be received. -/
structure Recv where
  out : Out
  buf : List Nat
  rest : List Nat

/-- 226-250. `inc` are the bytes that arrive. -/
def recvLoop (size : Nat) : List REv → List Nat → List Nat → Recv
  | [], buf, inc => if size ≤ buf.length then ⟨.done buf.length, buf, inc⟩ else ⟨.pending, buf, inc⟩
  | e :: evs, buf, inc =>
    if size ≤ buf.length then ⟨.done buf.length, buf, inc⟩
    else match e with
      | .got k =>
        let n := min (min k (ask (size - buf.length))) inc.length
        /- 245-246 -/
        if n = 0 then ⟨.done buf.length, buf, inc⟩
        else recvLoop size evs (buf ++ inc.take n) (inc.drop n)
      | .wantRead ok =>
        /- 236-243 -/
        if buf ≠ [] then ⟨.done buf.length, buf, inc⟩
        else if ok then recvLoop size evs buf inc
        else ⟨.null, buf, inc⟩
      /- 230-234 -/
      | .fail => ⟨.null, buf, inc⟩

/-- 216-251 -/
def receive (size : Nat) (evs : List REv) (inc : List Nat) : Recv := recvLoop size evs [] inc

/-- The bytes that can be read where a file is mapped from an offset on: up to the end of the file, then zeros up to the end of the page. -/
def mapped (page : Nat) (file : List Nat) (off : Nat) : List Nat :=
  let bs := file.drop off
  bs ++ List.replicate ((page - bs.length % page) % page) 0

/-- 197-214. `mmap` refuses an offset that is not at a page. The length of the mapping, 199, is more than `count`. Simplified: if not all
bytes can be read nothing is sent before the crash. -/
def sendFile (page : Nat) (file : List Nat) (off count : Nat) (evs : List WEv) : Out × List Nat :=
  if off % page ≠ 0 then (.null, [])
  else if count ≤ (mapped page file off).length then sendBuffer (mapped page file off) count evs
  else (.crash, [])

end Verif.Ssl
