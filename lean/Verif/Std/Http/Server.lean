import Verif.Std.Http.Model
import Verif.Common.Out
/-!
# Model of the server side of HTTP: `src/cxy/stdlib/http.cxy` lines 50-91, 127-212, 244-396 and 940-984

What is written to the socket is a list of bytes; writing never fails, and a file has at least the bytes that are to be
sent from it unless stated otherwise.  A chunk is its text or a part of a file.
-/
namespace Verif.Http

/-- http.cxy 50-91 `Status`, with the status lines of `statusText` (127-212). -/
def statusTable : List (Nat × String) :=
  [(100, "HTTP/1.1 100 Continue"), (101, "HTTP/1.1 101 Switching Protocols"), (200, "HTTP/1.1 200 OK"),
   (201, "HTTP/1.1 201 Created"), (202, "HTTP/1.1 202 Accepted"), (203, "HTTP/1.1 203 Non-Authoritative Information"),
   (204, "HTTP/1.1 204 No Content"), (205, "HTTP/1.1 205 Reset Content"), (206, "HTTP/1.1 206 Partial Content"),
   (300, "HTTP/1.1 300 Multiple Choices"), (301, "HTTP/1.1 301 Moved Permanently"), (302, "HTTP/1.1 302 Found"),
   (303, "HTTP/1.1 303 See Other"), (304, "HTTP/1.1 304 Not Modified"), (305, "HTTP/1.1 305 Use Proxy"),
   (307, "HTTP/1.1 307 Temporary Redirect"), (400, "HTTP/1.1 400 Bad Request"), (401, "HTTP/1.1 401 Unauthorized"),
   (402, "HTTP/1.1 402 Payment Required"), (403, "HTTP/1.1 403 Forbidden"), (404, "HTTP/1.1 404 Not Found"),
   (405, "HTTP/1.1 405 Method Not Allowed"), (406, "HTTP/1.1 406 Not Acceptable"),
   (407, "HTTP/1.1 407 Proxy Authentication Required"), (408, "HTTP/1.1 408 Request Time-out"),
   (409, "HTTP/1.1 409 Conflict"), (410, "HTTP/1.1 410 Gone"), (411, "HTTP/1.1 411 Length Required"),
   (412, "HTTP/1.1 412 Precondition Failed"), (413, "HTTP/1.1 413 Request Entity Too Large"),
   (414, "HTTP/1.1 414 Request-URI Too Large"), (415, "HTTP/1.1 415 Unsupported Media Type"),
   (416, "HTTP/1.1 416 Requested range not satisfiable"), (417, "HTTP/1.1 417 Expectation Failed"),
   (500, "HTTP/1.1 500 Internal Server Error"), (501, "HTTP/1.1 501 Not Implemented"), (502, "HTTP/1.1 502 Bad Gateway"),
   (503, "HTTP/1.1 503 Service Unavailable"), (504, "HTTP/1.1 504 Gateway Time-out"),
   (505, "HTTP/1.1 505 HTTP Version not supported")]

/-- http.cxy 127-212 `statusText` -/
def statusText (s : Nat) : List Nat :=
  match statusTable.find? (·.1 = s) with
  | some p => str p.2
  | none => str "HTTP/1.1 500  "

/-- http.cxy 277 `ResponseChunk`: a text (`string`, `__string` or `String`) or a part of a file (`SendFile`, and
`SendTempFile` from its beginning). -/
inductive Chunk where
  | text (s : List Nat)
  | file (content : List Nat) (count offset : Nat)
  | temp (content : List Nat)
  deriving DecidableEq

/-- http.cxy 279-284 `Response` -/
structure Response where
  status : Nat
  headers : List (List Nat × List Nat)
  chunks : Option (List Chunk)
  body : Option (List Nat)
  complete : Bool
  deriving DecidableEq

/-- http.cxy 286-287 -/
def Response.new : Response := ⟨200, [], none, none, false⟩

/-- What a handler does to a response. -/
inductive Reply where
  /-- `resp.body() << text` -/
  | write (text : List Nat)
  /-- `resp.body(text)` -/
  | body (text : List Nat)
  | chunk (c : Chunk)
  | finish (status : Nat)
  | header (name value : List Nat)

/-- http.cxy 292-320, 370-378: one step of a handler; a failed assertion aborts. -/
def Response.step (r : Response) : Reply → Out Response
  | .write t =>
    match r.body with
    | some b => .ok { r with body := some (b ++ t) }
    | none => if r.chunks.isSome then .abort else .ok { r with body := some t }
  | .body t => .ok { r with body := some t }
  | .chunk c =>
    if r.body.isSome then .abort
    else .ok { r with chunks := some ((match r.chunks with | some cs => cs | none => []) ++ [c]) }
  | .finish s => .ok { r with complete := true, status := s }
  | .header k v => .ok { r with headers := putHeader k v r.headers }

/-- The steps of a handler. -/
def Response.run (r : Response) : List Reply → Out Response
  | [] => .ok r
  | s :: ss => (r.step s).bind fun r => r.run ss

/-- http.cxy 322-344: what is sent for a chunk. -/
def Chunk.sent : Chunk → List Nat
  | .text s => s
  | .file c count offset => sendFile c offset count
  | .temp c => sendFile c 0 (wrap c.length)

/-- http.cxy 322-345 `stream` -/
def Response.stream (r : Response) : List Nat :=
  match r.body with
  | some b => b
  | none =>
    match r.chunks with
    | some cs => cs.flatMap Chunk.sent
    | none => []

/-- http.cxy 353-363: the sizes of the chunks. -/
def chunksSize : List Chunk → Nat → Nat
  | [], sz => sz
  | .text s :: rest, sz => chunksSize rest (wrap (sz + s.length))
  | .file _ count _ :: rest, sz => chunksSize rest (wrap (sz + count))
  | .temp c :: rest, sz => chunksSize rest (wrap (sz + wrap c.length))

/-- http.cxy 348-364 `size` -/
def Response.size (r : Response) : Nat :=
  match r.body with
  | some b => wrap b.length
  | none =>
    match r.chunks with
    | none => 0
    | some cs => chunksSize cs 0

/-- http.cxy 368 `empty` -/
def Response.empty (r : Response) : Bool :=
  (match r.body with | none => true | some b => b.isEmpty) && (match r.chunks with | none => true | some cs => cs.isEmpty)

/-- http.cxy 798-803 `Config`; only what the response shows. -/
structure Config where
  serverName : List Nat
  hstsEnable : Nat
  keepAliveTime : Nat

/-- A header of a response, whatever the case of its name. -/
def headerOf (name : List Nat) (hs : List (List Nat × List Nat)) : Option (List Nat) :=
  (hs.find? (fun h => h.1.map upper = name.map upper)).map Prod.snd

/-- http.cxy 944-946: an error without a body is given the text of its status line. -/
def Response.fill (r : Response) : Out Response :=
  if r.status ≠ 200 ∧ r.empty = true then r.step (.write ((statusText r.status).drop 9)) else .ok r

/-- http.cxy 942-980: the lines up to the empty one. -/
def Response.head (r : Response) (cfg : Config) (date : List Nat) : List Nat :=
  let close := match headerOf (str "Connection") r.headers with | some v => decide (v = str "Close") | none => false
  statusText r.status ++ crlf ++
  (if !close && decide (cfg.keepAliveTime > 0)
   then str "Connection: Keep-Alive" ++ crlf ++ str "Keep-Alive: " ++ number cfg.keepAliveTime ++ crlf else []) ++
  (if cfg.hstsEnable > 0
   then str "Strict-Transport-Security: max-age=" ++ number cfg.hstsEnable ++ str "; includeSubdomains" ++ crlf else []) ++
  encodeHeaders r.headers ++
  (if (headerOf (str "Server") r.headers).isNone then str "Server: " ++ cfg.serverName ++ crlf else []) ++
  (if (headerOf (str "Date") r.headers).isNone then str "Date: " ++ date ++ crlf else []) ++
  (if (headerOf (str "Content-Length") r.headers).isNone then str "Content-Length: " ++ number r.size ++ crlf else [])

/-- http.cxy 940-984 `sendResponse` -/
def Response.send (r : Response) (cfg : Config) (date : List Nat) : Out (List Nat) :=
  r.fill.bind fun r => .ok (r.head cfg date ++ crlf ++ r.stream)

end Verif.Http
