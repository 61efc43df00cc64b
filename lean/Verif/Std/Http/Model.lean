import Verif.Common.Decimal
import Verif.Core.Text.Model
import Verif.Std.Base64.Model
/-!
# Model of the client side of HTTP: `src/cxy/stdlib/fetch.cxy` lines 24-41, 77-371 and 566-584

What is written to the socket is a list of bytes; writing never fails.  The hash maps of headers, arguments and form
fields are lists of pairs; their order is the order of iteration, which the source leaves open.  A file is the list of
its bytes.  Sizes are `u64`, so every size is taken modulo 2^64.
-/
namespace Verif.Http

open Verif.Text (streamChar)

/-- The bytes of a literal. -/
def str (s : String) : List Nat := s.toList.map (·.toNat)

/-- fetch.cxy 18 -/
def crlf : List Nat := [13, 10]

/-- What `os << n` prints for an unsigned integer below 2^63 (runtime/builtins.cxy 569-573). -/
def number (n : Nat) : List Nat := (decimal n).map (·.toNat)

/-! ## Percent-encoding -/

/-- fetch.cxy 28-31: the bytes that are kept. -/
def plain (c : Nat) : Bool :=
  (decide (97 ≤ c) && decide (c ≤ 122)) || (decide (65 ≤ c) && decide (c ≤ 90)) || (decide (48 ≤ c) && decide (c ≤ 57))

/-- fetch.cxy 25: the table of digits. -/
def hex (i : Nat) : Nat := (str "0123456789abcdef").getD i 0

/-- fetch.cxy 24-41 `urlEncode` -/
def urlEncode : List Nat → List Nat
  | [] => []
  | c :: cs =>
    (if plain c then streamChar c else streamChar 37 ++ streamChar (hex (c >>> 4)) ++ streamChar (hex (c &&& 15))) ++ urlEncode cs

/-- fetch.cxy 328-335: the loop of `encodeArgs`. -/
def encodeItems (first : Bool) : List (List Nat × List Nat) → List Nat
  | [] => []
  | (k, v) :: rest => (if first then [] else [38]) ++ urlEncode k ++ [61] ++ urlEncode v ++ encodeItems false rest

/-- fetch.cxy 323-336 `encodeArgs` -/
def encodeArgs (args : List (List Nat × List Nat)) : List Nat :=
  if args.isEmpty then [] else 63 :: encodeItems true args

/-! ## Forms -/

/-- fetch.cxy 45-48 `FileUpload`; `content` are the bytes of the file and `fileName` is `path().name()`. -/
structure Upload where
  name : List Nat
  fileName : List Nat
  contentType : List Nat
  content : List Nat
  deriving DecidableEq

/-- fetch.cxy 81-85 `Form` -/
structure Form where
  multipart : Bool
  boundary : List Nat
  data : List (List Nat × List Nat)
  uploads : List Upload
  deriving DecidableEq

/-- fetch.cxy 81-89: a new form. -/
def Form.new (boundary : List Nat) : Form := ⟨false, boundary, [], []⟩

/-- fetch.cxy 92-94 `add`, for a name that is new to the form. -/
def Form.add (f : Form) (k v : List Nat) : Form := { f with data := f.data ++ [(k, v)] }

/-- fetch.cxy 97-100 `upload` -/
def Form.upload (f : Form) (u : Upload) : Form := { f with uploads := f.uploads ++ [u], multipart := true }

/-- fetch.cxy 77-79 -/
def disposition : List Nat := str "Content-Disposition: form-data; name=\""
def dispositionFile : List Nat := str "\"; filename=\""
def contentTypeIs : List Nat := str "Content-Type: "

/-- fetch.cxy 105-115 `urlEncode` -/
def formItems (first : Bool) : List (List Nat × List Nat) → List Nat
  | [] => []
  | (k, v) :: rest =>
    (if first then [] else [38]) ++ Base64.urlEncode k ++ [61] ++ Base64.urlEncode v ++ formItems false rest

/-- fetch.cxy 118-123: one field. -/
def dataPart (b : List Nat) (kv : List Nat × List Nat) : List Nat :=
  str "--" ++ b ++ crlf ++ disposition ++ kv.1 ++ [34] ++ crlf ++ crlf ++ kv.2 ++ crlf

/-- fetch.cxy 130-145: one file. -/
def uploadPart (b : List Nat) (u : Upload) : List Nat :=
  str "--" ++ b ++ crlf ++ disposition ++ u.name ++ dispositionFile ++ u.fileName ++ str "\"" ++ crlf ++
  (if u.contentType.isEmpty then [] else contentTypeIs ++ u.contentType ++ crlf) ++ crlf ++ u.content ++ crlf

/-- fetch.cxy 117-148 `multipartEncode` -/
def multipartEncode (f : Form) : List Nat :=
  f.data.flatMap (dataPart f.boundary) ++
  if f.uploads.isEmpty then str "--" ++ f.boundary ++ str "--"
  else f.uploads.flatMap (uploadPart f.boundary) ++ (str "--" ++ f.boundary ++ str "--")

/-- fetch.cxy 150-157 `encode` -/
def Form.encode (f : Form) : List Nat :=
  if f.data.isEmpty && f.uploads.isEmpty then []
  else if f.multipart then multipartEncode f else formItems true f.data

def wrap (n : Nat) : Nat := n % 2 ^ 64

/-- fetch.cxy 161-167: the loop of `urlEncodedSize`. -/
def formItemsSize : List (List Nat × List Nat) → Nat → Nat
  | [], size => size
  | (k, v) :: rest, size =>
    formItemsSize rest (wrap (size + (1 + Base64.urlEncodeSize k.length + Base64.urlEncodeSize v.length)))

/-- fetch.cxy 174-184: the fields. -/
def dataSize (b : Nat) : List (List Nat × List Nat) → Nat → Nat
  | [], size => size
  | (k, v) :: rest, size => dataSize b rest (wrap (size + (2 + b + 8 + disposition.length + 1 + k.length + v.length)))

/-- fetch.cxy 191-207: the files. -/
def uploadsSize (b : Nat) : List Upload → Nat → Nat
  | [], size => size
  | u :: rest, size =>
    let size := wrap (size + (2 + b + 4 + disposition.length + u.name.length + dispositionFile.length + u.fileName.length + 1))
    let size := if u.contentType.isEmpty then size else wrap (size + (contentTypeIs.length + u.contentType.length + 2))
    let size := wrap (size + 2)
    uploadsSize b rest (wrap (size + (u.content.length + 2)))

/-- fetch.cxy 172-214 `multipartEncodeSize` -/
def multipartEncodeSize (f : Form) : Nat :=
  let size := dataSize f.boundary.length f.data 0
  if f.uploads.isEmpty then wrap (size + (4 + f.boundary.length))
  else wrap (uploadsSize f.boundary.length f.uploads size + (4 + f.boundary.length))

/-- fetch.cxy 216-223 `size`, with `urlEncodedSize` (159-170) -/
def Form.size (f : Form) : Nat :=
  if f.data.isEmpty && f.uploads.isEmpty then 0
  else if f.multipart then multipartEncodeSize f
  else formItemsSize f.data (wrap (f.data.length + 2 ^ 64 - 1))

/-! ## Requests -/

/-- http.cxy 244-256 `SendFile`: the file's bytes, the number to send and the first to send. -/
structure SendFile where
  content : List Nat
  count : Nat
  offset : Nat
  deriving DecidableEq

/-- net.cxy 556-560, tcp.cxy 137-160 `sendFile(fd, offset, count)`: `count` bytes from `offset`, fewer at the end of
the file. This is so when the kernel takes them in one call (the result is then `null`, which no caller looks at); what is sent
otherwise is in `Std/StreamIO`. -/
def sendFile (content : List Nat) (offset count : Nat) : List Nat := (content.drop offset).take count

/-- fetch.cxy 226-234 `Request`; the method is its name. -/
structure Request where
  method : List Nat
  resource : List Nat
  headers : List (List Nat × List Nat)
  args : List (List Nat × List Nat)
  body : Option (List Nat)
  form : Option Form
  file : Option SendFile
  deriving DecidableEq

/-- fetch.cxy 226-237: a new request. -/
def Request.new : Request := ⟨str "GET", [], [], [], none, none, none⟩

/-- fetch.cxy 307-315 `contentLength` -/
def Request.contentLength (r : Request) : Nat :=
  match r.body with
  | some b => wrap b.length
  | none =>
    match r.form with
    | some f => f.size
    | none =>
      match r.file with
      | some s => s.count
      | none => 0

/-- fetch.cxy 317-321 `encodeHeaders` -/
def encodeHeaders (hs : List (List Nat × List Nat)) : List Nat := hs.flatMap fun h => h.1 ++ str ": " ++ h.2 ++ crlf

/-- fetch.cxy 338-353: the request line and the headers, up to the empty line. -/
def Request.head (r : Request) (date : List Nat) : List Nat :=
  r.method ++ str " " ++ (if r.resource.isEmpty then str "/" else r.resource) ++ encodeArgs r.args ++ str " HTTP/1.1" ++ crlf ++
  encodeHeaders r.headers ++
  (if r.contentLength > 0 then str "Content-Length: " ++ number r.contentLength ++ crlf else []) ++
  str "Date: " ++ date ++ crlf

/-- fetch.cxy 358-369: the body. -/
def Request.payload (r : Request) : List Nat :=
  match r.body with
  | some b => b
  | none =>
    match r.file with
    | some s => sendFile s.content s.count 0
    | none =>
      match r.form with
      | some f => f.encode
      | none => []

/-- fetch.cxy 338-371 `submit` -/
def Request.submit (r : Request) (date : List Nat) : List Nat :=
  r.head date ++ crlf ++ if r.contentLength = 0 then [] else r.payload ++ crlf

/-! ## Building requests in a session -/

/-- What a builder does to a request. -/
inductive Step where
  /-- `req.body() << text` -/
  | write (text : List Nat)
  /-- `req.body(text)` -/
  | body (text : List Nat)
  | form (f : Form)
  /-- `req.setFile(path, type)`: the bytes of the file at `path`. -/
  | file (content contentType : List Nat)
  | header (name value : List Nat)
  | arg (name value : List Nat)

/-- ASCII upper case, as the case-insensitive maps compare (runtime/builtins.cxy 1261-1290). -/
def upper (c : Nat) : Nat := if 97 ≤ c ∧ c ≤ 122 then c - 32 else c

/-- Assigning a value in a header map (http.cxy 237): names are compared without regard to case. -/
def putHeader (k v : List Nat) : List (List Nat × List Nat) → List (List Nat × List Nat)
  | [] => [(k, v)]
  | (k', v') :: rest => if k'.map upper = k.map upper then (k', v) :: rest else (k', v') :: putHeader k v rest

/-- Assigning a value in the map of arguments. -/
def putArg (k v : List Nat) : List (List Nat × List Nat) → List (List Nat × List Nat)
  | [] => [(k, v)]
  | (k', v') :: rest => if k' = k then (k', v) :: rest else (k', v') :: putArg k v rest

/-- fetch.cxy 255 `setContentType` -/
def Request.setContentType (r : Request) (v : List Nat) : Request :=
  { r with headers := putHeader (str "Content-Type") v r.headers }

/-- fetch.cxy 239-288: one step; `none` is a raised `HttpError`. -/
def Request.step (r : Request) : Step → Option Request
  | .write t =>
    if r.form.isSome || r.file.isSome then none
    else some { r with body := some ((match r.body with | some b => b | none => []) ++ t) }
  | .body t =>
    if r.form.isSome || r.file.isSome then none
    else some { r with body := some (match r.body with | some b => b | none => t) }
  | .form f =>
    if r.body.isSome || r.file.isSome || r.form.isSome then none
    else some { (r.setContentType (if f.multipart then str "multipart/form-data; boundary=" ++ f.boundary
                                   else str "application/x-www-form-url-encoded")) with form := some f }
  | .file c ct =>
    if r.body.isSome || r.form.isSome || r.file.isSome then none
    else some ({ r with file := some ⟨c, wrap c.length, 0⟩ }.setContentType ct)
  | .header k v => some { r with headers := putHeader k v r.headers }
  | .arg k v => some { r with args := putArg k v r.args }

/-- The steps of a builder, in order. -/
def Request.run (r : Request) : List Step → Option Request
  | [] => some r
  | s :: ss => (r.step s).bind fun r => r.run ss

/-- fetch.cxy 290-305 `cleanup` and `reset` with `clear` false -/
def Request.reset (r : Request) (method resource : List Nat) : Request :=
  if method ≠ r.method ∨ r.resource ≠ resource then ⟨method, resource, [], [], none, none, none⟩ else r

/-- fetch.cxy 566-584 `Session.perform`: the request that is submitted, for the session's headers and a builder. -/
def perform (r : Request) (session : List (List Nat × List Nat)) (method resource : List Nat) (build : List Step) :
    Option Request :=
  (session.foldl (fun r h => { r with headers := putHeader h.1 h.2 r.headers }) (r.reset method resource)).run build

end Verif.Http
