import Verif.Std.Http.Url
/-!
# Model of the file server: `src/cxy/stdlib/fserver.cxy` lines 40-72, 88-160, 238-247 and 261-560 and `path.cxy` 40-48

The file system gives for the names from the root what is there.  `realpath`, `stat` and `open` of the C library are
modelled on it: they follow at most 40 symbolic links; limits on the length of paths and names, permissions, and changes
of the file system while a request is answered are left out.  A mapped file and a file that was read are both the bytes
at the time of loading; `enableSendFile` is off, as it is by default.  The hash maps are lists of pairs, found by the
comparison that the maps are declared with (`EqualsCase`, `builtins.cxy` 1261-1267); a time is a number of seconds.
The header `If-Modified-Since` is given as its time, and of the headers of a reply only `Content-Range` is kept.
-/
namespace Verif.FileServer

open Verif.Http (View lift str number)

abbrev Name := List Nat

/-- What may be found in the file system. -/
inductive Kind where
  | dir
  | file (content : List Nat) (mtime : Nat)
  | link (target : List Nat)
  deriving DecidableEq

/-- What is found under the names from the root of the file system. -/
abbrev Fs := List Name → Option Kind

/-- The parts of a text between slashes. -/
def split : List Nat → List Name
  | [] => [[]]
  | c :: cs =>
    if c = 47 then [] :: split cs
    else match split cs with
      | n :: ns => (c :: n) :: ns
      | [] => [[c]]

/-- The path of names from the root. -/
def pathText (names : List Name) : List Nat := if names = [] then [47] else names.flatMap (47 :: ·)

/-- Path resolution as in POSIX: `at_` is the directory that was reached, `todo` the parts that are left. -/
def resolve (fs : Fs) (links : Nat) (at_ : List Name) (todo : List Name) : Option (List Name) :=
  match todo with
  | [] => if (fs at_).isSome then some at_ else none
  | c :: cs =>
    if fs at_ = some .dir then
      if c = [] ∨ c = [46] then resolve fs links at_ cs
      else if c = [46, 46] then resolve fs links at_.dropLast cs
      else match fs (at_ ++ [c]) with
        | none => none
        | some (.link t) =>
          match links with
          | 0 => none
          | l + 1 => resolve fs l (if t.head? = some 47 then [] else at_) (split t ++ cs)
        | some _ => resolve fs links (at_ ++ [c]) cs
    else none
  termination_by (links, todo.length)

/-- C `realpath` for an absolute path: the names from the root, without symbolic links. -/
def realpath (fs : Fs) (path : List Nat) : Option (List Name) :=
  if path.head? = some 47 then resolve fs 40 [] (split path) else none

/-- What `stat` and `open` find. -/
def lookup (fs : Fs) (path : List Nat) : Option Kind := (realpath fs path).bind fs

/-- path.cxy 40-48 `/` -/
def join (base suffix : List Nat) : List Nat :=
  if base.getLast? = some 47 then base ++ suffix else base ++ 47 :: suffix

/-- The first `n` bytes of a buffer that holds the text and is zero otherwise. -/
def bufferTake (n : Nat) (text : List Nat) : List Nat := (text ++ List.replicate n 0).take n

/-- fserver.cxy 238-247 `setupWwwDir`: the canonical path of the root; `left` is what is left in the buffer when `realpath`
fails (nothing with musl, and POSIX does not say). -/
def setupWwwDir (fs : Fs) (root left : List Nat) : List Nat :=
  match realpath fs root with
  | some names => pathText names
  | none => left

/-- fserver.cxy 531-559 `fileExists` -/
def fileExists (fs : Fs) (www rel : List Nat) : Option (List Nat) :=
  match realpath fs (join www rel) with
  | none => none
  | some names =>
    let absolute := pathText names
    if Str.viewEq (bufferTake www.length absolute) www then
      match lookup fs absolute with
      | some (.file _ _) => some absolute
      | _ => none
    else none

/-! ## Caching -/

/-- C `tolower` in the C locale. -/
def lower (c : Nat) : Nat := if 65 ≤ c ∧ c ≤ 90 then c + 32 else c

/-- builtins.cxy 1261-1267 `EqualsCase`, for texts without NUL. -/
def sameCase (a b : List Nat) : Bool := decide (a.map lower = b.map lower)

/-- fserver.cxy 50-61 `CachedFile` -/
structure Cached where
  path : List Nat
  data : List Nat
  lastMod : Nat
  deriving DecidableEq

abbrev Cache := List (List Nat × Cached)

def find {β : Type} (m : List (List Nat × β)) (k : List Nat) : Option β := (m.find? fun e => sameCase e.1 k).map (·.2)

def update {β : Type} (m : List (List Nat × β)) (k : List Nat) (v : β) : List (List Nat × β) :=
  m.map fun e => if sameCase e.1 k then (e.1, v) else e

def remove {β : Type} (m : List (List Nat × β)) (k : List Nat) : List (List Nat × β) := m.filter fun e => !sameCase e.1 k

/-- The time of modification that `stat` leaves in a structure of zeros. -/
def mtime (fs : Fs) (path : List Nat) : Nat :=
  match lookup fs path with
  | some (.file _ t) => t
  | _ => 0

/-- fserver.cxy 415-489 `loadFile` with `readFile` (491-529) -/
def loadFile (fs : Fs) (cache : Cache) (path : List Nat) : Cache × Option Cached :=
  match find cache path with
  | none =>
    match lookup fs path with
    | some (.file content t) => (cache ++ [(path, ⟨path, content, t⟩)], some ⟨path, content, t⟩)
    | _ => (cache, none)
  | some cf =>
    if cf.lastMod ≠ mtime fs cf.path then
      match lookup fs cf.path with
      | some (.file content t) => (update cache path ⟨cf.path, content, t⟩, some ⟨cf.path, content, t⟩)
      | _ => (remove cache path, none)
    else (cache, some cf)

/-! ## Ranges -/

/-- Conversion of an `i64` to `u64`. -/
def toU64 (i : Int) : Nat := (i % (2 ^ 64 : Nat)).toNat

/-- fserver.cxy 350: `while(s.[i] == ' ' as char) i++`; the text is followed by a NUL byte. -/
def skipBlanks (s : View) (i : Nat) : Nat := i + (((s.text ++ s.after).drop i).takeWhile (· = 32)).length

/-- fserver.cxy 348-377: the loop of `buildRangeResponse`, with a bound on its iterations; `none` is `RequestRangeInvalid`. -/
def rangeLoop (len : Nat) : Nat → View → Nat → List (Int × Int) → Out (Option (List (Int × Int)))
  | 0, _, _, _ => .diverge
  | fuel + 1, s, i, ranges =>
    if i < s.text.length then
      let i := skipBlanks s i
      (Http.strtoll (s.text ++ s.after)).bind fun start =>
      (lift (Str.indexOf s.text 45)).bind fun tmp =>
      (match tmp with
        | some k => (s.sub (k + 1) (-1)).bind fun s' => (Http.strtoll (s'.text ++ s'.after)).bind fun e => Out.ok (k, s', e)
        | none => .ok (i, s, (len : Int))).bind fun (i, s, end_) =>
      if start > end_ ∨ toU64 start ≥ len ∨ toU64 end_ > len then .ok none
      else
        (lift (Str.indexOf s.text 44)).bind fun tmp =>
        rangeLoop len fuel s (match tmp with | some k => k + 1 | none => i) (ranges ++ [(start, end_)])
    else .ok (some ranges)

/-- A reply: the status, the content and the range that it is said to be. -/
structure Reply where
  status : Nat
  body : Option (List Nat)
  range : Option (Int × Int × Nat)
  deriving DecidableEq

/-- A reply of only a status. -/
def Reply.plain (status : Nat) : Reply := ⟨status, none, none⟩

/-- fserver.cxy 339-396 `buildRangeResponse` -/
def buildRangeResponse (fuel : Nat) (data : List Nat) (rng : List Nat) : Out Reply :=
  (rangeLoop data.length fuel ⟨rng, [0]⟩ 0 []).bind fun
  | none => .ok (.plain 416)
  | some [(a, b)] => (lift (Str.substr data (toU64 a) b)).bind fun part => .ok ⟨206, some part, some (a, b, data.length)⟩
  | some [] => .ok (.plain 200)
  | some _ => .ok (.plain 406)

/-! ## Requests -/

/-- fserver.cxy 88-104 `MimeType`, what is used of it. -/
structure Mime where
  allowCaching : Bool
  allowRange : Bool
  deriving DecidableEq

/-- The parts of `FileServer` that stay, fserver.cxy 107-117. -/
structure Config where
  www : List Nat
  mimes : List (List Nat × Mime)
  redirects : List (List Nat × List Nat)

/-- A request for the file server. -/
structure Req where
  get : Bool
  uri : List Nat
  since : Option Nat
  range : Option (List Nat)

/-- fserver.cxy 324-337 `prepareResponse` -/
def prepareResponse (fuel : Nat) (req : Req) (cf : Cached) (mm : Mime) : Out Reply :=
  match req.range with
  | some rng => if mm.allowRange then buildRangeResponse fuel cf.data rng else .ok ⟨200, some cf.data, none⟩
  | none => .ok ⟨200, some cf.data, none⟩

/-- fserver.cxy 277-285: the client has the file already. -/
def notModified (mm : Mime) (cf : Cached) (since : Option Nat) : Bool :=
  mm.allowCaching && match since with | some t => decide (cf.lastMod ≤ t) | none => false

/-- fserver.cxy 261-302 `requestPrologue`, 304-322 `get` and `head` -/
def answer (fuel : Nat) (cfg : Config) (fs : Fs) (cache : Cache) (req : Req) (path ext : List Nat) : Out (Cache × Reply) :=
  match find cfg.mimes ext with
  | none => .ok (cache, .plain 404)
  | some mm =>
    match loadFile fs cache path with
    | (cache, none) => .ok (cache, .plain 404)
    | (cache, some cf) =>
      if notModified mm cf req.since then .ok (cache, .plain 304)
      else if req.get then (prepareResponse fuel req cf mm).bind fun r => .ok (cache, r)
      else .ok (cache, .plain 200)

/-- fserver.cxy 125-147: the path of the file that is asked for, and the place of its extension. -/
def locate (cfg : Config) (uri : List Nat) : Out (Option (List Nat × Nat)) :=
  match (if uri = [] then find cfg.redirects [47] else some uri) with
  | none => .ok none
  | some path =>
    (lift (Str.rIndexOf path 46)).bind fun
    | some i => .ok (some (path, i))
    | none =>
      match find cfg.redirects path with
      | none => .ok none
      | some path =>
        (lift (Str.rIndexOf path 46)).bind fun
        | some i => .ok (some (path, i))
        | none => .abort

/-- fserver.cxy 122-160: the handler. -/
def handle (fuel : Nat) (cfg : Config) (fs : Fs) (cache : Cache) (req : Req) : Out (Cache × Reply) :=
  (locate cfg req.uri).bind fun
  | none => .ok (cache, .plain 404)
  | some (path, i) =>
    match fileExists fs cfg.www path with
    | none => .ok (cache, .plain 404)
    | some absolute => (lift (Str.substr path i (-1))).bind fun ext => answer fuel cfg fs cache req absolute ext

/-- A run of the server: requests, each with the file system at its time; the replies. -/
def run (cfg : Config) : Cache → List (Fs × Req × Nat) → Out (Cache × List Reply)
  | cache, [] => .ok (cache, [])
  | cache, (fs, req, fuel) :: rest =>
    (handle fuel cfg fs cache req).bind fun (cache, reply) => (run cfg cache rest).bind fun (cache, replies) => .ok (cache, reply :: replies)

end Verif.FileServer
