/-!
# Finding the file of an import or include

Code modelled: /repo/src/cxy/driver/driver.c, `isImportModuleACHeader` (334–338),
`getModuleLocation` (340–389) and `getIncludeFileLocation` (391–400), and the use of
the result in `compileModule` (402–412) and in
/repo/src/cxy/lang/frontend/parser.c, `advanceLexer_` (247–276) and `parseImportDecl`
(3541–3547).

The buffer `path` has `PATH_MAX` bytes and is not initialised: a byte that was not
written is `none`, a write outside and a read of an unset byte are undefined
behaviour.  `realpath` is any function from texts to the path of an existing file or
nothing.  The texts are C strings, so they hold no zero byte (the theorems say so where
they need it); 46 is the dot, 47 the slash.  `realpath` and `access` agree on which files exist.
-/

namespace Verif.ModPath

/-- `PATH_MAX` of Linux, the size of `path` (line 347). -/
def pathMax : Nat := 4096

/-- The buffer: what has been written to each byte. -/
abbrev Buf := Nat → Option Nat

/-- `memcpy(&path[i], bytes, n)` and stores of single bytes; nothing if they leave
the buffer. -/
def put (b : Buf) (i : Nat) (bytes : List Nat) : Option Buf :=
  if i + bytes.length ≤ pathMax then
    some (fun k => if i ≤ k ∧ k < i + bytes.length then bytes[k - i]? else b k)
  else none

/-- What `realpath` reads of the buffer from byte `i` on: up to the zero byte; nothing
if it meets an unset byte or the end of the buffer. -/
def cstr (b : Buf) : Nat → Nat → Option (List Nat)
  | 0, _ => none
  | n + 1, i =>
    match b i with
    | none => none
    | some 0 => some []
    | some c => (cstr b n (i + 1)).map (c :: ·)

/-- `strrchr(text, '/') - text`. -/
def lastSlash : List Nat → Option Nat
  | [] => none
  | c :: t =>
    match lastSlash t with
    | some i => some (i + 1)
    | none => if c = 47 then some 0 else none

/-- What the driver knows: the directory of the library, if given by option or
environment (options.c 530–533), and the current directory. -/
structure Driver where
  libDir : Option (List Nat)
  currentDir : List Nat

/-- What becomes of a look-up before `realpath`: undefined behaviour, the text is
returned as it is, or `realpath` is asked. -/
inductive Ask where
  | ub
  | asIs (p : List Nat)
  | real (p : List Nat) (reports : Bool)
  deriving DecidableEq, Repr

/-- Reading the finished buffer. -/
def ask (b : Option Buf) (reports : Bool) : Ask :=
  match b with
  | none => .ub
  | some b =>
    match cstr b pathMax 0 with
    | none => .ub
    | some p => .real p reports

/-- driver.c 340–389 up to the calls of `realpath`. -/
def locate (d : Driver) (importer path : List Nat) (isInclude : Bool) : Ask :=
  if path.take 2 = [46, 47] then
    -- 349–360
    match lastSlash importer with
    | none => .asIs path
    | some s =>
      let rest := path.drop 2
      ask ((((put (fun _ => none) 0 (importer.take (s + 1))).bind
        (put · (s + 1) rest)).bind (put · (s + 1 + rest.length) [0]))) false
  else
    match isInclude, d.libDir with
    | false, some lib =>
      -- 361–370
      match lib.getLast? with
      | none => .ub
      | some l =>
        let b := put (fun _ => none) 0 lib
        let b := if l ≠ 47 then b.bind (put · lib.length [47]) else b
        let n := if l ≠ 47 then lib.length + 1 else lib.length
        ask ((b.bind (put · n path)).bind (put · (n + path.length) [0])) false
    | _, _ =>
      -- 371–388
      let cur := d.currentDir
      match cur.getLast? with
      | none => .ub
      | some l =>
        let b := put (fun _ => none) 0 cur
        let b := if l ≠ 47 then b.bind (put · cur.length [47]) else b
        ask ((b.bind (put · (cur.length + 1) path)).bind
          (put · (cur.length + 1 + path.length) [0])) true

/-- What the user sees of a look-up: undefined behaviour, a file, or an error, whose
message names the import or does not. -/
inductive Seen where
  | ub
  | file (p : List Nat)
  | error (reported : Bool)
  deriving DecidableEq, Repr

/-- An import (driver.c 409–424 and parser.c 3541–3547): a missing module is reported
by the parser whatever the driver said. -/
def importFile (realpath : List Nat → Option (List Nat)) (d : Driver)
    (importer path : List Nat) : Seen :=
  match locate d importer path false with
  | .ub => .ub
  | .asIs p => if (realpath p).isSome then .file p else .error true
  | .real p _ =>
    match realpath p with
    | some q => .file q
    | none => .error true

/-- An include (parser.c 262–273): when the driver returns nothing the parse is
abandoned without a message (265), so only what the driver said is seen. -/
def includeFile (realpath : List Nat → Option (List Nat)) (d : Driver)
    (importer path : List Nat) : Seen :=
  match locate d importer path true with
  | .ub => .ub
  | .asIs p => if (realpath p).isSome then .file p else .error true
  | .real p reports =>
    match realpath p with
    | some q => .file q
    | none => .error reports

end Verif.ModPath
