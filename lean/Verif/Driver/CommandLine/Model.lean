/-!
# Model of the command line of the compiler (`src/cxy/core/args.c`, `src/cxy/core/args.h`, `src/cxy/driver/options.c`)

Strings are lists of bytes without the terminator.  The argument vector is an array of strings which the parser rewrites
in place, as the code does: the names of the files to compile are stored over the arguments already read, and `main`
(driver/main.c 30-31) compiles `argv[1]` to `argv[argc - 1]` afterwards.  Flags are numbered with the global ones first
(the order in which args.c 312-335 looks them up), then those of the chosen command.  The usage text is not modelled.
-/
namespace Verif.CommandLine

abbrev Str := List Nat

/-- The bytes of an ASCII string of the source. -/
def bytes (s : String) : Str := s.toList.map Char.toNat

/-- args.h 25-32 `CmdFlagValue`.  `pending` is the state `cmdNoValue` with elements already in the array (options.c 100-162
push without changing the state).  An element is a text and, for `--define`, the text after the `=`.  A number is a
`double`; every one that is stored is an integer, and only those an `int` can hold are used. -/
inductive Val where
  | unset
  | pending (xs : List (Str × Option Str))
  | num (n : Int)
  | text (s : Option Str)
  | list (xs : List (Str × Option Str))
  deriving DecidableEq, Repr

/-- The validators in use: none (`Opt`), args.c 409 `cmdParseString`, 472 `cmdParseInteger`, 602 `cmdParseEnumValue`, and
options.c 65 `cmdOptimizationLevel`, 147 `cmdArrayArgument`, 102 `cmdCompilerDefine`. -/
inductive Kind where
  | switch
  | text
  | int
  | oneOf (table : List (Str × Int))
  | level
  | many
  | define
  deriving DecidableEq, Repr

/-- args.h 39-50 `CmdFlag`; `sf` is 0 when there is no short form. -/
structure Flag where
  name : Str
  sf : Nat := 0
  kind : Kind
  dflt : Option Str := none
  deriving DecidableEq, Repr

/-- args.h 63-75 `CmdCommand`; `npos` is the number of positional arguments declared. -/
structure Cmd where
  name : Str
  flags : List Flag
  npos : Nat := 0

/-- What becomes of a step: it goes on, an error text is left in `P->error`, or the behaviour is undefined. -/
inductive R (α : Type) where
  | ok (a : α)
  | fail (msg : Str)
  | ub
  deriving DecidableEq, Repr

def R.bind {α β : Type} : R α → (α → R β) → R β
  | .ok a, f => f a
  | .fail m, _ => .fail m
  | .ub, _ => .ub

/-- `sprintf(P->error, ...)`, with args.h 87 `char error[128]`: the text and its terminator must fit. -/
def report {α : Type} (msg : Str) : R α := if msg.length < 128 then .fail msg else .ub

/-- `isspace` in the C locale. -/
def isSpace (c : Nat) : Bool := c == 32 || (decide (9 ≤ c) && decide (c ≤ 13))

def isDigit (c : Nat) : Bool := decide (48 ≤ c) && decide (c ≤ 57)

def isAlpha (c : Nat) : Bool := (decide (65 ≤ c) && decide (c ≤ 90)) || (decide (97 ≤ c) && decide (c ≤ 122))

def isWord (c : Nat) : Bool := isAlpha c || isDigit c || c == 95

/-- The value of a digit in a base up to 16. -/
def digit (base c : Nat) : Option Nat :=
  let d := if isDigit c then some (c - 48)
    else if 97 ≤ c ∧ c ≤ 102 then some (c - 87)
    else if 65 ≤ c ∧ c ≤ 70 then some (c - 55)
    else none
  d.bind fun d => if d < base then some d else none

/-- The longest run of digits: their value, how many there are, and what follows. -/
def digits (base : Nat) : Nat → Nat → Str → Nat × Nat × Str
  | acc, k, [] => (acc, k, [])
  | acc, k, c :: cs =>
    match digit base c with
    | some d => digits base (acc * base + d) (k + 1) cs
    | none => (acc, k, c :: cs)

/-- The base and the digits of a number for `strtoll(.., 0)`: `0x` counts only before a hexadecimal digit. -/
def radix : Str → Nat × Str
  | 48 :: x :: c :: rest =>
    if (x = 120 ∨ x = 88) ∧ (digit 16 c).isSome then (16, c :: rest) else (8, 48 :: x :: c :: rest)
  | 48 :: rest => (8, 48 :: rest)
  | s => (10, s)

/-- One more than `LLONG_MAX`. -/
def llBound : Nat := 2 ^ 63

/-- `strtoll(str, &end, 0)`: the value and what `end` points to; `none` when out of range.  A number that does not begin
with a digit leaves `end` at the start of the whole text. -/
def strtoll (s : Str) : Option (Int × Str) :=
  let t := s.dropWhile isSpace
  let (neg, u) := match t with
    | 45 :: u => (true, u)
    | 43 :: u => (false, u)
    | u => (false, u)
  let (base, v) := radix u
  let (n, k, rest) := digits base 0 0 v
  if k = 0 then some (0, s)
  else if neg then (if n ≤ llBound then some (-(n : Int), rest) else none)
  else (if n < llBound then some (n, rest) else none)

/-- options.c 102-145 `cmdCompilerDefine`, from line 116: the name and the value. -/
def parseDefine (s : Str) : Option (Str × Option Str) :=
  let it := s.dropWhile isSpace
  match it with
  | [] => none
  | c :: _ =>
    if isAlpha c || c == 95 then
      match it.dropWhile isWord with
      | [] => some (it.takeWhile isWord, none)
      | 61 :: v => some (it.takeWhile isWord, some v)
      | _ => none
    else none

def listed : Val → List (Str × Option Str)
  | .pending xs => xs
  | _ => []

def msgNumber (s name : Str) : Str :=
  bytes "error: value '" ++ s ++ bytes "' passed to flag '" ++ name ++ bytes "' cannot be parsed as a number\n"

def msgLevel (s name : Str) : Str :=
  bytes "error: value '" ++ s ++ bytes "' passed to flag '" ++ name ++
    bytes "' cannot be parsed as an optimization flag, supported values -O1, -O2, -O3 -Os -Od\n"

def msgMissing (name : Str) : Str := bytes "error: command line argument '" ++ name ++ bytes "' is missing a value"

/-- The message names the flag, not the variable. -/
def msgDefine (name : Str) : Str :=
  bytes "error: define variable '" ++ name ++ bytes "' does not conform to cxy variable specification"

/-- The validators.  `P->error` is empty when one fails without a message (`cmdParseEnumValue`).  That function skips the
terminator of an empty text and reads what follows it in memory.  `errno` is taken not to be `ERANGE` beforehand. -/
def validate (kind : Kind) (name : Str) (v : Val) (s : Str) : R Val :=
  match kind with
  | .switch => .ok v
  | .text => .ok (.text (some s))
  | .int =>
    match strtoll s with
    | some (n, []) => .ok (.num n)
    | _ => report (msgNumber s name)
  | .oneOf table =>
    if s = [] then .ub
    else match table.find? (fun e => e.1 == s) with
      | some e => .ok (.num e.2)
      | none => .fail []
  | .level =>
    match s with
    | [c] =>
      if c = 48 ∨ c = 100 then .ok (.num 48)
      else if c = 49 then .ok (.num 49)
      else if c = 50 then .ok (.num 50)
      else if c = 51 ∨ c = 115 then .ok (.num 51)
      else report (msgLevel s name)
    | _ => report (msgLevel s name)
  | .many => if s = [] then report (msgMissing name) else .ok (.pending (listed v ++ [(s, none)]))
  | .define =>
    if s = [] then report (msgMissing name)
    else match parseDefine s with
      | some d => .ok (.pending (listed v ++ [d]))
      | none => report (msgDefine name)

/-- The byte at an index, the terminator at the end. -/
def at' (s : Str) (i : Nat) : Nat := s.getD i 0

/-- args.c 68-81 -/
def isLong (s : Str) : Bool := at' s 0 == 45 && at' s 1 == 45 && at' s 2 != 0
def isShort (s : Str) : Bool := at' s 0 == 45 && at' s 1 != 45 && at' s 1 != 0
def isIgnore (s : Str) : Bool := at' s 0 == 45 && at' s 1 == 45 && at' s 2 == 0

/-- args.c 83-97 `cmdFindByName`, over the global flags and those of the command. -/
def findByName (flags : List Flag) (name : Str) : Option Nat := flags.findIdx? fun f => f.name == name

/-- args.c 98-108 `cmdFindByShortFormat` -/
def findByShort (flags : List Flag) (c : Nat) : Option Nat := flags.findIdx? fun f => f.sf != 0 && f.sf == c

/-- args.c 303-335: which flag an argument names and the value in the argument itself. -/
def named (flags : List Flag) (a : Str) : Option Nat × Option Str :=
  if isShort a then
    (findByShort flags (at' a 1), if a.drop 2 = [] then none else some (a.drop 2))
  else
    let body := a.drop 2
    let name := body.takeWhile (fun c => c != 61)
    let val := match body.dropWhile (fun c => c != 61) with
      | [] => none
      | _ :: v => some (v.dropWhile isSpace)
    (findByName flags name, val)

/-- The parser: the argument vector, the values of the flags, the number of file names written back, and the positional
arguments of a command that declares some. -/
structure St where
  arr : Nat → Str
  vals : Nat → Val
  w : Nat
  pos : List Str

def upd {α : Type} (f : Nat → α) (i : Nat) (x : α) : Nat → α := fun j => if j = i then x else f j

def msgUnknown (a : Str) : Str := bytes "error: unrecognized command argument '" ++ a ++ bytes "'\n"

def msgNoValue (name : Str) : Str := bytes "error: command flag '" ++ name ++ bytes "' expects a value\n"

def msgSwitch (name : Str) : Str := bytes "error: unexpected value passed to flag '" ++ name ++ bytes "'\n"

/-- args.c 333-337; the number of positional arguments is 1 in the only command that has any (args.h `CMDL_HELP_CMD`). -/
def msgPositional : Str := bytes "error: unexpected number of positional arguments passed, expecting 1\n"

def flagAt (flags : List Flag) (k : Nat) : Flag := flags.getD k ⟨[], 0, .switch, none⟩

/-- args.c 328-350: an argument which is not a flag. -/
def plain (npos base : Nat) (st : St) (a : Str) : R St :=
  if npos = 0 then .ok { st with arr := upd st.arr (base + st.w) a, w := st.w + 1 }
  else if st.pos.length ≥ npos then report msgPositional
  else .ok { st with pos := st.pos ++ [a] }

/-- args.c 290-388, the loop of `cmdParseCommandArguments`; the number of arguments left, the index of the next one, and
`base`, the index where the first file name is stored.  After the last argument there is a null pointer, so a flag without
its value is found out. -/
def loop (flags : List Flag) (npos base : Nat) : Nat → Nat → St → R St
  | 0, _, st => .ok st
  | n + 1, i, st =>
    let a := st.arr i
    if isIgnore a then .ok st
    else if isShort a || isLong a then
      match named flags a with
      | (none, _) => report (msgUnknown a)
      | (some k, val) =>
        let f := flagAt flags k
        if f.kind = .switch then
          match val with
          | some _ => report (msgSwitch f.name)
          | none => loop flags npos base n (i + 1) { st with vals := upd st.vals k (.num 1) }
        else
          match val with
          | some v =>
            (validate f.kind f.name (st.vals k) v).bind fun x =>
              loop flags npos base n (i + 1) { st with vals := upd st.vals k x }
          | none =>
            match n with
            | 0 => report (msgNoValue f.name)
            | n' + 1 =>
              (validate f.kind f.name (st.vals k) (st.arr (i + 1))).bind fun x =>
                loop flags npos base n' (i + 2) { st with vals := upd st.vals k x }
    else (plain npos base st a).bind fun st => loop flags npos base n (i + 1) st

def msgRequired (name cmd : Str) : Str :=
  bytes "Missing flag '" ++ name ++ bytes "' required by command '" ++ cmd ++ bytes "'\n"

/-- args.c 766-794 and 796-824: the value of a flag after the defaults are filled in. -/
def settle (cmd : Str) (f : Flag) (v : Val) : R Val :=
  match v with
  | .num n => .ok (.num n)
  | .text s => .ok (.text s)
  | .list xs => .ok (.list xs)
  | v =>
    if f.kind = .switch then .ok (.num 0)
    else match f.dflt with
      | none => report (msgRequired f.name cmd)
      | some d =>
        if d = [] then .ok (.text none)
        else if at' d 0 = 91 ∧ at' d 1 = 93 then .ok (.list (listed v))
        else validate f.kind f.name v d

/-- args.c 766-824: the flags of the command first, then the global ones (`order` lists their numbers). -/
def settleAll (cmd : Str) (flags : List Flag) : List Nat → (Nat → Val) → R (Nat → Val)
  | [], vals => .ok vals
  | k :: ks, vals =>
    (settle cmd (flagAt flags k) (vals k)).bind fun x => settleAll cmd flags ks (upd vals k x)

/-- A finished parse. -/
inductive Done where
  /-- The values of the flags, the number of files, and the argument vector `main` reads them from. -/
  | run (cmd : Str) (vals : Nat → Val) (files : Nat) (arr : Nat → Str)
  /-- args.c 394-408 and options.c 477-481: the version or the usage is printed. -/
  | version
  | help (cmd : Option Str)

/-- args.c 110-126 `cmdFindCommandByName` -/
def findCommand (cmds : List Cmd) (dflt : Cmd) (name : Str) : Option Cmd :=
  if name = [] then some dflt else cmds.find? fun c => c.name == name

/-- args.c 741-753: the command, the index of the first argument and the number of arguments. -/
def choose (cmds : List Cmd) (dflt : Cmd) (argc : Nat) (arr : Nat → Str) : Cmd × Nat × Nat :=
  if argc ≤ 1 then (dflt, 1, 0)
  else if at' (arr 1) 0 = 45 then (dflt, 1, argc - 1)
  else match findCommand cmds dflt (arr 1) with
    | some c => (c, 2, argc - 2)
    | none => (dflt, 1, argc - 1)

/-- args.c 688-853 `parseCommandLineArguments_`, after the checks of the tables; `globals` begins with `version` and
`help`.  `argc` counts the name of the program. -/
def parse (globals : List Flag) (cmds : List Cmd) (dflt : Cmd) (argc : Nat) (arr : Nat → Str) : R Done :=
  let (cmd, first, n) := choose cmds dflt argc arr
  let flags := globals ++ cmd.flags
  let base := if cmd.name = arr (first - 1) then first - 1 else first
  (loop flags cmd.npos base n first ⟨arr, fun _ => .unset, 0, []⟩).bind fun st =>
    if st.vals 0 = .num 1 then .ok .version
    else if st.vals 1 = .num 1 then .ok (.help (if first = 1 then none else some cmd.name))
    else
      let own := (List.range cmd.flags.length).map (· + globals.length)
      (settleAll cmd.name flags own st.vals).bind fun vals =>
        (settleAll cmd.name flags (List.range globals.length) vals).bind fun vals =>
          if cmd.npos ≠ 0 then .ok (.help st.pos.head?) else .ok (.run cmd.name vals st.w st.arr)

/-- main.c 30-31: what is compiled. -/
def files (n : Nat) (arr : Nat → Str) : List Str := (List.range n).map fun i => arr (i + 1)

/-- What a run of the compiler does with its command line. -/
inductive Outcome where
  | compile (cmd : Str) (vals : Nat → Val) (files : List Str)
  | version
  | help (cmd : Option Str)
  /-- An error is printed and nothing is compiled. -/
  | error (text : Str)
  | ub

/-- core/format.c 278-336 `format` with no arguments, on the text of an error: `none` is a failed assertion or a read
through the null pointer `args`.  `tab` is written after a newline once for every level of indentation. -/
def render (tab : Str) : Nat → Str → Option Str
  | _, [] => some []
  | ind, 10 :: rest => (render tab ind rest).map fun o => 10 :: (List.replicate ind tab).flatten ++ o
  | ind, 123 :: 123 :: rest => (render tab ind rest).map fun o => 123 :: o
  | ind, 123 :: 62 :: 125 :: rest => render tab (ind + 1) rest
  | ind, 123 :: 60 :: 125 :: rest => if ind = 0 then none else render tab (ind - 1) rest
  | ind, c :: rest => if c = 123 then none else (render tab ind rest).map fun o => c :: o

def noInput : Str := bytes "no input file, run with '--help' to display usage"

/-- options.c 387-558 `parseCommandLineOptions` and main.c 18-31: the text of an error is used as a format (options.c
483).  The options for warnings and for dumps are read from the values afterwards and modelled apart. -/
def command (globals : List Flag) (cmds : List Cmd) (dflt : Cmd) (argc : Nat) (arr : Nat → Str) : Outcome :=
  match parse globals cmds dflt argc arr with
  | .ok .version => .version
  | .ok (.help c) => .help c
  | .ok (.run cmd vals n arr) => if n = 0 then .error noInput else .compile cmd vals (files n arr)
  | .fail m => match render (bytes "    ") 0 m with
    | some o => .error o
    | none => .ub
  | .ub => .ub

end Verif.CommandLine
