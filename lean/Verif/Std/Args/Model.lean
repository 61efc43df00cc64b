/-!
# Model of command-line parsing (`src/cxy/stdlib/args.cxy`, `Command.parse`)

Arguments are C strings: lists of non-zero bytes, with a NUL behind the last one.  The hash map of parameters
(lines 44-66) is a list of parameters and the map of parsed values an association list; the hash map itself is
modelled in `Std/HashMap`.  `var i = 0` (line 90) is an `i8`: that is the type of the literal.
-/
namespace Verif.Args

abbrev Str := List Nat

/-- args.cxy 10-17 `Param`, as the parser uses it; `sf = 0` is `NOSF`. -/
structure Param where
  name : Str
  sf : Nat
  option : Bool
  default : Str
  deriving DecidableEq, Repr

/-- args.cxy 71-80: what `parse` fills in. -/
structure St where
  parsed : List (Str × Str)
  positionals : List Str
  rest : List Str
  deriving DecidableEq, Repr

/-- A result, a raised `ParserError`, a failed assertion, or an endless loop. -/
inductive R (β : Type) where
  | ok (b : β)
  | raised
  | abort
  | diverge
  deriving DecidableEq, Repr

def R.bind {β γ : Type} : R β → (β → R γ) → R γ
  | .ok b, f => f b
  | .raised, _ => .raised
  | .abort, _ => .abort
  | .diverge, _ => .diverge

@[simp] theorem R.bind_ok {β γ : Type} (b : β) (f : β → R γ) : (R.ok b).bind f = f b := rfl
@[simp] theorem R.bind_raised {β γ : Type} (f : β → R γ) : (R.raised : R β).bind f = .raised := rfl
@[simp] theorem R.bind_abort {β γ : Type} (f : β → R γ) : (R.abort : R β).bind f = .abort := rfl

/-- `s.[i]`: the terminating NUL can be read. -/
def at' (s : Str) (i : Nat) : Nat := s[i]?.getD 0

/-- args.cxy 44-50 `findParamByFlag` -/
def byFlag (ps : List Param) (c : Nat) : Option Param := ps.find? fun p => p.sf ≠ 0 && p.sf = c

/-- args.cxy 53 `findByName` -/
def byName (ps : List Param) (n : Str) : Option Param := ps.find? fun p => p.name = n

/-- args.cxy 55-62 and 141-153 `addParam`: what a command does with a declared parameter; `none` is a raised
`ParserError`.  `required`, `longestParam` and `hasLocalFlags` only affect the help text and are left out. -/
def addParam (ps : List Param) (p : Param) : Option (List Param) :=
  let p := if p.option && decide (p.default ≠ []) then { p with option := false } else p
  if (byName ps p.name).isSome then none
  else if p.sf ≠ 0 && (byFlag ps p.sf).isSome then none
  else some (ps ++ [p])

/-- args.cxy 226-231 `addParsed` -/
def addParsed (st : St) (name val : Str) : R St :=
  if (st.parsed.find? fun e => e.1 = name).isSome then .raised else .ok { st with parsed := st.parsed ++ [(name, val)] }

/-- args.cxy 202-216 `parseMultipleOptions`: all characters but the last. -/
def multiple (ps : List Param) : List Nat → St → R St
  | [], st => .ok st
  | c :: cs, st =>
    match byFlag ps c with
    | none => .raised
    | some p => if p.option then (addParsed st p.name []).bind fun st => multiple ps cs st else .raised

/-- args.cxy 219-223: the loop `for (const i: idx..args.size())` of `populateRest`, on 64-bit values (see
`Lang/RangeLoop`); indexing the slice asserts (builtins.cxy 1076-1078). -/
def restLoop (args : List Str) : Nat → BitVec 64 → St → R St
  | 0, _, _ => .diverge
  | f + 1, x, st =>
    if x = BitVec.ofNat 64 args.length then .ok st
    else match args[x.toNat]? with
      | none => .abort
      | some a => restLoop args f (x + 1) { st with rest := st.rest ++ [a] }

/-- args.cxy 219 `populateRest(args, i + 1)`; the sum is an `i8` that is then extended to the `u64` parameter. -/
def populateRest (args : List Str) (i : BitVec 8) (st : St) : R St :=
  restLoop args (args.length + 1) ((i + 1).signExtend 64) st

/-- args.cxy 96-101: cut at the first `=`. -/
def cut (full : Str) : Str × Str :=
  match full.findIdx? (· = 61) with
  | some k => (full.take k, full.drop (k + 1))
  | none => (full, [])

/-- What an argument turned out to be: the end of the options, or a parameter and the value given with `=`. -/
inductive Arg where
  | rest
  | param (p : Param) (val : Str)

/-- args.cxy 95-123: one argument beginning with `-`; the options grouped before the last one are recorded. -/
def classify (ps : List Param) (full : Str) (st : St) : R (St × Arg) :=
  let arg := (cut full).1
  let val := (cut full).2
  if at' full 1 = 45 then
    if arg.drop 2 = [] then (if val = [] then .ok (st, .rest) else .raised)
    else match byName ps (arg.drop 2) with
      | none => .raised
      | some p => .ok (st, .param p val)
  else
    match (arg.drop 1).getLast? with
    | none => .raised
    | some c =>
      (if 1 < (arg.drop 1).length then multiple ps (arg.drop 1).dropLast st else .ok st).bind fun st =>
        match byFlag ps c with
        | none => .raised
        | some p => .ok (st, .param p val)

/-- args.cxy 91-137: the loop of `parse`.  `i < args.size()` compares as `u64`. -/
def loop (ps : List Param) (args : List Str) : Nat → BitVec 8 → St → R St
  | 0, _, _ => .diverge
  | f + 1, i, st =>
    match args[(i.signExtend 64).toNat]? with
    | none => .ok st
    | some full =>
      if at' full 0 ≠ 45 then loop ps args f (i + 1) { st with positionals := st.positionals ++ [full] }
      else
        (classify ps full st).bind fun r =>
          match r.2 with
          | .rest => populateRest args (i + 1) r.1
          | .param p val =>
            if p.option then
              if val ≠ [] then .raised
              else (addParsed r.1 p.name val).bind fun st => loop ps args f (i + 1) st
            else if val = [] then
              match args[((i + 1).signExtend 64).toNat]? with
              | none => .raised
              | some v =>
                if at' v 0 = 45 then .raised
                else (addParsed r.1 p.name v).bind fun st => loop ps args f (i + 2) st
            else (addParsed r.1 p.name val).bind fun st => loop ps args f (i + 1) st

/-- args.cxy 190-200 `validateParams` -/
def validate (ps : List Param) (st : St) : R St :=
  ps.foldl (fun r p => r.bind fun st =>
    if p.option then .ok st
    else if (st.parsed.find? fun e => e.1 = p.name).isSome then .ok st
    else if p.default = [] then .raised
    else .ok { st with parsed := st.parsed ++ [(p.name, p.default)] }) (.ok st)

/-- args.cxy 89-139 `Command.parse` (the arguments after the command name).  256 rounds are more than `i` can count. -/
def parse (ps : List Param) (args : List Str) : R St :=
  (loop ps args 256 0 ⟨[], [], []⟩).bind (validate ps)

end Verif.Args
