import Verif.Driver.CommandLine.Table
/-!
# What a command line says

A command line is read from left to right as file names and options.  The relation `Line` says which; it does not mention
the argument vector or how it is rewritten.
-/
namespace Verif.CommandLine

/-- Something said on the command line: a file, or option number `k` with or without a value. -/
inductive Event where
  | file (a : Str)
  | given (k : Nat) (v : Option Str)
  deriving DecidableEq, Repr

/-- How the reading of a command line ends. -/
inductive Ending where
  | fine
  | wrong (msg : Str)
  | undefined

def Blank (c : Nat) : Prop := c = 32 ∨ c = 9 ∨ c = 10 ∨ c = 11 ∨ c = 12 ∨ c = 13

/-- A file name: it does not begin with a dash, or is a lone dash. -/
def Plain (a : Str) : Prop := a.head? ≠ some 45 ∨ a = [45]

/-- How an option is written: `--name`, `--name=value`, `-c`, `-cvalue`; blanks after the `=` are skipped. -/
inductive Spells (flags : List Flag) : Str → Nat → Option Str → Prop
  | long {k : Nat} {f : Flag} : flags[k]? = some f → Spells flags (45 :: 45 :: f.name) k none
  | longValue {k : Nat} {f : Flag} {gap v : Str} : flags[k]? = some f → (∀ c ∈ gap, Blank c) →
      (∀ c, v.head? = some c → ¬ Blank c) → Spells flags (45 :: 45 :: (f.name ++ 61 :: (gap ++ v))) k (some v)
  | short {k : Nat} {f : Flag} : flags[k]? = some f → f.sf ≠ 0 → Spells flags [45, f.sf] k none
  | shortValue {k : Nat} {f : Flag} {v : Str} : flags[k]? = some f → f.sf ≠ 0 → v ≠ [] →
      Spells flags (45 :: f.sf :: v) k (some v)

/-- What one value of an option means; `none` when it is refused. -/
def reading : Kind → Str → Option Val
  | .switch, _ => none
  | .text, s => some (.text (some s))
  | .int, s => match strtoll s with
    | some (n, []) => some (.num n)
    | _ => none
  | .oneOf table, s => if s = [] then none else (table.lookup s).map .num
  | .level, s => ([([48], 48), ([100], 48), ([49], 49), ([50], 50), ([51], 51), ([115], 51)].lookup s).map .num
  | .many, s => if s = [] then none else some (.list [(s, none)])
  | .define, s => (parseDefine s).map fun d => .list [d]

/-- What is said about a value which is refused.  Nothing is, for a name out of a list; and an empty one has no meaning. -/
inductive Refuses (f : Flag) : Str → Ending → Prop
  | number {s : Str} : f.kind = .int → reading f.kind s = none →
      Refuses f s (.wrong (bytes "error: value '" ++ s ++ bytes "' passed to flag '" ++ f.name ++
        bytes "' cannot be parsed as a number\n"))
  | name {s : Str} {t : List (Str × Int)} : f.kind = .oneOf t → s ≠ [] → reading f.kind s = none →
      Refuses f s (.wrong [])
  | empty {t : List (Str × Int)} : f.kind = .oneOf t → Refuses f [] .undefined
  | level {s : Str} : f.kind = .level → reading f.kind s = none →
      Refuses f s (.wrong (bytes "error: value '" ++ s ++ bytes "' passed to flag '" ++ f.name ++
        bytes "' cannot be parsed as an optimization flag, supported values -O1, -O2, -O3 -Os -Od\n"))
  | missing : f.kind = .many ∨ f.kind = .define →
      Refuses f [] (.wrong (bytes "error: command line argument '" ++ f.name ++ bytes "' is missing a value"))
  | define {s : Str} : f.kind = .define → s ≠ [] → reading f.kind s = none →
      Refuses f s (.wrong (bytes "error: define variable '" ++ f.name ++
        bytes "' does not conform to cxy variable specification"))

/-- `Line flags args events ending`: the arguments, up to `--` or the first wrong one, say `events`. -/
inductive Line (flags : List Flag) : List Str → List Event → Ending → Prop
  | nil : Line flags [] [] .fine
  | stop {rest : List Str} : Line flags ([45, 45] :: rest) [] .fine
  | file {a : Str} {rest : List Str} {es : List Event} {e : Ending} : Plain a → Line flags rest es e →
      Line flags (a :: rest) (.file a :: es) e
  | switch {a : Str} {k : Nat} {f : Flag} {rest : List Str} {es : List Event} {e : Ending} : Spells flags a k none →
      flags[k]? = some f → f.kind = .switch → Line flags rest es e → Line flags (a :: rest) (.given k none :: es) e
  | joined {a : Str} {k : Nat} {f : Flag} {v : Str} {rest : List Str} {es : List Event} {e : Ending} :
      Spells flags a k (some v) → flags[k]? = some f → f.kind ≠ .switch → reading f.kind v ≠ none →
      Line flags rest es e → Line flags (a :: rest) (.given k (some v) :: es) e
  | separate {a : Str} {k : Nat} {f : Flag} {v : Str} {rest : List Str} {es : List Event} {e : Ending} :
      Spells flags a k none → flags[k]? = some f → f.kind ≠ .switch → reading f.kind v ≠ none →
      Line flags rest es e → Line flags (a :: v :: rest) (.given k (some v) :: es) e
  | unknown {a : Str} {rest : List Str} : ¬ Plain a → a ≠ [45, 45] → (∀ k v, ¬ Spells flags a k v) →
      Line flags (a :: rest) [] (.wrong (bytes "error: unrecognized command argument '" ++ a ++ bytes "'\n"))
  | unwanted {a : Str} {k : Nat} {f : Flag} {v : Str} {rest : List Str} : Spells flags a k (some v) →
      flags[k]? = some f → f.kind = .switch →
      Line flags (a :: rest) [] (.wrong (bytes "error: unexpected value passed to flag '" ++ f.name ++ bytes "'\n"))
  | lacking {a : Str} {k : Nat} {f : Flag} : Spells flags a k none → flags[k]? = some f → f.kind ≠ .switch →
      Line flags [a] [] (.wrong (bytes "error: command flag '" ++ f.name ++ bytes "' expects a value\n"))
  | refused {a : Str} {k : Nat} {f : Flag} {v : Str} {rest : List Str} {e : Ending} : Spells flags a k (some v) →
      flags[k]? = some f → Refuses f v e → Line flags (a :: rest) [] e
  | refusedNext {a : Str} {k : Nat} {f : Flag} {v : Str} {rest : List Str} {e : Ending} : Spells flags a k none →
      flags[k]? = some f → Refuses f v e → Line flags (a :: v :: rest) [] e

/-- The files named, in order. -/
def fileNames (es : List Event) : List Str :=
  es.filterMap fun e => match e with
    | .file a => some a
    | .given _ _ => none

/-- What was said of option `k`, in order. -/
def saidOf (k : Nat) (es : List Event) : List (Option Str) :=
  es.filterMap fun e => match e with
    | .file _ => none
    | .given j v => if j = k then some v else none

/-- The elements of a list option. -/
def elements : Val → List (Str × Option Str)
  | .list xs => xs
  | _ => []

/-- The value of an option, from what was said of it: a switch is on when it is given; a list has every element in order;
otherwise the last value counts.  An option not given has the default in the table. -/
def finalValue (f : Flag) (said : List (Option Str)) : Option Val :=
  match f.kind with
  | .switch => some (.num (if said = [] ∧ f.dflt ≠ some (bytes "true") then 0 else 1))
  | .many | .define => some (.list ((said.filterMap id).flatMap fun s => ((reading f.kind s).map elements).getD []))
  | _ =>
    match (said.filterMap id).getLast? with
    | some s => reading f.kind s
    | none => match f.dflt with
      | none => none
      | some d => if d = [] then some (.text none) else reading f.kind d

/-- A table in which every argument has one meaning.  The compiler checks that names and letters differ when it starts
(args.c 694-719 and 216-277). -/
structure Sound (flags : List Flag) : Prop where
  apart : flags.Pairwise fun f g => f.name ≠ g.name ∧ (f.sf = 0 ∨ f.sf ≠ g.sf)
  spelled : ∀ f ∈ flags, f.name ≠ [] ∧ 61 ∉ f.name ∧ 0 ∉ f.name ∧ f.sf ≠ 45

/-- The default of an option is in order: a switch is off, lists start empty and the others are readable. -/
def DefaultOk (f : Flag) : Prop :=
  match f.kind with
    | .switch => f.dflt ≠ some (bytes "true")
    | .many | .define => f.dflt = some [91, 93]
    | k => ∃ d, f.dflt = some d ∧ (d = [] ∨ (d.head? ≠ some 91 ∧ reading k d ≠ none))

/-- The texts of the process do not contain the terminator. -/
def NoNul (args : List Str) : Prop := ∀ a ∈ args, 0 ∉ a

/-- Which command a command line asks for, and what is left of it.  `help` is left out. -/
inductive Asks : List Str → Cmd → List Str → Prop
  | named {c : Cmd} {rest : List Str} : c ∈ [dev, build, test] → Asks (c.name :: rest) c rest
  | none : Asks [] dev []
  | default {a : Str} {rest : List Str} : a ≠ [] → (∀ c ∈ cmds, c.name ≠ a) → Asks (a :: rest) dev (a :: rest)

end Verif.CommandLine
