/-!
# Threads and joining them

Objects `Thread` of the standard library are structures: they are copied by value. Threads of the
system are numbers, in the order they are created.
-/
namespace Verif.Threads

/-- `Thread`, `src/cxy/stdlib/thread.cxy` 32-34. Simplified: the handle is the number of the thread. -/
structure Thread where
  handle : Nat
  joinable : Bool
deriving DecidableEq, Repr

/-- The objects of a program, the number of threads created, and the threads waited for with
`thrd_join`, last first. -/
structure S where
  objs : List Thread
  made : Nat
  waited : List Nat
deriving DecidableEq, Repr

/-- The beginning of a program. -/
def start : S := ⟨[], 0, []⟩

/-- `__launch` and the `init` it calls, `src/cxy/stdlib/thread.cxy` 36-39 and 59-68.
Simplified: creating the thread succeeds. -/
def launch (s : S) : S := { s with objs := s.objs ++ [⟨s.made, true⟩], made := s.made + 1 }

/-- A copy of an object, `src/cxy/stdlib/thread.cxy` 32-57: a structure without `copy`, so that all
of its fields are copied. -/
def copy (i : Nat) (s : S) : S :=
  match s.objs[i]? with
  | some t => { s with objs := s.objs ++ [t] }
  | none => s

/-- `join`, `src/cxy/stdlib/thread.cxy` 41-46. -/
def join (i : Nat) (s : S) : S :=
  match s.objs[i]? with
  | some t =>
    if t.joinable then
      { s with objs := s.objs.set i { t with joinable := false }, waited := t.handle :: s.waited }
    else s
  | none => s

/-- What a program does with threads. -/
inductive Op where
  | launch
  | copy (i : Nat)
  | join (i : Nat)
deriving DecidableEq, Repr

/-- A step. -/
def step (s : S) : Op → S
  | .launch => launch s
  | .copy i => copy i s
  | .join i => join i s

/-- A program, `src/cxy/stdlib/thread.cxy` 32-68. -/
def run (ops : List Op) : S := ops.foldl step start

end Verif.Threads
