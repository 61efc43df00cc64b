/-!
# Model of the diagnostics log (`src/cxy/core/log.c`, `src/cxy/core/log.h`)

Only the bookkeeping and the decision whether a diagnostic is printed are modelled; the text of a diagnostic is an
opaque value and printing appends it to a list.  Both built-in handlers (`printDiagnosticToConsole` and
`printDiagnosticToMemory`) go through `printDiagnosticToState`, which is what is modelled; a handler supplied by a caller
is not.
-/
namespace Verif.Log

/-- log.h `DiagnosticKind` -/
inductive Kind where
  | error
  | warning
  | note
  deriving DecidableEq, Repr

/-- log.h 60-64 `Diagnostic`; the location, format and arguments are one opaque value. -/
structure Diag (M : Type) where
  kind : Kind
  msg : M
  deriving DecidableEq, Repr

/-- log.h 68-84 `Log`: the counters (`size_t`), the limit and the mask of enabled warnings; `out` is what was printed. -/
structure Log (M : Type) where
  errorCount : Nat
  warningCount : Nat
  maxErrors : Nat
  enabled : Nat
  out : List (Diag M)

/-- log.h 29-34 `wrnDefault`: every bit but 63, without `MissingStage`, `CMacroRedefine` and `MaybeUninitialized`. -/
def wrnDefault : Nat := 2 ^ 63 - 1 - (2 ^ 0 + 2 ^ 3 + 2 ^ 5)

/-- log.c 102-117 `newLog`, followed by options.c 489 `log->maxErrors = ...`. -/
def newLog {M : Type} (maxErrors : Nat) : Log M := ⟨0, 0, maxErrors, wrnDefault, []⟩

/-- log.c 315-318: the counters are `size_t`. -/
def count {M : Type} (l : Log M) : Kind → Log M
  | .error => { l with errorCount := (l.errorCount + 1) % 2 ^ 64 }
  | .warning => { l with warningCount := (l.warningCount + 1) % 2 ^ 64 }
  | .note => l

/-- log.c 310-352 `printDiagnosticToState` -/
def printDiagnostic {M : Type} (l : Log M) (d : Diag M) : Log M :=
  let l := count l d.kind
  if l.errorCount ≥ l.maxErrors then l else { l with out := l.out ++ [d] }

/-- What the compiler asks of the log: log.c 373 `logError`, 381 `logWarning`, 389 `logWarningWithId`, 466 `logNote`. -/
inductive Req (M : Type) where
  | error (m : M)
  | warning (m : M)
  | warningWithId (id : Nat) (m : M)
  | note (m : M)
  deriving DecidableEq, Repr

/-- log.c 373-398 and 466-472.  `1 << warningId` is computed in `int`: the ids in log.h 13-19 are 0 to 5. -/
def request {M : Type} (l : Log M) : Req M → Log M
  | .error m => printDiagnostic l ⟨.error, m⟩
  | .warning m => printDiagnostic l ⟨.warning, m⟩
  | .warningWithId id m => if l.enabled.testBit id then printDiagnostic l ⟨.warning, m⟩ else l
  | .note m => printDiagnostic l ⟨.note, m⟩

/-- A history of requests. -/
def run {M : Type} (l : Log M) (rs : List (Req M)) : Log M := rs.foldl request l

/-- log.h 104 `hasErrors` -/
def hasErrors {M : Type} (l : Log M) : Bool := l.errorCount > 0

end Verif.Log
