import Verif.Lang.Prim.Model
/-!
# Model of `switch` on integers

`src/cxy/lang/middle/sema/switch.c` (`checkCaseStmt`, `checkSwitchStmt`, `compareLiteralNode`, `checkDuplicateCaseMatches`),
`frontend/parser.c` 2419–2468 (`caseStatement`, `switchStatement`), `backend/llvm/generate.cpp` 777–823 (`visitSwitchStmt`) and the
`qsort` of glibc (`msort_with_tmp`, the sort by merging that it uses for arrays of this size).

Simplified: the condition is of a primitive integer type; bodies are numbers; case labels are integer literals, each with the type
it was given by its suffix or else by its size, or ranges `a..b` of two of them (whose type is always `i64`, `binary.c` 372). Left
out: labels of enumerations, characters and strings, cases made at compile time.
-/
namespace Verif.Switch

open Verif.Prim (Prim)

/-- The label of a case. -/
inductive Label where
  | one (v : Int) (t : Prim)
  | range (a b : Int) (ta tb : Prim)
  deriving DecidableEq, Repr

/-- `caseStmt`: `none` is `default`, respectively a case without a body. -/
structure Case where
  label : Option Label
  body : Option Nat
  deriving DecidableEq, Repr

/-! ## Parsing -/

/-- A case as it is written: `case l1, .., ln => body`, or `default => body`. -/
inductive Group where
  | labels (l : Label) (ls : List Label) (body : Nat)
  | default (body : Nat)
  deriving DecidableEq, Repr

/-- The cases of one label each that `caseStatement` (`parser.c` 2419–2449) makes of the labels: behind a comma there is no body. -/
def casesOf (body : Nat) : Label → List Label → List Case
  | l, [] => [⟨some l, some body⟩]
  | l, m :: ms => ⟨some l, none⟩ :: casesOf body m ms

/-- `switchStatement` (`parser.c` 2451–2470). -/
def parse : List Group → List Case
  | [] => []
  | .labels l ls b :: gs => casesOf b l ls ++ parse gs
  | .default b :: gs => ⟨none, some b⟩ :: parse gs

/-! ## Checking -/

/-- `getLiteralValue` of the two ends (`switch.c` 27–34). -/
def Label.lo : Label → Int
  | .one v _ => v
  | .range a _ _ _ => a

def Label.hi : Label → Int
  | .one v _ => v
  | .range _ b _ _ => b

/-- `checkType` of the label: that of the literal, `i64` for a range (`binary.c` 372). -/
def Label.type : Label → Prim
  | .one _ t => t
  | .range .. => .i64

/-- How a check ends. `abort` is a failed assertion. -/
inductive Check where
  | ok | rejected | abort
  deriving DecidableEq, Repr

/-- `checkCaseStmt` (`switch.c` 127–209): the assignment goes the wrong way round, from the condition to the label.
`isIntegerTypeInRange` asserts that the range is not empty (`ttable.c` 1458). -/
def checkLabel (cond : Prim) (l : Label) : Check :=
  if !Prim.assignable l.type cond then .rejected
  else if l.lo > l.hi then .abort
  else if Prim.inRange cond l.lo l.hi = some true then .ok
  else .rejected

/-- `isIntegerInRange` (`switch.c` 36–45). -/
def inRange3 (a b v : Int) : Int := if v < a then -1 else if v > b then 1 else 0

/-- `isOverlappingRange` (`switch.c` 47–59). -/
def overlap3 (a b c d : Int) : Int := if b < c then -1 else if a > d then 1 else 0

/-- `cxy_compare` (`switch.c` 19–25). -/
def cmp3 (x y : Int) : Int := if x < y then -1 else if x > y then 1 else 0

/-- `compareLiteralNode` (`switch.c` 61–98). -/
def compare : Label → Label → Int
  | .range a b _ _, .range c d _ _ => overlap3 a b c d
  | .range a b _ _, .one v _ => inRange3 a b v
  | .one v _, .range a b _ _ => -inRange3 a b v
  | .one v _, .one w _ => cmp3 v w

/-- The merge of glibc: the first is taken when it is not greater. -/
def merge (cmp : α → α → Int) : List α → List α → List α
  | [], ys => ys
  | xs, [] => xs
  | x :: xs, y :: ys => if cmp x y ≤ 0 then x :: merge cmp xs (y :: ys) else y :: merge cmp (x :: xs) ys

/-- `msort_with_tmp` of glibc: the first `n / 2` elements and the others. -/
def msort (cmp : α → α → Int) (l : List α) : List α :=
  if 2 ≤ l.length then merge cmp (msort cmp (l.take (l.length / 2))) (msort cmp (l.drop (l.length / 2))) else l
termination_by l.length
decreasing_by
  all_goals simp only [List.length_take, List.length_drop]; omega

/-- `checkDuplicateCaseMatches` (`switch.c` 100–125): some two neighbours compare equal. -/
def dups (cmp : α → α → Int) : List α → Bool
  | x :: y :: l => decide (cmp x y = 0) || dups cmp (y :: l)
  | _ => false

/-- The labels of the cases, in their order. -/
def labelsOf (cs : List Case) : List Label := cs.filterMap (·.label)

/-- `checkSwitchStmt` (`switch.c` 211–284). The first label that aborts ends the compiler; the others are all reported. -/
def check (cond : Prim) (cs : List Case) : Check :=
  if (labelsOf cs).any (fun l => checkLabel cond l = .abort) then .abort
  else if (labelsOf cs).any (fun l => checkLabel cond l = .rejected) then .rejected
  else if dups compare (msort compare (labelsOf cs)) then .rejected
  else .ok

/-! ## Code -/

/-- The constant of a label (`generate.cpp` 793–796). For a range there is no visitor: its parts are visited
(`astVisitFallbackVisitAll`) and the value of the last is what is left (`visitor.c` 114–118). -/
def Label.const : Label → Int × Prim
  | .one v t => (v, t)
  | .range _ b _ tb => (b, tb)

/-- The switch instruction: constants with blocks (a block without statements goes to the end), and the default block. -/
structure Code where
  table : List (Int × Option Nat)
  dflt : Option (Option Nat)

/-- What the verifier of LLVM asks of a switch: constants of the type of the condition, no two alike. -/
def verified (cond : Prim) (cs : List Case) : Bool :=
  (labelsOf cs).all (fun l => decide (l.const.2 = cond)) && decide ((labelsOf cs).map (·.const.1)).Nodup

/-- `visitSwitchStmt` (`generate.cpp` 777–823); a second `default` fails an assertion. -/
def code (cs : List Case) : Option Code :=
  match cs.filter (·.label = none) with
  | [] => some ⟨cs.filterMap fun c => c.label.map fun l => (l.const.1, c.body), none⟩
  | [d] => some ⟨cs.filterMap fun c => c.label.map fun l => (l.const.1, c.body), some d.body⟩
  | _ => none

/-- What becomes of a switch. -/
inductive Built where
  | rejected | abort | badModule
  | ok (c : Code)

/-- All stages. -/
def build (cond : Prim) (gs : List Group) : Built :=
  match check cond (parse gs) with
  | .rejected => .rejected
  | .abort => .abort
  | .ok =>
    match code (parse gs) with
    | none => .abort
    | some c => if verified cond (parse gs) then .ok c else .badModule

/-- The body that runs for a value of the condition. -/
def Code.run (c : Code) (v : Int) : Option Nat :=
  match c.table.find? (fun e => decide (e.1 = v)) with
  | some e => e.2
  | none => c.dflt.join

end Verif.Switch
