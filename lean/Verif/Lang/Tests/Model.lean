import Verif.Common.Res
import Verif.Core.Excerpt.Model
/-!
# Test cases

`src/cxy/lang/frontend/parser.c` 2072-2127 (`testContextDeclaration`, `skipTestDecl`, `testDecl`), 3314-3425 (`declaration`), 3676-3714
(`parseProgram`, the loop over declarations), `src/cxy/lang/middle/shake/shake.c` 898-954 (`shakeTestDecl`), 1170-1191
(`buildTestsVariable`), `src/cxy/runtime/builtins.cxy` 1563-1606 (`runTest`, `runTests`), `src/cxy/lang/backend/c/generate.c`
1757-1796 (`generateTestMainFunction`), 2149-2163 (`compilerBackendExecuteTestCase`) and `src/cxy/driver/driver.c` 240-243.

Left out: conditional compilation around tests (`#if`), imports marked `test` (modelled with the imports), test cases that end the
program or do not end, and the C compiler.
-/
namespace Verif.Tests

/-! ## An ordinary build skips tests -/

/-- Tokens, as far as skipping tells them apart; the end of the file is the end of the list. -/
inductive Tok where
  | test
  | str
  | lbrace
  | rbrace
  | other (n : Nat)
  deriving DecidableEq, Repr

/-- parser.c 2084-2096: the loop over the tokens, with the number of open braces. `none` is the error "test case not properly
terminated". -/
def skipLoop : Nat → List Tok → Option (List Tok)
  | 0, ts => some ts
  | _ + 1, [] => none
  | n + 1, .lbrace :: ts => skipLoop (n + 2) ts
  | n + 1, .rbrace :: ts => skipLoop n ts
  | n + 1, _ :: ts => skipLoop (n + 1) ts

/-- parser.c 2081: the name of the test, if there is one. -/
def dropName : List Tok → List Tok
  | .str :: ts => ts
  | ts => ts

/-- parser.c 2079-2097 `skipTestDecl`, after the word `test`. -/
def skipTest (ts : List Tok) : Option (List Tok) :=
  match dropName ts with
  | .lbrace :: ts => skipLoop 1 ts
  | _ => none

theorem dropName_length (ts : List Tok) : (dropName ts).length ≤ ts.length := by
  unfold dropName; split <;> simp

theorem skipLoop_length : ∀ (ts : List Tok) (n : Nat) (r : List Tok), skipLoop n ts = some r → r.length ≤ ts.length
  | ts, 0, r, h => by simp [skipLoop] at h; simp [h]
  | [], n + 1, r, h => by simp [skipLoop] at h
  | t :: ts, n + 1, r, h => by
    cases t <;> simp only [skipLoop] at h <;> have := skipLoop_length ts _ r h <;> simp <;> omega

theorem skipTest_length (ts r : List Tok) (h : skipTest ts = some r) : r.length < ts.length := by
  have hd := dropName_length ts
  unfold skipTest at h
  split at h
  · next ts' heq =>
    have hl := skipLoop_length _ _ _ h
    rw [heq] at hd
    simp at hd; omega
  · simp at h

/-- parser.c 3697-3706, the loop of `parseProgram` in an ordinary build. The parser of a declaration other than a test is a parameter;
an error stops the model. -/
def program {D : Type} (decl : List Tok → Option (D × List Tok)) (ts : List Tok) : Option (List D) :=
  match ts with
  | [] => some []
  | .test :: ts =>
    match _h : skipTest ts with
    | none => none
    | some r => program decl r
  | t :: ts =>
    match decl (t :: ts) with
    | none => none
    | some (d, r) => if r.length < (t :: ts).length then (program decl r).map (d :: ·) else none
termination_by ts.length
decreasing_by
  · have := skipTest_length _ _ (by assumption); simp; omega
  · assumption

/-! ## Compiling for tests -/

/-- What is declared: a test case by its name and the line it is on, or something else. -/
inductive What where
  | case (name : String) (row : Nat)
  | plain (n : Nat)
  deriving DecidableEq, Repr

/-- A declaration as it is written, with its attributes: a test case, `test { … }` around others, or something else. -/
inductive Decl (A : Type) where
  | one (attrs : List A) (what : What)
  | group (attrs : List A) (ds : List (Decl A))

/-- A node of the program. -/
structure Node (A : Type) where
  attrs : List A
  what : What
  deriving DecidableEq, Repr

/-- parser.c 3420-3423 with 3403: the attributes in front of `test { … }` are put on the node that is returned, the first of those
in braces. -/
def setHead {A : Type} (as : List A) : List (Node A) → List (Node A)
  | [] => []
  | n :: ns => { n with attrs := as } :: ns

mutual
/-- parser.c 3314-3425 `declaration`, 2099-2127 `testDecl` when compiling for tests. -/
def read {A : Type} : Decl A → Res (List (Node A))
  | .one as w => .ok [⟨as, w⟩]
  | .group as ds => (readIn ds).map (setHead as)

/-- parser.c 379-391 `parseManyNoSeparator` of 2072-2077 `testContextDeclaration`, which marks the node it got and does not expect none. -/
def readIn {A : Type} : List (Decl A) → Res (List (Node A))
  | [] => .ok []
  | d :: ds => (read d).bind fun ns => if ns.isEmpty then .ub else (readIn ds).map (ns ++ ·)
end

/-- parser.c 3697-3706: the declarations of a file. -/
def readFile {A : Type} : List (Decl A) → Res (List (Node A))
  | [] => .ok []
  | d :: ds => (read d).bind fun ns => (readFile ds).map (ns ++ ·)

/-- shake.c 898-911: the number of a test's function, from the line of the test and the last number used. -/
def number (last row : Nat) : Nat := if row ≤ last then last + 1 else row

/-- shake.c 898-954 and 1170-1191: the test cases of a program in order, each with its name and the name of its function. -/
def cases {A : Type} : Nat → List (Node A) → List (String × List Nat)
  | _, [] => []
  | last, ⟨_, .case name row⟩ :: ns =>
    (name, [116, 101, 115, 116] ++ Excerpt.dec (number last row)) :: cases (number last row) ns
  | last, ⟨_, .plain _⟩ :: ns => cases last ns

/-! ## Running the tests -/

/-- What is printed: how a test ended, and how many failed of how many. -/
inductive Event where
  | none (file : String)
  | verdict (name : String) (ok : Bool)
  | failed (n : Int) (total : Nat)
  deriving DecidableEq, Repr

/-- `failed++` with `var failed = 0`, an `i8`. -/
def inc8 (n : Int) : Int := (n + 1 + 128) % 256 - 128

/-- builtins.cxy 1591-1596 with 1563-1578 `runTest`; a test case is its name and whether it returns without an exception. -/
def runLoop : Int → List (String × Bool) → List Event × Int
  | f, [] => ([], f)
  | f, (name, ok) :: ts =>
    let (es, f') := runLoop (if ok then f else inc8 f) ts
    (.verdict name ok :: es, f')

/-- builtins.cxy 1580-1605 `runTests`: what is printed and what is returned. -/
def runTests (file : String) (ts : List (String × Bool)) : List Event × Int :=
  if ts.length = 0 then ([.none file], 0)
  else
    let (es, f) := runLoop 0 ts
    if f ≠ 0 then (es ++ [.failed f ts.length], -1) else (es, 0)

/-- generate.c 1776-1783: `main` returns what `runTests` returns; generate.c 2160-2162: the command succeeds if that is zero. -/
def testCommand (file : String) (ts : List (String × Bool)) : Bool := (runTests file ts).2 % 256 == 0

end Verif.Tests
