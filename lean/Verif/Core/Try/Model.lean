/-!
# Exceptions of the compiler

`src/cxy/core/e4c.c` 19-84 (`e4c_propagate`, `e4c_try`, `e4c_hook`) and 107-124 (`e4c_throw_ctx`), with the macros of `src/cxy/core/e4c.h` 68-87, and how the parser uses them: `src/cxy/lang/frontend/parser.c` 1394-1403 (statements of a block) and
3701-3708 (declarations).

Left out: messages, `E4C_FINALLY` (not used), and `return` from within a statement (`parser.c` 3698).
-/
namespace Verif.Try

/-- `e4c_context` (e4c.h 98-106). Stages are numbers in the order of `e4c_stage` (91-97): 0 beginning, 1 trying, 2 catching, 3 finalizing, 4 done.
`log` is what the program did. -/
structure S where
  frames : Nat
  stage : Nat → Nat
  unc : Nat → Bool
  err : Nat
  log : List Nat

def upd {α : Type} (f : Nat → α) (i : Nat) (v : α) : Nat → α := fun j => if j = i then v else f j

/-- How a piece of code is left: at its end; by `longjmp` to `jump[frames - 1]`; by `break`; by `exit`. `stuck` is for the model only. -/
inductive Out where
  | done (s : S)
  | jump (s : S)
  | brk (s : S)
  | exit (s : S)
  | stuck

/-- e4c.c 19-38 `e4c_propagate` -/
def propagate (s : S) : Out :=
  if 0 < s.frames then .jump { s with unc := upd s.unc s.frames true }
  else .exit { s with unc := upd s.unc s.frames true }

/-- e4c.c 107-124 `e4c_throw_ctx` -/
def throwE (e : Nat) (s : S) : Out := propagate { s with err := e }

/-- `E4C_MAX_FRAMES` (e4c.h 20) -/
def maxFrames : Nat := 16

inductive Hook where
  | go (s : S)
  | stop (o : Out)

/-- e4c.c 66-71: the next stage. -/
def next (st : Nat) (u : Bool) : Nat := if st + 1 = 2 ∧ u = false then 3 else st + 1

/-- e4c.c 66-83 `e4c_hook(0)` -/
def hook (s : S) : Hook :=
  let st := next (s.stage s.frames) (s.unc s.frames)
  let s1 := { s with stage := upd s.stage s.frames st }
  if st < 4 then .go s1
  else if s.unc s.frames then .stop (propagate { s1 with frames := s.frames - 1 })
  else .stop (.done { s1 with frames := s.frames - 1 })

/-- e4c.h 71-75, 80-81: which part runs; `e4c_hook(1)` (e4c.c 61-64) before a handler. -/
def part (b : S → Out) (c : Nat → Bool) (h : S → Out) (s : S) : Out :=
  if s.stage s.frames = 1 then b s
  else if s.stage s.frames = 2 ∧ c s.err = true then h { s with unc := upd s.unc s.frames false }
  else .done s

/-- The loop of e4c.h 70, 79, into which `longjmp` to the frame `f` of the statement comes back. `break` in a part leaves this loop. The
number bounds its rounds, of which there are four at most unless frames were lost. -/
def loop : Nat → Nat → (S → Out) → (Nat → Bool) → (S → Out) → S → Out
  | 0, _, _, _, _, _ => .stuck
  | n + 1, f, b, c, h, s =>
    match hook s with
    | .stop o => o
    | .go s1 =>
      match part b c h s1 with
      | .done s2 => loop n f b c h s2
      | .jump s2 => if s2.frames = f then loop n f b c h s2 else .jump s2
      | .brk s2 => .done s2
      | .exit s2 => .exit s2
      | .stuck => .stuck

/-- Programs. `tryP b c h`: `E4C_TRY_BLOCK(b E4C_CATCH(..) h)`, where `c` says which types are caught (e4c.h 64-65, 72-74); several handlers make one that
looks at the type. Type 0 is `RuntimeException`. -/
inductive Prog where
  | skip
  | act (a : Nat)
  | seq (p q : Prog)
  | throw (e : Nat)
  | brk
  | tryP (b : Prog) (c : Nat → Bool) (h : Prog)

/-- e4c.c 40-54 `e4c_try`, then the loop. -/
def exec : Prog → S → Out
  | .skip, s => .done s
  | .act a, s => .done { s with log := s.log ++ [a] }
  | .seq p q, s =>
    match exec p s with
    | .done s' => exec q s'
    | o => o
  | .throw e, s => throwE e s
  | .brk, s => .brk s
  | .tryP b c h, s =>
    if maxFrames ≤ s.frames then throwE 0 s
    else loop 8 (s.frames + 1) (exec b) c (exec h)
      { s with frames := s.frames + 1, stage := upd s.stage (s.frames + 1) 0, unc := upd s.unc (s.frames + 1) false }

/-- `struct e4c_context e4c = {0}` (e4c.c 15) -/
def start : S := ⟨0, fun _ => 0, fun _ => false, 0, []⟩

/-! ## The parser -/

/-- `ParserException`, whose supertype is `RuntimeException`. -/
def isPE (e : Nat) : Bool := e == 1

/-- parser.c 1395-1402: a statement of a block. The handler ends with `break`. -/
def inBlock (p : Prog) : Prog := .tryP p isPE .brk

/-- parser.c 3702-3707: a declaration. -/
def decl (p : Prog) : Prog := .tryP p isPE .skip

/-- A statement inside of `n` blocks. -/
def nest : Nat → Prog → Prog
  | 0, p => p
  | n + 1, p => inBlock (nest n p)

/-- parser.c 184-193 `parserError`: the error is logged, then raised. -/
def bad (a : Nat) : Prog := .seq (.act a) (.throw 1)

/-- A function with an error in its body. -/
def badDecl (a : Nat) : Prog := decl (inBlock (bad a))

/-- Declarations, one after the other (parser.c 3701-3708). -/
def decls : List Prog → Prog
  | [] => .skip
  | p :: ps => .seq p (decls ps)

end Verif.Try
