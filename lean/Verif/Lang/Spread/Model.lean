/-!
# Arguments with `...`

`src/cxy/lang/middle/sema/check.c` 21-36 (`makeSpreadVariable`), 461-601 (`checkSpreadExpr`), with `sema/call.c` 67-93
(`checkFunctionCallEpilogue`, which builds the new list of arguments) and `frontend/ast.c` 2452-2465 (`insertAstNode`).

A tuple literal becomes its elements; of a variable the members are taken; anything else is put in a new variable before the statement
with the call, and its members are taken. An expression is a number. What it gives may depend on what was evaluated before it, so does
what is read from a variable. Arguments are evaluated from left to right, as in `Verif.Lang.Hoist`, where what `simplify.c` moves later
is modelled. Left out: moves (`...&&x`), parameters with any number of arguments (499-550), empty tuple literals.
-/
namespace Verif.Spread

/-- An argument as it is written. -/
inductive Arg where
  /-- elements that are evaluated in place: an argument without `...`, or a tuple literal with it -/
  | plain (es : List Nat)
  /-- `...x` for a variable that holds a tuple with `n` members -/
  | var (x n : Nat)
  /-- `...e` for any other expression, with a tuple of `n` members; `void` counts as none -/
  | expr (e n : Nat)

/-- An argument as it is left behind. -/
inductive CArg where
  | plain (e : Nat)
  | ofVar (x i : Nat)
  /-- member `i` of new variable `t` -/
  | ofTmp (t i : Nat)

/-- 461-601 for each argument: the expressions that are put in new variables, `k` and on, and the arguments. -/
def compile : List Arg → Nat → List Nat × List CArg
  | [], _ => ([], [])
  /- 469-485 -/
  | .plain es :: as, k => let r := compile as k; (r.1, es.map .plain ++ r.2)
  /- 570-595, with 23-25 -/
  | .var x n :: as, k => let r := compile as k; (r.1, (List.range n).map (.ofVar x) ++ r.2)
  | .expr e n :: as, k =>
    /- 493-497, 562-566 with call.c 78-79: nothing is left -/
    if n = 0 then compile as k
    /- 568-600 -/
    else let r := compile as (k + 1); (e :: r.1, (List.range n).map (.ofTmp k) ++ r.2)

/-- What expressions give and variables hold, after the expressions that were evaluated. -/
structure World (V : Type) where
  val : List Nat → Nat → V
  rd : List Nat → Nat → V
  mem : V → Nat → V

variable {V : Type}

/-- The new variables, with what they hold. -/
def runTmps (w : World V) : List Nat → List Nat → List V × List Nat
  | [], h => ([], h)
  | e :: es, h => let r := runTmps w es (h ++ [e]); (w.val h e :: r.1, r.2)

/-- The arguments of the call, with what was evaluated. A variable that is not there gives nothing. -/
def runArgs (w : World V) (ts : List V) : List CArg → List Nat → List V × List Nat
  | [], h => ([], h)
  | .plain e :: as, h => let r := runArgs w ts as (h ++ [e]); (w.val h e :: r.1, r.2)
  | .ofVar x i :: as, h => let r := runArgs w ts as h; (w.mem (w.rd h x) i :: r.1, r.2)
  | .ofTmp t i :: as, h =>
    let r := runArgs w ts as h
    ((ts[t]?.map (w.mem · i)).toList ++ r.1, r.2)

/-- What the function is called with, and what was evaluated. -/
def exec (w : World V) (as : List Arg) (h : List Nat) : List V × List Nat :=
  let c := compile as 0
  let r := runTmps w c.1 h
  runArgs w r.1 c.2 r.2

end Verif.Spread
