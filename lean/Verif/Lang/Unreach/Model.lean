/-!
# Code that cannot be reached, and functions that end without a result

`src/cxy/lang/middle/sema/check.c` 52-69 (`reportUnreachable`, `hasUnreachable`), 71-79 (`getNodeReturnType`), 122-194
(`checkBlockStmt`), 196-277 (`checkReturnStmt`, the type of the result), 418-421 (`checkWhileStmt`), `sema/if.c` 45-62
(`checkIfStmt`), `sema/for.c` 426-429 (`checkForStmt`), `sema/switch.c` 228-253 (`checkSwitchStmt`), `sema/match.c` 92-116
(`checkMatchStmt`) and `sema/function.c` 374-418 (`checkFunctionBody`).

Expressions are left out: an expression statement is a number, a returned value is its type. Handlers of `catch` are modelled
with the exceptions (`Verif.Lang.Raise.Model`). The bodies of `if`, loops and cases are blocks, as `shake.c` makes them; an `if`
behind `else` is a block with one statement. Cases chosen at compile time are left out.
-/
namespace Verif.Unreach

mutual
/-- Statements. `decl` stands for the statements that go on to the next one and are not expressions (declarations, `defer`). -/
inductive Stmt where
  | expr (n : Nat)
  | decl (n : Nat)
  | ret (t : Nat)
  | raise (t : Nat)
  | brk
  | cont
  | block (b : Block)
  | when (t : Block)
  | ite (t e : Block)
  | loop (b : Block)
  | switch (hasElse : Bool) (cs : Cases)
  | «match» (hasElse : Bool) (cs : Cases)

inductive Block where
  | nil
  | cons (s : Stmt) (b : Block)

inductive Cases where
  | nil
  | cons (b : Block) (cs : Cases)
end

/-- check.c 66-68: the nodes behind which code is dropped. -/
def Stmt.stops : Stmt → Bool
  | .expr _ => true
  | .ret _ => true
  | .raise _ => true
  | .block _ => true
  | _ => false

def Block.isNil : Block → Bool
  | .nil => true
  | .cons _ _ => false

mutual
/-- What is left of a statement, and `returnState` behind it. -/
def check : Stmt → Bool → Stmt × Bool
  | .expr n, r => (.expr n, r)
  | .decl n, r => (.decl n, r)
  /- check.c 205: `returnState || !isRaise` -/
  | .ret t, _ => (.ret t, true)
  | .raise t, r => (.raise t, r)
  | .brk, r => (.brk, r)
  | .cont, r => (.cont, r)
  | .block b, r => let (b', r') := checkB b r; (.block b', r')
  /- if.c 53-57 -/
  | .when t, r => let (t', r') := checkB t false; (.when t', r' && r)
  /- if.c 59-62 -/
  | .ite t e, _ =>
    let (t', r1) := checkB t false
    let (e', r2) := checkB e false
    (.ite t' e', r1 && r2)
  /- check.c 418-421, for.c 426-429 -/
  | .loop b, r => let (b', _) := checkB b false; (.loop b', r)
  /- switch.c 228, 248, 253: it begins with `false` and forgets what was before -/
  | .switch d cs, _ => let (cs', r') := checkC cs false; (.switch d cs', r')
  /- match.c 92, 111, 116 -/
  | .match d cs, r => let (cs', r') := checkC cs false; (.match d cs', r' || r)

/-- check.c 122-169: the statements of a block, up to one behind which nothing is reached. -/
def checkB : Block → Bool → Block × Bool
  | .nil, r => (.nil, r)
  | .cons s b, r =>
    let (s', r1) := check s r
    if r1 && !b.isNil && s.stops then (.cons s' .nil, r1)
    else
      let (b', r2) := checkB b r1
      (.cons s' b', r2)

/-- switch.c 230-252, match.c 94-115: each case begins with `false`; the results are combined. -/
def checkC : Cases → Bool → Cases × Bool
  | .nil, acc => (.nil, acc)
  | .cons b cs, acc =>
    let (b', r) := checkB b false
    let (cs', acc') := checkC cs (acc && r)
    (.cons b' cs', acc')
end

/-- A block with a statement behind it. -/
def Block.snoc : Block → Stmt → Block
  | .nil, s => .cons s .nil
  | .cons t b, s => .cons t (b.snoc s)

/-- The results of a function. -/
inductive Result where
  /-- nothing -/
  | void
  /-- a value; the types that can be returned -/
  | value (takes : Nat → Bool)
  /-- nothing, or an exception (`!void`); the number of the empty value, and what can be returned -/
  | voidResult (empty : Nat) (takes : Nat → Bool)

/-- check.c 174-190: the block of a function that returns `!void` gets a `return` at its end, unless it returns already. -/
def close : Result → Block × Bool → Block
  | .voidResult e _, (b, false) => b.snoc (.ret e)
  | _, (b, _) => b

/-- What the back end gets of the body of a function. -/
def body (res : Result) (b : Block) : Block := close res (checkB b false)

mutual
/-- The types returned in a statement. -/
def rets : Stmt → List Nat
  | .ret t => [t]
  | .raise t => [t]
  | .block b => retsB b
  | .when t => retsB t
  | .ite t e => retsB t ++ retsB e
  | .loop b => retsB b
  | .switch _ cs => retsC cs
  | .match _ cs => retsC cs
  | _ => []

def retsB : Block → List Nat
  | .nil => []
  | .cons s b => rets s ++ retsB b

def retsC : Cases → List Nat
  | .nil => []
  | .cons b cs => retsB b ++ retsC cs
end

/-- check.c 213-243 and function.c 393-414: each `return` that was checked must have a type that can be returned. A `return` that was
dropped is not checked. With a result that is declared the type of the body is that type. -/
def accepted (takes : Nat → Bool) (b : Block) : Bool := (retsB (checkB b false).1).all takes

end Verif.Unreach
