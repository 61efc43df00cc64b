import Verif.Common.Mem
/-!
# Functions that raise and catch, and what they mean

The part of the language that `docs/exceptions.md` describes: calls that may raise, `raise`, `catch` with its handlers, among
assignments, conditions and loops. The meaning given here is written from that document, not from the compiler: "If an
expression that raises an exception is used without a `catch`, the expression will be bubbled up to the caller", a handler runs
when the caught call raises and yields the value to use instead, `raise` alone raises the caught exception again. Operands and
arguments are evaluated from left to right; `&&`, `||` and `?:` only evaluate the operands they need.

Functions called are opaque: what they return or raise depends on their arguments and on all the calls made before, so that the
list of calls is everything that can be observed. Local variables are only changed by assignments. A loop may run any number of
times; a run that has not ended after `n` iterations of some loop is `more`.

A `catch` is a whole statement or the whole right hand side of an assignment; its left hand side is a call.
-/
namespace Verif.Raise

abbrev Fn := Nat
abbrev Exc := Int

mutual
/-- Expressions. -/
inductive Expr where
  | lit (n : Int)
  | var (x : Nat)
  | bin (op : Nat) (a b : Expr)
  | land (a b : Expr)
  | lor (a b : Expr)
  | tern (c a b : Expr)
  | call (f : Fn) (args : Args)

/-- The arguments of a call. -/
inductive Args where
  | nil
  | cons (e : Expr) (as : Args)
end

/-- Statements. `seq` joins the statements of a block; a `seq` on its left is a nested block. `skip` is the empty block, and the
missing `else`. A handler is a statement; `discard` and `{}` are `skip`. `reraise` is `raise` without an expression. -/
inductive Stmt where
  | skip
  | seq (a b : Stmt)
  | expr (e : Expr)
  | assign (x : Nat) (e : Expr)
  | catchDo (f : Fn) (args : Args) (h : Stmt)
  | catchSet (x : Nat) (f : Fn) (args : Args) (h : Stmt)
  | ite (c : Expr) (t e : Stmt)
  | loop (c : Expr) (b : Stmt)
  | brk
  | cont
  | ret (e : Expr)
  | retVoid
  | raise (e : Expr)
  | reraise
  | yield (e : Expr)
  deriving Inhabited

/-- What the declarations say: which functions may raise (`!T`), which return nothing, and the same for the function at hand. -/
structure Sig where
  raises : Fn → Bool
  void : Fn → Bool
  self : Bool
  selfVoid : Bool

abbrev Trace := List (Fn × List Int)

/-- The operators, and how the called functions behave. -/
structure World where
  op : Nat → Int → Int → Int
  val : Fn → List Int → Trace → Int
  risky : Fn → List Int → Trace → Except Exc Int

/-- Local variables and the calls made. -/
structure St where
  loc : Nat → Int
  tr : Trace

/-- How a statement ends. `stuck` is a handler that ends without a value where one is needed. -/
inductive Out (σ : Type) where
  | normal (s : σ)
  | brk (s : σ)
  | cont (s : σ)
  | ret (v : Option Int) (tr : Trace)
  | exc (e : Exc) (tr : Trace)
  | yld (v : Int) (s : σ)
  | stuck
  | more

/-- A loop of at most `n` iterations. -/
def iter {σ : Type} (step : σ → Out σ) : Nat → σ → Out σ
  | 0, _ => .more
  | n + 1, s =>
    match step s with
    | .normal s' => iter step n s'
    | .cont s' => iter step n s'
    | .brk s' => .normal s'
    | o => o

/-- Evaluation in an expression: a value or an exception, and the calls made. -/
abbrev Ev (α : Type) := Except Exc α × Trace

/-- Goes on with the value. -/
def Ev.andThen {α β : Type} (r : Ev α) (k : α → Trace → Ev β) : Ev β :=
  match r with
  | (.ok v, tr) => k v tr
  | (.error e, tr) => (.error e, tr)

/-- A call. -/
def callOf (S : Sig) (W : World) (f : Fn) (vs : List Int) (tr : Trace) : Ev Int :=
  (if S.raises f then W.risky f vs tr else .ok (W.val f vs tr), tr ++ [(f, vs)])

/-- Truth values as integers. -/
def truth (b : Bool) : Int := if b then 1 else 0

mutual
/-- The value of an expression. -/
def evalE (S : Sig) (W : World) (loc : Nat → Int) : Expr → Trace → Ev Int
  | .lit n, tr => (.ok n, tr)
  | .var x, tr => (.ok (loc x), tr)
  | .bin o a b, tr =>
    (evalE S W loc a tr).andThen fun x tr => (evalE S W loc b tr).andThen fun y tr => (.ok (W.op o x y), tr)
  | .land a b, tr =>
    (evalE S W loc a tr).andThen fun x tr =>
      if x = 0 then (.ok 0, tr) else (evalE S W loc b tr).andThen fun y tr => (.ok (truth (y ≠ 0)), tr)
  | .lor a b, tr =>
    (evalE S W loc a tr).andThen fun x tr =>
      if x ≠ 0 then (.ok 1, tr) else (evalE S W loc b tr).andThen fun y tr => (.ok (truth (y ≠ 0)), tr)
  | .tern c a b, tr =>
    (evalE S W loc c tr).andThen fun x tr => if x ≠ 0 then evalE S W loc a tr else evalE S W loc b tr
  | .call f as, tr => (evalA S W loc as tr).andThen fun vs tr => callOf S W f vs tr

/-- The values of arguments. -/
def evalA (S : Sig) (W : World) (loc : Nat → Int) : Args → Trace → Ev (List Int)
  | .nil, tr => (.ok [], tr)
  | .cons e as, tr =>
    (evalE S W loc e tr).andThen fun v tr => (evalA S W loc as tr).andThen fun vs tr => (.ok (v :: vs), tr)
end

/-- Goes on with the value of an expression; an exception ends the function. -/
def withE {α σ : Type} (r : Ev α) (k : α → Trace → Out σ) : Out σ :=
  match r with
  | (.ok v, tr) => k v tr
  | (.error e, tr) => .exc e tr

/-- Execution of a statement. `cur` is the exception being handled. -/
def exec (S : Sig) (W : World) (n : Nat) : Option Exc → Stmt → St → Out St
  | _, .skip, s => .normal s
  | cur, .seq a b, s =>
    match exec S W n cur a s with
    | .normal s' => exec S W n cur b s'
    | o => o
  | _, .expr e, s => withE (evalE S W s.loc e s.tr) fun _ tr => .normal { s with tr := tr }
  | _, .assign x e, s => withE (evalE S W s.loc e s.tr) fun v tr => .normal { loc := upd s.loc x v, tr := tr }
  | _, .catchDo f as h, s =>
    withE (evalA S W s.loc as s.tr) fun vs tr =>
      match callOf S W f vs tr with
      | (.ok _, tr) => .normal { s with tr := tr }
      | (.error e, tr) =>
        match exec S W n (some e) h { s with tr := tr } with
        | .yld _ s' => .normal s'
        | o => o
  | _, .catchSet x f as h, s =>
    withE (evalA S W s.loc as s.tr) fun vs tr =>
      match callOf S W f vs tr with
      | (.ok v, tr) => .normal { loc := upd s.loc x v, tr := tr }
      | (.error e, tr) =>
        match exec S W n (some e) h { s with tr := tr } with
        | .yld v s' => .normal { loc := upd s'.loc x v, tr := s'.tr }
        | .normal _ => .stuck
        | o => o
  | cur, .ite c t e, s =>
    withE (evalE S W s.loc c s.tr) fun v tr =>
      if v ≠ 0 then exec S W n cur t { s with tr := tr } else exec S W n cur e { s with tr := tr }
  | cur, .loop c b, s =>
    iter (fun s => withE (evalE S W s.loc c s.tr) fun v tr =>
      if v ≠ 0 then exec S W n cur b { s with tr := tr } else .brk { s with tr := tr }) n s
  | _, .brk, s => .brk s
  | _, .cont, s => .cont s
  | _, .ret e, s => withE (evalE S W s.loc e s.tr) fun v tr => .ret (some v) tr
  | _, .retVoid, s => .ret none s.tr
  | _, .raise e, s => withE (evalE S W s.loc e s.tr) fun v tr => .exc v tr
  | cur, .reraise, s =>
    match cur with
    | some e => .exc e s.tr
    | none => .stuck
  | _, .yield e, s => withE (evalE S W s.loc e s.tr) fun v tr => .yld v { s with tr := tr }

mutual
/-- The expression calls a function that may raise. -/
def Expr.risky (S : Sig) : Expr → Bool
  | .lit _ | .var _ => false
  | .bin _ a b | .land a b | .lor a b => a.risky S || b.risky S
  | .tern c a b => c.risky S || a.risky S || b.risky S
  | .call f as => S.raises f || as.risky S
/-- The arguments call a function that may raise. -/
def Args.risky (S : Sig) : Args → Bool
  | .nil => false
  | .cons e as => e.risky S || as.risky S
end

mutual
/-- The expression calls no function other than those that may raise. -/
def Expr.calm (S : Sig) : Expr → Bool
  | .lit _ | .var _ => true
  | .bin _ a b | .land a b | .lor a b => a.calm S && b.calm S
  | .tern c a b => c.calm S && a.calm S && b.calm S
  | .call f as => S.raises f && as.calm S
/-- The arguments call no function other than those that may raise. -/
def Args.calm (S : Sig) : Args → Bool
  | .nil => true
  | .cons e as => e.calm S && as.calm S
end

mutual
/-- No call that may raise is evaluated after a call that may not, or only under a condition. -/
def Expr.orderly (S : Sig) : Expr → Bool
  | .lit _ | .var _ => true
  | .bin _ a b => a.orderly S && b.orderly S && (!b.risky S || a.calm S)
  | .land a b | .lor a b => a.orderly S && !b.risky S
  | .tern c a b => c.orderly S && !a.risky S && !b.risky S
  | .call _ as => as.orderly S
/-- The same for arguments. -/
def Args.orderly (S : Sig) : Args → Bool
  | .nil => true
  | .cons e as => e.orderly S && as.orderly S && (!as.risky S || e.calm S)
end

/-- No `yield` of the handler this statement belongs to (those inside nested handlers are not counted). -/
def Stmt.noYield : Stmt → Bool
  | .seq a b => a.noYield && b.noYield
  | .ite _ t e => t.noYield && e.noYield
  | .loop _ b => b.noYield
  | .yield _ => false
  | _ => true

/-- Every way through the statement ends by yielding or by leaving. -/
def Stmt.settles : Stmt → Bool
  | .seq _ b => b.settles
  | .ite _ t e => t.settles && e.settles
  | .brk | .cont | .ret _ | .retVoid | .raise _ | .reraise | .yield _ => true
  | _ => false

/-- No call that may raise stands as a statement of its own. -/
def Stmt.noBare (S : Sig) : Stmt → Bool
  | .seq a b => a.noBare S && b.noBare S
  | .ite _ t e => t.noBare S && e.noBare S
  | .loop _ b => b.noBare S
  | .catchDo _ _ h | .catchSet _ _ _ h => h.noBare S
  | .expr (.call f _) => !S.raises f
  | _ => true

/-- The conditions of the statement, if it is an `if`, and of the `else if`s that follow do not call what may raise. -/
def Stmt.chainSafe (S : Sig) : Stmt → Bool
  | .ite c _ e => !c.risky S && e.chainSafe S
  | _ => true

/-- The statements about which the compiler is right: expressions are orderly, no condition behind an `else if` calls what may
raise, a `yield` is the last thing done in its handler, a handler whose value is needed always yields or leaves, and no handler
has a call that may raise as a statement. -/
def Stmt.plain (S : Sig) : Stmt → Bool
  | .skip | .brk | .cont | .retVoid | .reraise => true
  | .seq a b => a.plain S && b.plain S && a.noYield
  | .expr e | .assign _ e | .ret e | .raise e | .yield e => e.orderly S
  | .catchDo _ as h => as.orderly S && h.plain S && h.noBare S
  | .catchSet _ _ as h => as.orderly S && h.plain S && h.noBare S && h.settles
  | .ite c t e => c.orderly S && t.plain S && e.plain S && e.chainSafe S
  | .loop c b => c.orderly S && b.plain S && b.noYield

end Verif.Raise
