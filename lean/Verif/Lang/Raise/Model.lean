import Verif.Lang.Raise.Source
/-!
# Model of how calls that raise are compiled

`src/cxy/lang/middle/sema/exception.c` (`checkCallExceptionBubbleUp`, `checkCatchBinaryOperator`, `exceptionVerifyRaiseExpr`),
`sema/call.c` (`checkCallExpr`), `sema/binary.c` (`checkBinaryExpr`, the part that sets `explicitCatch` and `catcher`),
`sema/check.c` (`checkBlockStmt`, `checkReturnStmt`, `checkYieldStmt`, `checkWhileStmt`, `checkTernaryExpr`, `withSavedStack`),
`sema/if.c` (`checkIfStmt`), `middle/shake/shake.c` (`shakeIfStmt`, `shakeWhileStmt`, `shakeBinaryExpr`, `shakeReturnStmt`) and
`frontend/visitor.c` (`astModifierAdd`).

A call that may raise is taken out of its expression: `var _res = call; if (_res is Exception) return _res;` is inserted in front of
the current statement of the innermost block, and the expression reads the value out of `_res`. The result of checking a statement
is therefore a pair: what goes in front of it, and what is left of it.

Simplified: all values are integers and the types that the checks see are "integer", "nothing" and "result of a raising call"; the
numbers of the temporaries stand for the names made by `makeAnonymousVariable`; `_Tres`, which the checker creates at the first
`yield`, gets its number with `_res`; the moves (`&&_res`) and the recording of stack traces are left out. Refused although the
compiler accepts them, hence outside the model: statements behind a `return` of the same block (the compiler warns and drops
them); a declaration `var x = f()` inside a handler, which gives `x` the type of the whole result; a `catch` inside a handler behind
a use of `ex!` (`catcher.result` is not cleared for it, so that it takes over the result of the outer `catch`).
-/
namespace Verif.Raise

mutual
/-- Expressions after the check. `tmp k` is the cast of `_res` to the value type, or the variable `_Tres`. -/
inductive LExpr where
  | lit (n : Int)
  | var (x : Nat)
  | tmp (k : Nat)
  | bin (op : Nat) (a b : LExpr)
  | land (a b : LExpr)
  | lor (a b : LExpr)
  | tern (c a b : LExpr)
  | call (f : Fn) (args : LArgs)

/-- Arguments after the check. -/
inductive LArgs where
  | nil
  | cons (e : LExpr) (as : LArgs)
end

/-- Statements after the check. -/
inductive LStmt where
  | skip
  | seq (a b : LStmt)
  | expr (e : LExpr)
  /-- a call of a function that may raise whose result is dropped -/
  | drop (f : Fn) (args : LArgs)
  | assign (x : Nat) (e : LExpr)
  /-- `var _res = f(args)` -/
  | setRes (k : Nat) (f : Fn) (args : LArgs)
  /-- `if (_res is Exception) { return _res as Exception }` -/
  | bubble (k : Nat)
  /-- `if (_res is Exception) h else e` -/
  | ifExc (k : Nat) (h e : LStmt)
  /-- `_Tres = e` -/
  | setTmp (k : Nat) (e : LExpr)
  | ite (c : LExpr) (t e : LStmt)
  | loop (b : LStmt)
  | brk
  | cont
  | ret (e : LExpr)
  /-- `return f(args)` of a call that may raise, passed on whole -/
  | retRaw (f : Fn) (args : LArgs)
  | retVoid
  | raise (e : LExpr)
  /-- `return _res as Exception` -/
  | raiseTmp (k : Nat)

/-! ## The check -/

/-- What the checker keeps: `returnState`, the next free temporary, and of the `catch` around: whether the type of its block is
set, whether there is a `_Tres`, whether `ex!` was used (`check.h` 30, 60–66). -/
structure Cx where
  ret : Bool
  next : Nat
  typed : Bool
  yielded : Bool
  exUsed : Bool

/-- What is passed down: `explicitCatch`, which `withSavedStack` (`check.c` 664–677) restores after every node, and the `catch`
around: its `_res`, and whether its call returns nothing. -/
structure Env where
  flag : Bool
  cat : Option (Nat × Bool)

mutual
/-- `checkType` of an expression: what goes in front, what is left, the new state; `none` when it is rejected.
`checkBinaryExpr` (`binary.c` 162–167) sets `explicitCatch` to false for its operands. `checkCallExpr` (`call.c` 169, 333) bubbles
up unless `explicitCatch` was set; then the expression has the type of the result, which no operator and no parameter takes.
`checkCallExceptionBubbleUp` (`exception.c` 347–415). -/
def lowerE (S : Sig) (fl : Bool) : Expr → Nat → Option (LStmt × LExpr × Nat)
  | .lit n, k => some (.skip, .lit n, k)
  | .var x, k => some (.skip, .var x, k)
  | .bin o a b, k => do
    let (ha, a', k) ← lowerE S false a k
    let (hb, b', k) ← lowerE S false b k
    some (.seq ha hb, .bin o a' b', k)
  | .land a b, k => do
    let (ha, a', k) ← lowerE S false a k
    let (hb, b', k) ← lowerE S false b k
    some (.seq ha hb, .land a' b', k)
  | .lor a b, k => do
    let (ha, a', k) ← lowerE S false a k
    let (hb, b', k) ← lowerE S false b k
    some (.seq ha hb, .lor a' b', k)
  | .tern c a b, k => do
    let (hc, c', k) ← lowerE S fl c k
    let (ha, a', k) ← lowerE S fl a k
    let (hb, b', k) ← lowerE S fl b k
    some (.seq hc (.seq ha hb), .tern c' a' b', k)
  | .call f as, k => do
    let (h, as', k) ← lowerA S fl as k
    if S.void f then none
    else if S.raises f then
      if fl || !S.self then none
      else some (.seq h (.seq (.setRes k f as') (.bubble k)), .tmp k, k + 1)
    else some (h, .call f as', k)

/-- The arguments of a call, in order (`call.c` 68–91). -/
def lowerA (S : Sig) (fl : Bool) : Args → Nat → Option (LStmt × LArgs × Nat)
  | .nil, k => some (.skip, .nil, k)
  | .cons e as, k => do
    let (he, e', k) ← lowerE S fl e k
    let (ha, as', k) ← lowerA S fl as k
    some (.seq he ha, .cons e' as', k)
end

/-- The nodes behind which `hasUnreachable` (`check.c` 64–69) looks at `returnState`. -/
def Stmt.stops : Stmt → Bool
  | .ite .. | .loop .. | .brk | .cont | .skip => false
  | _ => true

/-- The empty block. -/
def Stmt.isSkip : Stmt → Bool
  | .skip => true
  | _ => false

/-- An `if`, which `shakeIfStmt` (`shake.c` 487–497) does not put into a block when it follows an `else`. -/
def Stmt.isIf : Stmt → Bool
  | .ite .. => true
  | _ => false

/-- What `checkCatchBinaryOperator` (`exception.c` 259–282) asks of a handler: unless it returns, it has to have the type of the
value; for a call that returns nothing it must not have any type, and `raise` gives it one (`exception.c` 233–236). -/
def handlerOk (S : Sig) (f : Fn) (cx : Cx) : Bool := cx.ret || (if S.void f then !cx.typed else cx.typed)

/-- `checkType` of a statement: what goes in front of it, what is left of it, the new state.
`checkBlockStmt` (`check.c` 121–190), `checkIfStmt`, `checkWhileStmt` on what `shakeWhileStmt` (`shake.c` 499–549) made of the loop,
`checkReturnStmt` (`check.c` 196–277), `checkYieldStmt` (`check.c` 279–358), `checkCatchBinaryOperator` (`exception.c` 242–345). -/
def lowerS (S : Sig) : Env → Stmt → Cx → Option (LStmt × LStmt × Cx)
  | _, .skip, cx => some (.skip, .skip, cx)
  | env, .seq a b, cx => do
    let (ha, a', cx) ← lowerS S env a cx
    if cx.ret && a.stops && !b.isSkip then none
    else
      let (hb, b', cx) ← lowerS S env b cx
      some (.skip, .seq (.seq ha a') (.seq hb b'), cx)
  | env, .expr e, cx =>
    match e with
    | .call f as => do
      let (h, as', k) ← lowerA S env.flag as cx.next
      if S.raises f then
        if env.flag then some (h, .drop f as', { cx with next := k })
        else if !S.self then none
        else some (.seq h (.seq (.setRes k f as') (.bubble k)), .skip, { cx with next := k + 1 })
      else some (h, .expr (.call f as'), { cx with next := k })
    | e => do
      let (h, e', k) ← lowerE S env.flag e cx.next
      some (h, .expr e', { cx with next := k })
  | env, .assign x e, cx => do
    let (h, e', k) ← lowerE S env.flag e cx.next
    some (h, .assign x e', { cx with next := k })
  | _, .catchDo f as h, cx => do
    let (ha, as', k) ← lowerA S true as cx.next
    if !S.raises f || cx.exUsed then none
    else
      let (hh, h', cx1) ← lowerS S ⟨true, some (k, S.void f)⟩ h ⟨cx.ret, k + 2, false, false, false⟩
      if !handlerOk S f cx1 then none
      else
        some (.seq ha (.seq (.setRes k f as')
          (if h.isSkip then .skip
           else .ifExc k (.seq hh h') (if cx1.yielded then .setTmp (k + 1) (.tmp k) else .skip))),
          .skip, { cx with next := cx1.next })
  | _, .catchSet x f as h, cx => do
    let (ha, as', k) ← lowerA S true as cx.next
    if !S.raises f || S.void f || cx.exUsed then none
    else
      let (hh, h', cx1) ← lowerS S ⟨true, some (k, S.void f)⟩ h ⟨cx.ret, k + 2, false, false, false⟩
      if !handlerOk S f cx1 then none
      else
        some (.seq ha (.seq (.setRes k f as')
          (if h.isSkip then .skip
           else .ifExc k (.seq hh h') (if cx1.yielded then .setTmp (k + 1) (.tmp k) else .skip))),
          .assign x (.tmp (if cx1.yielded then k + 1 else k)), { cx with next := cx1.next })
  | env, .ite c t e, cx => do
    let (hc, c', k) ← lowerE S env.flag c cx.next
    let (ht, t', cx1) ← lowerS S env t { cx with next := k, ret := false }
    if e.isSkip then some (hc, .ite c' (.seq ht t') .skip, { cx1 with ret := cx1.ret && cx.ret })
    else
      let (he, e', cx2) ← lowerS S env e { cx1 with ret := false }
      if e.isIf then some (.seq hc he, .ite c' (.seq ht t') e', { cx2 with ret := cx1.ret && cx2.ret })
      else some (hc, .ite c' (.seq ht t') (.seq he e'), { cx2 with ret := cx1.ret && cx2.ret })
  | env, .loop c b, cx => do
    let (hc, c', k) ← lowerE S env.flag c cx.next
    let (hb, b', cx1) ← lowerS S env b { cx with next := k, ret := false }
    some (.skip, .loop (.seq hc (.ite c' (.seq hb b') .brk)), { cx1 with ret := cx.ret })
  | _, .brk, cx => some (.skip, .brk, cx)
  | _, .cont, cx => some (.skip, .cont, cx)
  | env, .ret e, cx =>
    if S.selfVoid then none
    else
      match e with
      | .call f as => do
        let (h, as', k) ← lowerA S env.flag as cx.next
        if S.void f then none
        else if S.raises f then
          if !S.self then none
          else if env.flag then some (h, .retRaw f as', { cx with next := k, ret := true })
          else some (.seq h (.seq (.setRes k f as') (.bubble k)), .ret (.tmp k), { cx with next := k + 1, ret := true })
        else some (h, .ret (.call f as'), { cx with next := k, ret := true })
      | e => do
        let (h, e', k) ← lowerE S env.flag e cx.next
        some (h, .ret e', { cx with next := k, ret := true })
  | _, .retVoid, cx => if S.selfVoid then some (.skip, .retVoid, { cx with ret := true }) else none
  | env, .raise e, cx => do
    let (h, e', k) ← lowerE S env.flag e cx.next
    if !S.self then none
    else some (h, .raise e', { cx with next := k, typed := cx.typed || env.cat.isSome })
  | env, .reraise, cx =>
    match env.cat with
    | none => none
    | some (r, _) =>
      if !S.self then none else some (.skip, .raiseTmp r, { cx with typed := true, exUsed := true })
  | env, .yield e, cx =>
    match env.cat with
    | none => none
    | some (r, v) =>
      if v then none
      else do
        let (h, e', k) ← lowerE S env.flag e cx.next
        some (h, .setTmp (r + 1) e', { cx with next := k, typed := true, yielded := true })

/-- The body of a function (`checkFunctionBody`, `function.c` 374–392). -/
def compile (S : Sig) (body : Stmt) : Option LStmt :=
  (lowerS S ⟨false, none⟩ body ⟨false, 0, false, false, false⟩).map fun (h, b, _) => .seq h b

/-! ## What the checked program does -/

/-- State: the temporaries hold nothing yet, a value or an exception. -/
structure LSt where
  loc : Nat → Int
  tr : Trace
  tmp : Nat → Option (Except Exc Int)

mutual
/-- Values of expressions; `none` is a read of a temporary that has no value, or holds an exception: the union is read as a value
(`visitCastExpr`, `generate.c` 954–967, reads the member without looking at the tag). -/
def evalL (W : World) (loc : Nat → Int) (tmp : Nat → Option (Except Exc Int)) : LExpr → Trace → Option (Int × Trace)
  | .lit n, tr => some (n, tr)
  | .var x, tr => some (loc x, tr)
  | .tmp k, tr =>
    match tmp k with
    | some (.ok v) => some (v, tr)
    | _ => none
  | .bin o a b, tr => do
    let (x, tr) ← evalL W loc tmp a tr
    let (y, tr) ← evalL W loc tmp b tr
    some (W.op o x y, tr)
  | .land a b, tr => do
    let (x, tr) ← evalL W loc tmp a tr
    if x = 0 then some (0, tr)
    else
      let (y, tr) ← evalL W loc tmp b tr
      some (truth (y ≠ 0), tr)
  | .lor a b, tr => do
    let (x, tr) ← evalL W loc tmp a tr
    if x ≠ 0 then some (1, tr)
    else
      let (y, tr) ← evalL W loc tmp b tr
      some (truth (y ≠ 0), tr)
  | .tern c a b, tr => do
    let (x, tr) ← evalL W loc tmp c tr
    if x ≠ 0 then evalL W loc tmp a tr else evalL W loc tmp b tr
  | .call f as, tr => do
    let (vs, tr) ← evalLA W loc tmp as tr
    some (W.val f vs tr, tr ++ [(f, vs)])

/-- Values of arguments. -/
def evalLA (W : World) (loc : Nat → Int) (tmp : Nat → Option (Except Exc Int)) : LArgs → Trace → Option (List Int × Trace)
  | .nil, tr => some ([], tr)
  | .cons e as, tr => do
    let (v, tr) ← evalL W loc tmp e tr
    let (vs, tr) ← evalLA W loc tmp as tr
    some (v :: vs, tr)
end

/-- Goes on with a value. -/
def withL {α σ : Type} (r : Option (α × Trace)) (k : α → Trace → Out σ) : Out σ :=
  match r with
  | some (v, tr) => k v tr
  | none => .stuck

/-- Execution of a checked statement. -/
def execL (W : World) (n : Nat) : LStmt → LSt → Out LSt
  | .skip, s => .normal s
  | .seq a b, s =>
    match execL W n a s with
    | .normal s' => execL W n b s'
    | o => o
  | .expr e, s => withL (evalL W s.loc s.tmp e s.tr) fun _ tr => .normal { s with tr := tr }
  | .drop f as, s =>
    withL (evalLA W s.loc s.tmp as s.tr) fun vs tr => .normal { s with tr := tr ++ [(f, vs)] }
  | .assign x e, s =>
    withL (evalL W s.loc s.tmp e s.tr) fun v tr => .normal { s with loc := upd s.loc x v, tr := tr }
  | .setRes k f as, s =>
    withL (evalLA W s.loc s.tmp as s.tr) fun vs tr =>
      .normal { s with tr := tr ++ [(f, vs)], tmp := upd s.tmp k (some (W.risky f vs tr)) }
  | .bubble k, s =>
    match s.tmp k with
    | some (.error e) => .exc e s.tr
    | some (.ok _) => .normal s
    | none => .stuck
  | .ifExc k h e, s =>
    match s.tmp k with
    | some (.error _) => execL W n h s
    | some (.ok _) => execL W n e s
    | none => .stuck
  | .setTmp k e, s =>
    withL (evalL W s.loc s.tmp e s.tr) fun v tr => .normal { s with tr := tr, tmp := upd s.tmp k (some (.ok v)) }
  | .ite c t e, s =>
    withL (evalL W s.loc s.tmp c s.tr) fun v tr =>
      if v ≠ 0 then execL W n t { s with tr := tr } else execL W n e { s with tr := tr }
  | .loop b, s => iter (execL W n b) n s
  | .brk, s => .brk s
  | .cont, s => .cont s
  | .ret e, s => withL (evalL W s.loc s.tmp e s.tr) fun v tr => .ret (some v) tr
  | .retRaw f as, s =>
    withL (evalLA W s.loc s.tmp as s.tr) fun vs tr =>
      match W.risky f vs tr with
      | .ok v => .ret (some v) (tr ++ [(f, vs)])
      | .error e => .exc e (tr ++ [(f, vs)])
  | .retVoid, s => .ret none s.tr
  | .raise e, s => withL (evalL W s.loc s.tmp e s.tr) fun v tr => .exc v tr
  | .raiseTmp k, s =>
    match s.tmp k with
    | some (.error e) => .exc e s.tr
    | _ => .stuck

end Verif.Raise
