import Verif.Lang.Raise.Stmts
/-!
# Exceptions reach the caller or the handler

The compiled function does exactly what the function means: the same calls in the same order with the same arguments, and the same
ending. For all functions that are accepted and `plain`; `Holes.lean` shows the conditions of `plain` to be needed.
-/
namespace Verif.Raise

/-- What can be seen of a state of the compiled function. -/
def LSt.seen (t : LSt) : St := ⟨t.loc, t.tr⟩

/-- What can be seen of an ending of the compiled function. -/
def Out.seen : Out LSt → Out St
  | .normal t => .normal t.seen
  | .brk t => .brk t.seen
  | .cont t => .cont t.seen
  | .ret v tr => .ret v tr
  | .exc e tr => .exc e tr
  | .yld v t => .yld v t.seen
  | .stuck => .stuck
  | .more => .more

/-- Outside handlers nothing yields. -/
theorem noYield_of_lower (S : Sig) : ∀ (s : Stmt) (fl : Bool) (cx : Cx) (h s' : LStmt) (cx' : Cx),
    lowerS S ⟨fl, none⟩ s cx = some (h, s', cx') → s.noYield = true := by
  intro s
  induction s with
  | seq a b iha ihb =>
    intro fl cx h s' cx' hl
    simp only [lowerS, Option.bind_eq_bind, Option.bind_eq_some_iff, Prod.exists] at hl
    obtain ⟨ha, a', cx1, hla, hl⟩ := hl
    split at hl
    · cases hl
    simp only [Option.bind_eq_some_iff, Prod.exists] at hl
    obtain ⟨hb', b', cx2, hlb, _⟩ := hl
    simp only [Stmt.noYield, Bool.and_eq_true]
    exact ⟨iha _ _ _ _ _ hla, ihb _ _ _ _ _ hlb⟩
  | ite c t e iht ihe =>
    intro fl cx h s' cx' hl
    simp only [lowerS, Option.bind_eq_bind, Option.bind_eq_some_iff, Prod.exists] at hl
    obtain ⟨hc, c', k, hlc, ht, t', cx1, hlt, hl⟩ := hl
    simp only [Stmt.noYield, Bool.and_eq_true]
    refine ⟨iht _ _ _ _ _ hlt, ?_⟩
    split at hl
    · rename_i hsk
      cases e <;> simp [Stmt.isSkip] at hsk
      rfl
    · simp only [Option.bind_eq_some_iff, Prod.exists] at hl
      obtain ⟨he, e', cx2, hle, hl⟩ := hl
      exact ihe _ _ _ _ _ hle
  | loop c b ih =>
    intro fl cx h s' cx' hl
    simp only [lowerS, Option.bind_eq_bind, Option.bind_eq_some_iff, Prod.exists] at hl
    obtain ⟨hc, c', k, hlc, hb', b', cx1, hlb, _⟩ := hl
    exact ih _ _ _ _ _ hlb
  | yield e => intro fl cx h s' cx' hl; simp [lowerS] at hl
  | _ => intros; rfl

/-- **C149** (partial). An accepted function does exactly what it means: whatever the functions it calls return or raise, and
however long its loops run, it makes the same calls in the same order with the same arguments, leaves the same values in its
variables, and ends in the same way; in particular an exception that is not caught ends it and is what the caller gets.

Missing: functions that are not `plain`, for which it is false (`Holes.lean`). -/
theorem compiled_as_written_partial (S : Sig) (body : Stmt) (c : LStmt) (hc : compile S body = some c)
    (hp : body.plain S = true) (W : World) (n : Nat) (t : LSt) :
    (execL W n c t).seen = exec S W n none body t.seen := by
  simp only [compile, Option.map_eq_some_iff, Prod.exists] at hc
  obtain ⟨h, s', cx', hl, rfl⟩ := hc
  have h1 := (lowerS_right S W n body _ _ _ _ _ hl hp (fun h => nomatch h)).2 0 none t (fun _ _ h => nomatch h)
  have h2 := exec_noYield S W n body none ⟨t.loc, t.tr⟩
  have h3 := noYield_of_lower S body _ _ _ _ _ hl
  show (execL W n (.seq h s') t).seen = exec S W n none body ⟨t.loc, t.tr⟩
  cases ho : exec S W n none body ⟨t.loc, t.tr⟩ <;> cases ho' : execL W n (.seq h s') t <;> rw [ho, ho'] at h1 <;>
    simp only [Sim, Er] at h1
  case normal.normal s t1 => cases s; obtain ⟨⟨e1, e2⟩, _⟩ := h1; simp at e1 e2; simp [Out.seen, LSt.seen, e1, e2]
  case brk.brk s t1 => cases s; obtain ⟨⟨e1, e2⟩, _⟩ := h1; simp at e1 e2; simp [Out.seen, LSt.seen, e1, e2]
  case cont.cont s t1 => cases s; obtain ⟨⟨e1, e2⟩, _⟩ := h1; simp at e1 e2; simp [Out.seen, LSt.seen, e1, e2]
  case ret.ret => simp [Out.seen, h1]
  case exc.exc => simp [Out.seen, h1]
  case yld.normal => exact absurd ho (h2 _ _ h3)
  case more.more => rfl

/-- What lets an exception out of a compiled statement. -/
def LStmt.lets : LStmt → Bool
  | .seq a b => a.lets || b.lets
  | .bubble _ | .raise _ | .raiseTmp _ | .retRaw .. => true
  | .ifExc _ h e => h.lets || e.lets
  | .ite _ t e => t.lets || e.lets
  | .loop b => b.lets
  | _ => false

theorem iter_not_exc {step : LSt → Out LSt} (hs : ∀ t e tr, step t ≠ .exc e tr) :
    ∀ n t e tr, iter step n t ≠ .exc e tr := by
  intro n
  induction n with
  | zero => intro t e tr h; cases h
  | succ n ih =>
    intro t e tr h
    simp only [iter] at h
    split at h
    · exact ih _ _ _ h
    · exact ih _ _ _ h
    · cases h
    · exact hs _ _ _ h

theorem execL_not_exc (W : World) (n : Nat) : ∀ (s : LStmt), s.lets = false → ∀ t e tr, execL W n s t ≠ .exc e tr := by
  intro s
  induction s with
  | skip => intro _ t e tr h; cases h
  | seq a b iha ihb =>
    intro hl t e tr h
    simp only [LStmt.lets, Bool.or_eq_false_iff] at hl
    simp only [execL] at h
    split at h
    · exact ihb hl.2 _ _ _ h
    · exact iha hl.1 _ _ _ h
  | ifExc k a b iha ihb =>
    intro hl t e tr h
    simp only [LStmt.lets, Bool.or_eq_false_iff] at hl
    simp only [execL] at h
    split at h
    · exact iha hl.1 _ _ _ h
    · exact ihb hl.2 _ _ _ h
    · cases h
  | ite c a b iha ihb =>
    intro hl t e tr h
    simp only [LStmt.lets, Bool.or_eq_false_iff] at hl
    simp only [execL, withL] at h
    split at h
    · split at h
      · exact iha hl.1 _ _ _ h
      · exact ihb hl.2 _ _ _ h
    · cases h
  | loop b ih =>
    intro hl t e tr h
    simp only [LStmt.lets] at hl
    exact iter_not_exc (ih hl) _ _ _ _ h
  | bubble | raise | raiseTmp | retRaw => intro hl; cases hl
  | _ =>
    intro _ t e tr h
    simp only [execL, withL] at h
    first
      | cases h
      | (split at h <;> cases h)

mutual
theorem lowerE_lets (S : Sig) (hs : S.self = false) : ∀ (e : Expr) (fl : Bool) (k : Nat) (h : LStmt) (e' : LExpr) (k' : Nat),
    lowerE S fl e k = some (h, e', k') → h.lets = false := by
  intro e fl k h e' k' hl
  cases e with
  | lit n => simp only [lowerE, Option.some.injEq, Prod.mk.injEq] at hl; obtain ⟨rfl, _⟩ := hl; rfl
  | var n => simp only [lowerE, Option.some.injEq, Prod.mk.injEq] at hl; obtain ⟨rfl, _⟩ := hl; rfl
  | bin o a b | land a b | lor a b =>
    simp only [lowerE, Option.bind_eq_bind, Option.bind_eq_some_iff, Prod.exists, Option.some.injEq, Prod.mk.injEq] at hl
    obtain ⟨ha, a', k1, hla, hb, b', k2, hlb, rfl, _⟩ := hl
    simp [LStmt.lets, lowerE_lets S hs a _ _ _ _ _ hla, lowerE_lets S hs b _ _ _ _ _ hlb]
  | tern c a b =>
    simp only [lowerE, Option.bind_eq_bind, Option.bind_eq_some_iff, Prod.exists, Option.some.injEq, Prod.mk.injEq] at hl
    obtain ⟨hc, c', k0, hlc, ha, a', k1, hla, hb, b', k2, hlb, rfl, _⟩ := hl
    simp [LStmt.lets, lowerE_lets S hs c _ _ _ _ _ hlc, lowerE_lets S hs a _ _ _ _ _ hla,
      lowerE_lets S hs b _ _ _ _ _ hlb]
  | call f as =>
    simp only [lowerE, Option.bind_eq_bind, Option.bind_eq_some_iff, Prod.exists] at hl
    obtain ⟨ha, as', k1, hla, hl⟩ := hl
    simp only [hs, Bool.not_false, Bool.or_true, if_true] at hl
    split at hl
    · cases hl
    split at hl
    · cases hl
    simp only [Option.some.injEq, Prod.mk.injEq] at hl
    obtain ⟨rfl, _⟩ := hl
    exact lowerA_lets S hs as _ _ _ _ _ hla

theorem lowerA_lets (S : Sig) (hs : S.self = false) : ∀ (e : Args) (fl : Bool) (k : Nat) (h : LStmt) (e' : LArgs) (k' : Nat),
    lowerA S fl e k = some (h, e', k') → h.lets = false := by
  intro e fl k h e' k' hl
  cases e with
  | nil => simp only [lowerA, Option.some.injEq, Prod.mk.injEq] at hl; obtain ⟨rfl, _⟩ := hl; rfl
  | cons e as =>
    simp only [lowerA, Option.bind_eq_bind, Option.bind_eq_some_iff, Prod.exists, Option.some.injEq, Prod.mk.injEq] at hl
    obtain ⟨ha, a', k1, hla, hb, b', k2, hlb, rfl, _⟩ := hl
    simp [LStmt.lets, lowerE_lets S hs e _ _ _ _ _ hla, lowerA_lets S hs as _ _ _ _ _ hlb]
end

theorem lowerS_lets (S : Sig) (hs : S.self = false) : ∀ (s : Stmt) (env : Env) (cx : Cx) (h s' : LStmt) (cx' : Cx),
    lowerS S env s cx = some (h, s', cx') → h.lets = false ∧ s'.lets = false := by
  intro s
  induction s with
  | skip | brk | cont =>
    intro env cx h s' cx' hl
    simp only [lowerS, Option.some.injEq, Prod.mk.injEq] at hl
    obtain ⟨rfl, rfl, _⟩ := hl
    exact ⟨rfl, rfl⟩
  | seq a b iha ihb =>
    intro env cx h s' cx' hl
    simp only [lowerS, Option.bind_eq_bind, Option.bind_eq_some_iff, Prod.exists] at hl
    obtain ⟨ha, a', cx1, hla, hl⟩ := hl
    split at hl
    · cases hl
    simp only [Option.bind_eq_some_iff, Prod.exists, Option.some.injEq, Prod.mk.injEq] at hl
    obtain ⟨hb', b', cx2, hlb, rfl, rfl, rfl⟩ := hl
    simp [LStmt.lets, iha _ _ _ _ _ hla, ihb _ _ _ _ _ hlb]
  | expr e =>
    intro env cx h s' cx' hl
    by_cases he : ∃ f as, e = .call f as
    · obtain ⟨f, as, rfl⟩ := he
      simp only [lowerS, Option.bind_eq_bind, Option.bind_eq_some_iff, Prod.exists] at hl
      obtain ⟨ha, as', k, hla, hl⟩ := hl
      have := lowerA_lets S hs _ _ _ _ _ _ hla
      simp only [hs, Bool.not_false, if_true] at hl
      split at hl
      · split at hl
        · simp only [Option.some.injEq, Prod.mk.injEq] at hl
          obtain ⟨rfl, rfl, rfl⟩ := hl
          exact ⟨this, rfl⟩
        · cases hl
      · simp only [Option.some.injEq, Prod.mk.injEq] at hl
        obtain ⟨rfl, rfl, rfl⟩ := hl
        exact ⟨this, rfl⟩
    · rw [lowerS_expr (fun f as h => he ⟨f, as, h⟩)] at hl
      simp only [Option.bind_eq_some_iff, Prod.exists, Option.some.injEq, Prod.mk.injEq] at hl
      obtain ⟨hh, e', k, hle, rfl, rfl, rfl⟩ := hl
      exact ⟨lowerE_lets S hs _ _ _ _ _ _ hle, rfl⟩
  | assign x e =>
    intro env cx h s' cx' hl
    simp only [lowerS, Option.bind_eq_bind, Option.bind_eq_some_iff, Prod.exists, Option.some.injEq, Prod.mk.injEq] at hl
    obtain ⟨hh, e', k, hle, rfl, rfl, rfl⟩ := hl
    exact ⟨lowerE_lets S hs _ _ _ _ _ _ hle, rfl⟩
  | catchDo f as hd ih =>
    intro env cx h s' cx' hl
    simp only [lowerS, Option.bind_eq_bind, Option.bind_eq_some_iff, Prod.exists] at hl
    obtain ⟨ha, as', k, hla, hl⟩ := hl
    split at hl
    · cases hl
    simp only [Option.bind_eq_some_iff, Prod.exists] at hl
    obtain ⟨hh, h', cx1, hlh, hl⟩ := hl
    split at hl
    · cases hl
    simp only [Option.some.injEq, Prod.mk.injEq] at hl
    obtain ⟨rfl, rfl, rfl⟩ := hl
    refine ⟨?_, rfl⟩
    simp only [LStmt.lets, lowerA_lets S hs _ _ _ _ _ _ hla, Bool.false_or]
    split
    · rfl
    · simp only [LStmt.lets, ih _ _ _ _ _ hlh, Bool.false_or]
      split <;> rfl
  | catchSet x f as hd ih =>
    intro env cx h s' cx' hl
    simp only [lowerS, Option.bind_eq_bind, Option.bind_eq_some_iff, Prod.exists] at hl
    obtain ⟨ha, as', k, hla, hl⟩ := hl
    split at hl
    · cases hl
    simp only [Option.bind_eq_some_iff, Prod.exists] at hl
    obtain ⟨hh, h', cx1, hlh, hl⟩ := hl
    split at hl
    · cases hl
    simp only [Option.some.injEq, Prod.mk.injEq] at hl
    obtain ⟨rfl, rfl, rfl⟩ := hl
    refine ⟨?_, rfl⟩
    simp only [LStmt.lets, lowerA_lets S hs _ _ _ _ _ _ hla, Bool.false_or]
    split
    · rfl
    · simp only [LStmt.lets, ih _ _ _ _ _ hlh, Bool.false_or]
      split <;> rfl
  | ite c t e iht ihe =>
    intro env cx h s' cx' hl
    simp only [lowerS, Option.bind_eq_bind, Option.bind_eq_some_iff, Prod.exists] at hl
    obtain ⟨hc, c', k, hlc, ht, t', cx1, hlt, hl⟩ := hl
    have h1 := lowerE_lets S hs _ _ _ _ _ _ hlc
    have h2 := iht _ _ _ _ _ hlt
    split at hl
    · simp only [Option.some.injEq, Prod.mk.injEq] at hl
      obtain ⟨rfl, rfl, rfl⟩ := hl
      simp [LStmt.lets, h1, h2]
    · simp only [Option.bind_eq_some_iff, Prod.exists] at hl
      obtain ⟨he, e', cx2, hle, hl⟩ := hl
      have h3 := ihe _ _ _ _ _ hle
      split at hl <;>
      · simp only [Option.some.injEq, Prod.mk.injEq] at hl
        obtain ⟨rfl, rfl, rfl⟩ := hl
        simp [LStmt.lets, h1, h2, h3]
  | loop c b ih =>
    intro env cx h s' cx' hl
    simp only [lowerS, Option.bind_eq_bind, Option.bind_eq_some_iff, Prod.exists, Option.some.injEq, Prod.mk.injEq] at hl
    obtain ⟨hc, c', k, hlc, hb', b', cx1, hlb, rfl, rfl, rfl⟩ := hl
    simp [LStmt.lets, lowerE_lets S hs _ _ _ _ _ _ hlc, ih _ _ _ _ _ hlb]
  | ret e =>
    intro env cx h s' cx' hl
    by_cases he : ∃ f as, e = .call f as
    · obtain ⟨f, as, rfl⟩ := he
      simp only [lowerS] at hl
      split at hl
      · cases hl
      simp only [Option.bind_eq_bind, Option.bind_eq_some_iff, Prod.exists] at hl
      obtain ⟨ha, as', k, hla, hl⟩ := hl
      simp only [hs, Bool.not_false, if_true] at hl
      split at hl
      · cases hl
      split at hl
      · cases hl
      simp only [Option.some.injEq, Prod.mk.injEq] at hl
      obtain ⟨rfl, rfl, rfl⟩ := hl
      exact ⟨lowerA_lets S hs _ _ _ _ _ _ hla, rfl⟩
    · rw [lowerS_ret (fun f as h => he ⟨f, as, h⟩)] at hl
      split at hl
      · cases hl
      simp only [Option.bind_eq_some_iff, Prod.exists, Option.some.injEq, Prod.mk.injEq] at hl
      obtain ⟨hh, e', k, hle, rfl, rfl, rfl⟩ := hl
      exact ⟨lowerE_lets S hs _ _ _ _ _ _ hle, rfl⟩
  | retVoid =>
    intro env cx h s' cx' hl
    simp only [lowerS] at hl
    split at hl
    · simp only [Option.some.injEq, Prod.mk.injEq] at hl
      obtain ⟨rfl, rfl, rfl⟩ := hl
      exact ⟨rfl, rfl⟩
    · cases hl
  | raise e =>
    intro env cx h s' cx' hl
    simp only [lowerS, Option.bind_eq_bind, Option.bind_eq_some_iff, Prod.exists, hs, Bool.not_false, if_true] at hl
    obtain ⟨_, _, _, _, hl⟩ := hl
    cases hl
  | reraise =>
    intro env cx h s' cx' hl
    simp only [lowerS, hs, Bool.not_false, if_true] at hl
    split at hl <;> cases hl
  | yield e =>
    intro env cx h s' cx' hl
    simp only [lowerS] at hl
    split at hl
    · cases hl
    split at hl
    · cases hl
    simp only [Option.bind_eq_bind, Option.bind_eq_some_iff, Prod.exists, Option.some.injEq, Prod.mk.injEq] at hl
    obtain ⟨hh, e', k, hle, rfl, rfl, rfl⟩ := hl
    exact ⟨lowerE_lets S hs _ _ _ _ _ _ hle, rfl⟩

/-- **C150.** An accepted function that is not declared to raise never ends with an exception, whatever the functions it calls
raise. -/
theorem undeclared_never_raises (S : Sig) (hs : S.self = false) (body : Stmt) (c : LStmt) (hc : compile S body = some c)
    (W : World) (n : Nat) (t : LSt) (e : Exc) (tr : Trace) : execL W n c t ≠ .exc e tr := by
  simp only [compile, Option.map_eq_some_iff, Prod.exists] at hc
  obtain ⟨h, s', cx', hl, rfl⟩ := hc
  have := lowerS_lets S hs _ _ _ _ _ _ hl
  exact execL_not_exc W n _ (by simp [LStmt.lets, this]) _ _ _

/-- **C151** (partial). In a function that is not declared to raise every exception is handled: by the meaning of what is written,
no run of an accepted function ends with an exception that nothing caught.

Missing: functions that are not `plain`, for which it is false (`handlers_swallow`). -/
theorem every_exception_is_handled_partial (S : Sig) (hs : S.self = false) (body : Stmt) (c : LStmt)
    (hc : compile S body = some c) (hp : body.plain S = true) (W : World) (n : Nat) (s : St) (e : Exc) (tr : Trace) :
    exec S W n none body s ≠ .exc e tr := by
  intro h
  have h1 := compiled_as_written_partial S body c hc hp W n ⟨s.loc, s.tr, fun _ => none⟩
  have h2 := undeclared_never_raises S hs body c hc W n ⟨s.loc, s.tr, fun _ => none⟩ e tr
  have h3 : (⟨s.loc, s.tr, fun _ => none⟩ : LSt).seen = s := rfl
  rw [h3, h] at h1
  revert h1 h2
  generalize execL W n c ⟨s.loc, s.tr, fun _ => none⟩ = o
  intro h1 h2
  cases o <;> simp [Out.seen] at h1 h2
  simp [h1] at h2

/-- **C152** (partial). An accepted function never uses a value that is not there: not a handler's value when the handler has given
none, nor an exception as if it was a value.

Missing: functions that are not `plain`, for which it is false (`partial_yield_is_stuck`, `conditional_raise_is_stuck`). -/
theorem values_are_there_partial (S : Sig) (body : Stmt) (c : LStmt) (hc : compile S body = some c)
    (hp : body.plain S = true) (W : World) (n : Nat) (t : LSt) : execL W n c t ≠ .stuck := by
  simp only [compile, Option.map_eq_some_iff, Prod.exists] at hc
  obtain ⟨h, s', cx', hl, rfl⟩ := hc
  have h1 := (lowerS_right S W n body _ _ _ _ _ hl hp (fun h => nomatch h)).2 0 none t (fun _ _ h => nomatch h)
  intro h2
  rw [h2] at h1
  cases ho : exec S W n none body ⟨t.loc, t.tr⟩ <;> rw [ho] at h1 <;> simp [Sim] at h1

/-- `x = f(..) catch v` gives `x` the result of the call, or `v` when the call raises; nothing else is called. -/
theorem catch_gives_a_value (S : Sig) (x : Nat) (f : Fn) (v : Int) (c : LStmt)
    (hc : compile S (.catchSet x f .nil (.yield (.lit v))) = some c) (W : World) (n : Nat) (t : LSt) :
    (execL W n c t).seen = .normal ⟨upd t.loc x (match W.risky f [] t.tr with | .ok w => w | .error _ => v),
      t.tr ++ [(f, [])]⟩ := by
  have hr : S.raises f = true := by
    cases hr : S.raises f with
    | true => rfl
    | false => simp [compile, lowerS, lowerA, hr] at hc
  rw [compiled_as_written_partial S _ c hc (by
    simp [Stmt.plain, Args.orderly, Expr.orderly, Stmt.noBare, Stmt.settles]) W n t]
  simp only [exec, evalA, withE, callOf, hr, if_true, LSt.seen]
  cases W.risky f [] t.tr <;> simp [evalE]

/-! ## Example

```
while (x0) {
  x1 = f(x0) catch { g(); yield 7 }     -- f raises
  x0 = h(x1) + 1                         -- h raises, bubbles up
  if (x1) f(2) catch { raise ... } else break
}
return x1
```
-/

/-- Functions: 0, 1 raise; 2 does not. 3 raises and returns nothing. -/
def demoSig : Sig := ⟨fun f => f = 0 ∨ f = 1 ∨ f = 3, fun f => f = 3, true, false⟩

/-- The function above. -/
def demo : Stmt :=
  .seq
    (.loop (.var 0)
      (.seq (.catchSet 1 0 (.cons (.var 0) .nil) (.seq (.expr (.call 2 .nil)) (.yield (.lit 7))))
        (.seq (.assign 0 (.bin 0 (.call 1 (.cons (.var 1) .nil)) (.lit 1)))
          (.ite (.var 1) (.catchSet 2 0 (.cons (.lit 2) .nil) .reraise) .brk))))
    (.ret (.var 1))

example : demo.plain demoSig = true := by
  simp [demo, demoSig, Stmt.plain, Args.orderly, Expr.orderly, Stmt.noBare, Stmt.settles, Stmt.noYield, Stmt.chainSafe,
    Expr.risky, Args.risky]
example : ∃ c, compile demoSig demo = some c := by
  simp [demo, demoSig, compile, lowerS, lowerE, lowerA, handlerOk, Stmt.stops, Stmt.isSkip, Stmt.isIf]

/-- The same without the call that is left to raise, in a function that is not declared to raise. -/
def demoQuiet : Stmt :=
  .seq
    (.loop (.var 0)
      (.seq (.catchSet 1 0 (.cons (.var 0) .nil) (.seq (.expr (.call 2 .nil)) (.yield (.lit 7))))
        (.catchDo 3 .nil .brk)))
    (.ret (.var 1))

example : demoQuiet.plain { demoSig with self := false } = true := by
  simp [demoQuiet, demoSig, Stmt.plain, Args.orderly, Expr.orderly, Stmt.noBare, Stmt.settles, Stmt.noYield, Args.risky]
example : ∃ c, compile { demoSig with self := false } demoQuiet = some c := by
  simp [demoQuiet, demoSig, compile, lowerS, lowerE, lowerA, handlerOk, Stmt.stops, Stmt.isSkip]

end Verif.Raise
