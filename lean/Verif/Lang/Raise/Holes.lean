import Verif.Lang.Raise.Props
/-!
# Where exceptions go wrong

Families of functions that are accepted and compiled to something else than what they mean; each is left out by one condition of
`plain`.
-/
namespace Verif.Raise

/-- **C149** fails. `x = g() + f()`, where `f` may raise and `g` may not: `f` is called first, and if it raises `g` is not called at
all. -/
theorem calls_swapped (S : Sig) (hs : S.self = true) (f g : Fn) (hf : S.raises f = true) (hg : S.raises g = false)
    (vf : S.void f = false) (vg : S.void g = false) (o x : Nat) :
    ∃ c, compile S (.assign x (.bin o (.call g .nil) (.call f .nil))) = some c ∧
      ∀ (W : World) (n : Nat) (t : LSt),
        (∀ v, W.risky f [] t.tr = .ok v → ∃ loc, (execL W n c t).seen = .normal ⟨loc, t.tr ++ [(f, []), (g, [])]⟩) ∧
        (∀ e, W.risky f [] t.tr = .error e → (execL W n c t).seen = .exc e (t.tr ++ [(f, [])])) ∧
        (∀ v, W.risky f [] (t.tr ++ [(g, [])]) = .ok v → ∃ loc,
          exec S W n none (.assign x (.bin o (.call g .nil) (.call f .nil))) t.seen =
            .normal ⟨loc, t.tr ++ [(g, []), (f, [])]⟩) := by
  refine ⟨_, by simp [compile, lowerS, lowerE, lowerA, hs, hf, hg, vf, vg]; rfl, ?_⟩
  intro W n t
  refine ⟨?_, ?_, ?_⟩
  · intro v hv
    simp [execL, evalL, evalLA, withL, hv, Out.seen, LSt.seen]
  · intro e he
    simp [execL, evalLA, withL, he, Out.seen]
  · intro v hv
    simp [exec, evalE, evalA, withE, Ev.andThen, callOf, hf, hg, hv, LSt.seen]

/-- **C149** fails. `x = a && f()` calls `f` although `a` is false, and raises what it raises. -/
theorem guarded_call_is_made (S : Sig) (hs : S.self = true) (f : Fn) (hf : S.raises f = true) (vf : S.void f = false)
    (a x : Nat) :
    ∃ c, compile S (.assign x (.land (.var a) (.call f .nil))) = some c ∧
      ∀ (W : World) (n : Nat) (t : LSt), t.loc a = 0 →
        exec S W n none (.assign x (.land (.var a) (.call f .nil))) t.seen = .normal ⟨upd t.loc x 0, t.tr⟩ ∧
        (execL W n c t).seen = match W.risky f [] t.tr with
          | .ok _ => .normal ⟨upd t.loc x 0, t.tr ++ [(f, [])]⟩
          | .error e => .exc e (t.tr ++ [(f, [])]) := by
  refine ⟨_, by simp [compile, lowerS, lowerE, lowerA, hs, hf, vf]; rfl, ?_⟩
  intro W n t ha
  refine ⟨by simp [exec, evalE, withE, Ev.andThen, ha, LSt.seen], ?_⟩
  cases hw : W.risky f [] t.tr <;> simp [execL, evalL, evalLA, withL, hw, ha, Out.seen, LSt.seen]

/-- **C149** fails. `if (a) x = 1 else if (f()) x = 2` calls `f` although `a` is true, and raises what it raises. -/
theorem else_if_is_evaluated_first (S : Sig) (hs : S.self = true) (f : Fn) (hf : S.raises f = true) (vf : S.void f = false)
    (a x : Nat) :
    ∃ c, compile S (.ite (.var a) (.assign x (.lit 1)) (.ite (.call f .nil) (.assign x (.lit 2)) .skip)) = some c ∧
      ∀ (W : World) (n : Nat) (t : LSt), t.loc a ≠ 0 →
        exec S W n none (.ite (.var a) (.assign x (.lit 1)) (.ite (.call f .nil) (.assign x (.lit 2)) .skip)) t.seen =
          .normal ⟨upd t.loc x 1, t.tr⟩ ∧
        (execL W n c t).seen = match W.risky f [] t.tr with
          | .ok _ => .normal ⟨upd t.loc x 1, t.tr ++ [(f, [])]⟩
          | .error e => .exc e (t.tr ++ [(f, [])]) := by
  refine ⟨_, by simp [compile, lowerS, lowerE, lowerA, hs, hf, vf, Stmt.isSkip, Stmt.isIf]; rfl, ?_⟩
  intro W n t ha
  refine ⟨by simp [exec, evalE, withE, ha, LSt.seen], ?_⟩
  cases hw : W.risky f [] t.tr <;> simp [execL, evalL, evalLA, withL, hw, ha, Out.seen, LSt.seen]

/-- **C151** fails. `f() catch { g() }` is accepted although `g` may raise too, also in a function that is not declared to raise;
an exception of `g` is lost and execution goes on. -/
theorem handlers_swallow (S : Sig) (f g : Fn) (hf : S.raises f = true) (hg : S.raises g = true) (vf : S.void f = true) :
    ∃ c, compile S (.catchDo f .nil (.expr (.call g .nil))) = some c ∧
      ∀ (W : World) (n : Nat) (t : LSt) (e e' : Exc), W.risky f [] t.tr = .error e →
        W.risky g [] (t.tr ++ [(f, [])]) = .error e' →
        exec S W n none (.catchDo f .nil (.expr (.call g .nil))) t.seen = .exc e' (t.tr ++ [(f, []), (g, [])]) ∧
        (execL W n c t).seen = .normal ⟨t.loc, t.tr ++ [(f, []), (g, [])]⟩ := by
  refine ⟨_, by simp [compile, lowerS, lowerA, hf, hg, vf, handlerOk, Stmt.isSkip]; rfl, ?_⟩
  intro W n t e e' h1 h2
  simp [exec, evalE, evalA, callOf, withE, Ev.andThen, hf, hg, h1, h2, execL, evalLA, withL, Out.seen, LSt.seen]

/-- **C152** fails. `x = f() catch { if (a) yield v }` is accepted; when `f` raises and `a` is false the value read is that of a
variable nothing was ever stored in. -/
theorem partial_yield_is_stuck (S : Sig) (f : Fn) (hf : S.raises f = true) (vf : S.void f = false) (a x : Nat) (v : Int) :
    ∃ c, compile S (.catchSet x f .nil (.ite (.var a) (.yield (.lit v)) .skip)) = some c ∧
      ∀ (W : World) (n : Nat) (t : LSt) (e : Exc), (∀ k, t.tmp k = none) → t.loc a = 0 → W.risky f [] t.tr = .error e →
        execL W n c t = .stuck := by
  refine ⟨_, by simp [compile, lowerS, lowerA, lowerE, hf, vf, handlerOk, Stmt.isSkip]; rfl, ?_⟩
  intro W n t e ht ha he
  simp [execL, evalL, evalLA, withL, he, ha, ht]

/-- **C152** fails. `x = f() catch { if (a) raise }` is accepted; when `f` raises and `a` is false the exception is read as if it
was the value. -/
theorem conditional_raise_is_stuck (S : Sig) (hs : S.self = true) (f : Fn) (hf : S.raises f = true) (vf : S.void f = false)
    (a x : Nat) :
    ∃ c, compile S (.catchSet x f .nil (.ite (.var a) .reraise .skip)) = some c ∧
      ∀ (W : World) (n : Nat) (t : LSt) (e : Exc), t.loc a = 0 → W.risky f [] t.tr = .error e →
        execL W n c t = .stuck := by
  refine ⟨_, by simp [compile, lowerS, lowerA, lowerE, hs, hf, vf, handlerOk, Stmt.isSkip]; rfl, ?_⟩
  intro W n t e ha he
  simp [execL, evalL, evalLA, withL, he, ha]

/-! ## Which handlers are accepted -/

/-- The handlers of `docs/exceptions.md`, for a call that returns a value (`v`) or nothing. -/
inductive Documented (S : Sig) : Bool → Stmt → Prop
  /-- `discard` -/
  | discard (v : Bool) : Documented S v .skip
  /-- a default value -/
  | value (n : Int) : Documented S true (.yield (.lit n))
  /-- `{ raise }` -/
  | raise (v : Bool) : S.self = true → Documented S v .reraise
  /-- a block of regular statements -/
  | block (x : Nat) (n : Int) : Documented S false (.assign x (.lit n))

/-- **C153** fails. `f() catch { raise }` is rejected for every `f` that returns nothing. -/
theorem reraise_rejected (S : Sig) (f : Fn) (as : Args) (vf : S.void f = true) : compile S (.catchDo f as .reraise) = none := by
  simp only [compile, Option.map_eq_none_iff, lowerS, Option.bind_eq_bind]
  cases lowerA S true as 0 with
  | none => rfl
  | some r =>
    obtain ⟨ha, as', k⟩ := r
    simp only [Option.bind_some]
    split
    · rfl
    · split
      · rfl
      · simp [handlerOk, vf]

/-- **C153** fails. `f() catch discard` is rejected for every `f` that returns a value. -/
theorem discard_rejected (S : Sig) (f : Fn) (as : Args) (vf : S.void f = false) : compile S (.catchDo f as .skip) = none := by
  simp only [compile, Option.map_eq_none_iff, lowerS, Option.bind_eq_bind]
  cases lowerA S true as 0 with
  | none => rfl
  | some r =>
    obtain ⟨ha, as', k⟩ := r
    simp only [Option.bind_some]
    split
    · rfl
    · simp [handlerOk, vf]

/-- **C153** (partial). Documented handlers are accepted after every call that may raise and whose arguments are accepted.

Missing: `discard` after a call that returns a value and `{ raise }` after one that returns nothing, which are rejected. -/
theorem documented_handlers_accepted_partial (S : Sig) (f : Fn) (hf : S.raises f = true) (as : Args)
    (ha : (lowerA S true as 0).isSome = true) (h : Stmt) (v : Bool) (hv : v = !S.void f) (hd : Documented S v h)
    (h1 : h = .skip → S.void f = true) (h2 : h = .reraise → S.void f = false) :
    (compile S (.catchDo f as h)).isSome = true := by
  cases hl : lowerA S true as 0 with
  | none => simp [hl] at ha
  | some r =>
    obtain ⟨hh, as', k⟩ := r
    cases hd with
    | discard _ => simp [compile, lowerS, hl, hf, handlerOk, h1 rfl]
    | value n =>
      cases hv' : S.void f <;> simp [hv'] at hv
      simp [compile, lowerS, lowerE, hl, hf, handlerOk, hv']
    | raise _ hs => simp [compile, lowerS, hl, hf, handlerOk, h2 rfl, hs]
    | block x n =>
      cases hv' : S.void f <;> simp [hv'] at hv
      simp [compile, lowerS, lowerE, hl, hf, handlerOk, hv']

example : Documented demoSig (!demoSig.void 0) (.yield (.lit 3)) := .value 3
example : Documented demoSig (!demoSig.void 3) .skip := .discard _
example : demoSig.raises 0 = true ∧ demoSig.raises 3 = true ∧ demoSig.raises 2 = false ∧ demoSig.void 3 = true ∧
    demoSig.void 0 = false ∧ demoSig.void 2 = false ∧ demoSig.self = true := by decide

end Verif.Raise
