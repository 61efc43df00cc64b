import Verif.Lang.FnCall.Model

/-!
# Theorems on calls of function values (C224)
-/

namespace Verif.FnCall

/-- Specification: an expression that only names things. -/
def isName : E → Bool
  | .lit _ | .var _ => true
  | _ => false

mutual
/-- Specification: every function that is called through a value is called by name
(`f(x)`, where `f` is a parameter or variable). -/
def E.byName : E → Bool
  | .lit _ | .var _ => true
  | .named _ args => args.byName
  | .apply c args => isName c && args.byName
  | .sel0 _ | .sel1 _ | .callCode _ _ => false
/-- The same for arguments. -/
def Es.byName : Es → Bool
  | .nil => true
  | .cons e es => e.byName && es.byName
end

theorem name_cases {c : E} (h : isName c = true) :
    (∃ n, c = .lit n) ∨ ∃ x, c = .var x := by
  cases c <;> simp [isName] at h ⊢

mutual
theorem E.lower_run {S : Type} (w : World S) : ∀ (e : E), e.byName = true →
    ∀ s, e.lower.run w s = e.run w s
  | .lit n, _, s => by simp [E.lower]
  | .var x, _, s => by simp [E.lower]
  | .named f args, h, s => by
    simp only [E.byName] at h
    simp only [E.lower, E.run, Es.lower_run w args h s]
  | .apply c args, h, s => by
    simp only [E.byName, Bool.and_eq_true] at h
    rcases name_cases h.1 with ⟨n, rfl⟩ | ⟨x, rfl⟩
    · simp [E.lower, E.run]
    · cases hv : w.vars x with
      | int n => simp [E.lower, E.run, hv]
      | code k => simp [E.lower, E.run, hv]
      | fn cap k =>
        simp only [E.lower, E.run, Es.run, hv, Es.lower_run w args h.2 s, List.nil_append]
        cases args.run w s with
        | none => rfl
        | some r => rfl
  | .sel0 _, h, _ => by simp [E.byName] at h
  | .sel1 _, h, _ => by simp [E.byName] at h
  | .callCode _ _, h, _ => by simp [E.byName] at h
theorem Es.lower_run {S : Type} (w : World S) : ∀ (es : Es), es.byName = true →
    ∀ s, es.lower.run w s = es.run w s
  | .nil, _, s => by simp [Es.lower]
  | .cons e es, h, s => by
    simp only [Es.byName, Bool.and_eq_true] at h
    simp only [Es.lower, Es.run, E.lower_run w e h.1 s]
    cases e.run w s with
    | none => rfl
    | some r => simp only [Es.lower_run w es h.2]
end

mutual
/-- What can be written in C: no call of a function value as such. -/
def E.direct : E → Bool
  | .lit _ | .var _ => true
  | .named _ args => args.direct
  | .apply _ _ => false
  | .sel0 e => e.direct
  | .sel1 e => e.direct
  | .callCode c args => c.direct && args.direct
/-- The same for arguments. -/
def Es.direct : Es → Bool
  | .nil => true
  | .cons e es => e.direct && es.direct
end

mutual
theorem E.lower_direct : ∀ e : E, e.lower.direct = true
  | .lit _ | .var _ => by simp [E.lower, E.direct]
  | .named f args => by simp [E.lower, E.direct, Es.lower_direct args]
  | .apply c args => by
    simp [E.lower, E.direct, Es.direct, E.lower_direct c, Es.lower_direct args]
  | .sel0 e => by simp [E.lower, E.direct, E.lower_direct e]
  | .sel1 e => by simp [E.lower, E.direct, E.lower_direct e]
  | .callCode c args => by simp [E.lower, E.direct, E.lower_direct c, Es.lower_direct args]
theorem Es.lower_direct : ∀ es : Es, es.lower.direct = true
  | .nil => by simp [Es.lower, Es.direct]
  | .cons e es => by simp [Es.lower, Es.direct, E.lower_direct e, Es.lower_direct es]
end

/-- C224: where functions are called through names, at any depth and with any
arguments, the rewritten expression makes the calls the source asks for, in that
order, and has that value; and it contains no calls of function values any more. -/
theorem call_by_name_partial {S : Type} (w : World S) (e : E) (h : e.byName = true)
    (s : S) : e.lower.run w s = e.run w s ∧ e.lower.direct = true :=
  ⟨E.lower_run w e h s, E.lower_direct e⟩

example : (E.apply (.var 0) (.cons (.named 3 .nil) (.cons (.apply (.var 1) .nil) .nil))).byName
    = true := by decide

/-! ### A callee that is computed -/

/-- C224 is false of the code: for every named function that returns a function
value, `f()(a)` calls `f` twice, runs the code of the first result with what the
second has captured, and does so whatever `f` does to the state in between. -/
theorem call_of_result {S : Type} (w : World S) (f : Nat) (a : Nat) (s s1 s2 : S)
    (c1 k1 c2 k2 : Nat)
    (h1 : w.named f [] s = (s1, .fn c1 k1)) (h2 : w.named f [] s1 = (s2, .fn c2 k2)) :
    ((E.apply (.named f .nil) (.cons (.lit a) .nil)).run w s =
      some ((w.code k1 c1 [.int a] s1).1, [.named f [], .code k1 c1 [.int a]],
        (w.code k1 c1 [.int a] s1).2)) ∧
    ((E.apply (.named f .nil) (.cons (.lit a) .nil)).lower.run w s =
      some ((w.code k1 c2 [.int a] s2).1,
        [.named f [], .named f [], .code k1 c2 [.int a]],
        (w.code k1 c2 [.int a] s2).2)) := by
  constructor
  · simp [E.run, Es.run, h1]
  · simp [E.run, Es.run, E.lower, Es.lower, h1, h2]

/-- A world with a named function that returns another closure at each call. -/
def alternating : World Nat where
  named := fun _ _ n => (n + 1, .fn n n)
  code := fun k cap _ s => (s, .int (10 * k + cap))
  vars := fun _ => .int 0

example : (E.apply (.named 0 .nil) (.cons (.lit 5) .nil)).run alternating 1
    = some (2, [.named 0 [], .code 1 1 [.int 5]], .int 11) := by decide
example : (E.apply (.named 0 .nil) (.cons (.lit 5) .nil)).lower.run alternating 1
    = some (3, [.named 0 [], .named 0 [], .code 1 2 [.int 5]], .int 12) := by decide

/-- `f()()…()`: the result of a named function, called `n` times. -/
def chain (f : Nat) : Nat → E
  | 0 => .named f .nil
  | n + 1 => .apply (chain f n) .nil

/-- Specification: how often a named function is called. -/
def calls (f : Nat) : List Ev → Nat
  | [] => 0
  | .named g _ :: t => (if g = f then 1 else 0) + calls f t
  | .code _ _ _ :: t => calls f t

theorem calls_append (f : Nat) : ∀ t u, calls f (t ++ u) = calls f t + calls f u
  | [], u => by simp [calls]
  | .named g a :: t, u => by simp [calls, calls_append f t u, Nat.add_assoc]
  | .code _ _ _ :: t, u => by simp [calls, calls_append f t u]

theorem chain_source_calls {S : Type} (w : World S) (f : Nat) : ∀ (n : Nat) (s s' : S) t v,
    (chain f n).run w s = some (s', t, v) → calls f t = 1
  | 0, s, s', t, v, h => by
    simp only [chain, E.run, Es.run, Option.some.injEq, Prod.mk.injEq] at h
    simp [← h.2.1, calls]
  | n + 1, s, s', t, v, h => by
    simp only [chain, E.run, Es.run] at h
    split at h
    · rename_i s1 t1 cap k hc
      simp only [Option.some.injEq, Prod.mk.injEq] at h
      rw [← h.2.1]
      simp [calls_append, calls, chain_source_calls w f n s s1 t1 _ hc]
    · simp at h

theorem chain_lower_calls {S : Type} (w : World S) (f : Nat) : ∀ (n : Nat) (s s' : S) t v,
    (chain f n).lower.run w s = some (s', t, v) → calls f t = 2 ^ n
  | 0, s, s', t, v, h => by
    simp only [chain, E.lower, Es.lower, E.run, Es.run, Option.some.injEq, Prod.mk.injEq] at h
    simp [← h.2.1, calls]
  | n + 1, s, s', t, v, h => by
    simp only [chain, E.lower, Es.lower, E.run, Es.run] at h
    cases h1 : (chain f n).lower.run w s with
    | none => simp [h1] at h
    | some r1 =>
      obtain ⟨s1, t1, v1⟩ := r1
      cases v1 with
      | int _ => simp [h1] at h
      | code _ => simp [h1] at h
      | fn cap k =>
        simp only [h1] at h
        cases h2 : (chain f n).lower.run w s1 with
        | none => simp [h2] at h
        | some r2 =>
          obtain ⟨s2, t2, v2⟩ := r2
          cases v2 with
          | int _ => simp [h2] at h
          | code _ => simp [h2] at h
          | fn cap2 k2 =>
            simp only [h2, Option.some.injEq, Prod.mk.injEq] at h
            rw [← h.2.1]
            simp [calls_append, calls, chain_lower_calls w f n _ _ _ _ h1,
              chain_lower_calls w f n _ _ _ _ h2]
            omega

/-- C224 is false of the code: in `f()()…()`, `f` is to be called once, and is called
`2 ^ n` times if the result is called `n` times.  For every program in which the
expression has a value. -/
theorem chain_calls_doubled {S : Type} (w : World S) (f n : Nat) (s s1 s2 : S)
    (t1 t2 : List Ev) (v1 v2 : V)
    (h1 : (chain f n).run w s = some (s1, t1, v1))
    (h2 : (chain f n).lower.run w s = some (s2, t2, v2)) :
    calls f t1 = 1 ∧ calls f t2 = 2 ^ n :=
  ⟨chain_source_calls w f n s s1 t1 v1 h1, chain_lower_calls w f n s s2 t2 v2 h2⟩

/-- Code that returns a function value again. -/
def curried : World Unit where
  named := fun _ _ _ => ((), .fn 1 1)
  code := fun _ _ _ _ => ((), .fn 1 1)
  vars := fun _ => .int 0

example : ∃ t1 t2, (chain 4 3).run curried () = some ((), t1, .fn 1 1) ∧
    (chain 4 3).lower.run curried () = some ((), t2, .fn 1 1) ∧
    calls 4 t1 = 1 ∧ calls 4 t2 = 8 := by
  refine ⟨_, _, rfl, rfl, ?_, ?_⟩ <;> decide

/-- The expression the compiler builds for `f()()…()` has more than `2 ^ n` nodes,
where the source has `n + 1`. -/
theorem chain_size (f : Nat) : ∀ n, (chain f n).size = n + 1 ∧ 2 ^ n ≤ (chain f n).lower.size
  | 0 => by simp [chain, E.size, Es.size, E.lower, Es.lower]
  | n + 1 => by
    have ih := chain_size f n
    constructor
    · simp only [chain, E.size, Es.size, ih.1]
      omega
    · simp only [chain, E.lower, Es.lower, E.size, Es.size]
      have := ih.2
      omega

end Verif.FnCall
