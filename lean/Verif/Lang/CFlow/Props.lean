import Verif.Lang.CFlow.Model
/-!
# C164–C166: the C statements do what the statements say

The specification is the meaning of statements in `Flow/Source.lean`.
-/
namespace Verif.CFlow

open Verif.Flow (Expr Stmt Cases ER Sem Mix evalE R Outcome exec execCases rounds)

variable {Prim State : Type}

mutual
/-- A `break` that leaves a loop around the statement. -/
def freeBrk : Stmt Prim → Bool
  | .brk => true
  | .seq a b => freeBrk a || freeBrk b
  | .ite _ a b => freeBrk a || freeBrk b
  | .switch _ cs => freeBrkCases cs
  | _ => false
def freeBrkCases : Cases Prim → Bool
  | .nil => false
  | .cons _ b r => freeBrk b || freeBrkCases r
end

mutual
/-- Every `switch` has a default and no `break` of a loop around it. -/
def Good : Stmt Prim → Prop
  | .seq a b => Good a ∧ Good b
  | .ite _ a b => Good a ∧ Good b
  | .while _ body _ => Good body
  | .switch _ cs => hasDefault cs = true ∧ freeBrkCases cs = false ∧ GoodCases cs
  | _ => True
def GoodCases : Cases Prim → Prop
  | .nil => True
  | .cons _ b r => Good b ∧ GoodCases r
end

/-- The same end in C, where a `continue` of a loop with an update is a jump to its label. -/
def inC (lu : Option Nat) : R State → CR State
  | .out => .out
  | .stuck s => .stuck s
  | .done .normal s => .done .normal s
  | .done .brk s => .done .brk s
  | .done (.ret v) s => .done (.ret v) s
  | .done .cont s =>
    match lu with
    | some l => .done (.goto l) s
    | none => .done .cont s

theorem rounds_ends (cond : State → ER State) (body : State → R State) (update : State → ER State) :
    ∀ n s s', rounds cond body update n s ≠ .done .brk s' ∧ rounds cond body update n s ≠ .done .cont s' := by
  intro n
  induction n with
  | zero => intro s s'; simp [rounds]
  | succ n ih =>
    intro s s'
    simp only [rounds]
    cases cond s with
    | stuck => simp
    | ok v s1 =>
      by_cases hv : v = 0
      · simp [hv]
      · simp only [hv, if_false]
        cases body s1 with
        | out => simp
        | stuck => simp
        | done o s2 =>
          cases o <;> simp only [] <;> (try simp) <;>
            (cases update s2 with
              | stuck => simp
              | ok v s3 => exact ih s3 s')

section
variable (lf : Mix → Bool) (sem : Sem Prim State) (N : Nat)

mutual
theorem no_brk (a : Stmt Prim) (h : freeBrk a = false) (s s' : State) : exec lf sem N a s ≠ .done .brk s' := by
  match a with
  | .skip => simp [exec]
  | .seq a b =>
    simp only [freeBrk, Bool.or_eq_false_iff] at h
    have h1 := no_brk a h.1 s
    simp only [exec]
    cases ha : exec lf sem N a s with
    | out => simp
    | stuck => simp
    | done o s1 =>
      cases o <;> simp only []
      · exact no_brk b h.2 s1 s'
      · exact absurd ha (h1 s1)
      · simp
      · simp
  | .expr e => simp only [exec]; cases evalE lf sem e s <;> simp
  | .ite c a b =>
    simp only [freeBrk, Bool.or_eq_false_iff] at h
    simp only [exec]
    cases evalE lf sem c s with
    | stuck => simp
    | ok v s1 =>
      by_cases hv : v = 0
      · simpa only [hv, if_true] using no_brk b h.2 s1 s'
      · simpa only [hv, if_false] using no_brk a h.1 s1 s'
  | .while c body u => simp only [exec]; exact (rounds_ends _ _ _ N s s').1
  | .switch c cs =>
    simp only [freeBrk] at h
    simp only [exec]
    cases evalE lf sem c s with
    | stuck => simp
    | ok v s1 =>
      have h1 := no_brk_cases cs h (fun x => x = some v) s1 s'
      have h2 := no_brk_cases cs h (fun x => x = none) s1 s'
      simp only []
      cases hx : execCases lf sem N cs (fun x => x = some v) s1 with
      | some r => intro hr; exact h1 (hr ▸ hx)
      | none =>
        simp only []
        cases hy : execCases lf sem N cs (fun x => x = none) s1 with
        | some r => intro hr; exact h2 (hr ▸ hy)
        | none => simp
  | .brk => simp [freeBrk] at h
  | .cont => simp [exec]
  | .ret none => simp [exec]
  | .ret (some e) => simp only [exec]; cases evalE lf sem e s <;> simp
theorem no_brk_cases (cs : Cases Prim) (h : freeBrkCases cs = false) (sel : Option Int → Bool) (s s' : State) :
    execCases lf sem N cs sel s ≠ some (.done .brk s') := by
  match cs with
  | .nil => simp [execCases]
  | .cons v b r =>
    simp only [freeBrkCases, Bool.or_eq_false_iff] at h
    simp only [execCases]
    by_cases hs : sel v = true
    · simpa only [hs, if_true, ne_eq, Option.some.injEq] using no_brk b h.1 s s'
    · simpa only [hs, if_false, Bool.false_eq_true] using no_brk_cases r h.2 sel s s'
end

mutual
theorem no_cont (l : Nat) (a : Stmt Prim) (n : Nat) (h : (gen (some l) n a).2.2 = false) (s s' : State) :
    exec lf sem N a s ≠ .done .cont s' := by
  match a with
  | .skip => simp [exec]
  | .seq a b =>
    simp only [gen, Bool.or_eq_false_iff] at h
    have h1 := no_cont l a n h.1 s
    simp only [exec]
    cases ha : exec lf sem N a s with
    | out => simp
    | stuck => simp
    | done o s1 =>
      cases o <;> simp only []
      · exact no_cont l b _ h.2 s1 s'
      · simp
      · exact absurd ha (h1 s1)
      · simp
  | .expr e => simp only [exec]; cases evalE lf sem e s <;> simp
  | .ite c a b =>
    simp only [gen, Bool.or_eq_false_iff] at h
    simp only [exec]
    cases evalE lf sem c s with
    | stuck => simp
    | ok v s1 =>
      by_cases hv : v = 0
      · simpa only [hv, if_true] using no_cont l b _ h.2 s1 s'
      · simpa only [hv, if_false] using no_cont l a n h.1 s1 s'
  | .while c body u => simp only [exec]; exact (rounds_ends _ _ _ N s s').2
  | .switch c cs =>
    simp only [gen] at h
    simp only [exec]
    cases evalE lf sem c s with
    | stuck => simp
    | ok v s1 =>
      have h1 := no_cont_cases l cs n h (fun x => x = some v) s1 s'
      have h2 := no_cont_cases l cs n h (fun x => x = none) s1 s'
      simp only []
      cases hx : execCases lf sem N cs (fun x => x = some v) s1 with
      | some r => intro hr; exact h1 (hr ▸ hx)
      | none =>
        simp only []
        cases hy : execCases lf sem N cs (fun x => x = none) s1 with
        | some r => intro hr; exact h2 (hr ▸ hy)
        | none => simp
  | .brk => simp [exec]
  | .cont => simp [gen] at h
  | .ret none => simp [exec]
  | .ret (some e) => simp only [exec]; cases evalE lf sem e s <;> simp
theorem no_cont_cases (l : Nat) (cs : Cases Prim) (n : Nat) (h : (genCases (some l) n cs).2.2 = false)
    (sel : Option Int → Bool) (s s' : State) : execCases lf sem N cs sel s ≠ some (.done .cont s') := by
  match cs with
  | .nil => simp [execCases]
  | .cons v b r =>
    simp only [genCases, Bool.or_eq_false_iff] at h
    simp only [execCases]
    by_cases hs : sel v = true
    · simpa only [hs, if_true, ne_eq, Option.some.injEq] using no_cont l b n h.1 s s'
    · simpa only [hs, if_false, Bool.false_eq_true] using no_cont_cases l r _ h.2 sel s s'
end

theorem returns (a : Stmt Prim) : endsInReturn a = true → ∀ s s', exec lf sem N a s ≠ .done .normal s' := by
  match a with
  | .ret none => intro _ s s'; simp [exec]
  | .ret (some e) => intro _ s s'; simp only [exec]; cases evalE lf sem e s <;> simp
  | .seq a b =>
    intro h s s'
    simp only [exec]
    cases exec lf sem N a s with
    | out => simp
    | stuck => simp
    | done o s1 =>
      cases o <;> simp only []
      · exact returns b h s1 s'
      all_goals simp
  | .skip | .expr _ | .ite .. | .while .. | .switch .. | .brk | .cont => intro h; simp [endsInReturn] at h

/-- The rounds of the loop in C are the rounds of the loop. -/
theorem rounds_same (cond : State → ER State) (body : State → R State) (cbody : State → CR State) (update : State → ER State)
    (lu : Option Nat) (label : Option Nat) (hb : ∀ s, cbody s = inC lu (body s))
    (hl : (lu = none ∧ ∀ s, update s = .ok 0 s) ∨ (∃ l, lu = some l ∧ (label = some l ∨ ∀ s s', body s ≠ .done .cont s')))
    (lu' : Option Nat) : ∀ n s, crounds cond cbody label update n s = inC lu' (rounds cond body update n s) := by
  intro n
  induction n with
  | zero => intro s; rfl
  | succ n ih =>
    intro s
    simp only [crounds, rounds, hb]
    cases cond s with
    | stuck => rfl
    | ok v s1 =>
      by_cases hv : v = 0
      · simp [hv, inC]
      · simp only [hv, if_false]
        cases hbs : body s1 with
        | out => rfl
        | stuck => rfl
        | done o s2 =>
          cases o with
          | normal =>
            simp only [inC]
            cases update s2 with
            | stuck => rfl
            | ok v s3 => exact ih s3
          | brk => rfl
          | ret v => rfl
          | cont =>
            rcases hl with ⟨rfl, hu⟩ | ⟨l, rfl, hl | hl⟩
            · simp only [inC, hu]; exact ih s2
            · subst hl
              simp only [inC, if_true]
              cases update s2 with
              | stuck => rfl
              | ok v s3 => exact ih s3
            · exact absurd hbs (hl s1 s2)

theorem leave_inC (lu : Option Nat) (r : R State) (h : ∀ s, r ≠ .done .brk s) : leaveSwitch (inC lu r) = inC lu r := by
  cases r with
  | out => rfl
  | stuck => rfl
  | done o s =>
    cases o with
    | brk => exact absurd rfl (h s)
    | cont => cases lu <;> rfl
    | _ => rfl

mutual
theorem same (a : Stmt Prim) (h : Good a) (lu : Option Nat) (n : Nat) (s : State) :
    cexec lf sem N (gen lu n a).1 s = inC lu (exec lf sem N a s) := by
  match a with
  | .skip => rfl
  | .seq a b =>
    simp only [Good] at h
    simp only [gen, cexec, exec, same a h.1 lu n s]
    cases exec lf sem N a s with
    | out => rfl
    | stuck => rfl
    | done o s1 =>
      cases o with
      | normal => exact same b h.2 lu _ s1
      | cont => cases lu <;> rfl
      | _ => rfl
  | .expr e => simp only [gen, cexec, exec]; cases evalE lf sem e s <;> rfl
  | .ite c a b =>
    simp only [Good] at h
    simp only [gen, cexec, exec]
    cases evalE lf sem c s with
    | stuck => rfl
    | ok v s1 =>
      by_cases hv : v = 0
      · simp only [hv, if_true]; exact same b h.2 lu _ s1
      · simp only [hv, if_false]; exact same a h.1 lu n s1
  | .while c body none =>
    simp only [Good] at h
    simp only [gen, cexec, exec]
    exact rounds_same _ _ _ _ none none (fun s => same body h none n s) (.inl ⟨rfl, fun _ => rfl⟩) lu N s
  | .while c body (some e) =>
    simp only [Good] at h
    simp only [gen, cexec, exec]
    refine rounds_same _ _ _ _ (some n) _ (fun s => same body h (some n) (n + 1) s) (.inr ⟨n, rfl, ?_⟩) lu N s
    by_cases hu : (gen (some n) (n + 1) body).2.2 = true
    · simp [hu]
    · exact .inr fun s s' => no_cont lf sem N n body (n + 1) (by simpa using hu) s s'
  | .switch c cs =>
    simp only [Good] at h
    obtain ⟨hd, hf, hg⟩ := h
    simp only [gen, addDefault, hd, if_true, cexec, exec]
    cases evalE lf sem c s with
    | stuck => rfl
    | ok v s1 =>
      have h1 := same_cases cs hg hf lu n (fun x => x = some v) s1
      have h2 := same_cases cs hg hf lu n (fun x => x = none) s1
      simp only []
      cases hx : execCases lf sem N cs (fun x => x = some v) s1 with
      | some r =>
        rw [hx] at h1
        obtain ⟨r', hr, hr'⟩ := Option.map_eq_some_iff.mp h1
        simp only [hr, hr']
      | none =>
        rw [hx] at h1
        have hn := Option.map_eq_none_iff.mp h1
        simp only [hn]
        cases hy : execCases lf sem N cs (fun x => x = none) s1 with
        | some r =>
          rw [hy] at h2
          obtain ⟨r', hr, hr'⟩ := Option.map_eq_some_iff.mp h2
          simp only [hr, hr']
        | none =>
          rw [hy] at h2
          have hn := Option.map_eq_none_iff.mp h2
          simp only [hn]
          rfl
  | .brk => rfl
  | .cont => cases lu <;> rfl
  | .ret none => rfl
  | .ret (some e) => simp only [gen, cexec, exec]; cases evalE lf sem e s <;> rfl
theorem same_cases (cs : Cases Prim) (h : GoodCases cs) (hf : freeBrkCases cs = false) (lu : Option Nat) (n : Nat)
    (sel : Option Int → Bool) (s : State) :
    (cexecAt lf sem N (genCases lu n cs).1 sel s).map leaveSwitch = (execCases lf sem N cs sel s).map (inC lu) := by
  match cs with
  | .nil => rfl
  | .cons v b r =>
    simp only [GoodCases] at h
    simp only [freeBrkCases, Bool.or_eq_false_iff] at hf
    simp only [genCases, cexecAt, execCases]
    by_cases hs : sel v = true
    · simp only [hs, if_true, Option.map_some, Option.some.injEq]
      have hb := no_brk lf sem N b hf.1 s
      have hle := leave_inC lu _ hb
      have hsame := same b h.1 lu n s
      by_cases hr : endsInReturn b = true
      · have hn := returns lf sem N b hr s
        simp only [caseBody, hr, if_true, hsame]
        cases hx : exec lf sem N b s with
        | out => rfl
        | stuck => rfl
        | done o s1 =>
          cases o with
          | normal => exact absurd hx (hn s1)
          | brk => exact absurd hx (hb s1)
          | cont => cases lu <;> rfl
          | ret v => rfl
      · simp only [caseBody, hr, if_false, cexec, hsame, Bool.false_eq_true]
        cases hx : exec lf sem N b s with
        | out => rfl
        | stuck => rfl
        | done o s1 =>
          cases o with
          | normal => rfl
          | brk => exact absurd hx (hb s1)
          | cont => cases lu <;> rfl
          | ret v => rfl
    · simp only [hs]
      exact same_cases r h.2 hf.2 lu _ sel s
end
end

/-! ## C164 -/

/-- **C164, the part that holds.** For every body of a function — loops with and without an update, `continue`, `break`, `return`,
conditionals, nested to any depth, whatever the primitives do — the C statements end like the statements do, in the same state, as
long as every `switch` has a default and contains no `break` of a loop around it. In particular `continue` runs the update, no
case runs into the next one, and the labels do not get mixed up. -/
theorem c_runs_like_the_source_partial (lf : Mix → Bool) (sem : Sem Prim State) (N : Nat) (body : Stmt Prim) (h : Good body)
    (s s' : State) :
    (∀ v, cexec lf sem N (gen none 0 body).1 s = .done (.ret v) s' ↔ exec lf sem N body s = .done (.ret v) s') ∧
    (cexec lf sem N (gen none 0 body).1 s = .done .normal s' ↔ exec lf sem N body s = .done .normal s') ∧
    (cexec lf sem N (gen none 0 body).1 s = .stuck s' ↔ exec lf sem N body s = .stuck s') ∧
    (cexec lf sem N (gen none 0 body).1 s = .out ↔ exec lf sem N body s = .out) := by
  rw [same lf sem N body h none 0 s]
  cases exec lf sem N body s with
  | out => simp [inC]
  | stuck => simp [inC]
  | done o s1 => cases o <;> simp [inC]

/-- A loop with an update, a `continue` inside a `switch`, and a loop inside the loop. -/
example : Good (Prim := Nat) (.while (.const 1)
    (.seq (.switch (.call 0 .nil) (.cons (some 1) .cont (.cons none (.while (.call 1 .nil) .brk none) .nil)))
      (.ite (.call 2 .nil) .brk .skip)) (some (.call 3 .nil))) := by
  simp [Good, GoodCases, hasDefault, freeBrkCases, freeBrk]

/-! ## C165 -/

/-- **C165 is false of the code.** A `break` inside a `switch` inside a loop leaves the loop in the language; in C it leaves
only the `switch`. Whatever the switch is about, where the case for its value is a `break`: -/
theorem break_in_switch_leaves_switch_only (lf : Mix → Bool) (sem : Sem Prim State) (N : Nat) (c : Expr Prim) (v : Int)
    (rest : Cases Prim) (lu : Option Nat) (n : Nat) (s s' : State) (hc : evalE lf sem c s = .ok v s') :
    exec lf sem N (.switch c (.cons (some v) .brk rest)) s = .done .brk s' ∧
    cexec lf sem N (gen lu n (.switch c (.cons (some v) .brk rest))).1 s = .done .normal s' := by
  constructor
  · simp [exec, hc, execCases]
  · simp only [gen, cexec, hc, genCases, addDefault]
    by_cases hd : hasDefault (.cons (some v) .brk rest) = true
    · simp [hd, cexecAt, caseBody, endsInReturn, cexec, leaveSwitch]
    · simp [hd, CCases.append, cexecAt, caseBody, endsInReturn, cexec, leaveSwitch]

/-- So a loop that is only left through a `switch` ends at once in the language and never in C. -/
theorem loop_left_by_switch_never_ends (lf : Mix → Bool) (sem : Sem Prim State) (c : Expr Prim) (v : Int) (rest : Cases Prim)
    (s : State) (hc : evalE lf sem c s = .ok v s) (lu : Option Nat) (n : Nat) (N : Nat) :
    exec lf sem (N + 1) (.while (.const 1) (.switch c (.cons (some v) .brk rest)) none) s = .done .normal s ∧
    cexec lf sem N (gen lu n (.while (.const 1) (.switch c (.cons (some v) .brk rest)) none)).1 s = .out := by
  constructor
  · simp [exec, rounds, evalE, hc, execCases]
  · have hb := (break_in_switch_leaves_switch_only lf sem N c v rest none n s s hc).2
    have : ∀ M, crounds (evalE lf sem (.const 1)) (cexec lf sem N (gen none n (.switch c (.cons (some v) .brk rest))).1) none
        (fun s => .ok 0 s) M s = .out := by
      intro M
      induction M with
      | zero => rfl
      | succ M ih => simp only [crounds, evalE, hb]; simpa [evalE] using ih
    rw [gen, cexec]
    exact this N

/-- `switch (x) { case 1 => break }` with `x = 1`. -/
example : evalE (fun _ => true) (fun (_ : Nat) _ (s : Int) => some (s, s)) (.call 0 .nil) 1 = .ok 1 1 := rfl

/-! ## C166 -/

/-- No case lists the value and there is no default. -/
def unlisted (v : Int) : Cases Prim → Prop
  | .nil => True
  | .cons w _ r => w ≠ some v ∧ w ≠ none ∧ unlisted v r

theorem unlisted_none (lf : Mix → Bool) (sem : Sem Prim State) (N : Nat) (v : Int) (cs : Cases Prim) : unlisted v cs → ∀ s,
    execCases lf sem N cs (fun x => x = some v) s = none ∧ execCases lf sem N cs (fun x => x = none) s = none := by
  match cs with
  | .nil => intro _ s; simp [execCases]
  | .cons w b r =>
    intro h s
    have := unlisted_none lf sem N v r h.2.2 s
    simp [execCases, h.1, h.2.1, this]

theorem unlisted_default {v : Int} (cs : Cases Prim) : unlisted v cs → hasDefault cs = false := by
  match cs with
  | .nil => intro _; rfl
  | .cons none b r => intro h; exact absurd rfl h.2.1
  | .cons (some w) b r => intro h; exact unlisted_default r h.2.2

theorem unlisted_at (lf : Mix → Bool) (sem : Sem Prim State) (N : Nat) (v : Int) (cs : Cases Prim) : unlisted v cs → ∀ lu n s,
    cexecAt lf sem N ((genCases lu n cs).1.append (.cons none .abort .nil)) (fun x => x = some v) s = none ∧
    cexecAt lf sem N ((genCases lu n cs).1.append (.cons none .abort .nil)) (fun x => x = none) s = some (.stuck s) := by
  match cs with
  | .nil => intro _ lu n s; simp [genCases, CCases.append, cexecAt, cexec]
  | .cons w b r =>
    intro h lu n s
    have := unlisted_at lf sem N v r h.2.2 lu (gen lu n b).2.1 s
    simp [genCases, CCases.append, cexecAt, h.1, h.2.1, this]

/-- **C166 is false of the code.** A `switch` without a default on a value that no case lists runs nothing in the language and
goes on behind the `switch`; the C program aborts. -/
theorem unlisted_value_aborts (lf : Mix → Bool) (sem : Sem Prim State) (N : Nat) (c : Expr Prim) (v : Int) (cs : Cases Prim)
    (hv : unlisted v cs) (lu : Option Nat) (n : Nat) (s s' : State) (hc : evalE lf sem c s = .ok v s') :
    exec lf sem N (.switch c cs) s = .done .normal s' ∧ cexec lf sem N (gen lu n (.switch c cs)).1 s = .stuck s' := by
  have h1 := unlisted_none lf sem N v cs hv s'
  have h2 := unlisted_at lf sem N v cs hv lu n s'
  constructor
  · simp [exec, hc, h1]
  · simp [gen, cexec, hc, addDefault, unlisted_default cs hv, h2, leaveSwitch]

example : unlisted (Prim := Nat) 3 (.cons (some 1) .skip (.cons (some 2) .brk .nil)) := by simp [unlisted]

/-- **C166, the part that holds.** A `switch` with a default runs, in C too, the case that lists the value, or else the default, and
nothing else, wherever the default stands among the cases. -/
theorem switch_with_default_partial (lf : Mix → Bool) (sem : Sem Prim State) (N : Nat) (c : Expr Prim) (cs : Cases Prim)
    (hd : hasDefault cs = true) (hf : freeBrkCases cs = false) (hg : GoodCases cs) (s s' : State) (v : Int)
    (hc : evalE lf sem c s = .ok v s') (n : Nat) (r : R State)
    (hr : execCases lf sem N cs (fun x => x = some v) s' = some r ∨
      (execCases lf sem N cs (fun x => x = some v) s' = none ∧ execCases lf sem N cs (fun x => x = none) s' = some r)) :
    cexec lf sem N (gen none n (.switch c cs)).1 s = inC none r := by
  rw [same lf sem N (.switch c cs) ⟨hd, hf, hg⟩ none n s]
  rcases hr with hr | ⟨h1, hr⟩
  · simp [exec, hc, hr]
  · simp [exec, hc, h1, hr]

example : hasDefault (Prim := Nat) (.cons (some 1) .skip (.cons none (.ret none) (.cons (some 2) .skip .nil))) = true := rfl

end Verif.CFlow
