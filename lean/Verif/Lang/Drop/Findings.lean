import Verif.Lang.Drop.Steady
/-! Functions that the memory manager accepts without a report, and whose emitted code destroys a value twice, reads a
destroyed value, or loses one, whatever the memory was before. Each of them breaks one of the hypotheses of the theorems in
`Props.lean` and `Steady.lean`. -/
namespace Verif.Drop

macro "run_play" : tactic => `(tactic|
  simp_all [play, act, eval, readable, fresh, store, retire, CCases.bodies, Option.map])

/-- `{ var x = A(); var y = A(); x = y }` -/
def aliasProg : Stmt := .seq (.decl 0 (some (.fresh []))) (.seq (.decl 1 (some (.fresh []))) (.assign 0 (.var 1)))

/-- **Assigning one variable to another** stores the same value in both, and it is destroyed twice. -/
theorem assigned_variable_destroyed_twice (m : Mem) :
    (passBody [] 0 aliasProg).1.diag = false ∧ ∃ m', Exec (manage [] 0 aliasProg) m .bad m' := by
  refine ⟨by decide +kernel, play_bad (n := 20) (cs := []) ?_⟩
  have e : manage [] 0 aliasProg = .seq .skip (.block 0 (.seq (.seq (.seq (.act (.decl 0 (some (.fresh [])))) (.seq .skip .skip))
      (.seq (.seq (.act (.decl 1 (some (.fresh [])))) (.seq .skip .skip))
      (.seq (.act (.drop 0)) (.seq (.act (.assign 0 (.alias 1))) (.seq .skip .skip)))))
      (.seq (.act (.drop 1)) (.seq (.act (.drop 0)) .skip)))) := rfl
  rw [e]; run_play

/-- `{ var x = A(); x = f(x) }` -/
def selfProg : Stmt := .seq (.decl 0 (some (.fresh []))) (.assign 0 (.fresh [0]))

/-- **Replacing a variable by something computed from it**: the old value is destroyed before it is read. -/
theorem replaced_value_destroyed_before_use (m : Mem) :
    (passBody [] 0 selfProg).1.diag = false ∧ ∃ m', Exec (manage [] 0 selfProg) m .bad m' := by
  refine ⟨by decide +kernel, play_bad (n := 20) (cs := []) ?_⟩
  have e : manage [] 0 selfProg = .seq .skip (.block 0 (.seq (.seq (.seq (.act (.decl 0 (some (.fresh [])))) (.seq .skip .skip))
      (.seq (.act (.drop 0)) (.seq (.act (.assign 0 (.fresh [0]))) (.seq .skip .skip))))
      (.seq (.act (.drop 0)) .skip))) := rfl
  rw [e]; run_play

/-- `func (x) { if (c) { f(&&x) } }` -/
def paramProg : Stmt := .ite [] 1 (.give 0) 2 .skip

/-- **A parameter moved on one path** is not destroyed on the other: its drop flag starts as false. -/
theorem parameter_moved_on_one_path_leaks (m : Mem) (t : Nat) (_hs : m.slot 0 = some t) (hl : m.life t = .live) :
    (passBody [0] 0 paramProg).1.diag = false ∧ ∃ m', Exec (manage [0] 0 paramProg) m .norm m' ∧ m'.life t = .live := by
  refine ⟨by decide +kernel, play_leak (n := 20) (cs := [0]) ?_⟩
  have e : manage [0] 0 paramProg = .seq (.seq (.act (.flag 0 false)) .skip) (.block 0 (.seq
      (.ite [] 1 (.block 1 (.seq (.seq (.act (.give 0)) (.act (.flag 0 false))) .skip)) 2 (.block 2 (.seq .skip .skip)))
      (.seq (.seq (.act (.dropIf 0)) (.act (.flag 0 false))) .skip))) := rfl
  rw [e]; run_play

/-- `{ var x = A(); switch (c) { case _: f(&&x) } }` -/
def caseProg : Stmt := .seq (.decl 0 (some (.fresh []))) (.switch [] (.cons 1 (.give 0) .nil))

/-- **A variable moved in one case** is destroyed again behind the switch. -/
theorem moved_in_one_case_destroyed_again (m : Mem) :
    (passBody [] 0 caseProg).1.diag = false ∧ ∃ m', Exec (manage [] 0 caseProg) m .bad m' := by
  refine ⟨by decide +kernel, play_bad (n := 20) (cs := [1]) ?_⟩
  have e : manage [] 0 caseProg = .seq .skip (.block 0 (.seq (.seq (.seq (.act (.decl 0 (some (.fresh [])))) (.seq .skip .skip))
      (.switch [] (.cons 1 (.block 1 (.seq (.seq (.act (.give 0)) .skip) .skip)) .nil)))
      (.seq (.act (.drop 0)) .skip))) := rfl
  rw [e]; run_play

/-- `{ var x = A(); switch (c) { case _: f(&&x)  case _: f(&&x) } }` -/
def casesProg : Stmt :=
  .seq (.decl 0 (some (.fresh []))) (.switch [] (.cons 1 (.give 0) (.cons 2 (.give 0) .nil)))

/-- **A variable moved in two cases** is never destroyed if neither is taken. -/
theorem moved_in_two_cases_leaks (m : Mem) :
    (passBody [] 0 casesProg).1.diag = false ∧
    ∃ m', Exec (manage [] 0 casesProg) m .norm m' ∧ m'.life m.next = .live := by
  refine ⟨by decide +kernel, play_leak (n := 20) (cs := [0]) ?_⟩
  have e : manage [] 0 casesProg = .seq .skip (.block 0 (.seq (.seq (.seq (.act (.decl 0 (some (.fresh [])))) (.seq .skip .skip))
      (.switch [] (.cons 1 (.block 1 (.seq (.seq (.act (.give 0)) .skip) .skip))
        (.cons 2 (.block 2 (.seq (.seq (.act (.give 0)) .skip) .skip)) .nil))))
      .skip)) := rfl
  rw [e]; run_play

/-- `while (c) { var x = A(); f(&&x); if (d) { break } }` -/
def breakProg : Stmt :=
  .loop [] 1 (.seq (.decl 0 (some (.fresh []))) (.seq (.give 0) (.ite [] 2 .brk 3 .skip)))

/-- **Leaving a loop behind a move** destroys the moved value. -/
theorem break_destroys_moved_value (m : Mem) :
    (passBody [] 0 breakProg).1.diag = false ∧ ∃ m', Exec (manage [] 0 breakProg) m .bad m' := by
  refine ⟨by decide +kernel, play_bad (n := 20) (cs := [1, 1]) ?_⟩
  have e : manage [] 0 breakProg = .seq .skip (.block 0 (.seq (.loop [] 1 (.block 1 (.seq (.seq
      (.seq (.act (.decl 0 (some (.fresh [])))) (.seq .skip .skip)) (.seq (.seq (.act (.give 0)) .skip)
      (.ite [] 2 (.block 2 (.seq (.seq (.seq (.act (.drop 0)) .skip) .brk) .skip)) 3 (.block 3 (.seq .skip .skip)))))
      .skip))) .skip)) := rfl
  rw [e]; run_play

/-- `while (c) { var x = A(); if (d) { return x } }` -/
def returnProg : Stmt :=
  .loop [] 1 (.seq (.decl 0 (some (.fresh []))) (.ite [] 2 (.ret (some (.var 0))) 3 .skip))

/-- **Returning a variable from within a loop** destroys it before the caller gets it. -/
theorem return_in_loop_destroys_result (m : Mem) :
    (passBody [] 0 returnProg).1.diag = false ∧ ∃ m', Exec (manage [] 0 returnProg) m .bad m' := by
  refine ⟨by decide +kernel, play_bad (n := 20) (cs := [1, 1]) ?_⟩
  have e : manage [] 0 returnProg = .seq .skip (.block 0 (.seq (.loop [] 1 (.block 1 (.seq (.seq
      (.seq (.act (.decl 0 (some (.fresh [])))) (.seq .skip (.act (.flag 0 true))))
      (.ite [] 2 (.block 2 (.seq (.seq (.seq (.act (.save (.alias 0))) .skip)
        (.seq (.seq (.seq (.act (.dropIf 0)) (.act (.flag 0 false))) .skip) (.exit true))) .skip))
        3 (.block 3 (.seq .skip .skip))))
      (.seq (.seq (.act (.dropIf 0)) (.act (.flag 0 false))) .skip)))) .skip)) := rfl
  rw [e]; run_play

/-- `{ var x = A(); while (c) { f(&&x) } }` -/
def loopProg : Stmt := .seq (.decl 0 (some (.fresh []))) (.loop [] 1 (.give 0))

/-- **Moving a variable in each round of a loop** is accepted, and the second round hands over a value that is gone. -/
theorem loop_moves_twice (m : Mem) :
    (passBody [] 0 loopProg).1.diag = false ∧ ∃ m', Exec (manage [] 0 loopProg) m .bad m' := by
  refine ⟨by decide +kernel, play_bad (n := 20) (cs := [1, 1]) ?_⟩
  have e : manage [] 0 loopProg = .seq .skip (.block 0 (.seq (.seq
      (.seq (.act (.decl 0 (some (.fresh [])))) (.seq .skip (.act (.flag 0 true))))
      (.loop [] 1 (.block 1 (.seq (.seq (.act (.give 0)) (.act (.flag 0 false))) .skip))))
      (.seq (.seq (.act (.dropIf 0)) (.act (.flag 0 false))) .skip))) := rfl
  rw [e]; run_play

end Verif.Drop
