import Verif.Lang.Drop.Play
/-! Without the inserted destructions and drop flags, the emitted function is the one that was written. -/
namespace Verif.Drop

/-- `a; b`, leaving out what is empty. -/
def glue : Code → Code → Code
  | .skip, b => b
  | a, .skip => a
  | a, b => .seq a b

mutual
/-- The function as written: a declaration copies a variable, an assignment does not, a return evaluates the value and leaves. -/
def written : Stmt → Code
  | .skip => .skip
  | .seq a b => glue (written a) (written b)
  | .decl x none => .act (.decl x none)
  | .decl x (some (.fresh us)) => .act (.decl x (some (.fresh us)))
  | .decl x (some .null) => .act (.decl x (some .null))
  | .decl x (some (.var y)) => .act (.decl x (some (.copy y)))
  | .decl x (some (.move y)) => .act (.decl x (some (.move y)))
  | .assign x (.fresh us) => .act (.assign x (.fresh us))
  | .assign x .null => .act (.assign x .null)
  | .assign x (.var y) => .act (.assign x (.alias y))
  | .assign x (.move y) => .act (.assign x (.move y))
  | .use us => .act (.use us)
  | .give x => .act (.give x)
  | .ret none => .exit false
  | .ret (some .null) => .exit false
  | .ret (some (.fresh us)) => .seq (.act (.save (.fresh us))) (.exit true)
  | .ret (some (.var y)) => .seq (.act (.save (.alias y))) (.exit true)
  | .ret (some (.move y)) => .seq (.act (.save (.move y))) (.exit true)
  | .brk => .brk
  | .cont => .cont
  | .block b s => .block b (written s)
  | .ite us b s b' s' => .ite us b (.block b (written s)) b' (.block b' (written s'))
  | .loop us b s => .loop us b (.block b (written s))
  | .switch us cs => .switch us (writtenCases cs)
def writtenCases : Cases → CCases
  | .nil => .nil
  | .cons b s cs => .cons b (.block b (written s)) (writtenCases cs)
end

mutual
/-- Take out destructions and drop flags. -/
def erase : Code → Code
  | .skip => .skip
  | .seq a b => glue (erase a) (erase b)
  | .act (.drop _) => .skip
  | .act (.dropIf _) => .skip
  | .act (.flag _ _) => .skip
  | .act a => .act a
  | .exit v => .exit v
  | .brk => .brk
  | .cont => .cont
  | .block b s => .block b (erase s)
  | .ite us b s b' s' => .ite us b (erase s) b' (erase s')
  | .loop us b s => .loop us b (erase s)
  | .switch us cs => .switch us (eraseCases cs)
def eraseCases : CCases → CCases
  | .nil => .nil
  | .cons b s cs => .cons b (erase s) (eraseCases cs)
end

mutual
/-- No `x = null`. -/
def NoNull : Stmt → Bool
  | .seq a b => NoNull a && NoNull b
  | .assign _ .null => false
  | .block _ s => NoNull s
  | .ite _ _ s _ s' => NoNull s && NoNull s'
  | .loop _ _ s => NoNull s
  | .switch _ cs => NoNullCases cs
  | _ => true
def NoNullCases : Cases → Bool
  | .nil => true
  | .cons _ s cs => NoNull s && NoNullCases cs
end

theorem glue_skip (a : Code) : glue a .skip = a := by cases a <;> rfl

theorem erase_setFlag (F : Var → Bool) (y : Var) (b : Bool) : erase (setFlag F y b) = .skip := by
  unfold setFlag; split <;> rfl

theorem erase_unflag (F : Var → Bool) (e : Src) : erase (unflag F e) = .skip := by
  cases e <;> first | rfl | exact erase_setFlag F _ false

theorem erase_paramFlags (F : Var → Bool) : ∀ xs, erase (paramFlags F xs) = .skip
  | [] => rfl
  | x :: xs => by
    show glue (erase (setFlag F x false)) (erase (paramFlags F xs)) = .skip
    rw [erase_setFlag, erase_paramFlags F xs]; rfl

theorem erase_finAct (F : Var → Bool) (a : Act) : erase (finAct F a) = erase (.act a) := by
  cases a with
  | decl x e =>
    cases e with
    | none => simp only [finAct, erase, erase_setFlag, glue]
    | some e => simp only [finAct, erase, erase_setFlag, erase_unflag, glue]
  | assign x e => simp only [finAct, erase, erase_setFlag, erase_unflag, glue]
  | use us => rfl
  | give x => simp only [finAct, erase, erase_setFlag, glue]
  | save e => simp only [finAct, erase, erase_unflag, glue]
  | drop x =>
    by_cases h : F x = true
    · simp only [finAct, h, if_true, erase, glue]
    · simp only [finAct, h, erase]; rfl
  | dropIf x => rfl
  | flag x b => rfl

mutual
theorem erase_fin (F : Var → Bool) : ∀ k : Code, erase (fin F k) = erase k
  | .skip => rfl
  | .seq a b => by simp only [fin, erase, erase_fin F a, erase_fin F b]
  | .act a => erase_finAct F a
  | .exit _ => rfl
  | .brk => rfl
  | .cont => rfl
  | .block b s => by simp only [fin, erase, erase_fin F s]
  | .ite us b s b' s' => by simp only [fin, erase, erase_fin F s, erase_fin F s']
  | .loop us b s => by simp only [fin, erase, erase_fin F s]
  | .switch us cs => by simp only [fin, erase, erase_finCases F cs]
theorem erase_finCases (F : Var → Bool) : ∀ cs : CCases, eraseCases (finCases F cs) = eraseCases cs
  | .nil => rfl
  | .cons b s cs => by simp only [finCases, eraseCases, erase_fin F s, erase_finCases F cs]
end

theorem erase_dropAll (c : Ctx) : ∀ (xs : List Var) (p : Pass), erase (dropAll c p xs).2 = .skip
  | [], p => rfl
  | x :: xs, p => by
    unfold dropAll
    split
    · show glue .skip (erase (dropAll c (dropVar c p x) xs).2) = .skip
      rw [erase_dropAll c xs]; rfl
    · exact erase_dropAll c xs p

theorem erase_leave (c : Ctx) (p0 p : Pass) (b : Nat) (k : Code) : erase (leave c p0 p b k).2 = .block b (erase k) := by
  unfold leave
  by_cases h : p.isSealed = true
  · simp only [h, if_true, erase, glue_skip]
  · simp only [h]
    show Code.block b (glue (erase k) (erase (dropAll c p _).2)) = _
    rw [erase_dropAll, glue_skip]

theorem erase_jump (c : Ctx) (p : Pass) : erase (jump c p).2 = .skip := erase_dropAll c _ p

mutual
theorem erase_pass : ∀ (s : Stmt) (c : Ctx) (p : Pass), NoNull s = true → erase (pass c p s).2 = written s
  | .skip, c, p, _ => rfl
  | .seq a b, c, p, h => by
    simp only [NoNull, Bool.and_eq_true] at h
    have h1 := erase_pass a c p h.1
    have h2 := erase_pass b c (pass c p a).1 h.2
    show glue (erase (pass c p a).2) (erase (pass c (pass c p a).1 b).2) = _
    rw [h1, h2]; rfl
  | .decl x e, c, p, _ => by
    match e with
    | none => rfl
    | some (.fresh us) => rfl
    | some .null => rfl
    | some (.var y) => rfl
    | some (.move y) => rfl
  | .assign x e, c, p, h => by
    match e, h with
    | .fresh us, _ => simp only [pass, passAssign, written]; split <;> rfl
    | .var y, _ => simp only [pass, passAssign, written]; split <;> rfl
    | .move y, _ => simp only [pass, passAssign, written]; split <;> rfl
  | .use us, c, p, _ => rfl
  | .give x, c, p, _ => rfl
  | .ret e, c, p, _ => by
    match e with
    | none =>
      show glue .skip (glue (erase (dropAll c p (jumpVars true p.scopes)).2) (.exit false)) = _
      rw [erase_dropAll]; rfl
    | some .null =>
      show glue .skip (glue (erase (dropAll c p (jumpVars true p.scopes)).2) (.exit false)) = _
      rw [erase_dropAll]; rfl
    | some (.fresh us) =>
      show glue (.act (.save (.fresh us))) (glue (erase (dropAll c _ (jumpVars true p.scopes)).2) (.exit true)) = _
      rw [erase_dropAll]; rfl
    | some (.var y) =>
      show glue (.act (.save (.alias y))) (glue (erase (dropAll c _ (jumpVars true p.scopes)).2) (.exit true)) = _
      rw [erase_dropAll]; rfl
    | some (.move y) =>
      show glue (.act (.save (.move y))) (glue (erase (dropAll c _ (jumpVars true p.scopes)).2) (.exit true)) = _
      rw [erase_dropAll]; rfl
  | .brk, c, p, _ => by
    show glue (erase (jump c p).2) .brk = .brk
    rw [erase_jump]; rfl
  | .cont, c, p, _ => by
    show glue (erase (jump c p).2) .cont = .cont
    rw [erase_jump]; rfl
  | .block b s, c, p, h => by
    simp only [pass, erase_leave, written]
    rw [erase_pass s _ _ h]
  | .ite us b s b' s', c, p, h => by
    simp only [NoNull, Bool.and_eq_true] at h
    simp only [pass, erase, erase_leave, written]
    rw [erase_pass s _ _ h.1, erase_pass s' _ _ h.2]
  | .loop us b s, c, p, h => by
    simp only [pass, erase, erase_leave, written]
    rw [erase_pass s _ _ h]
  | .switch us cs, c, p, h => by
    simp only [pass, erase, written]
    rw [erase_passCases cs _ _ _ _ _ h]
theorem erase_passCases : ∀ (cs : Cases) (c : Ctx) (vs : List Var) (old : Var → VS) (p : Pass) (acc : Var → VS),
    NoNullCases cs = true → eraseCases (passCases c vs old p acc cs).2.2 = writtenCases cs
  | .nil, c, vs, old, p, acc, _ => rfl
  | .cons b s cs, c, vs, old, p, acc, h => by
    simp only [NoNullCases, Bool.and_eq_true] at h
    simp only [passCases, eraseCases, erase_leave, writtenCases]
    rw [erase_pass s _ _ h.1, erase_passCases cs _ _ _ _ _ h.2]
end

/-- **Only destructions are added.** Without the destructions and drop flags, the emitted function consists of the actions that were written, in the same
order and with the same control flow. -/
theorem manage_only_adds_drops_partial (params : List Var) (b : Nat) (s : Stmt) (h : NoNull s = true) :
    erase (manage params b s) = .block b (written s) := by
  have : erase (passBody params b s).2 = .block b (written s) := by
    simp only [passBody, erase_leave]
    rw [erase_pass s _ _ h]
  show glue (erase (paramFlags _ params)) (erase (fin _ (passBody params b s).2)) = _
  rw [erase_paramFlags, erase_fin, this]; rfl

example : NoNull (.seq (.decl 0 (some (.fresh []))) (.ite [] 1 (.give 0) 2 (.assign 0 (.fresh [])))) = true := rfl

/-- **`x = null` does nothing** but destroy the value: the assignment itself is missing from the emitted function. -/
theorem null_assignment_removed (params : List Var) (b : Nat) (x : Var) :
    erase (manage params b (.assign x .null)) = .block b .skip ∧
    written (.assign x .null) = .act (.assign x .null) := by
  refine ⟨?_, rfl⟩
  have : erase (passBody params b (.assign x .null)).2 = .block b .skip := by
    simp only [passBody, erase_leave]
    simp only [pass, passAssign]
    split <;> rfl
  show glue (erase (paramFlags _ params)) (erase (fin _ (passBody params b (.assign x .null)).2)) = _
  rw [erase_paramFlags, erase_fin, this]; rfl

/-- So a parameter that has been set to null still points to the destroyed value. -/
theorem null_assignment_keeps_value (b : Nat) (x : Var) (m : Mem) (t : Nat) (hs : m.slot x = some t) (hl : m.life t = .live) :
    ∃ m', Exec (manage [x] b (.assign x .null)) m .norm m' ∧ m'.slot x = some t ∧ m'.life t = .dropped := by
  refine ⟨{ m with life := fun u => if u = t then .dropped else m.life u }, ?_, hs, by simp⟩
  have e : manage [x] b (.assign x .null) = .seq (.seq .skip .skip) (.block b (.seq (.act (.drop x)) .skip)) := by
    simp [manage, passBody, pass, passAssign, visit, leave, dropAll, needs, dropVar, start, Pass.setSt, fin, finAct, setFlag,
      paramFlags]
  rw [e]
  refine .seq (.seq .skip .skip) (.block (.seq (.act ?_) .skip))
  simp [act, hs, retire, hl]

end Verif.Drop
