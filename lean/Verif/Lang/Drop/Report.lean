import Verif.Lang.Drop.Steady
/-! Uses of variables without a value are reported. -/
namespace Verif.Drop

/-- Statements behind which `x` has no value: it has been declared without one, moved, or set to null. -/
inductive Empties (x : Var) : Stmt → Prop where
  | decl : Empties x (.decl x none)
  | give : Empties x (.give x)
  | moveDecl {y} : y ≠ x → Empties x (.decl y (some (.move x)))
  | moveAssign {y} : y ≠ x → Empties x (.assign y (.move x))
  | null : Empties x (.assign x .null)

/-- Statements that begin by reading `x`. -/
inductive Reads (x : Var) : Stmt → Prop where
  | use {us} : x ∈ us → Reads x (.use us)
  | give : Reads x (.give x)
  | decl {y e} : y ≠ x → x ∈ e.vars → Reads x (.decl y (some e))
  | assign {y e} : x ∈ e.vars → Reads x (.assign y e)
  | ret {e} : x ∈ e.vars → Reads x (.ret (some e))
  | ite {us b s b' s'} : x ∈ us → Reads x (.ite us b s b' s')
  | loop {us b s} : x ∈ us → Reads x (.loop us b s)
  | switch {us cs} : x ∈ us → Reads x (.switch us cs)

mutual
/-- Nothing in the statement gives `x` a value. -/
def Keeps (x : Var) : Stmt → Prop
  | .seq a b => Keeps x a ∧ Keeps x b
  | .decl y (some _) => y ≠ x
  | .assign _ .null => True
  | .assign y _ => y ≠ x
  | .block _ s => Keeps x s
  | .ite _ _ s _ s' => Keeps x s ∧ Keeps x s'
  | .loop _ _ s => Keeps x s
  | .switch _ cs => KeepsCases x cs
  | _ => True
def KeepsCases (x : Var) : Cases → Prop
  | .nil => True
  | .cons _ s cs => Keeps x s ∧ KeepsCases x cs
end

mutual
/-- `t` is part of a statement. -/
inductive Within (t : Stmt) : Stmt → Prop where
  | here : Within t t
  | left {a b} : Within t a → Within t (.seq a b)
  | right {a b} : Within t b → Within t (.seq a b)
  | block {b s} : Within t s → Within t (.block b s)
  | thenB {us b s b' s'} : Within t s → Within t (.ite us b s b' s')
  | elseB {us b s b' s'} : Within t s' → Within t (.ite us b s b' s')
  | loop {us b s} : Within t s → Within t (.loop us b s)
  | switch {us cs} : WithinCases t cs → Within t (.switch us cs)
inductive WithinCases (t : Stmt) : Cases → Prop where
  | case {b s cs} : Within t s → WithinCases t (.cons b s cs)
  | later {b s cs} : WithinCases t cs → WithinCases t (.cons b s cs)
end

theorem join_ne {a b : VS} (ha : a ≠ .assigned) (hb : b ≠ .assigned) : join a b ≠ .assigned := by
  revert ha hb; cases a <;> cases b <;> decide

theorem joinCase_ne {a b : VS} (ha : a ≠ .assigned) (hb : b ≠ .assigned) : joinCase a b ≠ .assigned := by
  revert ha hb; cases a <;> cases b <;> decide

theorem mergeUpdate_ne {vs : List Var} {st : Var → VS} {p : Pass} {x : Var} (h1 : st x ≠ .assigned)
    (h2 : p.states x ≠ .assigned) : (mergeUpdate vs st p).states x ≠ .assigned := by
  by_cases hx : x ∈ vs
  · rw [states_mergeUpdate _ _ _ hx]; exact join_ne h1 h2
  · simp only [Pass.states, mergeUpdate, hx, if_false]; exact h2

theorem setSt_ne {p : Pass} {x y : Var} {s : VS} (h : p.states x ≠ .assigned) (hs : s ≠ .assigned ∨ y ≠ x) :
    (p.setSt y s).states x ≠ .assigned := by
  rw [states_setSt]
  by_cases hyx : x = y
  · subst hyx
    rw [setAt_same]
    rcases hs with h | h
    · exact h
    · exact absurd rfl h
  · rw [setAt_ne _ _ hyx]; exact h

theorem visit_ne {p : Pass} {x : Var} (e : Rhs) (h : p.states x ≠ .assigned) : (visit p e).states x ≠ .assigned := by
  cases e with
  | fresh us => exact h
  | null => exact h
  | var y => exact h
  | move y => exact setSt_ne (p := report p [y]) h (.inl (by decide))

mutual
theorem pass_ne {x : Var} : (s : Stmt) → (c : Ctx) → (p : Pass) → Keeps x s → p.states x ≠ .assigned →
    (pass c p s).1.states x ≠ .assigned
  | .skip, c, p, _, h => h
  | .seq a b, c, p, hk, h => by
    simp only [Keeps] at hk
    exact pass_ne b c _ hk.2 (pass_ne a c p hk.1 h)
  | .decl y e, c, p, hk, h => by
    have hd : ∀ i, (i = false ∨ y ≠ x) → (declare c p y i).states x ≠ .assigned := by
      intro i hi
      simp only [Pass.states, declare]
      by_cases hyx : x = y
      · rw [if_pos hyx]
        rcases hi with rfl | hi
        · show VS.uninit ≠ .assigned
          decide
        · exact absurd hyx.symm hi
      · rw [if_neg hyx]; exact h
    match e, hk with
    | none, _ => exact hd false (.inl rfl)
    | some e, hk => exact visit_ne e (hd true (.inr hk))
  | .assign y e, c, p, hk, h => by
    have h1 : ∀ q : Pass, q.states x ≠ .assigned → (if needs c (q.tr y) then dropVar c q y else q).states x ≠ .assigned := by
      intro q hq; split
      · rw [states_dropVar]; exact hq
      · exact hq
    match e, hk with
    | .null, _ => exact setSt_ne (h1 p h) (.inl (by decide))
    | .fresh us, hk => exact setSt_ne (h1 _ (visit_ne (.fresh us) h)) (.inr hk)
    | .var z, hk => exact setSt_ne (h1 _ (visit_ne (.var z) h)) (.inr hk)
    | .move z, hk => exact setSt_ne (h1 _ (visit_ne (.move z) h)) (.inr hk)
  | .use us, c, p, _, h => h
  | .give y, c, p, _, h => setSt_ne (p := report p [y]) h (.inl (by decide))
  | .ret e, c, p, _, h => by
    simp only [pass, passRet_eq]
    have : (retStart c p e).1.states x ≠ .assigned := by
      match e with
      | none => exact h
      | some .null => exact h
      | some (.fresh us) => exact h
      | some (.var y) => exact setSt_ne (p := report p [y]) h (.inl (by decide))
      | some (.move y) => exact setSt_ne (p := report p [y]) h (.inl (by decide))
    have hk := (dropAll_keeps c (jumpVars true (retStart c p e).1.scopes) (retStart c p e).1).2.1
    show (dropAll c _ _).1.states x ≠ .assigned
    rw [hk]; exact this
  | .brk, c, p, _, h => by
    show (dropAll c p _).1.states x ≠ .assigned
    rw [(dropAll_keeps c _ p).2.1]; exact h
  | .cont, c, p, _, h => by
    show (dropAll c p _).1.states x ≠ .assigned
    rw [(dropAll_keeps c _ p).2.1]; exact h
  | .block b s, c, p, hk, h => by
    have h1 := pass_ne s { c with cur := some b } (enter p false) hk h
    simp only [pass]
    have h2 : (leave { c with cur := some b } p (pass { c with cur := some b } (enter p false) s).1 b
      (pass { c with cur := some b } (enter p false) s).2).1.states x ≠ .assigned := by
      rw [(leave_keeps _ _ _ _ _).2.1]; exact h1
    exact mergeUpdate_ne h2 h2
  | .ite us b s b' s', c, p, hk, h => by
    simp only [Keeps] at hk
    have h1 := pass_ne s { c with cur := some b } (enter (report p us) false) hk.1 h
    simp only [pass]
    have h2 : (leave { c with cur := some b } (report p us) (pass { c with cur := some b } (enter (report p us) false) s).1 b
      (pass { c with cur := some b } (enter (report p us) false) s).2).1.states x ≠ .assigned := by
      rw [(leave_keeps _ _ _ _ _).2.1]; exact h1
    refine mergeUpdate_ne h2 ?_
    rw [(leave_keeps _ _ _ _ _).2.1]
    exact pass_ne s' _ _ hk.2 h
  | .loop us b s, c, p, hk, h => by
    have h1 := pass_ne s { c with cur := some b, inLoop := true, head := (report p us).states } (enter (report p us) true) hk h
    have h2 : (leave { c with cur := some b, inLoop := true, head := (report p us).states } (report p us)
      (pass { c with cur := some b, inLoop := true, head := (report p us).states } (enter (report p us) true) s).1 b
      (pass { c with cur := some b, inLoop := true, head := (report p us).states } (enter (report p us) true) s).2).1.states x
        ≠ .assigned := by
      rw [(leave_keeps _ _ _ _ _).2.1]; exact h1
    exact mergeUpdate_ne h2 h
  | .switch us cs, c, p, hk, h => by
    have h1 := cases_ne cs c (report p us).vis (report p us).states (report p us) (report p us).states hk h h h
    simp only [pass]
    simp only [Pass.states]
    split
    · exact h1.2
    · exact h1.1
theorem cases_ne {x : Var} : (cs : Cases) → (c : Ctx) → (vs : List Var) → (old : Var → VS) → (p : Pass) →
    (acc : Var → VS) → KeepsCases x cs → p.states x ≠ .assigned → old x ≠ .assigned → acc x ≠ .assigned →
    (passCases c vs old p acc cs).1.states x ≠ .assigned ∧ (passCases c vs old p acc cs).2.1 x ≠ .assigned
  | .nil, c, vs, old, p, acc, _, h, _, ha => ⟨h, ha⟩
  | .cons b s cs, c, vs, old, p, acc, hk, h, ho, ha => by
    simp only [KeepsCases] at hk
    have h1 := pass_ne s { c with cur := some b } (enter p false) hk.1 h
    simp only [passCases]
    have h2 : (leave { c with cur := some b } p (pass { c with cur := some b } (enter p false) s).1 b
      (pass { c with cur := some b } (enter p false) s).2).1.states x ≠ .assigned := by
      rw [(leave_keeps _ _ _ _ _).2.1]; exact h1
    exact cases_ne cs c vs old (restore old _) _ hk.2 ho ho (joinCase_ne ha h2)
end

theorem empties_ne {x : Var} {t : Stmt} (h : Empties x t) (c : Ctx) (p : Pass) : (pass c p t).1.states x ≠ .assigned := by
  have hm : ∀ q : Pass, (q.setSt x .moved).states x ≠ .assigned := by
    intro q; rw [states_setSt, setAt_same]; decide
  have h1 : ∀ (q : Pass) y, q.states x ≠ .assigned → (if needs c (q.tr y) then dropVar c q y else q).states x ≠ .assigned := by
    intro q y hq; split
    · rw [states_dropVar]; exact hq
    · exact hq
  cases h with
  | decl => simp [pass, passDecl, declare, Pass.states]
  | give => exact hm _
  | moveDecl hy => exact hm _
  | moveAssign hy => exact setSt_ne (h1 _ _ (hm _)) (.inr hy)
  | null =>
    simp only [pass, passAssign]
    rw [states_setSt, setAt_same]; decide

theorem report_diag {p : Pass} {us : List Var} {x : Var} (hx : x ∈ us) (h : p.states x ≠ .assigned) :
    (report p us).diag = true := by
  simp only [report, Bool.or_eq_true, List.any_eq_true, decide_eq_true_eq]
  exact .inr ⟨x, hx, h⟩

theorem Mono.reported {p q : Pass} (h : Mono p q) (hd : p.diag = true) : q.diag = true := by
  cases hq : q.diag with
  | true => rfl
  | false => rw [h.diag hq] at hd; cases hd

theorem visit_diag {p : Pass} {e : Rhs} {x : Var} (hx : x ∈ e.vars) (h : p.states x ≠ .assigned) :
    (visit p e).diag = true := by
  cases e with
  | fresh us => exact report_diag hx h
  | null => cases hx
  | var y => exact report_diag hx h
  | move y => exact report_diag (us := [y]) hx h

theorem ite_then_diag {c : Ctx} {p : Pass} {us : List Var} {b b' : Nat} {s s' : Stmt}
    (h : (pass { c with cur := some b } (enter (report p us) false) s).1.diag = true) :
    (pass c p (.ite us b s b' s')).1.diag = true := by
  simp only [pass]
  have hl := (leave_keeps { c with cur := some b } (report p us)
    (pass { c with cur := some b } (enter (report p us) false) s).1 b
    (pass { c with cur := some b } (enter (report p us) false) s).2).1.reported h
  obtain ⟨p2, hp2⟩ : ∃ q, leave { c with cur := some b } (report p us)
    (pass { c with cur := some b } (enter (report p us) false) s).1 b
    (pass { c with cur := some b } (enter (report p us) false) s).2 = q := ⟨_, rfl⟩
  rw [hp2] at hl ⊢
  exact (mono_mergeUpdate _ _ _).reported ((leave_keeps _ _ _ _ _).1.reported
    ((pass_keeps _ (enter (restore (report p us).states p2.1) false) s').1.reported hl))

theorem loop_diag {c : Ctx} {p : Pass} {us : List Var} {b : Nat} {s : Stmt}
    (h : (pass { c with cur := some b, inLoop := true, head := (report p us).states } (enter (report p us) true) s).1.diag = true) :
    (pass c p (.loop us b s)).1.diag = true := by
  have hl := (leave_keeps { c with cur := some b, inLoop := true, head := (report p us).states } (report p us)
    (pass { c with cur := some b, inLoop := true, head := (report p us).states } (enter (report p us) true) s).1 b
    (pass { c with cur := some b, inLoop := true, head := (report p us).states } (enter (report p us) true) s).2).1.reported h
  simp only [pass]
  exact (mono_mergeUpdate _ _ _).reported ((mono_restore _ _).reported ((mono_sure _ _).reported hl))

theorem block_diag {c : Ctx} {p : Pass} {b : Nat} {s : Stmt}
    (h : (pass { c with cur := some b } (enter p false) s).1.diag = true) : (pass c p (.block b s)).1.diag = true := by
  simp only [pass]
  exact (mono_mergeUpdate _ _ _).reported ((leave_keeps _ _ _ b (pass { c with cur := some b } (enter p false) s).2).1.reported h)

theorem reads_diag {x : Var} {t : Stmt} (hr : Reads x t) (c : Ctx) (p : Pass) (h : p.states x ≠ .assigned) :
    (pass c p t).1.diag = true := by
  cases hr with
  | use hx => exact report_diag hx h
  | give => exact report_diag (us := [x]) List.mem_cons_self h
  | @decl y e hy hx =>
    refine visit_diag hx ?_
    simp only [Pass.states, declare]
    rw [if_neg hy.symm]; exact h
  | @assign y e hx =>
    have h0 := visit_diag hx h
    have h1 : (if needs c ((visit p e).tr y) then dropVar c (visit p e) y else visit p e).diag = true := by
      split <;> exact h0
    cases e with
    | null => cases hx
    | fresh us => exact h1
    | var z => exact h1
    | move z => exact h1
  | @ret e hx =>
    simp only [pass, passRet_eq]
    refine (mono_sealed _ true).reported ((dropAll_keeps c _ _).1.reported ?_)
    cases e with
    | null => cases hx
    | fresh us => exact report_diag hx h
    | var z => exact report_diag hx h
    | move z => exact report_diag (us := [z]) hx h
  | @ite us b s b' s' hx =>
    have h0 : (report p us).diag = true := report_diag hx h
    exact ite_then_diag ((pass_keeps { c with cur := some b } (enter (report p us) false) s).1.reported h0)
  | @loop us b s hx =>
    have h0 : (report p us).diag = true := report_diag hx h
    exact loop_diag ((pass_keeps _ (enter (report p us) true) s).1.reported h0)
  | @switch us cs hx =>
    have h0 : (report p us).diag = true := report_diag hx h
    exact (passCases_keeps c _ _ (report p us) _ cs).1.reported h0

mutual
theorem within_reported {t : Stmt} (ht : ∀ c p, (pass c p t).1.diag = true) : ∀ (s : Stmt), Within t s → ∀ c p,
    (pass c p s).1.diag = true
  | .skip, h, c, p => by cases h; exact ht c p
  | .decl _ _, h, c, p => by cases h; exact ht c p
  | .assign _ _, h, c, p => by cases h; exact ht c p
  | .use _, h, c, p => by cases h; exact ht c p
  | .give _, h, c, p => by cases h; exact ht c p
  | .ret _, h, c, p => by cases h; exact ht c p
  | .brk, h, c, p => by cases h; exact ht c p
  | .cont, h, c, p => by cases h; exact ht c p
  | .seq a b, h, c, p => by
    cases h with
    | here => exact ht c p
    | left h => exact (pass_keeps c (pass c p a).1 b).1.reported (within_reported ht a h c p)
    | right h => exact within_reported ht b h c (pass c p a).1
  | .block b s, h, c, p => by
    cases h with
    | here => exact ht c p
    | block h => exact block_diag (within_reported ht s h _ _)
  | .ite us b s b' s', h, c, p => by
    cases h with
    | here => exact ht c p
    | thenB h =>
      exact ite_then_diag (within_reported ht s h { c with cur := some b } (enter (report p us) false))
    | elseB h =>
      simp only [pass]
      exact (mono_mergeUpdate _ _ _).reported ((leave_keeps _ _ _ b' (pass { c with cur := some b' } _ s').2).1.reported
        (within_reported ht s' h _ _))
  | .loop us b s, h, c, p => by
    cases h with
    | here => exact ht c p
    | loop h =>
      exact loop_diag (within_reported ht s h _ (enter (report p us) true))
  | .switch us cs, h, c, p => by
    cases h with
    | here => exact ht c p
    | switch h => exact within_reportedCases ht cs h c _ _ (report p us) _
theorem within_reportedCases {t : Stmt} (ht : ∀ c p, (pass c p t).1.diag = true) : ∀ (cs : Cases), WithinCases t cs →
    ∀ c vs old p acc, (passCases c vs old p acc cs).1.diag = true
  | .nil, h, c, vs, old, p, acc => by cases h
  | .cons b s cs, h, c, vs, old, p, acc => by
    cases h with
    | case h =>
      have h1 := within_reported ht s h { c with cur := some b } (enter p false)
      have hl := (leave_keeps { c with cur := some b } p (pass { c with cur := some b } (enter p false) s).1 b
        (pass { c with cur := some b } (enter p false) s).2).1.reported h1
      exact (mono_sure _ _).reported ((passCases_keeps c vs old (restore old _) _ cs).1.reported hl)
    | later h => exact (mono_sure _ _).reported (within_reportedCases ht cs h c vs old _ _)
end

/-- **Uses of variables without a value are reported.** Wherever in a function a variable is left without a value, followed by
statements that do not give it one and by one that reads it, the pass reports it. -/
theorem use_without_value_reported_partial {x : Var} {t r s prog : Stmt} (ht : Empties x t) (hs : Keeps x s) (hr : Reads x r)
    (hw : Within (.seq t (.seq s r)) prog) (params : List Var) (b : Nat) :
    (passBody params b prog).1.diag = true := by
  have : ∀ c p, (pass c p (.seq t (.seq s r))).1.diag = true := fun c p =>
    reads_diag hr c _ (pass_ne s c _ hs (empties_ne ht c p))
  exact (leave_keeps _ _ _ _ _).1.reported (within_reported this prog hw _ _)

example : Empties 0 (.decl 1 (some (.move 0))) ∧ Keeps 0 (.ite [1] 1 (.give 1) 2 (.loop [] 3 (.use [1]))) ∧
    Reads 0 (.ret (some (.var 0))) :=
  ⟨.moveDecl (by decide), ⟨trivial, trivial⟩, .ret List.mem_cons_self⟩

end Verif.Drop
