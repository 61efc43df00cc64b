import Verif.Lang.Drop.Model
/-! Executions of straight-line code, and bookkeeping facts about the first pass. -/
namespace Verif.Drop

theorem exec_skip {m o m'} : Exec .skip m o m' ↔ o = .norm ∧ m' = m := by
  constructor
  · intro h; cases h; exact ⟨rfl, rfl⟩
  · rintro ⟨rfl, rfl⟩; exact .skip

theorem exec_seq {a b m o m'} : Exec (.seq a b) m o m' ↔
    (∃ m1, Exec a m .norm m1 ∧ Exec b m1 o m') ∨ (o ≠ .norm ∧ Exec a m o m') := by
  constructor
  · intro h
    cases h with
    | seq h1 h2 => exact .inl ⟨_, h1, h2⟩
    | seqStop h1 h2 => exact .inr ⟨h2, h1⟩
  · rintro (⟨m1, h1, h2⟩ | ⟨h2, h1⟩)
    · exact .seq h1 h2
    · exact .seqStop h1 h2

theorem exec_act {a m o m'} : Exec (.act a) m o m' ↔
    (o = .norm ∧ act m a = some m') ∨ (o = .bad ∧ m' = m ∧ act m a = none) := by
  constructor
  · intro h
    cases h with
    | act h => exact .inl ⟨rfl, h⟩
    | actBad h => exact .inr ⟨rfl, rfl, h⟩
  · rintro (⟨rfl, h⟩ | ⟨rfl, rfl, h⟩)
    · exact .act h
    · exact .actBad h

theorem exec_block {b s m o m'} : Exec (.block b s) m o m' ↔ Exec s m o m' := by
  constructor
  · intro h; cases h; assumption
  · exact .block

/-- `k` has exactly one execution from `m`; it goes through and ends in `m'`. -/
def Runs (k : Code) (m m' : Mem) : Prop := ∀ o m'', Exec k m o m'' ↔ o = .norm ∧ m'' = m'

theorem Runs.skip (m : Mem) : Runs .skip m m := fun _ _ => exec_skip

theorem Runs.seq {a b m m1 m2} (h1 : Runs a m m1) (h2 : Runs b m1 m2) : Runs (.seq a b) m m2 := by
  intro o m''
  rw [exec_seq]
  constructor
  · rintro (⟨m3, h, h'⟩ | ⟨hn, h⟩)
    · obtain ⟨-, rfl⟩ := (h1 _ _).1 h
      exact (h2 _ _).1 h'
    · exact absurd ((h1 _ _).1 h).1 hn
  · intro h
    exact .inl ⟨m1, (h1 _ _).2 ⟨rfl, rfl⟩, (h2 _ _).2 h⟩

theorem Runs.act {a m m'} (h : act m a = some m') : Runs (.act a) m m' := by
  intro o m''
  rw [exec_act, h]
  constructor
  · rintro (⟨rfl, h⟩ | ⟨_, _, h⟩)
    · exact ⟨rfl, (Option.some.inj h).symm⟩
    · cases h
  · rintro ⟨rfl, rfl⟩; exact .inl ⟨rfl, rfl⟩

/-- The memory after setting the flag of `x`, if it has one. -/
def flagged (F : Var → Bool) (m : Mem) (x : Var) (b : Bool) : Mem :=
  if F x then { m with flag := fun y => if y = x then b else m.flag y } else m

theorem runs_setFlag (F : Var → Bool) (m : Mem) (x : Var) (b : Bool) :
    Runs (setFlag F x b) m (flagged F m x b) := by
  unfold setFlag flagged
  by_cases h : F x = true
  · rw [if_pos h, if_pos h]; exact Runs.act rfl
  · rw [if_neg h, if_neg h]; exact Runs.skip m

/-! ## The pass only adds -/

/-- What every part of the pass does to the pass state. -/
structure Mono (p p' : Pass) : Prop where
  flags : ∀ x, (p.tr x).flags = true → (p'.tr x).flags = true
  diag : p'.diag = false → p.diag = false
  sure : p'.sure = true → p.sure = true
  relied : ∀ x, x ∈ p.relied → x ∈ p'.relied

theorem Mono.refl (p : Pass) : Mono p p := ⟨fun _ h => h, id, id, fun _ h => h⟩

theorem Mono.trans {p q r : Pass} (h : Mono p q) (h' : Mono q r) : Mono p r :=
  ⟨fun x hx => h'.flags x (h.flags x hx), fun hx => h.diag (h'.diag hx), fun hx => h.sure (h'.sure hx),
   fun x hx => h'.relied x (h.relied x hx)⟩

theorem mono_report (p : Pass) (us : List Var) : Mono p (report p us) := by
  refine ⟨fun _ h => h, ?_, id, fun _ h => h⟩
  intro h
  simp only [report, Bool.or_eq_false_iff] at h
  exact h.1

theorem mono_setSt (p : Pass) (x : Var) (s : VS) : Mono p (p.setSt x s) := by
  refine ⟨?_, id, id, fun _ h => h⟩
  intro y h
  simp only [Pass.setSt]
  split <;> exact h

theorem mono_visit (p : Pass) (e : Rhs) : Mono p (visit p e) := by
  cases e with
  | fresh us => exact mono_report p us
  | null => exact Mono.refl p
  | var y => exact mono_report p [y]
  | move y => exact (mono_report p [y]).trans (mono_setSt _ y .moved)

theorem mono_dropVar (c : Ctx) (p : Pass) (x : Var) : Mono p (dropVar c p x) := by
  refine ⟨?_, id, id, ?_⟩
  · intro y h
    simp only [dropVar]
    split <;> exact h
  · intro y h
    simp only [dropVar]
    split
    · exact h
    · exact List.mem_cons_of_mem _ h

theorem states_dropVar (c : Ctx) (p : Pass) (x : Var) : (dropVar c p x).states = p.states := by
  funext y
  simp only [Pass.states, dropVar]
  split <;> rfl

theorem dropAll_keeps (c : Ctx) : ∀ (xs : List Var) (p : Pass),
    Mono p (dropAll c p xs).1 ∧ (dropAll c p xs).1.states = p.states ∧
    (dropAll c p xs).1.scopes = p.scopes ∧ (dropAll c p xs).1.isSealed = p.isSealed
  | [], p => ⟨Mono.refl p, rfl, rfl, rfl⟩
  | x :: xs, p => by
    unfold dropAll
    by_cases h : needs c (p.tr x) = true
    · rw [if_pos h]
      obtain ⟨h1, h2, h3, h4⟩ := dropAll_keeps c xs (dropVar c p x)
      exact ⟨(mono_dropVar c p x).trans h1, h2.trans (states_dropVar c p x), h3, h4⟩
    · rw [if_neg h]
      exact dropAll_keeps c xs p

theorem mono_restore (st : Var → VS) (p : Pass) : Mono p (restore st p) := ⟨fun _ h => h, id, id, fun _ h => h⟩

theorem mono_mergeUpdate (vs : List Var) (st : Var → VS) (p : Pass) : Mono p (mergeUpdate vs st p) := by
  refine ⟨?_, id, id, fun _ h => h⟩
  intro x h
  simp only [mergeUpdate]
  split
  · simp [h]
  · exact h

theorem mono_enter (p : Pass) (l : Bool) : Mono p (enter p l) := ⟨fun _ h => h, id, id, fun _ h => h⟩

theorem leave_keeps (c : Ctx) (p0 p : Pass) (b : Nat) (k : Code) :
    Mono p (leave c p0 p b k).1 ∧ (leave c p0 p b k).1.states = p.states ∧
    (leave c p0 p b k).1.scopes = p0.scopes ∧ (leave c p0 p b k).1.isSealed = p0.isSealed := by
  unfold leave
  by_cases h : p.isSealed = true
  · simp only [h, if_true]
    exact ⟨⟨fun _ h => h, id, id, fun _ h => h⟩, rfl, trivial, trivial⟩
  · simp only [h]
    have hk := fun xs => dropAll_keeps c xs p
    refine ⟨⟨fun x hx => (hk _).1.flags x hx, fun hx => (hk _).1.diag hx, fun hx => (hk _).1.sure hx,
      fun x hx => (hk _).1.relied x hx⟩, ?_, trivial, trivial⟩
    exact (hk _).2.1

theorem mono_declare (c : Ctx) (p : Pass) (x : Var) (i : Bool) : Mono p (declare c p x i) := by
  refine ⟨?_, id, id, fun _ h => h⟩
  intro y hy
  simp only [declare]
  split <;> exact hy

theorem mono_passDecl (c : Ctx) (p : Pass) (x : Var) (e : Option Rhs) : Mono p (passDecl c p x e).1 := by
  match e with
  | none => exact mono_declare c p x false
  | some e => exact (mono_declare c p x true).trans (mono_visit _ e)

theorem mono_passAssign (c : Ctx) (p : Pass) (x : Var) (e : Rhs) : Mono p (passAssign c p x e).1 := by
  have h1 : Mono p (if needs c ((visit p e).tr x) then dropVar c (visit p e) x else visit p e) := by
    by_cases h : needs c ((visit p e).tr x) = true
    · rw [if_pos h]; exact (mono_visit p e).trans (mono_dropVar c _ x)
    · rw [if_neg h]; exact mono_visit p e
  cases e <;> exact h1.trans (mono_setSt _ _ _)

/-- The first part of `passRet`. -/
def retStart (c : Ctx) (p : Pass) (e : Option Rhs) : Pass × Code := match e with
    | none => (p, .skip)
    | some .null => (p, .skip)
    | some (.fresh us) => (report p us, .act (.save (.fresh us)))
    | some (.var y) =>
      let q := (report p [y]).setSt y .moved
      ({ q with sure := q.sure && !needs c (q.tr y) }, .act (.save (.alias y)))
    | some (.move y) => ((report p [y]).setSt y .moved, .act (.save (.move y)))

theorem passRet_eq (c : Ctx) (p : Pass) (e : Option Rhs) :
    passRet c p e =
      ({ (dropAll c (retStart c p e).1 (jumpVars true (retStart c p e).1.scopes)).1 with isSealed := true },
       .seq (retStart c p e).2 (.seq (dropAll c (retStart c p e).1 (jumpVars true (retStart c p e).1.scopes)).2
         (.exit (match e with
          | none => false
          | some .null => false
          | _ => true)))) := rfl

theorem mono_retStart (c : Ctx) (p : Pass) (e : Option Rhs) : Mono p (retStart c p e).1 := by
  match e with
  | none => exact Mono.refl p
  | some .null => exact Mono.refl p
  | some (.fresh us) => exact mono_report p us
  | some (.var y) =>
    have h := (mono_report p [y]).trans (mono_setSt _ y .moved)
    refine ⟨h.flags, h.diag, ?_, h.relied⟩
    intro hs
    simp only [retStart, Bool.and_eq_true] at hs
    exact h.sure hs.1
  | some (.move y) => exact (mono_report p [y]).trans (mono_setSt _ y .moved)

theorem mono_sealed (p : Pass) (b : Bool) : Mono p { p with isSealed := b } := ⟨fun _ h => h, id, id, fun _ h => h⟩

theorem mono_sure (p : Pass) (b : Bool) : Mono p { p with sure := p.sure && b } := by
  refine ⟨fun _ h => h, id, ?_, fun _ h => h⟩
  intro h
  simp only [Bool.and_eq_true] at h
  exact h.1

theorem mono_jump (c : Ctx) (p : Pass) : Mono p (jump c p).1 := by
  have h := (dropAll_keeps c (jumpVars false p.scopes) p).1
  refine ⟨h.flags, h.diag, ?_, h.relied⟩
  intro hs
  simp only [jump, Bool.and_eq_true] at hs
  exact h.sure hs.1

/-- The variables a statement leaves in scope. -/
def declared : Stmt → List Var
  | .seq a b => declared a ++ declared b
  | .decl x _ => [x]
  | _ => []

def extend (xs : List Var) : List (List Var × Bool) → List (List Var × Bool)
  | [] => []
  | (ys, l) :: rest => (ys ++ xs, l) :: rest

theorem extend_nil (sc : List (List Var × Bool)) : extend [] sc = sc := by
  cases sc with
  | nil => rfl
  | cons a r => simp [extend]

theorem extend_extend (xs ys : List Var) (sc : List (List Var × Bool)) :
    extend ys (extend xs sc) = extend (xs ++ ys) sc := by
  cases sc with
  | nil => rfl
  | cons a r => simp [extend]

mutual
/-- What the pass keeps. -/
theorem pass_keeps (c : Ctx) (p : Pass) : (s : Stmt) →
    Mono p (pass c p s).1 ∧ (pass c p s).1.scopes = extend (declared s) p.scopes
  | .skip => ⟨Mono.refl p, (extend_nil _).symm⟩
  | .seq a b => by
    obtain ⟨h1, h2⟩ := pass_keeps c p a
    obtain ⟨h3, h4⟩ := pass_keeps c (pass c p a).1 b
    refine ⟨?_, ?_⟩
    · simp only [pass]; exact h1.trans h3
    · simp only [pass, declared]
      rw [h4, h2, extend_extend]
  | .decl x e => by
    refine ⟨mono_passDecl c p x e, ?_⟩
    have h1 : ∀ i, (declare c p x i).scopes = extend [x] p.scopes := by
      intro i
      simp only [declare]
      cases p.scopes <;> rfl
    simp only [pass, declared]
    match e with
    | none => exact h1 false
    | some (.fresh us) => exact h1 true
    | some .null => exact h1 true
    | some (.var y) => exact h1 true
    | some (.move y) => exact h1 true
  | .assign x e => by
    refine ⟨mono_passAssign c p x e, ?_⟩
    simp only [pass, declared, extend_nil]
    have h1 : ∀ q : Pass, (if needs c (q.tr x) then dropVar c q x else q).scopes = q.scopes := by
      intro q; split <;> rfl
    cases e <;> simp only [passAssign] <;> exact h1 _
  | .use us => ⟨mono_report p us, (extend_nil _).symm⟩
  | .give x => ⟨(mono_report p [x]).trans (mono_setSt _ x .moved), (extend_nil _).symm⟩
  | .ret e => by
    refine ⟨?_, ?_⟩
    · simp only [pass, passRet_eq]
      exact ((mono_retStart c p e).trans (dropAll_keeps c _ _).1).trans (mono_sealed _ _)
    · simp only [pass, passRet_eq, declared, extend_nil]
      rw [(dropAll_keeps c _ _).2.2.1]
      match e with
      | none => rfl
      | some (.fresh us) => rfl
      | some .null => rfl
      | some (.var y) => rfl
      | some (.move y) => rfl
  | .brk => by
    refine ⟨mono_jump c p, ?_⟩
    simp only [pass, jump, declared, extend_nil]
    exact (dropAll_keeps c _ _).2.2.1
  | .cont => by
    refine ⟨mono_jump c p, ?_⟩
    simp only [pass, jump, declared, extend_nil]
    exact (dropAll_keeps c _ _).2.2.1
  | .block b s => by
    have h1 := (pass_keeps { c with cur := some b } (enter p false) s).1
    have hl := leave_keeps { c with cur := some b } p (pass { c with cur := some b } (enter p false) s).1 b
      (pass { c with cur := some b } (enter p false) s).2
    refine ⟨?_, ?_⟩
    · simp only [pass]
      exact (((mono_enter p false).trans h1).trans hl.1).trans (mono_mergeUpdate _ _ _)
    · simp only [pass, declared, extend_nil]
      exact hl.2.2.1
  | .ite us b s b' s' => by
    have h1 := (pass_keeps { c with cur := some b } (enter (report p us) false) s).1
    have hl := leave_keeps { c with cur := some b } (report p us)
      (pass { c with cur := some b } (enter (report p us) false) s).1 b
      (pass { c with cur := some b } (enter (report p us) false) s).2
    obtain ⟨p2, h⟩ : ∃ q, (leave { c with cur := some b } (report p us)
      (pass { c with cur := some b } (enter (report p us) false) s).1 b
      (pass { c with cur := some b } (enter (report p us) false) s).2).1 = q := ⟨_, rfl⟩
    have h2 := (pass_keeps { c with cur := some b' } (enter (restore (report p us).states p2) false) s').1
    have hl2 := leave_keeps { c with cur := some b' } (restore (report p us).states p2)
      (pass { c with cur := some b' } (enter (restore (report p us).states p2) false) s').1 b'
      (pass { c with cur := some b' } (enter (restore (report p us).states p2) false) s').2
    refine ⟨?_, ?_⟩
    · simp only [pass, h]
      rw [h] at hl
      exact ((((((((mono_report p us).trans (mono_enter _ false)).trans h1).trans hl.1).trans (mono_restore _ _)).trans
        (mono_enter _ false)).trans h2).trans hl2.1).trans (mono_mergeUpdate _ _ _)
    · simp only [pass, h, declared, extend_nil]
      rw [h] at hl
      exact hl2.2.2.1.trans hl.2.2.1
  | .loop us b s => by
    have h1 := (pass_keeps { c with cur := some b, inLoop := true, head := (report p us).states }
      (enter (report p us) true) s).1
    have hl := leave_keeps { c with cur := some b, inLoop := true, head := (report p us).states } (report p us)
      (pass { c with cur := some b, inLoop := true, head := (report p us).states } (enter (report p us) true) s).1 b
      (pass { c with cur := some b, inLoop := true, head := (report p us).states } (enter (report p us) true) s).2
    refine ⟨?_, ?_⟩
    · simp only [pass]
      exact ((((((mono_report p us).trans (mono_enter _ true)).trans h1).trans hl.1).trans (mono_sure _ _)).trans
        (mono_restore _ _)).trans (mono_mergeUpdate _ _ _)
    · simp only [pass, declared, extend_nil]
      exact hl.2.2.1
  | .switch us cs => by
    obtain ⟨h1, h2⟩ := passCases_keeps c (report p us).vis (report p us).states (report p us) (report p us).states cs
    refine ⟨?_, ?_⟩
    · simp only [pass]
      refine (mono_report p us).trans (h1.trans ?_)
      refine ⟨?_, id, ?_, ?_⟩
      · intro x hx
        dsimp only
        split <;> exact hx
      · intro h
        simp only [Bool.and_eq_true] at h
        exact h.1
      · intro x hx
        exact List.mem_append_right _ hx
    · simp only [pass, declared, extend_nil]
      exact h2

theorem passCases_keeps (c : Ctx) (vs : List Var) (old : Var → VS) (p : Pass) (acc : Var → VS) : (cs : Cases) →
    Mono p (passCases c vs old p acc cs).1 ∧ (passCases c vs old p acc cs).1.scopes = p.scopes
  | .nil => ⟨Mono.refl p, rfl⟩
  | .cons b s cs => by
    have h1 := (pass_keeps { c with cur := some b } (enter p false) s).1
    have hl := leave_keeps { c with cur := some b } p (pass { c with cur := some b } (enter p false) s).1 b
      (pass { c with cur := some b } (enter p false) s).2
    obtain ⟨p2, h⟩ : ∃ q, (leave { c with cur := some b } p (pass { c with cur := some b } (enter p false) s).1 b
      (pass { c with cur := some b } (enter p false) s).2).1 = q := ⟨_, rfl⟩
    rw [h] at hl
    obtain ⟨h3, h4⟩ := passCases_keeps c vs old (restore old p2) (fun x => joinCase (acc x) (p2.states x)) cs
    refine ⟨?_, ?_⟩
    · simp only [passCases, h]
      exact ((((mono_enter p false).trans h1).trans hl.1).trans (mono_restore _ _)).trans (h3.trans (mono_sure _ _))
    · simp only [passCases, h]
      exact h4.trans hl.2.2.1
end

end Verif.Drop
