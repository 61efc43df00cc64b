import Verif.Lang.Drop.Invariant
/-! The invariant is kept by everything the two passes emit. -/
namespace Verif.Drop

def Rhs.vars : Rhs → List Var
  | .fresh us => us
  | .null => []
  | .var y => [y]
  | .move y => [y]

mutual
/-- Variables are declared before they are used and no name is declared twice in nested scopes (resolution of names has made sure
of that); the value of an assignment does not mention the variable assigned to, and is not just another variable. -/
def Plain (V : List Var) : Stmt → Prop
  | .skip => True
  | .seq a b => Plain V a ∧ Plain (V ++ declared a) b
  | .decl x none => x ∉ V
  | .decl x (some e) => x ∉ V ∧ ∀ y ∈ e.vars, y ∈ V
  | .assign x e => x ∈ V ∧ x ∉ e.vars ∧ (∀ y ∈ e.vars, y ∈ V) ∧ ∀ y, e ≠ .var y
  | .use us => ∀ y ∈ us, y ∈ V
  | .give x => x ∈ V
  | .ret none => True
  | .ret (some e) => ∀ y ∈ e.vars, y ∈ V
  | .brk => True
  | .cont => True
  | .block _ s => Plain V s
  | .ite us _ s _ s' => (∀ y ∈ us, y ∈ V) ∧ Plain V s ∧ Plain V s'
  | .loop us _ s => (∀ y ∈ us, y ∈ V) ∧ Plain V s
  | .switch us cs => (∀ y ∈ us, y ∈ V) ∧ PlainCases V cs
def PlainCases (V : List Var) : Cases → Prop
  | .nil => True
  | .cons _ s cs => Plain V s ∧ PlainCases V cs
end

/-- The pass ended without a complaint, all flags are in `F`, and everything it relied on has a flag. -/
structure Fine (F : Var → Bool) (p : Pass) : Prop where
  flags : ∀ x, (p.tr x).flags = true → F x = true
  diag : p.diag = false
  sure : p.sure = true
  relied : ∀ x, x ∈ p.relied → F x = true

theorem Fine.mono {F : Var → Bool} {p p' : Pass} (h : Fine F p') (hm : Mono p p') : Fine F p :=
  ⟨fun x hx => h.flags x (hm.flags x hx), hm.diag h.diag, hm.sure h.sure, fun x hx => h.relied x (hm.relied x hx)⟩

variable {F : Var → Bool}

/-! ## Values -/

def declSrc : Rhs → Src
  | .fresh us => .fresh us
  | .null => .null
  | .var y => .copy y
  | .move y => .move y

def afterMove (F : Var → Bool) : Src → Mem → Mem
  | .move y, m => flagged F m y false
  | _, m => m

theorem runs_unflag (src : Src) (m : Mem) : Runs (unflag F src) m (afterMove F src m) := by
  cases src <;> first | exact Runs.skip m | exact runs_setFlag F m _ false

theorem afterMove_store (src : Src) (m : Mem) (x : Var) (v : Option Nat) :
    afterMove F src (store m x v) = store (afterMove F src m) x v := by
  cases src <;> first | rfl | exact (store_flagged F m x _ v false).symm

def moveSt (e : Rhs) (st : Var → VS) : Var → VS := match e with
  | .move y => setAt st y .moved
  | _ => st

theorem states_visit (p : Pass) (e : Rhs) : (visit p e).states = moveSt e p.states := by
  cases e <;> first | rfl | exact states_setSt _ _ _

theorem report_clear {p : Pass} {us : List Var} (h : (report p us).diag = false) :
    ∀ y ∈ us, p.states y = .assigned := by
  intro y hy
  simp only [report, Bool.or_eq_false_iff] at h
  have := h.2
  rw [List.any_eq_false] at this
  have := this y hy
  rw [decide_eq_true_eq] at this
  exact Decidable.byContradiction this

theorem visit_clear {p : Pass} {e : Rhs} (h : (visit p e).diag = false) : ∀ y ∈ e.vars, p.states y = .assigned := by
  cases e with
  | fresh us => exact report_clear h
  | null => intro y hy; cases hy
  | var y => exact report_clear h
  | move y => exact report_clear (p := p) (us := [y]) h

theorem Inv.readAll {V st m} (h : Inv F V st m none) {us : List Var} (hv : ∀ y ∈ us, V y) (hs : ∀ y ∈ us, st y = .assigned) :
    us.all (Drop.readable m) = true := by
  rw [List.all_eq_true]
  exact fun y hy => h.readable (hv y hy) (hs y hy)

/-- Evaluating a value takes over what it moves. -/
theorem Inv.value {V st m} (h : Inv F V st m none) {e : Rhs} (hv : ∀ y ∈ e.vars, V y)
    (hs : ∀ y ∈ e.vars, st y = .assigned) :
    ∃ v m1, eval m (declSrc e) = some (v, m1) ∧ Inv F V (moveSt e st) (afterMove F (declSrc e) m1) v := by
  cases e with
  | fresh us =>
    refine ⟨(Drop.fresh m).1, (Drop.fresh m).2, ?_, h.fresh⟩
    simp only [declSrc, eval]
    rw [if_pos (h.readAll (us := us) hv hs)]
  | null => exact ⟨none, m, rfl, h⟩
  | var y =>
    have hr := h.readable (hv y (by simp [Rhs.vars])) (hs y (by simp [Rhs.vars]))
    by_cases hy : (m.slot y).isSome = true
    · refine ⟨(Drop.fresh m).1, (Drop.fresh m).2, ?_, h.fresh⟩
      simp only [declSrc, eval, if_pos hr, if_pos hy]
    · refine ⟨none, m, ?_, h⟩
      simp only [declSrc, eval, if_pos hr, if_neg hy]
  | move y =>
    have hy := hv y (by simp [Rhs.vars])
    have hsy := hs y (by simp [Rhs.vars])
    have hr := h.readable hy hsy
    refine ⟨m.slot y, m, ?_, h.take hy hsy⟩
    simp only [declSrc, eval, if_pos hr]

/-! ## Variables in scope -/

def flat (sc : List (List Var × Bool)) : List Var := sc.flatMap (·.1)

theorem jumpVars_true : ∀ sc, jumpVars true sc = flat sc
  | [] => rfl
  | (xs, l) :: rest => by
    have := jumpVars_true rest
    simp [jumpVars, flat, this]

theorem jumpVars_sublist : ∀ sc, (jumpVars false sc).Sublist (flat sc)
  | [] => .slnil
  | (xs, l) :: rest => by
    simp only [jumpVars, flat, List.flatMap_cons, Bool.not_false, Bool.true_and]
    split
    · exact List.sublist_append_left _ _
    · exact List.Sublist.append_left (jumpVars_sublist rest) xs

theorem mem_outside : ∀ (sc : List (List Var × Bool)), (flat sc).Nodup → ∀ x,
    x ∈ outside sc ↔ x ∈ flat sc ∧ x ∉ jumpVars false sc
  | [], _, x => by simp [outside, flat]
  | (xs, l) :: rest, h, x => by
    simp only [flat, List.flatMap_cons] at h ⊢
    rw [List.nodup_append] at h
    obtain ⟨h1, h2, h3⟩ := h
    simp only [outside, jumpVars, Bool.not_false, Bool.true_and]
    cases l with
    | true =>
      simp only [if_true, List.mem_append]
      constructor
      · intro hx; exact ⟨.inr hx, fun hh => h3 x hh x hx rfl⟩
      · rintro ⟨hx | hx, hn⟩
        · exact absurd hx hn
        · exact hx
    | false =>
      have ih := mem_outside rest h2 x
      simp only [Bool.false_eq_true, if_false, List.mem_append, not_or]
      rw [ih]
      constructor
      · rintro ⟨hx, hn⟩; exact ⟨.inr hx, fun hh => h3 x hh x hx rfl, hn⟩
      · rintro ⟨hx | hx, hn1, hn2⟩
        · exact absurd hx hn1
        · exact ⟨hx, hn2⟩

theorem flat_extend {x : Var} {sc : List (List Var × Bool)} (h : sc ≠ []) (y : Var) :
    y ∈ flat (extend [x] sc) ↔ y ∈ flat sc ∨ y = x := by
  cases sc with
  | nil => exact absurd rfl h
  | cons a r =>
    simp only [extend, flat, List.flatMap_cons, List.mem_append, List.mem_singleton]
    constructor
    · rintro ((h | h) | h)
      · exact .inl (.inl h)
      · exact .inr h
      · exact .inl (.inr h)
    · rintro ((h | h) | h)
      · exact .inl (.inl h)
      · exact .inr h
      · exact .inl (.inr h)

theorem mem_flat_extend (xs : List Var) {sc : List (List Var × Bool)} (h : sc ≠ []) (y : Var) :
    y ∈ flat (extend xs sc) ↔ y ∈ flat sc ∨ y ∈ xs := by
  cases sc with
  | nil => exact absurd rfl h
  | cons a r =>
    simp only [extend, flat, List.flatMap_cons, List.mem_append]
    constructor
    · rintro ((h | h) | h)
      · exact .inl (.inl h)
      · exact .inr h
      · exact .inl (.inr h)
    · rintro ((h | h) | h)
      · exact .inl (.inl h)
      · exact .inr h
      · exact .inl (.inr h)

/-- Declarations do not clash. -/
theorem nodup_extend : ∀ (s : Stmt) {V : List Var} {sc : List (List Var × Bool)}, sc ≠ [] →
    (∀ x, x ∈ V ↔ x ∈ flat sc) → (flat sc).Nodup → Plain V s → (flat (extend (declared s) sc)).Nodup
  | .seq a b, V, sc, hne, hV, hnd, hp => by
    simp only [Plain] at hp
    have h1 := nodup_extend a hne hV hnd hp.1
    have hne' : extend (declared a) sc ≠ [] := by
      cases sc with
      | nil => exact absurd rfl hne
      | cons a r => simp [extend]
    have h2 := nodup_extend b (V := V ++ declared a) hne' (by
      intro x
      rw [mem_flat_extend _ hne, List.mem_append, hV x]) h1 hp.2
    rw [extend_extend] at h2
    exact h2
  | .decl x e, V, sc, hne, hV, hnd, hp => by
    have hx : x ∉ flat sc := by
      intro hh
      cases e with
      | none => exact hp ((hV x).2 hh)
      | some e => exact hp.1 ((hV x).2 hh)
    cases sc with
    | nil => exact absurd rfl hne
    | cons a r =>
      simp only [declared, extend, flat, List.flatMap_cons] at hx hnd ⊢
      rw [List.append_assoc]
      rw [List.mem_append, not_or] at hx
      rw [List.nodup_append] at hnd ⊢
      obtain ⟨h1, h2, h3⟩ := hnd
      refine ⟨h1, ?_, ?_⟩
      · rw [List.singleton_append, List.nodup_cons]
        exact ⟨hx.2, h2⟩
      · intro y hy z hz
        rw [List.singleton_append, List.mem_cons] at hz
        rcases hz with rfl | hz
        · exact fun hh => hx.1 (hh ▸ hy)
        · exact h3 y hy z hz
  | .skip, _, _, _, _, hnd, _ => by simp only [declared, extend_nil]; exact hnd
  | .assign _ _, _, _, _, _, hnd, _ => by simp only [declared, extend_nil]; exact hnd
  | .use _, _, _, _, _, hnd, _ => by simp only [declared, extend_nil]; exact hnd
  | .give _, _, _, _, _, hnd, _ => by simp only [declared, extend_nil]; exact hnd
  | .ret _, _, _, _, _, hnd, _ => by simp only [declared, extend_nil]; exact hnd
  | .brk, _, _, _, _, hnd, _ => by simp only [declared, extend_nil]; exact hnd
  | .cont, _, _, _, _, hnd, _ => by simp only [declared, extend_nil]; exact hnd
  | .block _ _, _, _, _, _, hnd, _ => by simp only [declared, extend_nil]; exact hnd
  | .ite _ _ _ _ _, _, _, _, _, hnd, _ => by simp only [declared, extend_nil]; exact hnd
  | .loop _ _ _, _, _, _, _, hnd, _ => by simp only [declared, extend_nil]; exact hnd
  | .switch _ _, _, _, _, _, hnd, _ => by simp only [declared, extend_nil]; exact hnd

theorem outside_extend (xs : List Var) (sc : List (List Var × Bool)) : outside (extend xs sc) = outside sc := by
  cases sc with
  | nil => rfl
  | cons a r => rfl

/-! ## Statements -/

/-- What holds after a statement. -/
def Post (F : Var → Bool) (c : Ctx) (p p' : Pass) (m' : Mem) : Outcome → Prop
  | .norm => p'.isSealed = false ∧ Inv F (fun x => x ∈ p'.vis) p'.states m' none
  | .brk => Inv F (fun x => x ∈ outside p.scopes) c.head m' none
  | .cont => Inv F (fun x => x ∈ outside p.scopes) c.head m' none
  | .ret => ∀ t, m'.life t ≠ .live
  | .bad => False

theorem Inv.none_live {st m} (h : Inv F (fun _ => False) st m none) : ∀ t, m.life t ≠ .live := by
  intro t ht
  rcases h.held t ht with ⟨_, hx, _⟩ | h1
  · exact hx
  · cases h1

theorem sound_decl {c : Ctx} {p : Pass} {x : Var} {e : Option Rhs} {V : List Var} (hp : Plain V (.decl x e))
    (hV : ∀ x, x ∈ V ↔ x ∈ p.vis) (hne : p.scopes ≠ []) (hf : Fine F (passDecl c p x e).1)
    {m : Mem} (hI : Inv F (fun x => x ∈ p.vis) p.states m none) :
    ∃ m', Runs (fin F (passDecl c p x e).2) m m' ∧
      Inv F (fun y => y ∈ (passDecl c p x e).1.vis) (passDecl c p x e).1.states m' none := by
  have hsc : ∀ i, (declare c p x i).scopes = extend [x] p.scopes := by
    intro i
    simp only [declare]
    cases p.scopes <;> rfl
  have hvis : ∀ i y, y ∈ (declare c p x i).vis ↔ y ∈ p.vis ∨ y = x := by
    intro i y
    simp only [Pass.vis, hsc]
    exact flat_extend hne y
  have hst : ∀ i, (declare c p x i).states = setAt p.states x (if i then .assigned else .uninit) := by
    intro i
    funext y
    simp only [Pass.states, declare, setAt]
    split <;> rfl
  cases e with
  | none =>
    have hx : ¬ x ∈ p.vis := fun hh => hp ((hV x).2 hh)
    refine ⟨flagged F (store m x none) x false, ?_, ?_⟩
    · exact Runs.seq (Runs.act rfl) (runs_setFlag F _ x false)
    · simp only [passDecl]
      rw [hst]
      exact (hI.declare hx).congr (hvis false)
  | some e =>
    have hx : ¬ x ∈ p.vis := fun hh => hp.1 ((hV x).2 hh)
    have hv : ∀ y ∈ e.vars, y ∈ p.vis := fun y hy => (hV y).1 (hp.2 y hy)
    have hxv : ∀ y ∈ e.vars, y ≠ x := fun y hy hh => hx (hh ▸ hv y hy)
    have hclear := visit_clear (p := declare c p x true) (e := e) hf.diag
    have hs : ∀ y ∈ e.vars, p.states y = .assigned := by
      intro y hy
      have := hclear y hy
      rw [hst, setAt_ne _ _ (hxv y hy)] at this
      exact this
    obtain ⟨v, m1, hev, h1⟩ := hI.value hv hs
    have h2 := h1.put (x := x) (fun hh => absurd hh hx)
    refine ⟨flagged F (store (afterMove F (declSrc e) m1) x v) x true, ?_, ?_⟩
    · have hr1 : Runs (.act (.decl x (some (declSrc e)))) m (store m1 x v) := by
        refine Runs.act ?_
        simp [act, hev]
      have hr2 := runs_unflag (F := F) (declSrc e) (store m1 x v)
      rw [afterMove_store] at hr2
      have := Runs.seq hr1 (Runs.seq hr2 (runs_setFlag F _ x true))
      cases e <;> exact this
    · have hvis' : ∀ y, y ∈ (passDecl c p x (some e)).1.vis ↔ y ∈ p.vis ∨ y = x := by
        intro y
        rw [← hvis true y]
        cases e <;> rfl
      have hst' : (passDecl c p x (some e)).1.states = setAt (moveSt e p.states) x .assigned := by
        simp only [passDecl]
        rw [states_visit, hst]
        cases e with
        | move y =>
          have hyx := hxv y (by simp [Rhs.vars])
          funext z
          simp only [moveSt, setAt, if_true]
          by_cases h1 : z = y
          · subst h1; simp [hyx]
          · simp [h1]
        | _ => rfl
      rw [hst']
      exact h2.congr hvis'

theorem sound_assign {c : Ctx} {p : Pass} {x : Var} {e : Rhs} {V : List Var} (hp : Plain V (.assign x e))
    (hV : ∀ x, x ∈ V ↔ x ∈ p.vis) (hf : Fine F (passAssign c p x e).1)
    {m : Mem} (hI : Inv F (fun x => x ∈ p.vis) p.states m none) :
    ∃ m', Runs (fin F (passAssign c p x e).2) m m' ∧
      Inv F (fun y => y ∈ (passAssign c p x e).1.vis) (passAssign c p x e).1.states m' none := by
  obtain ⟨hx, hxv, hv, hnv⟩ := hp
  rw [hV x] at hx
  have hv : ∀ y ∈ e.vars, y ∈ p.vis := fun y hy => (hV y).1 (hv y hy)
  obtain ⟨p2, hp2⟩ : ∃ q, (if needs c ((visit p e).tr x) then dropVar c (visit p e) x else visit p e) = q := ⟨_, rfl⟩
  obtain ⟨d, hd⟩ : ∃ q, (if needs c ((visit p e).tr x) then Code.act (.drop x) else .skip) = q := ⟨_, rfl⟩
  have hsx : (visit p e).states x = p.states x := by
    rw [states_visit]
    cases e with
    | move y =>
      have : x ≠ y := fun hh => hxv (by simp [Rhs.vars, hh])
      exact setAt_ne _ _ this
    | _ => rfl
  have hst2 : p2.states = moveSt e p.states := by
    rw [← states_visit, ← hp2]
    split
    · exact states_dropVar _ _ _
    · rfl
  have hsc2 : p2.scopes = p.scopes := by
    rw [← hp2]
    split <;> cases e <;> rfl
  have hp2f : Fine F p2 ∧ (e ≠ .null → (passAssign c p x e).1 = p2.setSt x .assigned ∧
      (passAssign c p x e).2 = .seq d (.act (.assign x (declSrc e)))) ∧
      (e = .null → passAssign c p x e = (p2.setSt x .dropped, d)) := by
    subst hp2 hd
    cases e with
    | fresh us => exact ⟨hf.mono (mono_setSt _ _ _), fun _ => ⟨rfl, rfl⟩, fun hh => by cases hh⟩
    | null => exact ⟨hf.mono (mono_setSt _ _ _), fun hh => absurd rfl hh, fun _ => rfl⟩
    | var y => exact absurd rfl (hnv y)
    | move y => exact ⟨hf.mono (mono_setSt _ _ _), fun _ => ⟨rfl, rfl⟩, fun hh => by cases hh⟩
  obtain ⟨hf2, hcode, hcodeN⟩ := hp2f
  have hclear : ∀ y ∈ e.vars, p.states y = .assigned := by
    refine visit_clear ?_
    have := hf2.diag
    rw [← hp2] at this
    split at this <;> exact this
  -- the drop
  have hdrop : ∃ m1, Runs (fin F d) m m1 ∧ Inv F (fun x => x ∈ p.vis) (setAt p.states x .dropped) m1 none ∧ m1.ret = m.ret := by
    subst hd
    by_cases hneed : needs c ((visit p e).tr x) = true
    · rw [if_pos hneed] at hp2 ⊢
      refine hI.drop hx ?_
      rw [← hsx]
      by_cases hk : (visit p e).states x = .maybe ∨ (visit p e).states x = .assigned
      · exact .inl hk
      · refine .inr (hf2.relied x ?_)
        rw [← hp2]
        have hk' : ¬ (((visit p e).tr x).st = .maybe ∨ ((visit p e).tr x).st = .assigned) := hk
        simp only [dropVar, if_neg hk']
        exact List.mem_cons_self
    · rw [if_neg hneed]
      refine ⟨m, Runs.skip m, hI.unown hx ?_ ⟨by decide, by decide⟩, rfl⟩
      rw [← hsx]
      have h5 : ¬ ((visit p e).states x = .maybe ∨ (visit p e).states x = .assigned) := by
        intro hh
        apply hneed
        simp only [needs, Bool.or_eq_true, decide_eq_true_eq]
        exact .inl hh
      rw [not_or] at h5
      simp [owned, h5]
  obtain ⟨m1, hrun1, h1, -⟩ := hdrop
  by_cases hnull : e = .null
  · have := hcodeN hnull
    rw [this]
    refine ⟨m1, hrun1, ?_⟩
    rw [states_setSt, hst2]
    subst hnull
    refine h1.congr ?_
    intro y
    simp only [Pass.vis, Pass.setSt, hsc2]
  · obtain ⟨hc1, hc2⟩ := hcode hnull
    rw [hc1, hc2]
    have hxs : ∀ y ∈ e.vars, y ≠ x := fun y hy hh => hxv (hh ▸ hy)
    obtain ⟨v, m2, hev, h2⟩ := h1.value hv (fun y hy => by rw [setAt_ne _ _ (hxs y hy)]; exact hclear y hy)
    have hox : owned (moveSt e (setAt p.states x .dropped) x) ((afterMove F (declSrc e) m2).flag x) = false := by
      have : moveSt e (setAt p.states x .dropped) x = .dropped := by
        cases e with
        | move y =>
          have : x ≠ y := fun hh => hxs y (by simp [Rhs.vars]) hh.symm
          simp only [moveSt]
          rw [setAt_ne _ _ this, setAt_same]
        | _ => exact setAt_same _ _ _
      rw [this]; simp [owned]
    have h3 := h2.put (x := x) (fun _ => hox)
    refine ⟨flagged F (store (afterMove F (declSrc e) m2) x v) x true, ?_, ?_⟩
    · have hr1 : Runs (.act (.assign x (declSrc e))) m1 (store m2 x v) := by
        refine Runs.act ?_
        simp [act, hev]
      have hr2 := runs_unflag (F := F) (declSrc e) (store m2 x v)
      rw [afterMove_store] at hr2
      exact Runs.seq hrun1 (Runs.seq hr1 (Runs.seq hr2 (runs_setFlag F _ x true)))
    · have hst' : (p2.setSt x .assigned).states = setAt (moveSt e (setAt p.states x .dropped)) x .assigned := by
        rw [states_setSt, hst2]
        funext z
        by_cases hz : z = x
        · subst hz; rw [setAt_same, setAt_same]
        · rw [setAt_ne _ _ hz, setAt_ne _ _ hz]
          cases e with
          | move y =>
            simp only [moveSt]
            by_cases hzy : z = y
            · subst hzy; rw [setAt_same, setAt_same]
            · rw [setAt_ne _ _ hzy, setAt_ne _ _ hzy, setAt_ne _ _ hz]
          | _ => simp only [moveSt]; rw [setAt_ne _ _ hz]
      rw [hst']
      refine h3.congr ?_
      intro y
      simp only [Pass.vis, Pass.setSt, hsc2]
      constructor
      · exact .inl
      · rintro (h | h)
        · exact h
        · rw [h]; exact hx

theorem sound_give {p : Pass} {x : Var} (hx : x ∈ p.vis) (hf : Fine F ((report p [x]).setSt x .moved))
    {m : Mem} (hI : Inv F (fun x => x ∈ p.vis) p.states m none) :
    ∃ m', Runs (fin F (.act (.give x))) m m' ∧
      Inv F (fun y => y ∈ ((report p [x]).setSt x .moved).vis) ((report p [x]).setSt x .moved).states m' none := by
  have hs := report_clear (p := p) (us := [x]) hf.diag x (by simp)
  have ho : owned (p.states x) (m.flag x) = true := by simp [owned, hs]
  refine ⟨flagged F (ended .given m (m.slot x)) x false, ?_, ?_⟩
  · exact Runs.seq (Runs.act (retire_live fun t ht => hI.live x t hx ho ht)) (runs_setFlag F _ x false)
  · rw [states_setSt, states_report]
    exact hI.end_var hx ho ⟨by decide, by decide⟩ (by decide)

theorem sound_jump {c : Ctx} {p : Pass} (hnd : p.vis.Nodup) (hf : Fine F (jump c p).1)
    (hh : ∀ x ∈ outside p.scopes, c.head x = .maybe → F x = true)
    {m : Mem} (hI : Inv F (fun x => x ∈ p.vis) p.states m none) :
    ∃ m', Runs (fin F (jump c p).2) m m' ∧ Inv F (fun x => x ∈ outside p.scopes) c.head m' none := by
  have hsub := jumpVars_sublist p.scopes
  obtain ⟨m', hrun, h1, -⟩ := Inv.dropAll (c := c) (jumpVars false p.scopes) p hI (hnd.sublist hsub)
    (fun x hx => hf.relied x hx) (fun _ _ _ => rfl) (fun x hx _ => hsub.subset hx)
  refine ⟨m', hrun, ?_⟩
  have h2 : Inv F (fun x => x ∈ outside p.scopes) p.states m' none := h1.congr (mem_outside p.scopes hnd)
  refine h2.weaken ?_ hh
  have := hf.sure
  simp only [jump, Bool.and_eq_true, List.all_eq_true] at this
  exact this.2

theorem exec_exit_false {m o m'} : Exec (.exit false) m o m' ↔ o = .ret ∧ m' = m := by
  constructor
  · intro h; cases h; exact ⟨rfl, rfl⟩
  · rintro ⟨rfl, rfl⟩; exact .done

theorem exec_exit_true {m o m'} (h : ∀ t, m.ret = some t → m.life t = .live) :
    Exec (.exit true) m o m' ↔ o = .ret ∧ m' = ended .given m m.ret := by
  have hr := retire_live (l := .given) h
  constructor
  · intro h
    cases h with
    | exit h => rw [hr] at h; exact ⟨rfl, (Option.some.inj h).symm⟩
    | exitBad h => rw [hr] at h; cases h
  · rintro ⟨rfl, rfl⟩; exact .exit hr

theorem Runs.then {a b m m1 o m'} (h : Runs a m m1) (he : Exec (.seq a b) m o m') : Exec b m1 o m' := by
  rw [exec_seq] at he
  rcases he with ⟨m2, h1, h2⟩ | ⟨hn, h1⟩
  · obtain ⟨-, rfl⟩ := (h _ _).1 h1
    exact h2
  · exact absurd ((h _ _).1 h1).1 hn

/-- The end of a return: all variables are dropped, then the value is handed over. -/
theorem sound_exit {c : Ctx} {p : Pass} {V : Var → Prop} {st : Var → VS} {m : Mem} {v : Option Nat} {b : Bool}
    (hnd : p.vis.Nodup) (hr : ∀ x, x ∈ (Drop.dropAll c p (jumpVars true p.scopes)).1.relied → F x = true)
    (hI : Inv F V st m v) (hV : ∀ x, V x → x ∈ p.vis) (hst : ∀ x, V x → st x = p.states x)
    (hn : ∀ x ∈ p.vis, needs c (p.tr x) = true → V x)
    (hb : (b = false ∧ v = none) ∨ (b = true ∧ m.ret = v)) {o m'}
    (he : Exec (.seq (fin F (Drop.dropAll c p (jumpVars true p.scopes)).2) (.exit b)) m o m') :
    o = .ret ∧ ∀ t, m'.life t ≠ .live := by
  rw [jumpVars_true] at hr he
  obtain ⟨m1, hrun, h1, hret⟩ := Inv.dropAll (c := c) (flat p.scopes) p hI hnd hr (fun x _ hx => hst x hx)
    (fun x hx hned => hn x hx hned)
  have he1 := hrun.then he
  have h2 : Inv F (fun _ => False) st m1 v := h1.shrink (fun _ hx => hx.elim) (fun x hx _ => absurd (hV x hx.1) hx.2)
  rcases hb with ⟨rfl, rfl⟩ | ⟨rfl, hv⟩
  · obtain ⟨rfl, rfl⟩ := exec_exit_false.1 he1
    exact ⟨rfl, h2.none_live⟩
  · rw [← hret] at hv
    subst hv
    obtain ⟨rfl, rfl⟩ := (exec_exit_true fun t ht => (h2.extra t ht).1).1 he1
    exact ⟨rfl, (h2.hand (by decide)).none_live⟩

theorem sound_ret {c : Ctx} {p : Pass} {e : Option Rhs} {V : List Var} (hp : Plain V (.ret e))
    (hV : ∀ x, x ∈ V ↔ x ∈ p.vis) (hnd : p.vis.Nodup) (hf : Fine F (passRet c p e).1)
    {m : Mem} (hI : Inv F (fun x => x ∈ p.vis) p.states m none) {o m'}
    (he : Exec (fin F (passRet c p e).2) m o m') : o = .ret ∧ ∀ t, m'.life t ≠ .live := by
  rw [passRet_eq] at he hf
  have hr : ∀ x, x ∈ (Drop.dropAll c (retStart c p e).1 (jumpVars true (retStart c p e).1.scopes)).1.relied → F x = true :=
    hf.relied
  have hf1 : Fine F (retStart c p e).1 := hf.mono ((dropAll_keeps c _ _).1.trans (mono_sealed _ _))
  simp only [fin] at he
  match e, hp, hr, hf1, he with
  | none, _, hr, _, he =>
    have he' := (Runs.skip m).then he
    exact sound_exit (p := p) hnd hr hI (fun _ h => h) (fun _ _ => rfl) (fun _ h _ => h) (.inl ⟨rfl, rfl⟩) he'
  | some .null, _, hr, _, he =>
    have he' := (Runs.skip m).then he
    exact sound_exit (p := p) hnd hr hI (fun _ h => h) (fun _ _ => rfl) (fun _ h _ => h) (.inl ⟨rfl, rfl⟩) he'
  | some (.fresh us), hp, hr, hf1, he =>
    have hs := report_clear (p := p) (us := us) hf1.diag
    obtain ⟨v, m1, hev, h1⟩ := hI.value (e := .fresh us) (fun y hy => (hV y).1 (hp y hy)) hs
    have hrun : Runs (fin F (.act (.save (.fresh us)))) m { m1 with ret := v } := by
      refine Runs.seq (Runs.act ?_) (Runs.skip _)
      have : eval m (.fresh us) = some (v, m1) := hev
      simp [act, this]
    have he' := hrun.then he
    exact sound_exit (p := report p us) hnd hr (h1.setRet v) (fun _ h => h) (fun _ _ => rfl) (fun _ h _ => h)
      (.inr ⟨rfl, rfl⟩) he'
  | some (.move y), hp, hr, hf1, he =>
    have hs := report_clear (p := p) (us := [y]) hf1.diag
    obtain ⟨v, m1, hev, h1⟩ := hI.value (e := .move y) (fun y hy => (hV y).1 (hp y hy)) hs
    have hrun : Runs (fin F (.act (.save (.move y)))) m { (flagged F m1 y false) with ret := v } := by
      have hflag : flagged F { m1 with ret := v } y false = { (flagged F m1 y false) with ret := v } := by
        unfold flagged; split <;> rfl
      rw [← hflag]
      refine Runs.seq (Runs.act ?_) (runs_setFlag F _ y false)
      have : eval m (.move y) = some (v, m1) := hev
      simp [act, this]
    have he' := hrun.then he
    exact sound_exit (p := (report p [y]).setSt y .moved) hnd hr (h1.setRet v) (fun _ h => h)
      (fun x _ => by rw [states_setSt]; rfl) (fun _ h _ => h) (.inr ⟨rfl, rfl⟩) he'
  | some (.var y), hp, hr, hf1, he =>
    have hs := report_clear (p := p) (us := [y]) hf1.diag y (by simp)
    have hy : y ∈ p.vis := (hV y).1 (hp y (by simp [Rhs.vars]))
    have h1 := hI.lend hy hs
    have hrun : Runs (fin F (.act (.save (.alias y)))) m { m with ret := m.slot y } := by
      refine Runs.seq (Runs.act ?_) (Runs.skip _)
      simp [act, eval, hI.readable hy hs]
    have he' := hrun.then he
    have hsure := hf1.sure
    simp only [retStart, Bool.and_eq_true, Bool.not_eq_true'] at hsure
    refine sound_exit (p := (retStart c p (some (.var y))).1) hnd hr (h1.setRet (m.slot y)) (fun _ h => h.1)
      ?_ ?_ (.inr ⟨rfl, rfl⟩) he'
    · intro x hx
      have : (retStart c p (some (.var y))).1.states = setAt p.states y .moved := states_setSt _ _ _
      rw [this, setAt_ne _ _ hx.2]
    · intro x hx hned
      refine ⟨hx, ?_⟩
      rintro rfl
      have : needs c (((report p [x]).setSt x .moved).tr x) = true := hned
      rw [hsure.2] at this; cases this

end Verif.Drop
