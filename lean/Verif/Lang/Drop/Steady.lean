import Verif.Lang.Drop.Props
/-! Programs with loops, switches and jumps in which every variable holds a value of its own all the time. -/
namespace Verif.Drop

mutual
/-- Every declaration has a value, variables are only overwritten with new values, nothing is moved and no variable is
returned. -/
def Steady : Stmt → Bool
  | .skip => true
  | .seq a b => Steady a && Steady b
  | .decl _ (some (.fresh _)) => true
  | .decl _ (some .null) => true
  | .decl _ (some (.var _)) => true
  | .decl _ _ => false
  | .assign _ (.fresh _) => true
  | .assign _ _ => false
  | .use _ => true
  | .give _ => false
  | .ret none => true
  | .ret (some .null) => true
  | .ret (some (.fresh _)) => true
  | .ret _ => false
  | .brk => true
  | .cont => true
  | .block _ s => Steady s
  | .ite _ _ s _ s' => Steady s && Steady s'
  | .loop _ _ s => Steady s
  | .switch _ cs => SteadyCases cs
def SteadyCases : Cases → Bool
  | .nil => true
  | .cons _ s cs => Steady s && SteadyCases cs
end

/-- All variables in scope are assigned. -/
def AllSet (p : Pass) : Prop := ∀ x ∈ p.vis, p.states x = .assigned

/-- Nothing happened to the records of the pass. -/
structure Same (p p' : Pass) : Prop where
  diag : p'.diag = p.diag
  sure : p'.sure = p.sure
  relied : p'.relied = p.relied
  flags : ∀ x, (p'.tr x).flags = (p.tr x).flags

theorem Same.refl (p : Pass) : Same p p := ⟨rfl, rfl, rfl, fun _ => rfl⟩

theorem Same.trans {p q r : Pass} (h : Same p q) (h' : Same q r) : Same p r :=
  ⟨h'.diag.trans h.diag, h'.sure.trans h.sure, h'.relied.trans h.relied, fun x => (h'.flags x).trans (h.flags x)⟩

theorem report_same {p : Pass} (h : AllSet p) {us : List Var} (hu : ∀ y ∈ us, y ∈ p.vis) : Same p (report p us) := by
  refine ⟨?_, rfl, rfl, fun _ => rfl⟩
  have : (us.any fun u => decide ((p.tr u).st ≠ .assigned)) = false := by
    rw [List.any_eq_false]
    intro x hx
    have := h x (hu x hx)
    simp only [Pass.states] at this
    simp [this]
  simp only [report, this, Bool.or_false]

theorem dropVar_same {c : Ctx} {p : Pass} {x : Var} (h : p.states x = .assigned) : Same p (dropVar c p x) := by
  have h' : (p.tr x).st = .assigned := h
  refine ⟨rfl, rfl, ?_, ?_⟩
  · simp [dropVar, h']
  · intro y
    simp only [dropVar]
    split <;> rfl

theorem dropAll_same {c : Ctx} : ∀ (xs : List Var) (p : Pass), (∀ x ∈ xs, p.states x = .assigned) →
    Same p (dropAll c p xs).1
  | [], p, _ => Same.refl p
  | x :: xs, p, h => by
    unfold dropAll
    split
    · exact (dropVar_same (h x List.mem_cons_self)).trans (dropAll_same xs _ fun y hy => by
        rw [states_dropVar]; exact h y (List.mem_cons_of_mem _ hy))
    · exact dropAll_same xs p fun y hy => h y (List.mem_cons_of_mem _ hy)

theorem mem_vis_head {p : Pass} {xs : List Var} {l : Bool} {rest} (h : p.scopes = (xs, l) :: rest) {x : Var} (hx : x ∈ xs) :
    x ∈ p.vis := by
  simp only [Pass.vis, h, List.flatMap_cons]
  exact List.mem_append_left _ hx

theorem leave_same {c : Ctx} {p0 p : Pass} {b : Nat} {k : Code} (h : AllSet p) : Same p (leave c p0 p b k).1 := by
  unfold leave
  by_cases hs : p.isSealed = true
  · simp only [hs, if_true]; exact ⟨rfl, rfl, rfl, fun _ => rfl⟩
  · simp only [hs]
    have := dropAll_same (c := c) (match p.scopes with
      | [] => []
      | (xs, _) :: _ => xs).reverse p (by
        intro x hx
        rw [List.mem_reverse] at hx
        split at hx
        · cases hx
        · rename_i hsc
          exact h x (mem_vis_head hsc hx))
    exact ⟨this.diag, this.sure, this.relied, this.flags⟩

theorem mergeUpdate_same {vs : List Var} {st : Var → VS} {p : Pass} (h1 : ∀ x ∈ vs, st x = .assigned)
    (h2 : ∀ x ∈ vs, p.states x = .assigned) :
    Same p (mergeUpdate vs st p) ∧ ∀ x ∈ vs, (mergeUpdate vs st p).states x = .assigned := by
  refine ⟨⟨rfl, rfl, rfl, ?_⟩, ?_⟩
  · intro x
    simp only [mergeUpdate]
    split
    · rename_i hx
      have := h2 x hx
      simp only [Pass.states] at this
      simp [h1 x hx, this, join]
    · rfl
  · intro x hx
    rw [states_mergeUpdate _ _ _ hx, h1 x hx, h2 x hx, join_self]

theorem outside_sub : ∀ (sc : List (List Var × Bool)) x, x ∈ outside sc → x ∈ flat sc
  | [], x, h => by cases h
  | (xs, l) :: rest, x, h => by
    simp only [outside] at h
    simp only [flat, List.flatMap_cons]
    split at h
    · exact List.mem_append_right _ h
    · exact List.mem_append_right _ (outside_sub rest x h)

/-- Where a statement stands. -/
structure Calm (c : Ctx) (p : Pass) (V : List Var) : Prop where
  vis : ∀ x, x ∈ V ↔ x ∈ p.vis
  scopes : p.scopes ≠ []
  set : AllSet p
  head : ∀ x ∈ outside p.scopes, c.head x = .assigned

theorem flat_extend_sub (ys : List Var) (l : Bool) {p : Pass} (x : Var) :
    x ∈ p.vis → x ∈ (extend ys (enter p l).scopes).flatMap (·.1) := by
  intro h
  simp only [enter, extend, List.flatMap_cons]
  exact List.mem_append_right _ h

theorem Calm.enter {c : Ctx} {p : Pass} {V : List Var} (h : Calm c p V) (b : Nat) :
    Calm { c with cur := some b } (enter p false) V :=
  ⟨h.vis, by simp [Drop.enter], h.set, h.head⟩

theorem jump_steady (c : Ctx) (p : Pass) (V : List Var) (h : Calm c p V) :
    Same p (jump c p).1 ∧ AllSet (jump c p).1 := by
  have hd := dropAll_same (c := c) (jumpVars false p.scopes) p (by
    intro x hx
    exact h.set x ((jumpVars_sublist p.scopes).subset hx))
  have hk := dropAll_keeps c (jumpVars false p.scopes) p
  have hall : ((outside p.scopes).all fun x => covers (c.head x) (p.tr x).st) = true := by
    rw [List.all_eq_true]
    intro x hx
    have : (p.tr x).st = .assigned := h.set x (outside_sub p.scopes x hx)
    rw [h.head x hx, this]; rfl
  refine ⟨⟨hd.diag, ?_, hd.relied, hd.flags⟩, ?_⟩
  · simp only [jump, hall, Bool.and_true]
    exact hd.sure
  · intro x hx
    have hx' : x ∈ p.vis := (mem_vis (q := p) hk.2.2.1 x).1 hx
    show (dropAll c p (jumpVars false p.scopes)).1.states x = .assigned
    rw [hk.2.1]
    exact h.set x hx'

theorem block_steady {s : Stmt} {c : Ctx} {p : Pass} {b : Nat}
    (h12 : Same (enter p false) (pass { c with cur := some b } (enter p false) s).1 ∧
      AllSet (pass { c with cur := some b } (enter p false) s).1) :
    Same p (leave { c with cur := some b } p (pass { c with cur := some b } (enter p false) s).1 b
      (pass { c with cur := some b } (enter p false) s).2).1 ∧
    (∀ x ∈ p.vis, (leave { c with cur := some b } p (pass { c with cur := some b } (enter p false) s).1 b
      (pass { c with cur := some b } (enter p false) s).2).1.states x = .assigned) ∧
    (leave { c with cur := some b } p (pass { c with cur := some b } (enter p false) s).1 b
      (pass { c with cur := some b } (enter p false) s).2).1.scopes = p.scopes := by
  obtain ⟨h1, h2⟩ := h12
  have hk := (pass_keeps { c with cur := some b } (enter p false) s).2
  have hl := leave_keeps { c with cur := some b } p (pass { c with cur := some b } (enter p false) s).1 b
    (pass { c with cur := some b } (enter p false) s).2
  have h3 := leave_same (c := { c with cur := some b }) (p0 := p) (b := b)
    (k := (pass { c with cur := some b } (enter p false) s).2) h2
  have hent : Same p (enter p false) := ⟨rfl, rfl, rfl, fun _ => rfl⟩
  refine ⟨(hent.trans h1).trans h3, ?_, hl.2.2.1⟩
  intro x hx
  rw [hl.2.1]
  refine h2 x ?_
  simp only [Pass.vis]
  rw [hk]
  exact flat_extend_sub _ _ x hx

mutual
theorem pass_steady : (s : Stmt) → (c : Ctx) → (p : Pass) → (V : List Var) → Calm c p V → Plain V s → Steady s = true →
    Same p (pass c p s).1 ∧ AllSet (pass c p s).1
  | .skip, c, p, V, h, _, _ => ⟨Same.refl p, h.set⟩
  | .seq a b, c, p, V, h, hp, hs => by
    simp only [Plain] at hp
    simp only [Steady, Bool.and_eq_true] at hs
    obtain ⟨h1, h2⟩ := pass_steady a c p V h hp.1 hs.1
    have hk := (pass_keeps c p a).2
    have hne : (pass c p a).1.scopes ≠ [] := by
      rw [hk]
      have := h.scopes
      cases hs : p.scopes with
      | nil => exact absurd hs this
      | cons a r => simp [extend]
    obtain ⟨h3, h4⟩ := pass_steady b c (pass c p a).1 (V ++ declared a) ⟨by
      intro x
      simp only [Pass.vis, hk]
      rw [List.mem_append, h.vis x]
      exact (mem_flat_extend _ h.scopes x).symm, hne, h2, by rw [hk, outside_extend]; exact h.head⟩ hp.2 hs.2
    exact ⟨h1.trans h3, h4⟩
  | .decl x e, c, p, V, h, hp, hs => by
    have hsc : (declare c p x true).scopes = extend [x] p.scopes := by
      simp only [declare]
      cases p.scopes <;> rfl
    have hset : AllSet (declare c p x true) := by
      intro y hy
      simp only [Pass.vis, hsc] at hy
      rcases (flat_extend h.scopes y).1 hy with hy | rfl
      · simp only [Pass.states, declare]
        split
        · rfl
        · exact h.set y hy
      · simp [Pass.states, declare]
    have hsame : Same p (declare c p x true) := by
      refine ⟨rfl, rfl, rfl, ?_⟩
      intro y
      simp only [declare]
      split <;> rfl
    have hv : ∀ e : List Var, (∀ y ∈ e, y ∈ V) → ∀ y ∈ e, y ∈ (declare c p x true).vis := by
      intro e he y hy
      simp only [Pass.vis, hsc]
      exact (flat_extend h.scopes y).2 (.inl ((h.vis y).1 (he y hy)))
    match e, hp, hs with
    | some (.fresh us), hp, _ => exact ⟨hsame.trans (report_same hset (hv us hp.2)), hset⟩
    | some .null, _, _ => exact ⟨hsame, hset⟩
    | some (.var y), hp, _ => exact ⟨hsame.trans (report_same hset (hv [y] hp.2)), hset⟩
  | .assign x e, c, p, V, h, hp, hs => by
    match e, hp, hs with
    | .fresh us, hp, _ =>
      obtain ⟨hx, -, hv, -⟩ := hp
      have hx' : x ∈ p.vis := (h.vis x).1 hx
      have h1 : Same p (report p us) := report_same h.set fun y hy => (h.vis y).1 (hv y hy)
      have hn : (report p us).states x = .assigned := h.set x hx'
      have hneed : needs c ((report p us).tr x) = true := by
        have hn' : ((report p us).tr x).st = .assigned := hn
        simp [needs, hn']
      have heq : (passAssign c p x (.fresh us)).1 = (dropVar c (report p us) x).setSt x .assigned := by
        simp only [passAssign, visit, hneed, if_true]
      simp only [pass]
      rw [heq]
      refine ⟨(h1.trans (dropVar_same (c := c) hn)).trans ?_, ?_⟩
      · refine ⟨rfl, rfl, rfl, ?_⟩
        intro y
        simp only [Pass.setSt]
        split <;> rfl
      · intro y hy
        rw [states_setSt, states_dropVar]
        by_cases hyx : y = x
        · rw [hyx, setAt_same]
        · rw [setAt_ne _ _ hyx]; exact h.set y hy
  | .use us, c, p, V, h, hp, _ => ⟨report_same h.set fun y hy => (h.vis y).1 (hp y hy), h.set⟩
  | .ret e, c, p, V, h, hp, hs => by
    have key : ∀ q : Pass, Same p q → q.scopes = p.scopes → q.states = p.states →
        Same p { (dropAll c q (jumpVars true q.scopes)).1 with isSealed := true } ∧
        AllSet { (dropAll c q (jumpVars true q.scopes)).1 with isSealed := true } := by
      intro q hq hsc hst
      have hd := dropAll_same (c := c) (jumpVars true q.scopes) q (by
        intro x hx
        rw [jumpVars_true, hsc] at hx
        rw [hst]; exact h.set x hx)
      have hk := dropAll_keeps c (jumpVars true q.scopes) q
      refine ⟨⟨hd.diag.trans hq.diag, hd.sure.trans hq.sure, hd.relied.trans hq.relied,
        fun x => (hd.flags x).trans (hq.flags x)⟩, ?_⟩
      intro x hx
      have hx' : x ∈ p.vis := by
        simp only [Pass.vis] at hx ⊢
        rw [hk.2.2.1, hsc] at hx; exact hx
      have := hk.2.1
      show (dropAll c q (jumpVars true q.scopes)).1.states x = .assigned
      rw [this, hst]; exact h.set x hx'
    simp only [pass, passRet_eq]
    match e, hp, hs with
    | none, _, _ => exact key p (Same.refl p) rfl rfl
    | some .null, _, _ => exact key p (Same.refl p) rfl rfl
    | some (.fresh us), hp, _ => exact key (report p us) (report_same h.set fun y hy => (h.vis y).1 (hp y hy)) rfl rfl
  | .brk, c, p, V, h, _, _ => jump_steady c p V h
  | .cont, c, p, V, h, _, _ => jump_steady c p V h
  | .block b s, c, p, V, h, hp, hs => by
    obtain ⟨h1, h2, h3⟩ := block_steady (pass_steady s _ _ V (h.enter b) hp hs)
    simp only [pass]
    obtain ⟨p2, hp2⟩ : ∃ q, leave { c with cur := some b } p (pass { c with cur := some b } (enter p false) s).1 b
      (pass { c with cur := some b } (enter p false) s).2 = q := ⟨_, rfl⟩
    rw [hp2] at h1 h2 h3 ⊢
    obtain ⟨h4, h5⟩ := mergeUpdate_same (vs := p.vis) (st := p2.1.states) (p := p2.1) h2 h2
    refine ⟨h1.trans h4, ?_⟩
    intro x hx
    exact h5 x ((mem_vis h3 x).1 hx)
  | .ite us b s b' s', c, p, V, h, hp, hs => by
    simp only [Plain] at hp
    simp only [Steady, Bool.and_eq_true] at hs
    have h0 : Same p (report p us) := report_same h.set fun y hy => (h.vis y).1 (hp.1 y hy)
    have hc0 : Calm c (report p us) V := ⟨h.vis, h.scopes, h.set, h.head⟩
    obtain ⟨h1, h2, h3⟩ := block_steady (pass_steady s _ _ V (hc0.enter b) hp.2.1 hs.1)
    simp only [pass]
    obtain ⟨p2, hp2⟩ : ∃ q, leave { c with cur := some b } (report p us)
      (pass { c with cur := some b } (enter (report p us) false) s).1 b
      (pass { c with cur := some b } (enter (report p us) false) s).2 = q := ⟨_, rfl⟩
    rw [hp2] at h1 h2 h3 ⊢
    have hsc3 : (restore (report p us).states p2.1).scopes = p.scopes := h3
    have hc3 : Calm c (restore (report p us).states p2.1) V := by
      refine ⟨fun x => (h.vis x).trans (mem_vis hsc3 x).symm, by rw [hsc3]; exact h.scopes, ?_, by rw [hsc3]; exact h.head⟩
      intro x hx
      exact h.set x ((mem_vis hsc3 x).1 hx)
    obtain ⟨h4, h5, h6⟩ := block_steady (pass_steady s' _ _ V (hc3.enter b') hp.2.2 hs.2)
    obtain ⟨p5, hp5⟩ : ∃ q, leave { c with cur := some b' } (restore (report p us).states p2.1)
      (pass { c with cur := some b' } (enter (restore (report p us).states p2.1) false) s').1 b'
      (pass { c with cur := some b' } (enter (restore (report p us).states p2.1) false) s').2 = q := ⟨_, rfl⟩
    rw [hp5] at h4 h5 h6 ⊢
    obtain ⟨h7, h8⟩ := mergeUpdate_same (vs := p.vis) (st := p2.1.states) (p := p5.1) h2
      (fun x hx => h5 x ((mem_vis hsc3 x).2 hx))
    refine ⟨(((h0.trans h1).trans (r := restore (report p us).states p2.1) ⟨rfl, rfl, rfl, fun _ => rfl⟩).trans h4).trans h7, ?_⟩
    intro x hx
    have : p5.1.scopes = p.scopes := h6.trans hsc3
    exact h8 x ((mem_vis (q := p) this x).1 hx)
  | .loop us b s, c, p, V, h, hp, hs => by
    simp only [Plain] at hp
    have h0 : Same p (report p us) := report_same h.set fun y hy => (h.vis y).1 (hp.1 y hy)
    simp only [pass]
    obtain ⟨c', hc'⟩ : ∃ q : Ctx, { c with cur := some b, inLoop := true, head := (report p us).states } = q := ⟨_, rfl⟩
    rw [hc']
    have hhead : c'.head = p.states := by rw [← hc']; rfl
    have hcalm : Calm c' (enter (report p us) true) V := by
      refine ⟨h.vis, by simp [enter], h.set, ?_⟩
      intro x hx
      rw [hhead]
      exact h.set x hx
    obtain ⟨h1, h2⟩ := pass_steady s c' (enter (report p us) true) V hcalm hp.2 hs
    have hk := (pass_keeps c' (enter (report p us) true) s).2
    have hl := leave_keeps c' (report p us) (pass c' (enter (report p us) true) s).1 b
      (pass c' (enter (report p us) true) s).2
    have h3 := leave_same (c := c') (p0 := report p us) (b := b) (k := (pass c' (enter (report p us) true) s).2) h2
    obtain ⟨p2, hp2⟩ : ∃ q, leave c' (report p us) (pass c' (enter (report p us) true) s).1 b
      (pass c' (enter (report p us) true) s).2 = q := ⟨_, rfl⟩
    rw [hp2] at h3 hl ⊢
    have hset2 : ∀ x ∈ p.vis, p2.1.states x = .assigned := by
      intro x hx
      rw [hl.2.1]
      refine h2 x ?_
      simp only [Pass.vis]
      rw [hk]
      exact flat_extend_sub _ _ x hx
    have hsure : (p.vis.all fun x => covers ((report p us).states x) (p2.1.states x)) = true := by
      rw [List.all_eq_true]
      intro x hx
      rw [hset2 x hx]
      have : (report p us).states x = .assigned := h.set x hx
      rw [this]; rfl
    have hsame3 : Same p2.1 (restore (report p us).states { p2.1 with
        sure := p2.1.sure && p.vis.all fun x => covers ((report p us).states x) (p2.1.states x) }) := by
      refine ⟨rfl, ?_, rfl, fun _ => rfl⟩
      simp only [restore, hsure, Bool.and_true]
    obtain ⟨h4, h5⟩ := mergeUpdate_same (vs := p.vis) (st := p2.1.states) (p := restore (report p us).states { p2.1 with
        sure := p2.1.sure && p.vis.all fun x => covers ((report p us).states x) (p2.1.states x) }) hset2
      (fun x hx => h.set x hx)
    have hent : Same (report p us) (enter (report p us) true) := ⟨rfl, rfl, rfl, fun _ => rfl⟩
    refine ⟨((((h0.trans hent).trans h1).trans h3).trans hsame3).trans h4, ?_⟩
    intro x hx
    have hsc : p2.1.scopes = p.scopes := hl.2.2.1
    exact h5 x ((mem_vis (q := p) hsc x).1 hx)
  | .switch us cs, c, p, V, h, hp, hs => by
    simp only [Plain] at hp
    have h0 : Same p (report p us) := report_same h.set fun y hy => (h.vis y).1 (hp.1 y hy)
    have hc0 : Calm c (report p us) V := ⟨h.vis, h.scopes, h.set, h.head⟩
    simp only [pass]
    obtain ⟨h1, h2, h3⟩ := cases_steady cs c (report p us) V (report p us).vis (report p us).states (report p us).states hc0
      (fun x => Iff.rfl) (fun x hx => h.set x hx) (fun x hx => h.set x hx) hp.2 hs
    obtain ⟨⟨p1, acc, ks⟩, hr⟩ : ∃ q, passCases c (report p us).vis (report p us).states (report p us) (report p us).states
      cs = q := ⟨_, rfl⟩
    rw [hr] at h1 h2 h3 ⊢
    dsimp only at h1 h2 h3 ⊢
    have hall : ((report p us).vis.all fun x => covers (acc x) ((report p us).states x)) = true := by
      rw [List.all_eq_true]
      intro x hx
      rw [h2 x hx]
      have : (report p us).states x = .assigned := h.set x hx
      rw [this]; rfl
    have hfil : ((report p us).vis.filter fun x => decide (acc x = .maybe)) = [] := by
      rw [List.filter_eq_nil_iff]
      intro x hx
      rw [h2 x hx]; decide
    refine ⟨(h0.trans h1).trans ⟨rfl, ?_, ?_, ?_⟩, ?_⟩
    · simp only [hall, Bool.and_true]
    · simp only [hfil, List.nil_append]
    · intro x
      dsimp only
      split <;> rfl
    · intro x hx
      have hx' : x ∈ (report p us).vis := (mem_vis (p := p1) (q := report p us) h3 x).1 hx
      simp only [Pass.states, hx', if_true]
      exact h2 x hx'
termination_by structural s => s

theorem cases_steady : (cs : Cases) → (c : Ctx) → (p : Pass) → (V vs : List Var) → (old acc : Var → VS) → Calm c p V →
    (∀ x, x ∈ vs ↔ x ∈ p.vis) → (∀ x ∈ vs, old x = .assigned) → (∀ x ∈ vs, acc x = .assigned) → PlainCases V cs →
    SteadyCases cs = true →
    Same p (passCases c vs old p acc cs).1 ∧
    (∀ x ∈ vs, (passCases c vs old p acc cs).2.1 x = .assigned) ∧
    (passCases c vs old p acc cs).1.scopes = p.scopes
  | .nil, c, p, V, vs, old, acc, h, _, _, ha, _, _ => ⟨Same.refl p, ha, rfl⟩
  | .cons b s cs, c, p, V, vs, old, acc, h, hvs, ho, ha, hp, hs => by
    simp only [PlainCases] at hp
    simp only [SteadyCases, Bool.and_eq_true] at hs
    obtain ⟨h1, h2, h3⟩ := block_steady (pass_steady s _ _ V (h.enter b) hp.1 hs.1)
    simp only [passCases]
    obtain ⟨p2, hp2⟩ : ∃ q, leave { c with cur := some b } p
      (pass { c with cur := some b } (enter p false) s).1 b
      (pass { c with cur := some b } (enter p false) s).2 = q := ⟨_, rfl⟩
    rw [hp2] at h1 h2 h3 ⊢
    have hsc : (restore old p2.1).scopes = p.scopes := h3
    have hv' : ∀ x, x ∈ vs ↔ x ∈ (restore old p2.1).vis := fun x => (hvs x).trans (mem_vis hsc x).symm
    have hacc : ∀ x ∈ vs, joinCase (acc x) (p2.1.states x) = .assigned := by
      intro x hx
      rw [ha x hx, h2 x ((hvs x).1 hx)]; rfl
    obtain ⟨h4, h5, h6⟩ := cases_steady cs c (restore old p2.1) V vs old (fun x => joinCase (acc x) (p2.1.states x))
      ⟨fun x => (h.vis x).trans ((hvs x).symm.trans (hv' x)), by rw [hsc]; exact h.scopes, fun x hx => ho x ((hv' x).2 hx),
        by rw [hsc]; exact h.head⟩ hv' ho hacc hp.2 hs.2
    obtain ⟨⟨p3, r, ks⟩, hr⟩ : ∃ q, passCases c vs old (restore old p2.1) (fun x => joinCase (acc x) (p2.1.states x)) cs = q :=
      ⟨_, rfl⟩
    rw [hr] at h4 h5 h6 ⊢
    dsimp only at h4 h5 h6 ⊢
    have hall : (vs.all fun x => covers (r x) (p2.1.states x)) = true := by
      rw [List.all_eq_true]
      intro x hx
      rw [h5 x hx, h2 x ((hvs x).1 hx)]; rfl
    refine ⟨?_, h5, h6.trans hsc⟩
    refine (h1.trans (r := restore old p2.1) ⟨rfl, rfl, rfl, fun _ => rfl⟩).trans (h4.trans ⟨rfl, ?_, rfl, fun _ => rfl⟩)
    simp only [hall, Bool.and_true]
termination_by structural cs => cs
end

/-- **Functions in which nothing is moved.** With every variable initialised and only new values assigned, every value is destroyed exactly
once, whatever loops, switches, `break`, `continue` and early returns the function has. -/
theorem steady_exactly_once_partial {params : List Var} {b : Nat} {s : Stmt} (hnd : params.Nodup)
    (hp : Plain params s) (hs : Steady s = true) {m m' : Mem} {o : Outcome}
    (hm : Called params m) (he : Exec (manage params b s) m o m') : o ≠ .bad ∧ ∀ t, m'.life t ≠ .live := by
  obtain ⟨c, hcc⟩ : ∃ c : Ctx, c = { inLoop := false, cur := some b, head := fun _ => .uninit } := ⟨_, rfl⟩
  obtain ⟨q, hq⟩ : ∃ q : Pass, q = { start params with scopes := [(params, false)] } := ⟨_, rfl⟩
  have hpb : passBody params b s = leave c (start params) (pass c q s).1 b (pass c q s).2 := by rw [hcc, hq]; rfl
  have hvis : q.vis = params := by rw [hq]; simp [Pass.vis]
  obtain ⟨h1, h2⟩ := pass_steady s c q params ⟨fun x => by rw [hvis], by rw [hq]; simp, by
      intro x hx
      rw [hvis] at hx
      rw [hq]; simp [Pass.states, start, hx], by rw [hq]; intro x hx; simp [outside] at hx⟩ hp hs
  have h3 := h1.trans (leave_same (c := c) (p0 := start params) (b := b) (k := (pass c q s).2) h2)
  rw [← hpb] at h3
  refine managed_exactly_once_partial hnd hp ⟨?_, ?_, ?_, ?_⟩ hm he
  · rw [h3.diag, hq]; rfl
  · rw [h3.sure, hq]; rfl
  · intro x hx
    rw [h3.relied, hq] at hx; cases hx
  · intro x hx
    rw [h3.flags, hq]; simp [start, hx]

/-- `func (p) { while (c) { var y = p; switch (d) { case 1: break  case 2: y = A()  case 3: return } } }` -/
example : ∃ s, Plain [0] s ∧ Steady s = true ∧
    (play 40 [1, 2, 1, 3] (manage [0] 0 s) oneValue).map (fun r => (r.1, r.2.1.life 0, r.2.1.life 1, r.2.1.life 2, r.2.1.life 3)) =
      some (.ret, .dropped, .dropped, .dropped, .dropped) := by
  refine ⟨.loop [] 1 (.seq (.decl 1 (some (.var 0))) (.switch [] (.cons 2 .brk (.cons 3 (.assign 1 (.fresh []))
    (.cons 4 (.ret none) .nil))))), by simp [Plain, PlainCases, declared, Rhs.vars], rfl, by decide +kernel⟩

end Verif.Drop
