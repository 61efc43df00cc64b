import Verif.Lang.Drop.Correct
import Verif.Lang.Drop.Play
/-! Properties of the memory manager. -/
namespace Verif.Drop

/-- A call: the parameters hold values of their own (or null), nothing else is alive. -/
structure Called (params : List Var) (m : Mem) : Prop where
  live : ∀ x ∈ params, ∀ t, m.slot x = some t → m.life t = .live
  apart : ∀ x ∈ params, ∀ y ∈ params, x ≠ y → ∀ t, m.slot x = some t → m.slot y ≠ some t
  held : ∀ t, m.life t = .live → ∃ x ∈ params, m.slot x = some t
  room : ∀ t, m.next ≤ t → m.life t = .unborn

theorem runs_paramFlags {F : Var → Bool} (m : Mem) : ∀ (ps : List Var), (∀ x ∈ ps, F x = false) →
    Runs (paramFlags F ps) m m
  | [], _ => Runs.skip m
  | x :: xs, h => by
    refine Runs.seq (m1 := m) ?_ (runs_paramFlags m xs fun y hy => h y (List.mem_cons_of_mem _ hy))
    unfold setFlag
    rw [if_neg (by rw [h x List.mem_cons_self]; decide)]
    exact Runs.skip m

/-- The pass is content with the function. -/
structure Content (params : List Var) (b : Nat) (s : Stmt) : Prop where
  /-- no use of a variable is reported -/
  quiet : (passBody params b s).1.diag = false
  /-- at jumps, and at the ends of loop bodies and cases, the states cover those met -/
  sure : (passBody params b s).1.sure = true
  /-- what is dropped or merged in an unknown state has a drop flag -/
  relied : ∀ x ∈ (passBody params b s).1.relied, ((passBody params b s).1.tr x).flags = true
  /-- parameters have no drop flags -/
  params : ∀ x ∈ params, ((passBody params b s).1.tr x).flags = false

/-- **Exactly once.** In every execution of the emitted function no value is read, destroyed or handed over after it has been destroyed or handed
over, and when the function ends every value has been destroyed or handed over. -/
theorem managed_exactly_once_partial {params : List Var} {b : Nat} {s : Stmt} (hnd : params.Nodup)
    (hp : Plain params s) (hc : Content params b s) {m m' : Mem} {o : Outcome} (hm : Called params m)
    (he : Exec (manage params b s) m o m') : o ≠ .bad ∧ ∀ t, m'.life t ≠ .live := by
  obtain ⟨F, hF⟩ : ∃ F : Var → Bool, F = fun x => ((passBody params b s).1.tr x).flags := ⟨_, rfl⟩
  have he1 : Exec (.seq (paramFlags F params) (fin F (passBody params b s).2)) m o m' := by rw [hF]; exact he
  have he2 := (runs_paramFlags m params (fun x hx => by rw [hF]; exact hc.params x hx)).then he1
  have hfine : Fine F (passBody params b s).1 :=
    ⟨fun x hx => by rw [hF]; exact hx, hc.quiet, hc.sure, fun x hx => by rw [hF]; exact hc.relied x hx⟩
  obtain ⟨c, hcc⟩ : ∃ c : Ctx, c = { inLoop := false, cur := some b, head := fun _ => .uninit } := ⟨_, rfl⟩
  obtain ⟨q, hq⟩ : ∃ q : Pass, q = { start params with scopes := [(params, false)] } := ⟨_, rfl⟩
  have hpb : passBody params b s = leave c (start params) (pass c q s).1 b (pass c q s).2 := by rw [hcc, hq]; rfl
  rw [hpb] at he2 hfine
  have hvis : q.vis = params := by rw [hq]; simp [Pass.vis]
  have hst : ∀ x ∈ params, q.states x = .assigned := by
    intro x hx; rw [hq]; simp [Pass.states, start, hx]
  have hk := pass_keeps c q s
  have hsc : (pass c q s).1.scopes = (params ++ declared s, false) :: (start params).scopes := by
    rw [hk.2, hq]; rfl
  have hI : Inv F (fun x => x ∈ q.vis) q.states m none := by
    rw [hvis]
    have ho : ∀ x ∈ params, ∀ fl, owned (q.states x) fl = true := by
      intro x hx fl; rw [hst x hx]; rfl
    refine ⟨?_, ?_, ?_, ?_, ?_, ?_, ?_, hm.room⟩
    · intro x hx hf
      have := hc.params x hx
      rw [hF] at hf
      dsimp only at hf
      rw [this] at hf; cases hf
    · intro x hx _ h1; exact absurd (hst x hx) h1
    · intro x hx _; rw [hst x hx]; decide
    · intro x t hx _ h2; exact hm.live x hx t h2
    · intro x y t hx hy hne _ _ h3; exact hm.apart x hx y hy hne t h3
    · intro t ht
      obtain ⟨x, hx, h1⟩ := hm.held t ht
      exact .inl ⟨x, hx, ho x hx _, h1⟩
    · intro t ht; cases ht
  have hH : Here F c q params := by
    refine ⟨fun x => by rw [hvis], by rw [hvis]; exact hnd, by rw [hq]; simp, by rw [hq]; rfl, ?_⟩
    intro x hx
    rw [hq] at hx
    simp [outside] at hx
  have hl := leave_keeps c (start params) (pass c q s).1 b (pass c q s).2
  have hend := sound_block hsc (by
      simp only [Pass.vis, hk.2]
      exact nodup_extend s (by rw [hq]; simp) (fun x => by
        have : flat q.scopes = params := hvis
        rw [this]) (by
        have : flat q.scopes = params := hvis
        rw [this]; exact hnd) hp) hfine
    (fun o m' he => by
      have h1 := pass_sound c q params hH m hI o m' s hp (hfine.mono hl.1) he
      cases o with
      | norm => exact h1
      | brk => simp only [Post] at h1 ⊢; rw [hq] at h1; exact h1
      | cont => simp only [Post] at h1 ⊢; rw [hq] at h1; exact h1
      | ret => exact h1
      | bad => exact h1) he2
  have hnone : ∀ {st m}, Inv F (fun x => x ∈ (start params).vis) st m none → ∀ t, m.life t ≠ .live := by
    intro st m h
    exact (h.congr (V' := fun _ => False) (by intro x; simp [Pass.vis, start])).none_live
  have hnone' : ∀ {st m}, Inv F (fun x => x ∈ outside (([], false) :: (start params).scopes)) st m none →
      ∀ t, m.life t ≠ .live := by
    intro st m h
    exact (h.congr (V' := fun _ => False) (by intro x; simp [outside, start])).none_live
  cases o with
  | norm => exact ⟨by decide, hnone hend⟩
  | brk => exact ⟨by decide, hnone' hend⟩
  | cont => exact ⟨by decide, hnone' hend⟩
  | ret => exact ⟨by decide, hend⟩
  | bad => exact hend.elim

/-- A memory in which variable 0 holds a value. -/
def oneValue : Mem := ⟨fun x => if x = 0 then some 0 else none, fun t => if t = 0 then .live else .unborn, 1, fun _ => false, none⟩

theorem called_oneValue : Called [0] oneValue := by
  refine ⟨?_, ?_, ?_, ?_⟩
  · intro x hx t ht
    simp only [List.mem_singleton] at hx
    subst hx
    simp [oneValue] at ht ⊢
    exact ht.symm
  · intro x hx y hy hne
    simp only [List.mem_singleton] at hx hy
    exact absurd (hx.trans hy.symm) hne
  · intro t ht
    simp [oneValue] at ht ⊢
    exact ht.symm
  · intro t ht
    simp only [oneValue] at ht ⊢
    rw [if_neg (by omega)]

/-- `func (p) { var x = A(); if (c) { f(&&x) }  while (d) { var y = p; if (e) { break }  f(&&y) }  return &&p }` -/
def sample : Stmt :=
  .seq (.decl 1 (some (.fresh []))) (.seq (.ite [] 1 (.give 1) 2 .skip) (.seq
    (.loop [] 3 (.seq (.decl 2 (some (.var 0))) (.seq (.ite [] 4 .brk 5 .skip) (.give 2))))
    (.ret (some (.move 0)))))

example : [0].Nodup ∧ Plain [0] sample ∧ Content [0] 0 sample ∧ Called [0] oneValue ∧
    (play 30 [1, 1, 0, 1, 1] (manage [0] 0 sample) oneValue).map (fun r => (r.1, r.2.1.life 0, r.2.1.life 1, r.2.1.life 2, r.2.1.life 3))
      = some (.ret, .given, .given, .given, .dropped) := by
  refine ⟨by decide, by simp [Plain, sample, declared, Rhs.vars], ⟨by decide +kernel, by decide +kernel, by decide +kernel,
    by decide +kernel⟩, called_oneValue, by decide +kernel⟩

/-! ## Programs with branches but no loops -/

/-- No loops, switches and jumps out of loops. -/
def Branches : Stmt → Bool
  | .seq a b => Branches a && Branches b
  | .block _ s => Branches s
  | .ite _ _ s _ s' => Branches s && Branches s'
  | .loop _ _ _ => false
  | .switch _ _ => false
  | .brk => false
  | .cont => false
  | _ => true

theorem needs_outside {c : Ctx} (hc : c.inLoop = false) (t : Trace) :
    needs c t = decide (t.st = .maybe ∨ t.st = .assigned) := by simp [needs, hc]

theorem dropVar_sure {c : Ctx} (hc : c.inLoop = false) {p : Pass} {x : Var} (h : needs c (p.tr x) = true) :
    (dropVar c p x).relied = p.relied := by
  rw [needs_outside hc, decide_eq_true_eq] at h
  simp [dropVar, h]

theorem dropAll_sure {c : Ctx} (hc : c.inLoop = false) : ∀ (xs : List Var) (p : Pass),
    (dropAll c p xs).1.sure = p.sure ∧ (dropAll c p xs).1.relied = p.relied
  | [], p => ⟨rfl, rfl⟩
  | x :: xs, p => by
    unfold dropAll
    split
    · rename_i h
      obtain ⟨h1, h2⟩ := dropAll_sure hc xs (dropVar c p x)
      exact ⟨h1, h2.trans (dropVar_sure hc h)⟩
    · exact dropAll_sure hc xs p

theorem leave_sure {c : Ctx} (hc : c.inLoop = false) (p0 p : Pass) (b : Nat) (k : Code) :
    (leave c p0 p b k).1.sure = p.sure ∧ (leave c p0 p b k).1.relied = p.relied := by
  unfold leave
  by_cases h : p.isSealed = true
  · simp [h]
  · simp only [h]
    exact dropAll_sure hc _ p

theorem pass_sure : ∀ (s : Stmt) (c : Ctx) (p : Pass), c.inLoop = false → Branches s = true →
    (pass c p s).1.sure = p.sure ∧ (pass c p s).1.relied = p.relied
  | .skip, c, p, _, _ => ⟨rfl, rfl⟩
  | .seq a b, c, p, hc, hb => by
    simp only [Branches, Bool.and_eq_true] at hb
    obtain ⟨h1, h2⟩ := pass_sure a c p hc hb.1
    obtain ⟨h3, h4⟩ := pass_sure b c (pass c p a).1 hc hb.2
    exact ⟨h3.trans h1, h4.trans h2⟩
  | .decl x e, c, p, hc, _ => by
    match e with
    | none => exact ⟨rfl, rfl⟩
    | some (.fresh us) => exact ⟨rfl, rfl⟩
    | some .null => exact ⟨rfl, rfl⟩
    | some (.var y) => exact ⟨rfl, rfl⟩
    | some (.move y) => exact ⟨rfl, rfl⟩
  | .assign x e, c, p, hc, _ => by
    have h1 : ∀ q : Pass, (if needs c (q.tr x) then dropVar c q x else q).sure = q.sure ∧
        (if needs c (q.tr x) then dropVar c q x else q).relied = q.relied := by
      intro q; split
      · rename_i h; exact ⟨rfl, dropVar_sure hc h⟩
      · exact ⟨rfl, rfl⟩
    cases e with
    | fresh us => exact h1 (visit p (.fresh us))
    | null => exact h1 p
    | var y => exact h1 (visit p (.var y))
    | move y => exact h1 (visit p (.move y))
  | .use us, c, p, _, _ => ⟨rfl, rfl⟩
  | .give x, c, p, _, _ => ⟨rfl, rfl⟩
  | .ret e, c, p, hc, _ => by
    simp only [pass, passRet_eq]
    obtain ⟨h1, h2⟩ := dropAll_sure hc (jumpVars true (retStart c p e).1.scopes) (retStart c p e).1
    refine ⟨h1.trans ?_, h2.trans ?_⟩
    · match e with
      | none => rfl
      | some .null => rfl
      | some (.fresh us) => rfl
      | some (.move y) => rfl
      | some (.var y) =>
        have : needs c (((report p [y]).setSt y .moved).tr y) = false := by
          rw [needs_outside hc]; simp [Pass.setSt]
        simp only [retStart, this]
        simp [Pass.setSt, report]
    · match e with
      | none => rfl
      | some .null => rfl
      | some (.fresh us) => rfl
      | some (.move y) => rfl
      | some (.var y) => rfl
  | .block b s, c, p, hc, hb => by
    obtain ⟨h1, h2⟩ := pass_sure s { c with cur := some b } (enter p false) hc hb
    obtain ⟨h3, h4⟩ := leave_sure (c := { c with cur := some b }) hc p (pass { c with cur := some b } (enter p false) s).1 b
      (pass { c with cur := some b } (enter p false) s).2
    exact ⟨h3.trans h1, h4.trans h2⟩
  | .ite us b s b' s', c, p, hc, hb => by
    simp only [Branches, Bool.and_eq_true] at hb
    obtain ⟨h1, h2⟩ := pass_sure s { c with cur := some b } (enter (report p us) false) hc hb.1
    obtain ⟨h3, h4⟩ := leave_sure (c := { c with cur := some b }) hc (report p us)
      (pass { c with cur := some b } (enter (report p us) false) s).1 b
      (pass { c with cur := some b } (enter (report p us) false) s).2
    simp only [pass]
    obtain ⟨p2, hp2⟩ : ∃ q, (leave { c with cur := some b } (report p us)
      (pass { c with cur := some b } (enter (report p us) false) s).1 b
      (pass { c with cur := some b } (enter (report p us) false) s).2).1 = q := ⟨_, rfl⟩
    rw [hp2] at h3 h4 ⊢
    obtain ⟨h5, h6⟩ := pass_sure s' { c with cur := some b' } (enter (restore (report p us).states p2) false) hc hb.2
    obtain ⟨h7, h8⟩ := leave_sure (c := { c with cur := some b' }) hc (restore (report p us).states p2)
      (pass { c with cur := some b' } (enter (restore (report p us).states p2) false) s').1 b'
      (pass { c with cur := some b' } (enter (restore (report p us).states p2) false) s').2
    exact ⟨((h7.trans h5).trans h3).trans h1, ((h8.trans h6).trans h4).trans h2⟩
  | .loop _ _ _, _, _, _, hb => by cases hb
  | .switch _ _, _, _, _, hb => by cases hb
  | .brk, _, _, _, hb => by cases hb
  | .cont, _, _, _, hb => by cases hb

/-- **Functions without loops.** If no use of a variable is reported and no parameter is moved on some paths only, every value is destroyed or
handed over exactly once. -/
theorem branching_exactly_once_partial {params : List Var} {b : Nat} {s : Stmt} (hnd : params.Nodup)
    (hp : Plain params s) (hb : Branches s = true) (hq : (passBody params b s).1.diag = false)
    (hpar : ∀ x ∈ params, ((passBody params b s).1.tr x).flags = false) {m m' : Mem} {o : Outcome}
    (hm : Called params m) (he : Exec (manage params b s) m o m') : o ≠ .bad ∧ ∀ t, m'.life t ≠ .live := by
  obtain ⟨h1, h2⟩ := pass_sure s { inLoop := false, cur := some b, head := fun _ => .uninit }
    { start params with scopes := [(params, false)] } rfl hb
  obtain ⟨h3, h4⟩ := leave_sure (c := { inLoop := false, cur := some b, head := fun _ => .uninit }) rfl (start params)
    (pass { inLoop := false, cur := some b, head := fun _ => .uninit } { start params with scopes := [(params, false)] } s).1 b
    (pass { inLoop := false, cur := some b, head := fun _ => .uninit } { start params with scopes := [(params, false)] } s).2
  refine managed_exactly_once_partial hnd hp ⟨hq, h3.trans h1, ?_, hpar⟩ hm he
  intro x hx
  have : (passBody params b s).1.relied = [] := h4.trans h2
  rw [this] at hx
  cases hx

/-- `func (p) { var x; if (c) { x = &&p; f(&&x) } else { f(&&p) ; x = A() } g() }` -/
example : ∃ s, Plain [0] s ∧ Branches s = true ∧ (passBody [0] 0 s).1.diag = false ∧
    (∀ x ∈ [0], ((passBody [0] 0 s).1.tr x).flags = false) ∧
    (play 30 [1] (manage [0] 0 s) oneValue).map (fun r => (r.1, r.2.1.life 0)) = some (.norm, .given) ∧
    (play 30 [0] (manage [0] 0 s) oneValue).map (fun r => (r.1, r.2.1.life 0, r.2.1.life 1)) =
      some (.norm, .given, .dropped) := by
  refine ⟨.seq (.decl 1 none) (.seq (.ite [] 1 (.seq (.assign 1 (.move 0)) (.give 1)) 2 (.seq (.give 0)
    (.assign 1 (.fresh [])))) (.use [])), by simp [Plain, declared, Rhs.vars], rfl, by decide +kernel, by decide +kernel,
    by decide +kernel, by decide +kernel⟩

end Verif.Drop
