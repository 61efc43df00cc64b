import Verif.Lang.Drop.Sound
/-! Blocks, conditionals, loops and cases, and the induction over programs. -/
namespace Verif.Drop

variable {F : Var → Bool}

theorem fin_leave (c : Ctx) (p0 p : Pass) (b : Nat) (k : Code) :
    fin F (leave c p0 p b k).2 = .block b (.seq (fin F k) (fin F (if p.isSealed then (p, Code.skip) else
      dropAll c p (match p.scopes with
        | [] => []
        | (xs, _) :: _ => xs).reverse).2)) := rfl

/-- What holds after a statement: `N` at the end, `J` at a jump, `R` at a return. -/
def Ends (N J R : Mem → Prop) (m' : Mem) : Outcome → Prop
  | .norm => N m'
  | .brk => J m'
  | .cont => J m'
  | .ret => R m'
  | .bad => False

/-- A block whose statements are sound. -/
theorem sound_block {c : Ctx} {p0 p1 : Pass} {b : Nat} {k : Code} {l : Bool} {xs : List Var}
    (hsc : p1.scopes = (xs, l) :: p0.scopes) (hnd : p1.vis.Nodup) (hf : Fine F (leave c p0 p1 b k).1)
    {m : Mem} {o : Outcome} {m' : Mem}
    (hbody : ∀ o m', Exec (fin F k) m o m' → Post F c (enter p0 l) p1 m' o)
    (he : Exec (fin F (leave c p0 p1 b k).2) m o m') :
    Ends (fun m' => Inv F (fun x => x ∈ p0.vis) (leave c p0 p1 b k).1.states m' none)
      (fun m' => Inv F (fun x => x ∈ outside (([], l) :: p0.scopes)) c.head m' none)
      (fun m' => ∀ t, m'.life t ≠ .live) m' o := by
  rw [fin_leave, exec_block, exec_seq] at he
  rcases he with ⟨m1, h1, h2⟩ | ⟨hn, h1⟩
  · obtain ⟨hsealed, hI⟩ := hbody _ _ h1
    rw [hsealed] at h2
    simp only [Bool.false_eq_true, if_false, hsc] at h2
    have hvis : p1.vis = xs ++ p0.vis := by simp only [Pass.vis, hsc, List.flatMap_cons]
    rw [hvis, List.nodup_append] at hnd
    have hrel : ∀ x, x ∈ (Drop.dropAll c p1 xs.reverse).1.relied → F x = true := by
      intro x hx
      refine hf.relied x ?_
      simp only [leave, hsealed, Bool.false_eq_true, if_false, hsc]
      exact hx
    obtain ⟨m2, hrun, h3, -⟩ := Inv.dropAll (c := c) xs.reverse p1 hI (List.Pairwise.imp (fun h => Ne.symm h) (List.pairwise_reverse.2 (hnd.1.imp fun h => Ne.symm h)) |>.imp Ne.symm) hrel
      (fun _ _ _ => rfl) (fun x hx _ => by rw [hvis]; exact List.mem_append_left _ (List.mem_reverse.1 hx))
    obtain ⟨rfl, rfl⟩ := (hrun _ _).1 h2
    simp only [Ends]
    rw [(leave_keeps c p0 p1 b k).2.1]
    refine h3.congr ?_
    intro x
    rw [hvis, List.mem_reverse, List.mem_append]
    constructor
    · intro hx; exact ⟨.inr hx, fun hh => hnd.2.2 x hh x hx rfl⟩
    · rintro ⟨hx | hx, hn⟩
      · exact absurd hx hn
      · exact hx
  · have hp := hbody _ _ h1
    cases o with
    | norm => exact absurd rfl hn
    | brk => exact hp
    | cont => exact hp
    | ret => exact hp
    | bad => exact hp

theorem covers_join_left (a b : VS) : covers (join a b) a = true := by cases a <;> cases b <;> decide
theorem covers_join_right (a b : VS) : covers (join a b) b = true := by cases a <;> cases b <;> decide
theorem covers_refl (a : VS) : covers a a = true := by cases a <;> decide
theorem join_self (a : VS) : join a a = a := by simp [join]

theorem states_mergeUpdate (vs : List Var) (st : Var → VS) (p : Pass) {x : Var} (hx : x ∈ vs) :
    (mergeUpdate vs st p).states x = join (st x) (p.states x) := by
  simp [Pass.states, mergeUpdate, hx]

/-- After merging, the states are covered and every variable in an unknown state has a flag. -/
theorem Inv.merge {V : List Var} {st st' : Var → VS} {p : Pass} {m : Mem}
    (hf : Fine F (mergeUpdate V st' p)) (h : Inv F (fun x => x ∈ V) st m none)
    (hst : ∀ x ∈ V, st x = st' x ∨ st x = p.states x) :
    Inv F (fun x => x ∈ V) (mergeUpdate V st' p).states m none := by
  refine h.weaken ?_ ?_
  · intro x hx
    rw [states_mergeUpdate _ _ _ hx]
    rcases hst x hx with h1 | h1
    · rw [h1]; exact covers_join_left _ _
    · rw [h1]; exact covers_join_right _ _
  · intro x hx hm
    refine hf.flags x ?_
    rw [states_mergeUpdate _ _ _ hx] at hm
    have hm' : join (st' x) (p.tr x).st = .maybe := hm
    simp [mergeUpdate, hx, hm']

theorem exec_ite {us b s b' s' m o m'} (hr : us.all (readable m) = true) :
    Exec (.ite us b s b' s') m o m' ↔ Exec s m o m' ∨ Exec s' m o m' := by
  constructor
  · intro h
    cases h with
    | iteThen _ h => exact .inl h
    | iteElse _ h => exact .inr h
    | iteBad h => rw [hr] at h; cases h
  · rintro (h | h)
    · exact .iteThen hr h
    · exact .iteElse hr h

/-- Loops: an invariant of the body is one of the loop. -/
theorem exec_loop {us : List Var} {b : Nat} {k : Code} {I : Mem → Prop} {R : Mem → Prop}
    (hr : ∀ m, I m → us.all (readable m) = true)
    (hb : ∀ m o m', I m → Exec k m o m' → Ends I I R m' o) :
    ∀ {m o m'}, Exec (.loop us b k) m o m' → I m → Ends I (fun _ => False) R m' o := by
  intro m o m' he
  generalize hk : Code.loop us b k = code at he
  induction he with
  | loopEnd h => intro hI; exact hI
  | loopBad h =>
    intro hI
    cases hk
    rw [hr _ hI] at h; cases h
  | loopNext _ h1 ho _ _ ih =>
    intro hI
    cases hk
    refine ih rfl ?_
    have := hb _ _ _ hI h1
    rcases ho with rfl | rfl <;> exact this
  | loopBreak _ h1 _ =>
    intro hI
    cases hk
    exact hb _ _ _ hI h1
  | loopStop _ h1 ho _ =>
    intro hI
    cases hk
    have := hb _ _ _ hI h1
    rcases ho with rfl | rfl
    · exact this
    · exact this
  | _ => cases hk

theorem exec_switch {us cs m o m'} (hr : us.all (readable m) = true) :
    Exec (.switch us cs) m o m' ↔ (o = .norm ∧ m' = m) ∨ ∃ k ∈ cs.bodies, Exec k m o m' := by
  constructor
  · intro h
    cases h with
    | switchNone _ => exact .inl ⟨rfl, rfl⟩
    | switchBad h => rw [hr] at h; cases h
    | switchCase _ h1 h2 => exact .inr ⟨_, h1, h2⟩
  · rintro (⟨rfl, rfl⟩ | ⟨k, h1, h2⟩)
    · exact .switchNone hr
    · exact .switchCase hr h1 h2

theorem passCases_sealed (c : Ctx) (vs : List Var) (old : Var → VS) : ∀ (cs : Cases) (p : Pass) (acc : Var → VS),
    (passCases c vs old p acc cs).1.isSealed = p.isSealed
  | .nil, _, _ => by simp only [passCases]
  | .cons b s cs, p, acc => by
    simp only [passCases]
    rw [passCases_sealed c vs old cs]
    exact (leave_keeps { c with cur := some b } p (pass { c with cur := some b } (enter p false) s).1 b
      (pass { c with cur := some b } (enter p false) s).2).2.2.2

theorem mem_vis {p q : Pass} (h : p.scopes = q.scopes) (x : Var) : x ∈ p.vis ↔ x ∈ q.vis := by
  simp only [Pass.vis, h]

/-- The hypotheses on the place of a statement. -/
structure Here (F : Var → Bool) (c : Ctx) (p : Pass) (V : List Var) : Prop where
  vis : ∀ x, x ∈ V ↔ x ∈ p.vis
  nodup : p.vis.Nodup
  scopes : p.scopes ≠ []
  unsealed : p.isSealed = false
  head : ∀ x ∈ outside p.scopes, c.head x = .maybe → F x = true

theorem Here.enter {c : Ctx} {p : Pass} {V : List Var} {b : Nat} (h : Here F c p V) :
    Here F { c with cur := some b } (Drop.enter p false) V where
  vis := h.vis
  nodup := h.nodup
  scopes := by simp [Drop.enter]
  unsealed := rfl
  head := h.head

theorem Here.report {c : Ctx} {p : Pass} {V : List Var} (h : Here F c p V) (us : List Var) :
    Here F c (report p us) V := ⟨h.vis, h.nodup, h.scopes, h.unsealed, h.head⟩

mutual
theorem pass_sound (c : Ctx) (p : Pass) (V : List Var) (hH : Here F c p V) (m : Mem)
    (hI : Inv F (fun x => x ∈ p.vis) p.states m none) (o : Outcome) (m' : Mem) : (s : Stmt) → Plain V s →
    Fine F (pass c p s).1 → Exec (fin F (pass c p s).2) m o m' → Post F c p (pass c p s).1 m' o
  | .skip, _, _, he => by
    obtain ⟨rfl, rfl⟩ := exec_skip.1 he
    exact ⟨hH.unsealed, hI⟩
  | .seq a b, hp, hf, he => by
    simp only [pass] at hf he ⊢
    simp only [fin] at he
    simp only [Plain] at hp
    have hk1 := pass_keeps c p a
    have hk2 := pass_keeps c (pass c p a).1 b
    have hf1 : Fine F (pass c p a).1 := hf.mono hk2.1
    rw [exec_seq] at he
    rcases he with ⟨m1, h1, h2⟩ | ⟨hn, h1⟩
    · have hp1 := pass_sound c p V hH m hI .norm m1 a hp.1 hf1 h1
      have hne : (pass c p a).1.scopes ≠ [] := by
        rw [hk1.2]
        have := hH.scopes
        cases hs : p.scopes with
        | nil => exact absurd hs this
        | cons a r => simp [extend]
      have hH1 : Here F c (pass c p a).1 (V ++ declared a) := by
        refine ⟨?_, ?_, hne, hp1.1, ?_⟩
        · intro x
          simp only [Pass.vis, hk1.2]
          rw [List.mem_append, hH.vis x]
          exact (mem_flat_extend _ hH.scopes x).symm
        · simp only [Pass.vis, hk1.2]
          exact nodup_extend a hH.scopes hH.vis hH.nodup hp.1
        · rw [hk1.2, outside_extend]; exact hH.head
      have hp2 := pass_sound c (pass c p a).1 (V ++ declared a) hH1 m1 hp1.2 o m' b hp.2 hf h2
      cases o with
      | norm => exact hp2
      | brk => simp only [Post] at hp2 ⊢; rw [hk1.2, outside_extend] at hp2; exact hp2
      | cont => simp only [Post] at hp2 ⊢; rw [hk1.2, outside_extend] at hp2; exact hp2
      | ret => exact hp2
      | bad => exact hp2
    · have hp1 := pass_sound c p V hH m hI o m' a hp.1 hf1 h1
      cases o with
      | norm => exact absurd rfl hn
      | brk => exact hp1
      | cont => exact hp1
      | ret => exact hp1
      | bad => exact hp1
  | .decl x e, hp, hf, he => by
    obtain ⟨m1, hrun, h1⟩ := sound_decl hp hH.vis hH.scopes hf hI
    obtain ⟨rfl, rfl⟩ := (hrun _ _).1 he
    refine ⟨?_, h1⟩
    have : (passDecl c p x e).1.isSealed = p.isSealed := by
      match e with
      | none => rfl
      | some (.fresh us) => rfl
      | some .null => rfl
      | some (.var y) => rfl
      | some (.move y) => rfl
    exact this.trans hH.unsealed
  | .assign x e, hp, hf, he => by
    obtain ⟨m1, hrun, h1⟩ := sound_assign hp hH.vis hf hI
    obtain ⟨rfl, rfl⟩ := (hrun _ _).1 he
    refine ⟨?_, h1⟩
    have h2 : ∀ q : Pass, (if needs c (q.tr x) then dropVar c q x else q).isSealed = q.isSealed := by
      intro q; split <;> rfl
    have : (passAssign c p x e).1.isSealed = p.isSealed := by
      cases e <;> exact h2 _
    exact this.trans hH.unsealed
  | .use us, hp, hf, he => by
    have hs := report_clear (p := p) (us := us) hf.diag
    have hrun : Runs (.act (.use us)) m m := by
      refine Runs.act ?_
      simp only [act]
      rw [if_pos (hI.readAll (fun y hy => (hH.vis y).1 (hp y hy)) hs)]
    obtain ⟨rfl, rfl⟩ := (hrun _ _).1 he
    exact ⟨hH.unsealed, hI⟩
  | .give x, hp, hf, he => by
    obtain ⟨m1, hrun, h1⟩ := sound_give ((hH.vis x).1 hp) hf hI
    obtain ⟨rfl, rfl⟩ := (hrun _ _).1 he
    exact ⟨hH.unsealed, h1⟩
  | .ret e, hp, hf, he => by
    obtain ⟨rfl, h1⟩ := sound_ret hp hH.vis hH.nodup hf hI he
    exact h1
  | .brk, _, hf, he => by
    simp only [pass] at hf he
    obtain ⟨m1, hrun, h1⟩ := sound_jump hH.nodup hf hH.head hI
    have he1 := hrun.then he
    cases he1
    exact h1
  | .cont, _, hf, he => by
    simp only [pass] at hf he
    obtain ⟨m1, hrun, h1⟩ := sound_jump hH.nodup hf hH.head hI
    have he1 := hrun.then he
    cases he1
    exact h1
  | .block b s, hp, hf, he => by
    simp only [pass] at hf he ⊢
    have hf2 := hf.mono (mono_mergeUpdate _ _ _)
    have hl := leave_keeps { c with cur := some b } p (pass { c with cur := some b } (enter p false) s).1 b
      (pass { c with cur := some b } (enter p false) s).2
    have hk := pass_keeps { c with cur := some b } (enter p false) s
    have h1 := sound_block (xs := declared s) (l := false) (p0 := p) hk.2 (by
        simp only [Pass.vis, hk.2]
        exact nodup_extend s (by simp [enter]) hH.vis hH.nodup hp) hf2
      (fun o m' => pass_sound _ _ V hH.enter m hI o m' s hp (hf2.mono hl.1)) he
    cases o with
    | norm =>
      refine ⟨hl.2.2.2.trans hH.unsealed, ?_⟩
      have h2 := Inv.merge hf h1 (fun x _ => .inl rfl)
      exact h2.congr (mem_vis hl.2.2.1)
    | brk => exact h1
    | cont => exact h1
    | ret => exact h1
    | bad => exact h1
  | .ite us b s b' s', hp, hf, he => by
    simp only [Plain] at hp
    simp only [pass] at hf he ⊢
    have hk1 := pass_keeps { c with cur := some b } (enter (report p us) false) s
    have hl1 := leave_keeps { c with cur := some b } (report p us)
      (pass { c with cur := some b } (enter (report p us) false) s).1 b
      (pass { c with cur := some b } (enter (report p us) false) s).2
    have hb1 := fun hff => sound_block (F := F) (c := { c with cur := some b }) (b := b) (m := m) (o := o) (m' := m')
      (k := (pass { c with cur := some b } (enter (report p us) false) s).2)
      (xs := declared s) (l := false) (p0 := report p us) hk1.2 (by
        simp only [Pass.vis, hk1.2]
        exact nodup_extend s (by simp [enter]) hH.vis hH.nodup hp.2.1) hff
      (fun o m' => pass_sound _ _ V (hH.report us).enter m hI o m' s hp.2.1 (hff.mono hl1.1))
    obtain ⟨p2, hp2⟩ : ∃ q, leave { c with cur := some b } (report p us)
      (pass { c with cur := some b } (enter (report p us) false) s).1 b
      (pass { c with cur := some b } (enter (report p us) false) s).2 = q := ⟨_, rfl⟩
    rw [hp2] at hf he hl1 hb1 ⊢
    have hH3 : Here F c (restore (report p us).states p2.1) V := by
      refine ⟨?_, ?_, ?_, ?_, ?_⟩
      · intro x; simp only [Pass.vis, restore, hl1.2.2.1]; exact hH.vis x
      · simp only [Pass.vis, restore, hl1.2.2.1]; exact hH.nodup
      · simp only [restore, hl1.2.2.1]; exact hH.scopes
      · simp only [restore, hl1.2.2.2]; exact hH.unsealed
      · simp only [restore, hl1.2.2.1]; exact hH.head
    have hI3 : Inv F (fun x => x ∈ (restore (report p us).states p2.1).vis) (restore (report p us).states p2.1).states m
        none := by
      refine hI.congr ?_
      intro x; simp only [Pass.vis, restore, hl1.2.2.1]; rfl
    have hk2 := pass_keeps { c with cur := some b' } (enter (restore (report p us).states p2.1) false) s'
    have hl2 := leave_keeps { c with cur := some b' } (restore (report p us).states p2.1)
      (pass { c with cur := some b' } (enter (restore (report p us).states p2.1) false) s').1 b'
      (pass { c with cur := some b' } (enter (restore (report p us).states p2.1) false) s').2
    have hf5 := hf.mono (mono_mergeUpdate _ _ _)
    have hf4 := hf5.mono hl2.1
    have hf2 : Fine F p2.1 := hf4.mono (((mono_restore _ _).trans (mono_enter _ false)).trans hk2.1)
    have hb2 := sound_block (F := F) (c := { c with cur := some b' }) (b := b') (m := m) (o := o) (m' := m')
      (k := (pass { c with cur := some b' } (enter (restore (report p us).states p2.1) false) s').2)
      (xs := declared s') (l := false) (p0 := restore (report p us).states p2.1) hk2.2 (by
        simp only [Pass.vis, hk2.2]
        exact nodup_extend s' (by simp [enter]) hH3.vis hH3.nodup hp.2.2) hf5
      (fun o m' => pass_sound _ _ V hH3.enter m hI3 o m' s' hp.2.2 hf4)
    have hb1 := hb1 hf2
    have hsc5 := hl2.2.2.1
    have hse5 := hl2.2.2.2
    obtain ⟨p5, hp5⟩ : ∃ q, leave { c with cur := some b' } (restore (report p us).states p2.1)
      (pass { c with cur := some b' } (enter (restore (report p us).states p2.1) false) s').1 b'
      (pass { c with cur := some b' } (enter (restore (report p us).states p2.1) false) s').2 = q := ⟨_, rfl⟩
    rw [hp5] at hf he hb2 hsc5 hse5 ⊢
    have hread : us.all (readable m) = true := by
      have hf0 : Fine F (report p us) := hf2.mono (((mono_enter _ false).trans hk1.1).trans hl1.1)
      exact hI.readAll (fun y hy => (hH.vis y).1 (hp.1 y hy)) (report_clear hf0.diag)
    have hsc : p5.1.scopes = p.scopes := hsc5.trans hl1.2.2.1
    simp only [fin] at he
    rw [exec_ite hread] at he
    have hvis : ∀ x, x ∈ (mergeUpdate p.vis p2.1.states p5.1).vis ↔ x ∈ p.vis := by
      exact mem_vis hsc
    have hout : outside (restore (report p us).states p2.1).scopes = outside p.scopes := by
      simp only [restore, hl1.2.2.1]; rfl
    rcases he with he | he
    · have h1 := hb1 he
      cases o with
      | norm =>
        refine ⟨(hse5.trans hl1.2.2.2).trans hH.unsealed, ?_⟩
        exact (Inv.merge hf h1 (fun x _ => .inl rfl)).congr hvis
      | brk => exact h1
      | cont => exact h1
      | ret => exact h1
      | bad => exact h1
    · have h1 := hb2 he
      cases o with
      | norm =>
        refine ⟨(hse5.trans hl1.2.2.2).trans hH.unsealed, ?_⟩
        have h1' : Inv F (fun x => x ∈ p.vis) p5.1.states m' none := by
          refine Inv.congr h1 ?_
          intro x; simp only [Pass.vis, restore, hl1.2.2.1]; rfl
        exact (Inv.merge hf h1' (fun x _ => .inr rfl)).congr hvis
      | brk => simp only [Ends, outside, Bool.false_eq_true, if_false] at h1; rw [hout] at h1; exact h1
      | cont => simp only [Ends, outside, Bool.false_eq_true, if_false] at h1; rw [hout] at h1; exact h1
      | ret => exact h1
      | bad => exact h1
  | .loop us b s, hp, hf, he => by
    simp only [Plain] at hp
    simp only [pass] at hf he ⊢
    simp only [fin] at he
    obtain ⟨c', hc'⟩ : ∃ q : Ctx, { c with cur := some b, inLoop := true, head := (report p us).states } = q := ⟨_, rfl⟩
    rw [hc'] at hf he ⊢
    have hhead : c'.head = p.states := by rw [← hc']; rfl
    have hk := pass_keeps c' (enter (report p us) true) s
    have hl := leave_keeps c' (report p us) (pass c' (enter (report p us) true) s).1 b
      (pass c' (enter (report p us) true) s).2
    have hF : ∀ x ∈ p.vis, p.states x = .maybe → F x = true := by
      intro x hx hm
      cases hF : F x with
      | true => rfl
      | false => exact absurd hm (hI.known x hx hF)
    have hH1 : Here F c' (enter (report p us) true) V :=
      ⟨hH.vis, hH.nodup, by simp [enter], rfl, by
        intro x hx
        rw [hhead]
        exact hF x hx⟩
    have hfl := (hf.mono (mono_mergeUpdate _ _ _)).mono (mono_restore _ _)
    have hfl' := hfl.mono (mono_sure _ _)
    have hbody := fun m (hI : Inv F (fun x => x ∈ p.vis) p.states m none) o m' => sound_block (F := F) (c := c') (b := b)
      (m := m) (o := o) (m' := m') (k := (pass c' (enter (report p us) true) s).2)
      (xs := declared s) (l := true) (p0 := report p us) hk.2 (by
        simp only [Pass.vis, hk.2]
        exact nodup_extend s (by simp [enter]) hH.vis hH.nodup hp.2) hfl'
      (fun o m' => pass_sound _ _ V hH1 m hI o m' s hp.2 (hfl'.mono hl.1))
    have hsure := hfl.sure
    obtain ⟨p2, hp2⟩ : ∃ q, leave c' (report p us) (pass c' (enter (report p us) true) s).1 b
      (pass c' (enter (report p us) true) s).2 = q := ⟨_, rfl⟩
    rw [hp2] at hf he hl hbody hfl hfl' hsure ⊢
    simp only [Bool.and_eq_true, List.all_eq_true] at hsure
    have hf0 : Fine F (report p us) := (hfl'.mono hl.1).mono ((mono_enter _ true).trans hk.1)
    have hloop := exec_loop (k := fin F p2.2) (us := us) (b := b) (I := fun m => Inv F (fun x => x ∈ p.vis) p.states m none)
      (R := fun m => ∀ t, m.life t ≠ .live)
      (fun m hI => hI.readAll (fun y hy => (hH.vis y).1 (hp.1 y hy)) (report_clear hf0.diag))
      (fun m o m' hI he => by
        have h1 := hbody m hI o m' he
        cases o with
        | norm => exact Inv.weaken h1 hsure.2 hF
        | brk => simp only [Ends] at h1; rw [hhead] at h1; exact h1
        | cont => simp only [Ends] at h1; rw [hhead] at h1; exact h1
        | ret => exact h1
        | bad => exact h1) he hI
    cases o with
    | norm =>
      refine ⟨hl.2.2.2.trans hH.unsealed, ?_⟩
      have h2 := Inv.merge hf hloop (fun x _ => .inr rfl)
      refine h2.congr ?_
      intro x
      simp only [Pass.vis, mergeUpdate, restore, hl.2.2.1]
      rfl
    | brk => exact hloop.elim
    | cont => exact hloop.elim
    | ret => exact hloop
    | bad => exact hloop
  | .switch us cs, hp, hf, he => by
    simp only [Plain] at hp
    simp only [pass] at hf he ⊢
    simp only [fin] at he
    have hk := passCases_keeps c (report p us).vis (report p us).states (report p us) (report p us).states cs
    have hseal := passCases_sealed c (report p us).vis (report p us).states cs (report p us) (report p us).states
    have hc := fun hff hmay => cases_sound c (report p us) V (hH.report us) m hI o m' (report p us).vis (report p us).states
      (report p us).states rfl (fun _ => Iff.rfl) cs hp.2 hff hmay
    obtain ⟨⟨p1, acc, ks⟩, hr⟩ : ∃ q, passCases c (report p us).vis (report p us).states (report p us) (report p us).states
      cs = q := ⟨_, rfl⟩
    rw [hr] at hf he hk hseal hc ⊢
    dsimp only at hf he hk hseal hc ⊢
    have hm1 : Mono p1 { p1 with
        tr := fun x => if x ∈ (report p us).vis then { p1.tr x with st := acc x } else p1.tr x
        sure := p1.sure && (report p us).vis.all fun x => covers (acc x) ((report p us).states x)
        relied := ((report p us).vis.filter fun x => decide (acc x = .maybe)) ++ p1.relied } := by
      refine ⟨?_, id, ?_, ?_⟩
      · intro x hx
        dsimp only
        split <;> exact hx
      · intro h
        simp only [Bool.and_eq_true] at h
        exact h.1
      · intro x hx
        exact List.mem_append_right _ hx
    have hf1 := hf.mono hm1
    have hmay : ∀ x ∈ p.vis, acc x = .maybe → F x = true := by
      intro x hx hm
      refine hf.relied x (List.mem_append_left _ ?_)
      exact List.mem_filter.2 ⟨hx, decide_eq_true hm⟩
    have hsure := hf.sure
    simp only [Bool.and_eq_true, List.all_eq_true] at hsure
    have hread : us.all (readable m) = true := by
      exact hI.readAll (fun y hy => (hH.vis y).1 (hp.1 y hy)) (report_clear (hf1.mono hk.1).diag)
    rw [exec_switch hread] at he
    have hnorm : ∀ m', Inv F (fun x => x ∈ p.vis) acc m' none → Post F c p { p1 with
        tr := fun x => if x ∈ (report p us).vis then { p1.tr x with st := acc x } else p1.tr x
        sure := p1.sure && (report p us).vis.all fun x => covers (acc x) ((report p us).states x)
        relied := ((report p us).vis.filter fun x => decide (acc x = .maybe)) ++ p1.relied } m' .norm := by
      intro m' h
      refine ⟨hseal.trans hH.unsealed, ?_⟩
      have hvis : ∀ x, x ∈ p1.vis ↔ x ∈ p.vis := by
        intro x
        simp only [Pass.vis]
        rw [hk.2]; rfl
      refine ((h.congr hvis).weaken ?_ ?_)
      · intro x hx
        have hx' : x ∈ (report p us).vis := (hvis x).1 hx
        simp only [Pass.states, hx', if_true]
        exact covers_refl _
      · intro x hx hm
        have hx' : x ∈ (report p us).vis := (hvis x).1 hx
        simp only [Pass.states, hx', if_true] at hm
        exact hmay x ((hvis x).1 hx) hm
    rcases he with ⟨rfl, rfl⟩ | ⟨k, hk', he⟩
    · exact hnorm _ (hI.weaken (fun x hx => hsure.2 x hx) hmay)
    · have h1 := hc hf1 hmay k hk' he
      cases o with
      | norm => exact hnorm _ h1
      | brk => exact h1
      | cont => exact h1
      | ret => exact h1
      | bad => exact h1

theorem cases_sound (c : Ctx) (p : Pass) (V : List Var) (hH : Here F c p V) (m : Mem)
    (hI : Inv F (fun x => x ∈ p.vis) p.states m none) (o : Outcome) (m' : Mem) (vs : List Var) (old acc : Var → VS)
    (hold : p.states = old) (hvs : ∀ x, x ∈ vs ↔ x ∈ p.vis) : (cs : Cases) → PlainCases V cs →
    Fine F (passCases c vs old p acc cs).1 →
    (∀ x ∈ p.vis, (passCases c vs old p acc cs).2.1 x = .maybe → F x = true) →
    ∀ k ∈ (finCases F (passCases c vs old p acc cs).2.2).bodies, Exec k m o m' →
      Ends (fun m' => Inv F (fun x => x ∈ p.vis) (passCases c vs old p acc cs).2.1 m' none)
        (fun m' => Inv F (fun x => x ∈ outside p.scopes) c.head m' none)
        (fun m' => ∀ t, m'.life t ≠ .live) m' o
  | .nil, _, _, _, k, hk, _ => by
    simp only [passCases, finCases, CCases.bodies] at hk
    cases hk
  | .cons b s cs, hp, hf, hmay, k, hk, he => by
    simp only [PlainCases] at hp
    simp only [passCases] at hf hmay hk ⊢
    have hk1 := pass_keeps { c with cur := some b } (enter p false) s
    have hl := leave_keeps { c with cur := some b } p (pass { c with cur := some b } (enter p false) s).1 b
      (pass { c with cur := some b } (enter p false) s).2
    have hb := fun hff => sound_block (F := F) (c := { c with cur := some b }) (b := b) (m := m) (o := o) (m' := m')
      (k := (pass { c with cur := some b } (enter p false) s).2)
      (xs := declared s) (l := false) (p0 := p) hk1.2 (by
        simp only [Pass.vis, hk1.2]
        exact nodup_extend s (by simp [enter]) hH.vis hH.nodup hp.1) hff
      (fun o m' => pass_sound _ _ V hH.enter m hI o m' s hp.1 (hff.mono hl.1))
    obtain ⟨p2, hp2⟩ : ∃ q, leave { c with cur := some b } p (pass { c with cur := some b } (enter p false) s).1 b
      (pass { c with cur := some b } (enter p false) s).2 = q := ⟨_, rfl⟩
    rw [hp2] at hf hmay hk hl hb ⊢
    have hkeep := (passCases_keeps c vs old (restore old p2.1) (fun x => joinCase (acc x) (p2.1.states x)) cs).1
    have hH3 : Here F c (restore old p2.1) V := by
      refine ⟨?_, ?_, ?_, ?_, ?_⟩
      · intro x; simp only [Pass.vis, restore, hl.2.2.1]; exact hH.vis x
      · simp only [Pass.vis, restore, hl.2.2.1]; exact hH.nodup
      · simp only [restore, hl.2.2.1]; exact hH.scopes
      · simp only [restore, hl.2.2.2]; exact hH.unsealed
      · simp only [restore, hl.2.2.1]; exact hH.head
    have hvis : ∀ x, x ∈ (restore old p2.1).vis ↔ x ∈ p.vis := by
      intro x; simp only [Pass.vis, restore, hl.2.2.1]
    have hI3 : Inv F (fun x => x ∈ (restore old p2.1).vis) (restore old p2.1).states m none := by
      have : (restore old p2.1).states = p.states := hold.symm
      rw [this]
      exact hI.congr hvis
    have hfr := hf.mono (mono_sure _ _)
    have hrec := cases_sound c (restore old p2.1) V hH3 m hI3 o m' vs old (fun x => joinCase (acc x) (p2.1.states x)) rfl
      (fun x => (hvs x).trans (hvis x).symm) cs hp.2 hfr
    have hsure := hf.sure
    obtain ⟨⟨p3, r, ks⟩, hr⟩ : ∃ q, passCases c vs old (restore old p2.1) (fun x => joinCase (acc x) (p2.1.states x)) cs = q :=
      ⟨_, rfl⟩
    rw [hr] at hf hmay hk hkeep hfr hrec hsure ⊢
    simp only [Bool.and_eq_true, List.all_eq_true] at hsure
    simp only [finCases, CCases.bodies, List.mem_cons] at hk
    rcases hk with rfl | hk
    · have h1 := hb (hfr.mono ((mono_restore _ _).trans hkeep)) he
      cases o with
      | norm => exact Inv.weaken h1 (fun x hx => hsure.2 x ((hvs x).2 hx)) hmay
      | brk => exact h1
      | cont => exact h1
      | ret => exact h1
      | bad => exact h1
    · have h1 := hrec (fun x hx => hmay x ((hvis x).1 hx)) k hk he
      have hout : (restore old p2.1).scopes = p.scopes := hl.2.2.1
      cases o with
      | norm => exact Inv.congr h1 (fun x => (hvis x).symm)
      | brk => simp only [Ends] at h1; rw [hout] at h1; exact h1
      | cont => simp only [Ends] at h1; rw [hout] at h1; exact h1
      | ret => exact h1
      | bad => exact h1
end

end Verif.Drop
