import Verif.Lang.Drop.Run
/-! The relation between the states of the pass and the memory of the running program. -/
namespace Verif.Drop

/-- The variable holds a value it has to destroy. -/
def owned (s : VS) (fl : Bool) : Bool := decide (s = .assigned) || (decide (s = .maybe) && fl)

/-- `V` are the variables in scope, `F` those with a drop flag, `e` a value on its way from one place to another. -/
structure Inv (F : Var → Bool) (V : Var → Prop) (st : Var → VS) (m : Mem) (e : Option Nat) : Prop where
  on : ∀ x, V x → F x = true → st x = .assigned → m.flag x = true
  off : ∀ x, V x → F x = true → st x ≠ .assigned → st x ≠ .maybe → m.flag x = false
  known : ∀ x, V x → F x = false → st x ≠ .maybe
  live : ∀ x t, V x → owned (st x) (m.flag x) = true → m.slot x = some t → m.life t = .live
  apart : ∀ x y t, V x → V y → x ≠ y → owned (st x) (m.flag x) = true → owned (st y) (m.flag y) = true →
    m.slot x = some t → m.slot y ≠ some t
  held : ∀ t, m.life t = .live → (∃ x, V x ∧ owned (st x) (m.flag x) = true ∧ m.slot x = some t) ∨ e = some t
  extra : ∀ t, e = some t → m.life t = .live ∧ ∀ x, V x → owned (st x) (m.flag x) = true → m.slot x ≠ some t
  unborn : ∀ t, m.next ≤ t → m.life t = .unborn

variable {F : Var → Bool} {V : Var → Prop} {st : Var → VS} {m : Mem} {e : Option Nat}

/-- A variable with a flag is owned exactly if the flag is set. -/
theorem Inv.owned_flag (h : Inv F V st m e) {x : Var} (hx : V x) (hF : F x = true) :
    owned (st x) (m.flag x) = m.flag x := by
  unfold owned
  by_cases h1 : st x = .assigned
  · simp [h1, h.on x hx hF h1]
  · by_cases h2 : st x = .maybe
    · simp [h2]
    · simp [h1, h2, h.off x hx hF h1 h2]

theorem Inv.owned_noflag (h : Inv F V st m e) {x : Var} (hx : V x) (hF : F x = false) :
    owned (st x) (m.flag x) = decide (st x = .assigned) := by
  unfold owned
  simp [h.known x hx hF]

theorem covers_iff {h s : VS} : covers h s = true ↔
    h = .maybe ∨ s = h ∨ ((s ≠ .maybe ∧ s ≠ .assigned) ∧ h ≠ .maybe ∧ h ≠ .assigned) := by
  cases h <;> cases s <;> decide

/-- The states may be replaced by less precise ones. -/
theorem Inv.weaken (h : Inv F V st m e) {st' : Var → VS} (hc : ∀ x, V x → covers (st' x) (st x) = true)
    (hm : ∀ x, V x → st' x = .maybe → F x = true) : Inv F V st' m e := by
  have ho : ∀ x, V x → owned (st' x) (m.flag x) = owned (st x) (m.flag x) := by
    intro x hx
    have hc := covers_iff.1 (hc x hx)
    rcases hc with h1 | h1 | ⟨⟨h1, h2⟩, h3, h4⟩
    · rw [h.owned_flag hx (hm x hx h1)]
      simp [owned, h1]
    · rw [h1]
    · simp [owned, h1, h2, h3, h4]
  refine ⟨?_, ?_, ?_, ?_, ?_, ?_, ?_, h.unborn⟩
  · intro x hx hF hs
    have h1 := ho x hx
    rw [h.owned_flag hx hF] at h1
    rw [← h1]; simp [owned, hs]
  · intro x hx hF hs hs'
    have h1 := ho x hx
    rw [h.owned_flag hx hF] at h1
    rw [← h1]; simp [owned, hs, hs']
  · intro x hx hF hs
    rw [hm x hx hs] at hF; cases hF
  · intro x t hx h1 h2
    rw [ho x hx] at h1
    exact h.live x t hx h1 h2
  · intro x y t hx hy hne h1 h2 h3
    rw [ho x hx] at h1
    rw [ho y hy] at h2
    exact h.apart x y t hx hy hne h1 h2 h3
  · intro t ht
    rcases h.held t ht with ⟨x, hx, h1, h2⟩ | h1
    · exact .inl ⟨x, hx, by rw [ho x hx]; exact h1, h2⟩
    · exact .inr h1
  · intro t ht
    obtain ⟨h1, h2⟩ := h.extra t ht
    refine ⟨h1, ?_⟩
    intro x hx h3
    rw [ho x hx] at h3
    exact h2 x hx h3

/-- Variables that own nothing may be forgotten. -/
theorem Inv.shrink (h : Inv F V st m e) {V' : Var → Prop} (hs : ∀ x, V' x → V x)
    (hn : ∀ x, V x → ¬ V' x → owned (st x) (m.flag x) = false) : Inv F V' st m e := by
  refine ⟨fun x hx => h.on x (hs x hx), fun x hx => h.off x (hs x hx), fun x hx => h.known x (hs x hx),
    fun x t hx => h.live x t (hs x hx), fun x y t hx hy => h.apart x y t (hs x hx) (hs y hy), ?_, ?_, h.unborn⟩
  · intro t ht
    rcases h.held t ht with ⟨x, hx, h1, h2⟩ | h1
    · by_cases hx' : V' x
      · exact .inl ⟨x, hx', h1, h2⟩
      · rw [hn x hx hx'] at h1; cases h1
    · exact .inr h1
  · intro t ht
    exact ⟨(h.extra t ht).1, fun x hx => (h.extra t ht).2 x (hs x hx)⟩

theorem Inv.congr (h : Inv F V st m e) {V' : Var → Prop} (hs : ∀ x, V' x ↔ V x) : Inv F V' st m e :=
  h.shrink (fun x hx => (hs x).1 hx) (fun x hx hx' => absurd ((hs x).2 hx) hx')

/-- The states of `st` with `x` in state `s`. -/
def setAt (st : Var → VS) (x : Var) (s : VS) : Var → VS := fun y => if y = x then s else st y

theorem setAt_same (st : Var → VS) (x : Var) (s : VS) : setAt st x s x = s := by simp [setAt]

theorem setAt_ne (st : Var → VS) {x y : Var} (s : VS) (h : y ≠ x) : setAt st x s y = st y := by simp [setAt, h]

theorem setAt_setAt (st : Var → VS) (x : Var) (s s' : VS) : setAt (setAt st x s) x s' = setAt st x s' := by
  funext y
  simp only [setAt]
  split <;> rfl

theorem states_setSt (p : Pass) (x : Var) (s : VS) : (p.setSt x s).states = setAt p.states x s := by
  funext y
  simp only [Pass.states, Pass.setSt, setAt]
  split <;> rfl

theorem states_report (p : Pass) (us : List Var) : (report p us).states = p.states := rfl

/-- The memory after `x` has been destroyed, where it owns something. -/
def ended (l : Life) (m : Mem) : Option Nat → Mem
  | none => m
  | some t => { m with life := fun u => if u = t then l else m.life u }

theorem retire_live {l : Life} {v : Option Nat} (h : ∀ t, v = some t → m.life t = .live) :
    retire l m v = some (ended l m v) := by
  cases v with
  | none => rfl
  | some t => simp [retire, ended, h t rfl]

theorem ended_life (l : Life) (m : Mem) (v : Option Nat) (t : Nat) :
    (ended l m v).life t = if v = some t then l else m.life t := by
  cases v with
  | none => simp [ended]
  | some u =>
    by_cases h : t = u
    · simp [ended, h]
    · simp [ended, h, Ne.symm h]

theorem flagged_life (F : Var → Bool) (m : Mem) (x : Var) (b : Bool) : (flagged F m x b).life = m.life := by
  unfold flagged; split <;> rfl

theorem flagged_slot (F : Var → Bool) (m : Mem) (x : Var) (b : Bool) : (flagged F m x b).slot = m.slot := by
  unfold flagged; split <;> rfl

theorem flagged_next (F : Var → Bool) (m : Mem) (x : Var) (b : Bool) : (flagged F m x b).next = m.next := by
  unfold flagged; split <;> rfl

theorem flagged_ret (F : Var → Bool) (m : Mem) (x : Var) (b : Bool) : (flagged F m x b).ret = m.ret := by
  unfold flagged; split <;> rfl

theorem flagged_ne (F : Var → Bool) (m : Mem) {x y : Var} (b : Bool) (h : y ≠ x) :
    (flagged F m x b).flag y = m.flag y := by
  unfold flagged; split
  · simp [h]
  · rfl

theorem flagged_same {F : Var → Bool} (m : Mem) {x : Var} (b : Bool) (h : F x = true) :
    (flagged F m x b).flag x = b := by
  simp [flagged, h]

/-- Ending the value of an owned variable. `fl` are the flags afterwards. -/
theorem Inv.end_var (h : Inv F V st m e) {x : Var} {s : VS} {l : Life} (hx : V x)
    (ho : owned (st x) (m.flag x) = true) (hs : s ≠ .assigned ∧ s ≠ .maybe) (hl : l ≠ .live) :
    Inv F V (setAt st x s) (flagged F (ended l m (m.slot x)) x false) e := by
  have hslot : (flagged F (ended l m (m.slot x)) x false).slot = m.slot := by
    rw [flagged_slot]; unfold ended; split <;> rfl
  have hnext : (flagged F (ended l m (m.slot x)) x false).next = m.next := by
    rw [flagged_next]; unfold ended; split <;> rfl
  have hlife : ∀ t, (flagged F (ended l m (m.slot x)) x false).life t = if m.slot x = some t then l else m.life t := by
    intro t
    rw [flagged_life, ended_life]
  have hflag : ∀ y, y ≠ x → (flagged F (ended l m (m.slot x)) x false).flag y = m.flag y := by
    intro y hy
    rw [flagged_ne F _ _ hy]; unfold ended; split <;> rfl
  have hflagx : F x = true → (flagged F (ended l m (m.slot x)) x false).flag x = false := by
    intro hF
    exact flagged_same _ _ hF
  generalize flagged F (ended l m (m.slot x)) x false = m' at *
  have hox : ∀ b, owned (setAt st x s x) b = false := by
    intro b; simp [setAt_same, owned, hs]
  have hoy : ∀ y, y ≠ x → owned (setAt st x s y) (m'.flag y) = owned (st y) (m.flag y) := by
    intro y hy; rw [setAt_ne _ _ hy, hflag y hy]
  refine ⟨?_, ?_, ?_, ?_, ?_, ?_, ?_, ?_⟩
  · intro y hy hF h1
    by_cases hyx : y = x
    · subst hyx; rw [setAt_same] at h1; exact absurd h1 hs.1
    · rw [setAt_ne _ _ hyx] at h1; rw [hflag y hyx]; exact h.on y hy hF h1
  · intro y hy hF h1 h2
    by_cases hyx : y = x
    · subst hyx; exact hflagx hF
    · rw [setAt_ne _ _ hyx] at h1 h2; rw [hflag y hyx]; exact h.off y hy hF h1 h2
  · intro y hy hF
    by_cases hyx : y = x
    · subst hyx; rw [setAt_same]; exact hs.2
    · rw [setAt_ne _ _ hyx]; exact h.known y hy hF
  · intro y t hy h1 h2
    by_cases hyx : y = x
    · subst hyx; rw [hox] at h1; cases h1
    · rw [hoy y hyx] at h1
      rw [hslot] at h2
      rw [hlife, if_neg]
      · exact h.live y t hy h1 h2
      · intro h3; exact h.apart x y t hx hy (Ne.symm hyx) ho h1 h3 h2
  · intro y z t hy hz hne h1 h2 h3
    by_cases hyx : y = x
    · subst hyx; rw [hox] at h1; cases h1
    · by_cases hzx : z = x
      · subst hzx; rw [hox] at h2; cases h2
      · rw [hoy y hyx] at h1; rw [hoy z hzx] at h2; rw [hslot] at h3 ⊢
        exact h.apart y z t hy hz hne h1 h2 h3
  · intro t ht
    rw [hlife] at ht
    by_cases hxt : m.slot x = some t
    · rw [if_pos hxt] at ht; exact absurd ht hl
    · rw [if_neg hxt] at ht
      rcases h.held t ht with ⟨y, hy, h1, h2⟩ | h1
      · have hyx : y ≠ x := fun hh => hxt (hh ▸ h2)
        exact .inl ⟨y, hy, by rw [hoy y hyx]; exact h1, by rw [hslot]; exact h2⟩
      · exact .inr h1
  · intro t ht
    obtain ⟨h1, h2⟩ := h.extra t ht
    refine ⟨?_, ?_⟩
    · rw [hlife, if_neg (h2 x hx ho)]; exact h1
    · intro y hy h3
      by_cases hyx : y = x
      · subst hyx; rw [hox] at h3; cases h3
      · rw [hoy y hyx] at h3; rw [hslot]; exact h2 y hy h3
  · intro t ht
    rw [hnext] at ht
    rw [hlife]
    split
    · rename_i h3
      have := h.live x t hx ho h3
      rw [h.unborn t ht] at this; cases this
    · exact h.unborn t ht

/-- Changing the recorded state of a variable that owns nothing, and clearing its flag. -/
theorem Inv.unown (h : Inv F V st m e) {x : Var} {s : VS} (hx : V x)
    (ho : owned (st x) (m.flag x) = false) (hs : s ≠ .assigned ∧ s ≠ .maybe) : Inv F V (setAt st x s) m e := by
  have hoy : ∀ y, V y → owned (setAt st x s y) (m.flag y) = owned (st y) (m.flag y) := by
    intro y hy
    by_cases hyx : y = x
    · subst hyx; rw [ho]; simp [setAt_same, owned, hs]
    · rw [setAt_ne _ _ hyx]
  refine ⟨?_, ?_, ?_, ?_, ?_, ?_, ?_, h.unborn⟩
  · intro y hy hF h1
    by_cases hyx : y = x
    · subst hyx; rw [setAt_same] at h1; exact absurd h1 hs.1
    · rw [setAt_ne _ _ hyx] at h1; exact h.on y hy hF h1
  · intro y hy hF h1 h2
    by_cases hyx : y = x
    · subst hyx; rw [h.owned_flag hy hF] at ho; exact ho
    · rw [setAt_ne _ _ hyx] at h1 h2; exact h.off y hy hF h1 h2
  · intro y hy hF
    by_cases hyx : y = x
    · subst hyx; rw [setAt_same]; exact hs.2
    · rw [setAt_ne _ _ hyx]; exact h.known y hy hF
  · intro y t hy h1
    rw [hoy y hy] at h1; exact h.live y t hy h1
  · intro y z t hy hz hne h1 h2
    rw [hoy y hy] at h1; rw [hoy z hz] at h2; exact h.apart y z t hy hz hne h1 h2
  · intro t ht
    rcases h.held t ht with ⟨y, hy, h1, h2⟩ | h1
    · exact .inl ⟨y, hy, by rw [hoy y hy]; exact h1, h2⟩
    · exact .inr h1
  · intro t ht
    refine ⟨(h.extra t ht).1, ?_⟩
    intro y hy h3
    rw [hoy y hy] at h3; exact (h.extra t ht).2 y hy h3

/-- A drop of a variable whose state is known, or which has a flag. -/
theorem Inv.drop (h : Inv F V st m e) {x : Var} (hx : V x)
    (hk : (st x = .maybe ∨ st x = .assigned) ∨ F x = true) :
    ∃ m', Runs (finAct F (.drop x)) m m' ∧ Inv F V (setAt st x .dropped) m' e ∧ m'.ret = m.ret := by
  have hret : (flagged F (ended .dropped m (m.slot x)) x false).ret = m.ret := by
    rw [flagged_ret]; unfold ended; split <;> rfl
  by_cases hF : F x = true
  · by_cases hfl : m.flag x = true
    · have ho : owned (st x) (m.flag x) = true := by rw [h.owned_flag hx hF]; exact hfl
      refine ⟨flagged F (ended .dropped m (m.slot x)) x false, ?_, ?_, hret⟩
      · simp only [finAct, if_pos hF]
        refine Runs.seq (m1 := ended .dropped m (m.slot x)) (Runs.act ?_) (Runs.act ?_)
        · simp only [act, if_pos hfl]
          exact retire_live fun t ht => h.live x t hx ho ht
        · simp only [act, flagged, if_pos hF]
      · exact h.end_var hx ho ⟨by decide, by decide⟩ (by decide)
    · have hfl' : m.flag x = false := by simpa using hfl
      have ho : owned (st x) (m.flag x) = false := by rw [h.owned_flag hx hF]; exact hfl'
      refine ⟨m, ?_, h.unown hx ho ⟨by decide, by decide⟩, rfl⟩
      simp only [finAct, if_pos hF]
      refine Runs.seq (m1 := m) (Runs.act ?_) (Runs.act ?_)
      · simp only [act, hfl']; rfl
      · simp only [act]
        congr 1
        have : (fun y => if y = x then false else m.flag y) = m.flag := by
          funext y; split
          · rename_i hh; rw [hh, hfl']
          · rfl
        rw [this]
  · have hF' : F x = false := by simpa using hF
    have hst : st x = .assigned := by
      rcases hk with (h1 | h1) | h1
      · exact absurd h1 (h.known x hx hF')
      · exact h1
      · exact absurd h1 hF
    have ho : owned (st x) (m.flag x) = true := by simp [owned, hst]
    refine ⟨flagged F (ended .dropped m (m.slot x)) x false, ?_,
      h.end_var hx ho ⟨by decide, by decide⟩ (by decide), hret⟩
    simp only [finAct, if_neg hF, flagged]
    exact Runs.act (retire_live fun t ht => h.live x t hx ho ht)

/-- Dropping a list of variables. -/
theorem Inv.dropAll {c : Ctx} : ∀ (xs : List Var) (p : Pass) {m : Mem} {V : Var → Prop} {st : Var → VS},
    Inv F V st m e → xs.Nodup →
    (∀ x, x ∈ (Drop.dropAll c p xs).1.relied → F x = true) →
    (∀ x ∈ xs, V x → st x = p.states x) →
    (∀ x ∈ xs, needs c (p.tr x) = true → V x) →
    ∃ m', Runs (fin F (Drop.dropAll c p xs).2) m m' ∧ Inv F (fun x => V x ∧ x ∉ xs) st m' e ∧ m'.ret = m.ret
  | [], p, m, V, st, h, _, _, _, _ => ⟨m, Runs.skip m, h.congr (by simp), rfl⟩
  | x :: xs, p, m, V, st, h, hnd, hr, hst, hn => by
    rw [List.nodup_cons] at hnd
    unfold Drop.dropAll at hr ⊢
    by_cases hneed : needs c (p.tr x) = true
    · rw [if_pos hneed] at hr ⊢
      have hx := hn x List.mem_cons_self hneed
      have hk : (st x = .maybe ∨ st x = .assigned) ∨ F x = true := by
        rw [hst x List.mem_cons_self hx]
        by_cases hs : (p.tr x).st = .maybe ∨ (p.tr x).st = .assigned
        · exact .inl hs
        · refine .inr (hr x ((dropAll_keeps c xs (dropVar c p x)).1.relied x ?_))
          simp only [dropVar, if_neg hs]
          exact List.mem_cons_self
      obtain ⟨m1, hrun, h1, hrt⟩ := h.drop hx hk
      have hno : ∀ fl, owned (setAt st x .dropped x) fl = false := by simp [setAt_same, owned]
      have h2 : Inv F (fun y => V y ∧ y ≠ x) (setAt st x .dropped) m1 e := by
        refine h1.shrink (fun y hy => hy.1) ?_
        intro y hy hy'
        have : y = x := Decidable.byContradiction fun hh => hy' ⟨hy, hh⟩
        subst this; exact hno _
      have h3 : Inv F (fun y => V y ∧ y ≠ x) st m1 e := by
        refine h2.weaken ?_ ?_
        · intro y hy
          rw [setAt_ne _ _ hy.2]
          exact covers_iff.2 (.inr (.inl rfl))
        · intro y hy hm
          by_cases hF : F y = true
          · exact hF
          · exact absurd hm (h.known y hy.1 (by simpa using hF))
      have hne : ∀ y ∈ xs, y ≠ x := fun y hy hh => hnd.1 (hh ▸ hy)
      obtain ⟨m2, hrun2, h4, hrt2⟩ := Inv.dropAll xs (dropVar c p x) h3 hnd.2 hr
        (fun y hy hV => by rw [states_dropVar]; exact hst y (List.mem_cons_of_mem _ hy) hV.1)
        (fun y hy hned => ⟨hn y (List.mem_cons_of_mem _ hy) (by
          have : (dropVar c p x).tr y = p.tr y := by simp [dropVar, hne y hy]
          rw [this] at hned; exact hned), hne y hy⟩)
      refine ⟨m2, ?_, h4.congr (by intro y; simp only [List.mem_cons, not_or, and_assoc]), hrt2.trans hrt⟩
      exact Runs.seq hrun hrun2
    · rw [if_neg hneed] at hr ⊢
      have h2 : Inv F (fun y => V y ∧ y ≠ x) st m e := by
        refine h.shrink (fun y hy => hy.1) ?_
        intro y hy hy'
        have hyx : y = x := Decidable.byContradiction fun hh => hy' ⟨hy, hh⟩
        subst hyx
        have hs := hst y List.mem_cons_self hy
        have h5 : ¬ (st y = .maybe ∨ st y = .assigned) := by
          intro hh
          apply hneed
          rw [hs] at hh
          simp only [needs, Bool.or_eq_true, decide_eq_true_eq]
          exact .inl hh
        rw [not_or] at h5
        simp [owned, h5]
      have hne : ∀ y ∈ xs, y ≠ x := fun y hy hh => hnd.1 (hh ▸ hy)
      obtain ⟨m2, hrun2, h4, hrt2⟩ := Inv.dropAll xs p h2 hnd.2 hr
        (fun y hy hV => hst y (List.mem_cons_of_mem _ hy) hV.1)
        (fun y hy hned => ⟨hn y (List.mem_cons_of_mem _ hy) hned, hne y hy⟩)
      exact ⟨m2, hrun2, h4.congr (by intro y; simp only [List.mem_cons, not_or, and_assoc]), hrt2⟩

/-- A variable the pass takes for assigned may be read. -/
theorem Inv.readable (h : Inv F V st m e) {x : Var} (hx : V x) (hs : st x = .assigned) : readable m x = true := by
  unfold Drop.readable
  split
  · rfl
  · rename_i t ht
    exact decide_eq_true (h.live x t hx (by simp [owned, hs]) ht)

/-- A new value. -/
theorem Inv.fresh (h : Inv F V st m none) : Inv F V st (fresh m).2 (fresh m).1 := by
  have hlt : ∀ t, m.life t ≠ .unborn → t ≠ m.next := by
    intro t ht hh
    exact ht (h.unborn t (by omega))
  have hl : ∀ t, m.life t = .live → (Drop.fresh m).2.life t = .live := by
    intro t ht
    simp only [Drop.fresh]
    split
    · rfl
    · exact ht
  refine ⟨h.on, h.off, h.known, fun x t hx h1 h2 => hl t (h.live x t hx h1 h2), h.apart, ?_, ?_, ?_⟩
  · intro t ht
    simp only [Drop.fresh] at ht ⊢
    split at ht
    · rename_i hh; right; rw [hh]
    · rcases h.held t ht with h1 | h1
      · exact .inl h1
      · cases h1
  · intro t ht
    simp only [Drop.fresh, Option.some.injEq] at ht
    subst ht
    refine ⟨by simp [Drop.fresh], ?_⟩
    intro x hx h1 h2
    have := h.live x m.next hx h1 h2
    rw [h.unborn _ (Nat.le_refl _)] at this; cases this
  · intro t ht
    simp only [Drop.fresh] at ht ⊢
    rw [if_neg (by omega)]
    exact h.unborn t (by omega)

/-- Taking the value out of a variable. -/
theorem Inv.take (h : Inv F V st m none) {y : Var} (hy : V y) (hs : st y = .assigned) :
    Inv F V (setAt st y .moved) (flagged F m y false) (m.slot y) := by
  have ho : owned (st y) (m.flag y) = true := by simp [owned, hs]
  have hox : ∀ b, owned (setAt st y .moved y) b = false := by
    intro b; simp [setAt_same, owned]
  have hoy : ∀ x, x ≠ y → owned (setAt st y .moved x) ((flagged F m y false).flag x) = owned (st x) (m.flag x) := by
    intro x hx; rw [setAt_ne _ _ hx, flagged_ne F _ _ hx]
  refine ⟨?_, ?_, ?_, ?_, ?_, ?_, ?_, ?_⟩
  · intro x hx hF h1
    by_cases hyx : x = y
    · subst hyx; rw [setAt_same] at h1; cases h1
    · rw [setAt_ne _ _ hyx] at h1; rw [flagged_ne F _ _ hyx]; exact h.on x hx hF h1
  · intro x hx hF h1 h2
    by_cases hyx : x = y
    · subst hyx; exact flagged_same _ _ hF
    · rw [setAt_ne _ _ hyx] at h1 h2; rw [flagged_ne F _ _ hyx]; exact h.off x hx hF h1 h2
  · intro x hx hF
    by_cases hyx : x = y
    · subst hyx; rw [setAt_same]; decide
    · rw [setAt_ne _ _ hyx]; exact h.known x hx hF
  · intro x t hx h1 h2
    rw [flagged_life]
    by_cases hyx : x = y
    · subst hyx; rw [hox] at h1; cases h1
    · rw [hoy x hyx] at h1
      rw [flagged_slot] at h2
      exact h.live x t hx h1 h2
  · intro x z t hx hz hne h1 h2 h3
    by_cases hyx : x = y
    · subst hyx; rw [hox] at h1; cases h1
    · by_cases hzx : z = y
      · subst hzx; rw [hox] at h2; cases h2
      · rw [hoy x hyx] at h1; rw [hoy z hzx] at h2; rw [flagged_slot] at h3 ⊢
        exact h.apart x z t hx hz hne h1 h2 h3
  · intro t ht
    rw [flagged_life] at ht
    rcases h.held t ht with ⟨x, hx, h1, h2⟩ | h1
    · by_cases hyx : x = y
      · subst hyx; exact .inr h2
      · exact .inl ⟨x, hx, by rw [hoy x hyx]; exact h1, by rw [flagged_slot]; exact h2⟩
    · cases h1
  · intro t ht
    refine ⟨by rw [flagged_life]; exact h.live y t hy ho ht, ?_⟩
    intro x hx h3
    by_cases hyx : x = y
    · subst hyx; rw [hox] at h3; cases h3
    · rw [hoy x hyx] at h3; rw [flagged_slot]
      exact h.apart y x t hy hx (Ne.symm hyx) ho h3 ht
  · intro t ht
    rw [flagged_life]
    rw [flagged_next] at ht
    exact h.unborn t ht

/-- The value of a variable leaves it; the variable is not looked at any more. -/
theorem Inv.lend (h : Inv F V st m none) {y : Var} (hy : V y) (hs : st y = .assigned) :
    Inv F (fun x => V x ∧ x ≠ y) st m (m.slot y) := by
  have ho : owned (st y) (m.flag y) = true := by simp [owned, hs]
  refine ⟨fun x hx => h.on x hx.1, fun x hx => h.off x hx.1, fun x hx => h.known x hx.1,
    fun x t hx => h.live x t hx.1, fun x z t hx hz => h.apart x z t hx.1 hz.1, ?_, ?_, h.unborn⟩
  · intro t ht
    rcases h.held t ht with ⟨x, hx, h1, h2⟩ | h1
    · by_cases hyx : x = y
      · subst hyx; exact .inr h2
      · exact .inl ⟨x, ⟨hx, hyx⟩, h1, h2⟩
    · cases h1
  · intro t ht
    refine ⟨h.live y t hy ho ht, ?_⟩
    intro x hx h3
    exact h.apart y x t hy hx.1 (Ne.symm hx.2) ho h3 ht

/-- Putting a value into a variable that owns nothing; it may be a new one. -/
theorem Inv.put {v : Option Nat} (h : Inv F V st m v) {x : Var} (hx : V x → owned (st x) (m.flag x) = false) :
    Inv F (fun y => V y ∨ y = x) (setAt st x .assigned) (flagged F (store m x v) x true) none := by
  have hoy : ∀ y, y ≠ x → owned (setAt st x .assigned y) ((flagged F (store m x v) x true).flag y) =
      owned (st y) (m.flag y) := by
    intro y hy; rw [setAt_ne _ _ hy, flagged_ne F _ _ hy]; rfl
  have hsx : (flagged F (store m x v) x true).slot x = v := by rw [flagged_slot]; simp [store]
  have hsy : ∀ y, y ≠ x → (flagged F (store m x v) x true).slot y = m.slot y := by
    intro y hy; rw [flagged_slot]; simp [store, hy]
  have hlife : (flagged F (store m x v) x true).life = m.life := by rw [flagged_life]; rfl
  have hVy : ∀ {y}, V y ∨ y = x → y ≠ x → V y := fun h1 h2 => h1.resolve_right h2
  refine ⟨?_, ?_, ?_, ?_, ?_, ?_, ?_, ?_⟩
  · intro y hy hF h1
    by_cases hyx : y = x
    · subst hyx; exact flagged_same _ _ hF
    · rw [setAt_ne _ _ hyx] at h1; rw [flagged_ne F _ _ hyx]; exact h.on y (hVy hy hyx) hF h1
  · intro y hy hF h1 h2
    by_cases hyx : y = x
    · subst hyx; rw [setAt_same] at h1; exact absurd rfl h1
    · rw [setAt_ne _ _ hyx] at h1 h2; rw [flagged_ne F _ _ hyx]; exact h.off y (hVy hy hyx) hF h1 h2
  · intro y hy hF
    by_cases hyx : y = x
    · subst hyx; rw [setAt_same]; decide
    · rw [setAt_ne _ _ hyx]; exact h.known y (hVy hy hyx) hF
  · intro y t hy h1 h2
    rw [hlife]
    by_cases hyx : y = x
    · subst hyx; rw [hsx] at h2; exact (h.extra t h2).1
    · rw [hoy y hyx] at h1
      rw [hsy y hyx] at h2
      exact h.live y t (hVy hy hyx) h1 h2
  · intro y z t hy hz hne h1 h2 h3
    by_cases hyx : y = x
    · subst hyx
      rw [hsx] at h3
      have hzy : z ≠ y := Ne.symm hne
      rw [hoy z hzy] at h2; rw [hsy z hzy]
      exact (h.extra t h3).2 z (hVy hz hzy) h2
    · by_cases hzx : z = x
      · subst hzx
        rw [hoy y hyx] at h1
        rw [hsy y hyx] at h3
        rw [hsx]
        intro h4
        exact (h.extra t h4).2 y (hVy hy hyx) h1 h3
      · rw [hoy y hyx] at h1; rw [hoy z hzx] at h2; rw [hsy y hyx] at h3; rw [hsy z hzx]
        exact h.apart y z t (hVy hy hyx) (hVy hz hzx) hne h1 h2 h3
  · intro t ht
    rw [hlife] at ht
    rcases h.held t ht with ⟨y, hy, h1, h2⟩ | h1
    · have hyx : y ≠ x := by
        intro hh; subst hh; rw [hx hy] at h1; cases h1
      exact .inl ⟨y, .inl hy, by rw [hoy y hyx]; exact h1, by rw [hsy y hyx]; exact h2⟩
    · exact .inl ⟨x, .inr rfl, by simp [setAt_same, owned], by rw [hsx]; exact h1⟩
  · intro t ht; cases ht
  · intro t ht
    rw [flagged_next] at ht
    rw [hlife]
    exact h.unborn t ht

/-- A declaration without value. -/
theorem Inv.declare (h : Inv F V st m none) {x : Var} (hx : ¬ V x) :
    Inv F (fun y => V y ∨ y = x) (setAt st x .uninit) (flagged F (store m x none) x false) none := by
  have hoy : ∀ y, y ≠ x → owned (setAt st x .uninit y) ((flagged F (store m x none) x false).flag y) =
      owned (st y) (m.flag y) := by
    intro y hy; rw [setAt_ne _ _ hy, flagged_ne F _ _ hy]; rfl
  have hox : ∀ b, owned (setAt st x .uninit x) b = false := by
    intro b; simp [setAt_same, owned]
  have hsy : ∀ y, y ≠ x → (flagged F (store m x none) x false).slot y = m.slot y := by
    intro y hy; rw [flagged_slot]; simp [store, hy]
  have hlife : (flagged F (store m x none) x false).life = m.life := by rw [flagged_life]; rfl
  have hVy : ∀ {y}, V y ∨ y = x → y ≠ x → V y := fun h1 h2 => h1.resolve_right h2
  refine ⟨?_, ?_, ?_, ?_, ?_, ?_, ?_, ?_⟩
  · intro y hy hF h1
    by_cases hyx : y = x
    · subst hyx; rw [setAt_same] at h1; cases h1
    · rw [setAt_ne _ _ hyx] at h1; rw [flagged_ne F _ _ hyx]; exact h.on y (hVy hy hyx) hF h1
  · intro y hy hF h1 h2
    by_cases hyx : y = x
    · subst hyx; exact flagged_same _ _ hF
    · rw [setAt_ne _ _ hyx] at h1 h2; rw [flagged_ne F _ _ hyx]; exact h.off y (hVy hy hyx) hF h1 h2
  · intro y hy hF
    by_cases hyx : y = x
    · subst hyx; rw [setAt_same]; decide
    · rw [setAt_ne _ _ hyx]; exact h.known y (hVy hy hyx) hF
  · intro y t hy h1 h2
    rw [hlife]
    by_cases hyx : y = x
    · subst hyx; rw [hox] at h1; cases h1
    · rw [hoy y hyx] at h1
      rw [hsy y hyx] at h2
      exact h.live y t (hVy hy hyx) h1 h2
  · intro y z t hy hz hne h1 h2 h3
    by_cases hyx : y = x
    · subst hyx; rw [hox] at h1; cases h1
    · by_cases hzx : z = x
      · subst hzx; rw [hox] at h2; cases h2
      · rw [hoy y hyx] at h1; rw [hoy z hzx] at h2; rw [hsy y hyx] at h3; rw [hsy z hzx]
        exact h.apart y z t (hVy hy hyx) (hVy hz hzx) hne h1 h2 h3
  · intro t ht
    rw [hlife] at ht
    rcases h.held t ht with ⟨y, hy, h1, h2⟩ | h1
    · have hyx : y ≠ x := fun hh => hx (hh ▸ hy)
      exact .inl ⟨y, .inl hy, by rw [hoy y hyx]; exact h1, by rw [hsy y hyx]; exact h2⟩
    · cases h1
  · intro t ht; cases ht
  · intro t ht
    rw [flagged_next] at ht
    rw [hlife]
    exact h.unborn t ht

/-- Handing over the value on its way. -/
theorem Inv.hand (h : Inv F V st m e) {l : Life} (hl : l ≠ .live) : Inv F V st (ended l m e) none := by
  have hslot : (ended l m e).slot = m.slot := by unfold ended; split <;> rfl
  have hflag : (ended l m e).flag = m.flag := by unfold ended; split <;> rfl
  have hnext : (ended l m e).next = m.next := by unfold ended; split <;> rfl
  refine ⟨?_, ?_, h.known, ?_, ?_, ?_, ?_, ?_⟩
  · rw [hflag]; exact h.on
  · rw [hflag]; exact h.off
  · intro x t hx h1 h2
    rw [hflag] at h1; rw [hslot] at h2
    rw [ended_life, if_neg]
    · exact h.live x t hx h1 h2
    · intro h3; exact (h.extra t h3).2 x hx h1 h2
  · rw [hflag, hslot]; exact h.apart
  · intro t ht
    rw [ended_life] at ht
    split at ht
    · exact absurd ht hl
    · rename_i hne
      rcases h.held t ht with ⟨x, hx, h1, h2⟩ | h1
      · exact .inl ⟨x, hx, by rw [hflag]; exact h1, by rw [hslot]; exact h2⟩
      · exact absurd h1 hne
  · intro t ht; cases ht
  · intro t ht
    rw [hnext] at ht
    rw [ended_life]
    split
    · rename_i h3
      have := (h.extra t h3).1
      rw [h.unborn t ht] at this; cases this
    · exact h.unborn t ht

/-- What `_rt` holds does not matter. -/
theorem Inv.setRet (h : Inv F V st m e) (v : Option Nat) : Inv F V st { m with ret := v } e :=
  ⟨h.on, h.off, h.known, h.live, h.apart, h.held, h.extra, h.unborn⟩

theorem store_flagged (F : Var → Bool) (m : Mem) (x y : Var) (v : Option Nat) (b : Bool) :
    store (flagged F m y b) x v = flagged F (store m x v) y b := by
  unfold flagged store; split <;> rfl

end Verif.Drop
