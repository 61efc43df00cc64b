import Verif.Core.RobinHood.Lemmas
/-! # Backward-shift removal with exact distances -/
namespace Verif.RH

variable {α : Type}

/-- exact distances -/
def exactProbe (cap i h : Nat) : Dist := some (dist cap i h)

/-- Local form of reachability: an item that is not at home follows an item that is at most one
step closer to its own home. -/
def Loc (cap : Nat) (d : Nat → Option (Node α)) : Prop :=
  ∀ i n, i < cap → d ((i + 1) % cap) = some n → 0 < dist cap ((i + 1) % cap) n.home →
    ∃ m, d i = some m ∧ dist cap ((i + 1) % cap) n.home ≤ dist cap i m.home + 1

def Homes (hash : α → Nat) (cap : Nat) (d : Nat → Option (Node α)) : Prop :=
  ∀ i n, i < cap → d i = some n → n.home = hash n.elem % cap

theorem exists_pred {cap i : Nat} (hi : i < cap) : ∃ p, p < cap ∧ (p + 1) % cap = i := by
  by_cases h : i = 0
  · refine ⟨cap - 1, by omega, ?_⟩
    rw [show cap - 1 + 1 = cap by omega]; simp [h]
  · exact ⟨i - 1, by omega, by rw [show i - 1 + 1 = i by omega, Nat.mod_eq_of_lt hi]⟩

/-- moving one slot back is moving one step closer to home -/
theorem dist_pred {cap i h : Nat} (hi : i < cap) (hh : h < cap) (hp : 0 < dist cap ((i + 1) % cap) h) :
    dist cap i h + 1 = dist cap ((i + 1) % cap) h := by
  have hn : (i + 1) % cap < cap := Nat.mod_lt _ (by omega)
  by_cases hic : i + 1 < cap
  · rw [Nat.mod_eq_of_lt hic] at hp ⊢
    unfold dist at *
    split at hp <;> split <;> omega
  · have e : (i + 1) % cap = 0 := by rw [show i + 1 = cap by omega, Nat.mod_self]
    rw [e] at hp ⊢
    unfold dist at *
    split at hp <;> split <;> omega

theorem loc_of_reach {P : Params} {hash : α → Nat} {cap : Nat} {d : Nat → Option (Node α)}
    (hex : ∀ i n, i < cap → d i = some n → P.probe cap i n.home = some (dist cap i n.home))
    (hr : Reach P hash cap d) : Loc cap d := by
  intro i n hi hn hp
  have hcap : 0 < cap := by omega
  have hni : (i + 1) % cap < cap := Nat.mod_lt _ hcap
  have hh : n.home < cap := by rw [hr.home _ n hni hn]; exact Nat.mod_lt _ hcap
  have hd := dist_pred hi hh hp
  obtain ⟨m, hm, hg⟩ := hr.path _ n hni hn (dist cap i n.home) (by omega)
  rw [home_add_dist hi hh] at hm hg
  refine ⟨m, hm, ?_⟩
  rw [hex i m hi hm] at hg
  simp only [gtDist, gt_iff_lt, decide_eq_false_iff_not, Nat.not_lt] at hg
  omega

theorem reach_of_loc {P : Params} (hP : Good P) {hash : α → Nat} {cap : Nat} {d : Nat → Option (Node α)}
    (hh : Homes hash cap d) (hl : Loc cap d) : Reach P hash cap d := by
  refine ⟨hh, ?_⟩
  -- `k` steps back from the slot
  have key : ∀ k i n, i < cap → d i = some n → k ≤ dist cap i n.home →
      ∃ m, d ((n.home + (dist cap i n.home - k)) % cap) = some m ∧
        dist cap i n.home - k ≤ dist cap ((n.home + (dist cap i n.home - k)) % cap) m.home := by
    intro k
    induction k with
    | zero =>
      intro i n hi hn _
      have hnh : n.home < cap := by rw [hh i n hi hn]; exact Nat.mod_lt _ (by omega)
      refine ⟨n, by rw [Nat.sub_zero, home_add_dist hi hnh]; exact hn, ?_⟩
      rw [Nat.sub_zero, home_add_dist hi hnh]
      omega
    | succ k ih =>
      intro i n hi hn hk
      have hcap : 0 < cap := by omega
      have hnh : n.home < cap := by rw [hh i n hi hn]; exact Nat.mod_lt _ (by omega)
      obtain ⟨m, hm, hle⟩ := ih i n hi hn (by omega)
      generalize hD : dist cap i n.home = D at *
      have hsucc : ((n.home + (D - (k + 1))) % cap + 1) % cap = (n.home + (D - k)) % cap := by
        rw [mod_succ]; congr 1; omega
      have := hl ((n.home + (D - (k + 1))) % cap) m (Nat.mod_lt _ hcap) (by rw [hsucc]; exact hm)
        (by rw [hsucc]; omega)
      obtain ⟨m', hm', hle'⟩ := this
      rw [hsucc] at hle'
      exact ⟨m', hm', by omega⟩
  intro i n hi hn l hlt
  obtain ⟨m, hm, hle⟩ := key (dist cap i n.home - l) i n hi hn (by omega)
  rw [show dist cap i n.home - (dist cap i n.home - l) = l by omega] at hm hle
  refine ⟨m, hm, ?_⟩
  have hcap : 0 < cap := by omega
  have hmi : (n.home + l) % cap < cap := Nat.mod_lt _ hcap
  have hmh : m.home < cap := by rw [hh _ m hmi hm]; exact Nat.mod_lt _ hcap
  cases hp : P.probe cap ((n.home + l) % cap) m.home with
  | none => rfl
  | some p =>
    have := hP.probe_true _ _ _ p hmi hmh hp
    subst this
    simp [gtDist, hle]

/-- The table while the chain is being shifted: slot `i` is empty and used to hold an item at
distance `p`. -/
structure Hole (hash : α → Nat) (cap : Nat) (d : Nat → Option (Node α)) (i p : Nat) : Prop where
  lt : i < cap
  empty : d i = none
  homes : Homes hash cap d
  loc : ∀ s n, s < cap → s ≠ i → d ((s + 1) % cap) = some n → 0 < dist cap ((s + 1) % cap) n.home →
    ∃ m, d s = some m ∧ dist cap ((s + 1) % cap) n.home ≤ dist cap s m.home + 1
  next : ∀ n, d ((i + 1) % cap) = some n → dist cap ((i + 1) % cap) n.home ≤ p + 1
  prev : ∀ s, s < cap → (s + 1) % cap = i → p = 0 ∨ ∃ m, d s = some m ∧ p ≤ dist cap s m.home + 1

theorem hole_of_removed {hash : α → Nat} {cap : Nat} {d : Nat → Option (Node α)} (hh : Homes hash cap d)
    (hl : Loc cap d) {i : Nat} {n : Node α} (hi : i < cap) (hn : d i = some n) (h1 : 1 < cap) :
    Hole hash cap (upd d i none) i (dist cap i n.home) where
  lt := hi
  empty := by simp
  homes := by
    intro s m hs hm
    by_cases h : s = i
    · subst h; simp at hm
    · rw [upd_ne _ _ h] at hm; exact hh s m hs hm
  loc := by
    intro s m hs hsi hm hp
    by_cases h : (s + 1) % cap = i
    · rw [h] at hm; simp at hm
    · rw [upd_ne _ _ h] at hm
      obtain ⟨q, hq, hle⟩ := hl s m hs hm hp
      exact ⟨q, by rw [upd_ne _ _ hsi]; exact hq, hle⟩
  next := by
    intro m hm
    have h : (i + 1) % cap ≠ i := by
      by_cases hc : i + 1 < cap
      · rw [Nat.mod_eq_of_lt hc]; omega
      · rw [show i + 1 = cap by omega, Nat.mod_self]; omega
    rw [upd_ne _ _ h] at hm
    rcases Nat.eq_zero_or_pos (dist cap ((i + 1) % cap) m.home) with h0 | h0
    · omega
    · obtain ⟨q, hq, hle⟩ := hl i m hi hm h0
      rw [hn] at hq
      cases hq
      exact hle
  prev := by
    intro s hs hsi
    by_cases h0 : dist cap i n.home = 0
    · exact Or.inl h0
    · right
      have hne : s ≠ i := by
        intro h
        subst h
        by_cases hc : s + 1 < cap
        · rw [Nat.mod_eq_of_lt hc] at hsi; omega
        · rw [show s + 1 = cap by omega, Nat.mod_self] at hsi; omega
      obtain ⟨m, hm, hle⟩ := hl s n hs (by rw [hsi]; exact hn) (by rw [hsi]; omega)
      rw [hsi] at hle
      exact ⟨m, by rw [upd_ne _ _ hne]; exact hm, hle⟩

/-- The shift ends, keeps the elements and restores reachability. -/
theorem shiftLoop_spec {P : Params} (hex : ∀ cap i h, P.probe cap i h = exactProbe cap i h)
    {hash : α → Nat} {cap : Nat} :
    ∀ fuel d i p m, Hole hash cap d i p → 0 < m → m ≤ fuel → m < cap → d ((i + m) % cap) = none →
      ∃ d', shiftLoop P cap fuel d i = some d' ∧ Homes hash cap d' ∧ Loc cap d' ∧
        (contents cap d').Perm (contents cap d) := by
  intro fuel
  induction fuel with
  | zero => intro d i p m _ _ _; omega
  | succ fuel ih =>
    intro d i p m hH hm0 hmf hmc hfree
    have hi := hH.lt
    have hcap : 0 < cap := by omega
    have hni : (i + 1) % cap < cap := Nat.mod_lt _ hcap
    have hne : (i + 1) % cap ≠ i := by
      by_cases hc : i + 1 < cap
      · rw [Nat.mod_eq_of_lt hc]; omega
      · rw [show i + 1 = cap by omega, Nat.mod_self]; omega
    unfold shiftLoop
    simp only
    cases hd : d ((i + 1) % cap) with
    | none =>
      refine ⟨d, rfl, hH.homes, ?_, List.Perm.refl _⟩
      intro s n hs hn hp
      by_cases hsi : s = i
      · subst hsi; rw [hd] at hn; cases hn
      · exact hH.loc s n hs hsi hn hp
    | some x =>
      have hxh : x.home < cap := by rw [hH.homes _ x hni hd]; exact Nat.mod_lt _ hcap
      simp only [hex, exactProbe, Option.some.injEq]
      by_cases h0 : dist cap ((i + 1) % cap) x.home = 0
      · rw [if_pos h0]
        refine ⟨d, rfl, hH.homes, ?_, List.Perm.refl _⟩
        intro s n hs hn hp
        by_cases hsi : s = i
        · subst hsi; rw [hd] at hn; cases hn; omega
        · exact hH.loc s n hs hsi hn hp
      · rw [if_neg h0]
        have hpred := dist_pred hi hxh (by omega)
        have hnext := hH.next x hd
        generalize hni' : (i + 1) % cap = ni at *
        have hm2 : ∃ m', m = m' + 1 ∧ 0 < m' := by
          refine ⟨m - 1, by omega, ?_⟩
          rcases Nat.lt_or_ge 1 m with h | h
          · omega
          · have : m = 1 := by omega
            subst this
            rw [hni', hd] at hfree; cases hfree
        obtain ⟨m', rfl, hm'⟩ := hm2
        -- the free slot ahead
        have hfr : (ni + m') % cap = (i + (m' + 1)) % cap := by
          rw [← hni', Nat.add_mod, Nat.mod_mod, ← Nat.add_mod]; congr 1; omega
        have hfi : (i + (m' + 1)) % cap ≠ i := by
          intro h
          by_cases hc : i + (m' + 1) < cap
          · rw [Nat.mod_eq_of_lt hc] at h; omega
          · rw [Nat.mod_eq_sub_mod (by omega), Nat.mod_eq_of_lt (by omega)] at h; omega
        have hfn : (i + (m' + 1)) % cap ≠ ni := by
          intro h; rw [h, hd] at hfree; cases hfree
        have hH' : Hole hash cap (upd (upd d i (some x)) ni none) ni (dist cap ni x.home) := by
          refine ⟨hni, by simp, ?_, ?_, ?_, ?_⟩
          · intro s n hs hn
            by_cases hsn : s = ni
            · subst hsn; simp at hn
            · rw [upd_ne _ _ hsn] at hn
              by_cases hsi : s = i
              · subst hsi; simp at hn; rw [← hn]; exact hH.homes ni x hni hd
              · rw [upd_ne _ _ hsi] at hn; exact hH.homes s n hs hn
          · intro s n hs hsn hn hp
            by_cases hs1 : (s + 1) % cap = ni
            · rw [hs1] at hn; simp at hn
            · rw [upd_ne _ _ hs1] at hn
              by_cases hs2 : (s + 1) % cap = i
              · -- the item moved into slot `i`
                rw [hs2] at hn hp ⊢
                simp at hn
                subst hn
                have hsi : s ≠ i := by
                  intro h; subst h; exact hs1 hni'
                rcases hH.prev s hs hs2 with h | ⟨q, hq, hle⟩
                · omega
                · exact ⟨q, by rw [upd_ne _ _ hsn, upd_ne _ _ hsi]; exact hq, by omega⟩
              · rw [upd_ne _ _ hs2] at hn
                have hsi : s ≠ i := by
                  intro h; subst h; exact hs1 hni'
                obtain ⟨q, hq, hle⟩ := hH.loc s n hs hsi hn hp
                exact ⟨q, by rw [upd_ne _ _ hsn, upd_ne _ _ hsi]; exact hq, hle⟩
          · intro n hn
            by_cases h1 : (ni + 1) % cap = ni
            · rw [h1] at hn; simp at hn
            · rw [upd_ne _ _ h1] at hn
              by_cases h2 : (ni + 1) % cap = i
              · rw [h2] at hn ⊢
                simp at hn
                subst hn
                omega
              · rw [upd_ne _ _ h2] at hn
                rcases Nat.eq_zero_or_pos (dist cap ((ni + 1) % cap) n.home) with h | h
                · omega
                · obtain ⟨q, hq, hle⟩ := hH.loc ni n hni hne hn h
                  rw [hd] at hq
                  cases hq
                  exact hle
          · intro s hs hsn
            have hsi : s = i := by
              have e1 : (s + 1) % cap = (i + 1) % cap := by rw [hsn, hni']
              by_cases a : s + 1 < cap <;> by_cases b : i + 1 < cap
              · rw [Nat.mod_eq_of_lt a, Nat.mod_eq_of_lt b] at e1; omega
              · rw [Nat.mod_eq_of_lt a, show i + 1 = cap by omega, Nat.mod_self] at e1; omega
              · rw [Nat.mod_eq_of_lt b, show s + 1 = cap by omega, Nat.mod_self] at e1; omega
              · omega
            subst hsi
            right
            exact ⟨x, by rw [upd_ne _ _ (fun h => hne h.symm)]; simp, by omega⟩
        obtain ⟨d', h1, h2, h3, h4⟩ := ih _ ni _ m' hH' hm' (by omega) (by omega)
          (by rw [hfr, upd_ne _ _ hfn, upd_ne _ _ hfi]; exact hfree)
        refine ⟨d', h1, h2, h3, h4.trans ?_⟩
        -- moving keeps the elements
        have e1 := contents_added hi hH.empty x
        have e2 := contents_erased (d := upd d i (some x)) hni
          (show upd d i (some x) ni = some x by rw [upd_ne _ _ hne]; exact hd)
        exact (e2.trans e1).cons_inv

end Verif.RH
