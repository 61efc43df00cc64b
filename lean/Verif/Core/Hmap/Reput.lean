import Verif.Core.Hmap.Props
/-!
# Putting a key again: exactly when a second copy is stored (C06)
-/
namespace Verif.Hmap

open Verif.RH Spec

variable {α : Type}

/-- If no two of the item in hand and the items ahead are equal, comparing makes no difference. -/
theorem putLoop_apart (P : Params) (eq : α → α → Bool) (cap : Nat) (replace : Bool) (h : Nat) (hh : h < cap) :
    ∀ (fuel : Nat) (d : Nat → Option (Node α)) (it : Node α) (t j m : Nat), t + m < cap → d ((h + t + m) % cap) = none →
      (∀ u x, t ≤ u → u < cap → d ((h + u) % cap) = some x → eq x.elem it.elem = false ∧
        ∀ v y, t ≤ v → v < cap → v ≠ u → d ((h + v) % cap) = some y → eq y.elem x.elem = false) →
      putLoop P eq cap replace fuel d it ((h + t) % cap) j
        = putLoop P (fun _ _ => false) cap replace fuel d it ((h + t) % cap) j := by
  intro fuel
  induction fuel with
  | zero => intros; rfl
  | succ fuel ih =>
    intro d it t j m htm hfree hap
    unfold putLoop
    cases hd : d ((h + t) % cap) with
    | none => rfl
    | some x =>
      have hx := hap t x (Nat.le_refl t) (by omega) hd
      have hm : m ≠ 0 := by
        intro e; subst e; rw [Nat.add_zero, hd] at hfree; cases hfree
      have hne : ∀ u, t + 1 ≤ u → u < cap → (h + u) % cap ≠ (h + t) % cap := by
        intro u hu huc he
        have h1 := dist_eq hh huc he
        have h2 := dist_eq hh (show t < cap by omega) rfl
        omega
      have e1 : ((h + t) % cap + 1) % cap = (h + (t + 1)) % cap := by rw [mod_succ, Nat.add_assoc]
      simp only [hx.1, Bool.false_eq_true, if_false, e1]
      by_cases hs : P.swap j (P.probe cap ((h + t) % cap) x.home) = true
      · rw [if_pos hs, if_pos hs]
        refine ih _ x (t + 1) _ (m - 1) (by omega) ?_ ?_
        · rw [show h + (t + 1) + (m - 1) = h + t + m by omega]
          have : (h + t + m) % cap ≠ (h + t) % cap := by
            have := hne (t + m) (by omega) htm
            rwa [← Nat.add_assoc] at this
          rw [upd_ne _ _ this]; exact hfree
        · intro u y hu huc hy
          rw [upd_ne _ _ (hne u hu huc)] at hy
          refine ⟨hx.2 u y (by omega) huc (by omega) hy, fun v z hv hvc hvu hz => ?_⟩
          rw [upd_ne _ _ (hne v hv hvc)] at hz
          exact (hap u y (by omega) huc hy).2 v z (by omega) hvc hvu hz
      · rw [if_neg hs, if_neg hs]
        refine ih d it (t + 1) (j + 1) (m - 1) (by omega) ?_ ?_
        · rw [show h + (t + 1) + (m - 1) = h + t + m by omega]; exact hfree
        · intro u y hu huc hy
          have := hap u y (by omega) huc hy
          exact ⟨this.1, fun v z hv hvc hvu hz => this.2 v z (by omega) hvc hvu hz⟩

/-- **C06, exactly.** After any history in which every put was of an absent key, put a key `e` that is stored, in slot `i`.  As long as
the table does not have to grow, this adds a second copy, which is counted, exactly if another key with the same home slot stands in
front of the stored one. -/
theorem reput_duplicates_iff {hash : α → Nat} {eq : α → α → Bool} (hc : Compat hash eq) (c : Nat)
    (ops : List (Op α)) (hf : PutsFresh eq [] ops) (m : Map α) (outs : List (Out α))
    (hrun : run hash eq (create α c) ops = .ok (outs, m)) (e : α) (i : Nat) (n : Node α)
    (hin : i < m.cap) (hn : m.data i = some n) (he : eq n.elem e = true) (hroom : idealSize (m.size + 1) ≤ m.cap) :
    (∃ m', step hash eq m (.put e) = .ok (.put true, m') ∧ m'.size = m.size + 1 ∧
        (elems m').Perm (e :: (Spec.run eq [] ops).2)) ↔
      ∃ l q, l < dist m.cap i (hash e % m.cap) ∧ m.data ((hash e % m.cap + l) % m.cap) = some q ∧
        hash q.elem % m.cap = hash e % m.cap := by
  obtain ⟨m0, h0, hi, hp⟩ := run_refines hc ops (create α c) [] (create_inv _ _ c) (by rw [create, elems_empty]) hf
  rw [h0] at hrun
  cases hrun
  have hfree := hi.free
  have hcap : 0 < m.cap := by omega
  have hnhome : n.home = hash e % m.cap := by rw [hi.1.reach.home i n hin hn, hc.hash_eq _ _ he]
  have hnh : n.home < m.cap := by rw [hnhome]; exact Nat.mod_lt _ hcap
  have hlt := dist_lt hin hnh
  -- in front of the stored key, a swap means the same home slot
  have hsame : ∀ l q, l < dist m.cap i n.home → m.data ((n.home + l) % m.cap) = some q →
      (params.swap l (params.probe m.cap ((n.home + l) % m.cap) q.home) = true ↔ hash q.elem % m.cap = n.home) := by
    intro l q hl hq
    have hsl : (n.home + l) % m.cap < m.cap := Nat.mod_lt _ hcap
    have hqe := hi.1.reach.home _ q hsl hq
    have hqh : q.home < m.cap := by rw [hqe]; exact Nat.mod_lt _ hcap
    obtain ⟨q', hq', hg⟩ := hi.1.reach.path i n hin hn l hl
    rw [hq] at hq'
    cases hq'
    simp only [exact_probe, exactProbe, gtDist, gt_iff_lt, decide_eq_false_iff_not, Nat.not_lt] at hg
    have hsw : params.swap l (params.probe m.cap ((n.home + l) % m.cap) q.home)
        = decide (l ≥ dist m.cap ((n.home + l) % m.cap) q.home) := rfl
    rw [hsw, decide_eq_true_iff, ← hqe]
    constructor
    · intro hge
      have hle : dist m.cap ((n.home + l) % m.cap) q.home = l := by omega
      have h1 := home_add_dist hsl hqh
      rw [hle] at h1
      have h2 : (q.home + l) % m.cap = (n.home + l) % m.cap := h1
      by_cases a : q.home + l < m.cap <;> by_cases b : n.home + l < m.cap
      · rw [Nat.mod_eq_of_lt a, Nat.mod_eq_of_lt b] at h2; omega
      · rw [Nat.mod_eq_of_lt a, Nat.mod_eq_sub_mod (by omega), Nat.mod_eq_of_lt (by omega)] at h2; omega
      · rw [Nat.mod_eq_of_lt b, Nat.mod_eq_sub_mod (by omega), Nat.mod_eq_of_lt (by omega)] at h2; omega
      · rw [Nat.mod_eq_sub_mod (by omega), Nat.mod_eq_of_lt (show q.home + l - m.cap < m.cap by omega),
          Nat.mod_eq_sub_mod (show n.home + l ≥ m.cap by omega),
          Nat.mod_eq_of_lt (show n.home + l - m.cap < m.cap by omega)] at h2
        omega
    · intro h
      rw [h, dist_mod_eq hnh (by omega)]
      exact Nat.le_refl _
  rw [← hnhome]
  constructor
  · rintro ⟨m', hm', hsz, _⟩
    refine Classical.byContradiction fun hno => ?_
    have hsw : ∀ l q, l < dist m.cap i n.home → m.data ((n.home + l) % m.cap) = some q →
        params.swap l (params.probe m.cap ((n.home + l) % m.cap) q.home) = false := by
      intro l q hl hq
      cases hs : params.swap l (params.probe m.cap ((n.home + l) % m.cap) q.home) with
      | false => rfl
      | true => exact absurd ⟨l, q, hl, hq, (hsame l q hl hq).mp hs⟩ hno
    obtain ⟨d', h1, _, _⟩ := put_present hc hi.1 e true i n hin hn he hsw
    simp only [step, put, putInternal] at hm'
    rw [if_neg (by omega)] at hm'
    simp [h1] at hm'
  · rintro ⟨l₀, q₀, hl₀, hq₀, hh₀⟩
    have hs₀ := (hsame l₀ q₀ hl₀ hq₀).mpr hh₀
    -- a free slot
    obtain ⟨f, hfl, hdf⟩ := exists_free (d := m.data) (cap := m.cap) (by rw [hi.1.size_eq]; exact hfree)
    obtain ⟨k, hk, hke⟩ := exists_offset hcap n.home f hfl
    have hslot : ∀ l, l < m.cap → l ≠ dist m.cap i n.home → (n.home + l) % m.cap ≠ i := by
      intro l hl hne h
      exact hne (dist_eq hnh hl h).symm
    have hkD : dist m.cap i n.home < k := by
      rcases Nat.lt_trichotomy (dist m.cap i n.home) k with h | h | h
      · exact h
      · exfalso
        have := home_add_dist hin hnh
        rw [h, hke] at this
        rw [this, hn] at hdf; cases hdf
      · exfalso
        obtain ⟨q, hq, _⟩ := hi.1.reach.path i n hin hn k h
        rw [hke, hdf] at hq; cases hq
    -- no comparison succeeds
    have key : ∀ (fuel l : Nat), l ≤ l₀ →
        putLoop params eq m.cap true fuel m.data ⟨n.home, e⟩ ((n.home + l) % m.cap) l
          = putLoop params (fun _ _ => false) m.cap true fuel m.data ⟨n.home, e⟩ ((n.home + l) % m.cap) l := by
      intro fuel
      induction fuel with
      | zero => intros; rfl
      | succ fuel ih =>
        intro l hl
        obtain ⟨q, hq, _⟩ := hi.1.reach.path i n hin hn l (by omega)
        have hsl : (n.home + l) % m.cap < m.cap := Nat.mod_lt _ hcap
        have hqn := pairwise_slots hc hi.1.distinct hsl hin (hslot l (by omega) (by omega)) hq hn
        have hqe : eq q.elem e = false := by
          cases hqe : eq q.elem e with
          | false => rfl
          | true => have := hc.trans _ _ _ hqe (hc.symm _ _ he); rw [hqn] at this; cases this
        unfold putLoop
        simp only [hq, hqe, Bool.false_eq_true, if_false]
        have e1 : ((n.home + l) % m.cap + 1) % m.cap = (n.home + (l + 1)) % m.cap := by rw [mod_succ, Nat.add_assoc]
        rw [e1]
        by_cases hs : params.swap l (params.probe m.cap ((n.home + l) % m.cap) q.home) = true
        · rw [if_pos hs, if_pos hs]
          have hne : ∀ u, l + 1 ≤ u → u < m.cap → (n.home + u) % m.cap ≠ (n.home + l) % m.cap := by
            intro u hu huc h
            have h1 := dist_eq hnh huc h
            have h2 := dist_eq hnh (show l < m.cap by omega) rfl
            omega
          refine putLoop_apart params eq m.cap true n.home hnh fuel _ q (l + 1) _ (k - (l + 1)) (by omega) ?_ ?_
          · rw [show n.home + (l + 1) + (k - (l + 1)) = n.home + k by omega, upd_ne _ _ (hne k (by omega) hk), hke]
            exact hdf
          · intro u x hu huc hx
            rw [upd_ne _ _ (hne u hu huc)] at hx
            have hul : (n.home + u) % m.cap < m.cap := Nat.mod_lt _ hcap
            refine ⟨pairwise_slots hc hi.1.distinct hul hsl (hne u hu huc) hx hq, fun v y hv hvc hvu hy => ?_⟩
            rw [upd_ne _ _ (hne v hv hvc)] at hy
            refine pairwise_slots hc hi.1.distinct (Nat.mod_lt _ hcap) hul (fun h => ?_) hy hx
            have h1 := dist_eq hnh hvc h
            have h2 := dist_eq hnh huc rfl
            omega
        · rw [if_neg hs, if_neg hs]
          have : l ≠ l₀ := by
            intro h; subst h
            rw [hq₀] at hq; cases hq
            exact hs hs₀
          exact ih (l + 1) (by omega)
    obtain ⟨d', h1, _, h3⟩ := putLoop_new good (hash := hash) (eq := fun _ _ => false) (fun _ _ _ => rfl) hcap true m.cap m.data
      ⟨n.home, e⟩ 0 k hi.1.reach hnhome
      (List.Pairwise.imp (R := fun _ _ => True) (fun _ => rfl) (by
        exact List.pairwise_of_forall (fun _ _ => trivial)))
      hcap (by intro l hl; omega) hk (by rw [Nat.add_zero, hke]; exact hdf)
    rw [← key m.cap 0 (Nat.zero_le _)] at h1
    simp only [Nat.add_zero, Nat.mod_eq_of_lt hnh] at h1
    rw [hnhome] at h1
    refine ⟨⟨m.cap, m.size + 1, d'⟩, ?_, rfl, h3.trans (hp.cons e)⟩
    simp only [step, put, putInternal]
    rw [if_neg (by omega)]
    simp only [h1, Res.bind_ok, if_true]
    rw [if_neg (by omega)]
    rfl

/-- Such a state: two keys with the home slot 0 in a table of five slots; the key that was put first is in slot 1. -/
example :
    let m := ((run (fun _ : Nat × Nat => 0) (fun a b => decide (a.1 = b.1)) (create (Nat × Nat) 2)
      [.put (1, 10), .put (2, 20)]).getD ([], create _ 0)).2
    m.cap = 5 ∧ (m.data 1).map (·.elem) = some (1, 10) ∧ (m.data 0).map (·.elem) = some (2, 20) ∧
      idealSize (m.size + 1) ≤ m.cap ∧ 0 < dist m.cap 1 0 := by decide

end Verif.Hmap
