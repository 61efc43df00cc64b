import Verif.Core.RobinHood.RemoveLemmas
import Verif.Common.Res
/-! # Whole-map lemmas shared by the two instances -/
namespace Verif.RH

variable {α : Type}

/-- invariant of a map, without the load condition -/
structure Core (P : Params) (hash : α → Nat) (eq : α → α → Bool) (m : Map α) : Prop where
  reach : Reach P hash m.cap m.data
  distinct : (contents m.cap m.data).Pairwise (fun a b => eq a b = false)
  size_eq : (contents m.cap m.data).length = m.size

/-- the elements of a map -/
def elems (m : Map α) : List α := contents m.cap m.data

/-- invariant between operations: no slots at all, or the load factor respected -/
structure Inv (P : Params) (hash : α → Nat) (eq : α → α → Bool) (m : Map α) : Prop extends Core P hash eq m where
  load : m.cap = 0 ∨ idealSize m.size ≤ m.cap

theorem Inv.free {P : Params} {hash : α → Nat} {eq : α → α → Bool} {m : Map α} (h : Inv P hash eq m)
    (hc : 0 < m.cap) : m.size < m.cap := by
  rcases h.load with h | h
  · omega
  · exact Nat.lt_of_lt_of_le (idealSize_gt _) h

theorem Core.elems_nil_of_cap {P : Params} {hash : α → Nat} {eq : α → α → Bool} {m : Map α}
    (_h : Core P hash eq m) (hc : m.cap = 0) : elems m = [] := by
  simp [elems, contents, hc]

theorem core_empty (P : Params) (hash : α → Nat) (eq : α → α → Bool) (cap : Nat) :
    Core P hash eq ⟨cap, 0, fun _ => none⟩ :=
  Core.mk (reach_empty P hash cap) (by simp [contents_empty]) (by simp [contents_empty])

theorem elems_empty (cap : Nat) : elems (⟨cap, 0, fun _ => none⟩ : Map α) = [] := contents_empty cap

theorem any_false {eq : α → Bool} {l : List α} (h : l.any eq = false) : ∀ x ∈ l, eq x = false := by
  intro x hx
  cases he : eq x with
  | false => rfl
  | true => rw [List.any_eq_true.mpr ⟨x, hx, he⟩] at h; cases h

/-- adding an element that is not there -/
theorem put_new {P : Params} (hP : Good P) {hash : α → Nat} {eq : α → α → Bool} (hc : Compat hash eq)
    {m : Map α} (hm : Core P hash eq m) (hfree : m.size < m.cap) (e : α) (replace : Bool)
    (hno : ∀ x ∈ elems m, eq x e = false) :
    ∃ d', putLoop P eq m.cap replace m.cap m.data ⟨hash e % m.cap, e⟩ (hash e % m.cap) 0 = .added d' ∧
      Core P hash eq ⟨m.cap, m.size + 1, d'⟩ ∧
      (elems ⟨m.cap, m.size + 1, d'⟩).Perm (e :: elems m) := by
  have hcap : 0 < m.cap := by omega
  obtain ⟨f, hf, hdf⟩ := exists_free (d := m.data) (cap := m.cap) (by rw [hm.size_eq]; exact hfree)
  obtain ⟨k, hk, hke⟩ := exists_offset hcap (hash e % m.cap) f hf
  have hpw : (e :: contents m.cap m.data).Pairwise (fun a b => eq a b = false) :=
    List.pairwise_cons.mpr ⟨fun x hx => hc.symm_false (hno x hx), hm.distinct⟩
  obtain ⟨d', h1, h2, h3⟩ := putLoop_new hP (fun _ _ h => hc.symm_false h) hcap replace m.cap m.data ⟨hash e % m.cap, e⟩ 0 k hm.reach rfl
    hpw hcap (by intro l hl; omega) hk (by rw [Nat.add_zero, hke]; exact hdf)
  refine ⟨d', ?_, ⟨h2, ?_, ?_⟩, h3⟩
  · simpa using h1
  · exact (h3.pairwise_iff (fun h => hc.symm_false h)).mpr hpw
  · simp only [h3.length_eq, List.length_cons, hm.size_eq]

/-- an element equal to one already there -/
theorem put_present {P : Params} {hash : α → Nat} {eq : α → α → Bool} (hc : Compat hash eq)
    {m : Map α} (hm : Core P hash eq m) (e : α) (replace : Bool)
    (i : Nat) (n : Node α) (hi : i < m.cap) (hn : m.data i = some n) (he : eq n.elem e = true)
    (hsw : ∀ l q, l < dist m.cap i n.home → m.data ((n.home + l) % m.cap) = some q →
      P.swap l (P.probe m.cap ((n.home + l) % m.cap) q.home) = false) :
    ∃ d', putLoop P eq m.cap replace m.cap m.data ⟨hash e % m.cap, e⟩ (hash e % m.cap) 0 = .present d' ∧
      Core P hash eq ⟨m.cap, m.size, d'⟩ ∧
      (elems ⟨m.cap, m.size, d'⟩).Perm
        (if replace then (elems m).map (fun x => if eq x e then e else x) else elems m) := by
  have hcap : 0 < m.cap := by omega
  have hhome : n.home = hash e % m.cap := by rw [hm.reach.home i n hi hn, hc.hash_eq _ _ he]
  have hlt := dist_lt hi (show n.home < m.cap by rw [hhome]; exact Nat.mod_lt _ hcap)
  have := putLoop_present (P := P) hc hcap replace hm.reach hm.distinct ⟨hash e % m.cap, e⟩ i n hi hn he hsw
    m.cap 0 (by omega) (by omega)
  simp only [Nat.add_zero, hhome, Nat.mod_mod] at this
  refine ⟨_, this, ?_, ?_⟩
  · cases replace with
    | false => exact ⟨hm.reach, hm.distinct, hm.size_eq⟩
    | true =>
      simp only [if_true]
      have hp := contents_replaced hi hn ⟨hash e % m.cap, e⟩
      refine ⟨reach_replace hc hm.reach hi hn rfl he, ?_, ?_⟩
      · -- distinctness: every other element differs from `n.elem`, hence from `e`
        have h1 : (n.elem :: contents m.cap (upd m.data i none)).Perm (contents m.cap m.data) :=
          contents_erased hi hn
        have h2 : (contents m.cap (upd m.data i (some ⟨hash e % m.cap, e⟩))).Perm
            (e :: contents m.cap (upd m.data i none)) := by
          have h3 := (hp.trans (h1.symm.cons e)).trans (List.Perm.swap _ _ _)
          exact h3.cons_inv
        rw [h2.pairwise_iff (fun h => hc.symm_false h)]
        have h4 := (h1.pairwise_iff (fun h => hc.symm_false h)).mpr hm.distinct
        obtain ⟨h5, h6⟩ := List.pairwise_cons.mp h4
        refine List.pairwise_cons.mpr ⟨?_, h6⟩
        intro b hb
        cases hbe : eq e b with
        | false => rfl
        | true =>
          have := hc.trans _ _ _ he hbe
          rw [h5 b hb] at this
          cases this
      · have := hp.length_eq
        simp only [List.length_cons] at this
        have h2 := hm.size_eq
        simp only
        omega
  · cases replace with
    | false => exact List.Perm.refl _
    | true =>
      simp only [if_true]
      -- same list, position by position
      have hEq : elems ⟨m.cap, m.size, upd m.data i (some ⟨hash e % m.cap, e⟩)⟩
          = (elems m).map (fun x => if eq x e then e else x) := by
        unfold elems contents
        rw [List.map_filterMap]
        apply filterMap_congr'
        intro s hs
        by_cases hsi : s = i
        · subst hsi; simp [hn, he]
        · simp only [upd_ne _ _ hsi]
          cases hds : m.data s with
          | none => rfl
          | some q =>
            have hq : eq q.elem e = false := by
              cases hqe : eq q.elem e with
              | false => rfl
              | true =>
                have h1 := hc.trans _ _ _ hqe (hc.symm _ _ he)
                rw [pairwise_slots hc hm.distinct (List.mem_range.mp hs) hi hsi hds hn] at h1
                cases h1
            simp [hq]
      rw [hEq]

/-- lookup -/
theorem get_spec {P : Params} (hP : Good P) {hash : α → Nat} {eq : α → α → Bool} (hc : Compat hash eq)
    {m : Map α} (hm : Core P hash eq m) (hfree : m.size < m.cap) (h : Nat) (test : α → Bool)
    (ht : ∀ a b, test a = true → test b = true → eq a b = true) (hh : ∀ a, test a = true → hash a = h) :
    (∃ i n, i < m.cap ∧ m.data i = some n ∧ test n.elem = true ∧ n.elem ∈ elems m ∧
        getLoop (P.stop m.cap) test m.cap m.data m.cap (h % m.cap) 0 = .found i) ∨
    ((∀ x ∈ elems m, test x = false) ∧ getLoop (P.stop m.cap) test m.cap m.data m.cap (h % m.cap) 0 = .absent) := by
  have hcap : 0 < m.cap := by omega
  cases hany : (elems m).any test with
  | true =>
    left
    obtain ⟨x, hx, hxt⟩ := List.any_eq_true.mp hany
    obtain ⟨i, n, hi, hn, rfl⟩ := mem_contents.mp hx
    have hhome : n.home = h % m.cap := by rw [hm.reach.home i n hi hn, hh _ hxt]
    have hlt := dist_lt hi (show n.home < m.cap by rw [hhome]; exact Nat.mod_lt _ hcap)
    have := getLoop_hit hc hcap hm.reach hm.distinct test ht i n hi hn hxt
      (P.stop m.cap) (fun l q _ _ hg => hg) (self_passes hP hi (by rw [hhome]; exact Nat.mod_lt _ hcap)) m.cap 0 (by omega) (by omega)
    simp only [Nat.add_zero, hhome, Nat.mod_mod] at this
    exact ⟨i, n, hi, hn, hxt, hx, this⟩
  | false =>
    right
    have hno := any_false hany
    exact ⟨hno, getLoop_miss hcap (by rw [hm.size_eq]; exact hfree) h hno⟩

/-- the element found is the one the specification finds -/
theorem find_unique {eq : α → α → Bool} {test : α → Bool}
    (ht : ∀ a b, test a = true → test b = true → eq a b = true) :
    ∀ {s : List α}, s.Pairwise (fun a b => eq a b = false) → ∀ {x : α}, x ∈ s → test x = true →
      s.find? test = some x := by
  intro s
  induction s with
  | nil => intro _ x hx; simp at hx
  | cons y s ih =>
    intro hpw x hx hxt
    obtain ⟨h1, h2⟩ := List.pairwise_cons.mp hpw
    rw [List.find?_cons]
    rcases List.mem_cons.mp hx with h | h
    · subst h; simp [hxt]
    · have hy : test y = false := by
        cases hyt : test y with
        | false => rfl
        | true => have := ht _ _ hyt hxt; rw [h1 x h] at this; cases this
      simp only [hy]
      exact ih h2 h hxt

/-- removing one element -/
theorem filter_unique {hash : α → Nat} {eq : α → α → Bool} (hc : Compat hash eq) {test : α → Bool}
    (ht : ∀ a b, test a = true → test b = true → eq a b = true) {x : α} {rest s : List α}
    (hp : (x :: rest).Perm s) (hpw : s.Pairwise (fun a b => eq a b = false)) (hx : test x = true) :
    rest.Perm (s.filter (fun y => !test y)) := by
  have h1 := (hp.pairwise_iff (fun h => hc.symm_false h)).mpr hpw
  obtain ⟨h2, _⟩ := List.pairwise_cons.mp h1
  have h3 : (x :: rest).filter (fun y => !test y) = rest := by
    rw [List.filter_cons]
    simp only [hx, Bool.not_true, Bool.false_eq_true, if_false]
    rw [List.filter_eq_self]
    intro y hy
    cases hyt : test y with
    | false => rfl
    | true => have := ht _ _ hx hyt; rw [h2 y hy] at this; cases this
  rw [← h3]
  exact hp.filter _

/-- re-inserting a list of distinct elements -/
theorem foldl_put {P : Params} {hash : α → Nat} {eq : α → α → Bool} (hc : Compat hash eq)
    (step : Map α → α → Res (Map α)) (cap bound : Nat)
    (hstep : ∀ m e, Core P hash eq m → m.cap = cap → m.size < bound → (∀ x ∈ elems m, eq x e = false) →
      ∃ m', step m e = .ok m' ∧ Core P hash eq m' ∧ m'.cap = cap ∧ (elems m').Perm (e :: elems m)) :
    ∀ (xs : List α) (m : Map α), Core P hash eq m → m.cap = cap → m.size + xs.length ≤ bound →
      (xs ++ elems m).Pairwise (fun a b => eq a b = false) →
      ∃ m', Res.foldl step m xs = .ok m' ∧ Core P hash eq m' ∧ m'.cap = cap ∧ (elems m').Perm (xs ++ elems m) := by
  intro xs
  induction xs with
  | nil => intro m hm hcap _ _; exact ⟨m, rfl, hm, hcap, List.Perm.refl _⟩
  | cons x xs ih =>
    intro m hm hcap hb hpw
    simp only [List.length_cons] at hb
    obtain ⟨h1, h2⟩ := List.pairwise_cons.mp hpw
    obtain ⟨m1, hs, hm1, hc1, hp1⟩ := hstep m x hm hcap (by omega)
      (fun y hy => hc.symm_false (h1 y (List.mem_append.mpr (Or.inr hy))))
    have hmid : (xs ++ elems m1).Perm (x :: (xs ++ elems m)) :=
      (hp1.append_left xs).trans List.perm_middle
    have hsz : m1.size = m.size + 1 := by
      have a := hm1.size_eq
      have b := hm.size_eq
      have c := hp1.length_eq
      simp only [elems, List.length_cons] at c
      omega
    obtain ⟨m2, h3, hm2, hc2, hp2⟩ := ih m1 hm1 hc1 (by omega)
      ((hmid.pairwise_iff (fun h => hc.symm_false h)).mpr hpw)
    exact ⟨m2, by simp [Res.foldl, hs, h3], hm2, hc2, hp2.trans hmid⟩

/-- Emptying an occupied slot and shifting the chain back, with exact distances. -/
theorem remove_exact {P : Params} (hP : Good P) (hex : ∀ cap i h, P.probe cap i h = exactProbe cap i h)
    {hash : α → Nat} {eq : α → α → Bool} (hc : Compat hash eq) {m : Map α} (hm : Core P hash eq m)
    (hfree : m.size < m.cap) {i : Nat} {n : Node α} (hi : i < m.cap) (hn : m.data i = some n) :
    ∃ d', shiftLoop P m.cap m.cap (upd m.data i none) i = some d' ∧
      Core P hash eq ⟨m.cap, m.size - 1, d'⟩ ∧ (n.elem :: contents m.cap d').Perm (elems m) := by
  have hcap : 0 < m.cap := by omega
  obtain ⟨f, hf, hdf⟩ := exists_free (d := m.data) (cap := m.cap) (by rw [hm.size_eq]; exact hfree)
  obtain ⟨k, hk, hke⟩ := exists_offset hcap i f hf
  have hfi : f ≠ i := by intro h; subst h; rw [hn] at hdf; cases hdf
  have hk0 : 0 < k := by
    rcases Nat.eq_zero_or_pos k with h | h
    · subst h; rw [Nat.add_zero, Nat.mod_eq_of_lt hi] at hke; exact absurd hke.symm hfi
    · exact h
  have hloc := loc_of_reach (fun i n _ _ => hex _ _ _) hm.reach
  have hH := hole_of_removed hm.reach.home hloc hi hn (by omega)
  obtain ⟨d', h1, h2, h3, h4⟩ := shiftLoop_spec hex m.cap _ i _ k hH hk0 (by omega) hk
    (by rw [hke, upd_ne _ _ hfi]; exact hdf)
  have hp : (n.elem :: contents m.cap d').Perm (elems m) := (h4.cons n.elem).trans (contents_erased hi hn)
  refine ⟨d', h1, ⟨reach_of_loc hP h2 h3, ?_, ?_⟩, hp⟩
  · have := (hp.pairwise_iff (fun h => hc.symm_false h)).mpr hm.distinct
    exact (List.pairwise_cons.mp this).2
  · have := hp.length_eq
    have h5 := hm.size_eq
    simp only [elems, List.length_cons] at this
    simp only
    omega

end Verif.RH
