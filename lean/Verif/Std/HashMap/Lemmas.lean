import Verif.Core.RobinHood.MapLemmas
import Verif.Std.HashMap.Model
import Verif.Std.HashMap.Spec
/-! # Helper lemmas for hash.cxy -/
namespace Verif.HashMap

open Verif.RH

variable {K V : Type}

theorem good : Good params where
  probe_true := by
    intro cap i h p _ _ hp
    simp only [params] at hp
    unfold dist
    split at hp
    · next hle => cases hp; simp [hle]
    · cases hp
  swap_le := by
    intro j p h
    cases p with
    | none => simp [params, gtDist] at h
    | some q => simp [params, gtDist] at h; exact ⟨q, rfl, by omega⟩
  no_swap := by intro j p h; exact h

/-- key hash and key equality, on entries -/
def ehash (hash : K → Nat) : K × V → Nat := fun e => hash e.1
def eeq (eq : K → K → Bool) : K × V → K × V → Bool := fun a b => eq a.1 b.1

theorem ecompat {hash : K → Nat} {eq : K → K → Bool} (hc : Compat hash eq) :
    Compat (ehash hash : K × V → Nat) (eeq eq) where
  refl := fun a => hc.refl a.1
  symm := fun a b => hc.symm a.1 b.1
  trans := fun a b c => hc.trans a.1 b.1 c.1
  hash_eq := fun a b => hc.hash_eq a.1 b.1

abbrev MInv (hash : K → Nat) (eq : K → K → Bool) (m : Map (K × V)) : Prop :=
  Inv params (ehash hash) (eeq eq) m

theorem init_inv (hash : K → Nat) (eq : K → K → Bool) (c : Nat) : MInv hash eq (init K V c) :=
  RH.Inv.mk (core_empty _ _ _ _) (Or.inr (idealSize_mono (Nat.zero_le _)))

theorem insertInternal_new {hash : K → Nat} {eq : K → K → Bool} (hc : Compat hash eq) {m : Map (K × V)}
    (hm : Core params (ehash hash) (eeq eq) m) (hfree : m.size < m.cap) (e : K × V) (replace : Bool)
    (hno : ∀ x ∈ elems m, eq x.1 e.1 = false) :
    ∃ m', insertInternal hash eq m e replace = .ok (true, m') ∧ Core params (ehash hash) (eeq eq) m' ∧
      m'.cap = m.cap ∧ (elems m').Perm (e :: elems m) := by
  obtain ⟨d', hl, hcore, hp⟩ := put_new good (ecompat hc) hm hfree e replace hno
  refine ⟨_, ?_, hcore, rfl, hp⟩
  unfold insertInternal
  have hl' : putLoop params (fun a b => eq a.1 b.1) m.cap replace m.cap m.data ⟨hash e.1 % m.cap, e⟩ (hash e.1 % m.cap) 0
    = .added d' := hl
  simp only [if_neg (show ¬ m.cap = 0 by omega), hl']

theorem rehash_spec {hash : K → Nat} {eq : K → K → Bool} (hc : Compat hash eq) {m : Map (K × V)}
    (hm : Core params (ehash hash) (eeq eq) m) (newCap : Nat) (hcap : newCap = idealSize m.size) :
    ∃ m', rehash hash eq m newCap = .ok m' ∧ MInv hash eq m' ∧ (elems m').Perm (elems m) := by
  have hgt := idealSize_gt m.size
  obtain ⟨m', h1, h2, h3, h4⟩ := foldl_put (P := params) (ecompat hc)
    (fun m e => (insertInternal hash eq m e true).map (·.2)) newCap m.size
    (by
      intro m1 e hm1 hcap1 hlt hno
      obtain ⟨m2, h1, h2, h3, h4⟩ := insertInternal_new hc hm1 (by omega) e true hno
      exact ⟨m2, by simp [h1], h2, by omega, h4⟩)
    (contents m.cap m.data) ⟨newCap, 0, fun _ => none⟩ (core_empty _ _ _ _) rfl
    (by rw [hm.size_eq]; simp) (by rw [elems_empty, List.append_nil]; exact hm.distinct)
  rw [elems_empty, List.append_nil] at h4
  refine ⟨m', h1, ⟨h2, Or.inr ?_⟩, h4⟩
  have : m'.size = m.size := by rw [← h2.size_eq, ← hm.size_eq]; exact h4.length_eq
  rw [this, h3, hcap]
  omega

/-- the map `insertInternal` works on after its first lines -/
def prepared (m0 : Map (K × V)) : Map (K × V) := if m0.cap = 0 then ⟨idealSize 1, m0.size, fun _ => none⟩ else m0

theorem prepared_inv {hash : K → Nat} {eq : K → K → Bool} {m : Map (K × V)} (hm : MInv hash eq m) :
    Core params (ehash hash) (eeq eq) (prepared m) ∧ (prepared m).size < (prepared m).cap ∧
      idealSize (prepared m).size ≤ (prepared m).cap ∧ elems (prepared m) = elems m := by
  unfold prepared
  by_cases h : m.cap = 0
  · simp only [if_pos h]
    have he := hm.toCore.elems_nil_of_cap h
    have hs : m.size = 0 := by rw [← hm.size_eq]; unfold elems at he; rw [he]; rfl
    rw [hs, he]
    exact ⟨core_empty _ _ _ _, by decide, by decide, contents_empty _⟩
  · simp only [if_neg h]
    refine ⟨hm.toCore, hm.free (by omega), ?_, trivial⟩
    rcases hm.load with h' | h'
    · exact absurd h' h
    · exact h'

theorem insert_prepared (hash : K → Nat) (eq : K → K → Bool) (m : Map (K × V)) (k : K) (v : V) (r : Bool)
    (hpos : 0 < (prepared m).cap) : insert hash eq m k v r = insert hash eq (prepared m) k v r := by
  unfold insert insertInternal
  have : (if (prepared m).cap = 0 then ⟨idealSize 1, (prepared m).size, fun _ => none⟩ else prepared m)
      = prepared m := if_neg (by omega)
  rw [this]
  rfl

theorem insert_ok {hash : K → Nat} {eq : K → K → Bool} (hc : Compat hash eq) {m0 : Map (K × V)}
    (hm0 : MInv hash eq m0) (k : K) (v : V) (r : Bool) {s : List (K × V)} (hp0 : (elems m0).Perm s) :
    ∃ m', insert hash eq m0 k v r = .ok ((Spec.insert eq s k v r).1, m') ∧ MInv hash eq m' ∧
      (elems m').Perm (Spec.insert eq s k v r).2 := by
  obtain ⟨hm, hfree, hload, hel⟩ := prepared_inv hm0
  rw [insert_prepared _ _ _ _ _ _ (by omega)]
  have hp : (elems (prepared m0)).Perm s := by rw [hel]; exact hp0
  generalize prepared m0 = m at *
  unfold insert Spec.insert
  cases hany : s.any (fun e => eq e.1 k) with
  | false =>
    simp only [Bool.false_eq_true, if_false]
    obtain ⟨m1, h1, h2, h3, h4⟩ := insertInternal_new hc hm hfree (k, v) r
      (fun x hx => any_false hany x (hp.mem_iff.mp hx))
    simp only [h1, Res.bind_ok, if_true]
    by_cases hbig : idealSize m1.size > m1.cap
    · rw [if_pos hbig]
      obtain ⟨m', h5, h6, h7⟩ := rehash_spec hc h2 _ rfl
      simp only [h5, Res.map_ok]
      exact ⟨m', rfl, h6, h7.trans (h4.trans (hp.cons _))⟩
    · rw [if_neg hbig]
      exact ⟨m1, rfl, ⟨h2, Or.inr (by omega)⟩, h4.trans (hp.cons _)⟩
  | true =>
    simp only [if_true]
    obtain ⟨x, hx, hxe⟩ := List.any_eq_true.mp hany
    obtain ⟨i, n, hin, hn, rfl⟩ := mem_contents.mp (hp.mem_iff.mpr hx)
    obtain ⟨d', h1, h2, h3⟩ := put_present (ecompat hc) hm (k, v) r i n hin hn hxe
      (by
        intro l q hl hq
        obtain ⟨q', hq', hg⟩ := hm.reach.path i n hin hn l hl
        rw [hq] at hq'
        cases hq'
        exact hg)
    have h1' : putLoop params (fun a b => eq a.1 b.1) m.cap r m.cap m.data ⟨hash k % m.cap, (k, v)⟩ (hash k % m.cap) 0
      = .present d' := h1
    refine ⟨⟨m.cap, m.size, d'⟩, ?_, ⟨h2, Or.inr hload⟩, ?_⟩
    · unfold insertInternal
      simp [if_neg (show ¬ m.cap = 0 by omega), h1']
    · refine h3.trans ?_
      cases r with
      | false => exact hp
      | true => exact hp.map _

theorem getInternal_ok {hash : K → Nat} {eq : K → K → Bool} (hc : Compat hash eq) {m : Map (K × V)}
    (hm : MInv hash eq m) (k : K) {s : List (K × V)} (hp : (elems m).Perm s) :
    (∃ i n, getInternal hash eq m k = .ok (some i) ∧ m.data i = some n ∧
        s.find? (fun e => eq e.1 k) = some n.elem) ∨
    (getInternal hash eq m k = .ok none ∧ s.find? (fun e => eq e.1 k) = none) := by
  have ht : ∀ a b : K × V, eq a.1 k = true → eq b.1 k = true → eeq eq a b = true :=
    fun a b ha hb => hc.trans _ _ _ ha (hc.symm _ _ hb)
  have hpw : s.Pairwise (fun a b => eeq eq a b = false) :=
    (hp.pairwise_iff (fun h => (ecompat hc).symm_false h)).mp hm.distinct
  unfold getInternal
  by_cases h0 : m.size = 0
  · right
    rw [if_pos h0]
    have : s = [] := by
      apply List.eq_nil_of_length_eq_zero
      rw [← hp.length_eq]; unfold elems; rw [hm.size_eq, h0]
    simp [this]
  · rw [if_neg h0]
    have hcap : 0 < m.cap := by
      rcases Nat.eq_zero_or_pos m.cap with h | h
      · have := hm.toCore.elems_nil_of_cap h
        unfold elems at this
        have h2 := hm.size_eq
        rw [this] at h2
        exact absurd h2.symm h0
      · exact h
    rcases get_spec good (ecompat hc) hm.toCore (hm.free hcap) (hash k) (fun e => eq e.1 k) ht
      (fun a ha => hc.hash_eq _ _ ha) with ⟨i, n, hi, hn, hnk, hmem, hg⟩ | ⟨hno, hg⟩
    · left
      refine ⟨i, n, by simp [hg], hn, ?_⟩
      exact find_unique ht hpw (hp.mem_iff.mp hmem) hnk
    · right
      refine ⟨by simp [hg], ?_⟩
      rw [List.find?_eq_none]; intro x hx; simp [hno x (hp.mem_iff.mpr hx)]

theorem clear_ok {hash : K → Nat} {eq : K → K → Bool} {m : Map (K × V)} (hm : MInv hash eq m) :
    MInv hash eq (clear m) ∧ elems (clear m) = [] := by
  unfold clear
  by_cases h : m.cap = 0
  · simp only [h, ne_eq, not_true, if_false]
    exact ⟨hm, hm.toCore.elems_nil_of_cap h⟩
  · simp only [h, ne_eq, not_false_eq_true, if_true]
    exact ⟨RH.Inv.mk (core_empty _ _ _ _) (Or.inl rfl), contents_empty _⟩

/-! ## Removal -/

/-- no stored entry lies before its home slot -/
def Unwrapped (cap : Nat) {α : Type} (d : Nat → Option (Node α)) : Prop :=
  ∀ i n, i < cap → d i = some n → n.home ≤ i

/-- exact parameters, to compare with -/
def exact : Params where
  probe := exactProbe
  swap := gtDist

theorem good_exact : Good exact where
  probe_true := by intro cap i h p _ _ hp; cases hp; rfl
  swap_le := good.swap_le
  no_swap := good.no_swap

theorem probe_unwrapped {cap i h : Nat} (hle : h ≤ i) : params.probe cap i h = exact.probe cap i h := by
  simp [params, exact, exactProbe, dist, hle]

theorem reach_exact {α : Type} {hash : α → Nat} {cap : Nat} {d : Nat → Option (Node α)} (hu : Unwrapped cap d)
    (hr : Reach params hash cap d) : Reach exact hash cap d := by
  refine ⟨hr.home, ?_⟩
  intro i n hi hn l hl
  obtain ⟨m, hm, hg⟩ := hr.path i n hi hn l hl
  refine ⟨m, hm, ?_⟩
  rw [← probe_unwrapped (hu _ m (Nat.mod_lt _ (by omega)) hm)]
  exact hg

theorem reach_params {α : Type} {hash : α → Nat} {cap : Nat} {d : Nat → Option (Node α)}
    (hr : Reach exact hash cap d) : Reach params hash cap d := by
  refine ⟨hr.home, ?_⟩
  intro i n hi hn l hl
  obtain ⟨m, hm, hg⟩ := hr.path i n hi hn l hl
  refine ⟨m, hm, ?_⟩
  by_cases hle : m.home ≤ (n.home + l) % cap
  · rw [probe_unwrapped hle]; exact hg
  · simp [params, hle, gtDist]

theorem shift_same {α : Type} {cap : Nat} (hcap : 0 < cap) : ∀ fuel (d : Nat → Option (Node α)) i,
    Unwrapped cap d → i < cap → shiftLoop params cap fuel d i = shiftLoop exact cap fuel d i := by
  intro fuel
  induction fuel with
  | zero => intro d i _ _; rfl
  | succ fuel ih =>
    intro d i hu hi
    have hni : (i + 1) % cap < cap := Nat.mod_lt _ hcap
    unfold shiftLoop
    simp only
    cases hd : d ((i + 1) % cap) with
    | none => rfl
    | some x =>
      have hle := hu _ x hni hd
      simp only [probe_unwrapped hle]
      by_cases h0 : exact.probe cap ((i + 1) % cap) x.home = some 0
      · simp only [if_pos h0]
      · simp only [if_neg h0]
        refine ih _ _ ?_ hni
        intro s n hs hn
        by_cases hsn : s = (i + 1) % cap
        · rw [hsn] at hn; simp at hn
        · rw [upd_ne _ _ hsn] at hn
          by_cases hsi : s = i
          · rw [hsi] at hn ⊢
            simp at hn
            subst hn
            -- not at home, so strictly behind its slot, and slot `i` is the one before
            have hne : x.home ≠ (i + 1) % cap := by
              intro h; apply h0; simp [exact, exactProbe, dist, h]
            by_cases hc : i + 1 < cap
            · rw [Nat.mod_eq_of_lt hc] at hle hne; omega
            · rw [show i + 1 = cap by omega, Nat.mod_self] at hle hne; omega
          · rw [upd_ne _ _ hsi] at hn
            exact hu s n hs hn

theorem remove_ok {hash : K → Nat} {eq : K → K → Bool} (hc : Compat hash eq) {m : Map (K × V)}
    (hm : MInv hash eq m) (hu : Unwrapped m.cap m.data) (k : K)
    (hnear : ∀ i n, i < m.cap → m.data i = some n → eq n.elem.1 k = true → i < n.home + 128)
    {s : List (K × V)} (hp : (elems m).Perm s) :
    ∃ m', remove hash eq m k = .ok m' ∧ MInv hash eq m' ∧ (elems m').Perm (Spec.remove eq s k) := by
  have ht : ∀ a b : K × V, eq a.1 k = true → eq b.1 k = true → eeq eq a b = true :=
    fun a b ha hb => hc.trans _ _ _ ha (hc.symm _ _ hb)
  have hpw : s.Pairwise (fun a b => eeq eq a b = false) :=
    (hp.pairwise_iff (fun h => (ecompat hc).symm_false h)).mp hm.distinct
  unfold remove
  by_cases h0 : m.size = 0
  · rw [if_pos h0]
    refine ⟨m, rfl, hm, ?_⟩
    have : s = [] := by
      apply List.eq_nil_of_length_eq_zero
      rw [← hp.length_eq]; unfold elems; rw [hm.size_eq, h0]
    subst this
    simpa [Spec.remove] using hp
  rw [if_neg h0]
  have hcap : 0 < m.cap := by
    rcases Nat.eq_zero_or_pos m.cap with h | h
    · have := hm.toCore.elems_nil_of_cap h
      unfold elems at this
      have h2 := hm.size_eq
      rw [this] at h2
      exact absurd h2.symm h0
    · exact h
  have hfree := hm.free hcap
  cases hany : s.any (fun e => eq e.1 k) with
  | false =>
    have hno : ∀ x ∈ contents m.cap m.data, eq x.1 k = false := fun x hx => any_false hany x (hp.mem_iff.mp hx)
    have := getLoop_miss (stop := stopI8) (test := fun e : K × V => eq e.1 k) hcap
      (by rw [hm.size_eq]; exact hfree) (hash k) hno
    simp only [this]
    refine ⟨m, rfl, hm, ?_⟩
    have h2 : Spec.remove eq s k = s := by
      unfold Spec.remove
      rw [List.filter_eq_self]; intro x hx; simp [any_false hany x hx]
    rw [h2]; exact hp
  | true =>
    obtain ⟨x, hx, hxe⟩ := List.any_eq_true.mp hany
    obtain ⟨i, n, hin, hn, rfl⟩ := mem_contents.mp (hp.mem_iff.mpr hx)
    have hle := hu i n hin hn
    have hnr := hnear i n hin hn hxe
    have hhome : n.home = hash k % m.cap := by
      rw [hm.reach.home i n hin hn]; simp only [ehash]; rw [hc.hash_eq _ _ hxe]
    have hdist : dist m.cap i n.home = i - n.home := by simp [dist, hle]
    have hslot : ∀ l, l ≤ i - n.home → (n.home + l) % m.cap = n.home + l := fun l hl => Nat.mod_eq_of_lt (by omega)
    have hit := getLoop_hit (P := params) (ecompat hc) hcap hm.reach hm.distinct (fun e : K × V => eq e.1 k) ht i n
      hin hn hxe stopI8
      (by
        intro l q hl hq hg
        rw [hdist] at hl
        have hqh := hu _ q (Nat.mod_lt _ hcap) hq
        have : params.probe m.cap ((n.home + l) % m.cap) q.home = some ((n.home + l) % m.cap - q.home) := by
          simp [params, hqh]
        rw [this] at hg
        simp only [gtDist, gt_iff_lt, decide_eq_false_iff_not, Nat.not_lt] at hg
        have hl8 : i8AsU64 l = l := by
          unfold i8AsU64; rw [if_pos (by omega)]; omega
        simp only [stopI8, hl8, hqh, if_true]
        simpa using hg)
      (by
        have hl8 : i8AsU64 (i - n.home) = i - n.home := by
          unfold i8AsU64; rw [if_pos (by omega)]; omega
        simp only [hdist, stopI8, hl8, hle, if_true]
        simp)
      m.cap 0 (by omega) (by omega)
    simp only [Nat.add_zero, hhome, Nat.mod_mod] at hit
    simp only [hit]
    have hue : Unwrapped m.cap (upd m.data i none) := by
      intro t q ht' hq
      by_cases hti : t = i
      · subst hti; simp at hq
      · rw [upd_ne _ _ hti] at hq; exact hu t q ht' hq
    have hcoreE : Core exact (ehash hash) (eeq eq) m :=
      ⟨reach_exact hu hm.reach, hm.distinct, hm.size_eq⟩
    obtain ⟨d', h1, h2, h3⟩ := remove_exact good_exact (fun _ _ _ => rfl) (ecompat hc) hcoreE hfree hin hn
    rw [shift_same hcap _ _ _ hue hin, h1]
    simp only
    have h2' : Core params (ehash hash) (eeq eq) (⟨m.cap, m.size - 1, d'⟩ : Map (K × V)) :=
      ⟨reach_params h2.reach, h2.distinct, h2.size_eq⟩
    have hpf : (contents m.cap d').Perm (Spec.remove eq s k) :=
      filter_unique (ecompat hc) ht (h3.trans hp) hpw hxe
    by_cases hsm : idealSize (m.size - 1) < m.cap
    · rw [if_pos hsm]
      obtain ⟨m', h4, h5, h6⟩ := rehash_spec hc h2' _ rfl
      exact ⟨m', h4, h5, h6.trans hpf⟩
    · rw [if_neg hsm]
      refine ⟨_, rfl, ⟨h2', Or.inr ?_⟩, hpf⟩
      rcases hm.load with h | h
      · omega
      · exact Nat.le_trans (idealSize_mono (by simp)) h

/-! ## Iteration -/

theorem i8_small {n : Nat} (h : n < 128) : i8AsU64 n = n := by
  unfold i8AsU64; rw [if_pos (by omega)]; omega

theorem eachLoop_spec (m : Map (K × V)) (hbig : m.cap ≤ 2 ^ 64 - 128) : ∀ fuel n, n ≤ 128 → 129 - n ≤ fuel →
    eachLoop m fuel n
      = ((List.range (min m.cap 128 - n)).map (n + ·)).filterMap (fun i => (m.data i).map Node.elem) := by
  intro fuel
  induction fuel with
  | zero => intro n h1 h2; omega
  | succ fuel ih =>
    intro n h1 h2
    unfold eachLoop
    simp only
    by_cases hn : n < 128
    · rw [i8_small hn]
      by_cases hc : n < m.cap
      · rw [if_pos hc]
        have hsplit : ((List.range (min m.cap 128 - n)).map (n + ·))
            = n :: ((List.range (min m.cap 128 - (n + 1))).map (n + 1 + ·)) := by
          rw [show min m.cap 128 - n = (min m.cap 128 - (n + 1)) + 1 by omega, List.range_succ_eq_map]
          simp only [List.map_cons, List.map_map, Nat.add_zero, List.cons.injEq, true_and]
          apply List.map_congr_left
          intro a _
          simp [Function.comp]; omega
        rw [hsplit, List.filterMap_cons, ih (n + 1) (by omega) (by omega)]
        cases m.data n <;> simp
      · rw [if_neg hc]
        simp [show min m.cap 128 - n = 0 by omega]
    · have : n = 128 := by omega
      subst this
      have : i8AsU64 128 = 2 ^ 64 - 128 := by decide
      rw [this, if_neg (by omega)]
      simp [show min m.cap 128 - 128 = 0 by omega]

theorem each_eq (m : Map (K × V)) (hbig : m.cap ≤ 2 ^ 64 - 128) :
    each m = contents (min m.cap 128) m.data := by
  unfold each
  rw [eachLoop_spec m hbig 129 0 (by omega) (by omega)]
  simp [contents]

theorem contents_length_le {α : Type} (cap : Nat) (d : Nat → Option (Node α)) : (contents cap d).length ≤ cap := by
  unfold contents
  exact Nat.le_trans (List.length_filterMap_le _ _) (by simp)

end Verif.HashMap
