import Verif.Core.RobinHood.MapLemmas
import Verif.Core.Hmap.Model
/-! # Helper lemmas for hmap.c -/
namespace Verif.Hmap

open Verif.RH

variable {α : Type}

theorem good : Good params where
  probe_true := by
    intro cap i h p _ _ hp
    simp only [params, Option.some.injEq] at hp
    rw [← hp]; rfl
  swap_le := by
    intro j p h
    cases p with
    | none => simp [params] at h
    | some q => simp [params] at h; exact ⟨q, rfl, h⟩
  no_swap := by
    intro j p h
    cases p with
    | none => rfl
    | some q => simp [params] at h; simp [gtDist]; omega

theorem exact_probe (cap i h : Nat) : params.probe cap i h = exactProbe cap i h := rfl

/-- abbreviation: the invariant of an hmap -/
def HInv (hash : α → Nat) (eq : α → α → Bool) (m : Map α) : Prop :=
  Core params hash eq m ∧ idealSize m.size ≤ m.cap

theorem HInv.free {hash : α → Nat} {eq : α → α → Bool} {m : Map α} (h : HInv hash eq m) : m.size < m.cap :=
  Nat.lt_of_lt_of_le (idealSize_gt _) h.2

theorem create_inv (hash : α → Nat) (eq : α → α → Bool) (c : Nat) : HInv hash eq (create α c) :=
  ⟨core_empty _ _ _ _, idealSize_mono (Nat.zero_le _)⟩

/-- a put that fits without resizing -/
theorem put_fits {hash : α → Nat} {eq : α → α → Bool} (hc : Compat hash eq) (depth : Nat) {m : Map α}
    (hm : Core params hash eq m) (hsz : idealSize (m.size + 1) ≤ m.cap) (e : α) (hno : ∀ x ∈ elems m, eq x e = false) :
    ∃ m', put hash eq (depth + 1) m e = .ok (true, m') ∧ Core params hash eq m' ∧ m'.cap = m.cap ∧
      (elems m').Perm (e :: elems m) := by
  have h1 := idealSize_gt (m.size + 1)
  obtain ⟨d', hl, hcore, hp⟩ := put_new good hc hm (by omega) e true hno
  refine ⟨_, ?_, hcore, rfl, hp⟩
  unfold put putInternal
  rw [if_neg (by omega)]
  simp only [hl, Res.bind_ok, if_true]
  rw [if_neg (by omega)]

theorem rehash_spec {hash : α → Nat} {eq : α → α → Bool} (hc : Compat hash eq) (depth : Nat) {m : Map α}
    (hm : Core params hash eq m) (newCap : Nat) (hcap : newCap = idealSize m.size) :
    ∃ m', Res.foldl (fun m x => (put hash eq (depth + 1) m x).map (·.2)) ⟨newCap, 0, fun _ => none⟩
        (contents m.cap m.data) = .ok m' ∧ HInv hash eq m' ∧ (elems m').Perm (elems m) := by
  obtain ⟨m', h1, h2, h3, h4⟩ := foldl_put (P := params) hc
    (fun m x => (put hash eq (depth + 1) m x).map (·.2)) newCap m.size
    (by
      intro m1 e hm1 hcap1 hlt hno
      obtain ⟨m2, h1, h2, h3, h4⟩ := put_fits hc depth hm1
        (by rw [hcap1, hcap]; exact idealSize_mono (by omega)) e hno
      exact ⟨m2, by simp [h1], h2, by omega, h4⟩)
    (contents m.cap m.data) ⟨newCap, 0, fun _ => none⟩ (core_empty _ _ _ _) rfl
    (by rw [hm.size_eq]; simp) (by rw [elems_empty, List.append_nil]; exact hm.distinct)
  rw [elems_empty, List.append_nil] at h4
  refine ⟨m', h1, ⟨h2, ?_⟩, h4⟩
  have : m'.size = m.size := by rw [← h2.size_eq, ← hm.size_eq]; exact h4.length_eq
  rw [this, h3, hcap]
  omega

theorem put_fresh {hash : α → Nat} {eq : α → α → Bool} (hc : Compat hash eq) (depth : Nat) {m : Map α}
    (hm : HInv hash eq m) (e : α) (hno : ∀ x ∈ elems m, eq x e = false) :
    ∃ m', put hash eq (depth + 2) m e = .ok (true, m') ∧ HInv hash eq m' ∧ (elems m').Perm (e :: elems m) := by
  have hfree := hm.free
  obtain ⟨d', hl, hcore, hp⟩ := put_new good hc hm.1 hfree e true hno
  unfold put putInternal
  rw [if_neg (by omega)]
  simp only [hl, Res.bind_ok, if_true]
  by_cases hbig : idealSize (m.size + 1) > m.cap
  · rw [if_pos hbig]
    obtain ⟨m', h1, h2, h3⟩ := rehash_spec hc depth hcore _ rfl
    simp only [h1, Res.map_ok]
    exact ⟨m', rfl, h2, h3.trans hp⟩
  · rw [if_neg hbig]
    exact ⟨_, rfl, ⟨hcore, by simpa using hbig⟩, hp⟩

theorem get_ok {hash : α → Nat} {eq : α → α → Bool} (hc : Compat hash eq) {m : Map α} (hm : HInv hash eq m)
    (k : α) {s : List α} (hp : (elems m).Perm s) : get hash eq m k = .ok (s.find? (eq · k)) := by
  have hfree := hm.free
  have ht : ∀ a b, eq a k = true → eq b k = true → eq a b = true :=
    fun a b ha hb => hc.trans _ _ _ ha (hc.symm _ _ hb)
  unfold get
  rw [if_neg (by omega)]
  rcases get_spec good hc hm.1 hfree (hash k) (fun x => eq x k) ht (fun a ha => hc.hash_eq _ _ ha) with
    ⟨i, n, hi, hn, hnk, hmem, hg⟩ | ⟨hno, hg⟩
  · have hpw : s.Pairwise (fun a b => eq a b = false) :=
      (hp.pairwise_iff (fun h => hc.symm_false h)).mp hm.1.distinct
    rw [find_unique ht hpw (hp.mem_iff.mp hmem) hnk]
    simp [hg, hn]
  · have : s.find? (eq · k) = none := by
      rw [List.find?_eq_none]; intro x hx; simp [hno x (hp.mem_iff.mpr hx)]
    simp [hg, this]

theorem remove_ok {hash : α → Nat} {eq : α → α → Bool} (hc : Compat hash eq) (depth : Nat) {m : Map α}
    (hm : HInv hash eq m) (k : α) {s : List α} (hp : (elems m).Perm s) :
    ∃ m', remove hash eq (depth + 1) m k = .ok m' ∧ HInv hash eq m' ∧
      (elems m').Perm (s.filter fun x => !eq x k) := by
  have hfree := hm.free
  have ht : ∀ a b, eq a k = true → eq b k = true → eq a b = true :=
    fun a b ha hb => hc.trans _ _ _ ha (hc.symm _ _ hb)
  unfold remove
  rw [if_neg (by omega)]
  rcases get_spec good hc hm.1 hfree (hash k) (fun x => eq x k) ht (fun a ha => hc.hash_eq _ _ ha) with
    ⟨i, n, hi, hn, hnk, hmem, hg⟩ | ⟨hno, hg⟩
  · simp only [hg]
    obtain ⟨d', h1, h2, h3⟩ := remove_exact good exact_probe hc hm.1 hfree hi hn
    simp only [h1]
    have hpw : s.Pairwise (fun a b => eq a b = false) :=
      (hp.pairwise_iff (fun h => hc.symm_false h)).mp hm.1.distinct
    have hpf := filter_unique hc ht (h3.trans hp) hpw hnk
    by_cases hsm : idealSize (m.size - 1) < m.cap
    · rw [if_pos hsm]
      obtain ⟨m', h4, h5, h6⟩ := rehash_spec hc depth h2 _ rfl
      exact ⟨m', h4, h5, h6.trans hpf⟩
    · rw [if_neg hsm]
      refine ⟨_, rfl, ⟨h2, ?_⟩, hpf⟩
      exact Nat.le_trans (idealSize_mono (by simp)) hm.2
  · simp only [hg]
    refine ⟨m, rfl, hm, ?_⟩
    have : s.filter (fun x => !eq x k) = s := by
      rw [List.filter_eq_self]; intro x hx; simp [hno x (hp.mem_iff.mpr hx)]
    rw [this]; exact hp

end Verif.Hmap
