import Verif.Core.HTable.Lemmas
import Verif.Core.StrPool.Model
/-! # Helper lemmas for string interning -/
namespace Verif.HTable

variable {α : Type}

theorem incrementWrap_lt {cap i : Nat} (h : 0 < cap) : incrementWrap cap i < cap := by
  unfold incrementWrap; split <;> omega

/-- the probe loop only calls the comparison on elements whose stored hash matches -/
theorem probeLoop_congr {cmp cmp' : α → α → Bool} {t : Table α} {h : BitVec 32} {e e' : α} (hcap : 0 < t.cap)
    (hc : ∀ i x, i < t.cap → occupied t i = true → t.hashes i = h → t.elems i = some x → cmp x e = cmp' x e') :
    ∀ fuel i, i < t.cap → probeLoop cmp t h e fuel i = probeLoop cmp' t h e' fuel i := by
  intro fuel
  induction fuel with
  | zero => intro i _; rfl
  | succ fuel ih =>
    intro i hi
    unfold probeLoop
    have hn := incrementWrap_lt (i := i) hcap
    by_cases ho : occupied t i = true
    · simp only [ho, if_true]
      by_cases hh : t.hashes i = h
      · simp only [hh, if_true]
        cases he : t.elems i with
        | none => rfl
        | some x => simp only [hc i x hi ho hh he, ih _ hn]
      · simp only [hh, if_false, ih _ hn]
    · simp [ho]

theorem find_congr {cmp cmp' : α → α → Bool} {t : Table α} {h h' : BitVec 32} {e e' : α} (hcap : 0 < t.cap)
    (hh : h ||| occupiedMask = h' ||| occupiedMask)
    (hc : ∀ i x, i < t.cap → occupied t i = true → t.hashes i = h ||| occupiedMask → t.elems i = some x →
      cmp x e = cmp' x e') :
    find cmp t e h = find cmp' t e' h' := by
  unfold find findIdx
  simp only [← hh]
  rw [probeLoop_congr hcap hc _ (modPrime _ _) (Nat.mod_lt _ hcap)]

theorem insert_congr {cmp cmp' : α → α → Bool} {t : Table α} {h h' : BitVec 32} {e : α} (hcap : 0 < t.cap)
    (hh : h ||| occupiedMask = h' ||| occupiedMask)
    (hc : ∀ i x, i < t.cap → occupied t i = true → t.hashes i = h ||| occupiedMask → t.elems i = some x →
      cmp x e = cmp' x e) :
    insert cmp t e h = insert cmp' t e h' := by
  unfold insert
  simp only [← hh]
  rw [probeLoop_congr hcap hc _ (modPrime _ _) (Nat.mod_lt _ hcap)]

end Verif.HTable

namespace Verif.StrPool

open Verif.HTable

/-- the hash the table keeps: the occupied bit is forced, so 31 bits are significant -/
def key (s : Str) : BitVec 32 := hashOf s ||| occupiedMask

def hhash (h : Handle) : BitVec 32 := key h.2

/-- comparison by stored hash only -/
def sameKey (a b : Handle) : Bool := decide (key a.2 = key b.2)

theorem compat : Compat hhash sameKey where
  refl := by intro a; simp [sameKey]
  symm := by intro a b h; simp only [sameKey, decide_eq_true_eq] at *; exact h.symm
  trans := by intro a b c h1 h2; simp only [sameKey, decide_eq_true_eq] at *; exact h1.trans h2
  hash_eq := by intro a b h; exact of_decide_eq_true h

theorem or_idem (h : BitVec 32) : (h ||| occupiedMask) ||| occupiedMask = h ||| occupiedMask := by
  rw [BitVec.or_assoc, BitVec.or_self]

theorem key_or (s : Str) : key s ||| occupiedMask = key s := or_idem _

theorem strncmpEq_self (s : Str) : strncmpEq s s = true := by
  induction s with
  | nil => rfl
  | cons x s ih => simp [strncmpEq, ih]

/-- Invariant: the table satisfies the hash table invariant with hash keys as identity, all
addresses are below the next one, and different strings have different addresses. -/
structure PInv (p : Pool) : Prop where
  inv : Inv hhash sameKey p.table
  fresh : ∀ h ∈ contents p.table, h.1 < p.next
  addr : ∀ a ∈ contents p.table, ∀ b ∈ contents p.table, a.1 = b.1 → a = b

theorem newPool_inv : PInv newPool ∧ contents newPool.table = [] := by
  obtain ⟨h1, h2⟩ := new_inv hhash sameKey 4
  have h3 : contents newPool.table = [] := h2
  exact ⟨⟨h1, by rw [h3]; simp, by rw [h3]; simp⟩, h3⟩

theorem slot_mem {t : Table Handle} (hi : Core hhash t) {i : Nat} {x : Handle} (hic : i < t.cap)
    (ho : occupied t i = true) (hx : t.elems i = some x) : x ∈ contents t ∧ t.hashes i = key x.2 := by
  obtain ⟨e, he, hh, _⟩ := hi.slot i hic ho
  rw [hx] at he
  cases he
  refine ⟨mem_contents.mpr ⟨i, hic, ho, hx⟩, ?_⟩
  rw [hh]; exact key_or _

/-- The lookup goes to the only stored string with the requested key. -/
theorem lookup_cases {p : Pool} (hp : PInv p) (s : Str) :
    (∃ x ∈ contents p.table, key x.2 = key s ∧
      find compareStrFind p.table (0, s) (hashOf s)
        = (if strncmpEq x.2 s then .ok (some x) else .ok none)) ∨
    ((∀ x ∈ contents p.table, key x.2 ≠ key s) ∧ find compareStrFind p.table (0, s) (hashOf s) = .ok none) := by
  have hcap := hp.inv.cap_pos
  rcases find_spec compat hp.inv (0, s) with ⟨x, hx, hxe, hf⟩ | ⟨hno, hf⟩
  · left
    simp only [sameKey, decide_eq_true_eq] at hxe
    refine ⟨x, hx, hxe, ?_⟩
    -- only x can be compared
    have honly : ∀ i y, i < p.table.cap → occupied p.table i = true → p.table.hashes i = hashOf s ||| occupiedMask →
        p.table.elems i = some y → y = x := by
      intro i y hic ho hh hy
      obtain ⟨hmem, hk⟩ := slot_mem hp.inv.toCore hic ho hy
      refine compat.unique hp.inv.distinct hmem hx ?_
      simp only [sameKey, decide_eq_true_eq]
      rw [← hk, hh, hxe]; rfl
    cases hcmp : strncmpEq x.2 s with
    | true =>
      simp only [if_true]
      rw [← hf]
      refine find_congr hcap (by rw [hhash, key_or]; rfl) ?_
      intro i y hic ho hh hy
      rw [honly i y hic ho hh hy]
      simp [compareStrFind, hcmp, sameKey, hxe]
    | false =>
      simp only [Bool.false_eq_true, if_false]
      -- the comparison answers no everywhere
      have h1 : find compareStrFind p.table (0, s) (hashOf s)
          = find (fun _ _ => false) p.table (0, s) (hashOf s) := by
        refine find_congr hcap rfl ?_
        intro i y hic ho hh hy
        rw [honly i y hic ho hh hy]
        simp [compareStrFind, hcmp]
      rw [h1]
      -- a search that never matches ends at a free bucket
      have hs := probeLoop_spec (fun _ _ => false) p.table (hashOf s ||| occupiedMask) (0, s) hcap p.table.cap
        (modPrime (hashOf s ||| occupiedMask).toNat p.table.cap)
      have hm : modPrime (hashOf s ||| occupiedMask).toNat p.table.cap % p.table.cap
          = modPrime (hashOf s ||| occupiedMask).toNat p.table.cap := by unfold modPrime; simp
      rw [hm] at hs
      unfold find findIdx
      simp only [if_neg (show ¬ p.table.cap = 0 by omega)]
      cases hpr : probeLoop (fun _ _ => false) p.table (hashOf s ||| occupiedMask) (0, s) p.table.cap
          (modPrime (hashOf s ||| occupiedMask).toNat p.table.cap) with
      | free i => rfl
      | hit i => rw [hpr] at hs; exfalso; simp at hs
      | uninit =>
        rw [hpr] at hs
        exfalso
        obtain ⟨i, hi, ho, hn⟩ := hs
        obtain ⟨e, he, _⟩ := hp.inv.slot i hi ho
        simp [hn] at he
      | diverge =>
        rw [hpr] at hs
        exfalso
        exact not_full hp.inv.toCore (by have := hp.inv.load; have := hp.inv.size_eq; omega) _ (fun l hl => (hs l hl).1)
  · right
    refine ⟨fun x hx h => ?_, ?_⟩
    · have := hno x hx
      simp [sameKey, h] at this
    · rw [← hf]
      refine find_congr hcap (by rw [hhash, key_or]; rfl) ?_
      intro i y hic ho hh hy
      obtain ⟨hmem, hk⟩ := slot_mem hp.inv.toCore hic ho hy
      have := hno y hmem
      simp only [sameKey, decide_eq_false_iff_not] at this
      exact absurd (by rw [← hk, hh]; rfl) this

/-- One request: the three possible outcomes, decided by the stored strings alone. -/
theorem request_cases {p : Pool} (hp : PInv p) (s : Str) :
    (∃ x ∈ contents p.table, key x.2 = key s ∧ strncmpEq x.2 s = true ∧ makeStringSized p s = .ok (x, p)) ∨
    (∃ x ∈ contents p.table, key x.2 = key s ∧ strncmpEq x.2 s = false ∧ makeStringSized p s = .ub) ∨
    ((∀ x ∈ contents p.table, key x.2 ≠ key s) ∧ ∃ p', makeStringSized p s = .ok ((p.next, s), p') ∧ PInv p' ∧
      (contents p'.table).Perm ((p.next, s) :: contents p.table)) := by
  have hcap := hp.inv.cap_pos
  -- the insertion behaves as one that identifies strings with equal keys
  have hins : insert (fun _ _ => true) p.table (p.next, s) (hashOf s)
      = insert sameKey p.table (p.next, s) (hhash (p.next, s)) := by
    refine insert_congr hcap (by rw [hhash, key_or]; rfl) ?_
    intro i y hic ho hh hy
    obtain ⟨_, hk⟩ := slot_mem hp.inv.toCore hic ho hy
    symm
    simp only [sameKey, decide_eq_true_eq]
    rw [← hk, hh]; rfl
  rcases lookup_cases hp s with ⟨x, hx, hk, hf⟩ | ⟨hno, hf⟩
  · cases hcmp : strncmpEq x.2 s with
    | true =>
      left
      refine ⟨x, hx, hk, hcmp, ?_⟩
      unfold makeStringSized
      rw [hf, hcmp]
      rfl
    | false =>
      right; left
      refine ⟨x, hx, hk, hcmp, ?_⟩
      unfold makeStringSized
      rw [hf, hcmp]
      simp only [Bool.false_eq_true, if_false]
      rw [hins]
      rcases insert_spec compat hp.inv (p.next, s) with ⟨_, h⟩ | ⟨h, _⟩
      · rw [h]
      · exact absurd (h x hx) (by simp [sameKey, hk])
  · right; right
    refine ⟨hno, ?_⟩
    rcases insert_spec compat hp.inv (p.next, s) with ⟨⟨x, hx, hxe⟩, _⟩ | ⟨_, t', h, hinv, hperm⟩
    · simp only [sameKey, decide_eq_true_eq] at hxe
      exact absurd hxe (hno x hx)
    · refine ⟨⟨t', p.next + 1⟩, ?_, ⟨hinv, ?_, ?_⟩, hperm⟩
      · unfold makeStringSized
        rw [hf]
        simp only
        rw [hins, h]
      · intro a ha
        rcases List.mem_cons.mp (hperm.subset ha) with rfl | ha
        · exact Nat.lt_succ_self _
        · exact Nat.lt_succ_of_lt (hp.fresh a ha)
      · intro a ha b hb hab
        rcases List.mem_cons.mp (hperm.subset ha) with rfl | ha <;>
        rcases List.mem_cons.mp (hperm.subset hb) with rfl | hb
        · rfl
        · have := hp.fresh b hb; simp only at hab; omega
        · have := hp.fresh a ha; simp only at hab; omega
        · exact hp.addr a ha b hb hab

end Verif.StrPool
