import Verif.Core.HTable.Model
import Verif.Core.HTable.Spec
/-! # Helper lemmas for the hash table -/
namespace Verif.HTable

variable {α : Type}

/-! ## Cyclic indices -/

theorem incrementWrap_eq {cap i : Nat} (h : i < cap) : incrementWrap cap i = (i + 1) % cap := by
  unfold incrementWrap
  split
  · have : i + 1 = cap := by omega
    simp [this]
  · rw [Nat.mod_eq_of_lt (by omega)]

theorem incrementWrap_mod {cap : Nat} (hc : 0 < cap) (d : Nat) :
    incrementWrap cap (d % cap) = (d + 1) % cap := by
  rw [incrementWrap_eq (Nat.mod_lt _ hc)]
  simp [Nat.add_mod]

/-- every index is reached from every start within `cap` steps -/
theorem exists_offset {cap : Nat} (hc : 0 < cap) (d i : Nat) (hi : i < cap) :
    ∃ k, k < cap ∧ (d + k) % cap = i := by
  have hd := Nat.mod_lt d hc
  by_cases h : d % cap ≤ i
  · refine ⟨i - d % cap, by omega, ?_⟩
    rw [Nat.add_mod, Nat.mod_eq_of_lt (show i - d % cap < cap by omega)]
    rw [show d % cap + (i - d % cap) = i by omega, Nat.mod_eq_of_lt hi]
  · refine ⟨i + cap - d % cap, by omega, ?_⟩
    rw [Nat.add_mod, Nat.mod_eq_of_lt (show i + cap - d % cap < cap by omega)]
    rw [show d % cap + (i + cap - d % cap) = i + cap by omega]
    simp [Nat.mod_eq_of_lt hi]

theorem nextPrime_pos (i : Nat) : 0 < nextPrime i := by
  unfold nextPrime
  simp only
  generalize nextPrimeLoop i 15 0 15 = k
  split
  · decide
  · have : k < 15 := by omega
    have h : ∀ k, k < 15 → 0 < primes.getD k 0 := by decide
    exact h k this

theorem newCapacity_gt (c : Nat) : c < newCapacity c := by
  unfold newCapacity
  simp only
  split <;> omega

/-! ## Contents -/

theorem isOccupied_or (h : BitVec 32) : isOccupiedHash (h ||| occupiedMask) = true := by
  unfold isOccupiedHash occupiedMask
  have : (h ||| 0x80000000#32) &&& 0x80000000#32 = 0x80000000#32 := by
    ext i hi
    simp
    intro h1
    simp [h1]
  rw [this]; decide

theorem isOccupied_zero : isOccupiedHash 0#32 = false := by decide

/-- what an occupied bucket holds -/
def cellOf (p : BitVec 32 × Option α) : Option α := if isOccupiedHash p.1 then p.2 else none

def cell (t : Table α) (i : Nat) : Option α := cellOf (t.hashes i, t.elems i)

/-- elements stored in the table, in bucket order -/
def contents (t : Table α) : List α := (List.range t.cap).filterMap (cell t)

theorem mem_contents {t : Table α} {x : α} :
    x ∈ contents t ↔ ∃ i, i < t.cap ∧ occupied t i = true ∧ t.elems i = some x := by
  unfold contents
  rw [List.mem_filterMap]
  constructor
  · rintro ⟨i, hi, h⟩
    refine ⟨i, List.mem_range.mp hi, ?_⟩
    unfold cell cellOf at h
    simp only at h
    split at h
    · next ho => exact ⟨ho, h⟩
    · simp at h
  · rintro ⟨i, hi, ho, he⟩
    refine ⟨i, List.mem_range.mpr hi, ?_⟩
    unfold cell cellOf
    unfold occupied at ho
    simp [ho, he]

theorem filterMap_length_le {β γ : Type _} (f : β → Option γ) (l : List β) :
    (l.filterMap f).length ≤ l.length := List.length_filterMap_le f l

theorem filterMap_length_full {β γ : Type _} (f : β → Option γ) (l : List β)
    (h : ∀ x ∈ l, (f x).isSome = true) : (l.filterMap f).length = l.length := by
  induction l with
  | nil => rfl
  | cons a l ih =>
    have ha := h a (by simp)
    obtain ⟨b, hb⟩ := Option.isSome_iff_exists.mp ha
    simp [hb, ih (fun x hx => h x (by simp [hx]))]

/-! ## Invariant -/

/-- Start of the probe sequence of an element. -/
def home (hash : α → BitVec 32) (cap : Nat) (e : α) : Nat :=
  modPrime (hash e ||| occupiedMask).toNat cap

/-- The linear-probing invariant: an occupied bucket was written, carries its element's hash, and
every bucket from the element's home up to it is occupied. -/
structure Core (hash : α → BitVec 32) (t : Table α) : Prop where
  cap_pos : 0 < t.cap
  slot : ∀ i, i < t.cap → occupied t i = true →
    ∃ e, t.elems i = some e ∧ t.hashes i = hash e ||| occupiedMask ∧
      ∃ k, k < t.cap ∧ (home hash t.cap e + k) % t.cap = i ∧
        ∀ j, j < k → occupied t ((home hash t.cap e + j) % t.cap) = true

structure Inv (hash : α → BitVec 32) (cmp : α → α → Bool) (t : Table α) : Prop extends Core hash t where
  load : t.size < t.cap
  size_eq : (contents t).length = t.size
  distinct : (contents t).Pairwise (fun a b => cmp a b = false)

/-- what a client must guarantee about hash and equality -/
structure Compat (hash : α → BitVec 32) (cmp : α → α → Bool) : Prop where
  refl : ∀ a, cmp a a = true
  symm : ∀ a b, cmp a b = true → cmp b a = true
  trans : ∀ a b c, cmp a b = true → cmp b c = true → cmp a c = true
  hash_eq : ∀ a b, cmp a b = true → hash a = hash b

theorem compat_eq [DecidableEq α] (hash : α → BitVec 32) : Compat hash (fun a b => decide (a = b)) where
  refl := by intro a; exact decide_eq_true rfl
  symm := by intro a b h; exact decide_eq_true (of_decide_eq_true h).symm
  trans := by
    intro a b c h1 h2
    exact decide_eq_true ((of_decide_eq_true h1).trans (of_decide_eq_true h2))
  hash_eq := by intro a b h; rw [of_decide_eq_true h]

theorem Compat.symm_false {hash : α → BitVec 32} {cmp : α → α → Bool} (hc : Compat hash cmp) {a b : α}
    (h : cmp a b = false) : cmp b a = false := by
  cases h2 : cmp b a with
  | false => rfl
  | true => rw [hc.symm _ _ h2] at h; exact h

theorem Compat.unique {hash : α → BitVec 32} {cmp : α → α → Bool} (hc : Compat hash cmp) {l : List α}
    (hl : l.Pairwise (fun a b => cmp a b = false)) {a b : α} (ha : a ∈ l) (hb : b ∈ l)
    (hab : cmp a b = true) : a = b := by
  induction l with
  | nil => simp at ha
  | cons x l ih =>
    obtain ⟨h1, h2⟩ := List.pairwise_cons.mp hl
    rcases List.mem_cons.mp ha with ea | ea <;> rcases List.mem_cons.mp hb with eb | eb
    · rw [ea, eb]
    · subst ea; rw [h1 b eb] at hab; simp at hab
    · subst eb; rw [hc.symm_false (h1 a ea)] at hab; simp at hab
    · exact ih h2 ea eb

def Res.isOk {β : Type} : Res β → Bool
  | .ok _ => true
  | _ => false

def Res.getD {β : Type} (d : β) : Res β → β
  | .ok b => b
  | _ => d

theorem Res.eq_ok {β : Type} (d : β) {r : Res β} (h : r.isOk = true) : r = .ok (r.getD d) := by
  cases r <;> simp_all [Res.isOk, Res.getD]

theorem full_length {hash : α → BitVec 32} {t : Table α} (hc : Core hash t)
    (h : ∀ i, i < t.cap → occupied t i = true) : (contents t).length = t.cap := by
  unfold contents
  rw [filterMap_length_full]
  · simp
  · intro i hi
    have hi := List.mem_range.mp hi
    obtain ⟨e, he, _⟩ := hc.slot i hi (h i hi)
    have ho := h i hi
    unfold occupied at ho
    simp [cell, cellOf, ho, he]

/-! ## The probe loop -/

/-- a bucket the probe loop passes over -/
def NoMatch (cmp : α → α → Bool) (t : Table α) (h : BitVec 32) (e : α) (i : Nat) : Prop :=
  t.hashes i = h → ∀ x, t.elems i = some x → cmp x e = false

theorem probeLoop_spec (cmp : α → α → Bool) (t : Table α) (h : BitVec 32) (e : α) (hc : 0 < t.cap) :
    ∀ n d, match probeLoop cmp t h e n (d % t.cap) with
      | .hit i => ∃ j, j < n ∧ i = (d + j) % t.cap ∧ occupied t i = true ∧ t.hashes i = h ∧
          ∃ x, t.elems i = some x ∧ cmp x e = true
      | .free i => ∃ j, j < n ∧ i = (d + j) % t.cap ∧ occupied t i = false ∧
          ∀ l, l < j → occupied t ((d + l) % t.cap) = true ∧ NoMatch cmp t h e ((d + l) % t.cap)
      | .diverge => ∀ l, l < n → occupied t ((d + l) % t.cap) = true ∧
          NoMatch cmp t h e ((d + l) % t.cap)
      | .uninit => ∃ i, i < t.cap ∧ occupied t i = true ∧ t.elems i = none := by
  intro n
  induction n with
  | zero => intro d; simp [probeLoop]
  | succ n ih =>
    intro d
    have step : ∀ (ho : occupied t (d % t.cap) = true) (hn : NoMatch cmp t h e (d % t.cap)),
        match probeLoop cmp t h e n (incrementWrap t.cap (d % t.cap)) with
        | .hit i => ∃ j, j < n + 1 ∧ i = (d + j) % t.cap ∧ occupied t i = true ∧ t.hashes i = h ∧
            ∃ x, t.elems i = some x ∧ cmp x e = true
        | .free i => ∃ j, j < n + 1 ∧ i = (d + j) % t.cap ∧ occupied t i = false ∧
            ∀ l, l < j → occupied t ((d + l) % t.cap) = true ∧ NoMatch cmp t h e ((d + l) % t.cap)
        | .diverge => ∀ l, l < n + 1 → occupied t ((d + l) % t.cap) = true ∧
            NoMatch cmp t h e ((d + l) % t.cap)
        | .uninit => ∃ i, i < t.cap ∧ occupied t i = true ∧ t.elems i = none := by
      intro ho hn
      rw [incrementWrap_mod hc]
      have := ih (d + 1)
      cases hp : probeLoop cmp t h e n ((d + 1) % t.cap) with
      | hit i =>
        rw [hp] at this
        obtain ⟨j, hj, hi, r⟩ := this
        exact ⟨j + 1, by omega, by rw [hi]; congr 1; omega, r⟩
      | free i =>
        rw [hp] at this
        obtain ⟨j, hj, hi, hfree, hl⟩ := this
        refine ⟨j + 1, by omega, by rw [hi]; congr 1; omega, hfree, ?_⟩
        intro l hlj
        cases l with
        | zero => exact ⟨ho, hn⟩
        | succ l =>
          have := hl l (by omega)
          rwa [show d + 1 + l = d + (l + 1) by omega] at this
      | diverge =>
        rw [hp] at this
        intro l hlj
        cases l with
        | zero => exact ⟨ho, hn⟩
        | succ l =>
          have := this l (by omega)
          rwa [show d + 1 + l = d + (l + 1) by omega] at this
      | uninit =>
        rw [hp] at this
        exact this
    unfold probeLoop
    by_cases ho : occupied t (d % t.cap) = true
    · rw [if_pos ho]
      by_cases hh : t.hashes (d % t.cap) = h
      · rw [if_pos hh]
        cases he : t.elems (d % t.cap) with
        | none => exact ⟨_, Nat.mod_lt _ hc, ho, he⟩
        | some x =>
          simp only
          by_cases hx : cmp x e = true
          · rw [if_pos hx]
            exact ⟨0, by omega, rfl, ho, hh, x, he, hx⟩
          · rw [if_neg hx]
            refine step ho ?_
            intro _ y hy
            rw [he] at hy
            cases hy
            simpa using hx
      · rw [if_neg hh]
        exact step ho (fun h1 => absurd h1 hh)
    · rw [if_neg ho]
      exact ⟨0, by omega, rfl, by simpa using ho, fun l hl => by omega⟩

theorem freeLoop_spec (hashes : Nat → BitVec 32) (cap : Nat) (hc : 0 < cap) :
    ∀ n d, match freeLoop hashes cap n (d % cap) with
      | some i => ∃ j, j < n ∧ i = (d + j) % cap ∧ isOccupiedHash (hashes i) = false ∧
          ∀ l, l < j → isOccupiedHash (hashes ((d + l) % cap)) = true
      | none => ∀ l, l < n → isOccupiedHash (hashes ((d + l) % cap)) = true := by
  intro n
  induction n with
  | zero => intro d; simp [freeLoop]
  | succ n ih =>
    intro d
    unfold freeLoop
    by_cases ho : isOccupiedHash (hashes (d % cap)) = true
    · rw [if_pos ho, incrementWrap_mod hc]
      have := ih (d + 1)
      cases hp : freeLoop hashes cap n ((d + 1) % cap) with
      | some i =>
        rw [hp] at this
        obtain ⟨j, hj, hi, hfree, hl⟩ := this
        refine ⟨j + 1, by omega, by rw [hi]; congr 1; omega, hfree, ?_⟩
        intro l hlj
        cases l with
        | zero => exact ho
        | succ l =>
          have := hl l (by omega)
          rwa [show d + 1 + l = d + (l + 1) by omega] at this
      | none =>
        rw [hp] at this
        intro l hlj
        cases l with
        | zero => exact ho
        | succ l =>
          have := this l (by omega)
          rwa [show d + 1 + l = d + (l + 1) by omega] at this
    · rw [if_neg ho]
      exact ⟨0, by omega, rfl, by simpa using ho, fun l hl => by omega⟩

/-! ## Storing an element in a free bucket -/

/-- the store common to insertion and rehashing -/
def put (t : Table α) (i : Nat) (h : BitVec 32) (e : Option α) (n : Nat) : Table α :=
  { t with elems := upd t.elems i e, hashes := upd t.hashes i h, size := n }

theorem contents_put (t : Table α) (i : Nat) (h : BitVec 32) (e : α) (n : Nat) (hi : i < t.cap)
    (hfree : occupied t i = false) (hh : isOccupiedHash h = true) :
    (contents (put t i h (some e) n)).Perm (e :: contents t) := by
  have := filterMap_range_upd_none (cellOf (α := α)) (fun j => (t.hashes j, t.elems j)) i (h, some e) e
    (by unfold occupied at hfree; simp [cellOf, hfree]) (by simp [cellOf, hh]) t.cap hi
  unfold contents
  have e1 : (fun j => cellOf (upd (fun j => (t.hashes j, t.elems j)) i (h, some e) j))
      = cell (put t i h (some e) n) := by
    funext j
    by_cases hj : j = i
    · subst hj; simp [cell, put]
    · simp [cell, put, hj]
  rw [e1] at this
  exact this

theorem core_put {hash : α → BitVec 32} {t : Table α} (hc : Core hash t) (e : α) (j n : Nat)
    (hj : j < t.cap) (hfree : occupied t ((home hash t.cap e + j) % t.cap) = false)
    (hpath : ∀ l, l < j → occupied t ((home hash t.cap e + l) % t.cap) = true) :
    Core hash (put t ((home hash t.cap e + j) % t.cap) (hash e ||| occupiedMask) (some e) n) := by
  have mono : ∀ i, occupied t i = true →
      occupied (put t ((home hash t.cap e + j) % t.cap) (hash e ||| occupiedMask) (some e) n) i = true := by
    intro i hi
    by_cases h : i = (home hash t.cap e + j) % t.cap
    · subst h; rw [hi] at hfree; simp at hfree
    · simp only [occupied, put, upd_ne _ _ h]; exact hi
  refine ⟨hc.cap_pos, ?_⟩
  intro i hi ho
  by_cases h : i = (home hash t.cap e + j) % t.cap
  · refine ⟨e, by simp [put, h], by simp [put, h], j, hj, h.symm, ?_⟩
    intro l hl
    exact mono _ (hpath l hl)
  · have ho' : occupied t i = true := by simpa only [occupied, put, upd_ne _ _ h] using ho
    obtain ⟨x, hx, hhx, k, hk, hki, hp⟩ := hc.slot i hi ho'
    refine ⟨x, ?_, ?_, k, hk, hki, fun l hl => mono _ (hp l hl)⟩
    · simp only [put, upd_ne _ _ h]; exact hx
    · simp only [put, upd_ne _ _ h]; exact hhx

/-! ## Lookup -/

theorem not_full {hash : α → BitVec 32} {t : Table α} (hc : Core hash t)
    (hl : (contents t).length < t.cap) (d : Nat)
    (h : ∀ l, l < t.cap → occupied t ((d + l) % t.cap) = true) : False := by
  have := full_length hc (fun i hi => by
    obtain ⟨k, hk, hki⟩ := exists_offset hc.cap_pos d i hi
    rw [← hki]; exact h k hk)
  omega

theorem inv_probe {hash : α → BitVec 32} {cmp : α → α → Bool} {t : Table α} (hc : Compat hash cmp)
    (hi : Inv hash cmp t) (e : α) :
    (∃ i x, probeLoop cmp t (hash e ||| occupiedMask) e t.cap (home hash t.cap e) = .hit i ∧
      i < t.cap ∧ occupied t i = true ∧ t.elems i = some x ∧ x ∈ contents t ∧ cmp x e = true) ∨
    (∃ j, probeLoop cmp t (hash e ||| occupiedMask) e t.cap (home hash t.cap e)
        = .free ((home hash t.cap e + j) % t.cap) ∧ j < t.cap ∧
      occupied t ((home hash t.cap e + j) % t.cap) = false ∧
      (∀ l, l < j → occupied t ((home hash t.cap e + l) % t.cap) = true) ∧
      ∀ x ∈ contents t, cmp x e = false) := by
  have hcp := hi.cap_pos
  have hs := probeLoop_spec cmp t (hash e ||| occupiedMask) e hcp t.cap (home hash t.cap e)
  have hm : home hash t.cap e % t.cap = home hash t.cap e := by
    unfold home modPrime; simp
  rw [hm] at hs
  cases hp : probeLoop cmp t (hash e ||| occupiedMask) e t.cap (home hash t.cap e) with
  | hit i =>
    left
    rw [hp] at hs
    obtain ⟨j, hj, hij, ho, hh, x, hx, hxe⟩ := hs
    have hlt : i < t.cap := by rw [hij]; exact Nat.mod_lt _ hcp
    exact ⟨i, x, rfl, hlt, ho, hx, mem_contents.mpr ⟨i, hlt, ho, hx⟩, hxe⟩
  | free i =>
    right
    rw [hp] at hs
    obtain ⟨j, hj, hij, hfree, hl⟩ := hs
    subst hij
    refine ⟨j, rfl, hj, hfree, fun l h => (hl l h).1, ?_⟩
    intro x hx
    obtain ⟨i, hic, hio, hix⟩ := mem_contents.mp hx
    obtain ⟨y, hy, hyh, k, hk, hki, hpath⟩ := hi.slot i hic hio
    rw [hix] at hy
    cases hy
    cases hxe : cmp x e with
    | false => rfl
    | true =>
      exfalso
      have hhe := hc.hash_eq _ _ hxe
      have hhome : home hash t.cap x = home hash t.cap e := by unfold home; rw [hhe]
      rw [hhome] at hki hpath
      rcases Nat.lt_trichotomy k j with h | h | h
      · have := (hl k h).2
        rw [hki] at this
        have := this (by rw [hyh, hhe]) x hix
        rw [hxe] at this
        simp at this
      · subst h
        rw [hki, hio] at hfree
        simp at hfree
      · have := hpath j h
        rw [hfree] at this
        simp at this
  | diverge =>
    exfalso
    rw [hp] at hs
    exact not_full hi.toCore (by rw [hi.size_eq]; exact hi.load) (home hash t.cap e) (fun l h => (hs l h).1)
  | uninit =>
    exfalso
    rw [hp] at hs
    obtain ⟨i, hic, ho, hn⟩ := hs
    obtain ⟨y, hy, _⟩ := hi.slot i hic ho
    rw [hn] at hy
    cases hy

/-! ## Rehashing -/

theorem rehash_fold {hash : α → BitVec 32} (t : Table α) (ht : Core hash t)
    (hlen : (contents t).length < newCapacity t.cap) :
    ∀ n, n ≤ t.cap → ∃ nt, (List.range n).foldlM (rehashStep t)
        ({ cap := newCapacity t.cap, size := t.size, hashes := fun _ => 0#32, elems := fun _ => none } : Table α)
          = some nt ∧
      Core hash nt ∧ nt.cap = newCapacity t.cap ∧ nt.size = t.size ∧
      (contents nt).Perm ((List.range n).filterMap (cell t)) := by
  intro n
  induction n with
  | zero =>
    intro _
    refine ⟨_, rfl, ⟨?_, ?_⟩, rfl, rfl, ?_⟩
    · exact Nat.lt_of_le_of_lt (Nat.zero_le _) (newCapacity_gt t.cap)
    · intro i _ ho
      simp [occupied, isOccupied_zero] at ho
    · have : contents ({ cap := newCapacity t.cap, size := t.size, hashes := (fun _ => 0#32), elems := (fun _ => none) } : Table α) = [] := by
        unfold contents
        rw [List.filterMap_eq_nil_iff]
        intro i _
        simp [cell, cellOf, isOccupied_zero]
      rw [this]; simp
  | succ n ih =>
    intro hn
    obtain ⟨nt, hf, hcore, hcap, hsize, hperm⟩ := ih (by omega)
    rw [List.range_succ, List.foldlM_append, hf]
    simp only [List.foldlM_cons, List.foldlM_nil, Option.bind_eq_bind, Option.bind_some]
    unfold rehashStep
    simp only
    by_cases ho : isOccupiedHash (t.hashes n) = true
    · rw [if_pos ho]
      obtain ⟨e, he, hhe, _⟩ := ht.slot n (by omega) ho
      have hhome : modPrime (t.hashes n).toNat nt.cap = home hash nt.cap e := by
        unfold home; rw [hhe]
      have hm : home hash nt.cap e % nt.cap = home hash nt.cap e := by unfold home modPrime; simp
      have hs := freeLoop_spec nt.hashes nt.cap hcore.cap_pos nt.cap (home hash nt.cap e)
      rw [hm] at hs
      rw [hhome]
      cases hp : freeLoop nt.hashes nt.cap nt.cap (home hash nt.cap e) with
      | none =>
        exfalso
        rw [hp] at hs
        refine not_full hcore ?_ _ hs
        rw [hperm.length_eq, hcap]
        refine Nat.lt_of_le_of_lt ?_ hlen
        have : contents t = (List.range n).filterMap (cell t)
            ++ ((List.range (t.cap - n)).map (n + ·)).filterMap (cell t) := by
          unfold contents
          rw [← List.filterMap_append, ← List.range_add, show n + (t.cap - n) = t.cap by omega]
        rw [this]
        simp only [List.length_append]; omega
      | some i =>
        rw [hp] at hs
        obtain ⟨j, hj, hij, hfree, hl⟩ := hs
        subst hij
        simp only [Option.bind_some]
        refine ⟨_, rfl, ?_, ?_, ?_, ?_⟩
        · have := core_put hcore e j nt.size hj hfree hl
          rw [he, hhe]
          exact this
        · exact hcap
        · exact hsize
        · have hp2 := contents_put nt ((home hash nt.cap e + j) % nt.cap) (t.hashes n) e nt.size
            (Nat.mod_lt _ hcore.cap_pos) hfree ho
          rw [he]
          refine List.Perm.trans hp2 ?_
          have hcell : cell t n = some e := by simp [cell, cellOf, ho, he]
          simp only [List.filterMap_append, List.filterMap_cons, hcell, List.filterMap_nil]
          exact (hperm.cons e).trans (List.perm_append_singleton _ _).symm
    · rw [if_neg ho]
      refine ⟨nt, rfl, hcore, hcap, hsize, ?_⟩
      have hcell : cell t n = none := by simp [cell, cellOf, ho]
      simpa [List.filterMap_append, hcell] using hperm

theorem rehash_spec {hash : α → BitVec 32} {t : Table α} (ht : Core hash t)
    (hlen : (contents t).length ≤ t.cap) :
    ∃ nt, rehash t = some nt ∧ Core hash nt ∧ nt.cap = newCapacity t.cap ∧ nt.size = t.size ∧
      (contents nt).Perm (contents t) :=
  rehash_fold t ht (Nat.lt_of_le_of_lt hlen (newCapacity_gt _)) t.cap (Nat.le_refl _)

/-! ## Insertion, lookup, clear against the specification -/

theorem any_false_iff {cmp : α → α → Bool} {l : List α} {e : α} :
    l.any (cmp · e) = false ↔ ∀ x ∈ l, cmp x e = false := by
  simp

theorem insert_spec {hash : α → BitVec 32} {cmp : α → α → Bool} {t : Table α} (hc : Compat hash cmp)
    (hi : Inv hash cmp t) (e : α) :
    ((∃ x ∈ contents t, cmp x e = true) ∧ insert cmp t e (hash e) = .ok (false, t)) ∨
    ((∀ x ∈ contents t, cmp x e = false) ∧
      ∃ t', insert cmp t e (hash e) = .ok (true, t') ∧ Inv hash cmp t' ∧
        (contents t').Perm (e :: contents t)) := by
  have hcap : t.cap ≠ 0 := by have := hi.cap_pos; omega
  rcases inv_probe hc hi e with ⟨i, x, hp, _, _, _, hx, hxe⟩ | ⟨j, hp, hj, hfree, hpath, hno⟩
  · left
    refine ⟨⟨x, hx, hxe⟩, ?_⟩
    unfold insert
    simp only [if_neg hcap]
    unfold home at hp
    rw [hp]
  · right
    refine ⟨hno, ?_⟩
    unfold insert
    simp only [if_neg hcap]
    have hp' := hp
    unfold home at hp'
    rw [hp']
    simp only
    have hcore := core_put hi.toCore e j (t.size + 1) hj hfree hpath
    have hperm := contents_put t ((home hash t.cap e + j) % t.cap) (hash e ||| occupiedMask) e (t.size + 1)
      (Nat.mod_lt _ hi.cap_pos) hfree (isOccupied_or _)
    have hsz : (contents (put t ((home hash t.cap e + j) % t.cap) (hash e ||| occupiedMask) (some e) (t.size + 1))).length
        = t.size + 1 := by
      rw [hperm.length_eq]; simp [hi.size_eq]
    have hdist : (e :: contents t).Pairwise (fun a b => cmp a b = false) := by
      refine List.Pairwise.cons ?_ hi.distinct
      intro b hb
      cases h : cmp e b with
      | false => rfl
      | true => exact absurd (hno b hb) (by rw [hc.symm _ _ h]; simp)
    have hsym : ∀ {a b : α}, cmp a b = false → cmp b a = false := by
      intro a b h
      cases h2 : cmp b a with
      | false => rfl
      | true => rw [hc.symm _ _ h2] at h; exact h
    have hput : ({ t with
        elems := upd t.elems ((modPrime (hash e ||| occupiedMask).toNat t.cap + j) % t.cap) (some e),
        hashes := upd t.hashes ((modPrime (hash e ||| occupiedMask).toNat t.cap + j) % t.cap) (hash e ||| occupiedMask),
        size := t.size + 1 } : Table α)
        = put t ((home hash t.cap e + j) % t.cap) (hash e ||| occupiedMask) (some e) (t.size + 1) := rfl
    rw [hput]
    generalize hg : put t ((home hash t.cap e + j) % t.cap) (hash e ||| occupiedMask) (some e) (t.size + 1) = p at *
    have hpcap : p.cap = t.cap := by rw [← hg]; rfl
    have hpsize : p.size = t.size + 1 := by rw [← hg]; rfl
    by_cases hr : needsRehash p = true
    · rw [if_pos hr]
      obtain ⟨nt, hnt, hncore, hncap, hnsize, hnperm⟩ := rehash_spec hcore (by rw [hsz, hpcap]; exact hi.load)
      rw [hnt]
      refine ⟨nt, rfl, ⟨hncore, ?_, ?_, ?_⟩, hnperm.trans hperm⟩
      · rw [hncap, hnsize, hpsize, hpcap]
        exact Nat.lt_of_le_of_lt hi.load (newCapacity_gt _)
      · rw [hnperm.length_eq, hsz, hnsize, hpsize]
      · exact ((hnperm.trans hperm).pairwise_iff hsym).mpr hdist
    · rw [if_neg hr]
      refine ⟨p, rfl, ⟨hcore, ?_, ?_, ?_⟩, hperm⟩
      · unfold needsRehash at hr
        simp only [ge_iff_le, decide_eq_true_eq] at hr
        omega
      · rw [hsz, hpsize]
      · exact (hperm.pairwise_iff hsym).mpr hdist

theorem find_spec {hash : α → BitVec 32} {cmp : α → α → Bool} {t : Table α} (hc : Compat hash cmp)
    (hi : Inv hash cmp t) (e : α) :
    (∃ x ∈ contents t, cmp x e = true ∧ find cmp t e (hash e) = .ok (some x)) ∨
    ((∀ x ∈ contents t, cmp x e = false) ∧ find cmp t e (hash e) = .ok none) := by
  have hcap : t.cap ≠ 0 := by have := hi.cap_pos; omega
  rcases inv_probe hc hi e with ⟨i, x, hp, _, _, hix, hx, hxe⟩ | ⟨j, hp, hj, hfree, hpath, hno⟩
  · left
    refine ⟨x, hx, hxe, ?_⟩
    unfold find findIdx
    simp only [if_neg hcap]
    unfold home at hp
    rw [hp]
    simp [hix]
  · right
    refine ⟨hno, ?_⟩
    unfold find findIdx
    simp only [if_neg hcap]
    unfold home at hp
    rw [hp]

theorem clear_spec {hash : α → BitVec 32} {cmp : α → α → Bool} {t : Table α}
    (hi : Inv hash cmp t) : Inv hash cmp (clear t) ∧ contents (clear t) = [] := by
  unfold clear
  by_cases h : t.size = 0
  · rw [if_pos h]
    refine ⟨hi, ?_⟩
    have := hi.size_eq
    rw [h] at this
    exact List.length_eq_zero_iff.mp this
  · rw [if_neg h]
    have hnil : contents ({ t with size := 0, hashes := fun i => if i < t.cap then 0#32 else t.hashes i } : Table α) = [] := by
      unfold contents
      rw [List.filterMap_eq_nil_iff]
      intro i hi
      have : i < t.cap := List.mem_range.mp hi
      simp [cell, cellOf, this, isOccupied_zero]
    refine ⟨⟨⟨hi.cap_pos, ?_⟩, hi.cap_pos, ?_, ?_⟩, hnil⟩
    · intro i hic ho
      have : i < t.cap := hic
      simp [occupied, this, isOccupied_zero] at ho
    · rw [hnil]; rfl
    · rw [hnil]; exact List.Pairwise.nil

theorem new_inv (hash : α → BitVec 32) (cmp : α → α → Bool) (c : Nat) :
    Inv hash cmp (newWithCapacity α c) ∧ contents (newWithCapacity α c) = [] := by
  have hnil : contents (newWithCapacity α c) = [] := by
    unfold contents
    rw [List.filterMap_eq_nil_iff]
    intro i _
    simp [cell, cellOf, newWithCapacity, isOccupied_zero]
  refine ⟨⟨⟨nextPrime_pos c, ?_⟩, nextPrime_pos c, ?_, ?_⟩, hnil⟩
  · intro i _ ho
    simp [occupied, newWithCapacity, isOccupied_zero] at ho
  · rw [hnil]; rfl
  · rw [hnil]; exact List.Pairwise.nil

end Verif.HTable
