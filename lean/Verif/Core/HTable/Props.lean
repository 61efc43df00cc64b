import Verif.Core.HTable.RemoveLemmas
/-!
# Properties of the compiler's hash table (C01, C02, C03, C04)
-/
namespace Verif.HTable

open Spec

variable {α : Type}

/-- One client operation on the real table (`insertInHashTable`, `findInHashTable`,
`clearHashTable`), the caller supplying `hash e` as every call site does. -/
def step (hash : α → BitVec 32) (cmp : α → α → Bool) (t : Table α) : Op α → Res (Out α × Table α)
  | .insert e =>
    match insert cmp t e (hash e) with
    | .ok (b, t') => .ok (.inserted b, t')
    | .diverge => .diverge
    | .ub => .ub
  | .find e =>
    match find cmp t e (hash e) with
    | .ok r => .ok (.found r, t)
    | .diverge => .diverge
    | .ub => .ub
  | .clear => .ok (.cleared, clear t)

/-- A history of operations. -/
def run (hash : α → BitVec 32) (cmp : α → α → Bool) : Table α → List (Op α) → Res (List (Out α) × Table α)
  | t, [] => .ok ([], t)
  | t, o :: os =>
    match step hash cmp t o with
    | .ok (x, t') =>
      match run hash cmp t' os with
      | .ok (xs, t'') => .ok (x :: xs, t'')
      | .diverge => .diverge
      | .ub => .ub
    | .diverge => .diverge
    | .ub => .ub

theorem step_refines {hash : α → BitVec 32} {cmp : α → α → Bool} (hc : Compat hash cmp) {t : Table α}
    {s : List α} (hi : Inv hash cmp t) (hp : (contents t).Perm s) (o : Op α) :
    ∃ t', step hash cmp t o = .ok ((Spec.step cmp s o).1, t') ∧ Inv hash cmp t' ∧
      (contents t').Perm (Spec.step cmp s o).2 := by
  cases o with
  | insert e =>
    rcases insert_spec hc hi e with ⟨⟨x, hx, hxe⟩, hins⟩ | ⟨hno, t', hins, hi', hp'⟩
    · have : s.any (cmp · e) = true := List.any_eq_true.mpr ⟨x, hp.mem_iff.mp hx, hxe⟩
      refine ⟨t, ?_, hi, ?_⟩
      · simp [step, hins, Spec.step, this]
      · simpa [Spec.step, this] using hp
    · have : s.any (cmp · e) = false := by
        rw [any_false_iff]
        intro x hx; exact hno x (hp.mem_iff.mpr hx)
      refine ⟨t', ?_, hi', ?_⟩
      · simp [step, hins, Spec.step, this]
      · simpa [Spec.step, this] using hp'.trans (hp.cons e)
  | find e =>
    refine ⟨t, ?_, hi, hp⟩
    rcases find_spec hc hi e with ⟨x, hx, hxe, hf⟩ | ⟨hno, hf⟩
    · have hsym : ∀ {a b : α}, cmp a b = false → cmp b a = false := by
        intro a b h
        cases h2 : cmp b a with
        | false => rfl
        | true => rw [hc.symm _ _ h2] at h; exact h
      have hpw : s.Pairwise (fun a b => cmp a b = false) := (hp.pairwise_iff hsym).mp hi.distinct
      have : s.find? (cmp · e) = some x := by
        have hxs := hp.mem_iff.mp hx
        clear hp hf hx
        induction s with
        | nil => simp at hxs
        | cons y s ih =>
          rw [List.find?_cons]
          rcases List.mem_cons.mp hxs with h | h
          · subst h; simp [hxe]
          · have hxy : cmp y x = false := (List.pairwise_cons.mp hpw).1 x h
            have : cmp y e = false := by
              cases hye : cmp y e with
              | false => rfl
              | true =>
                rw [hc.trans _ _ _ hye (hc.symm _ _ hxe)] at hxy
                simp at hxy
            simp only [this]
            exact ih (List.pairwise_cons.mp hpw).2 h
      simp [step, hf, Spec.step, this]
    · have : s.find? (cmp · e) = none := by
        rw [List.find?_eq_none]
        intro x hx
        simp [hno x (hp.mem_iff.mpr hx)]
      simp [step, hf, Spec.step, this]
  | clear =>
    obtain ⟨h1, h2⟩ := clear_spec hi
    exact ⟨clear t, rfl, h1, by simp [h2, Spec.step]⟩

theorem run_refines {hash : α → BitVec 32} {cmp : α → α → Bool} (hc : Compat hash cmp) :
    ∀ (ops : List (Op α)) (t : Table α) (s : List α), Inv hash cmp t → (contents t).Perm s →
    ∃ t', run hash cmp t ops = .ok ((Spec.run cmp s ops).1, t') ∧ Inv hash cmp t' ∧
      (contents t').Perm (Spec.run cmp s ops).2 := by
  intro ops
  induction ops with
  | nil => intro t s hi hp; exact ⟨t, rfl, hi, hp⟩
  | cons o os ih =>
    intro t s hi hp
    obtain ⟨t1, h1, hi1, hp1⟩ := step_refines hc hi hp o
    obtain ⟨t2, h2, hi2, hp2⟩ := ih t1 (Spec.step cmp s o).2 hi1 hp1
    refine ⟨t2, ?_, hi2, hp2⟩
    simp [run, h1, h2, Spec.run]

/-- **C01.** Every history of insert, find and clear, on a table of any initial capacity, gives the
outputs of the abstract set; no operation loops forever or has undefined behaviour. -/
theorem history_matches_set {hash : α → BitVec 32} {cmp : α → α → Bool} (hc : Compat hash cmp)
    (c : Nat) (ops : List (Op α)) :
    ∃ t, run hash cmp (newWithCapacity α c) ops = .ok ((Spec.run cmp [] ops).1, t) := by
  obtain ⟨h1, h2⟩ := new_inv hash cmp c
  obtain ⟨t, h, _⟩ := run_refines hc ops _ [] h1 (by rw [h2])
  exact ⟨t, h⟩

/-- The hypotheses are met by a hash under which everything collides. -/
example : Compat (fun _ : Nat => 5#32) (fun a b => decide (a = b)) := compat_eq _

example : ∃ t, run (fun _ : Nat => 5#32) (fun a b => decide (a = b)) (new Nat)
    [.insert 1, .insert 2, .insert 1, .find 2, .clear, .find 2]
    = .ok ([.inserted true, .inserted true, .inserted false, .found (some 2), .cleared, .found none], t) :=
  history_matches_set (compat_eq _) 4 _

/-- **C02.** After every history there is a free bucket, so every later probe loop ends. -/
theorem history_leaves_free_bucket {hash : α → BitVec 32} {cmp : α → α → Bool} (hc : Compat hash cmp)
    (c : Nat) (ops : List (Op α)) (outs : List (Out α)) (t : Table α)
    (h : run hash cmp (newWithCapacity α c) ops = .ok (outs, t)) :
    t.size < t.cap ∧ (∃ i, i < t.cap ∧ occupied t i = false) ∧
      (∀ e, find cmp t e (hash e) ≠ .diverge) ∧ (∀ e, insert cmp t e (hash e) ≠ .diverge) := by
  obtain ⟨h1, h2⟩ := new_inv hash cmp c
  obtain ⟨t', h', hi, _⟩ := run_refines hc ops _ [] h1 (by rw [h2])
  rw [h'] at h
  cases h
  refine ⟨hi.load, ?_, ?_, ?_⟩
  · refine Classical.byContradiction fun hn => ?_
    have := full_length hi.toCore (fun i hic => by
      cases ho : occupied t i with
      | true => rfl
      | false => exact absurd ⟨i, hic, ho⟩ hn)
    rw [hi.size_eq] at this
    have := hi.load
    omega
  · intro e
    rcases find_spec hc hi e with ⟨x, _, _, hf⟩ | ⟨_, hf⟩ <;> rw [hf] <;> simp
  · intro e
    rcases insert_spec hc hi e with ⟨_, hf⟩ | ⟨_, t', hf, _⟩ <;> rw [hf] <;> simp

/-- A full table would indeed make the loop spin: the free bucket is needed. -/
example : find (fun a b => a == b)
    ({ cap := 1, size := 1, hashes := fun _ => 0x80000000#32, elems := fun _ => some 1 } : Table Nat) 2 7#32
    = .diverge := by decide

theorem enumerate_all (t : Table α) (h : ∀ i, i < t.cap → occupied t i = true → ∃ e, t.elems i = some e) :
    enumerate t (fun _ => true) = contents t := by
  unfold enumerate contents
  have : ∀ l : List Nat, (∀ i ∈ l, i < t.cap) →
      enumerate.go t (fun _ => true) l = l.filterMap (cell t) := by
    intro l
    induction l with
    | nil => intro _; rfl
    | cons i l ih =>
      intro hl
      have ih := ih (fun j hj => hl j (by simp [hj]))
      rw [enumerate.go, List.filterMap_cons]
      by_cases ho : isOccupiedHash (t.hashes i) = true
      · obtain ⟨e, he⟩ := h i (hl i (by simp)) ho
        simp [ho, he, cell, cellOf, ih]
      · simp [ho, cell, cellOf, ih]
  exact this _ (fun i hi => List.mem_range.mp hi)

theorem itNext_spec (t : Table α) (h : ∀ i, i < t.cap → occupied t i = true → ∃ e, t.elems i = some e) :
    ∀ n i, t.cap - i < n →
    match itNext t n i with
    | none => ((List.range (t.cap - i)).map (i + ·)).filterMap (cell t) = []
    | some (x, j) => i < j ∧ j ≤ t.cap ∧
        ((List.range (t.cap - i)).map (i + ·)).filterMap (cell t)
          = x :: ((List.range (t.cap - j)).map (j + ·)).filterMap (cell t) := by
  intro n
  induction n with
  | zero => intro i hi; omega
  | succ n ih =>
    intro i hi
    unfold itNext
    by_cases hic : i < t.cap
    · rw [if_pos hic]
      have hsplit : ((List.range (t.cap - i)).map (i + ·))
          = i :: ((List.range (t.cap - (i + 1))).map (i + 1 + ·)) := by
        rw [show t.cap - i = (t.cap - (i + 1)) + 1 by omega, List.range_succ_eq_map]
        simp only [List.map_cons, List.map_map, Nat.add_zero, List.cons.injEq, true_and]
        apply List.map_congr_left
        intro a _
        simp [Function.comp]; omega
      rw [hsplit, List.filterMap_cons]
      by_cases ho : isOccupiedHash (t.hashes i) = true
      · rw [if_pos ho]
        obtain ⟨e, he⟩ := h i hic ho
        have hcell : cell t i = some e := by simp [cell, cellOf, ho, he]
        simp only [he, Option.map_some, hcell]
        exact ⟨by omega, by omega, trivial⟩
      · rw [if_neg ho]
        have hcell : cell t i = none := by simp [cell, cellOf, ho]
        have := ih (i + 1) (by omega)
        simp only [hcell]
        cases hn : itNext t n (i + 1) with
        | none => rw [hn] at this; exact this
        | some p =>
          obtain ⟨x, j⟩ := p
          rw [hn] at this
          exact ⟨by omega, this.2.1, this.2.2⟩
    · rw [if_neg hic]
      simp [show t.cap - i = 0 by omega]

theorem drain_spec (t : Table α) (h : ∀ i, i < t.cap → occupied t i = true → ∃ e, t.elems i = some e) :
    ∀ n i, t.cap - i < n →
      drain t n i = ((List.range (t.cap - i)).map (i + ·)).filterMap (cell t) := by
  intro n
  induction n with
  | zero => intro i hi; omega
  | succ n ih =>
    intro i hi
    unfold drain
    have := itNext_spec t h (t.cap - i + 1) i (by omega)
    cases hn : itNext t (t.cap - i + 1) i with
    | none => rw [hn] at this; exact this.symm
    | some p =>
      obtain ⟨x, j⟩ := p
      rw [hn] at this
      obtain ⟨h1, h2, h3⟩ := this
      simp only
      rw [h3, ih j (by omega)]

/-- **C04.** After every history, both the callback enumeration and a drained iterator list exactly
the abstract set, each element once (`Perm` with a duplicate-free list), in the same order, and the
reported size is their number. -/
theorem enumeration_is_contents {hash : α → BitVec 32} {cmp : α → α → Bool} (hc : Compat hash cmp)
    (c : Nat) (ops : List (Op α)) (outs : List (Out α)) (t : Table α)
    (h : run hash cmp (newWithCapacity α c) ops = .ok (outs, t)) :
    (enumerate t (fun _ => true)).Perm (Spec.run cmp [] ops).2 ∧
    drain t (t.cap + 1) 0 = enumerate t (fun _ => true) ∧
    t.size = (Spec.run cmp [] ops).2.length ∧
    (enumerate t (fun _ => true)).Pairwise (fun a b => cmp a b = false) := by
  obtain ⟨h1, h2⟩ := new_inv hash cmp c
  obtain ⟨t', h', hi, hp⟩ := run_refines hc ops _ [] h1 (by rw [h2])
  rw [h'] at h
  cases h
  have hel : ∀ i, i < t.cap → occupied t i = true → ∃ e, t.elems i = some e := fun i hic ho => by
    obtain ⟨e, he, _⟩ := hi.slot i hic ho
    exact ⟨e, he⟩
  refine ⟨by rw [enumerate_all t hel]; exact hp, ?_, ?_, by rw [enumerate_all t hel]; exact hi.distinct⟩
  · rw [drain_spec t hel (t.cap + 1) 0 (by omega), enumerate_all t hel]
    simp [contents]
  · rw [← hi.size_eq, hp.length_eq]

/-- The elements up to and including the first one for which the callback answers no. -/
def untilNo (p : α → Bool) : List α → List α
  | [] => []
  | x :: xs => if p x then x :: untilNo p xs else [x]

/-- **C04.** Enumeration hands over the elements in the order of the full enumeration and stops right after the first one
for which the callback asks to stop. -/
theorem enumeration_stops (t : Table α) (p : α → Bool) :
    enumerate t p = untilNo p (enumerate t (fun _ => true)) := by
  unfold enumerate
  have : ∀ l : List Nat, enumerate.go t p l = untilNo p (enumerate.go t (fun _ => true) l) := by
    intro l
    induction l with
    | nil => rfl
    | cons i l ih =>
      simp only [enumerate.go]
      split
      · cases he : t.elems i with
        | none => simpa using ih
        | some x =>
          simp only [if_true, untilNo]
          rw [ih]
      · exact ih
  exact this _

example : untilNo (fun n : Nat => n < 3) [1, 2, 5, 7, 1] = [1, 2, 5] := by decide

/-- **C03, negation.** Removal can lose another element: after inserting two elements whose homes are
the last and the first bucket, removing the first one makes the second unfindable although it is still
stored.  (`hash n = n`, capacity 7; `(4 | mask) % 7 = 6`, `(5 | mask) % 7 = 0`.) -/
theorem removal_can_lose_another_element :
    ∃ (hash : Nat → BitVec 32) (cmp : Nat → Nat → Bool) (t t' : Table Nat) (i : Nat),
      Compat hash cmp ∧
      (∃ outs, run hash cmp (new Nat) [.insert 4, .insert 5] = .ok (outs, t)) ∧
      find cmp t 5 (hash 5) = .ok (some 5) ∧
      findIdx cmp t 4 (hash 4) = .ok (some i) ∧
      remove t i = .ok t' ∧
      find cmp t' 5 (hash 5) = .ok none ∧
      5 ∈ enumerate t' (fun _ => true) := by
  let hash : Nat → BitVec 32 := fun n => BitVec.ofNat 32 n
  let cmp : Nat → Nat → Bool := fun a b => decide (a = b)
  let r := run hash cmp (new Nat) [.insert 4, .insert 5]
  let t : Table Nat := (r.getD ([], new Nat)).2
  have hr : r = .ok (r.getD ([], new Nat)) := Res.eq_ok _ (by decide)
  exact ⟨hash, cmp, t, (remove t 6).getD t, 6, compat_eq _, ⟨_, hr⟩, by decide, by decide,
    Res.eq_ok _ (by decide), by decide, by decide⟩

/-- **C03, the part that holds.**  If the probe chain after the removed bucket ends before the last
bucket of the table (some bucket `f` above it is free), removal succeeds, removes exactly that element
and keeps every other lookup.  Missing from the full claim: chains that wrap past the last bucket, where
the claim is false (`removal_can_lose_another_element`). -/
theorem removal_keeps_others_partial {hash : α → BitVec 32} {cmp : α → α → Bool} (hc : Compat hash cmp)
    {t : Table α} (hi : Inv hash cmp t) (e : α) (index f : Nat)
    (hfind : findIdx cmp t e (hash e) = .ok (some index))
    (hif : index < f) (hf : f < t.cap) (hfree : occupied t f = false) :
    ∃ t', remove t index = .ok t' ∧ Inv hash cmp t' ∧ t'.size + 1 = t.size ∧
      find cmp t' e (hash e) = .ok none ∧
      ∀ y, cmp y e = false → find cmp t' y (hash y) = find cmp t y (hash y) := by
  have hcap : t.cap ≠ 0 := by have := hi.cap_pos; omega
  rcases inv_probe hc hi e with ⟨i, x, hp, hic, ho, hx, hxm, hxe⟩ | ⟨j, hp, _⟩
  · have : i = index := by
      unfold findIdx at hfind
      simp only [if_neg hcap] at hfind
      unfold home at hp
      rw [hp] at hfind
      simpa using hfind
    subst this
    obtain ⟨t', hr, hi', hperm⟩ := remove_spec hc hi i f x ho hx hif hf hfree
    have hpw := (hperm.pairwise_iff (R := fun a b => cmp a b = false) (by
      intro a b h
      cases h2 : cmp b a with
      | false => rfl
      | true => rw [hc.symm _ _ h2] at h; exact h)).mpr hi.distinct
    refine ⟨t', hr, hi', ?_, ?_, ?_⟩
    · have := hperm.length_eq
      rw [hi.size_eq] at this
      rw [← hi'.size_eq]; simpa using this
    · rcases find_spec hc hi' e with ⟨y, hy, hye, _⟩ | ⟨_, h⟩
      · exfalso
        have := (List.pairwise_cons.mp hpw).1 y hy
        rw [hc.trans _ _ _ hxe (hc.symm _ _ hye)] at this
        simp at this
      · exact h
    · intro y hye
      have hyx : cmp x y = false := by
        cases h : cmp x y with
        | false => rfl
        | true => rw [hc.trans _ _ _ (hc.symm _ _ h) hxe] at hye; simp at hye
      rcases find_spec hc hi' y with ⟨a, ha, hay, hfa⟩ | ⟨hn, hfn⟩
      · rcases find_spec hc hi y with ⟨b, hb, hby, hfb⟩ | ⟨hn, _⟩
        · rw [hfa, hfb]
          have hbm : b ∈ x :: contents t' := hperm.mem_iff.mpr hb
          rcases List.mem_cons.mp hbm with h | h
          · subst h; rw [hby] at hyx; simp at hyx
          · have : a = b := by
              exact hc.unique (List.pairwise_cons.mp hpw).2 ha h (hc.trans _ _ _ hay (hc.symm _ _ hby))
            rw [this]
        · exact absurd hay (by rw [hn a (hperm.mem_iff.mp (by simp [ha]))]; simp)
      · rcases find_spec hc hi y with ⟨b, hb, hby, _⟩ | ⟨_, h⟩
        · have hbm : b ∈ x :: contents t' := hperm.mem_iff.mpr hb
          rcases List.mem_cons.mp hbm with h | h
          · subst h; rw [hby] at hyx; simp at hyx
          · exact absurd hby (by rw [hn b h]; simp)
        · rw [hfn, h]
  · exfalso
    unfold findIdx at hfind
    simp only [if_neg hcap] at hfind
    unfold home at hp
    rw [hp] at hfind
    simp at hfind

/-- The hypotheses are met by a collision chain: 1 and 8 share home 3, and removing 1 moves 8. -/
example :
    let t := ((run (fun n => BitVec.ofNat 32 n) (fun a b => decide (a = b)) (new Nat)
      [.insert 1, .insert 8]).getD ([], new Nat)).2
    findIdx (fun a b => decide (a = b)) t 1 1#32 = .ok (some 3) ∧ 3 < 6 ∧ 6 < t.cap ∧
      occupied t 6 = false ∧ occupied t 4 = true := by decide

theorem primes_sorted : ∀ a, a < 15 → ∀ b, b < 15 → a ≤ b → primes.getD a 0 ≤ primes.getD b 0 := by
  decide

theorem nextPrimeLoop_spec (i : Nat) : ∀ fuel j k, j ≤ k → k ≤ 15 → k - j ≤ fuel →
    (∀ m, m < j → primes.getD m 0 ≤ i) → (∀ m, k ≤ m → m < 15 → i < primes.getD m 0) →
    nextPrimeLoop i fuel j k ≤ 15 ∧
    (∀ m, m < nextPrimeLoop i fuel j k → primes.getD m 0 ≤ i) ∧
    (∀ m, nextPrimeLoop i fuel j k ≤ m → m < 15 → i < primes.getD m 0) := by
  intro fuel
  induction fuel with
  | zero =>
    intro j k hjk hk hf h1 h2
    have : j = k := by omega
    subst this
    exact ⟨hk, h1, h2⟩
  | succ fuel ih =>
    intro j k hjk hk hf h1 h2
    unfold nextPrimeLoop
    by_cases h : j < k
    · rw [if_pos h]
      simp only
      by_cases hp : primes.getD ((j + k) / 2) 0 ≤ i
      · rw [if_pos hp]
        refine ih _ _ (by omega) hk (by omega) ?_ h2
        intro m hm
        exact Nat.le_trans (primes_sorted m (by omega) _ (by omega) (by omega)) hp
      · rw [if_neg hp]
        refine ih _ _ (by omega) (by omega) (by omega) h1 ?_
        intro m hm hm15
        exact Nat.lt_of_lt_of_le (Nat.lt_of_not_le hp) (primes_sorted _ (by omega) m hm15 hm)
    · rw [if_neg h]
      have : j = k := by omega
      subst this
      exact ⟨hk, h1, h2⟩

/-- The capacity chosen by `nextPrime` is the least table prime above the argument, or the largest
one when there is none. -/
theorem nextPrime_spec (i : Nat) :
    nextPrime i ∈ primes ∧
    (i < 1048583 → i < nextPrime i ∧ ∀ p ∈ primes, i < p → nextPrime i ≤ p) ∧
    (1048583 ≤ i → nextPrime i = 1048583) := by
  obtain ⟨h0, h1, h2⟩ := nextPrimeLoop_spec i 15 0 15 (by omega) (by omega) (by omega)
    (fun m hm => by omega) (fun m hm hm' => by omega)
  have hmem : ∀ k, k < 15 → primes.getD k 0 ∈ primes := by decide
  unfold nextPrime
  simp only
  generalize nextPrimeLoop i 15 0 15 = r at *
  have hge : ∀ p ∈ primes, ∃ k, k < 15 ∧ p = primes.getD k 0 := by decide
  refine ⟨hmem _ (by split <;> omega), ?_, ?_⟩
  · intro hi
    have hr : r < 15 := by
      refine Classical.byContradiction fun hn => ?_
      have : (1048583 : Nat) ≤ i := h1 14 (by omega)
      omega
    rw [if_neg (by omega)]
    refine ⟨h2 r (Nat.le_refl _) hr, ?_⟩
    intro p hp hip
    obtain ⟨k, hk, rfl⟩ := hge p hp
    by_cases hkr : k < r
    · have := h1 k hkr; omega
    · exact primes_sorted r hr k hk (by omega)
  · intro hi
    by_cases hr : r ≥ 15
    · rw [if_pos hr]; rfl
    · have : i < 1048583 := h2 14 (by omega) (by omega)
      omega

example : nextPrime 4 = 7 ∧ nextPrime 7 = 17 ∧ nextPrime 1048583 = 1048583 := by decide

end Verif.HTable
