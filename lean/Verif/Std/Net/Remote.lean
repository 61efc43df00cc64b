import Verif.Std.Net.Props

/-!
# Looking up the address of another machine

Source: `src/cxy/stdlib/net.cxy` 319-433.
-/

namespace Verif.Net

/-! ## Specification -/

/-- the entries that the first `n` answers bring, each with its number -/
def entries (ans : Nat → Answer) (n : Nat) : List (Nat × Nat × List Nat) :=
  (List.range n).filterMap fun i =>
    match ans i with
    | .entry fam sa => some (i, fam, sa)
    | _ => none

/-- their addresses -/
def addrs (ans : Nat → Answer) (n : Nat) : List (Nat × List Nat) := (entries ans n).map (·.2)

/-- an IPv4 and an IPv6 address are among the first `n` answers -/
def BothSeen (ans : Nat → Answer) (n : Nat) : Prop :=
  (∃ i sa, i < n ∧ ans i = .entry 2 sa) ∧ ∃ j sb, j < n ∧ ans j = .entry 10 sb

/-! ## Proofs -/

/-- the first entry of a family, with its number -/
def firstEntry (fam : Nat) (l : List (Nat × Nat × List Nat)) : Option (Nat × List Nat) :=
  (l.find? fun e => e.2.1 == fam).map fun e => (e.1, e.2.2)

theorem entries_succ (ans : Nat → Answer) (n : Nat) :
    entries ans (n + 1) = entries ans n ++ (match ans n with | .entry fam sa => [(n, fam, sa)] | _ => []) := by
  unfold entries
  rw [List.range_succ, List.filterMap_append]
  congr 1
  cases h : ans n <;> simp [h]

theorem firstEntry_append (f : Nat) (l : List (Nat × Nat × List Nat)) (n g : Nat) (sa : List Nat) :
    firstEntry f (l ++ [(n, g, sa)]) =
      match firstEntry f l with
      | some e => some e
      | none => if g = f then some (n, sa) else none := by
  unfold firstEntry
  rw [List.find?_append]
  cases h : l.find? fun e => e.2.1 == f with
  | some e => simp
  | none => by_cases hg : g = f <;> simp [hg]

/-- what is known after `n` answers -/
structure Known (ans : Nat → Answer) (n : Nat) (v4 v6 : Option (Nat × List Nat)) (freed : List Nat) : Prop where
  four : v4 = firstEntry 2 (entries ans n)
  six : v6 = firstEntry 10 (entries ans n)
  all : (v4.toList.map (·.1) ++ v6.toList.map (·.1) ++ freed).Perm ((entries ans n).map (·.1))

theorem collect_known (ans : Nat → Answer) : ∀ fuel n v4 v6 freed w4 w6 fr,
    Known ans n v4 v6 freed → (v4.isSome && v6.isSome) = false →
    collect ans fuel n v4 v6 freed = some (w4, w6, fr) →
    ∃ N, Known ans N w4 w6 fr ∧ (ans N = .noMore ∨ (w4.isSome ∧ w6.isSome)) := by
  intro fuel
  induction fuel with
  | zero => intro n v4 v6 freed w4 w6 fr _ _ h; simp [collect] at h
  | succ fuel ih =>
    intro n v4 v6 freed w4 w6 fr hk hb h
    rw [collect] at h
    have he := entries_succ ans n
    cases ha : ans n with
    | again =>
      rw [ha] at h he
      simp only [List.append_nil] at he h
      exact ih _ _ _ _ _ _ _ ⟨by rw [he]; exact hk.four, by rw [he]; exact hk.six, by rw [he]; exact hk.all⟩ hb h
    | noMore =>
      rw [ha] at h
      simp only [Option.some.injEq, Prod.mk.injEq] at h
      obtain ⟨rfl, rfl, rfl⟩ := h
      exact ⟨n, hk, .inl ha⟩
    | failed =>
      rw [ha] at h he
      simp only [List.append_nil, hb, Bool.false_eq_true, if_false] at he h
      exact ih _ _ _ _ _ _ _ ⟨by rw [he]; exact hk.four, by rw [he]; exact hk.six, by rw [he]; exact hk.all⟩ hb h
    | entry fam sa =>
      rw [ha] at h he
      simp only at he h
      have f4 := firstEntry_append 2 (entries ans n) n fam sa
      have f6 := firstEntry_append 10 (entries ans n) n fam sa
      rw [← he, ← hk.four] at f4
      rw [← he, ← hk.six] at f6
      have hp := hk.all
      have hi : (entries ans (n + 1)).map (·.1) = (entries ans n).map (·.1) ++ [n] := by rw [he]; simp
      by_cases c4 : v4 = none ∧ fam = afInet
      · rw [if_pos c4] at h
        obtain ⟨rfl, rfl⟩ := c4
        have hk' : Known ans (n + 1) (some (n, sa)) v6 freed := by
          refine ⟨by rw [f4]; rfl, ?_, ?_⟩
          · rw [f6]; cases v6 <;> rfl
          · rw [hi]
            simp only [Option.toList_none, List.map_nil, List.nil_append, Option.toList_some, List.map_cons,
              List.cons_append] at hp ⊢
            exact (List.Perm.cons n hp).trans (List.perm_append_singleton _ _).symm
        by_cases h6 : v6.isSome = true
        · rw [if_pos h6] at h
          simp only [Option.some.injEq, Prod.mk.injEq] at h
          obtain ⟨rfl, rfl, rfl⟩ := h
          exact ⟨n + 1, hk', .inr ⟨rfl, h6⟩⟩
        · rw [if_neg h6] at h
          exact ih _ _ _ _ _ _ _ hk' (by simpa using h6) h
      · rw [if_neg c4] at h
        by_cases c6 : v6 = none ∧ fam = afInet6
        · rw [if_pos c6] at h
          obtain ⟨rfl, rfl⟩ := c6
          have hk' : Known ans (n + 1) v4 (some (n, sa)) freed := by
            refine ⟨?_, by rw [f6]; rfl, ?_⟩
            · rw [f4]; cases v4 <;> rfl
            · rw [hi]
              simp only [Option.toList_none, List.map_nil, List.append_nil, Option.toList_some, List.map_cons] at hp ⊢
              refine List.Perm.trans ?_ (hp.append_right [n])
              rw [List.append_assoc, List.append_assoc]
              exact List.Perm.append_left _ (List.perm_append_comm)
          by_cases h4 : v4.isSome = true
          · rw [if_pos h4] at h
            simp only [Option.some.injEq, Prod.mk.injEq] at h
            obtain ⟨rfl, rfl, rfl⟩ := h
            exact ⟨n + 1, hk', .inr ⟨h4, rfl⟩⟩
          · rw [if_neg h4] at h
            exact ih _ _ _ _ _ _ _ hk' (by simpa using h4) h
        · rw [if_neg c6] at h
          simp only [hb, Bool.false_eq_true, if_false] at h
          refine ih _ _ _ _ _ _ _ ⟨?_, ?_, ?_⟩ hb h
          · rw [f4]
            cases v4 with
            | some x => rfl
            | none => exact (if_neg (fun hx => c4 ⟨rfl, hx⟩)).symm
          · rw [f6]
            cases v6 with
            | some x => rfl
            | none => exact (if_neg (fun hx => c6 ⟨rfl, hx⟩)).symm
          · rw [hi, ← List.append_assoc]
            exact hp.append_right [n]

theorem mem_entries {ans : Nat → Answer} {n : Nat} {e : Nat × Nat × List Nat} :
    e ∈ entries ans n ↔ e.1 < n ∧ ans e.1 = .entry e.2.1 e.2.2 := by
  unfold entries
  rw [List.mem_filterMap]
  constructor
  · rintro ⟨i, hi, he⟩
    cases ha : ans i <;> rw [ha] at he <;> simp at he
    rw [← he]
    exact ⟨List.mem_range.mp hi, ha⟩
  · rintro ⟨h1, h2⟩
    exact ⟨e.1, List.mem_range.mpr h1, by rw [h2]⟩

theorem firstEntry_firstOf (f : Nat) (ans : Nat → Answer) (n : Nat) :
    (firstEntry f (entries ans n)).map (·.2) = firstOf f (addrs ans n) := by
  unfold firstEntry firstOf addrs
  rw [List.find?_map, Option.map_map, Option.map_map]
  rfl

theorem firstEntry_some {f : Nat} {ans : Nat → Answer} {n : Nat} (h : (firstEntry f (entries ans n)).isSome) :
    ∃ i sa, i < n ∧ ans i = .entry f sa := by
  unfold firstEntry at h
  rw [Option.isSome_map] at h
  obtain ⟨e, he⟩ := Option.isSome_iff_exists.mp h
  have h1 := mem_entries.mp (List.mem_of_find?_eq_some he)
  have h2 : e.2.1 = f := by simpa using List.find?_some he
  exact ⟨e.1, e.2.2, h1.1, by rw [h1.2, h2]⟩

theorem take_chooses (a : Addr) (ha : isSet a = false) (p : Nat) (mode : Mode) (v4 v6 : Option (Nat × List Nat)) (freed : List Nat) :
    (isSet (choose a p mode (v4.map (·.2)) (v6.map (·.2))) = true →
      (takeAnswer a p mode v4 v6 freed).1 = choose a p mode (v4.map (·.2)) (v6.map (·.2))) ∧
    ((takeAnswer a p mode v4 v6 freed).1 = choose a p mode (v4.map (·.2)) (v6.map (·.2)) ∨
      isSet (takeAnswer a p mode v4 v6 freed).1 = false ∧ choose a p mode (v4.map (·.2)) (v6.map (·.2)) = a) := by
  have hu : isSet (put16 a 0 afUnspec) = false := by
    unfold isSet family
    rw [get16_put16 _ _ _ (by decide)]
    rfl
  cases v4 <;> cases v6 <;> cases mode <;> simp [takeAnswer, choose, ha, hu]

theorem take_frees (a : Addr) (p : Nat) (mode : Mode) (v4 v6 : Option (Nat × List Nat)) (freed : List Nat) :
    (takeAnswer a p mode v4 v6 freed).2.Perm (v4.toList.map (·.1) ++ v6.toList.map (·.1) ++ freed) := by
  have h1 : ∀ n : Nat, (freed ++ [n]).Perm (n :: freed) := fun n => List.perm_append_singleton _ _
  have h2 : ∀ n m : Nat, (freed ++ [n, m]).Perm (n :: m :: freed) := fun n m => List.perm_append_comm
  have h3 : ∀ n m : Nat, (freed ++ [m, n]).Perm (n :: m :: freed) := fun n m => (h2 m n).trans (List.Perm.swap _ _ _)
  cases v4 <;> cases v6 <;> cases mode <;> simp [takeAnswer] <;> first | exact h1 _ | exact h2 _ _ | exact h3 _ _

/-- **C212.** When the look-up of a name ends, it has either been told that there are no more answers
or has seen an address of both families. The result is the first address of a wanted family among
the answers read, IPv4 preferred, with the port given; it is not set when there is none. Every entry
read is given back exactly once. -/
theorem remote_address {L : Lib} (hL : L.Good) (ans : Nat → Answer) (fuel : Nat) (a : Addr) (name : List Nat) (p : Nat)
    (hp : p < 65536) (mode : Mode) (hlit : meaning L name p mode = none)
    (hc : ∀ i fam sa, ans i = .entry fam sa → Complete fam sa) {r : Addr} {freed : List Nat}
    (h : remoteAddress L ans fuel a name p mode = some (r, freed)) :
    ∃ N, (ans N = .noMore ∨ BothSeen ans N) ∧
      (match wanted (addrs ans N) p mode with
       | some v => Shows r v
       | none => isSet r = false) ∧
      freed.Perm ((entries ans N).map (·.1)) := by
  have hn := literal_shows hL a name p hp mode
  rw [hlit] at hn
  simp only at hn
  unfold remoteAddress at h
  simp only [hn, Bool.false_eq_true, if_false] at h
  obtain ⟨⟨v4, v6, fr⟩, hcol, htake⟩ := Option.map_eq_some_iff.mp h
  simp only at htake
  obtain ⟨N, hk, hstop⟩ := collect_known ans fuel 0 none none [] v4 v6 fr
    ⟨rfl, rfl, List.Perm.refl _⟩ rfl hcol
  refine ⟨N, ?_, ?_, ?_⟩
  · rcases hstop with h | ⟨h4, h6⟩
    · exact .inl h
    · rw [hk.four] at h4
      rw [hk.six] at h6
      exact .inr ⟨firstEntry_some h4, firstEntry_some h6⟩
  · have hsh := choose_shows (literal L a name p mode) hn p hp mode (addrs ans N) (by
      intro e he
      unfold addrs at he
      obtain ⟨x, hx, rfl⟩ := List.mem_map.mp he
      exact hc _ _ _ (mem_entries.mp hx).2)
    have htc := take_chooses (literal L a name p mode) hn p mode v4 v6 fr
    rw [htake] at htc
    simp only at htc
    rw [← firstEntry_firstOf, ← firstEntry_firstOf, ← hk.four, ← hk.six] at hsh
    cases hw : wanted (addrs ans N) p mode with
    | some v =>
      rw [hw] at hsh
      simp only at hsh ⊢
      have hs : isSet (choose (literal L a name p mode) p mode (v4.map (·.2)) (v6.map (·.2))) = true := by
        cases v <;> exact hsh.1
      rw [htc.1 hs]
      exact hsh
    | none =>
      rw [hw] at hsh
      simp only at hsh ⊢
      rcases htc.2 with h | h
      · rw [h]; exact hsh
      · exact h.1
  · have := take_frees (literal L a name p mode) p mode v4 v6 fr
    rw [htake] at this
    exact this.trans hk.all

theorem collect_ends_at_noMore (ans : Nat → Answer) : ∀ k n v4 v6 freed, ans (n + k) = .noMore →
    (collect ans (k + 1) n v4 v6 freed).isSome := by
  intro k
  induction k with
  | zero =>
    intro n v4 v6 freed h
    rw [collect, show ans n = .noMore from h]
    rfl
  | succ k ih =>
    intro n v4 v6 freed h
    have h' : ans (n + 1 + k) = .noMore := by rw [← h]; congr 1; omega
    rw [collect]
    cases ans n with
    | again => exact ih _ _ _ _ h'
    | noMore => rfl
    | failed => simp only; split; · rfl
                exact ih _ _ _ _ h'
    | entry fam sa =>
      simp only
      repeat' split
      all_goals first | rfl | exact ih _ _ _ _ h'

theorem collect_ends_at_both (ans : Nat → Answer) (i j : Nat) (sa sb : List Nat)
    (hi : ans i = .entry 2 sa) (hj : ans j = .entry 10 sb) : ∀ fuel n v4 v6 freed,
    (v4 = none → n ≤ i) → (v6 = none → n ≤ j) → (v4.isSome && v6.isSome) = false → max i j < n + fuel →
    (collect ans fuel n v4 v6 freed).isSome := by
  intro fuel
  induction fuel with
  | zero =>
    intro n v4 v6 freed h4 h6 hb hm
    cases v4 with
    | none => have := h4 rfl; omega
    | some x =>
      cases v6 with
      | none => have := h6 rfl; omega
      | some y => simp at hb
  | succ fuel ih =>
    intro n v4 v6 freed h4 h6 hb hm
    rw [collect]
    have skip : (∀ s, ans n ≠ .entry 2 s) → (∀ s, ans n ≠ .entry 10 s) → ∀ fr,
        (collect ans fuel (n + 1) v4 v6 fr).isSome := by
      intro n2 n10 fr
      refine ih _ _ _ _ ?_ ?_ hb (by omega)
      · intro h
        have := h4 h
        have : n ≠ i := fun e => n2 sa (e ▸ hi)
        omega
      · intro h
        have := h6 h
        have : n ≠ j := fun e => n10 sb (e ▸ hj)
        omega
    cases ha : ans n with
    | again => exact skip (by simp [ha]) (by simp [ha]) _
    | noMore => rfl
    | failed =>
      simp only [hb, Bool.false_eq_true, if_false]
      exact skip (by simp [ha]) (by simp [ha]) _
    | entry fam s =>
      simp only
      by_cases c4 : v4 = none ∧ fam = afInet
      · rw [if_pos c4]
        split
        · rfl
        · rename_i hs
          refine ih _ _ _ _ (by simp) ?_ (by simpa using hs) (by omega)
          intro h
          have := h6 h
          have : n ≠ j := by
            intro e
            rw [e, hj] at ha
            have := c4.2
            simp only [Answer.entry.injEq] at ha
            rw [← ha.1] at this
            simp [afInet] at this
          omega
      · rw [if_neg c4]
        by_cases c6 : v6 = none ∧ fam = afInet6
        · rw [if_pos c6]
          split
          · rfl
          · rename_i hs
            refine ih _ _ _ _ ?_ (by simp) (by simpa using hs) (by omega)
            intro h
            have := h4 h
            have : n ≠ i := by
              intro e
              rw [e, hi] at ha
              have := c6.2
              simp only [Answer.entry.injEq] at ha
              rw [← ha.1] at this
              simp [afInet6] at this
            omega
        · rw [if_neg c6]
          simp only [hb, Bool.false_eq_true, if_false]
          refine ih _ _ _ _ ?_ ?_ hb (by omega)
          · intro h
            have := h4 h
            have : n ≠ i := by
              intro e
              rw [e, hi] at ha
              simp only [Answer.entry.injEq] at ha
              exact c4 ⟨h, ha.1.symm⟩
            omega
          · intro h
            have := h6 h
            have : n ≠ j := by
              intro e
              rw [e, hj] at ha
              simp only [Answer.entry.injEq] at ha
              exact c6 ⟨h, ha.1.symm⟩
            omega

/-- **C212.** The look-up of a name ends exactly when some answer says that there are no more, or
addresses of both families come. -/
theorem remote_ends_iff {L : Lib} (hL : L.Good) (ans : Nat → Answer) (a : Addr) (name : List Nat) (p : Nat)
    (hp : p < 65536) (mode : Mode) (hlit : meaning L name p mode = none) :
    (∃ fuel, (remoteAddress L ans fuel a name p mode).isSome) ↔
      (∃ n, ans n = .noMore) ∨ ∃ n, BothSeen ans n := by
  have hn := literal_shows hL a name p hp mode
  rw [hlit] at hn
  simp only at hn
  unfold remoteAddress
  simp only [hn, Bool.false_eq_true, if_false, Option.isSome_map]
  constructor
  · rintro ⟨fuel, h⟩
    obtain ⟨⟨v4, v6, fr⟩, he⟩ := Option.isSome_iff_exists.mp h
    obtain ⟨N, hk, hstop⟩ := collect_known ans fuel 0 none none [] v4 v6 fr ⟨rfl, rfl, List.Perm.refl _⟩ rfl he
    rcases hstop with h | ⟨h4, h6⟩
    · exact .inl ⟨N, h⟩
    · rw [hk.four] at h4
      rw [hk.six] at h6
      exact .inr ⟨N, firstEntry_some h4, firstEntry_some h6⟩
  · rintro (⟨n, h⟩ | ⟨n, ⟨i, sa, _, hi⟩, j, sb, _, hj⟩)
    · exact ⟨n + 1, collect_ends_at_noMore ans n 0 none none [] (by simpa using h)⟩
    · exact ⟨max i j + 1, collect_ends_at_both ans i j sa sb hi hj _ 0 none none [] (by omega) (by omega) rfl (by omega)⟩

/-- **C212.** A look-up that keeps failing (the name server cannot be reached, the name is malformed)
never ends: the error is neither reported nor the loop left. -/
theorem failing_lookup_hangs {L : Lib} (hL : L.Good) (ans : Nat → Answer) (a : Addr) (name : List Nat) (p : Nat)
    (hp : p < 65536) (mode : Mode) (hlit : meaning L name p mode = none) (k : Nat)
    (hbefore : ∀ i, i < k → ans i = .again) (hafter : ∀ i, k ≤ i → ans i = .failed) (fuel : Nat) :
    remoteAddress L ans fuel a name p mode = none := by
  have hall : ∀ i, ans i = .again ∨ ans i = .failed := fun i =>
    if h : i < k then .inl (hbefore i h) else .inr (hafter i (by omega))
  cases hr : remoteAddress L ans fuel a name p mode with
  | none => rfl
  | some r =>
    rcases (remote_ends_iff hL ans a name p hp mode hlit).mp ⟨fuel, by rw [hr]; rfl⟩ with ⟨n, h⟩ | ⟨n, ⟨i, sa, _, h⟩, _⟩
    · rcases hall n with h' | h' <;> rw [h] at h' <;> cases h'
    · rcases hall i with h' | h' <;> rw [h] at h' <;> cases h'

/-! ## Cases -/

/-- the answers: an address of no interest, two of IPv6, nothing more -/
def sample : Nat → Answer
  | 0 => .again
  | 1 => .entry 1 [1, 0]
  | 2 => .entry 10 (10 :: 0 :: List.replicate 26 7)
  | 3 => .entry 10 (10 :: 0 :: List.replicate 26 8)
  | _ => .noMore

example : ∃ r, remoteAddress toy sample 9 (fun _ => 0) [104] 80 .any = some (r, [1, 3, 2]) ∧ isSet r = true ∧
    get r 8 16 = List.replicate 16 7 := ⟨_, rfl, by decide⟩
example : meaning toy [104] 80 .any = none := by decide
example : ∀ i fam sa, sample i = .entry fam sa → Complete fam sa := by
  intro i fam sa h
  match i with
  | 0 => cases h
  | 1 => cases h; exact ⟨by omega, by omega⟩
  | 2 => cases h; exact ⟨by omega, fun _ => by decide⟩
  | 3 => cases h; exact ⟨by omega, fun _ => by decide⟩
  | _ + 4 => cases h
example : wanted (addrs sample 4) 80 .any = some (.v6 (List.replicate 16 7) 80) := by decide
example (fuel : Nat) : remoteAddress toy (fun i => if i < 2 then .again else .failed) fuel (fun _ => 0) [104] 80 .any = none :=
  failing_lookup_hangs toy_good _ _ _ 80 (by omega) _ (by decide) 2 (by simp) (by simp) fuel

end Verif.Net
