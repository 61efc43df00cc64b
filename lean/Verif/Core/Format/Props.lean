import Verif.Core.Format.Model
/-! # C15: formatted output is the concatenation of all writes -/
namespace Verif.Format

theorem reserve_spec (s : State) (n : Nat) :
    toText (reserve s n) = toText s ∧ ∃ b, (reserve s n).cur = some b ∧ b.data.length + n ≤ b.capacity := by
  obtain ⟨before, cur⟩ := s
  cases cur with
  | none =>
    refine ⟨by simp [reserve, toText], _, rfl, ?_⟩
    simp only [List.length_nil]
    split <;> omega
  | some b =>
    unfold reserve
    simp only
    split
    · exact ⟨rfl, b, rfl, by assumption⟩
    · refine ⟨by simp [toText], _, rfl, ?_⟩
      simp only [List.length_nil]
      split <;> omega

theorem write_spec (s : State) (bytes : List Nat) :
    ∃ s', write s bytes = .ok s' ∧ toText s' = toText s ++ bytes := by
  obtain ⟨h1, b, h2, h3⟩ := reserve_spec s bytes.length
  unfold write
  simp only [h2]
  rw [if_pos h3]
  refine ⟨_, rfl, ?_⟩
  rw [← h1]
  simp [toText, h2]

theorem writeNumber_spec (s : State) (bytes : List Nat) (h : bytes.length < 64) :
    ∃ s', writeNumber s bytes = .ok s' ∧ toText s' = toText s ++ bytes := by
  obtain ⟨h1, b, h2, h3⟩ := reserve_spec s 64
  unfold writeNumber
  simp only [h2]
  rw [if_neg (by omega), if_pos (by omega)]
  refine ⟨_, rfl, ?_⟩
  rw [← h1]
  simp [toText, h2]

/-- **C15**: for every sequence of writes (literal text and arguments of any length, numbers of fewer
than 64 characters), nothing is written outside a buffer and the final text is the concatenation. -/
theorem output_is_concatenation (ops : List Op) (h : ∀ b, Op.number b ∈ ops → b.length < 64) :
    ∃ s, Res.foldl step new ops = .ok s ∧ toText s = ops.flatMap Op.bytes := by
  suffices hs : ∀ (ops : List Op) (s : State), (∀ b, Op.number b ∈ ops → b.length < 64) →
      ∃ s', Res.foldl step s ops = .ok s' ∧ toText s' = toText s ++ ops.flatMap Op.bytes by
    simpa [new, toText] using hs ops new h
  intro ops
  induction ops with
  | nil => intro s _; exact ⟨s, rfl, by simp⟩
  | cons o os ih =>
    intro s h
    have hstep : ∃ s', step s o = .ok s' ∧ toText s' = toText s ++ o.bytes := by
      cases o with
      | text b => exact write_spec s b
      | number b => exact writeNumber_spec s b (h b (by simp))
      | arg b =>
        obtain ⟨s', h1, h2⟩ := write_spec (reserve s 64) b
        exact ⟨s', h1, by rw [h2, (reserve_spec s 64).1]; rfl⟩
    obtain ⟨s1, h1, h2⟩ := hstep
    obtain ⟨s2, h3, h4⟩ := ih s1 (fun b hb => h b (List.mem_cons_of_mem _ hb))
    refine ⟨s2, by simp [Res.foldl, h1, h3], ?_⟩
    rw [h4, h2]
    simp

/-- non-vacuity: a write that opens a second buffer -/
example (t : List Nat) (ht : t.length = 1000) :
    Res.foldl step new [.text t, .number [49, 50], .arg [104]] = .ok ⟨[⟨1024, t⟩], some ⟨1000, [49, 50, 104]⟩⟩ := by
  simp [Res.foldl, step, write, writeNumber, writeArg, reserve, new, ht]

end Verif.Format
