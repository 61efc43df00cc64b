import Verif.Std.Fetch.Model
/-!
# Receiving the response of a fetch: properties
-/
namespace Verif.Fetch

theorem receive_nil (w : Option Writer) (s : St) : receive w [] s = if complete s then .ok s.parts else .raised s.parts := by
  rw [receive.eq_def]

theorem receive_cons (w : Option Writer) (c : List Nat) (cs : List (List Nat)) (s : St) : receive w (c :: cs) s =
    if complete s then .ok s.parts else if (feed w s c).1 then receive w cs (feed w s c).2 else .raised (feed w s c).2.parts := by
  rw [receive.eq_def]

theorem complete_some (ps : List (List Nat)) (n : Nat) : complete ⟨ps, some n⟩ = true ↔ n = 0 := by simp [complete]

theorem receive_done (w : Option Writer) (cs : List (List Nat)) (s : St) (h : complete s = true) : receive w cs s = .ok s.parts := by
  cases cs <;> simp [receive_nil, receive_cons, h]

/-- A writer that always goes on, or none. -/
def Calm (w : Option Writer) : Prop := ∀ f, w = some f → ∀ ps, f ps = false

theorem feed_calm {w : Option Writer} (hw : Calm w) (ps : List (List Nat)) (n : Nat) (c : List Nat) :
    (feed w ⟨ps, some n⟩ c).1 = true ∧ (feed w ⟨ps, some n⟩ c).2.parts.flatten = ps.flatten ++ c.take n ∧
      (feed w ⟨ps, some n⟩ c).2.left = some (n - c.length) := by
  unfold feed partOf
  by_cases h : (c.take n).isEmpty
  · simp only [h, if_true, true_and]
    rw [List.isEmpty_iff] at h
    refine ⟨by rw [h]; simp, ?_⟩
    rw [List.take_eq_nil_iff] at h
    rcases h with rfl | rfl <;> simp
  · simp only [h, Bool.false_eq_true, if_false]
    refine ⟨?_, by simp, ?_⟩
    · cases w with
      | none => rfl
      | some f => simp [onBodyPart, hw f rfl]
    · simp only [Option.map_some, List.length_take]
      congr 1
      omega

theorem receive_calm {w : Option Writer} (hw : Calm w) : ∀ (cs ps : List (List Nat)) (n : Nat),
    (n ≤ cs.flatten.length → ∃ qs, receive w cs ⟨ps, some n⟩ = .ok qs ∧ qs.flatten = ps.flatten ++ cs.flatten.take n) ∧
    (cs.flatten.length < n → ∃ qs, receive w cs ⟨ps, some n⟩ = .raised qs)
  | [], ps, n => by
    rw [receive_nil]
    by_cases h : n = 0
    · simp [h, complete]
    · simp [h, complete]
  | c :: cs, ps, n => by
    by_cases h : n = 0
    · subst h
      rw [receive_done w _ _ ((complete_some ps 0).2 rfl)]
      simp
    · have hc : complete ⟨ps, some n⟩ = false := by simp [complete, h]
      obtain ⟨h1, h2, h3⟩ := feed_calm hw ps n c
      rw [receive_cons, hc, if_neg (by simp), if_pos h1]
      have hs : (feed w ⟨ps, some n⟩ c).2 = ⟨(feed w ⟨ps, some n⟩ c).2.parts, some (n - c.length)⟩ := by rw [← h3]
      rw [hs]
      obtain ⟨i1, i2⟩ := receive_calm hw cs (feed w ⟨ps, some n⟩ c).2.parts (n - c.length)
      simp only [List.flatten_cons, List.length_append]
      constructor
      · intro hl
        obtain ⟨qs, q1, q2⟩ := i1 (by omega)
        exact ⟨qs, q1, by rw [q2, h2, List.take_append, List.append_assoc]⟩
      · intro hl
        exact i2 (by omega)

/-- **The body of a response of known length arrives however it is split**: exactly its bytes, in order, no matter what comes behind. -/
theorem length_right_partial (n : Nat) (chunks : List (List Nat)) (h : n ≤ chunks.flatten.length) :
    ∃ parts, receive none chunks (start (.length n)) = .ok parts ∧ parts.flatten = chunks.flatten.take n := by
  have := (receive_calm (w := none) (fun _ h => by simp at h) chunks [] n).1 h
  simpa [start] using this

/-- **A response that is cut off raises**, and only such a one. -/
theorem length_raises_iff (n : Nat) (chunks : List (List Nat)) :
    (∃ parts, receive none chunks (start (.length n)) = .raised parts) ↔ chunks.flatten.length < n := by
  have := receive_calm (w := none) (fun _ h => by simp at h) chunks [] n
  constructor
  · rintro ⟨ps, hp⟩
    by_cases h : chunks.flatten.length < n
    · exact h
    · obtain ⟨qs, h1, _⟩ := this.1 (by omega)
      rw [start] at hp
      rw [hp] at h1
      simp at h1
  · exact this.2

theorem close_loop (w : Option Writer) : ∀ (cs : List (List Nat)) (s : St), s.left = none → ∃ ps, receive w cs s = .raised ps
  | [], s, h => ⟨s.parts, by rw [receive_nil]; simp [complete, h]⟩
  | c :: cs, s, h => by
    rw [receive_cons, if_neg (by simp [complete, h])]
    by_cases hf : (feed w s c).1 = true
    · rw [if_pos hf]
      refine close_loop w cs _ ?_
      by_cases he : (partOf s.left c).isEmpty = true
      · simp only [feed, if_pos he]; exact h
      · simp only [feed, if_neg he]; rw [h]; rfl
    · rw [if_neg hf]
      exact ⟨_, rfl⟩

/-- **A response that ends with its connection always raises**, though all of its body was received. -/
theorem close_never (w : Option Writer) (chunks : List (List Nat)) :
    ∃ parts, receive w chunks (start .untilClose) = .raised parts := close_loop w chunks _ rfl

/-! ## Writers -/

/-- **A writer that returns false gets the body**, in parts that are not empty. -/
theorem writer_false_partial (f : Writer) (hf : ∀ ps, f ps = false) (n : Nat) (chunks : List (List Nat)) (h : n ≤ chunks.flatten.length) :
    ∃ parts, receive (some f) chunks (start (.length n)) = .ok parts ∧ parts.flatten = chunks.flatten.take n := by
  have := (receive_calm (w := some f) (fun g hg => by cases hg; exact hf) chunks [] n).1 h
  simpa [start] using this

theorem true_loop (f : Writer) (hf : ∀ ps, f ps = true) : ∀ (cs : List (List Nat)) (s : St), s.left ≠ some 0 →
    ∃ ps, receive (some f) cs s = .raised ps ∧ ps.length ≤ s.parts.length + 1
  | [], s, h => ⟨s.parts, by rw [receive_nil]; simp [complete, h], by omega⟩
  | c :: cs, s, h => by
    rw [receive_cons, if_neg (by simp [complete, h])]
    by_cases he : (partOf s.left c).isEmpty = true
    · have : feed (some f) s c = (true, s) := by simp only [feed, if_pos he]
      rw [this]
      simp only [if_true]
      exact true_loop f hf cs s h
    · have h1 : (feed (some f) s c).1 = false := by simp only [feed, if_neg he, onBodyPart, hf, Bool.not_true]
      have h2 : (feed (some f) s c).2.parts.length = s.parts.length + 1 := by
        simp only [feed, if_neg he, List.length_append, List.length_cons, List.length_nil]
      rw [h1]
      exact ⟨(feed (some f) s c).2.parts, by simp, by omega⟩

/-- **A writer that returns true, which fetch.cxy 438-440 takes for going on, gets at most one part, and the fetch raises**, whenever
there is a body. -/
theorem writer_true (f : Writer) (hf : ∀ ps, f ps = true) (n : Nat) (hn : 0 < n) (chunks : List (List Nat)) :
    ∃ parts, receive (some f) chunks (start (.length n)) = .raised parts ∧ parts.length ≤ 1 := by
  obtain ⟨ps, h1, h2⟩ := true_loop f hf chunks (start (.length n)) (by simp [start]; omega)
  exact ⟨ps, h1, by simpa [start] using h2⟩

/-! ## Cases -/

/-- Five bytes in two pieces, with one behind them. -/
example : receive none [[1, 2], [], [3, 4, 5, 6]] (start (.length 5)) = .ok [[1, 2], [3, 4, 5]] := by
  simp [receive_cons, receive_done, feed, partOf, start, complete, onBodyPart]
example := length_right_partial 5 [[1, 2], [], [3, 4, 5, 6]] (by simp)
/-- Cut off behind three. -/
example := (length_raises_iff 5 [[1, 2], [3]]).2 (by simp)
example := close_never none [[1, 2], [3]]
/-- A writer that returns true. -/
example : receive (some fun _ => true) [[1, 2], [3, 4]] (start (.length 4)) = .raised [[1, 2]] := by
  simp [receive_cons, feed, partOf, start, complete, onBodyPart]
example := writer_false_partial (fun _ => false) (fun _ => rfl) 4 [[1, 2], [3, 4]] (by simp)

end Verif.Fetch
