import Verif.Std.Str.Model
/-! # C37, C38: buffered and memory streams -/
namespace Verif.Str

/-! ## C37 -/

/-- Everything appended, in order. -/
def written : List (Option (List Nat)) → List Nat
  | [] => []
  | some d :: r => d ++ written r
  | none :: r => written r

/-- No piece fills the rest of a non-empty buffer exactly. -/
def NeverExact (b : Buf) : List (Option (List Nat)) → Prop
  | [] => True
  | some d :: r => ¬ (b.buffer ≠ [] ∧ d.length = b.capacity - b.buffer.length) ∧ ∀ b', bufAppend b d = .ok b' → NeverExact b' r
  | none :: r => NeverExact (sync b) r

theorem sync_all (b : Buf) : (sync b).sink = b.sink ++ b.buffer ∧ (sync b).buffer = [] ∧ (sync b).capacity = b.capacity := by
  unfold sync
  split
  · simp
  · rename_i h
    have : b.buffer = [] := by simpa using h
    simp [this]

/-- An append in full: what becomes of the sink and the buffer. -/
theorem bufAppend_cases (b : Buf) (d : List Nat) (hc : b.buffer.length ≤ b.capacity) :
    ∃ b', bufAppend b d = .ok b' ∧ b'.capacity = b.capacity ∧ b'.buffer.length ≤ b'.capacity ∧
      if b.buffer ≠ [] ∧ d.length = b.capacity - b.buffer.length
      then b'.sink = b.sink ++ d ∧ b'.buffer = b.buffer
      else b'.sink ++ b'.buffer = b.sink ++ b.buffer ++ d := by
  obtain ⟨s1, s2, s3⟩ := sync_all b
  unfold bufAppend
  simp only []
  by_cases hf : d.length > b.capacity - b.buffer.length ∧ b.buffer.length > 0
  · have hfull : (decide (d.length > b.capacity - b.buffer.length) && decide (b.buffer.length > 0)) = true := by simp [hf]
    rw [hfull]
    simp only [if_true]
    split
    · rw [if_pos (by rw [s2, s3]; simp; omega)]
      refine ⟨_, rfl, s3, by simp only [s2, s3]; simp; omega, ?_⟩
      rw [if_neg (by rintro ⟨_, h⟩; omega)]
      simp [s1, s2]
    · refine ⟨_, rfl, s3, by simp only [s2, s3]; simp, ?_⟩
      rw [if_neg (by rintro ⟨_, h⟩; omega)]
      simp [s1, s2]
  · have hfull : (decide (d.length > b.capacity - b.buffer.length) && decide (b.buffer.length > 0)) = false := by
      simp only [Bool.and_eq_false_iff, decide_eq_false_iff_not]
      omega
    rw [hfull]
    simp only [Bool.false_eq_true, if_false]
    split
    · rw [if_pos (by omega)]
      refine ⟨_, rfl, rfl, by simp only [List.length_append]; omega, ?_⟩
      rw [if_neg (by rintro ⟨_, h⟩; omega)]
      simp
    · refine ⟨_, rfl, rfl, hc, ?_⟩
      by_cases he : b.buffer = []
      · rw [if_neg (by simp [he])]
        simp [he]
      · have hpos := List.length_pos_iff.2 he
        have heq : d.length = b.capacity - b.buffer.length := by omega
        rw [if_pos ⟨he, heq⟩]
        exact ⟨rfl, rfl⟩

theorem bufRun_order : ∀ (ops : List (Option (List Nat))) (b : Buf), b.buffer.length ≤ b.capacity → NeverExact b ops →
    ∃ b', bufRun b ops = .ok b' ∧ b'.sink ++ b'.buffer = b.sink ++ b.buffer ++ written ops
  | [], b, _, _ => ⟨b, rfl, by simp [written]⟩
  | some d :: r, b, hc, hn => by
    obtain ⟨b', e, hcap, hlen, h⟩ := bufAppend_cases b d hc
    rw [if_neg hn.1] at h
    obtain ⟨b2, e2, h2⟩ := bufRun_order r b' hlen (hn.2 b' e)
    exact ⟨b2, by rw [bufRun, e]; exact e2, by rw [h2, h]; simp [written]⟩
  | none :: r, b, hc, hn => by
    obtain ⟨s1, s2, s3⟩ := sync_all b
    obtain ⟨b2, e2, h2⟩ := bufRun_order r (sync b) (by rw [s2, s3]; simp) hn
    exact ⟨b2, e2, by rw [h2, s1, s2]; simp [written]⟩

/-- **C37 (partial).** For every capacity and every sequence of appends and syncs in which no piece fills the rest of
a non-empty buffer exactly, what was flushed followed by what is buffered is everything appended, in order, and the
buffer is never overrun.  Missing: pieces that fill it exactly. -/
theorem stream_order_partial (capacity : Nat) (ops : List (Option (List Nat))) (hn : NeverExact (Buf.new capacity) ops) :
    ∃ b, bufRun (Buf.new capacity) ops = .ok b ∧ b.sink ++ b.buffer = written ops := by
  obtain ⟨b, e, h⟩ := bufRun_order ops (Buf.new capacity) (by simp [Buf.new]) hn
  exact ⟨b, e, by simpa [Buf.new] using h⟩

example : NeverExact (Buf.new 4) [some [1, 2], some [3, 4, 5], some [6, 7, 8, 9, 10]] := by
  refine ⟨by simp [Buf.new], fun b h => ?_⟩
  cases h
  refine ⟨by simp [Buf.new], fun b h => ?_⟩
  cases h
  exact ⟨by simp [sync, Buf.new], fun _ _ => trivial⟩

/-- **C37 fails** whenever a piece fills the rest of a non-empty buffer: it overtakes what was written before it. -/
theorem exact_piece_overtakes (capacity : Nat) (p q : List Nat) (hp : p ≠ []) (hl : p.length < capacity)
    (hq : q.length = capacity - p.length) :
    ∃ b, bufRun (Buf.new capacity) [some p, some q, none] = .ok b ∧ b.sink = q ++ p := by
  have e1 : bufAppend (Buf.new capacity) p = .ok ⟨capacity, p, []⟩ := by
    simp [bufAppend, Buf.new, hl, Nat.le_of_lt hl]
  have e2 : bufAppend ⟨capacity, p, []⟩ q = .ok ⟨capacity, p, q⟩ := by
    have : ¬ q.length > capacity - p.length := by omega
    simp [bufAppend, hq]
  have hp' : p.length > 0 := List.length_pos_iff.2 hp
  refine ⟨⟨capacity, [], q ++ p⟩, ?_, rfl⟩
  simp [bufRun, e1, e2, sync, hp']

example : bufRun (Buf.new 4) [some [97, 98], some [99, 100], none] = .ok ⟨4, [], [99, 100, 97, 98]⟩ := by decide

/-! ## C38 -/

/-- The stream holds the text, with a NUL after it once something was written. -/
structure MsHolds (m : Ms) (xs : List Nat) : Prop where
  size : m.size = xs.length
  fits : xs ≠ [] → m.size < m.capacity
  cells : ∀ i (h : i < xs.length), m.mem i = some xs[i]
  nul : xs ≠ [] → m.mem m.size = some 0

theorem msAppend_holds (m : Ms) (xs d : List Nat) (h : MsHolds m xs) (hc : m.capacity < 2 ^ 64) (hd : d ≠ []) :
    (msAppend m d = .abort ∧ m.capacity ≤ (xs ++ d).length) ∨
    (∃ m', msAppend m d = .ok m' ∧ m'.capacity = m.capacity ∧ MsHolds m' (xs ++ d) ∧ (xs ++ d).length < m.capacity) := by
  have h1 := h.size
  have hd' : 0 < d.length := List.length_pos_iff.2 hd
  have hle : m.size ≤ m.capacity := by
    by_cases hx : xs = []
    · subst hx; simp at h1; omega
    · exact Nat.le_of_lt (h.fits hx)
  unfold msAppend
  rw [if_pos (by omega), show (m.capacity + 2 ^ 64 - m.size) % 2 ^ 64 = m.capacity - m.size by
    rcases Nat.eq_zero_or_pos m.size with e | e
    · rw [e]; omega
    · omega]
  split
  · right
    rename_i hlt
    rw [if_pos (by omega)]
    refine ⟨_, rfl, rfl, ⟨by simp [h1], fun _ => by simp only []; omega, fun i hi => ?_, fun _ => by simp⟩, by simp; omega⟩
    simp only [List.length_append] at hi
    simp only [upd]
    rw [if_neg (by omega)]
    by_cases hix : i < xs.length
    · rw [if_neg (by omega), h.cells i hix, List.getElem_append_left hix]
    · rw [if_pos (by omega), List.getElem_append_right (by omega), List.getElem?_eq_getElem (by omega)]
      simp [h1]
  · left
    exact ⟨rfl, by simp; omega⟩

/-- **C38.** Any pieces written to a memory stream of any size are either stored, their concatenation being followed
by a NUL inside the buffer, or stopped by an assertion; the second happens exactly when the text and its NUL do not
fit.  Nothing is written outside the buffer. -/
theorem memory_stream_safe (capacity : Nat) (hc : capacity < 2 ^ 64) (pieces : List (List Nat)) :
    (∃ m, msRun (Ms.new capacity) pieces = .ok m ∧ MsHolds m pieces.flatten ∧ (pieces.flatten = [] ∨ pieces.flatten.length < capacity)) ∨
    (msRun (Ms.new capacity) pieces = .abort ∧ capacity ≤ pieces.flatten.length) := by
  have key : ∀ (ps : List (List Nat)) (m : Ms) (xs : List Nat), MsHolds m xs → m.capacity = capacity →
      (∃ m', msRun m ps = .ok m' ∧ MsHolds m' (xs ++ ps.flatten) ∧ (xs ++ ps.flatten = [] ∨ (xs ++ ps.flatten).length < capacity)) ∨
      (msRun m ps = .abort ∧ capacity ≤ (xs ++ ps.flatten).length) := by
    intro ps
    induction ps with
    | nil =>
      intro m xs h hcap
      left
      refine ⟨m, rfl, by simpa using h, ?_⟩
      by_cases hx : xs = []
      · left; simp [hx]
      · right; have := h.fits hx; have := h.size; simp; omega
    | cons d ps ih =>
      intro m xs h hcap
      by_cases hd : d = []
      · subst hd
        have e : msAppend m [] = .ok m := by simp [msAppend]
        simp only [msRun, e, Out.bind_ok, List.flatten_cons, List.nil_append]
        exact ih m xs h hcap
      · rcases msAppend_holds m xs d h (by omega) hd with ⟨e, hl⟩ | ⟨m', e, hcap', h', hl⟩
        · right
          refine ⟨by rw [msRun, e]; rfl, ?_⟩
          simp at hl ⊢
          omega
        · simp only [msRun, e, Out.bind_ok, List.flatten_cons, ← List.append_assoc]
          exact ih m' _ h' (by omega)
  have := key pieces (Ms.new capacity) [] ⟨rfl, fun h => absurd rfl h, fun i hi => by simp at hi, fun h => absurd rfl h⟩ rfl
  simpa using this

example : ∃ m, msRun (Ms.new 6) [[104, 105], [], [33]] = .ok m ∧ MsHolds m [104, 105, 33] := by
  rcases memory_stream_safe 6 (by decide) [[104, 105], [], [33]] with ⟨m, e, h, _⟩ | ⟨_, h⟩
  · exact ⟨m, e, h⟩
  · exact absurd h (by decide)
example : msRun (Ms.new 3) [[104, 105], [33]] = .abort := by
  rcases memory_stream_safe 3 (by decide) [[104, 105], [33]] with ⟨m, e, h, h'⟩ | ⟨h, _⟩
  · exact absurd h' (by decide)
  · exact h

end Verif.Str
