import Verif.Core.Excerpt.Lemmas
namespace Verif.Excerpt

/-! ## C234: the marks stand under the text a message is about -/

/-- A line of a file: what comes before it, the line, and what comes after it. -/
structure Line (f pre line post : List Nat) : Prop where
  text : f = pre ++ line ++ post
  starts : pre = [] ∨ ∃ p, pre = p ++ [10]
  one : 10 ∉ line
  stops : post = [] ∨ ∃ q, post = 10 :: q
  noZero : 0 ∉ line

theorem Line.begin {f pre line post : List Nat} (h : Line f pre line post) (a : Nat) (ha : a ≤ line.length) :
    lineBegin f (pre.length + a) = pre.length := by
  refine lineBegin_spec f pre.length ?_ (pre.length + a) _ (Nat.le_refl _) (by omega) ?_
  · rcases h.starts with e | ⟨p, e⟩
    · left; simp [e]
    · right
      rw [h.text, e]
      simp
  · intro i h1 h2
    rw [h.text, List.append_assoc, List.getD_eq_getElem?_getD, List.getElem?_append_right h1,
      List.getElem?_append_left (by omega)]
    rw [List.getElem?_eq_getElem (by omega)]
    intro e
    exact h.one (by rw [← show line[i - pre.length]'(by omega) = 10 from e]; exact List.getElem_mem _)

theorem Line.shown {f pre line post : List Nat} (h : Line f pre line post) :
    fileLine (f.drop pre.length) = line ++ [10] := by
  rw [h.text, List.append_assoc, List.drop_left]
  exact fileLine_spec _ line post (Nat.le_refl _) h.one h.noZero h.stops

theorem Line.ends {f pre line post : List Nat} (h : Line f pre line post) (a : Nat) (ha : a ≤ line.length) :
    lineEnd f (pre.length + a) = pre.length + line.length := by
  rw [lineEnd_spec (line.drop a).length f (pre.length + a) (line.drop a) post (Nat.le_refl _) ?_
    (fun hh => h.one (List.mem_of_mem_drop hh)) h.stops]
  · simp; omega
  · rw [h.text, List.append_assoc, ← List.drop_drop, List.drop_left, List.drop_append_of_le_length ha]

theorem Line.fits {f pre line post : List Nat} (h : Line f pre line post) : pre.length + line.length ≤ f.length := by
  rw [h.text]; simp

/-- The row that shows a line: its number, a bar and the line. -/
def shownRow (num line : List Nat) : List Nat := num ++ [32, 124] ++ line

/-- The row of marks below it, `w` being the width of the numbers: blanks up to the bar, then a mark below the bytes from `a` to `b`. -/
def marksRow (w a b : Nat) : List Nat :=
  List.replicate (w + 1) 32 ++ [124] ++ List.replicate a 32 ++ List.replicate (b - a) 94

/-- C234, part that holds: a message about the bytes from `a` to `b` of a line shows that line, whole and nothing else, and below it
marks for exactly these bytes, each in the row as far from the left as its byte. -/
theorem one_line_partial (f pre line post : List Nat) (h : Line f pre line post) (hf : f.length < 2 ^ 64) (r a b : Nat)
    (hr : r < 2 ^ 32) (hab : a ≤ b) (hb : b ≤ line.length) :
    excerpt f ⟨r, pre.length + a⟩ ⟨r, pre.length + b⟩
      = List.replicate ((dec r).length + 1) 32 ++ [124, 10]
        ++ shownRow (dec r) line ++ [10]
        ++ marksRow (dec r).length a b ++ [10] := by
  have hfit := h.fits
  simp only [excerpt, h.begin a (by omega), h.shown, ne_eq, not_true_eq_false, if_false]
  rw [sub64_eq _ _ (Nat.le_refl _) (by have := countDigits_le r; omega), sub64_eq _ _ (by omega) (by omega),
    sub64_eq _ _ (by omega) (by omega)]
  simp only [blanks_eq, dec_length, markers, shownRow, marksRow, Nat.sub_self, Nat.add_sub_cancel_left,
    show pre.length + b - (pre.length + a) = b - a by omega, List.replicate_zero, List.append_assoc, List.cons_append, List.nil_append]

/-- C234, part that holds: a message about a text from one line to a later one shows both lines, with dots between them if there
are others, marks what comes after the start in the first and what comes before the end in the last. -/
theorem two_lines_partial (f pre line post pre' line' post' : List Nat) (h : Line f pre line post) (h' : Line f pre' line' post')
    (hf : f.length < 2 ^ 64) (r r' a b : Nat) (hr : r' < 2 ^ 32) (hrr : r < r') (ha : a ≤ line.length) (hb : b ≤ line'.length) :
    ∃ num, num.length = (dec r').length ∧ (∃ k, num = List.replicate k 32 ++ dec r)
      ∧ excerpt f ⟨r, pre.length + a⟩ ⟨r', pre'.length + b⟩
      = List.replicate ((dec r').length + 1) 32 ++ [124, 10]
        ++ shownRow num line ++ [10]
        ++ marksRow (dec r').length a line.length ++ [10]
        ++ (if r' = r + 1 then [] else List.replicate (dec r').length 32 ++ [46, 46, 46, 10])
        ++ shownRow (dec r') line' ++ [10]
        ++ marksRow (dec r').length 0 b ++ [10] := by
  have hfit := h.fits
  have hfit' := h'.fits
  have hm := countDigits_mono r' r (by omega)
  have hc := countDigits_le r'
  refine ⟨List.replicate (countDigits r' - countDigits r) 32 ++ dec r, ?_, ⟨_, rfl⟩, ?_⟩
  · simp only [List.length_append, List.length_replicate, dec_length]; omega
  · have hne : (r ≠ r') = True := by simp; omega
    simp only [excerpt, h.begin a (by omega), h.shown, h'.begin b (by omega), h'.shown, h.ends a ha, hne, if_true]
    rw [sub64_eq _ _ hm (by omega), sub64_eq _ _ (by omega) (by omega), sub64_eq _ _ (by omega) (by omega),
      sub64_eq _ _ (by omega) (by omega)]
    have hdots : (if r + 1 < r' then blanks (countDigits r') ++ [46, 46, 46, 10] else [])
        = if r' = r + 1 then [] else List.replicate (countDigits r') 32 ++ [46, 46, 46, 10] := by
      by_cases e : r' = r + 1
      · rw [if_pos e, if_neg (by omega)]
      · rw [if_neg e, if_pos (by omega), blanks_eq]
    rw [hdots]
    simp only [blanks_eq, dec_length, markers, shownRow, marksRow, Nat.add_sub_cancel_left,
      show pre.length + line.length - (pre.length + a) = line.length - a by omega, List.replicate_zero, List.append_assoc,
      List.cons_append, List.nil_append, Nat.sub_zero]

/-- The columns of a terminal a text takes up, starting at a column: a tab goes on to a multiple of eight, a byte that continues a
character takes none. -/
def column (start : Nat) : List Nat → Nat
  | [] => start
  | b :: bs =>
    column (if b = 9 then (start / 8 + 1) * 8 else if 128 ≤ b ∧ b < 192 then start else start + 1) bs

/-- The mark for a byte is in the column in which the byte is shown. -/
def Aligned (num line : List Nat) (a : Nat) : Prop :=
  column 0 (shownRow num (line.take a)) = column 0 (marksRow num.length a a)

theorem column_plain : ∀ (l : List Nat) (s : Nat), (∀ b ∈ l, b ≠ 9 ∧ ¬ (128 ≤ b ∧ b < 192)) → column s l = s + l.length
  | [], s, _ => rfl
  | b :: l, s, h => by
    have hb := h b (by simp)
    rw [column, if_neg hb.1, if_neg hb.2, column_plain l _ (fun c hc => h c (by simp [hc]))]
    simp; omega

theorem column_append : ∀ (l m : List Nat) (s : Nat), column s (l ++ m) = column (column s l) m
  | [], _, _ => rfl
  | b :: l, m, s => by rw [List.cons_append, column, column_append l m, column]

theorem column_noTab : ∀ (l : List Nat) (s : Nat), 9 ∉ l →
    column s l + l.countP (fun b => decide (128 ≤ b ∧ b < 192)) = s + l.length
  | [], s, _ => rfl
  | b :: l, s, h => by
    simp only [List.mem_cons, not_or] at h
    have ih := column_noTab l (if 128 ≤ b ∧ b < 192 then s else s + 1) h.2
    rw [column, if_neg (fun e : b = 9 => h.1 e.symm), List.countP_cons]
    simp only [List.length_cons, decide_eq_true_eq]
    by_cases hc : 128 ≤ b ∧ b < 192
    · simp only [if_pos hc] at ih ⊢; omega
    · simp only [if_neg hc] at ih ⊢; omega

theorem column_marks (w a : Nat) : column 0 (marksRow w a a) = w + 2 + a := by
  rw [column_plain]
  · simp [marksRow]; omega
  · intro b hb
    simp only [marksRow, Nat.sub_self, List.replicate_zero, List.append_nil, List.mem_append, List.mem_replicate,
      List.mem_singleton] at hb
    omega

theorem dec_digit : ∀ (n b : Nat), b ∈ dec n → 48 ≤ b ∧ b < 58 := by
  intro n
  induction n using Nat.strongRecOn with
  | _ n ih =>
    intro b hb
    rw [dec] at hb
    split at hb
    · simp at hb; omega
    · simp only [List.mem_append, List.mem_singleton] at hb
      rcases hb with hb | hb
      · exact ih (n / 10) (by omega) b hb
      · omega

theorem column_number (r : Nat) (l : List Nat) : column 0 (shownRow (dec r) l) = column ((dec r).length + 2) l := by
  rw [shownRow, column_append, column_plain (dec r ++ [32, 124])]
  · simp
  · intro b hb
    simp only [List.mem_append, List.mem_cons, List.not_mem_nil, or_false] at hb
    rcases hb with hb | hb | hb
    · have := dec_digit r b hb; omega
    · omega
    · omega

/-- C234 fails where a line holds other characters than ASCII: without tabs the marks are below the text exactly if no character of
more than one byte comes before it. -/
theorem marks_below_iff (r : Nat) (line : List Nat) (a : Nat) (ha : a ≤ line.length) (ht : 9 ∉ line.take a) :
    Aligned (dec r) line a ↔ ∀ b ∈ line.take a, ¬ (128 ≤ b ∧ b < 192) := by
  unfold Aligned
  rw [column_number, column_marks]
  have h := column_noTab (line.take a) ((dec r).length + 2) ht
  have hl : (line.take a).length = a := by simp; omega
  constructor
  · intro e b hb hc
    have : 0 < (line.take a).countP (fun b => decide (128 ≤ b ∧ b < 192)) :=
      List.countP_pos_iff.mpr ⟨b, hb, by simpa using hc⟩
    omega
  · intro hall
    have : (line.take a).countP (fun b => decide (128 ≤ b ∧ b < 192)) = 0 :=
      List.countP_eq_zero.mpr fun b hb => by simpa using hall b hb
    omega

/-- C234 fails where a line starts with a tab: the marks are below the text exactly if the bar is in the last column before a
multiple of eight. -/
theorem tab_first (r : Nat) (line : List Nat) (a : Nat) (ha : a ≤ line.length)
    (hp : ∀ b ∈ line.take a, b ≠ 9 ∧ ¬ (128 ≤ b ∧ b < 192)) :
    Aligned (dec r) (9 :: line) (a + 1) ↔ ((dec r).length + 2) % 8 = 7 := by
  unfold Aligned
  rw [column_number, column_marks, List.take_succ_cons, column, if_pos rfl, column_plain _ _ hp]
  have hl : (line.take a).length = a := by simp; omega
  rw [hl]
  omega

/-- With fewer than ten thousand lines that is never so. -/
theorem tab_first_small (r : Nat) (hr : r < 10000) (line : List Nat) (a : Nat) (ha : a ≤ line.length)
    (hp : ∀ b ∈ line.take a, b ≠ 9 ∧ ¬ (128 ≤ b ∧ b < 192)) : ¬ Aligned (dec r) (9 :: line) (a + 1) := by
  rw [tab_first r line a ha hp, dec_length]
  have h1 : countDigits r ≤ 4 := by
    have := countDigits_mono 9999 r (by omega)
    have e : countDigits 9999 = 4 := by simp [countDigits]
    omega
  omega

/-- A file of three lines, the second with a word marked. -/
example : excerpt [97, 10, 98, 99, 100, 10, 101] ⟨2, 3⟩ ⟨2, 5⟩
    = [32, 32, 124, 10, 50, 32, 124, 98, 99, 100, 10, 32, 32, 124, 32, 94, 94, 10] := by
  have h : Line [97, 10, 98, 99, 100, 10, 101] [97, 10] [98, 99, 100] [10, 101] :=
    ⟨rfl, .inr ⟨[97], rfl⟩, by decide, .inr ⟨_, rfl⟩, by decide⟩
  have := one_line_partial _ _ _ _ h (by decide) 2 1 3 (by decide) (by decide) (by decide)
  simpa [dec, shownRow, marksRow] using this

/-- The first and the third line. -/
example : Line [97, 10, 98, 99, 100, 10, 101] [] [97] [10, 98, 99, 100, 10, 101]
    ∧ Line [97, 10, 98, 99, 100, 10, 101] [97, 10, 98, 99, 100, 10] [101] [] :=
  ⟨⟨rfl, .inl rfl, by decide, .inr ⟨_, rfl⟩, by decide⟩, ⟨rfl, .inr ⟨[97, 10, 98, 99, 100], rfl⟩, by decide, .inl rfl, by decide⟩⟩

/-- `é` before the marked text moves the mark by one column. -/
example : ¬ Aligned (dec 7) [195, 169, 61, 120] 3 := by
  rw [marks_below_iff 7 _ 3 (by decide) (by decide)]
  intro h
  exact h 169 (by decide) (by decide)

end Verif.Excerpt
