import Verif.Std.StreamIO.Sockets
/-! # C173, C174 for files, C177 and C178: copying and reading -/
namespace Verif.StreamIO

/-! ## Writing -/

/-- What was written so far is a beginning of the data, and a count is that of what was written. -/
def Wrote (data out : List Nat) (x : F Nat × List Nat) : Prop :=
  ∃ m, m ≤ data.length ∧ x.2 = out ++ data.take m ∧ ∀ n, x.1 = .ok n → n = m ∧ n = data.length

theorem write_wrote (data out : List Nat) : ∀ (rs : List Round) (written : Nat), written ≤ data.length →
    Wrote data out (writeLoop data rs written (out ++ data.take written))
  | rs, written, hle => by
    by_cases ht : written < data.length
    · cases rs with
      | nil =>
        rw [writeLoop, if_pos ht]
        exact ⟨written, hle, rfl, fun n h => (nomatch h)⟩
      | cons r rs =>
        rw [writeLoop, if_pos ht]
        cases hr : r.ans with
        | fail e =>
          simp only [ne_eq, wake_never_writable, not_false_eq_true, if_true]
          split <;> exact ⟨written, hle, rfl, fun n h => (nomatch h)⟩
        | count n =>
          simp only
          rw [List.append_assoc, take_more]
          exact write_wrote data out rs _ (by omega)
    · rw [writeLoop.eq_def]
      simp only [ht, if_false]
      refine ⟨written, hle, rfl, fun n h => ?_⟩
      simp only [F.ok.injEq] at h
      omega

/-- **C173.** The same for `writeAsync` on a file or pipe: a count means that everything was written, once and in order; and what was
written by a call that raised is a beginning of the data. -/
theorem write_count_exact (rs : List Round) (data : List Nat) :
    (∀ n, (writeAsync rs data).1 = .ok n → n = data.length ∧ (writeAsync rs data).2 = data) ∧
    ∃ m, m ≤ data.length ∧ (writeAsync rs data).2 = data.take m := by
  obtain ⟨m, h1, h2, h3⟩ := write_wrote data [] rs 0 (Nat.zero_le _)
  have e : writeLoop data rs 0 ([] ++ data.take 0) = writeAsync rs data := rfl
  rw [e] at h2 h3
  rw [List.nil_append] at h2
  refine ⟨fun n h => ?_, m, h1, h2⟩
  obtain ⟨rfl, h4⟩ := h3 n h
  exact ⟨h4, by rw [h2, h4, List.take_length]⟩

example : writeAsync [⟨.count 2, .readable, .none⟩, ⟨.count 9, .readable, .none⟩] [5, 6, 7] = (.ok 3, [5, 6, 7]) := by
  simp [writeAsync, writeLoop]

/-- **C174, it fails.** A pipe that is full makes `writeAsync` raise, however the waiting ends: after any rounds that leave something to
write, `EAGAIN` is an error. -/
theorem full_pipe_fails_write (pre : List Round) (r : Round) (post : List Round) (data : List Nat)
    (hp : ∀ r ∈ pre, ∃ n, r.ans = .count n) (hpend : (writeAsync pre data).1 = .pending) (hr : r.ans = .fail .again) :
    (writeAsync (pre ++ r :: post) data).1 = .raised := by
  unfold writeAsync at *
  generalize 0 = written at *
  generalize [] = out at *
  induction pre generalizing written out with
  | nil =>
    by_cases ht : written < data.length
    · rw [List.nil_append, writeLoop, if_pos ht, hr]
      simp [wake_never_writable]
    · rw [writeLoop, if_neg ht] at hpend
      exact nomatch hpend
  | cons q pre ih =>
    by_cases ht : written < data.length
    · obtain ⟨n, h⟩ := hp q (List.mem_cons_self ..)
      rw [writeLoop, if_pos ht, h] at hpend
      rw [List.cons_append, writeLoop, if_pos ht, h]
      exact ih (fun r' h' => hp r' (List.mem_cons_of_mem _ h')) _ _ hpend
    · rw [writeLoop, if_neg ht] at hpend
      exact nomatch hpend

/-! ## C177: copying -/

/-- **C177 (partial).** When the kernel copies all it is asked for in one call, also after any number of waits, the copy is the file.
Missing: files copied in several pieces (`copy_in_pieces_loses`). -/
theorem copy_exact_partial (src : List Nat) (stale : Errno) (rs : List Round)
    (hr : ∀ r ∈ rs, ∀ n, r.ans = .count n → src.length ≤ n) (dst : List Nat) (h : copy rs src stale = .ok dst) : dst = src := by
  unfold copy at h
  by_cases hz : 0 < src.length
  · induction rs with
    | nil =>
      rw [copyLoop, if_pos hz] at h
      exact nomatch h
    | cons r rs ih =>
      rw [copyLoop, if_pos hz] at h
      have ih' := ih (fun r' h' => hr r' (List.mem_cons_of_mem _ h'))
      cases ha : r.ans with
      | fail e =>
        rw [ha] at h
        simp only at h
        split at h
        · split at h
          · exact nomatch h
          · exact ih' h
        · exact nomatch h
      | count n =>
        have hn := hr r (List.mem_cons_self ..) n ha
        have ht : fileTakes src 0 (src.length - 0) n = src.length := by unfold fileTakes; omega
        rw [ha] at h
        simp only [ht, show ¬ src.length = 0 by omega, if_false] at h
        rw [copyLoop.eq_def] at h
        simp only [show ¬ 0 + src.length + src.length < src.length by omega, if_false, List.drop_zero, List.take_length,
          List.nil_append, F.ok.injEq] at h
        exact h.symm
  · rw [copyLoop.eq_def] at h
    simp only [hz, if_false, F.ok.injEq] at h
    rw [← h, List.eq_nil_of_length_eq_zero (show src.length = 0 by omega)]

/-- What the copy lacks: the count is ahead of what was written. -/
theorem copy_short (src : List Nat) (stale : Errno) (d : Nat) (hd : 0 < d) : ∀ (rs : List Round) (copied : Nat) (dst : List Nat),
    dst.length + d ≤ copied → dst.length < src.length → ∀ out, copyLoop src stale rs copied dst = .ok out → out.length < src.length
  | rs, copied, dst, h1, h2, out, h => by
    by_cases hc : copied < src.length
    · cases rs with
      | nil =>
        rw [copyLoop, if_pos hc] at h
        exact nomatch h
      | cons r rs =>
        rw [copyLoop, if_pos hc] at h
        cases ha : r.ans with
        | fail e =>
          rw [ha] at h
          simp only at h
          split at h
          · split at h
            · exact nomatch h
            · exact copy_short src stale d hd rs copied dst h1 h2 out h
          · exact nomatch h
        | count n =>
          rw [ha] at h
          simp only at h
          split at h
          · split at h
            · split at h
              · exact nomatch h
              · exact copy_short src stale d hd rs copied dst h1 h2 out h
            · exact nomatch h
          · have hk : fileTakes src copied (src.length - copied) n ≤ src.length - copied := by unfold fileTakes; omega
            refine copy_short src stale d hd rs _ _ ?_ ?_ out h
            · simp only [List.length_append, List.length_take, List.length_drop]
              omega
            · simp only [List.length_append, List.length_take, List.length_drop]
              omega
    · rw [copyLoop.eq_def] at h
      simp only [hc, if_false, F.ok.injEq] at h
      rw [← h]
      exact h2

/-- **C177, it fails.** When the kernel copies a file in more than one piece, which it does above 2 GB and into pipes and sockets, the
copy is too short and no error is reported: for any file, any first piece that is not the whole, and whatever happens then. -/
theorem copy_in_pieces_loses (src : List Nat) (stale : Errno) (n : Nat) (w : Wake) (a : Errno) (rs : List Round) (out : List Nat)
    (hn : 0 < n) (hl : n < src.length) (h : copy (⟨.count n, w, a⟩ :: rs) src stale = .ok out) : out.length < src.length := by
  have ht : fileTakes src 0 (src.length - 0) n = n := by unfold fileTakes; omega
  unfold copy at h
  rw [copyLoop, if_pos (by omega)] at h
  simp only [ht, show ¬ n = 0 by omega, if_false] at h
  refine copy_short src stale n hn rs _ _ ?_ ?_ out h
  · simp only [List.length_append, List.length_take, List.length_drop, List.length_nil]
    omega
  · simp only [List.length_append, List.length_take, List.length_drop, List.length_nil]
    omega

example : copy [⟨.count 2, .readable, .none⟩, ⟨.count 9, .readable, .none⟩] [1, 2, 3, 4, 5] .none = .ok [1, 2, 5] := by
  simp [copy, copyLoop, fileTakes]

example : copy [⟨.fail .again, .readable, .none⟩, ⟨.count 9, .readable, .none⟩] [1, 2, 3, 4, 5] .none = .ok [1, 2, 3, 4, 5] := by
  simp [copy, copyLoop, fileTakes, Wake.value, readableState]

/-! ## C178: reading -/

/-- The kernel reports the end of a file only at the end. -/
def Honest (rs : List Round) : Prop := ∀ r ∈ rs, r.ans ≠ .count 0

theorem Honest.tail {r : Round} {rs : List Round} (h : Honest (r :: rs)) : Honest rs := fun q hq => h q (List.mem_cons_of_mem _ hq)

theorem honest_end {n m : Nat} (hn : n ≠ 0) (hm : 0 < m) {rest : List Nat} (h : min n (min m rest.length) = 0) : rest = [] :=
  List.eq_nil_of_length_eq_zero (by omega)

theorem readAsync_all : ∀ (rs : List Round) (rest got out : List Nat), Honest rs → readAsyncLoop rs rest got = .ok out →
    out = got ++ rest
  | [], rest, got, out, _, h => by
    rw [readAsyncLoop] at h
    exact nomatch h
  | r :: rs, rest, got, out, hh, h => by
    rw [readAsyncLoop] at h
    cases ha : r.ans with
    | fail e =>
      rw [ha] at h
      simp only at h
      split at h
      · split at h
        · exact nomatch h
        · exact readAsync_all rs rest got out hh.tail h
      · exact nomatch h
    | count n =>
      have hn : n ≠ 0 := by
        rintro rfl
        exact hh r (List.mem_cons_self ..) ha
      rw [ha] at h
      simp only at h
      split at h
      · rename_i hk
        simp only [F.ok.injEq] at h
        rw [honest_end hn (by omega) hk, List.append_nil, h]
      · rw [readAsync_all rs _ _ out hh.tail h, List.append_assoc, List.take_append_drop]

/-- **C178 (partial).** When `readAsync` returns, the text is the whole content of the file, in whatever pieces and after whatever waits
it was read. -/
theorem readAsync_content_partial (rs : List Round) (file out : List Nat) (hh : Honest rs) (h : readAsync rs file = .ok out) :
    out = file := by
  rw [readAsync_all rs file [] out hh h]
  rfl

example : readAsync [⟨.count 2, .readable, .none⟩, ⟨.fail .again, .readable, .none⟩, ⟨.count 5, .readable, .none⟩, ⟨.count 5, .readable, .none⟩]
    [1, 2, 3] = .ok [1, 2, 3] := by
  simp [readAsync, readAsyncLoop, Wake.value, readableState]

/-- **C178, it fails.** The output of a process that writes and ends while it is waited for is an error: data that comes with a hang-up
does not count as data. -/
theorem readAsync_hangup_raises (r : Round) (rs : List Round) (rest got : List Nat) (hr : r.ans = .fail .again)
    (hw : r.wake = .hangup) : readAsyncLoop (r :: rs) rest got = .raised := by
  rw [readAsyncLoop]
  simp [hr, hw, Wake.value, readableState]

theorem readAllLoop_all : ∀ (rs : List Round) (rest got out : List Nat), Honest rs → (∀ r ∈ rs, ∀ e, r.ans ≠ .fail e) →
    readAllLoop rs rest got = .ok out → out = got ++ rest
  | [], rest, got, out, _, _, h => by
    rw [readAllLoop] at h
    exact nomatch h
  | r :: rs, rest, got, out, hh, hf, h => by
    rw [readAllLoop] at h
    cases ha : r.ans with
    | fail e => exact absurd ha (hf r (List.mem_cons_self ..) e)
    | count n =>
      have hn : n ≠ 0 := by
        rintro rfl
        exact hh r (List.mem_cons_self ..) ha
      rw [ha] at h
      simp only at h
      split at h
      · rename_i hk
        simp only [F.ok.injEq] at h
        rw [honest_end hn (by omega) hk, List.append_nil, h]
      · rw [readAllLoop_all rs _ _ out hh.tail (fun q hq => hf q (List.mem_cons_of_mem _ hq)) h, List.append_assoc,
          List.take_append_drop]

/-- Reading a regular file into the reserved memory: what was read is a beginning of the file. -/
theorem fill_prefix (size : Nat) : ∀ (rs : List Round) (rest got out : List Nat), got.length ≤ size →
    fillLoop size rs rest got = .ok out → out.length = size ∧ ∃ m, out = got ++ rest.take m
  | rs, rest, got, out, hle, h => by
    by_cases hc : got.length < size
    · cases rs with
      | nil =>
        rw [fillLoop, if_pos hc] at h
        exact nomatch h
      | cons r rs =>
        rw [fillLoop, if_pos hc] at h
        cases ha : r.ans with
        | fail e =>
          rw [ha] at h
          exact nomatch h
        | count n =>
          rw [ha] at h
          simp only at h
          obtain ⟨h1, m, h2⟩ := fill_prefix size rs _ _ out (by simp only [List.length_append, List.length_take]; omega) h
          refine ⟨h1, min n (min (size - got.length) rest.length) + m, ?_⟩
          rw [h2, List.append_assoc, take_more]
    · rw [fillLoop.eq_def] at h
      simp only [hc, if_false, F.ok.injEq] at h
      subst h
      exact ⟨by omega, 0, by simp⟩

/-- The memory reserved for a text, and what `resize` does with it. -/
theorem store_result (size : Nat) (got : List Nat) (hg : got.length = size) :
    ((F.ofOut (Str.grow Str.S.new size)).bind fun s =>
      (F.ofOut (Str.copyIn s s.size got)).bind fun s => (F.ofOut (Str.resize s got.length)).bind fun _ => F.ok got)
      = if size < 16 then .abort else .ok got := by
  have h1 : Str.grow Str.S.new size = .ok ⟨false, max (0 + size) 16, 0, max (0 + size) 16 + 1, fun _ => none⟩ := by
    simp [Str.grow, Str.S.new]
  rw [h1]
  simp only [F.ofOut, F.bind]
  unfold Str.copyIn
  rw [if_pos (show 0 + got.length ≤ max (0 + size) 16 + 1 by omega)]
  simp only
  unfold Str.resize
  by_cases h : size < 16
  · rw [if_neg (show ¬ max (0 + size) 16 ≤ got.length by omega), if_pos h]
  · rw [if_pos (show max (0 + size) 16 ≤ got.length by omega), if_neg h]
    unfold Str.wr
    simp only [Bool.not_false, Bool.true_and, decide_eq_true_eq]
    rw [if_pos (show got.length < max (0 + size) 16 + 1 by omega)]

theorem readAll_regular (rs : List Round) (size : Nat) (file : List Nat) (h0 : 0 < size) (h1 : size ≤ 1048576) :
    readAll rs true size file =
      (fillLoop size rs file []).bind fun got => if size < 16 then .abort else .ok got := by
  have h2 : ∀ got, fillLoop size rs file [] = .ok got → got.length = size := fun got h => (fill_prefix size rs file [] got (Nat.zero_le _) h).1
  simp only [readAll, show ¬ size > 1048576 by omega, if_false, Bool.not_true, Bool.false_eq_true, show ¬ size = 0 by omega]
  cases hf : fillLoop size rs file [] with
  | ok got =>
    have := store_result size got (h2 got hf)
    simp only [F.bind]
    rw [← this]
    rfl
  | _ => rfl

/-- **C178 (partial).** `readAll` of a regular file: when it returns, the text is the content the file had when its size was asked for,
and a file of at least 16 bytes is read in full as soon as the kernel gives something in every round. Missing: files of 1 to 15 bytes
(`small_file_aborts`), files above 1 MB, which are refused, and streams that fail (`read_error_is_end`). -/
theorem readAll_content_partial (rs : List Round) (file : List Nat) :
    (∀ out, readAll rs true file.length file = .ok out → out = file) ∧
    (16 ≤ file.length → file.length ≤ 1048576 → file.length ≤ rs.length → (∀ r ∈ rs, ∃ n, r.ans = .count (n + 1)) →
      readAll rs true file.length file = .ok file) := by
  have pre : ∀ out, fillLoop file.length rs file [] = .ok out → out = file := by
    intro out h
    obtain ⟨h1, m, h2⟩ := fill_prefix file.length rs file [] out (Nat.zero_le _) h
    rw [List.nil_append] at h2
    subst h2
    have : file.length ≤ m := by
      rw [List.length_take] at h1
      omega
    exact List.take_of_length_le this
  constructor
  · intro out h
    by_cases hb : file.length > 1048576
    · simp only [readAll, hb, if_true] at h
      exact nomatch h
    · by_cases h0 : file.length = 0
      · simp [readAll, h0] at h
        rw [h, List.eq_nil_of_length_eq_zero h0]
      · rw [readAll_regular rs file.length file (by omega) (by omega)] at h
        cases hf : fillLoop file.length rs file [] with
        | ok got =>
          rw [hf] at h
          simp only [F.bind] at h
          split at h
          · exact nomatch h
          · simp only [F.ok.injEq] at h
            rw [← h, pre got hf]
        | raised => rw [hf] at h; exact nomatch h
        | abort => rw [hf] at h; exact nomatch h
        | ub => rw [hf] at h; exact nomatch h
        | pending => rw [hf] at h; exact nomatch h
  · intro h16 hmax hlen hr
    rw [readAll_regular rs file.length file (by omega) (by omega)]
    have run : ∀ (rs : List Round) (rest got : List Nat), got ++ rest = file → rest.length ≤ rs.length →
        (∀ r ∈ rs, ∃ n, r.ans = .count (n + 1)) → ∃ out, fillLoop file.length rs rest got = .ok out := by
      intro rs
      induction rs with
      | nil =>
        intro rest got he hl _
        have : rest = [] := List.eq_nil_of_length_eq_zero (by simpa using hl)
        subst this
        rw [List.append_nil] at he
        subst he
        rw [fillLoop.eq_def]
        exact ⟨got, by simp⟩
      | cons r rs ih =>
        intro rest got he hl hr
        by_cases hc : got.length < file.length
        · obtain ⟨n, hn⟩ := hr r (List.mem_cons_self ..)
          rw [fillLoop, if_pos hc, hn]
          have hlen : got.length + rest.length = file.length := by rw [← he, List.length_append]
          refine ih _ _ ?_ ?_ (fun q hq => hr q (List.mem_cons_of_mem _ hq))
          · rw [List.append_assoc, List.take_append_drop, he]
          · simp only [List.length_drop, List.length_cons] at hl ⊢
            omega
        · rw [fillLoop.eq_def]
          exact ⟨got, by simp [hc]⟩
    obtain ⟨out, ho⟩ := run rs file [] rfl hlen hr
    rw [ho, pre out ho]
    simp [F.bind, show ¬ file.length < 16 by omega]

/-- **C178, it fails.** A regular file of 1 to 15 bytes is never read: once its content is there, the assertion in `resize` stops the
program. -/
theorem small_file_aborts (file : List Nat) (n : Nat) (w : Wake) (a : Errno) (rs : List Round) (h0 : 0 < file.length)
    (h15 : file.length < 16) (hn : file.length ≤ n) :
    readAll (⟨.count n, w, a⟩ :: rs) true file.length file = .abort ∧ ∀ rs out, readAll rs true file.length file ≠ .ok out := by
  constructor
  · rw [readAll_regular _ _ _ h0 (by omega), fillLoop, if_pos (by simpa using h0)]
    have hk : min n (min (file.length - ([] : List Nat).length) file.length) = file.length := by simp; omega
    simp only [hk, List.take_length, List.nil_append]
    rw [fillLoop.eq_def]
    simp [F.bind, h15]
  · intro rs out h
    rw [readAll_regular _ _ _ h0 (by omega)] at h
    cases hf : fillLoop file.length rs file [] with
    | ok got =>
      rw [hf] at h
      simp [F.bind, h15] at h
    | raised => rw [hf] at h; exact nomatch h
    | abort => rw [hf] at h; exact nomatch h
    | ub => rw [hf] at h; exact nomatch h
    | pending => rw [hf] at h; exact nomatch h

/-- **C178, it fails.** A file that got shorter after its size was asked for is read for ever. -/
theorem shrunk_file_never_returns (rs : List Round) (size : Nat) (file : List Nat) (h1 : size ≤ 1048576) (hs : file.length < size)
    (hf : ∀ r ∈ rs, ∀ e, r.ans ≠ .fail e) : readAll rs true size file = .pending := by
  rw [readAll_regular _ _ _ (by omega) h1]
  have : ∀ (rs : List Round) (rest got : List Nat), got.length + rest.length < size → (∀ r ∈ rs, ∀ e, r.ans ≠ .fail e) →
      fillLoop size rs rest got = .pending := by
    intro rs
    induction rs with
    | nil =>
      intro rest got h _
      rw [fillLoop, if_pos (by omega)]
    | cons r rs ih =>
      intro rest got h hf
      rw [fillLoop, if_pos (by omega)]
      cases ha : r.ans with
      | fail e => exact absurd ha (hf r (List.mem_cons_self ..) e)
      | count n =>
        simp only
        refine ih _ _ ?_ (fun q hq => hf q (List.mem_cons_of_mem _ hq))
        simp only [List.length_append, List.length_take, List.length_drop]
        omega
  rw [this rs file [] (by simpa using hs) hf]
  rfl

/-- **C178, it fails.** What cannot be read counts as the end: when a stream fails, for instance because there is no data yet, `readAll`
returns what it has so far and reports no error. -/
theorem read_error_is_end (size : Nat) (file : List Nat) (n : Nat) (w : Wake) (a : Errno) (r : Round) (rs : List Round) (e : Errno)
    (hs : size ≤ 1048576) (hn : 0 < n) (hl : n < file.length) (h4 : n ≤ 4092) (hr : r.ans = .fail e) :
    readAll (⟨.count n, w, a⟩ :: r :: rs) false size file = .ok (file.take n) := by
  have hk : min n (min 4092 file.length) = n := by omega
  simp only [readAll, show ¬ size > 1048576 by omega, if_false, Bool.not_false, if_true]
  rw [readAllLoop]
  simp only [hk, show ¬ n = 0 by omega, if_false, List.nil_append]
  rw [readAllLoop]
  simp [hr]

/-- **C178 (partial).** A stream that never fails is read to its end. -/
theorem readAll_stream_partial (rs : List Round) (size : Nat) (file out : List Nat) (hh : Honest rs)
    (hf : ∀ r ∈ rs, ∀ e, r.ans ≠ .fail e) (h : readAll rs false size file = .ok out) : out = file := by
  unfold readAll at h
  split at h
  · exact nomatch h
  · simp only [Bool.not_false, if_true] at h
    rw [readAllLoop_all rs file [] out hh hf h]
    rfl

example : readAll [⟨.count 2, .readable, .none⟩, ⟨.count 5, .readable, .none⟩, ⟨.count 5, .readable, .none⟩] false 0 [1, 2, 3] = .ok [1, 2, 3] := by
  simp [readAll, readAllLoop]

end Verif.StreamIO
