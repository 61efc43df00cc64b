import Verif.Std.StreamIO.Model
/-! # C173–C176: sending and receiving -/
namespace Verif.StreamIO

theorem wake_never_writable (w : Wake) : w.value ≠ writableState := by cases w <;> decide

theorem wait_write (r : Round) (s : Sock) : wait writableState r s = (false, { s with errno := .timedOut }) := by
  simp [wait, wake_never_writable, show ¬ writableState = readableState by decide]

theorem take_more {α : Type} (l : List α) (a b : Nat) : l.take a ++ (l.drop a).take b = l.take (a + b) := by
  rw [List.take_add]

/-! ## C173: the count is what was sent -/

/-- One round that does not send: the call returns `null` and nothing is sent. -/
theorem send_stuck (data : List Nat) (r : Round) (rs : List Round) (total : Nat) (s : Sock) (ho : s.isOpen = true)
    (ht : total < data.length) (hr : r.ans = .count 0 ∨ ∃ e, r.ans = .fail e) :
    (sendLoop data (r :: rs) total s).1 = .null ∧ (sendLoop data (r :: rs) total s).2.out = s.out := by
  rcases hr with h | ⟨e, h⟩ <;>
  · rw [sendLoop]
    simp only [ho, ht, and_self, if_true, h, wait_write]
    split
    · exact ⟨rfl, rfl⟩
    · split <;> simp

/-- One round that sends. -/
theorem send_step (data : List Nat) (r : Round) (rs : List Round) (total : Nat) (s : Sock) (ho : s.isOpen = true)
    (ht : total < data.length) (n : Nat) (hr : r.ans = .count (n + 1)) :
    sendLoop data (r :: rs) total s = sendLoop data rs (total + min (n + 1) (data.length - total))
      { s with out := s.out ++ (data.drop total).take (min (n + 1) (data.length - total)) } := by
  rw [sendLoop]
  simp only [ho, ht, and_self, if_true, hr]

theorem send_inv (data : List Nat) : ∀ (rs : List Round) (total : Nat) (s : Sock), total ≤ data.length → s.isOpen = true →
    (∀ n, (sendLoop data rs total s).1 = .some n → n = data.length) ∧
    (∃ m, total ≤ m ∧ m ≤ data.length ∧ (sendLoop data rs total s).2.out = s.out ++ (data.take m).drop total ∧
      ∀ n, (sendLoop data rs total s).1 = .some n → m = n)
  | rs, total, s, hle, ho => by
    by_cases ht : total < data.length
    · cases rs with
      | nil =>
        have : sendLoop data [] total s = (.pending, s) := by
          rw [sendLoop]
          simp only [ho, ht, and_self, if_true]
        rw [this]
        exact ⟨fun n h => (nomatch h), total, Nat.le_refl _, hle, by simp, fun n h => (nomatch h)⟩
      | cons r rs =>
        have bad : (r.ans = .count 0 ∨ ∃ e, r.ans = .fail e) → _ := send_stuck data r rs total s ho ht
        cases hr : r.ans with
        | fail e =>
          obtain ⟨b1, b2⟩ := bad (.inr ⟨e, hr⟩)
          rw [b1, b2]
          exact ⟨fun n h => (nomatch h), total, Nat.le_refl _, hle, by simp, fun n h => (nomatch h)⟩
        | count k =>
          cases k with
          | zero =>
            obtain ⟨b1, b2⟩ := bad (.inl hr)
            rw [b1, b2]
            exact ⟨fun n h => (nomatch h), total, Nat.le_refl _, hle, by simp, fun n h => (nomatch h)⟩
          | succ k =>
            rw [send_step data r rs total s ho ht k hr]
            obtain ⟨i1, m, hm1, hm2, i2, i3⟩ := send_inv data rs (total + min (k + 1) (data.length - total))
              { s with out := s.out ++ (data.drop total).take (min (k + 1) (data.length - total)) } (by omega) ho
            refine ⟨i1, m, by omega, hm2, ?_, i3⟩
            rw [i2]
            simp only [List.append_assoc, List.append_cancel_left_eq]
            rw [List.drop_take, List.drop_take, ← List.drop_drop]
            have : m - total = min (k + 1) (data.length - total) + (m - (total + min (k + 1) (data.length - total))) := by omega
            rw [this, List.take_add]
    · have : sendLoop data rs total s = (.some total, { s with errno := .none }) := by
        rw [sendLoop.eq_def]
        simp only [ht, and_false, if_false]
      rw [this]
      have e : total = data.length := by omega
      refine ⟨fun n h => ?_, total, Nat.le_refl _, hle, by simp, fun n h => ?_⟩
      · simp only [R.some.injEq] at h
        omega
      · simp only [R.some.injEq] at h
        exact h

/-- **C173.** Whatever the network does: when `sendBuffer` returns a count, exactly that many bytes were sent, they are the first
bytes of the buffer in their order, and on an open connection they are all of it. -/
theorem send_count_exact (rs : List Round) (data : List Nat) (s : Sock) (n : Nat) (h : (sendBuffer rs data s).1 = .some n) :
    (sendBuffer rs data s).2.out = s.out ++ data.take n ∧ (s.isOpen = true → n = data.length) := by
  by_cases ho : s.isOpen = true
  · obtain ⟨i1, m, _, _, i2, i3⟩ := send_inv data rs 0 s (Nat.zero_le _) ho
    have e := i3 n h
    subst e
    refine ⟨?_, fun _ => i1 _ h⟩
    show (sendLoop data rs 0 s).2.out = _
    rw [i2]
    simp
  · have e : sendBuffer rs data s = (.some 0, { s with errno := .none }) := by
      rw [sendBuffer, sendLoop.eq_def]
      simp only [ho, false_and, Bool.false_eq_true, if_false]
    rw [e] at h ⊢
    simp only [R.some.injEq] at h
    subst h
    exact ⟨by simp, fun h => absurd h ho⟩

/-- **C173.** Also when it fails or has not returned, what was sent is a beginning of the buffer: nothing twice, nothing out of
order. -/
theorem sent_is_prefix (rs : List Round) (data : List Nat) (s : Sock) :
    ∃ m, m ≤ data.length ∧ (sendBuffer rs data s).2.out = s.out ++ data.take m := by
  by_cases ho : s.isOpen = true
  · obtain ⟨_, m, _, hm, i2, _⟩ := send_inv data rs 0 s (Nat.zero_le _) ho
    exact ⟨m, hm, by show (sendLoop data rs 0 s).2.out = _; rw [i2]; simp⟩
  · refine ⟨0, Nat.zero_le _, ?_⟩
    rw [sendBuffer, sendLoop.eq_def]
    simp only [ho, false_and, Bool.false_eq_true, if_false]
    simp

example : sendBuffer [⟨.count 2, .readable, .none⟩, ⟨.count 9, .readable, .none⟩] [5, 6, 7] ⟨true, .none, [], []⟩
    = (.some 3, ⟨true, .none, [5, 6, 7], []⟩) := by
  simp [sendBuffer, sendLoop]

/-! ## C174: a send waits for room -/

/-- Sending goes through when the kernel takes something in every round. -/
theorem send_completes (data : List Nat) : ∀ (rs : List Round) (total : Nat) (s : Sock), total ≤ data.length → s.isOpen = true →
    (∀ r ∈ rs, ∃ n, r.ans = .count (n + 1)) → data.length ≤ total + rs.length →
    (sendLoop data rs total s).1 = .some data.length
  | rs, total, s, hle, ho, hr, hn => by
    by_cases ht : total < data.length
    · cases rs with
      | nil => simp at hn; omega
      | cons r rs =>
        obtain ⟨n, h⟩ := hr r (List.mem_cons_self ..)
        rw [send_step data r rs total s ho ht n h]
        exact send_completes data rs _ { s with out := s.out ++ (data.drop total).take (min (n + 1) (data.length - total)) }
          (by omega) ho (fun r' h' => hr r' (List.mem_cons_of_mem _ h')) (by simp at hn; omega)
    · have : sendLoop data rs total s = (.some total, { s with errno := .none }) := by
        rw [sendLoop.eq_def]
        simp only [ht, and_false, if_false]
      rw [this]
      have e : total = data.length := by omega
      rw [e]

/-- **C174 (partial).** As long as the kernel takes at least a byte of what it is offered, a send ends with everything sent. Missing:
room that is not there at once (`full_buffer_fails_send`). -/
theorem send_completes_partial (rs : List Round) (data : List Nat) (s : Sock) (ho : s.isOpen = true)
    (hr : ∀ r ∈ rs, ∃ n, r.ans = .count (n + 1)) (hn : data.length ≤ rs.length) :
    (sendBuffer rs data s).1 = .some data.length ∧ (sendBuffer rs data s).2.out = s.out ++ data := by
  have h := send_completes data rs 0 s (Nat.zero_le _) ho hr (by omega)
  exact ⟨h, by rw [(send_count_exact rs data s data.length h).1, List.take_length]⟩

/-- **C174, it fails.** When there is no room for the whole of a buffer, the send fails: after any rounds in which `k` bytes, and not
all, were taken, an `EAGAIN` makes the call return `null` with these bytes sent, and it makes no difference how the waiting ends or
whether there is room afterwards. The wait is for the other direction. -/
theorem full_buffer_fails_send (pre : List Round) (r : Round) (post : List Round) (data : List Nat) (s : Sock)
    (ho : s.isOpen = true) (hp : ∀ r ∈ pre, ∃ n, r.ans = .count (n + 1))
    (hpend : (sendBuffer pre data s).1 = .pending) (hr : r.ans = .fail .again) :
    (sendBuffer (pre ++ r :: post) data s).1 = .null ∧
    (sendBuffer (pre ++ r :: post) data s).2.out = (sendBuffer pre data s).2.out := by
  unfold sendBuffer at *
  generalize 0 = total at *
  induction pre generalizing total s with
  | nil =>
    by_cases ht : total < data.length
    · obtain ⟨b1, b2⟩ := send_stuck data r post total s ho ht (.inr ⟨_, hr⟩)
      refine ⟨b1, ?_⟩
      rw [List.nil_append, b2, sendLoop]
      simp only [ho, ht, and_self, if_true]
    · rw [sendLoop] at hpend
      simp only [ht, and_false, if_false] at hpend
      exact nomatch hpend
  | cons q pre ih =>
    by_cases ht : total < data.length
    · obtain ⟨n, h⟩ := hp q (List.mem_cons_self ..)
      rw [send_step data q pre total s ho ht n h] at hpend ⊢
      rw [List.cons_append, send_step data q (pre ++ r :: post) total s ho ht n h]
      exact ih { s with out := s.out ++ (data.drop total).take (min (n + 1) (data.length - total)) } ho
        (fun r' h' => hp r' (List.mem_cons_of_mem _ h')) _ hpend
    · rw [sendLoop] at hpend
      simp only [ht, and_false, if_false] at hpend
      exact nomatch hpend

example : (sendBuffer ([⟨.count 2, .readable, .none⟩] ++ ⟨.fail .again, .readable, .none⟩ :: [⟨.count 9, .readable, .none⟩]) [5, 6, 7]
    ⟨true, .none, [], []⟩) = (.null, ⟨true, .timedOut, [5, 6], []⟩) := by
  simp [sendBuffer, sendLoop, wait, Wake.value, readableState, writableState]

/-! ## C175: received bytes -/

theorem wait_inp (st : Int) (r : Round) (s : Sock) :
    (wait st r s).2.inp = s.inp ∧ (wait st r s).2.isOpen = s.isOpen ∧ (wait st r s).2.out = s.out := by
  unfold wait
  split <;> split <;> exact ⟨rfl, rfl, rfl⟩

/-- The bytes in the buffer and those still in the kernel make up what there was; a count is that of the bytes in the buffer. -/
def Kept (size : Nat) (all : List Nat) (x : (R × List Nat) × Sock) : Prop :=
  x.1.2 ++ x.2.inp = all ∧ x.1.2.length ≤ size ∧ ∀ n, x.1.1 = .some n → n = x.1.2.length

theorem recv_kept (size : Nat) : ∀ (rs : List Round) (got : List Nat) (s : Sock), got.length ≤ size →
    Kept size (got ++ s.inp) (recvLoop size rs got s)
  | rs, got, s, hle => by
    have some_ok : ∀ s' : Sock, s'.inp = s.inp → Kept size (got ++ s.inp) ((.some got.length, got), s') := by
      intro s' h
      refine ⟨by rw [h], hle, fun n h => ?_⟩
      simp only [R.some.injEq] at h
      exact h.symm
    have null_ok : ∀ s' : Sock, s'.inp = s.inp → Kept size (got ++ s.inp) ((.null, got), s') := by
      intro s' h
      exact ⟨by rw [h], hle, fun n h => (nomatch h)⟩
    by_cases hc : s.isOpen = true ∧ got.length < size
    · cases rs with
      | nil =>
        rw [recvLoop, if_pos hc]
        exact ⟨rfl, hle, fun n h => (nomatch h)⟩
      | cons r rs =>
        rw [recvLoop, if_pos hc]
        simp only
        cases hr : r.ans with
        | count n =>
          simp only
          split
          · split
            · exact some_ok s rfl
            · exact null_ok _ rfl
          · have := recv_kept size rs (got ++ s.inp.take (min n (min (size - got.length) s.inp.length)))
              { s with inp := s.inp.drop (min n (min (size - got.length) s.inp.length)) } (by
                simp only [List.length_append, List.length_take]
                omega)
            rw [List.append_assoc, List.take_append_drop] at this
            exact this
        | fail e =>
          obtain ⟨w1, _, _⟩ := wait_inp readableState r { s with errno := e }
          simp only
          split
          · split
            · exact null_ok _ rfl
            · exact null_ok _ rfl
          · split
            · exact some_ok _ rfl
            · split
              · exact null_ok _ w1
              · have := recv_kept size rs got (wait readableState r { s with errno := e }).2 hle
                rw [w1] at this
                exact this
    · rw [recvLoop.eq_def]
      simp only [hc, if_false]
      exact some_ok s rfl

theorem recv_inv (size : Nat) (rs : List Round) (got : List Nat) (s : Sock) (h : got.length ≤ size) :
    (recvLoop size rs got s).1.2 ++ (recvLoop size rs got s).2.inp = got ++ s.inp ∧
    (recvLoop size rs got s).1.2.length ≤ size ∧
    (∀ n, (recvLoop size rs got s).1.1 = .some n → n = (recvLoop size rs got s).1.2.length) := recv_kept size rs got s h

/-- **C175 (partial).** Whatever the network does: when `receive` returns a count, the buffer begins with that many bytes, no more than
its size, and they are the next ones of the stream, in order; the following ones come next. Missing: calls that fail
(`failed_receive_loses`). -/
theorem received_exact_partial (rs : List Round) (size : Nat) (s : Sock) (n : Nat) (h : (receive rs size s).1.1 = .some n) :
    n ≤ size ∧ (receive rs size s).1.2 = s.inp.take n ∧ (receive rs size s).2.inp = s.inp.drop n := by
  obtain ⟨i1, i2, i3⟩ := recv_inv size rs [] s (Nat.zero_le _)
  have e := i3 n h
  rw [List.nil_append] at i1
  have hr : receive rs size s = recvLoop size rs [] s := rfl
  rw [hr]
  subst e
  refine ⟨i2, ?_, ?_⟩
  · rw [← i1, List.take_left']
    rfl
  · rw [← i1, List.drop_left']
    rfl

/-- Calls of `receive` one after another, as long as they return a count; the bytes they gave. -/
def receives : List (List Round × Nat) → Sock → Option (List Nat × Sock)
  | [], s => some ([], s)
  | (rs, size) :: calls, s =>
    match receive rs size s with
    | ((.some _, got), s') => (receives calls s').map fun p => (got ++ p.1, p.2)
    | _ => none

/-- **C175 (partial).** Any number of calls with buffers of any sizes: the bytes they gave, put together, are the beginning of what the
peer sent, and the rest is still to come. -/
theorem received_in_order_partial : ∀ (calls : List (List Round × Nat)) (s : Sock) (got : List Nat) (s' : Sock),
    receives calls s = some (got, s') → got ++ s'.inp = s.inp
  | [], s, got, s', h => by
    simp only [receives, Option.some.injEq, Prod.mk.injEq] at h
    obtain ⟨rfl, rfl⟩ := h
    rfl
  | (rs, size) :: calls, s, got, s', h => by
    obtain ⟨i1, _, _⟩ := recv_inv size rs [] s (Nat.zero_le _)
    have hr : receive rs size s = recvLoop size rs [] s := rfl
    rw [← hr, List.nil_append] at i1
    simp only [receives] at h
    rcases he : receive rs size s with ⟨⟨n, g⟩, s1⟩
    rw [he] at h i1
    cases n with
    | some n =>
      simp only [Option.map_eq_some_iff, Prod.mk.injEq] at h
      obtain ⟨⟨g2, s2⟩, h1, rfl, rfl⟩ := h
      have := received_in_order_partial calls s1 g2 s2 h1
      simp only at i1 this ⊢
      rw [List.append_assoc, this, i1]
    | null => exact nomatch h
    | pending => exact nomatch h

example : receives [([⟨.count 2, .readable, .none⟩, ⟨.fail .again, .readable, .none⟩], 5),
    ([⟨.fail .again, .readable, .none⟩, ⟨.count 1, .readable, .none⟩], 1)] ⟨true, .none, [], [1, 2, 3, 4]⟩
    = some ([1, 2, 3], ⟨true, .none, [], [4]⟩) := by
  simp [receives, receive, recvLoop, wait, Wake.value, readableState]

/-- One round that receives. -/
theorem recv_step (size : Nat) (r : Round) (rs : List Round) (got : List Nat) (s : Sock) (ho : s.isOpen = true)
    (hg : got.length < size) (n : Nat) (hr : r.ans = .count n) (hk : min n (min (size - got.length) s.inp.length) ≠ 0) :
    recvLoop size (r :: rs) got s = recvLoop size rs (got ++ s.inp.take (min n (min (size - got.length) s.inp.length)))
      { s with inp := s.inp.drop (min n (min (size - got.length) s.inp.length)) } := by
  rw [recvLoop]
  simp only [ho, hg, and_self, if_true, hr, if_neg hk]

/-- **C175, it fails.** Bytes that arrived are lost when the connection then breaks: for any bytes that do not fill the buffer, if they
are read and the next round fails with anything but `EAGAIN`, the call returns `null`, and the bytes are no longer in the stream. -/
theorem failed_receive_loses (s : Sock) (size n : Nat) (r : Round) (rs : List Round) (e : Errno) (w : Wake) (a : Errno)
    (ho : s.isOpen = true) (hn : 0 < n) (hi : n ≤ s.inp.length) (hs : n < size) (hr : r.ans = .fail e) (he : e ≠ .again) :
    (receive (⟨.count n, w, a⟩ :: r :: rs) size s).1.1 = .null ∧
    (receive (⟨.count n, w, a⟩ :: r :: rs) size s).2.inp = s.inp.drop n := by
  have hk : min n (min (size - ([] : List Nat).length) s.inp.length) = n := by simp; omega
  unfold receive
  rw [recv_step size _ _ [] s ho (by simp; omega) n rfl (by omega), hk, recvLoop]
  have hl : ([] ++ s.inp.take n).length < size := by simp; omega
  simp only [ho, hl, and_self, if_true, hr, ne_eq, he, not_false_eq_true]
  split <;> exact ⟨rfl, rfl⟩

/-- **C175, it fails.** When the peer closes the connection while its data is on the way, the reader that waits is told that the time is
over, although the bytes are there: the wake-up for data with a hang-up does not count as one for data. -/
theorem hangup_is_timeout (s : Sock) (size : Nat) (r : Round) (rs : List Round) (ho : s.isOpen = true) (hs : 0 < size)
    (hr : r.ans = .fail .again) (hw : r.wake = .hangup) :
    (receive (r :: rs) size s).1.1 = .null ∧ (receive (r :: rs) size s).2.errno = .timedOut := by
  unfold receive
  rw [recvLoop]
  have hl : ([] : List Nat).length < size := hs
  simp [ho, hs, hr, wait, hw, Wake.value, readableState]

/-- **C175, it fails.** The end of a stream is reported as `null` once; from then on as 0 bytes received, without end. -/
theorem closed_receives_zero (rs : List Round) (size : Nat) (s : Sock) (ho : s.isOpen = false) :
    receive rs size s = ((.some 0, []), s) := by
  unfold receive
  rw [recvLoop.eq_def]
  simp [ho]

/-! ## C176: parts of files -/

/-- **C176, it fails.** Sending a part of a file that is not empty never reports success. -/
theorem sendFile_never_succeeds (file : List Nat) (offset count : Nat) (hc : 0 < count) : ∀ (rs : List Round) (s : Sock) (n : Nat),
    (sendFile rs file offset count s).1 ≠ .some n := by
  have key : ∀ (rs : List Round) (remaining : Nat) (s : Sock) (n : Nat),
      (sendFileLoop file (offset + count) rs offset remaining s).1 ≠ .some n := by
    intro rs
    induction rs with
    | nil =>
      intro remaining s n
      rw [sendFileLoop]
      simp [show offset + count > offset by omega]
    | cons r rs ih =>
      intro remaining s n
      rw [sendFileLoop]
      simp only [show offset + count > offset by omega, if_true, wait_write]
      cases hr : r.ans with
      | fail e =>
        simp only
        split
        · simp
        · split <;> simp
      | count k =>
        simp only
        by_cases hz : fileTakes file offset remaining k = 0
        · rw [if_pos hz]
          split
          · simp
          · split <;> simp
        · rw [if_neg hz, if_neg hz]
          exact ih _ _ _
  intro rs s n
  have := key rs count s
  unfold sendFile
  rcases h : sendFileLoop file (offset + count) rs offset count s with ⟨res, s'⟩
  rw [h] at this
  cases res with
  | some m => exact absurd rfl (this m)
  | null => simp
  | pending => simp

/-- **C176, it fails.** When the kernel takes the part in several pieces, each piece is taken from its beginning again. -/
theorem sendFile_repeats (file : List Nat) (offset count : Nat) (a b : Nat) (wa wb : Wake) (ea eb e : Errno) (w : Wake) (e' : Errno)
    (rs : List Round) (s : Sock) (ha : 0 < a) (hb : 0 < b) (hab : a + b < count) (hl : offset + count ≤ file.length) (he : e ≠ .again) :
    (sendFile (⟨.count a, wa, ea⟩ :: ⟨.count b, wb, eb⟩ :: ⟨.fail e, w, e'⟩ :: rs) file offset count s).2.out
      = s.out ++ (file.drop offset).take a ++ (file.drop offset).take b := by
  have h1 : fileTakes file offset count a = a := by unfold fileTakes; omega
  have h2 : fileTakes file offset (count - a) b = b := by unfold fileTakes; omega
  have hgt : offset + count > offset := by omega
  have key : (sendFileLoop file (offset + count) (⟨.count a, wa, ea⟩ :: ⟨.count b, wb, eb⟩ :: ⟨.fail e, w, e'⟩ :: rs) offset count s).2.out
      = s.out ++ (file.drop offset).take a ++ (file.drop offset).take b := by
    rw [sendFileLoop]
    simp only [hgt, if_true, h1, show ¬ a = 0 by omega, if_false]
    rw [sendFileLoop]
    simp only [hgt, if_true, h2, show ¬ b = 0 by omega, if_false]
    rw [sendFileLoop]
    simp only [hgt, if_true, ne_eq, he, not_false_eq_true]
    split <;> rfl
  unfold sendFile
  rw [← key]
  split <;> simp_all

/-- **C176 (partial).** When the kernel takes the whole part at once the bytes sent are those of the part. The call then fails all the
same, after a further `sendfile` of nothing. -/
theorem sendFile_bytes_partial (file : List Nat) (offset count n : Nat) (w w' : Wake) (e e' : Errno) (m : Nat) (s : Sock)
    (hc : 0 < count) (hn : count ≤ n) (hl : offset + count ≤ file.length) :
    (sendFile [⟨.count n, w, e⟩, ⟨.count m, w', e'⟩] file offset count s).2.out = s.out ++ (file.drop offset).take count ∧
    (sendFile [⟨.count n, w, e⟩, ⟨.count m, w', e'⟩] file offset count s).1 = .null := by
  have h1 : fileTakes file offset count n = count := by unfold fileTakes; omega
  have h2 : fileTakes file offset (count - count) m = 0 := by unfold fileTakes; omega
  have hgt : offset + count > offset := by omega
  have key : (sendFileLoop file (offset + count) [⟨.count n, w, e⟩, ⟨.count m, w', e'⟩] offset count s).2.out
        = s.out ++ (file.drop offset).take count ∧
      (sendFileLoop file (offset + count) [⟨.count n, w, e⟩, ⟨.count m, w', e'⟩] offset count s).1 = .null := by
    rw [sendFileLoop]
    simp only [hgt, if_true, h1, show ¬ count = 0 by omega, if_false]
    rw [sendFileLoop]
    simp only [hgt, if_true, h2, wait_write]
    split
    · exact ⟨rfl, rfl⟩
    · split
      · exact ⟨rfl, rfl⟩
      · simp
  unfold sendFile
  revert key
  split
  · rename_i h
    rw [h]
    simp
  · exact fun h => h

example : (sendFile [⟨.count 2, .readable, .none⟩, ⟨.count 1, .readable, .none⟩, ⟨.fail .pipe, .readable, .none⟩] [1, 2, 3, 4, 5, 6] 1 4
    ⟨true, .none, [], []⟩).2.out = [2, 3, 2] := by
  rw [sendFile_repeats] <;> decide

end Verif.StreamIO
