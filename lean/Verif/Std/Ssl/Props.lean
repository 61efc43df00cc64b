import Verif.Std.Ssl.Model
/-!
# Encrypted sockets: properties
-/
namespace Verif.Ssl

theorem ask_le (r : Nat) : ask r ≤ r := by
  unfold ask; split
  · exact Nat.mod_le _ _
  · exact Nat.zero_le _

theorem ask_small {r : Nat} (h : r < 2 ^ 31) : ask r = r := by
  unfold ask; rw [Nat.mod_eq_of_lt (by omega), if_pos h]

theorem sendLoop_cons (data : List Nat) (size : Nat) (e : WEv) (evs : List WEv) (w : Nat) (wire : List Nat) :
    sendLoop data size (e :: evs) w wire =
    if size ≤ w then (.done w, wire)
    else match e with
      | .wrote k =>
        if min k (ask (size - w)) = 0 then (.null, wire)
        else sendLoop data size evs (w + min k (ask (size - w))) (wire ++ (data.drop w).take (min k (ask (size - w))))
      | .wantWrite true => sendLoop data size evs w wire
      | .wantWrite false => (.null, wire)
      | .fail => (.null, wire) := by
  rw [sendLoop.eq_def]; rfl

theorem recvLoop_cons (size : Nat) (e : REv) (evs : List REv) (buf inc : List Nat) :
    recvLoop size (e :: evs) buf inc =
    if size ≤ buf.length then ⟨.done buf.length, buf, inc⟩
    else match e with
      | .got k =>
        if min (min k (ask (size - buf.length))) inc.length = 0 then ⟨.done buf.length, buf, inc⟩
        else recvLoop size evs (buf ++ inc.take (min (min k (ask (size - buf.length))) inc.length))
          (inc.drop (min (min k (ask (size - buf.length))) inc.length))
      | .wantRead ok =>
        if buf ≠ [] then ⟨.done buf.length, buf, inc⟩
        else if ok then recvLoop size evs buf inc
        else ⟨.null, buf, inc⟩
      | .fail => ⟨.null, buf, inc⟩ := by
  rw [recvLoop.eq_def]; rfl

/-! ## Sending -/

theorem send_inv (data : List Nat) (size : Nat) (hs : size ≤ data.length) : ∀ (evs : List WEv) (w : Nat) (o : Out) (wire : List Nat),
    w ≤ size → sendLoop data size evs w (data.take w) = (o, wire) →
    (∃ k ≤ size, wire = data.take k) ∧ (∀ n, o = .done n → n = size ∧ wire = data.take size)
  | [], w, o, wire, hw, h => by
    rw [sendLoop] at h
    split at h
    · rename_i hle
      obtain rfl : w = size := Nat.le_antisymm hw hle
      cases h
      exact ⟨⟨w, hw, rfl⟩, fun n e => by cases e; exact ⟨rfl, rfl⟩⟩
    · cases h
      exact ⟨⟨w, hw, rfl⟩, fun n e => by cases e⟩
  | e :: evs, w, o, wire, hw, h => by
    rw [sendLoop_cons] at h
    split at h
    · rename_i hle
      obtain rfl : w = size := Nat.le_antisymm hw hle
      cases h
      exact ⟨⟨w, hw, rfl⟩, fun n e => by cases e; exact ⟨rfl, rfl⟩⟩
    · cases e with
      | wrote k =>
        simp only at h
        split at h
        · cases h
          exact ⟨⟨w, hw, rfl⟩, fun n e => by cases e⟩
        · have := ask_le (size - w)
          rw [← List.take_add] at h
          exact send_inv data size hs evs _ o wire (by omega) h
      | wantWrite ok =>
        cases ok with
        | true => exact send_inv data size hs evs w o wire hw h
        | false =>
          cases h
          exact ⟨⟨w, hw, rfl⟩, fun n e => by cases e⟩
      | fail =>
        cases h
        exact ⟨⟨w, hw, rfl⟩, fun n e => by cases e⟩

/-- **What is sent is the beginning of the buffer, and all of it if a number is returned**: no byte is left out, sent twice or out of
order, however the bytes are taken; the number is that of the bytes asked for. -/
theorem send_right (data : List Nat) (size : Nat) (hs : size ≤ data.length) (evs : List WEv) :
    (∃ k ≤ size, (sendBuffer data size evs).2 = data.take k) ∧
    ∀ n, (sendBuffer data size evs).1 = .done n → n = size ∧ (sendBuffer data size evs).2 = data.take size := by
  have := send_inv data size hs evs 0 (sendBuffer data size evs).1 (sendBuffer data size evs).2 (Nat.zero_le _) (by simp [sendBuffer])
  exact this

/-- An event that lets sending go on. -/
def WEv.good : WEv → Prop
  | .wrote k => 0 < k
  | .wantWrite ok => ok = true
  | .fail => False

/-- How often bytes are taken. -/
def takes : List WEv → Nat
  | [] => 0
  | .wrote _ :: evs => takes evs + 1
  | _ :: evs => takes evs

theorem send_ends (data : List Nat) (size : Nat) (hs : size < 2 ^ 31) : ∀ (evs : List WEv) (w : Nat) (wire : List Nat), w ≤ size →
    (∀ e ∈ evs, e.good) → size - w ≤ takes evs → (sendLoop data size evs w wire).1 = .done size
  | [], w, wire, hw, _, ht => by
    have : size ≤ w := by simp only [takes] at ht; omega
    rw [sendLoop, if_pos this, Nat.le_antisymm hw this]
  | e :: evs, w, wire, hw, hg, ht => by
    rw [sendLoop_cons]
    by_cases hle : size ≤ w
    · rw [if_pos hle, Nat.le_antisymm hw hle]
    · rw [if_neg hle]
      have hg' : ∀ e ∈ evs, e.good := fun x hx => hg x (List.mem_cons_of_mem _ hx)
      have h0 := hg e (List.mem_cons_self ..)
      cases e with
      | wrote k =>
        simp only [WEv.good] at h0
        have ha := ask_small (r := size - w) (by omega)
        simp only [takes] at ht
        simp only [ha]
        rw [if_neg (by omega)]
        exact send_ends data size hs evs _ _ (by omega) hg' (by omega)
      | wantWrite ok =>
        simp only [WEv.good] at h0
        subst h0
        exact send_ends data size hs evs w wire hw hg' ht
      | fail => exact absurd h0 (by simp [WEv.good])

/-- **Sending succeeds while the other side takes bytes**: if less than 2^31 bytes are sent, each call takes a byte or becomes possible
after a wait, and bytes are taken often enough, everything is sent. -/
theorem send_succeeds_partial (data : List Nat) (size : Nat) (h : size ≤ data.length) (hs : size < 2 ^ 31) (evs : List WEv)
    (hg : ∀ e ∈ evs, e.good) (ht : size ≤ takes evs) : sendBuffer data size evs = (.done size, data.take size) := by
  have h1 := send_ends data size hs evs 0 [] (Nat.zero_le _) hg (by simpa using ht)
  exact Prod.ext h1 ((send_right data size h evs).2 size h1).2

theorem big_never (data : List Nat) (size : Nat) : ∀ (evs : List WEv) (w : Nat) (wire : List Nat) (n : Nat), 2 ^ 31 ≤ size - w →
    (sendLoop data size evs w wire).1 ≠ .done n
  | [], w, wire, n, h => by
    rw [sendLoop, if_neg (by omega)]
    simp
  | e :: evs, w, wire, n, h => by
    rw [sendLoop_cons, if_neg (by omega)]
    cases e with
    | wrote k =>
      simp only
      split
      · simp
      · apply big_never data size evs
        have : ask (size - w) ≠ 0 := by omega
        unfold ask at this ⊢
        split at this
        · rename_i hlt
          rw [if_pos hlt]
          omega
        · exact absurd rfl this
    | wantWrite ok =>
      cases ok with
      | true => exact big_never data size evs w wire n h
      | false => simp
    | fail => simp

/-- **2^31 bytes or more are never sent**, whatever the other side does: the length is made an `i32`. -/
theorem large_never_sent (data : List Nat) (size : Nat) (h : 2 ^ 31 ≤ size) (evs : List WEv) (n : Nat) :
    (sendBuffer data size evs).1 ≠ .done n := big_never data size evs 0 [] n (by simpa using h)

/-- **Sending gives up when OpenSSL has to read first**: after `k` bytes were taken the result is `null`, which does not say how many. -/
theorem send_gives_up (data : List Nat) (size k : Nat) (hk : 0 < k) (h : k < size) (hs : size < 2 ^ 31) (evs : List WEv) :
    sendBuffer data size (.wrote k :: .fail :: evs) = (.null, data.take k) := by
  have ha := ask_small (r := size - 0) (by omega)
  unfold sendBuffer
  rw [sendLoop_cons, if_neg (by omega)]
  simp only [ha]
  rw [if_neg (by omega), sendLoop_cons, if_neg (by omega)]
  simp only [List.drop_zero, List.nil_append, Nat.sub_zero]
  rw [Nat.min_eq_left (by omega)]

/-! ## Receiving -/

theorem recv_inv (size : Nat) : ∀ (evs : List REv) (buf inc : List Nat), buf.length ≤ size →
    (recvLoop size evs buf inc).buf.length ≤ size ∧
    (recvLoop size evs buf inc).buf ++ (recvLoop size evs buf inc).rest = buf ++ inc ∧
    ∀ n, (recvLoop size evs buf inc).out = .done n → n = (recvLoop size evs buf inc).buf.length
  | [], buf, inc, hb => by
    rw [recvLoop]
    split <;> exact ⟨hb, rfl, fun n e => by cases e <;> rfl⟩
  | e :: evs, buf, inc, hb => by
    rw [recvLoop_cons]
    split
    · exact ⟨hb, rfl, fun n e => by cases e; rfl⟩
    · cases e with
      | got k =>
        simp only
        split
        · exact ⟨hb, rfl, fun n e => by cases e; rfl⟩
        · have := ask_le (size - buf.length)
          have h := recv_inv size evs (buf ++ inc.take (min (min k (ask (size - buf.length))) inc.length))
            (inc.drop (min (min k (ask (size - buf.length))) inc.length))
            (by rw [List.length_append, List.length_take]; omega)
          rw [List.append_assoc, List.take_append_drop] at h
          exact h
      | wantRead ok =>
        simp only
        split
        · exact ⟨hb, rfl, fun n e => by cases e; rfl⟩
        · cases ok with
          | true => exact recv_inv size evs buf inc hb
          | false => exact ⟨hb, rfl, fun n e => by cases e⟩
      | fail => exact ⟨hb, rfl, fun n e => by cases e⟩

/-- **What is received is what arrived**: if a number is returned it is at most the size asked for, the buffer has that many of the bytes
that arrive, in order from the first, and the others are still to be received. -/
theorem recv_right (size : Nat) (evs : List REv) (inc : List Nat) (n : Nat) (h : (receive size evs inc).out = .done n) :
    n ≤ size ∧ (receive size evs inc).buf = inc.take n ∧ (receive size evs inc).rest = inc.drop n := by
  obtain ⟨h1, h2, h3⟩ := recv_inv size evs [] inc (Nat.zero_le _)
  have h3 := h3 n h
  rw [List.nil_append] at h2
  unfold receive
  generalize recvLoop size evs [] inc = r at h1 h2 h3
  subst h3 h2
  exact ⟨h1, (List.take_left' rfl).symm, (List.drop_left' rfl).symm⟩

theorem null_inv (size : Nat) : ∀ (evs : List REv) (buf inc : List Nat), (∀ e ∈ evs, e ≠ .fail) →
    (recvLoop size evs buf inc).out = .null → buf = [] ∧ (recvLoop size evs buf inc).rest = inc
  | [], buf, inc, _, h => by
    rw [recvLoop] at h
    split at h <;> cases h
  | e :: evs, buf, inc, hf, h => by
    have hf' : ∀ e ∈ evs, e ≠ .fail := fun x hx => hf x (List.mem_cons_of_mem _ hx)
    rw [recvLoop_cons] at h ⊢
    split at h
    · cases h
    · rename_i hlt
      rw [if_neg hlt]
      cases e with
      | got k =>
        simp only at h ⊢
        split at h
        · cases h
        · rename_i hn
          have := (null_inv size evs _ _ hf' h).1
          have hl := congrArg List.length this
          rw [List.length_append, List.length_take, List.length_nil] at hl
          omega
      | wantRead ok =>
        simp only at h ⊢
        split at h
        · cases h
        · rename_i hb
          have hb : buf = [] := by simpa using hb
          rw [if_neg (by simp [hb])]
          cases ok with
          | true => exact ⟨hb, (null_inv size evs buf inc hf' h).2⟩
          | false => exact ⟨hb, rfl⟩
      | fail => exact absurd rfl (hf _ (List.mem_cons_self ..))

/-- **Nothing is lost when time runs out**: without an error of the connection, `null` means that no byte was taken. -/
theorem timeout_keeps_partial (size : Nat) (evs : List REv) (inc : List Nat) (hf : ∀ e ∈ evs, e ≠ .fail)
    (h : (receive size evs inc).out = .null) : (receive size evs inc).rest = inc := (null_inv size evs [] inc hf h).2

/-- **An error loses what came before it**: bytes that were already received are taken and the result is `null`. -/
theorem error_loses (size k : Nat) (evs : List REv) (inc : List Nat) (hk : 0 < k) (h : k < size) (hs : size < 2 ^ 31) (hi : k ≤ inc.length) :
    (receive size (.got k :: .fail :: evs) inc).out = .null ∧ (receive size (.got k :: .fail :: evs) inc).rest = inc.drop k := by
  have ha := ask_small (r := size - ([] : List Nat).length) (by simp; omega)
  have hm : min (min k (size - ([] : List Nat).length)) inc.length = k := by simp only [List.length_nil]; omega
  unfold receive
  rw [recvLoop_cons, if_neg (by simp; omega)]
  simp only [ha, hm]
  rw [if_neg (by omega), recvLoop_cons, if_neg (by simp; omega)]
  exact ⟨rfl, rfl⟩

theorem end_inv (size : Nat) (h0 : 0 < size) (hs : size < 2 ^ 31) : ∀ (evs : List REv) (inc : List Nat),
    (recvLoop size evs [] inc).out = .done 0 →
    ∃ pre k post, evs = pre ++ .got k :: post ∧ (∀ e ∈ pre, e = .wantRead true) ∧ (k = 0 ∨ inc = [])
  | [], inc, h => by
    rw [recvLoop, if_neg (by simp; omega)] at h
    cases h
  | e :: evs, inc, h => by
    have ha := ask_small (r := size - ([] : List Nat).length) (by simp; omega)
    rw [recvLoop_cons, if_neg (by simp; omega)] at h
    cases e with
    | got k =>
      refine ⟨[], k, evs, rfl, (fun e he => by cases he), ?_⟩
      simp only [ha] at h
      split at h
      · rename_i hn
        simp only [List.length_nil] at hn
        by_cases hk : k = 0
        · exact .inl hk
        · exact .inr (List.length_eq_zero_iff.1 (by omega))
      · rename_i hn
        exfalso
        simp only [List.nil_append] at h
        -- the buffer only grows
        have key : ∀ (evs : List REv) (buf inc : List Nat), buf ≠ [] → (recvLoop size evs buf inc).out ≠ .done 0 := by
          intro evs
          induction evs with
          | nil =>
            intro buf inc hb hd
            rw [recvLoop] at hd
            split at hd
            · exact hb (List.length_eq_zero_iff.1 (by injection hd))
            · cases hd
          | cons e evs ih =>
            intro buf inc hb hd
            rw [recvLoop_cons] at hd
            split at hd
            · exact hb (List.length_eq_zero_iff.1 (by injection hd))
            · cases e with
              | got k =>
                simp only at hd
                split at hd
                · exact hb (List.length_eq_zero_iff.1 (by injection hd))
                · exact ih _ _ (by simp [hb]) hd
              | wantRead ok =>
                simp only at hd
                exact hb (List.length_eq_zero_iff.1 (by injection hd))
              | fail => cases hd
        refine key evs _ _ ?_ h
        intro he
        have hl := congrArg List.length he
        rw [List.length_take, List.length_nil] at hl
        omega
    | wantRead ok =>
      simp only [ne_eq, not_true_eq_false, if_false] at h
      cases ok with
      | true =>
        obtain ⟨pre, k, post, e, hp, hk⟩ := end_inv size h0 hs evs inc h
        exact ⟨.wantRead true :: pre, k, post, by rw [e]; rfl,
          (fun x hx => by
            rcases List.mem_cons.1 hx with rfl | hx
            · rfl
            · exact hp x hx), hk⟩
      | false => cases h
    | fail => cases h

/-- **Zero means the end**: if less than 2^31 bytes are asked for, zero is returned only when, after nothing but waits, there was nothing
more to read. -/
theorem zero_means_end_partial (size : Nat) (h0 : 0 < size) (hs : size < 2 ^ 31) (evs : List REv) (inc : List Nat)
    (h : (receive size evs inc).out = .done 0) :
    ∃ pre k post, evs = pre ++ .got k :: post ∧ (∀ e ∈ pre, e = .wantRead true) ∧ (k = 0 ∨ inc = []) := end_inv size h0 hs evs inc h

/-- **A large buffer gives zero although bytes are there**: for sizes that are no positive `i32` the first read ends it. -/
theorem large_reads_nothing (size k : Nat) (h0 : 0 < size) (hs : 2 ^ 31 ≤ size % 2 ^ 32 ∨ size % 2 ^ 32 = 0) (evs : List REv) (inc : List Nat) :
    receive size (.got k :: evs) inc = ⟨.done 0, [], inc⟩ := by
  have ha : ask (size - ([] : List Nat).length) = 0 := by
    unfold ask
    simp only [List.length_nil, Nat.sub_zero]
    split <;> omega
  unfold receive
  rw [recvLoop_cons, if_neg (by simp; omega)]
  simp only [ha]
  simp

/-! ## Sending files -/

/-- **A part of a file is sent as it is** if it begins at a page: the same as sending a buffer with these bytes. -/
theorem file_right_partial (page : Nat) (file : List Nat) (off count : Nat) (evs : List WEv) (hp : off % page = 0)
    (hc : off + count ≤ file.length) :
    (∃ k ≤ count, (sendFile page file off count evs).2 = ((file.drop off).take count).take k) ∧
    (∀ n, (sendFile page file off count evs).1 = .done n →
      n = count ∧ (sendFile page file off count evs).2 = (file.drop off).take count) ∧
    (count < 2 ^ 31 → (∀ e ∈ evs, e.good) → count ≤ takes evs → (sendFile page file off count evs).1 = .done count) := by
  have hl : count ≤ (file.drop off).length := by rw [List.length_drop]; omega
  have hm : count ≤ (mapped page file off).length := by
    simp only [mapped, List.length_append]; omega
  have ht : ∀ k ≤ count, (mapped page file off).take k = (file.drop off).take k := by
    intro k hk
    simp only [mapped]
    rw [List.take_append_of_le_length (by omega)]
  unfold sendFile
  rw [if_neg (by simp [hp]), if_pos hm]
  have h := send_right (mapped page file off) count hm evs
  refine ⟨?_, ?_, ?_⟩
  · obtain ⟨k, hk, e⟩ := h.1
    exact ⟨k, hk, by rw [e, ht k hk, List.take_take, Nat.min_eq_left hk]⟩
  · intro n hn
    obtain ⟨h1, h2⟩ := h.2 n hn
    exact ⟨h1, by rw [h2, ht count (Nat.le_refl _)]⟩
  · intro hs hg htk
    rw [send_succeeds_partial (mapped page file off) count hm hs evs hg htk]

/-- **From an offset that is not at a page nothing is ever sent.** -/
theorem file_unaligned (page : Nat) (file : List Nat) (off count : Nat) (evs : List WEv) (hp : off % page ≠ 0) :
    sendFile page file off count evs = (.null, []) := by
  unfold sendFile
  rw [if_pos hp]

/-! ## Cases -/

example : sendBuffer [1, 2, 3, 4, 5] 5 [.wrote 2, .wantWrite true, .wrote 9] = (.done 5, [1, 2, 3, 4, 5]) := by decide
example : ∀ e ∈ [WEv.wrote 2, .wantWrite true, .wrote 9, .wrote 1], e.good := by simp [WEv.good]
example : sendBuffer [1, 2, 3] 3 [.wrote 1, .wantWrite true, .wrote 1, .wrote 7] = (.done 3, [1, 2, 3]) :=
  send_succeeds_partial [1, 2, 3] 3 (by decide) (by decide) _ (by simp [WEv.good]) (by decide)
example : (receive 4 [.wantRead true, .got 2, .got 1, .wantRead true] [7, 8, 9, 10, 11]).out = .done 3 := by decide
example : (receive 4 [.wantRead true, .wantRead false] [7]).out = .null := by decide
example : (receive 4 [.got 2, .fail] [7, 8, 9]).out = .null ∧ (receive 4 [.got 2, .fail] [7, 8, 9]).rest = [9] :=
  error_loses 4 2 [] [7, 8, 9] (by decide) (by decide) (by decide) (by decide)
example : (receive 4 [.wantRead true, .got 5] []).out = .done 0 := by decide
example : sendFile 2 [1, 2, 3, 4, 5] 2 3 [.wrote 2, .wrote 2] = (.done 3, [3, 4, 5]) := by decide
example : sendFile 4096 (List.replicate 9000 1) 100 50 [.wrote 50] = (.null, []) := file_unaligned _ _ _ _ _ (by decide)

end Verif.Ssl
