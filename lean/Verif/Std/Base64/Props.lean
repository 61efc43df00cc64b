import Verif.Std.Base64.Model
/-! # C35, C36, C76, C77: Base64 -/
namespace Verif.Base64

open Verif.Text (streamChar)

/-! ## Tables and groups -/

theorem lookup_table : ∀ i < 64, lookup (table i) = i := by decide
theorem table_ne_pad : ∀ i < 64, table i ≠ 61 := by decide

theorem lor_add {i x y : Nat} (h : y < 2 ^ i) : (x <<< i) ||| y = x * 2 ^ i + y := by
  rw [Nat.shiftLeft_eq, Nat.mul_comm]
  exact (Nat.two_pow_add_eq_or_of_lt h x).symm

theorem hi6 : ∀ a < 256, (a &&& 0xFC) >>> 2 = a / 4 := by decide +kernel
theorem hi4 : ∀ a < 256, (a &&& 0xF0) >>> 4 = a / 16 := by decide +kernel
theorem hi2 : ∀ a < 256, (a &&& 0xC0) >>> 6 = a / 64 := by decide +kernel
theorem lo2 (a : Nat) : a &&& 3 = a % 4 := Nat.and_two_pow_sub_one_eq_mod a 2
theorem lo4 (a : Nat) : a &&& 0xF = a % 16 := Nat.and_two_pow_sub_one_eq_mod a 4
theorem lo6 (a : Nat) : a &&& 0x3F = a % 64 := Nat.and_two_pow_sub_one_eq_mod a 6

theorem sx0_eq {a : Nat} (h : a < 256) : sx0 a = a / 4 := hi6 a h
theorem sx1_eq {a b : Nat} (hb : b < 256) : sx1 a b = a % 4 * 16 + b / 16 := by
  unfold sx1; rw [hi4 b hb, lo2, lor_add (by omega)]
theorem sx2_eq {b c : Nat} (hc : c < 256) : sx2 b c = b % 16 * 4 + c / 64 := by
  unfold sx2; rw [hi2 c hc, lo4, lor_add (by omega)]
theorem sx3_eq (c : Nat) : sx3 c = c % 64 := lo6 c
theorem pad1_eq (a : Nat) : (a &&& 3) <<< 4 = a % 4 * 16 := by rw [lo2, Nat.shiftLeft_eq]
theorem pad2_eq (b : Nat) : (b &&& 0xF) <<< 2 = b % 16 * 4 := by rw [lo4, Nat.shiftLeft_eq]

theorem by0_eq {x y : Nat} (hx : x < 64) (hy : y < 64) : by0 x y = x * 4 + y / 16 := by
  unfold by0; rw [Nat.shiftRight_eq_div_pow, lor_add (by omega)]; omega
theorem by1_eq {y z : Nat} (hz : z < 64) : by1 y z = (y % 16) * 16 + z / 4 := by
  unfold by1; rw [Nat.shiftRight_eq_div_pow, lor_add (by omega)]; omega
theorem by2_eq {z w : Nat} (hw : w < 64) : by2 z w = (z % 4) * 64 + w := by
  unfold by2; rw [lor_add (by omega)]; omega

/-! ## Specification -/

/-- RFC 4648: the characters of the standard alphabet. -/
def alphabet (c : Nat) : Prop := (65 ≤ c ∧ c ≤ 90) ∨ (97 ≤ c ∧ c ≤ 122) ∨ (48 ≤ c ∧ c ≤ 57) ∨ c = 43 ∨ c = 47

instance (c : Nat) : Decidable (alphabet c) := by unfold alphabet; infer_instance

theorem table_alphabet : ∀ i < 64, alphabet (table i) := by decide

/-- **C35, the shape of the encoding.** It has `4 * ceil(n / 3)` characters: digits of the alphabet, then as many
`=` as the data is short of a multiple of three. -/
theorem encoding_shape (d : List Nat) (hd : ∀ b ∈ d, b < 256) :
    (encode d).length = 4 * ((d.length + 2) / 3) ∧
    ∃ s, encode d = s ++ List.replicate ((3 - d.length % 3) % 3) 61 ∧ ∀ c ∈ s, alphabet c := by
  fun_induction encode d with
  | case1 a b c rest ih =>
    simp only [List.mem_cons, forall_eq_or_imp] at hd
    obtain ⟨ha, hb, hc, hr⟩ := hd
    obtain ⟨h1, s, h2, h3⟩ := ih hr
    refine ⟨by simp only [List.length_append, List.length_cons, List.length_nil, h1]; omega,
      [table (sx0 a), table (sx1 a b), table (sx2 b c), table (sx3 c)] ++ s, ?_, ?_⟩
    · rw [h2, List.append_assoc]
      congr 3
      simp only [List.length_cons]
      omega
    · intro x hx
      simp only [List.mem_append, List.mem_cons, List.not_mem_nil, or_false] at hx
      rcases hx with (rfl | rfl | rfl | rfl) | hx
      · exact table_alphabet _ (by rw [sx0_eq ha]; omega)
      · exact table_alphabet _ (by rw [sx1_eq hb]; omega)
      · exact table_alphabet _ (by rw [sx2_eq hc]; omega)
      · exact table_alphabet _ (by rw [sx3_eq]; omega)
      · exact h3 x hx
  | case2 a =>
    simp only [List.mem_cons, List.not_mem_nil, or_false, forall_eq] at hd
    refine ⟨by simp, [table (sx0 a), table ((a &&& 3) <<< 4)], rfl, ?_⟩
    intro x hx
    simp only [List.mem_cons, List.not_mem_nil, or_false] at hx
    rcases hx with rfl | rfl
    · exact table_alphabet _ (by rw [sx0_eq hd]; omega)
    · exact table_alphabet _ (by rw [pad1_eq]; omega)
  | case3 a b =>
    simp only [List.mem_cons, List.not_mem_nil, or_false, forall_eq_or_imp, forall_eq] at hd
    refine ⟨by simp, [table (sx0 a), table (sx1 a b), table ((b &&& 0xF) <<< 2)], rfl, ?_⟩
    intro x hx
    simp only [List.mem_cons, List.not_mem_nil, or_false] at hx
    rcases hx with rfl | rfl | rfl
    · exact table_alphabet _ (by rw [sx0_eq hd.1]; omega)
    · exact table_alphabet _ (by rw [sx1_eq hd.2]; omega)
    · exact table_alphabet _ (by rw [pad2_eq]; omega)
  | case4 => exact ⟨rfl, [], rfl, by simp⟩

/-! ## Decoding -/

theorem lookup_pad : lookup 61 = 64 := rfl

/-- The last group when it is full. -/
theorem tail_full (d : List Nat) (x y z w : Nat) (rest out : List Nat) (hx : lookup x < 64) (hy : lookup y < 64)
    (hz : lookup z < 64) (hw : lookup w < 64) (hd : ∀ i < 4, ∃ c, d[i]? = some c ∧ c ≠ 61) :
    decodeTail d (x :: y :: z :: w :: rest) 4 out = .ok ⟨out ++ (streamChar (by0 (lookup x) (lookup y)) ++
      streamChar (by1 (lookup y) (lookup z)) ++ streamChar (by2 (lookup z) (lookup w))), false⟩ := by
  obtain ⟨d0, e0, n0⟩ := hd 0 (by omega)
  obtain ⟨d1, e1, n1⟩ := hd 1 (by omega)
  obtain ⟨d2, e2, n2⟩ := hd 2 (by omega)
  obtain ⟨d3, e3, n3⟩ := hd 3 (by omega)
  have s : scan d (x :: y :: z :: w :: rest) 4 0 = .ok 4 := by
    simp [scan, rd, e0, e1, e2, e3, n0, n1, n2, n3, Nat.ne_of_lt hx, Nat.ne_of_lt hy, Nat.ne_of_lt hz, Nat.ne_of_lt hw]
  simp [decodeTail, s, emitTail, rd]

/-- The last group with one pad character. -/
theorem tail_one (d : List Nat) (x y z : Nat) (rest out : List Nat) (hx : lookup x < 64) (hy : lookup y < 64)
    (hz : lookup z < 64) (hd : ∀ i < 4, ∃ c, d[i]? = some c ∧ (i < 3 → c ≠ 61)) :
    decodeTail d (x :: y :: z :: 61 :: rest) 4 out = .ok ⟨out ++ (streamChar (by0 (lookup x) (lookup y)) ++
      streamChar (by1 (lookup y) (lookup z))), false⟩ := by
  obtain ⟨d0, e0, n0⟩ := hd 0 (by omega)
  obtain ⟨d1, e1, n1⟩ := hd 1 (by omega)
  obtain ⟨d2, e2, n2⟩ := hd 2 (by omega)
  obtain ⟨d3, e3, _⟩ := hd 3 (by omega)
  have s : scan d (x :: y :: z :: 61 :: rest) 4 0 = .ok 3 := by
    simp [scan, rd, e0, e1, e2, e3, n0, n1, n2, Nat.ne_of_lt hx, Nat.ne_of_lt hy, Nat.ne_of_lt hz, lookup_pad]
  simp [decodeTail, s, emitTail, rd]

/-- The last group with two pad characters. -/
theorem tail_two (d : List Nat) (x y : Nat) (rest out : List Nat) (hx : lookup x < 64) (hy : lookup y < 64)
    (hd : ∀ i < 4, ∃ c, d[i]? = some c ∧ (i < 2 → c ≠ 61)) :
    decodeTail d (x :: y :: 61 :: 61 :: rest) 4 out = .ok ⟨out ++ streamChar (by0 (lookup x) (lookup y)), false⟩ := by
  obtain ⟨d0, e0, n0⟩ := hd 0 (by omega)
  obtain ⟨d1, e1, n1⟩ := hd 1 (by omega)
  obtain ⟨d2, e2, _⟩ := hd 2 (by omega)
  have s : scan d (x :: y :: 61 :: 61 :: rest) 4 0 = .ok 2 := by
    simp [scan, rd, e0, e1, e2, n0, n1, Nat.ne_of_lt hx, Nat.ne_of_lt hy, lookup_pad]
  simp [decodeTail, s, emitTail, rd]

theorem byte_back0 {a b : Nat} (ha : a < 256) (hb : b < 256) : by0 (sx0 a) (sx1 a b) = a := by
  rw [sx0_eq ha, sx1_eq hb, by0_eq (by omega) (by omega)]; omega
theorem byte_back1 {a b c : Nat} (hb : b < 256) (hc : c < 256) : by1 (sx1 a b) (sx2 b c) = b := by
  rw [sx1_eq hb, sx2_eq hc, by1_eq (by omega)]; omega
theorem byte_back2 {b c : Nat} (hc : c < 256) : by2 (sx2 b c) (sx3 c) = c := by
  rw [sx2_eq hc, sx3_eq, by2_eq (by omega)]; omega

/-- What the encoder writes first is never a pad character. -/
theorem encode_start (d : List Nat) (hd : ∀ b ∈ d, b < 256) (hne : d ≠ []) (after : List Nat) : ∀ i < 4,
    ∃ c, (encode d ++ after)[i]? = some c ∧ (i < 2 ∨ (i < 3 ∧ 2 ≤ d.length) ∨ 3 ≤ d.length → c ≠ 61) := by
  intro i hi
  match d, hne with
  | a :: b :: c :: rest, _ =>
    simp only [List.mem_cons, forall_eq_or_imp] at hd
    obtain ⟨ha, hb, hc, hr⟩ := hd
    have h0 := table_ne_pad (sx0 a) (by rw [sx0_eq ha]; omega)
    have h1 := table_ne_pad (sx1 a b) (by rw [sx1_eq hb]; omega)
    have h2 := table_ne_pad (sx2 b c) (by rw [sx2_eq hc]; omega)
    have h3 := table_ne_pad (sx3 c) (by rw [sx3_eq]; omega)
    rcases (by omega : i = 0 ∨ i = 1 ∨ i = 2 ∨ i = 3) with rfl | rfl | rfl | rfl <;> simp [encode, *]
  | [a], _ =>
    simp only [List.mem_cons, List.not_mem_nil, or_false, forall_eq] at hd
    have h0 := table_ne_pad (sx0 a) (by rw [sx0_eq hd]; omega)
    have h1 := table_ne_pad ((a &&& 3) <<< 4) (by rw [pad1_eq]; omega)
    rcases (by omega : i = 0 ∨ i = 1 ∨ i = 2 ∨ i = 3) with rfl | rfl | rfl | rfl <;> simp [encode, *]
  | [a, b], _ =>
    simp only [List.mem_cons, List.not_mem_nil, or_false, forall_eq_or_imp, forall_eq] at hd
    have h0 := table_ne_pad (sx0 a) (by rw [sx0_eq hd.1]; omega)
    have h1 := table_ne_pad (sx1 a b) (by rw [sx1_eq hd.2]; omega)
    have h2 := table_ne_pad ((b &&& 0xF) <<< 2) (by rw [pad2_eq]; omega)
    rcases (by omega : i = 0 ∨ i = 1 ∨ i = 2 ∨ i = 3) with rfl | rfl | rfl | rfl <;> simp [encode, *]

theorem groups_encode (D after : List Nat) : ∀ (d out : List Nat), (∀ b ∈ d, b < 256) → d ≠ [] →
    (∀ i < 4, ∃ c, D[i]? = some c ∧ (i < 2 ∨ (i < 3 ∧ 2 ≤ d.length) ∨ 3 ≤ d.length → c ≠ 61)) →
    groups (decodeTail D) (encode d ++ after) (encode d).length out = .ok ⟨out ++ d.flatMap streamChar, false⟩ := by
  intro d
  fun_induction encode d with
  | case1 a b c rest ih =>
    intro out hd _ hD
    simp only [List.mem_cons, forall_eq_or_imp] at hd
    obtain ⟨ha, hb, hc, hr⟩ := hd
    have l0 := lookup_table (sx0 a) (by rw [sx0_eq ha]; omega)
    have l1 := lookup_table (sx1 a b) (by rw [sx1_eq hb]; omega)
    have l2 := lookup_table (sx2 b c) (by rw [sx2_eq hc]; omega)
    have l3 := lookup_table (sx3 c) (by rw [sx3_eq]; omega)
    have k0 : sx0 a < 64 := by rw [sx0_eq ha]; omega
    have k1 : sx1 a b < 64 := by rw [sx1_eq hb]; omega
    have k2 : sx2 b c < 64 := by rw [sx2_eq hc]; omega
    have k3 : sx3 c < 64 := by rw [sx3_eq]; omega
    by_cases hn : rest = []
    · subst hn
      simp only [encode, List.append_nil, List.cons_append, List.nil_append, groups]
      rw [if_neg (by simp), show ([table (sx0 a), table (sx1 a b), table (sx2 b c), table (sx3 c)]).length = 4 from rfl,
        tail_full D _ _ _ _ after out (by omega) (by omega) (by omega) (by omega)
          (fun i hi => by obtain ⟨c', e, h⟩ := hD i hi; exact ⟨c', e, h (by simp)⟩),
        l0, l1, l2, l3, byte_back0 ha hb, byte_back1 hb hc, byte_back2 hc]
      simp
    · have hlen : (encode rest).length ≥ 4 := by
        have := (encoding_shape rest hr).1
        have h1 : 0 < rest.length := List.length_pos_iff.2 hn
        omega
      simp only [List.cons_append, List.nil_append, groups, List.length_cons]
      rw [if_pos (by omega), if_neg (by omega), l0, l1, l2, l3, byte_back0 ha hb, byte_back1 hb hc, byte_back2 hc,
        show (encode rest).length + 1 + 1 + 1 + 1 - 4 = (encode rest).length by omega,
        ih _ hr hn (fun i hi => by
          obtain ⟨c', e, h⟩ := hD i hi; exact ⟨c', e, fun _ => h (by simp)⟩)]
      simp
  | case2 a =>
    intro out hd _ hD
    simp only [List.mem_cons, List.not_mem_nil, or_false, forall_eq] at hd
    have l0 := lookup_table (sx0 a) (by rw [sx0_eq hd]; omega)
    have l1 := lookup_table ((a &&& 3) <<< 4) (by rw [pad1_eq]; omega)
    have k0 : sx0 a < 64 := by rw [sx0_eq hd]; omega
    have k1 : (a &&& 3) <<< 4 < 64 := by rw [pad1_eq]; omega
    simp only [List.cons_append, List.nil_append, groups]
    rw [if_neg (by simp), show ([table (sx0 a), table ((a &&& 3) <<< 4), 61, 61]).length = 4 from rfl,
      tail_two D _ _ after out (by omega) (by omega)
        (fun i hi => by obtain ⟨c', e, h⟩ := hD i hi; exact ⟨c', e, fun h' => h (.inl h')⟩), l0, l1]
    have : by0 (sx0 a) ((a &&& 3) <<< 4) = a := by
      rw [sx0_eq hd, pad1_eq, by0_eq (by omega) (by omega)]; omega
    rw [this]
    simp
  | case3 a b =>
    intro out hd _ hD
    simp only [List.mem_cons, List.not_mem_nil, or_false, forall_eq_or_imp, forall_eq] at hd
    have l0 := lookup_table (sx0 a) (by rw [sx0_eq hd.1]; omega)
    have l1 := lookup_table (sx1 a b) (by rw [sx1_eq hd.2]; omega)
    have l2 := lookup_table ((b &&& 0xF) <<< 2) (by rw [pad2_eq]; omega)
    have k0 : sx0 a < 64 := by rw [sx0_eq hd.1]; omega
    have k1 : sx1 a b < 64 := by rw [sx1_eq hd.2]; omega
    have k2 : (b &&& 0xF) <<< 2 < 64 := by rw [pad2_eq]; omega
    simp only [List.cons_append, List.nil_append, groups]
    rw [if_neg (by simp), show ([table (sx0 a), table (sx1 a b), table ((b &&& 0xF) <<< 2), 61]).length = 4 from rfl,
      tail_one D _ _ _ after out (by omega) (by omega) (by omega)
        (fun i hi => by obtain ⟨c', e, h⟩ := hD i hi; exact ⟨c', e, fun h' => h (.inr (.inl ⟨h', by simp⟩))⟩), l0, l1, l2,
      byte_back0 hd.1 hd.2]
    have : by1 (sx1 a b) ((b &&& 0xF) <<< 2) = b := by
      rw [sx1_eq hd.2, pad2_eq, by1_eq (by omega)]; omega
    rw [this]
    simp
  | case4 => intro _ _ h; exact absurd rfl h

/-- Decoding an encoding writes every byte of the data as a character, in order: bytes from 0x80 on come out as the
two bytes of their UTF-8 encoding. -/
theorem decode_encode (d after : List Nat) (hd : ∀ b ∈ d, b < 256) (hne : d ≠ []) :
    decode (encode d) after = .ok ⟨d.flatMap streamChar, false⟩ := by
  have := groups_encode (encode d ++ after) after d [] hd hne (encode_start d hd hne after)
  simpa [decode] using this

/-- **C35 (partial).** Non-empty data of bytes below 0x80 comes back, whatever memory follows the encoding.  Missing:
the empty string (`decode_empty_undefined`) and bytes from 0x80 on (`high_bytes_do_not_come_back`). -/
theorem base64_round_trip_partial (d after : List Nat) (hd : ∀ b ∈ d, b < 128) (hne : d ≠ []) :
    decode (encode d) after = .ok ⟨d, false⟩ := by
  rw [decode_encode d after (fun b hb => by have := hd b hb; omega) hne]
  have : d.flatMap streamChar = d := by
    clear hne
    induction d with
    | nil => rfl
    | cons b bs ih =>
      have hb := hd b (by simp)
      rw [List.flatMap_cons, ih (fun x hx => hd x (by simp [hx]))]
      unfold streamChar
      rw [if_pos hb, Nat.mod_eq_of_lt (by omega)]
      rfl
  rw [this]

example : encode [72, 105, 33, 10] = [83, 71, 107, 104, 67, 103, 61, 61] := by decide

theorem stream_length (b : Nat) (hb : b < 256) : (streamChar b).length = if b < 128 then 1 else 2 := by
  unfold streamChar
  split
  · rfl
  · rw [if_pos (by omega)]; rfl

/-- **C35 fails** for all data with a byte of 0x80 or more: the decoded text is longer than the data. -/
theorem high_bytes_do_not_come_back (d after : List Nat) (hd : ∀ b ∈ d, b < 256) (b : Nat) (hb : b ∈ d) (hb2 : 128 ≤ b) :
    ∃ out, decode (encode d) after = .ok ⟨out, false⟩ ∧ d.length < out.length := by
  refine ⟨_, decode_encode d after hd (List.ne_nil_of_mem hb), ?_⟩
  have key : ∀ d : List Nat, (∀ b ∈ d, b < 256) → d.length ≤ (d.flatMap streamChar).length ∧
      (b ∈ d → d.length < (d.flatMap streamChar).length) := by
    intro d
    induction d with
    | nil => intro _; simp
    | cons x xs ih =>
      intro hd
      obtain ⟨h1, h2⟩ := ih (fun y hy => hd y (by simp [hy]))
      have hl := stream_length x (hd x (by simp))
      rw [List.flatMap_cons, List.length_append, List.length_cons]
      refine ⟨by split at hl <;> omega, fun hm => ?_⟩
      rcases List.mem_cons.1 hm with rfl | hm
      · rw [if_neg (by omega)] at hl; omega
      · have := h2 hm; split at hl <;> omega
  exact (key d hd).2 hb

example : decode (encode [200]) [] = .ok ⟨[195, 136], false⟩ := by decide

/-- **C35 fails** for the empty string: the decoder reads past its terminator. -/
theorem decode_empty_undefined : encode [] = [] ∧ decode (encode []) [] = .ub ∧ decode (encode []) [0] = .ub := by decide

/-! ## C76: decoding text that need not be an encoding -/

theorem scan_bound (d it : List Nat) (hd : 4 ≤ d.length) (hi : 4 ≤ it.length) : ∀ n i, i ≤ 4 →
    ∃ j, scan d it n i = .ok j ∧ j ≤ 4
  | 0, i, h => ⟨i, rfl, h⟩
  | n + 1, i, h => by
    unfold scan
    split
    · rename_i h4
      obtain ⟨c, hc⟩ : ∃ c, d[i]? = some c := ⟨_, List.getElem?_eq_getElem (by omega)⟩
      obtain ⟨c', hc'⟩ : ∃ c, it[i]? = some c := ⟨_, List.getElem?_eq_getElem (by omega)⟩
      simp only [rd, hc, hc', Res.bind_ok]
      split
      · split
        · exact scan_bound d it hd hi n (i + 1) (by omega)
        · exact ⟨i, rfl, h⟩
      · exact ⟨i, rfl, h⟩
    · exact ⟨i, rfl, h⟩

theorem emit_ok (it : List Nat) (hi : 4 ≤ it.length) (sz : Nat) : ∃ o, emitTail it sz = .ok o := by
  match it, hi with
  | x :: y :: z :: w :: rest, _ =>
    unfold emitTail
    simp only [rd, List.getElem?_cons_zero, List.getElem?_cons_succ, Res.bind_ok]
    split <;> split <;> split <;> exact ⟨_, rfl⟩

theorem groups_ok (D : List Nat) (hD : 4 ≤ D.length) : ∀ (n : Nat) (m out : List Nat), 4 * (n + 1) ≤ m.length →
    ∃ r, groups (decodeTail D) m (4 * (n + 1)) out = .ok r
  | 0, m, out, h => by
    match m, h with
    | x :: y :: z :: w :: rest, _ =>
      rw [groups, if_neg (by omega)]
      obtain ⟨i, e, hi⟩ := scan_bound D (x :: y :: z :: w :: rest) hD (by simp) 4 0 (by omega)
      unfold decodeTail
      rw [e, Res.bind_ok]
      by_cases h4 : i = 4
      · subst h4
        obtain ⟨o, eo⟩ := emit_ok (x :: y :: z :: w :: rest) (by simp) 4
        simp [eo]
      · obtain ⟨c, hc⟩ : ∃ c, (x :: y :: z :: w :: rest)[i]? = some c := ⟨_, List.getElem?_eq_getElem (by simp; omega)⟩
        rw [if_pos (by omega)]
        simp only [rd, hc, Res.bind_ok]
        split
        · exact ⟨_, rfl⟩
        · obtain ⟨o, eo⟩ := emit_ok (x :: y :: z :: w :: rest) (by simp) ((4 * (0 + 1) + 2 ^ 64 - (4 - i)) % 2 ^ 64)
          rw [eo]
          exact ⟨_, rfl⟩
  | n + 1, m, out, h => by
    match m, h with
    | x :: y :: z :: w :: rest, h =>
      rw [groups, if_pos (by omega)]
      split
      · exact ⟨_, rfl⟩
      · simp only [List.length_cons] at h
        rw [show 4 * (n + 1 + 1) - 4 = 4 * (n + 1) by omega]
        exact groups_ok D hD n rest _ (by omega)
    | [], h | [_], h | [_, _], h | [_, _, _], h => simp at h <;> omega

/-- **C76 (partial).** Decoding any bytes whose number is a positive multiple of four reads nothing outside them and
ends, with a result or an error.  The full statement is for every length; see the two theorems below. -/
theorem decode_in_bounds_partial (d : List Nat) (h0 : d ≠ []) (h4 : d.length % 4 = 0) : ∃ r, decode d [] = .ok r := by
  have hl : 0 < d.length := List.length_pos_iff.2 h0
  have := groups_ok d (by omega) (d.length / 4 - 1) d [] (by omega)
  rw [show 4 * (d.length / 4 - 1 + 1) = d.length by omega] at this
  simpa [decode] using this

example : decode [61, 61, 61, 61] [] = .ok ⟨[], false⟩ ∧ decode [65, 33, 65, 65, 65, 65, 65, 65] [] = .ok ⟨[], true⟩ := by decide

theorem groups_skip (last : List Nat → Nat → List Nat → Res Decoded) : ∀ (d after out : List Nat) (k : Nat), d.length = 4 * k →
    (∀ c ∈ d, lookup c ≠ 64) → ∀ n, 0 < n →
    ∃ out', groups last (d ++ after) (d.length + n) out = groups last after n out'
  | [], after, out, k, _, _, n, _ => ⟨out, by simp⟩
  | a :: b :: c :: e :: rest, after, out, k, hk, hv, n, hn => by
    simp only [List.length_cons] at hk
    obtain ⟨out', h⟩ := groups_skip last rest after _ (k - 1) (by omega) (fun x hx => hv x (by simp [hx])) n hn
    refine ⟨out', ?_⟩
    simp only [List.cons_append, groups, List.length_cons]
    rw [if_pos (by omega), if_neg (by simp [hv]), ← h]
    congr 1
    omega
  | [_], _, _, k, hk, _, _, _ | [_, _], _, _, k, hk, _, _, _ | [_, _, _], _, _, k, hk, _, _, _ => by simp at hk <;> omega

/-- **C76 fails** for text of `4k + 1` valid characters with its NUL terminator: the decoder reads past the
terminator. -/
theorem one_extra_character_undefined (d : List Nat) (hv : ∀ c ∈ d, lookup c ≠ 64) (hl : d.length % 4 = 1) :
    decode d [0] = .ub := by
  obtain ⟨d1, x, rfl⟩ : ∃ d1 x, d = d1 ++ [x] := by
    have hne : d ≠ [] := by rintro rfl; simp at hl
    exact ⟨d.dropLast, d.getLast hne, (List.dropLast_concat_getLast hne).symm⟩
  simp at hl
  have hx := hv x (by simp)
  obtain ⟨out', e⟩ := groups_skip (decodeTail (d1 ++ [x, 0])) d1 [x, 0] [] (d1.length / 4) (by omega)
    (fun c hc => hv c (by simp [hc])) 1 (by omega)
  unfold decode
  have h1 : (d1 ++ [x]).length = d1.length + 1 := by simp
  have h2 : d1 ++ [x] ++ [0] = d1 ++ [x, 0] := by simp
  rw [h1, h2]
  rw [e, groups, if_neg (by omega)]
  · have hp : ∀ (D : List Nat), (∃ p, D[0]? = some p ∧ lookup p ≠ 64) → (∃ q, D[1]? = some q) → scan D [x, 0] 4 0 = .ok 1 := by
      rintro D ⟨p, hp, hp2⟩ ⟨q, hq⟩
      have hpn : p ≠ 61 := by rintro rfl; exact hp2 rfl
      simp only [scan, rd, hp, hq, List.getElem?_cons_zero, List.getElem?_cons_succ, Res.bind_ok]
      simp [hpn, hx, show lookup 0 = 64 from rfl]
    have hs : scan (d1 ++ [x, 0]) [x, 0] 4 0 = .ok 1 := by
      refine hp _ ?_ ?_
      · cases d1 with
        | nil => exact ⟨x, rfl, hx⟩
        | cons y ys => exact ⟨y, rfl, hv y (by simp)⟩
      · exact ⟨_, List.getElem?_eq_getElem (by simp)⟩
    unfold decodeTail
    rw [hs]
    simp [emitTail, rd]
  · simp

example : decode [65, 65, 65, 65, 65] [0] = .ub := by decide

/-! ## C93: text that is not Base64 -/

/-- The sixty-four digits of RFC 4648, section 4. -/
def Digit (c : Nat) : Prop :=
  (65 ≤ c ∧ c ≤ 90) ∨ (97 ≤ c ∧ c ≤ 122) ∨ (48 ≤ c ∧ c ≤ 57) ∨ c = 43 ∨ c = 47

theorem digit_iff (c : Nat) : Digit c ↔ lookup c ≠ 64 := by
  unfold Digit lookup
  repeat' split
  all_goals omega

/-- The scan of the last group stops at the first character that is no digit. -/
theorem scan_stops (D : List Nat) (c : Nat) (hc : lookup c = 64) (r : List Nat) : ∀ (q s : List Nat) (n : Nat),
    s.length + q.length < 4 → q.length < n → (∀ x ∈ q, lookup x ≠ 64) →
    (∀ i ≤ s.length + q.length, ∃ y, D[i]? = some y ∧ y ≠ 61) →
    scan D (s ++ q ++ c :: r) n s.length = .ok (s.length + q.length)
  | [], s, n + 1, h4, hn, hq, hD => by
    obtain ⟨y, hy, hy2⟩ := hD s.length (by simp)
    have hi : (s ++ [] ++ c :: r)[s.length]? = some c := by simp
    simp only [List.length_nil, Nat.add_zero] at h4
    unfold scan
    rw [if_pos h4]
    simp only [rd, hy, hi, Res.bind_ok]
    simp [hy2, hc]
  | a :: q, s, n + 1, h4, hn, hq, hD => by
    obtain ⟨y, hy, hy2⟩ := hD s.length (by simp)
    have hi : (s ++ (a :: q) ++ c :: r)[s.length]? = some a := by simp
    simp only [List.length_cons] at h4 hn
    have ih := scan_stops D c hc r q (s ++ [a]) n (by simp; omega) (by omega) (fun x hx => hq x (by simp [hx]))
      (fun i hi => hD i (by simp at hi ⊢; omega))
    simp only [List.append_assoc, List.length_append, List.length_cons, List.length_nil, List.cons_append,
      List.nil_append] at ih hi ⊢
    unfold scan
    rw [if_pos (by omega)]
    simp only [rd, hy, hi, Res.bind_ok]
    rw [if_pos hy2, if_pos (hq a (by simp)), ih]
    congr 1
    omega
  | q, _, 0, _, hn, _, _ => absurd hn (by omega)

/-- **C93 (partial).** Text of whole groups in which the first character that is no digit is not padding, or is not in
the last group, is rejected, whatever follows it.  Missing: lengths that are no multiple of four, and what follows
padding in the last group; see `padding_hides_garbage`. -/
theorem invalid_text_rejected_partial (p r after : List Nat) (c : Nat) (hp : ∀ x ∈ p, Digit x) (hc : ¬ Digit c)
    (h : c ≠ 61 ∨ 4 < (c :: r).length) (hl : (p ++ c :: r).length % 4 = 0) :
    ∃ out, decode (p ++ c :: r) after = .ok ⟨out, true⟩ := by
  have hp' : ∀ x ∈ p, lookup x ≠ 64 := fun x hx => (digit_iff x).1 (hp x hx)
  have hc' : lookup c = 64 := Decidable.byContradiction fun hx => hc ((digit_iff c).2 hx)
  obtain ⟨p1, p2, rfl, h1, h2⟩ : ∃ p1 p2, p = p1 ++ p2 ∧ p1.length = 4 * (p.length / 4) ∧ p2.length < 4 :=
    ⟨p.take (4 * (p.length / 4)), p.drop (4 * (p.length / 4)), by simp, by simp; omega, by simp; omega⟩
  generalize hk : (p1 ++ p2).length / 4 = k at h1
  have hn : 0 < (p2 ++ c :: r).length := by simp; omega
  unfold decode
  obtain ⟨out', e⟩ := groups_skip (decodeTail (p1 ++ p2 ++ c :: r ++ after)) p1 (p2 ++ c :: r ++ after) [] k h1
    (fun x hx => hp' x (by simp [hx])) (p2 ++ c :: r).length hn
  have hlen : (p1 ++ p2 ++ c :: r).length = p1.length + (p2 ++ c :: r).length := by simp
  have happ : p1 ++ p2 ++ c :: r ++ after = p1 ++ (p2 ++ c :: r ++ after) := by simp
  rw [hlen] at hl ⊢
  rw [← happ] at e
  rw [e]
  have h4 : 4 ≤ (p2 ++ c :: r).length := by omega
  by_cases hgt : 4 < (p2 ++ c :: r).length
  · -- a group that is not the last
    have raise : ∀ (l : List Nat) (n : Nat), 4 ≤ l.length → 4 < n → (∃ x ∈ l.take 4, lookup x = 64) → ∀ last,
        groups last l n out' = .ok ⟨out', true⟩ := by
      intro l n hl4 hn hx last
      match l, hl4 with
      | x :: y :: z :: w :: rest, _ =>
        rw [groups, if_pos hn, if_pos (by simpa using hx)]
    refine ⟨out', raise _ _ (by simp at h4 ⊢; omega) hgt ⟨c, ?_, hc'⟩ _⟩
    rw [List.append_assoc, List.take_append, List.mem_append]
    right
    obtain ⟨m, hm⟩ : ∃ m, 4 - p2.length = m + 1 := ⟨3 - p2.length, by omega⟩
    rw [hm]; simp
  · -- the last group
    have hc61 : c ≠ 61 := by
      rcases h with h | h
      · exact h
      · exfalso
        simp at hgt h
        omega
    have tail : ∀ (l : List Nat) last, groups last l (p2 ++ c :: r).length out' = last l (p2 ++ c :: r).length out' := by
      intro l last
      unfold groups
      split
      · rw [if_neg hgt]
      · rw [if_neg hgt]
    rw [tail]
    have hs := scan_stops (p1 ++ p2 ++ c :: r ++ after) c hc' (r ++ after) p2 [] 4 (by simpa using h2) h2
      (fun x hx => hp' x (by simp [hx])) (by
        intro i hi
        have hlt : i < (p1 ++ p2 ++ [c]).length := by simp at hi ⊢; omega
        refine ⟨(p1 ++ p2 ++ [c])[i], ?_, ?_⟩
        · rw [show p1 ++ p2 ++ c :: r ++ after = (p1 ++ p2 ++ [c]) ++ (r ++ after) by simp,
            List.getElem?_append_left hlt, List.getElem?_eq_getElem hlt]
        · have hm := List.getElem_mem hlt
          rw [List.mem_append] at hm
          rcases hm with hm | hm
          · intro h61
            exact hp' _ hm (by rw [h61]; rfl)
          · rw [List.mem_singleton] at hm
            rw [hm]; exact hc61)
    simp only [List.nil_append, List.length_nil, Nat.zero_add] at hs
    rw [show p2 ++ c :: r ++ after = p2 ++ c :: (r ++ after) by simp]
    refine ⟨out', ?_⟩
    unfold decodeTail
    rw [hs, Res.bind_ok, if_pos (by omega)]
    simp [rd, hc61]

example : decode ([81, 85, 70, 66, 81] ++ 33 :: [61, 61]) [0] = .ok ⟨[65, 65, 65], true⟩ := by decide

/-- **C93 fails** for every character after padding in the last group: it is ignored, not rejected. -/
theorem padding_hides_garbage (x y g : Nat) (after : List Nat) (hx : Digit x) (hy : Digit y) :
    ∃ out, decode [x, y, 61, g] after = .ok ⟨out, false⟩ := by
  have hx' := (digit_iff x).1 hx
  have hy' := (digit_iff y).1 hy
  have x61 : x ≠ 61 := by rintro rfl; exact hx' rfl
  have y61 : y ≠ 61 := by rintro rfl; exact hy' rfl
  refine ⟨streamChar (by0 (lookup x) (lookup y)), ?_⟩
  simp [decode, groups, decodeTail, scan, rd, emitTail, x61, y61, hx', hy']

/-- `QQ=!` decodes to `A`. -/
example : decode [81, 81, 61, 33] [0] = .ok ⟨[65], false⟩ := by decide

/-! ## C36, C77: the URL-safe variant -/

theorem url_length (d : List Nat) : (urlEncode d).length =
    if d.length = 0 then 0 else if d.length % 2 = 1 then 2 * d.length else 2 * d.length - 1 := by
  fun_induction urlEncode d with
  | case1 a b c rest ih =>
    simp only [List.length_append, List.length_cons, List.length_nil] at ih ⊢
    rw [ih]
    repeat' split
    all_goals omega
  | case2 a => simp
  | case3 a b => simp
  | case4 => simp

/-- **C77 (partial).** For data of an odd number of bytes, and for no data, the announced size is that of the
encoding.  Missing: an even number of bytes. -/
theorem announced_size_partial (d : List Nat) (h : d.length % 2 = 1 ∨ d = []) :
    urlEncodeSize d.length = (urlEncode d).length := by
  rw [url_length]
  unfold urlEncodeSize
  simp only []
  rcases h with h | h
  · repeat' split
    all_goals omega
  · subst h; rfl

example : urlEncodeSize 3 = 6 := by decide

/-- **C77 fails** for every positive even number of bytes: the announced size is one more than what is written. -/
theorem announced_size_wrong (d : List Nat) (h : d.length % 2 = 0) (hne : d ≠ []) :
    urlEncodeSize d.length = (urlEncode d).length + 1 := by
  have hl : 0 < d.length := List.length_pos_iff.2 hne
  rw [url_length]
  unfold urlEncodeSize
  simp only []
  repeat' split
  all_goals omega

theorem stream_pos (b : Nat) (hb : b < 0x200000) : 0 < (streamChar b).length := by
  unfold streamChar; repeat' split
  all_goals first | simp | omega

theorem by_lt : ∀ x y, by0 x y < 256 ∧ by1 x y < 256 ∧ by2 x y < 256 := by
  intro x y; unfold by0 by1 by2; omega

/-- What comes out of a text that is decoded without an error: at least three bytes for each group and the rest. -/
theorem url_groups_length (after : List Nat) : ∀ (k : Nat) (d out o : List Nat) (n : Nat), d.length = 4 * k + n → 2 ≤ n → n ≤ 4 →
    groups (fun it sz out => (emitTail it sz).bind fun o => .ok ⟨out ++ o, false⟩) (d ++ after) d.length out = .ok ⟨o, false⟩ →
    out.length + 3 * k + (n - 1) ≤ o.length
  | 0, d, out, o, n, hl, h2, h4, h => by
    have p0 := fun x y => stream_pos (by0 x y) (by have := by_lt x y; omega)
    have p1 := fun x y => stream_pos (by1 x y) (by have := by_lt x y; omega)
    have p2 := fun x y => stream_pos (by2 x y) (by have := by_lt x y; omega)
    have tail : ∀ it : List Nat, (emitTail it d.length).bind (fun o => Res.ok (⟨out ++ o, false⟩ : Decoded)) = .ok ⟨o, false⟩ →
        out.length + 3 * 0 + (n - 1) ≤ o.length := by
      intro it h
      unfold emitTail at h
      rcases (by omega : n = 2 ∨ n = 3 ∨ n = 4) with rfl | rfl | rfl
      · rw [hl] at h
        cases e0 : rd it 0 <;> cases e1 : rd it 1 <;> simp [e0, e1] at h
        rename_i x y
        have := p0 (lookup x) (lookup y)
        rw [← h]; simp; omega
      · rw [hl] at h
        cases e0 : rd it 0 <;> cases e1 : rd it 1 <;> cases e2 : rd it 2 <;> simp [e0, e1, e2] at h
        rename_i x y z
        have := p0 (lookup x) (lookup y)
        have := p1 (lookup y) (lookup z)
        rw [← h]; simp; omega
      · rw [hl] at h
        cases e0 : rd it 0 <;> cases e1 : rd it 1 <;> cases e2 : rd it 2 <;> cases e3 : rd it 3 <;> simp [e0, e1, e2, e3] at h
        rename_i x y z w
        have := p0 (lookup x) (lookup y)
        have := p1 (lookup y) (lookup z)
        have := p2 (lookup z) (lookup w)
        rw [← h]; simp; omega
    rw [groups.eq_def] at h
    split at h
    · rw [if_neg (by omega)] at h; exact tail _ h
    · rw [if_neg (by omega)] at h; exact tail _ h
  | k + 1, a :: b :: c :: e :: rest, out, o, n, hl, h2, h4, h => by
    simp only [List.cons_append, groups, List.length_cons] at h hl
    rw [if_pos (by omega)] at h
    split at h
    · simp at h
    · rw [show rest.length + 1 + 1 + 1 + 1 - 4 = rest.length by omega] at h
      have := url_groups_length after k rest _ o n (by omega) h2 h4 h
      have q0 := stream_pos (by0 (lookup a) (lookup b)) (by have := by_lt (lookup a) (lookup b); omega)
      have q1 := stream_pos (by1 (lookup b) (lookup c)) (by have := by_lt (lookup b) (lookup c); omega)
      have q2 := stream_pos (by2 (lookup c) (lookup e)) (by have := by_lt (lookup c) (lookup e); omega)
      simp only [List.length_append] at this
      omega
  | k + 1, [], _, _, n, hl, _, _, _ | k + 1, [_], _, _, n, hl, _, _, _ | k + 1, [_, _], _, _, n, hl, _, _, _
  | k + 1, [_, _, _], _, _, n, hl, _, _, _ => by simp at hl <;> omega

/-- **C36 fails** for all data of three bytes or more: what the decoder gives back, if anything, is longer. -/
theorem url_round_trip_fails (d after : List Nat) (h : 3 ≤ d.length) :
    urlDecode (urlEncode d) after ≠ .ok ⟨d, false⟩ := by
  intro e
  have hu := url_length d
  rw [if_neg (by omega)] at hu
  unfold urlDecode at e
  split at hu
  · have := url_groups_length after ((d.length - 1) / 2) (urlEncode d) [] d 2 (by omega) (by omega) (by omega) e
    simp at this
    omega
  · have := url_groups_length after ((d.length - 2) / 2) (urlEncode d) [] d 3 (by omega) (by omega) (by omega) e
    simp at this
    omega

example : urlDecode (urlEncode [65, 66, 67]) [0] = .ok ⟨[65, 66, 67, 67], false⟩ := by decide

theorem lookup_tableU : ∀ i < 62, lookup (tableU i) = i := by decide

/-- **C36 (partial).** One or two bytes come back when they are below 0x80 and no digit of their encoding is one of
the two URL-safe ones, which the decoder does not know.  Missing: everything else. -/
theorem url_round_trip_partial (a b : Nat) (after : List Nat) (ha : a < 128) (hb : b < 128) :
    urlDecode (urlEncode [a]) after = .ok ⟨[a], false⟩ ∧
    (a % 4 * 16 + b / 16 < 62 → urlDecode (urlEncode [a, b]) after = .ok ⟨[a, b], false⟩) := by
  have s0 : sx0 a = a / 4 := sx0_eq (by omega)
  have l0 := lookup_tableU (sx0 a) (by omega)
  have l1 := lookup_tableU ((a &&& 3) <<< 4) (by rw [pad1_eq]; omega)
  have st : ∀ x < 128, streamChar x = [x] := by
    intro x hx; unfold streamChar; rw [if_pos hx, Nat.mod_eq_of_lt (by omega)]
  constructor
  · have : by0 (sx0 a) ((a &&& 3) <<< 4) = a := by rw [s0, pad1_eq, by0_eq (by omega) (by omega)]; omega
    simp only [urlDecode, urlEncode, List.cons_append, List.nil_append]
    match after with
    | [] => simp [groups, emitTail, rd, l0, l1, this, st a ha]
    | [_] => simp [groups, emitTail, rd, l0, l1, this, st a ha]
    | _ :: _ :: _ => simp [groups, emitTail, rd, l0, l1, this, st a ha]
  · intro h62
    have s1 : sx1 a b = a % 4 * 16 + b / 16 := sx1_eq (by omega)
    have m0 := lookup_tableU (sx1 a b) (by omega)
    have m1 := lookup_tableU ((b &&& 0xF) <<< 2) (by rw [pad2_eq]; omega)
    have t0 : by0 (sx0 a) (sx1 a b) = a := by rw [s0, s1, by0_eq (by omega) (by omega)]; omega
    have t1 : by1 (sx1 a b) ((b &&& 0xF) <<< 2) = b := by rw [s1, pad2_eq, by1_eq (by omega)]; omega
    simp only [urlDecode, urlEncode, List.cons_append, List.nil_append]
    match after with
    | [] => simp [groups, emitTail, rd, l0, m0, m1, t0, t1, st a ha, st b hb]
    | _ :: _ => simp [groups, emitTail, rd, l0, m0, m1, t0, t1, st a ha, st b hb]

end Verif.Base64
