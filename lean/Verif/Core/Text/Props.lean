import Verif.Core.Text.Model
/-! # C14 (UTF-8 encoders) and C17 (escapes) -/
namespace Verif.Text

/-! ## Bit arithmetic -/

theorem lor_lead {i k b : Nat} (h : b < 2 ^ i) : 2 ^ i * k ||| b = 2 ^ i * k + b :=
  (Nat.two_pow_add_eq_or_of_lt h k).symm

theorem c0 {b : Nat} (h : b < 32) : 0xC0 ||| b = 192 + b := lor_lead (i := 5) (k := 6) h
theorem e0 {b : Nat} (h : b < 16) : 0xE0 ||| b = 224 + b := lor_lead (i := 4) (k := 14) h
theorem f0 {b : Nat} (h : b < 8) : 0xF0 ||| b = 240 + b := lor_lead (i := 3) (k := 30) h
theorem x80 {b : Nat} (h : b < 64) : 0x80 ||| b = 128 + b := lor_lead (i := 6) (k := 2) h
theorem and3f (b : Nat) : b &&& 0x3F = b % 64 := Nat.and_two_pow_sub_one_eq_mod b 6
theorem and1f (b : Nat) : b &&& 0x1F = b % 32 := Nat.and_two_pow_sub_one_eq_mod b 5
theorem andf (b : Nat) : b &&& 0xF = b % 16 := Nat.and_two_pow_sub_one_eq_mod b 4
theorem and7 (b : Nat) : b &&& 0x7 = b % 8 := Nat.and_two_pow_sub_one_eq_mod b 3
theorem shr6 (b : Nat) : b >>> 6 = b / 64 := Nat.shiftRight_eq_div_pow b 6
theorem shr12 (b : Nat) : b >>> 12 = b / 4096 := Nat.shiftRight_eq_div_pow b 12
theorem shr16 (b : Nat) : b >>> 16 = b / 65536 := Nat.shiftRight_eq_div_pow b 16
theorem shr18 (b : Nat) : b >>> 18 = b / 262144 := Nat.shiftRight_eq_div_pow b 18
theorem shl6 (b : Nat) : b <<< 6 = b * 64 := Nat.shiftLeft_eq b 6
theorem shl12 (b : Nat) : b <<< 12 = b * 4096 := Nat.shiftLeft_eq b 12
theorem shl18 (b : Nat) : b <<< 18 = b * 262144 := Nat.shiftLeft_eq b 18

theorem cont (b : Nat) : (0x80 ||| (b &&& 0x3F)) % 256 = 128 + b % 64 := by
  rw [and3f, x80 (by omega)]; omega

/-- the encoding in arithmetic form -/
def arith (c : Nat) : List Nat :=
  if c < 0x80 then [c]
  else if c < 0x800 then [192 + c / 64, 128 + c % 64]
  else if c < 0x10000 then [224 + c / 4096, 128 + c / 64 % 64, 128 + c % 64]
  else [240 + c / 262144, 128 + c / 4096 % 64, 128 + c / 64 % 64, 128 + c % 64]

theorem printUtf8Raw_arith {c : Nat} (h : c < 0x200000) : printUtf8Raw c = some (arith c) := by
  unfold printUtf8Raw arith
  split
  · congr 2; omega
  · split
    · rw [cont, shr6, c0 (by omega)]; congr 2; omega
    · split
      · rw [cont, cont, shr12, shr6, e0 (by omega)]; congr 2; omega
      · rw [cont, cont, cont, shr18, shr12, shr6, f0 (by omega)]; congr 2; omega

theorem builderChar_arith {c : Nat} (h : c < 0x200000) : builderChar c = some (arith c) := by
  rw [← printUtf8Raw_arith h]
  unfold builderChar wcharToStr printUtf8Raw
  split
  · rfl
  · split
    · rfl
    · split
      · rfl
      · rfl

theorem streamChar_arith {c : Nat} (h : c < 0x10000) : streamChar c = arith c := by
  have := printUtf8Raw_arith (show c < 0x200000 by omega)
  unfold printUtf8Raw at this
  unfold streamChar
  split
  · simpa [*] using this
  · split
    · simp_all
    · rename_i h1 h2
      rw [if_neg h1, if_neg h2, if_pos h] at this
      simpa using this

theorem char_lt (c : Char) : c.toNat < 0x110000 := by
  rcases c.valid with h | h
  · exact Nat.lt_of_lt_of_le h (by decide)
  · exact h.2

theorem arith_is_utf8 (c : Char) : arith c.toNat = (String.utf8EncodeChar c).map UInt8.toNat := by
  have hc := char_lt c
  unfold String.utf8EncodeChar arith
  have hv : c.val.toNat = c.toNat := rfl
  simp only [hv]
  generalize c.toNat = v at *
  by_cases h1 : v < 0x80
  · rw [if_pos h1, if_pos (by omega)]
    simp; omega
  · rw [if_neg h1, if_neg (show ¬ v ≤ 127 by omega)]
    by_cases h2 : v < 0x800
    · rw [if_pos h2, if_pos (show v ≤ 2047 by omega)]; simp; omega
    · rw [if_neg h2, if_neg (show ¬ v ≤ 2047 by omega)]
      by_cases h3 : v < 0x10000
      · rw [if_pos h3, if_pos (show v ≤ 65535 by omega)]; simp; omega
      · rw [if_neg h3, if_neg (show ¬ v ≤ 65535 by omega)]; simp; omega

/-! ## C14 -/

/-- **C14**: the string builder appends the standard UTF-8 encoding of every Unicode character. -/
theorem builder_writes_utf8 (c : Char) :
    builderChar c.toNat = some ((String.utf8EncodeChar c).map UInt8.toNat) := by
  rw [builderChar_arith (by have := char_lt c; omega), arith_is_utf8]

/-- **C14**: the format state writes the standard UTF-8 encoding of every Unicode character. -/
theorem format_writes_utf8 (c : Char) :
    printUtf8Raw c.toNat = some ((String.utf8EncodeChar c).map UInt8.toNat) := by
  rw [printUtf8Raw_arith (by have := char_lt c; omega), arith_is_utf8]

/-- **C14 (partial)**: the stdlib output stream writes the standard encoding of characters up to
U+FFFF.  Above, it never does: `stream_wrong_above_bmp`. -/
theorem stream_writes_utf8_partial (c : Char) (h : c.toNat < 0x10000) :
    streamChar c.toNat = (String.utf8EncodeChar c).map UInt8.toNat := by
  rw [streamChar_arith h, arith_is_utf8]

example : streamChar 'é'.toNat = [0xC3, 0xA9] ∧ streamChar '€'.toNat = [0xE2, 0x82, 0xAC] := by decide

/-- **C14 is false of the stdlib output stream**: no character above U+FFFF is encoded correctly. -/
theorem stream_wrong_above_bmp (c : Char) (h : 0x10000 ≤ c.toNat) :
    streamChar c.toNat ≠ (String.utf8EncodeChar c).map UInt8.toNat := by
  rw [← arith_is_utf8]
  have hc := char_lt c
  unfold streamChar arith
  generalize c.toNat = v at *
  rw [if_neg (by omega), if_neg (by omega), if_neg (by omega), if_pos (by omega), if_neg (by omega), if_neg (by omega),
    if_neg (by omega)]
  intro he
  have h1 := (List.cons.inj he).1
  rw [shr16] at h1
  have hfin : ∀ k < 17, 1 ≤ k → (0xF0 ||| k) % 256 ≠ 240 + k / 4 := by decide
  exact hfin (v / 65536) (by omega) (by omega) (by rw [h1]; omega)

example : streamChar '😀'.toNat = [0xF1, 0x9F, 0x98, 0x80] ∧
    (String.utf8EncodeChar '😀').map UInt8.toNat = [0xF0, 0x9F, 0x98, 0x80] := by decide

/-! ### The compiler's own reader inverts the encoders -/

theorem lead_table : ∀ b < 256, leadingOnes b =
    (if b < 128 then 0 else if b < 192 then 1 else if b < 224 then 2 else if b < 240 then 3 else if b < 248 then 4
     else if b < 252 then 5 else if b < 254 then 6 else if b < 255 then 7 else 8) := by decide +kernel

theorem lor6 {a b : Nat} (h : b < 64) : a * 64 ||| b = a * 64 + b := by
  rw [Nat.mul_comm]; exact lor_lead (i := 6) h
theorem lor12 {a b : Nat} (h : b < 4096) : a * 4096 ||| b = a * 4096 + b := by
  rw [Nat.mul_comm]; exact lor_lead (i := 12) h
theorem lor18 {a b : Nat} (h : b < 262144) : a * 262144 ||| b = a * 262144 + b := by
  rw [Nat.mul_comm]; exact lor_lead (i := 18) h

theorem arith_length_pos (c : Nat) : arith c ≠ [] := by
  unfold arith; split <;> (try split) <;> (try split) <;> simp

theorem readChar_multi {c : Nat} (h1 : 0x80 ≤ c) (h2 : c < 0x200000) (rest : List Nat) (n : Nat)
    (hn : (arith c).length ≤ n) : readChar (arith c ++ rest) n = .ok ((arith c).length, c) := by
  unfold arith at hn ⊢
  rw [if_neg (by omega)] at hn ⊢
  split
  · rename_i h
    rw [if_pos h] at hn
    have hb : byteAt ([192 + c / 64, 128 + c % 64] ++ rest) 0 = 192 + c / 64 := rfl
    have hb1 : byteAt ([192 + c / 64, 128 + c % 64] ++ rest) 1 = 128 + c % 64 := rfl
    have hl : leadingOnes (192 + c / 64) = 2 := by
      rw [lead_table _ (by omega), if_neg (by omega), if_neg (by omega), if_pos (by omega)]
    unfold readChar convertEscapeSeq strToUtf32
    simp only [hb, hb1, hl]
    rw [if_pos (by omega), if_neg (by simp at hn ⊢; omega), if_neg (by omega), if_neg (by omega), if_pos (by omega),
      if_neg (by omega), if_neg (by omega), if_pos True.intro, and1f, and3f, shl6, lor6 (by omega)]
    simp; omega
  · rename_i h
    rw [if_neg h] at hn
    split
    · rename_i h'
      rw [if_pos h'] at hn
      have hb : byteAt ([224 + c / 4096, 128 + c / 64 % 64, 128 + c % 64] ++ rest) 0 = 224 + c / 4096 := rfl
      have hb1 : byteAt ([224 + c / 4096, 128 + c / 64 % 64, 128 + c % 64] ++ rest) 1 = 128 + c / 64 % 64 := rfl
      have hb2 : byteAt ([224 + c / 4096, 128 + c / 64 % 64, 128 + c % 64] ++ rest) 2 = 128 + c % 64 := rfl
      have hl : leadingOnes (224 + c / 4096) = 3 := by
        rw [lead_table _ (by omega), if_neg (by omega), if_neg (by omega), if_neg (by omega), if_pos (by omega)]
      unfold readChar convertEscapeSeq strToUtf32
      simp only [hb, hb1, hb2, hl]
      rw [if_pos (by omega), if_neg (by simp at hn ⊢; omega), if_neg (by omega), if_neg (by omega), if_pos (by omega),
        if_neg (by omega), if_neg (by omega), if_neg (by omega), if_pos True.intro, andf, and3f, and3f, shl6, shl12,
        Nat.or_assoc, lor6 (by omega), lor12 (by omega)]
      simp; omega
    · rename_i h'
      rw [if_neg h'] at hn
      generalize hs : [240 + c / 262144, 128 + c / 4096 % 64, 128 + c / 64 % 64, 128 + c % 64] = s at *
      have hb : byteAt (s ++ rest) 0 = 240 + c / 262144 := by rw [← hs]; rfl
      have hb1 : byteAt (s ++ rest) 1 = 128 + c / 4096 % 64 := by rw [← hs]; rfl
      have hb2 : byteAt (s ++ rest) 2 = 128 + c / 64 % 64 := by rw [← hs]; rfl
      have hb3 : byteAt (s ++ rest) 3 = 128 + c % 64 := by rw [← hs]; rfl
      have hsl : s.length = 4 := by rw [← hs]; rfl
      have hl : leadingOnes (240 + c / 262144) = 4 := by
        rw [lead_table _ (by omega), if_neg (by omega), if_neg (by omega), if_neg (by omega), if_neg (by omega), if_pos (by omega)]
      unfold readChar convertEscapeSeq strToUtf32
      simp only [hb, hb1, hb2, hb3, hl]
      rw [if_pos (by omega), if_neg (by omega), if_neg (by omega), if_neg (by omega), if_pos (by omega),
        if_neg (by omega), if_neg (by omega), if_neg (by omega), if_neg (by omega), if_pos True.intro, and7, and3f, and3f, and3f, shl6, shl12, shl18,
        Nat.or_assoc, Nat.or_assoc, lor6 (by omega), lor12 (by omega), lor18 (by omega), hsl]
      simp; omega

/-- **C14**: what the format state or the string builder writes for a non-ASCII code point, the
compiler's reader decodes to the same code point, whatever follows. -/
theorem reader_inverts_encoder (c : Nat) (rest : List Nat) (h1 : 0x80 ≤ c) (h2 : c < 0x200000) :
    ∃ s, printUtf8Raw c = some s ∧ builderChar c = some s ∧
      readChar (s ++ rest) (s ++ rest).length = .ok (s.length, c) :=
  ⟨arith c, printUtf8Raw_arith h2, builderChar_arith h2, readChar_multi h1 h2 rest _ (by simp)⟩

example : readChar ([0xE2, 0x82, 0xAC] ++ [65]) 4 = .ok (3, 0x20AC) := by decide

/-! ## C17 -/

/-- The escaped text of a sequence of code points. -/
def escapedText : List Nat → Option (List Nat)
  | [] => some []
  | c :: cs =>
    match printUtf8Escaped c, escapedText cs with
    | some a, some b => some (a ++ b)
    | _, _ => none

/-- A NUL followed by two octal digits. -/
def NulThenOctal : List Nat → Bool
  | [] => false
  | c :: s => (c = 0 && isODigit (byteAt s 0) && isODigit (byteAt s 1)) || NulThenOctal s

theorem simpleEscape_cases (c : Nat) : (∃ d, simpleEscape c = some [92, d]) ∨
    (simpleEscape c = none ∧ c ≠ 0 ∧ c ≠ 10 ∧ c ≠ 9 ∧ c ≠ 11 ∧ c ≠ 13 ∧ c ≠ 7 ∧ c ≠ 8 ∧ c ≠ 34) := by
  unfold simpleEscape
  repeat' split
  all_goals first | exact Or.inl ⟨_, rfl⟩ | exact Or.inr (by simp [*])

/-- the printed form of one code point: an escape, or its encoding -/
theorem printUtf8Escaped_cases {c : Nat} (h : c < 0x200000) :
    (∃ d, printUtf8Escaped c = some [92, d] ∧ (c = 0 ∨ ∀ rest n, 2 ≤ n → readChar ([92, d] ++ rest) n = .ok (2, c)) ∧ (c = 0 → d = 48)
      ∧ ¬ (48 ≤ c ∧ c ≤ 57)) ∨
    (printUtf8Escaped c = some [c] ∧ c < 0x80 ∧ c ≠ 92 ∧ c ≠ 0) ∨
    (printUtf8Escaped c = some (arith c) ∧ 0x80 ≤ c) := by
  by_cases hs : c = 0 ∨ c = 10 ∨ c = 9 ∨ c = 11 ∨ c = 13 ∨ c = 7 ∨ c = 8 ∨ c = 34 ∨ c = 92
  · left
    have hread : ∀ d c, (∀ rest n, 2 ≤ n → convertEscapeSeq ([92, d] ++ rest) n = .ok (2, c)) →
        ∀ rest n, 2 ≤ n → readChar ([92, d] ++ rest) n = .ok (2, c) := by
      intro d c hc rest n hn
      unfold readChar
      rw [show byteAt ([92, d] ++ rest) 0 = 92 from rfl]
      rw [if_neg (show ¬ (92 : Nat) ≥ 0x80 by decide)]
      exact hc rest n hn
    have hconv : ∀ d c, (d, c) ∈ [(110, 10), (116, 9), (118, 11), (114, 13), (97, 7), (98, 8), (34, 34), (92, 92)] →
        ∀ rest n, 2 ≤ n → convertEscapeSeq ([92, d] ++ rest) n = .ok (2, c) := by
      intro d c hm rest n hn
      simp only [List.mem_cons, Prod.mk.injEq, List.not_mem_nil, or_false] at hm
      unfold convertEscapeSeq
      rw [if_neg (by omega), if_pos (show byteAt ([92, d] ++ rest) 0 = 92 from rfl), if_neg (by omega)]
      have hb : byteAt ([92, d] ++ rest) 1 = d := rfl
      simp only [hb]
      rcases hm with ⟨rfl, rfl⟩ | ⟨rfl, rfl⟩ | ⟨rfl, rfl⟩ | ⟨rfl, rfl⟩ | ⟨rfl, rfl⟩ | ⟨rfl, rfl⟩ | ⟨rfl, rfl⟩ | ⟨rfl, rfl⟩ <;> rfl
    rcases hs with rfl | rfl | rfl | rfl | rfl | rfl | rfl | rfl | rfl
    · exact ⟨48, rfl, .inl rfl, fun _ => rfl, by decide⟩
    · exact ⟨110, rfl, .inr (hread _ _ (hconv _ _ (by decide))), by decide, by decide⟩
    · exact ⟨116, rfl, .inr (hread _ _ (hconv _ _ (by decide))), by decide, by decide⟩
    · exact ⟨118, rfl, .inr (hread _ _ (hconv _ _ (by decide))), by decide, by decide⟩
    · exact ⟨114, rfl, .inr (hread _ _ (hconv _ _ (by decide))), by decide, by decide⟩
    · exact ⟨97, rfl, .inr (hread _ _ (hconv _ _ (by decide))), by decide, by decide⟩
    · exact ⟨98, rfl, .inr (hread _ _ (hconv _ _ (by decide))), by decide, by decide⟩
    · exact ⟨34, rfl, .inr (hread _ _ (hconv _ _ (by decide))), by decide, by decide⟩
    · exact ⟨92, rfl, .inr (hread _ _ (hconv _ _ (by decide))), by decide, by decide⟩
  · right
    have hn : simpleEscape c = none := by
      unfold simpleEscape
      simp only [not_or] at hs
      simp [hs]
    unfold printUtf8Escaped
    rw [hn]
    simp only
    rw [if_neg (by omega), printUtf8Raw_arith h]
    by_cases h8 : c < 0x80
    · left
      refine ⟨?_, h8, by omega, by omega⟩
      unfold arith; rw [if_pos h8]
    · right; exact ⟨rfl, by omega⟩

theorem arith_head {c : Nat} (h : 0x80 ≤ c) (rest : List Nat) : 192 ≤ byteAt (arith c ++ rest) 0 := by
  unfold arith byteAt
  rw [if_neg (by omega)]
  split
  · simp
  · split
    · simp; omega
    · simp; omega

/-- an octal digit at the start of the printed text is the first code point -/
theorem escapedText_head {cs s : List Nat} (hc : ∀ c ∈ cs, c < 0x200000) (h : escapedText cs = some s)
    (hd : isODigit (byteAt s 0) = true) :
    ∃ c cs' s', cs = c :: cs' ∧ s = c :: s' ∧ escapedText cs' = some s' := by
  cases cs with
  | nil => simp [escapedText] at h; subst h; simp [byteAt, isODigit] at hd
  | cons c cs =>
    unfold escapedText at h
    cases h2 : escapedText cs with
    | none => rw [h2] at h; split at h <;> simp_all
    | some s' =>
      rw [h2] at h
      rcases printUtf8Escaped_cases (hc c (by simp)) with ⟨d, h1, _⟩ | ⟨h1, _⟩ | ⟨h1, h8⟩
      · rw [h1] at h; simp at h; subst h; simp [byteAt, isODigit] at hd
      · rw [h1] at h; simp at h
        exact ⟨c, cs, s', rfl, h.symm, h2⟩
      · rw [h1] at h; simp at h; subst h
        have := arith_head h8 s'
        simp [isODigit] at hd; omega

theorem readText_escaped : ∀ (cs : List Nat), (∀ c ∈ cs, c < 0x200000) → NulThenOctal cs = false →
    ∃ s, escapedText cs = some s ∧ ∀ f, s.length ≤ f → readText f s = .ok cs := by
  intro cs
  induction cs with
  | nil => intro _ _; exact ⟨[], rfl, fun f _ => by cases f <;> rfl⟩
  | cons c cs ih =>
    intro hc hn
    simp only [NulThenOctal, Bool.or_eq_false_iff] at hn
    obtain ⟨s, hs, hr⟩ := ih (fun x hx => hc x (List.mem_cons_of_mem _ hx)) hn.2
    -- reading the first code point is enough
    have key : ∀ a : List Nat, printUtf8Escaped c = some a → a ≠ [] →
        readChar (a ++ s) (a ++ s).length = .ok (a.length, c) →
        ∃ s, escapedText (c :: cs) = some s ∧ ∀ f, s.length ≤ f → readText f s = .ok (c :: cs) := by
      intro a ha hne hread
      refine ⟨a ++ s, by simp [escapedText, ha, hs], ?_⟩
      intro f hf
      cases a with
      | nil => exact absurd rfl hne
      | cons x a =>
        cases f with
        | zero => simp at hf
        | succ f =>
          rw [List.cons_append]
          unfold readText
          rw [← List.cons_append, hread]
          simp only [Res.bind_ok, List.length_cons]
          rw [if_neg (by omega)]
          have : ((x :: a) ++ s).drop (a.length + 1) = s := by simp
          rw [this, hr f (by simp at hf; omega)]
          rfl
    rcases printUtf8Escaped_cases (hc c (by simp)) with ⟨d, h1, h2, h3, _⟩ | ⟨h1, h2, h3, h4⟩ | ⟨h1, h2⟩
    · refine key _ h1 (by simp) ?_
      rcases h2 with h2 | h2
      · subst h2
        rw [h3 rfl]
        have hno : (!isODigit (byteAt s 0) || !isODigit (byteAt s 1)) = true := by
          cases hd : isODigit (byteAt s 0) with
          | false => rfl
          | true =>
            obtain ⟨c1, cs1, s1, e1, e2, e3⟩ := escapedText_head (fun x hx => hc x (List.mem_cons_of_mem _ hx)) hs hd
            cases hd1 : isODigit (byteAt s 1) with
            | false => rfl
            | true =>
              have hd2 : isODigit (byteAt s1 0) = true := by rw [e2] at hd1; exact hd1
              obtain ⟨c2, cs2, s2, f1, f2, f3⟩ := escapedText_head (fun x hx => hc x (by rw [e1]; simp [hx])) e3 hd2
              have h5 := hn.1
              rw [e1, f1] at h5
              rw [e2] at hd
              rw [f2] at hd2
              simp [byteAt] at h5 hd hd2
              rw [h5 hd] at hd2; simp at hd2
        unfold readChar
        rw [show byteAt ([92, 48] ++ s) 0 = 92 from rfl]
        rw [if_neg (show ¬ (92 : Nat) ≥ 0x80 by decide)]
        unfold convertEscapeSeq
        rw [if_neg (by simp), if_pos (show byteAt ([92, 48] ++ s) 0 = 92 from rfl), if_neg (by simp)]
        have hb : byteAt ([92, 48] ++ s) 1 = 48 := rfl
        have hb2 : byteAt ([92, 48] ++ s) 2 = byteAt s 0 := rfl
        have hb3 : byteAt ([92, 48] ++ s) 3 = byteAt s 1 := rfl
        simp only [hb, hb2, hb3, hno]
        rfl
      · exact h2 s _ (by simp)
    · refine key _ h1 (by simp) ?_
      unfold readChar
      rw [if_neg (show ¬ byteAt ([c] ++ s) 0 ≥ 0x80 by show ¬ c ≥ 0x80; omega)]
      unfold convertEscapeSeq
      rw [if_neg (by simp), if_neg (show ¬ byteAt ([c] ++ s) 0 = 92 from h3), if_neg (show ¬ byteAt ([c] ++ s) 0 ≥ 0x80 by show ¬ c ≥ 0x80; omega)]
      rfl
    · exact key _ h1 (arith_length_pos c) (readChar_multi h2 (hc c (by simp)) s _ (by simp))

/-- **C17 (partial)**: any sequence of code points in which no NUL is followed by two octal digits,
printed by the format state with escapes, is read back by the compiler's escape reader as the same
sequence.  The full statement has no restriction; it is false: `escaped_nul_swallows_digits`. -/
theorem escaped_text_reads_back_partial (cs : List Nat) (hc : ∀ c ∈ cs, c < 0x200000)
    (hn : NulThenOctal cs = false) :
    ∃ s, escapedText cs = some s ∧ readText s.length s = .ok cs := by
  obtain ⟨s, h1, h2⟩ := readText_escaped cs hc hn
  exact ⟨s, h1, h2 _ (Nat.le_refl _)⟩

/-- non-vacuity: NUL, a digit, a quote, a backslash, a euro sign -/
example : NulThenOctal [0, 49, 34, 92, 110, 0x20AC, 0] = false ∧
    escapedText [0, 49, 34, 92, 110, 0x20AC, 0] = some [92, 48, 49, 92, 34, 92, 92, 110, 0xE2, 0x82, 0xAC, 92, 48] := by
  decide

/-- **C17 is false of the code (a)**: NUL, `1`, `2` is printed as `\012` and read back as a newline. -/
theorem escaped_nul_swallows_digits :
    escapedText [0, 49, 50] = some [92, 48, 49, 50] ∧ readText 4 [92, 48, 49, 50] = .ok [10] := by decide

/-- **C17 is false of the code (b)**: the byte-wise printer does not escape a backslash, so the two
characters backslash and `n` come back as one newline. -/
theorem escaped_char_backslash_lost :
    [92, 110].flatMap printEscapedChar = [92, 110] ∧ readText 2 [92, 110] = .ok [10] := by decide

/-- **C17 is false of the code (c)**: string literals are read by another routine, which turns the
escaped backslash of `\\n` into a backslash followed by a newline, where the printer (and the other
reader) mean a backslash followed by `n`. -/
theorem literal_escaped_backslash_wrong (after : Nat) :
    escapedText [92, 110] = some [92, 92, 110] ∧ escapeString after [92, 92, 110] = [92, 10] := by
  refine ⟨by decide, rfl⟩

/-- Bytes that survive the byte-wise printer and the string literal reader: no backslash, and no NUL
followed by a decimal digit. -/
def LiteralSafe (after : Nat) : List Nat → Prop
  | [] => True
  | c :: s => c ≠ 92 ∧ (c = 0 → isDigit (s.headD after) = false) ∧ LiteralSafe after s

theorem printEscaped_head (after : Nat) (cs : List Nat) :
    isDigit ((cs.flatMap printEscapedChar).headD after) = isDigit (cs.headD after) ∨ ∃ c cs', cs = c :: cs' ∧ isDigit ((cs.flatMap printEscapedChar).headD after) = false := by
  cases cs with
  | nil => left; rfl
  | cons c cs =>
    rcases simpleEscape_cases c with ⟨d, h⟩ | ⟨h, _⟩
    · right; exact ⟨c, cs, rfl, by simp [printEscapedChar, h, isDigit]⟩
    · left; simp [printEscapedChar, h]

/-- **C17 (partial)**: bytes without a backslash and without a NUL directly before a digit, printed by
the byte-wise printer inside a string literal, are what the string literal reader produces. -/
theorem literal_reads_back_partial (after : Nat) (cs : List Nat) (h : LiteralSafe after cs) :
    escapeString after (cs.flatMap printEscapedChar) = cs := by
  induction cs with
  | nil => rfl
  | cons c cs ih =>
    obtain ⟨h1, h2, h3⟩ := h
    have ih := ih h3
    rw [List.flatMap_cons]
    generalize hr : cs.flatMap printEscapedChar = rest at *
    have hz : c = 0 → isDigit (rest.headD after) = false := by
      intro hc
      rw [← hr]
      rcases printEscaped_head after cs with e | ⟨_, _, _, e⟩
      · rw [e]; exact h2 hc
      · exact e
    by_cases hs : c = 0 ∨ c = 10 ∨ c = 9 ∨ c = 11 ∨ c = 13 ∨ c = 7 ∨ c = 8 ∨ c = 34
    · rcases hs with rfl | rfl | rfl | rfl | rfl | rfl | rfl | rfl
      · show escapeString after (92 :: 48 :: rest) = _
        unfold escapeString
        simp [ih, List.headD]; exact hz rfl
      all_goals
        show escapeString after (92 :: _ :: rest) = _
        unfold escapeString
        simp [ih]
    · have hn : printEscapedChar c = [c] := by
        unfold printEscapedChar simpleEscape
        simp only [not_or] at hs
        simp [hs]
      rw [hn]
      cases rest with
      | nil =>
        show escapeString after [c] = _
        unfold escapeString
        rw [if_neg h1]
        have : cs = [] := by rw [← ih]; rfl
        rw [this]
      | cons d rest =>
        show escapeString after (c :: d :: rest) = _
        unfold escapeString
        rw [if_pos h1, ih]

example : LiteralSafe 34 [72, 105, 10, 34, 0, 9, 0] := by
  simp [LiteralSafe, isDigit]

end Verif.Text
