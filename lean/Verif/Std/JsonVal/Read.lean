import Verif.Std.JsonVal.Spec
/-! # Tokens: strings, words and numbers are read as they are written -/
namespace Verif.JsonVal

open Verif.Json (isSpace)

/-! ## White space -/

theorem dropWhile_all {p : Nat → Bool} : ∀ (w s : List Nat), w.all p = true → (w ++ s).dropWhile p = s.dropWhile p
  | [], _, _ => rfl
  | c :: w, s, h => by
    simp only [List.all_cons, Bool.and_eq_true] at h
    rw [List.cons_append, List.dropWhile_cons_of_pos h.1, dropWhile_all w s h.2]

theorem dropWhile_stop {p : Nat → Bool} (s : List Nat) (h : ∀ c, s.head? = some c → p c = false) : s.dropWhile p = s := by
  cases s with
  | nil => rfl
  | cons c s => rw [List.dropWhile_cons_of_neg (by simp [h c rfl])]

theorem dropWhile_all_stop {p : Nat → Bool} (w s : List Nat) (hw : w.all p = true) (h : ∀ c, s.head? = some c → p c = false) :
    (w ++ s).dropWhile p = s := by rw [dropWhile_all w s hw, dropWhile_stop s h]

theorem takeWhile_all_stop {p : Nat → Bool} : ∀ (w s : List Nat), w.all p = true → (∀ c, s.head? = some c → p c = false) →
    (w ++ s).takeWhile p = w
  | [], s, _, h => by
    cases s with
    | nil => rfl
    | cons c s => rw [List.nil_append, List.takeWhile_cons_of_neg (by simp [h c rfl])]
  | c :: w, s, hw, h => by
    simp only [List.all_cons, Bool.and_eq_true] at hw
    rw [List.cons_append, List.takeWhile_cons_of_pos hw.1, takeWhile_all_stop w s hw.2 h]

theorem skipWs_ws (w s : List Nat) (h : Ws w = true) : skipWs (w ++ s) = skipWs s := dropWhile_all w s h

theorem skipWs_cons (c : Nat) (s : List Nat) (h : isSpace c = false) : skipWs (c :: s) = c :: s :=
  dropWhile_stop _ (by simpa using h)

theorem skipWs_ws_cons (w : List Nat) (c : Nat) (s : List Nat) (hw : Ws w = true) (h : isSpace c = false) : skipWs (w ++ c :: s) = c :: s := by
  rw [skipWs_ws _ _ hw, skipWs_cons c s h]

theorem skipWs_idem (s : List Nat) : skipWs (skipWs s) = skipWs s := by
  refine dropWhile_stop _ ?_
  intro c h
  unfold skipWs at h
  induction s with
  | nil => simp at h
  | cons x s ih =>
    rw [List.dropWhile_cons] at h
    split at h
    · exact ih h
    · rename_i hx
      simp at h
      rw [← h]
      simpa using hx

/-- What may come directly behind a word or a number. -/
def Delim (s : List Nat) : Prop := ∀ c, s.head? = some c → isAlpha c = false ∧ isDigit c = false ∧ c ≠ 46

theorem space_plain (c : Nat) (h : isSpace c = true) : isAlpha c = false ∧ isDigit c = false ∧ c ≠ 46 ∧ c ≠ 44 := by
  simp only [isSpace, Bool.or_eq_true, Bool.and_eq_true, decide_eq_true_eq] at h
  simp only [isAlpha, isDigit, Bool.or_eq_false_iff, Bool.and_eq_false_iff, decide_eq_false_iff_not]
  omega

theorem Delim.ws {s : List Nat} (h : Delim s) (w : List Nat) (hw : Ws w = true) : Delim (w ++ s) := by
  cases w with
  | nil => exact h
  | cons c w =>
    intro x hx
    simp only [Ws, List.all_cons, Bool.and_eq_true] at hw
    simp at hx
    subst hx
    have := space_plain c hw.1
    exact ⟨this.1, this.2.1, this.2.2.1⟩

theorem Delim.of_cons (c : Nat) (s : List Nat) (h : isAlpha c = false ∧ isDigit c = false ∧ c ≠ 46) : Delim (c :: s) := by
  intro x hx
  simp at hx
  subst hx
  exact h

theorem Delim.nil : Delim [] := by intro c h; simp at h

/-! ## Strings -/

theorem scanStr_ok : ∀ (s r : List Nat), okStr s = true → scanStr (s ++ 34 :: r) = (s, 34 :: r)
  | [], [], _ => by simp [scanStr]
  | [], x :: r, _ => by simp [scanStr]
  | [c], r, h => by
    simp only [okStr, Bool.and_eq_true, bne_iff_ne, ne_eq] at h
    have := scanStr_ok [] r rfl
    rw [List.nil_append] at this
    show scanStr (c :: 34 :: r) = _
    rw [scanStr, if_neg h.1.1, if_neg (fun e => h.2 e.1), if_neg h.1.2, this]
  | c :: n :: s, r, h => by
    simp only [okStr, Bool.and_eq_true, bne_iff_ne, ne_eq] at h
    obtain ⟨h0, h⟩ := h
    show scanStr (c :: n :: (s ++ 34 :: r)) = _
    rw [scanStr, if_neg h0]
    by_cases he : c = 92 ∧ n = 34
    · rw [if_pos he] at h ⊢
      rw [scanStr_ok s r h]
    · rw [if_neg he] at h ⊢
      simp only [Bool.and_eq_true, bne_iff_ne, ne_eq] at h
      have := scanStr_ok (n :: s) r h.2
      rw [List.cons_append] at this
      rw [if_neg h.1, this]

theorem expectString_ok (w s r : List Nat) (hw : Ws w = true) (hs : okStr s = true) : expectString (w ++ 34 :: (s ++ 34 :: r)) = .ok s r := by
  unfold expectString
  rw [skipWs_ws_cons w 34 _ hw (by decide)]
  simp only [scanStr_ok s r hs]

/-- `okStr` is the condition of `Verif.Json`. -/
theorem okStr_iff : ∀ (s : List Nat), okStr s = true ↔ Json.Survives s
  | s => by
    have key : ∀ (n : Nat) (s : List Nat), s.length ≤ n → (okStr s = true ↔ Json.stop (s ++ [34]) = s.length) := by
      intro n
      induction n with
      | zero =>
        intro s hs
        have : s = [] := by cases s <;> simp_all
        subst this
        simp [okStr, Json.stop]
      | succ n ih =>
        intro s hs
        match s, hs with
        | [], _ => simp [okStr, Json.stop]
        | [c], _ =>
          simp only [okStr, Bool.and_eq_true, bne_iff_ne, ne_eq, List.cons_append, List.nil_append, Json.stop]
          by_cases h0 : c = 0
          · simp [h0]
          · by_cases h1 : c = 92
            · simp [h1]
            · by_cases h2 : c = 34
              · simp [h2]
              · simp [h0, h1, h2]
        | c :: d :: s, hs =>
          simp only [okStr, Bool.and_eq_true, bne_iff_ne, ne_eq, List.cons_append, Json.stop]
          by_cases h0 : c = 0
          · simp [h0]
          · rw [if_neg h0]
            by_cases he : c = 92 ∧ d = 34
            · rw [if_pos he, if_pos he, ih s (by simp at hs; omega)]
              simp only [List.length_cons, h0, not_false_eq_true, true_and]
              omega
            · rw [if_neg he, if_neg he]
              have := ih (d :: s) (by simp at hs ⊢; omega)
              rw [List.cons_append] at this
              by_cases h2 : c = 34
              · simp [h2]
              · simp only [h0, h2, not_false_eq_true, true_and, Bool.and_eq_true, bne_iff_ne, ne_eq, if_false, this, List.length_cons]
                omega
    rw [key s.length s (Nat.le_refl _)]
    exact ⟨Json.survives_of_stop _ s (Nat.le_refl _), Json.stop_survives _ s (Nat.le_refl _)⟩

/-! ## Words -/

theorem expectBool_ok (w r : List Nat) (b : Bool) (hw : Ws w = true) (hr : Delim r) :
    expectBool (w ++ (Doc.bool b).text ++ r) = .ok b r := by
  have hh : ∀ c, r.head? = some c → isAlpha c = false := fun c h => (hr c h).1
  unfold expectBool
  cases b with
  | true =>
    have e : skipWs (w ++ (Doc.bool true).text ++ r) = [116, 114, 117, 101] ++ r := by
      rw [List.append_assoc]; exact skipWs_ws_cons w 116 _ hw (by decide)
    rw [e, takeWhile_all_stop _ r (by decide) hh, dropWhile_all_stop _ r (by decide) hh]
    rfl
  | false =>
    have e : skipWs (w ++ (Doc.bool false).text ++ r) = [102, 97, 108, 115, 101] ++ r := by
      rw [List.append_assoc]; exact skipWs_ws_cons w 102 _ hw (by decide)
    rw [e, takeWhile_all_stop _ r (by decide) hh, dropWhile_all_stop _ r (by decide) hh]
    rfl

theorem matchNull_ok (w r : List Nat) (hw : Ws w = true) : matchNull (w ++ 110 :: 117 :: 108 :: 108 :: r) = (true, r) := by
  unfold matchNull
  rw [skipWs_ws_cons w 110 _ hw (by decide)]
  rfl

theorem matchNull_not (s : List Nat) (h : (skipWs s).head? ≠ some 110) : matchNull s = (false, skipWs s) := by
  unfold matchNull
  split
  · rename_i e
    rw [e] at h
    exact absurd rfl h
  · rfl

/-! ## Numbers -/

theorem digit_facts (c : Nat) (h : isDigit c = true) :
    isSpace c = false ∧ isAlpha c = false ∧ c ≠ 46 ∧ c ≠ 45 ∧ c ≠ 43 ∧ c ≠ 34 ∧ c ≠ 93 ∧ c ≠ 125 ∧ c ≠ 123 ∧ c ≠ 91 ∧ c ≠ 44 ∧
      c ≠ 110 ∧ c ≠ 116 ∧ c ≠ 102 ∧ c ≠ 69 ∧ c ≠ 101 := by
  simp only [isDigit, Bool.and_eq_true, decide_eq_true_eq] at h
  simp only [isAlpha, isSpace, Bool.or_eq_false_iff, Bool.and_eq_false_iff, decide_eq_false_iff_not]
  omega

/-- Digits have a first one. -/
theorem digits_cons (ds : List Nat) (h1 : ds ≠ []) (h2 : ds.all isDigit = true) : ∃ c r, ds = c :: r ∧ isDigit c = true := by
  cases ds with
  | nil => exact absurd rfl h1
  | cons c r => simp only [List.all_cons, Bool.and_eq_true] at h2; exact ⟨c, r, rfl, h2.1⟩

theorem Delim.headD {r : List Nat} (h : Delim r) : isDigit (r.headD 0) = false ∧ r.headD 0 ≠ 46 ∧ isAlpha (r.headD 0) = false := by
  cases r with
  | nil => exact ⟨by decide, by decide, by decide⟩
  | cons c r => have := h c rfl; exact ⟨this.2.1, this.2.2, this.1⟩

theorem consume_other (c x : Nat) (s : List Nat) (hs : isSpace x = false) (h : x ≠ c) : consumeChar c (x :: s) = (false, x :: s) := by
  unfold consumeChar
  rw [skipWs_cons x s hs]
  simp [h]

theorem consume_this (w : List Nat) (c : Nat) (s : List Nat) (hw : Ws w = true) (hs : isSpace c = false) : consumeChar c (w ++ c :: s) = (true, s) := by
  unfold consumeChar
  rw [skipWs_ws_cons w c s hw hs]
  simp

/-- Both readers take the exponent. -/
theorem exponent_read (n : Num) (hn : n.ok = true) (r : List Nat) (hr : Delim r) :
    afterExponent (n.expText ++ r) = r ∧ strtodExponent (n.expText ++ r) = r := by
  have hd : ∀ c, r.head? = some c → isDigit c = false := fun c h => (hr c h).2.1
  have hh := hr.headD
  cases he : n.exp with
  | none =>
    have : ¬ (r.headD 0 = 69 ∨ r.headD 0 = 101) := by
      rintro (e | e) <;> rw [e] at hh <;> exact absurd hh.2.2 (by decide)
    simp only [Num.expText, he, List.nil_append, afterExponent, strtodExponent, if_neg this, and_self]
  | some x =>
    obtain ⟨big, sg, ds⟩ := x
    have h : ds ≠ [] ∧ ds.all isDigit = true := by
      simp only [Num.ok, he, Bool.and_eq_true, bne_iff_ne, ne_eq] at hn
      exact hn.2
    obtain ⟨c, t, rfl, hc⟩ := digits_cons ds h.1 h.2
    have hf := digit_facts c hc
    have hl : ∀ l : List Nat, ((if big = true then 69 else 101) :: l).headD 0 = 69 ∨ ((if big = true then 69 else 101) :: l).headD 0 = 101 := by
      intro l; cases big <;> simp
    have hdrop : (c :: t ++ r).dropWhile isDigit = r := dropWhile_all_stop (c :: t) r h.2 hd
    have e : n.expText ++ r = (if big = true then 69 else 101) :: ((match sg with | none => [] | some true => [45] | some false => [43]) ++ (c :: t ++ r)) := by
      simp only [Num.expText, he, List.cons_append, List.append_assoc]
      rfl
    rw [e]
    unfold afterExponent strtodExponent
    rw [if_pos (hl _), if_pos (hl _)]
    simp only [List.tail_cons]
    match sg with
    | none =>
      simp only [List.nil_append]
      constructor
      · simp only [List.cons_append, consume_other 45 c _ hf.1 hf.2.2.2.1, consume_other 43 c _ hf.1 hf.2.2.2.2.1, Bool.false_eq_true, if_false]
        exact hdrop
      · have h2 : ¬ (c = 45 ∨ c = 43) := by exact fun e => e.elim hf.2.2.2.1 hf.2.2.2.2.1
        simp only [List.cons_append, List.headD_cons, h2, if_false, hc, if_true]
        exact hdrop
    | some true =>
      simp only [List.cons_append, List.nil_append]
      constructor
      · have := consume_this [] 45 (c :: (t ++ r)) rfl (by decide)
        rw [List.nil_append] at this
        simp only [this, if_true]
        exact hdrop
      · simp only [List.headD_cons, true_or, if_true, List.tail_cons, hc]
        exact hdrop
    | some false =>
      simp only [List.cons_append, List.nil_append]
      constructor
      · have := consume_this [] 43 (c :: (t ++ r)) rfl (by decide)
        rw [List.nil_append] at this
        simp only [consume_other 45 43 _ (by decide) (by decide), this, Bool.false_eq_true, if_false]
        exact hdrop
      · simp only [List.headD_cons, or_true, if_true, List.tail_cons, hc]
        exact hdrop

/-- The text behind the digits in front of the point does not begin with a digit or an `x`. -/
theorem behind_int (n : Num) (r : List Nat) (hr : Delim r) :
    ∀ c, (n.fracText ++ (n.expText ++ r)).head? = some c → isDigit c = false := by
  intro c h
  cases hf : n.frac with
  | some ds => simp [Num.fracText, hf] at h; subst h; decide
  | none =>
    simp only [Num.fracText, hf, List.nil_append] at h
    cases he : n.exp with
    | some x =>
      obtain ⟨b, sg, ds⟩ := x
      simp [Num.expText, he] at h
      subst h
      cases b <;> decide
    | none => simp only [Num.expText, he, List.nil_append] at h; exact (hr c h).2.1

theorem behind_frac (n : Num) (r : List Nat) (hr : Delim r) : ∀ c, (n.expText ++ r).head? = some c → isDigit c = false ∧ c ≠ 46 := by
  intro c h
  cases he : n.exp with
  | some x =>
    obtain ⟨b, sg, ds⟩ := x
    simp [Num.expText, he] at h
    subst h
    cases b <;> decide
  | none => simp only [Num.expText, he, List.nil_append] at h; exact (hr c h).2

theorem headD_of {P : Nat → Prop} {s : List Nat} (h0 : P 0) (h : ∀ c, s.head? = some c → P c) : P (s.headD 0) := by
  cases s with
  | nil => exact h0
  | cons c s => exact h c rfl

/-- Numbers are read whole. -/
theorem expectNumber_ok (n : Num) (hn : n.ok = true) (w r : List Nat) (hw : Ws w = true) (hr : Delim r) :
    expectNumber (w ++ n.text ++ r) = .ok n.text r := by
  have hn' := hn
  simp only [Num.ok, Bool.and_eq_true, bne_iff_ne, ne_eq] at hn'
  obtain ⟨⟨⟨hi1, hi2⟩, hfr⟩, -⟩ := hn'
  obtain ⟨c, t, hct, hc⟩ := digits_cons n.int hi1 hi2
  have hf := digit_facts c hc
  obtain ⟨x1, x2⟩ := exponent_read n hn r hr
  have hb := behind_int n r hr
  have hbf := behind_frac n r hr
  -- the text without the sign
  have e0 : n.text ++ r = n.sign ++ (n.int ++ (n.fracText ++ (n.expText ++ r))) := by simp [Num.text]
  have hskip : skipWs (w ++ n.text ++ r) = n.text ++ r := by
    rw [List.append_assoc, skipWs_ws _ _ hw, e0]
    refine dropWhile_stop _ ?_
    intro y hy
    unfold Num.sign at hy
    cases hneg : n.neg
    · simp [hneg, hct] at hy; subst hy; exact hf.1
    · simp [hneg] at hy; subst hy; decide
  have hsign1 : afterSign (n.text ++ r) = n.int ++ (n.fracText ++ (n.expText ++ r)) := by
    rw [e0]
    unfold afterSign Num.sign
    cases n.neg
    · have : ¬ ((if false = true then [45] else []) ++ (n.int ++ (n.fracText ++ (n.expText ++ r)))).headD 0 = 45 := by
        simp [hct]; exact hf.2.2.2.1
      rw [if_neg this]; rfl
    · simp
  have hsign2 : (if (n.text ++ r).headD 0 = 45 ∨ (n.text ++ r).headD 0 = 43 then (n.text ++ r).tail else n.text ++ r) =
      n.int ++ (n.fracText ++ (n.expText ++ r)) := by
    rw [e0]
    unfold Num.sign
    cases n.neg
    · have : ¬ (((if false = true then [45] else []) ++ (n.int ++ (n.fracText ++ (n.expText ++ r)))).headD 0 = 45 ∨
        ((if false = true then [45] else []) ++ (n.int ++ (n.fracText ++ (n.expText ++ r)))).headD 0 = 43) := by
        simp [hct]; exact ⟨hf.2.2.2.1, hf.2.2.2.2.1⟩
      rw [if_neg this]; rfl
    · simp
  have hdrop : (n.int ++ (n.fracText ++ (n.expText ++ r))).dropWhile isDigit = n.fracText ++ (n.expText ++ r) := dropWhile_all_stop _ _ hi2 hb
  have htake : (n.int ++ (n.fracText ++ (n.expText ++ r))).takeWhile isDigit = n.int := takeWhile_all_stop _ _ hi2 hb
  have hafter : afterNumber (n.text ++ r) = r := by
    unfold afterNumber
    rw [hsign1, hdrop]
    have : afterFraction (n.fracText ++ (n.expText ++ r)) = n.expText ++ r := by
      unfold afterFraction
      cases hfrac : n.frac with
      | none =>
        have h46 : ¬ (n.expText ++ r).headD 0 = 46 := headD_of (P := fun c => ¬ c = 46) (by decide) (fun c h => (hbf c h).2)
        simp only [Num.fracText, hfrac, List.nil_append]
        rw [if_neg h46]
      | some ds =>
        rw [hfrac] at hfr
        simp only [Bool.and_eq_true, bne_iff_ne, ne_eq] at hfr
        simp only [Num.fracText, hfrac, List.cons_append, List.headD_cons, if_true, List.tail_cons]
        exact dropWhile_all_stop _ _ hfr.2 (fun c h => (hbf c h).1)
    rw [this, x1]
  have hx : ¬ ((n.fracText ++ (n.expText ++ r)).headD 0 = 120 ∨ (n.fracText ++ (n.expText ++ r)).headD 0 = 88) := by
    cases hfrac : n.frac with
    | some ds => simp [Num.fracText, hfrac]
    | none =>
      cases he : n.exp with
      | some y => obtain ⟨b, sg, ds⟩ := y; cases b <;> simp [Num.fracText, Num.expText, hfrac, he]
      | none =>
        simp only [Num.fracText, Num.expText, hfrac, he, List.nil_append]
        have := hr.headD.2.2
        rintro (e | e) <;> rw [e] at this <;> exact absurd this (by decide)
  have hstrtod : strtodRest (n.text ++ r) = r := by
    unfold strtodRest
    simp only []
    rw [hsign2, hdrop, htake, if_neg (fun h => hx h.2)]
    cases hfrac : n.frac with
    | none =>
      have h46 : ¬ (n.expText ++ r).headD 0 = 46 := headD_of (P := fun c => ¬ c = 46) (by decide) (fun c h => (hbf c h).2)
      simp only [Num.fracText, hfrac, List.nil_append]
      rw [if_neg h46, if_neg hi1, x2]
    | some ds =>
      rw [hfrac] at hfr
      simp only [Bool.and_eq_true, bne_iff_ne, ne_eq] at hfr
      simp only [Num.fracText, hfrac, List.cons_append, List.headD_cons, if_true, List.tail_cons]
      rw [if_neg (fun h => hi1 h.1), dropWhile_all_stop _ _ hfr.2 (fun c h => (hbf c h).1), x2]
  have hlen : n.text.length ≠ 0 := by simp [Num.text, hct]
  unfold expectNumber
  simp only [hskip, hafter, hstrtod]
  rw [if_neg (by rw [List.length_append]; omega), if_neg (by simp)]
  congr 1
  rw [List.length_append, Nat.add_sub_cancel, List.take_left']
  rfl

/-! ## Integers -/

theorem log2_lt {n : Nat} (h : n < 2 ^ 53) : n.log2 - 52 = 0 := by
  by_cases h0 : n = 0
  · subst h0; decide
  · have := (Nat.log2_lt h0).2 h
    omega

/-- Doubles have all numbers up to `2 ^ 53`. -/
theorem toF64_exact (n : Nat) (h : n ≤ 2 ^ 53) : toF64 n = n := by
  by_cases hn : n < 2 ^ 53
  · unfold toF64
    rw [log2_lt hn]
    simp
    omega
  · have : n = 2 ^ 53 := by omega
    subst this
    decide

/-- The number read is the number, up to `2 ^ 53`. -/
theorem strtod_integer (frac : List Nat → Int) (n : Num) (v : Int) (h : n.integer = some v) (hv : v.natAbs ≤ 2 ^ 53) : strtod frac n.text = v := by
  unfold Num.integer at h
  split at h
  · rename_i hc
    simp only [Bool.and_eq_true, Option.isNone_iff_eq_none] at hc
    obtain ⟨⟨hn, hf⟩, he⟩ := hc
    have hn' := hn
    simp only [Num.ok, Bool.and_eq_true, bne_iff_ne, ne_eq] at hn'
    obtain ⟨⟨⟨hi1, hi2⟩, -⟩, -⟩ := hn'
    obtain ⟨c, t, hct, hc⟩ := digits_cons n.int hi1 hi2
    have hcf := digit_facts c hc
    have ht : n.text = n.sign ++ n.int := by simp [Num.text, Num.fracText, Num.expText, hf, he]
    simp only [Option.some.injEq] at h
    unfold strtod
    rw [ht]
    unfold Num.sign
    cases hneg : n.neg
    · rw [hneg] at h
      simp only [Bool.false_eq_true, if_false, List.nil_append] at h ⊢
      have : ¬ n.int.headD 0 = 45 := by rw [hct]; exact hcf.2.2.2.1
      simp only [this, if_false, hi2, if_true]
      rw [toF64_exact _ (by omega), h]
    · rw [hneg] at h
      simp only [if_true, List.cons_append, List.nil_append, List.headD_cons, List.tail_cons, hi2] at h ⊢
      rw [toF64_exact _ (by omega), h]
  · exact absurd h (by simp)

end Verif.JsonVal
