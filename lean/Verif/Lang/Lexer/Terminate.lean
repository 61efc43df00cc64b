import Verif.Lang.Lexer.Progress
/-! # Termination of the lexer on sources that end with an unescaped newline -/
namespace Verif.Lexer

/-- The text ends with a newline that does not follow a backslash. -/
def Good (s : List Nat) : Prop := ∃ t, s = t ++ [10] ∧ t.getLast? ≠ some 92

theorem Good.ne {s : List Nat} (h : Good s) : s ≠ [] := by
  obtain ⟨t, rfl, _⟩ := h; simp

theorem good_cons {c : Nat} {r : List Nat} (h : Good (c :: r)) :
    (r = [] ∧ c = 10) ∨ (Good r ∧ ¬(c = 92 ∧ r = [10])) := by
  obtain ⟨t, ht, hl⟩ := h
  cases t with
  | nil => simp at ht; left; exact ⟨ht.2, ht.1⟩
  | cons d t =>
    simp at ht
    obtain ⟨rfl, rfl⟩ := ht
    right
    refine ⟨⟨t, rfl, ?_⟩, ?_⟩
    · cases t with
      | nil => simp
      | cons e t => simpa using hl
    · rintro ⟨rfl, h⟩
      cases t with
      | nil => simp at hl
      | cons e t => simp at h

theorem good_suffix {a b : List Nat} (h : Good (a ++ b)) : b = [] ∨ Good b := by
  induction a with
  | nil => right; exact h
  | cons c a ih =>
    rcases good_cons (c := c) (r := a ++ b) h with ⟨h, _⟩ | ⟨h, _⟩
    · left; simp at h; exact h.2
    · exact ih h

theorem good_suffix_noNewline {a b : List Nat} (h : Good (a ++ b)) (ha : ∀ x ∈ a, x ≠ 10) : Good b := by
  rcases good_suffix h with hb | hb
  · subst hb
    obtain ⟨t, ht, _⟩ := h
    simp at ht
    exact absurd rfl (ha 10 (by rw [ht]; simp))
  · exact hb

theorem good_skip {l : L} (h : Good l.rest) (hc : cur l ≠ 10) : Good (skipChar l).rest := by
  cases hr : l.rest with
  | nil => exact absurd hr h.ne
  | cons c r =>
    rw [skip_cons hr]
    rw [hr] at h
    simp [cur, hr] at hc
    rcases good_cons h with ⟨_, h⟩ | ⟨h, _⟩
    · exact absurd h hc
    · exact h

theorem good_skip_escape {l : L} (h : Good l.rest) (hc : cur l = 92) :
    Good (skipChar (skipChar l)).rest := by
  cases hr : l.rest with
  | nil => exact absurd hr h.ne
  | cons c r =>
    rw [hr] at h
    simp [cur, hr] at hc
    subst hc
    rcases good_cons h with ⟨_, h⟩ | ⟨h, h'⟩
    · omega
    · cases r with
      | nil => exact absurd rfl h.ne
      | cons d r =>
        rw [skip_cons hr, skip_cons (l := ⟨d :: r, _, _⟩) rfl]
        rcases good_cons h with ⟨h1, h2⟩ | ⟨h, _⟩
        · exact absurd ⟨rfl, by rw [h1, h2]⟩ h'
        · exact h

theorem length_skip {l : L} (h : l.rest ≠ []) : (skipChar l).rest.length < l.rest.length := by
  have := skip_length h; omega

/-! ### String and character literals -/

theorem stringLoop_fin (beg : Pos) (lit : Bool) : ∀ (f : Nat) (l : L), Good l.rest → l.rest.length ≤ f →
    ∃ r, stringLoop beg lit f l = .ok r := by
  intro f
  induction f with
  | zero => intro l h hf; exact absurd (by simpa using hf) h.ne
  | succ f ih =>
    intro l h hf
    unfold stringLoop
    have hl := length_skip h.ne
    by_cases h1 : cur l = 34
    · rw [if_pos h1]; exact ⟨_, rfl⟩
    rw [if_neg h1]
    by_cases h2 : accepts l 10 = true
    · rw [if_pos h2]
      simp only []
      by_cases h3 : accepts (skipChar l) 92 = true
      · rw [if_pos h3]
        have hg : Good (skipChar l).rest := by
          have hn := accepts_ne h3
          cases hr : l.rest with
          | nil => exact absurd hr h.ne
          | cons c r =>
            rw [skip_cons hr] at hn ⊢
            rw [hr] at h
            rcases good_cons h with ⟨h, _⟩ | ⟨h, _⟩
            · exact absurd h hn
            · exact h
        exact ih _ (good_skip hg (by rw [accepts_cur h3]; decide)) (by have := length_skip hg.ne; omega)
      · rw [if_neg h3]; exact ⟨_, rfl⟩
    rw [if_neg h2]
    have hc : cur l ≠ 10 := by
      intro hc; apply h2; simp [accepts, hc, isEof, h.ne]
    by_cases h3 : cur l = 92
    · rw [if_pos h3]
      exact ih _ (good_skip_escape h h3) (by have := length_skip (good_skip h hc).ne; omega)
    rw [if_neg h3]
    by_cases h4 : (!lit && l.fl.cont && cur l == 36 && peekNext l == 123) = true
    · rw [if_pos h4]; exact ⟨_, rfl⟩
    · rw [if_neg h4]; exact ih _ (good_skip h hc) (by omega)

theorem lexString_fin (beg : Pos) (lit : Bool) {f : Nat} {l : L} (h : Good l.rest) (hf : l.rest.length ≤ f) :
    ∃ r, lexString f beg lit l = .ok r := by
  obtain ⟨r, hr⟩ := stringLoop_fin beg lit f l h hf
  unfold lexString
  rw [hr]
  cases r with
  | fmt l t => exact ⟨_, rfl⟩
  | closed l =>
    simp only [Res.bind_ok]
    generalize (if lit then l else { l with fl := { l.fl with cont := false, exit := true } }) = l2
    by_cases h : accepts l2 34 = true
    · rw [if_pos h]; exact ⟨_, rfl⟩
    · rw [if_neg h]; exact ⟨_, rfl⟩

theorem charLoop_fin : ∀ (f k : Nat) (l : L), Good l.rest → l.rest.length ≤ f →
    ∃ k' l', charLoop f k l = .ok (k', l') ∧ Good l'.rest ∧ Adv All l l' := by
  intro f
  induction f with
  | zero => intro k l h hf; exact absurd (by simpa using hf) h.ne
  | succ f ih =>
    intro k l h hf
    unfold charLoop
    have hl := length_skip h.ne
    by_cases h1 : cur l = 39 ∨ cur l = 10
    · rw [if_pos h1]; exact ⟨_, _, rfl, h, Adv.refl _⟩
    rw [if_neg h1]
    have hg := good_skip h (fun hc => h1 (Or.inr hc))
    by_cases h3 : cur l = 92
    · rw [if_pos h3]
      obtain ⟨k', l', h', hg', ha'⟩ := ih (k + 2) _ (good_skip_escape h h3) (by have := length_skip hg.ne; omega)
      exact ⟨k', l', h', hg', ((skip_adv h.ne trivial).trans (skip_adv hg.ne trivial)).trans ha'⟩
    · rw [if_neg h3]
      obtain ⟨k', l', h', hg', ha'⟩ := ih (k + 1) _ hg (by omega)
      exact ⟨k', l', h', hg', (skip_adv h.ne trivial).trans ha'⟩

/-- Ends, and is defined when `asc` holds. -/
def Fin {β : Type} (asc : Prop) : Res β → Prop
  | .ok _ => True
  | .ub => ¬ asc
  | .diverge => False

theorem Fin.ok {β : Type} {asc : Prop} {r : Res β} (h : ∃ b, r = .ok b) : Fin asc r := by
  obtain ⟨b, rfl⟩ := h; trivial

theorem Fin.bind {β γ : Type} {asc : Prop} {r : Res β} {f : β → Res γ} (h : Fin asc r)
    (hf : ∀ b, r = .ok b → Fin asc (f b)) : Fin asc (r.bind f) := by
  cases r with
  | ok b => exact hf b rfl
  | ub => exact h
  | diverge => exact h

theorem Fin.ite {β : Type} {asc c : Prop} [Decidable c] {a b : Res β} (ha : Fin asc a) (hb : Fin asc b) :
    Fin asc (if c then a else b) := by
  split
  · exact ha
  · exact hb

theorem strToUtf32_fin {asc : Prop} (s : List Nat) (n : Nat) (h : Text.byteAt s 0 ≥ 0x80)
    (hu : Text.byteAt s 0 ≥ 0x80 → ¬ asc) : Fin asc (Text.strToUtf32 s n) := by
  have := hu h
  unfold Text.strToUtf32
  simp only []
  repeat' split
  all_goals first | trivial | exact this

theorem escape_fin {asc : Prop} (s : List Nat) (n : Nat) (h : asc → ∀ b ∈ s, b < 128) :
    Fin asc (Text.convertEscapeSeq s n) := by
  have hu : Text.byteAt s 0 ≥ 0x80 → ¬ asc := by
    intro hb ha
    cases s with
    | nil => simp [Text.byteAt] at hb
    | cons c s =>
      have := h ha c (by simp)
      simp [Text.byteAt] at hb
      omega
  unfold Text.convertEscapeSeq
  by_cases h0 : n = 0
  · rw [if_pos h0]; trivial
  rw [if_neg h0]
  by_cases h1 : Text.byteAt s 0 = 92
  · rw [if_pos h1]
    refine Fin.ite (by trivial) ?_
    extract_lets c
    repeat' apply Fin.ite
    all_goals first
      | trivial
      | (apply Fin.ok; exact ⟨_, rfl⟩)
  rw [if_neg h1]
  by_cases h2 : Text.byteAt s 0 ≥ 0x80
  · rw [if_pos h2]; exact strToUtf32_fin s n h2 hu
  · rw [if_neg h2]; trivial

theorem lexChar_fin {asc : Prop} (beg : Pos) {f : Nat} {l : L} (h : Good l.rest) (hf : l.rest.length ≤ f)
    (ha : asc → ∀ b ∈ l.rest, b < 128) : Fin asc (lexChar f beg l) := by
  obtain ⟨k, l1, hr, hg, _⟩ := charLoop_fin f 0 l h hf
  unfold lexChar
  rw [hr]
  simp only [Res.bind_ok]
  by_cases h1 : accepts l1 39 = true
  · rw [if_pos h1]
    have hg2 := good_skip hg (by rw [accepts_cur h1]; decide)
    rw [if_neg (by simp [isEof, hg2.ne])]
    apply Fin.bind (escape_fin _ _ ha)
    rintro ⟨n, c⟩ _
    simp only []
    split <;> trivial
  · rw [if_neg h1]; trivial

/-! ### The flag that enters a string expression -/

/-- When the flag is set the current byte is the opening quote. -/
def EnterInv (l : L) : Prop := l.fl.enter = true → cur l = 34

theorem enterInv_of_false {l : L} (h : l.fl.enter = false) : EnterInv l := by
  intro h'; rw [h] at h'; cases h'

theorem stringLoop_enter {beg : Pos} {lit : Bool} : ∀ (f : Nat) (l : L) (r : StrEnd), stringLoop beg lit f l = .ok r →
    (match r with | .closed l' => l'.fl.enter | .fmt l' _ => l'.fl.enter) = l.fl.enter := by
  intro f
  induction f with
  | zero => intro l r h; simp [stringLoop] at h
  | succ f ih =>
    intro l r h
    unfold stringLoop at h
    simp only [] at h
    split at h
    · cases h; rfl
    split at h
    · split at h
      · rw [ih _ _ h]; rfl
      · cases h; rfl
    split at h
    · rw [ih _ _ h]; rfl
    split at h
    · cases h; rfl
    · rw [ih _ _ h]; rfl

theorem lexString_enter {beg : Pos} {lit : Bool} {f : Nat} {l l' : L} {t : Token}
    (h : lexString f beg lit l = .ok (l', t)) : l'.fl.enter = l.fl.enter := by
  unfold lexString at h
  cases hs : stringLoop beg lit f l with
  | ub => rw [hs] at h; cases h
  | diverge => rw [hs] at h; cases h
  | ok r =>
    have he := stringLoop_enter _ _ _ hs
    rw [hs] at h
    cases r with
    | fmt l1 t1 => cases h; exact he
    | closed l1 =>
      simp only [Res.bind_ok] at h he
      have he' : (if lit then l1 else { l1 with fl := { l1.fl with cont := false, exit := true } }).fl.enter
          = l.fl.enter := by cases lit <;> exact he
      generalize (if lit then l1 else { l1 with fl := { l1.fl with cont := false, exit := true } }) = l2 at h he'
      by_cases h1 : accepts l2 34 = true
      · rw [if_pos h1] at h; cases h; exact he'
      · rw [if_neg h1] at h; cases h; exact he'

theorem charLoop_fl : ∀ (f k : Nat) (l : L) (r : Nat × L), charLoop f k l = .ok r → r.2.fl = l.fl := by
  intro f
  induction f with
  | zero => intro k l r h; simp [charLoop] at h
  | succ f ih =>
    intro k l r h
    unfold charLoop at h
    split at h
    · cases h; rfl
    split at h
    · rw [ih _ _ _ h]; rfl
    · rw [ih _ _ _ h]; rfl

theorem lexChar_fl {beg : Pos} {f : Nat} {l l' : L} {t : Token} (h : lexChar f beg l = .ok (l', t)) :
    l'.fl = l.fl := by
  unfold lexChar at h
  cases hs : charLoop f 0 l with
  | ub => rw [hs] at h; cases h
  | diverge => rw [hs] at h; cases h
  | ok r =>
    have he := charLoop_fl _ _ _ _ hs
    rw [hs] at h
    simp only [Res.bind_ok] at h
    split at h
    · split at h
      · cases h
      · cases hc : Text.convertEscapeSeq l.rest (l.rest.length - (skipChar r.2).rest.length - 1) with
        | ub => rw [hc] at h; cases h
        | diverge => rw [hc] at h; cases h
        | ok q =>
          rw [hc] at h
          simp only [Res.bind_ok] at h
          split at h
          · cases h; exact he
          · cases h; exact he
    · cases h; exact he

theorem multilineLoop_fl (beg : Pos) : ∀ (f : Nat) (l : L), (multilineLoop beg f l).1.fl = l.fl := by
  intro f
  induction f with
  | zero => intro l; rfl
  | succ f ih =>
    intro l
    unfold multilineLoop
    simp only []
    split
    · rfl
    split
    · split
      · rfl
      · rw [ih]; rfl
    · rw [ih]; rfl

/-! ### Words consume no newline -/

abbrev NoNL : Nat → Prop := fun b => b ≠ 10

/-- No string state is pending. -/
def Clean (l : L) : Prop := l.fl.enter = false ∧ l.fl.exit = false ∧ l.fl.retFmt = false

/-- `adv` behaves on words: it reads no newline, makes progress, and leaves no string state unless it is at
a quote. -/
def WordFn (adv : L → Res (L × Token)) : Prop :=
  ∀ l l' t, Clean l → isSpaceOrPunct (cur l) = false → adv l = .ok (l', t) →
    Adv NoNL l l' ∧ (l.rest ≠ [] → l'.rest.length < l.rest.length) ∧ (Clean l' ∨ l'.fl.enter = true ∧ cur l' = 34)

theorem skipUntil_word {adv : L → Res (L × Token)} (ha : WordFn adv) :
    ∀ (f : Nat) (l l' : L), (Clean l ∨ l.fl.enter = true ∧ cur l = 34) → skipUntil adv f l = .ok l' →
      Adv NoNL l l' ∧ (Clean l' ∨ l'.fl.enter = true ∧ cur l' = 34) := by
  intro f
  induction f with
  | zero => intro l l' _ h; simp [skipUntil] at h
  | succ f ih =>
    intro l l' hc h
    unfold skipUntil at h
    by_cases hs : isSpaceOrPunct (cur l) = true
    · rw [if_pos hs] at h; cases h; exact ⟨Adv.refl _, hc⟩
    rw [if_neg hs] at h
    have hcl : Clean l := by
      rcases hc with hc | hc
      · exact hc
      · rw [hc.2] at hs; exact absurd (by decide) hs
    cases hr : adv l with
    | ub => rw [hr] at h; cases h
    | diverge => rw [hr] at h; cases h
    | ok r =>
      rw [hr] at h
      obtain ⟨h1, _, h3⟩ := ha l r.1 r.2 hcl (by simpa using hs) hr
      obtain ⟨h4, h5⟩ := ih _ _ h3 h
      exact ⟨h1.trans h4, h5⟩

theorem noNL_dig : ∀ c, isDig c = true → NoNL c := by
  intro c h; simp [isDig] at h; simp only [NoNL]; omega

theorem noNL_xdig : ∀ c, isXDigit c = true → NoNL c := by
  intro c h; simp [isXDigit, isDig] at h; simp only [NoNL]; omega

theorem noNL_id : ∀ c, isIdChar c = true → NoNL c := by
  intro c h; simp [isIdChar, isDig, isAlpha] at h; simp only [NoNL]; omega

theorem lexPrefixed_word {adv : L → Res (L × Token)} (ha : WordFn adv) {f : Nat} {beg : Pos} {base : Nat}
    {p : Nat → Bool} (hp : ∀ c, p c = true → NoNL c) {l l' : L} {t : Token} (hc : Clean l)
    (h : lexPrefixed adv f beg base p l = .ok (l', t)) :
    Adv NoNL l l' ∧ (Clean l' ∨ l'.fl.enter = true ∧ cur l' = 34) := by
  unfold lexPrefixed at h
  have h1 : Adv NoNL l (skipWhile p l) := (skipWhile_adv _ _).mono hp
  have hc1 : Clean (skipWhile p l) := by simpa [Clean] using hc
  by_cases hs : (!isSpaceOrPunct (cur (skipWhile p l))) = true
  · simp only [hs, if_true] at h
    cases hr : skipUntil adv f (skipWhile p l) with
    | ub => rw [hr] at h; cases h
    | diverge => rw [hr] at h; cases h
    | ok r =>
      rw [hr] at h
      cases h
      obtain ⟨h2, h3⟩ := skipUntil_word ha _ _ _ (Or.inl hc1) hr
      exact ⟨h1.trans h2, h3⟩
  · simp only [hs] at h
    cases h
    exact ⟨h1, Or.inl hc1⟩

theorem lexNumber_word {adv : L → Res (L × Token)} (ha : WordFn adv) {f : Nat} {beg : Pos} {l l' : L} {t : Token}
    (hn : l.rest ≠ []) (hd : isDig (cur l) = true) (hc : Clean l) (h : lexNumber adv f beg l = .ok (l', t)) :
    Adv NoNL l l' ∧ l'.rest.length < l.rest.length ∧ (Clean l' ∨ l'.fl.enter = true ∧ cur l' = 34) := by
  have hs : Adv NoNL l (skipChar l) := skip_adv hn (noNL_dig _ hd)
  have hl := length_skip hn
  unfold lexNumber at h
  simp only [] at h
  have key : ∀ {base : Nat} {p : Nat → Bool} {c : Nat}, (∀ c, p c = true → NoNL c) → NoNL c →
      accepts (skipChar l) c = true →
      lexPrefixed adv f beg base p (skipChar (skipChar l)) = .ok (l', t) → 
      Adv NoNL l l' ∧ l'.rest.length < l.rest.length ∧ (Clean l' ∨ l'.fl.enter = true ∧ cur l' = 34) := by
    intro base p c hp hcn hac h
    obtain ⟨h1, h2⟩ := lexPrefixed_word ha hp (by simpa [Clean] using hc) h
    have h3 := hs.trans (skip_adv (accepts_ne hac) (by rw [accepts_cur hac]; exact hcn))
    refine ⟨h3.trans h1, ?_, h2⟩
    have := h1.le
    have := length_skip (accepts_ne hac)
    omega
  by_cases h1 : cur l = 48 ∧ accepts (skipChar l) 98 = true
  · rw [if_pos h1] at h
    exact key (by intro c h; simp at h; simp only [NoNL]; omega) (by decide) h1.2 h
  rw [if_neg h1] at h
  by_cases h1 : cur l = 48 ∧ accepts (skipChar l) 120 = true
  · rw [if_pos h1] at h
    exact key noNL_xdig (by decide) h1.2 h
  rw [if_neg h1] at h
  by_cases h1 : cur l = 48 ∧ accepts (skipChar l) 111 = true
  · rw [if_pos h1] at h
    exact key (by intro c h; simp at h; simp only [NoNL]; omega) (by decide) h1.2 h
  rw [if_neg h1] at h
  obtain ⟨h1, h2, _⟩ := lexDecimal_adv (P := NoNL) noNL_dig (by decide) (by decide) (by decide) (by decide) beg l.rest (skipChar l)
  injection h with h
  rw [h] at h1 h2
  simp only [] at h1 h2
  refine ⟨hs.trans h1, ?_, Or.inl ?_⟩
  · have := h1.le; omega
  · unfold Clean; rw [h2]; exact hc

theorem accepts_word {l : L} {c : Nat} (h : isSpaceOrPunct (cur l) = false) (hc : isSpaceOrPunct c = true) :
    accepts l c = false := by
  cases hac : accepts l c with
  | false => rfl
  | true => rw [accepts_cur hac] at h; rw [h] at hc; cases hc

/-- A step at a word. -/
theorem lexWord_word {adv : L → Res (L × Token)} (ha : WordFn adv) {f : Nat} {beg : Pos} {l : L} {s : Step}
    (hn : l.rest ≠ []) (hs : isSpaceOrPunct (cur l) = false) (hc : Clean l) (h : lexWord adv f beg l = .ok s) :
    ∃ l' t, s = .tok l' t ∧
      Adv NoNL l l' ∧ l'.rest.length < l.rest.length ∧ (Clean l' ∨ l'.fl.enter = true ∧ cur l' = 34) := by
  have hne : cur l ≠ 10 := by intro h; rw [h] at hs; revert hs; decide
  have h1 : Adv NoNL l (skipChar l) := skip_adv hn hne
  have hl := length_skip hn
  unfold lexWord at h
  simp only [] at h
  split at h
  · rename_i hq
    split at h
    · cases h; exact ⟨_, _, rfl, h1, hl, Or.inl hc⟩
    · cases h
      refine ⟨_, _, rfl, h1, hl, Or.inr ⟨rfl, ?_⟩⟩
      have := hq.2
      cases hr : l.rest with
      | nil => exact absurd hr hn
      | cons c r =>
        simp [peekNext, hr] at this
        simp [cur, skip_cons hr]
        cases r <;> simp_all
  split at h
  · cases h
    refine ⟨_, _, rfl, h1.trans ((skipWhile_adv _ _).mono noNL_id), ?_, Or.inl ?_⟩
    · have := (skipWhile_adv isIdChar (skipChar l)).le
      simp only [lexIdent]
      omega
    · simpa [Clean, lexIdent] using hc
  split at h
  · rename_i hd
    cases hr : lexNumber adv f beg l with
    | ub => rw [hr] at h; cases h
    | diverge => rw [hr] at h; cases h
    | ok r =>
      rw [hr] at h
      cases h
      exact ⟨_, _, rfl, lexNumber_word ha hn hd hc hr⟩
  · cases h; exact ⟨_, _, rfl, h1, hl, Or.inl hc⟩

theorem runAlts_none {l : L} : ∀ (alts : List (Nat × Chain)), (∀ p ∈ alts, accepts l p.1 = false) →
    Chain.runAlts alts l = none
  | [], _ => by simp [Chain.runAlts]
  | (c, ch) :: alts, h => by
    have h1 : accepts l c = false := h (c, ch) (by simp)
    rw [Chain.runAlts, h1, if_neg (by decide)]
    exact runAlts_none alts fun p hp => h p (by simp [hp])

theorem lexOne_atWord {adv : L → Res (L × Token)} {f : Nat} {l : L} (hn : l.rest ≠ [])
    (hs : isSpaceOrPunct (cur l) = false) (hc : l.fl.enter = false) :
    lexOne adv f l = lexWord adv f l.pos l := by
  have hsp : skipSpaces l = l := by
    apply skipWhile_self
    right
    simp [isSpaceOrPunct] at hs
    cases h95 : isSpace (cur l) with
    | false => rfl
    | true =>
      have : cur l ≠ 95 := by intro h; rw [h] at h95; revert h95; decide
      have := (hs this).1
      rw [h95] at this; cases this
  have hp : Chain.runAlts punctuation l = none := by
    apply runAlts_none
    intro p hp
    exact accepts_word hs ((show ∀ p ∈ punctuation, isSpaceOrPunct p.1 = true by decide) p hp)
  unfold lexOne
  rw [hc, hsp]
  simp only [hp, Bool.false_eq_true, if_false]
  rw [if_neg (by simp [isEof, hn]), if_neg (by simp [accepts_word hs (c := 46) (by decide)]),
    if_neg (by simp [accepts_word hs (c := 125) (by decide)]), if_neg (by simp [accepts_word hs (c := 47) (by decide)]),
    if_neg (by simp [accepts_word hs (c := 34) (by decide)]), if_neg (by simp [accepts_word hs (c := 39) (by decide)])]

theorem clearMaybe_clean {l : L} (h : Clean l) : Clean (clearMaybe l) := by
  unfold clearMaybe; split
  · exact h
  · exact h

theorem advance_word : ∀ f, WordFn (advance f) := by
  intro f
  induction f with
  | zero => intro l l' t _ _ h; simp [advance] at h
  | succ f ih =>
    intro l l' t hc hs h
    unfold advance at h
    rw [if_neg (by simp [hc.2.1]), if_neg (by simp [hc.2.2])] at h
    have hcm := clearMaybe_clean hc
    obtain ⟨fl, hfl⟩ := clearMaybe_eq l
    have hs' : isSpaceOrPunct (cur (clearMaybe l)) = false := by rw [hfl]; exact hs
    have hrest : (clearMaybe l).rest = l.rest := by rw [hfl]
    have hadv : ∀ {x}, Adv NoNL (clearMaybe l) x → Adv NoNL l x := by
      intro x hx; rw [hfl] at hx; exact hx
    generalize clearMaybe l = m at *
    cases f with
    | zero => simp [lexLoop] at h
    | succ f =>
      unfold lexLoop at h
      by_cases hn : m.rest = []
      · have : lexOne (advance (f + 1)) (f + 1) m = .ok (.tok m (mk m m.pos .eof)) := by
          unfold lexOne
          have hsp : skipSpaces m = m := skipWhile_self _ _ (Or.inl hn)
          rw [hcm.1, hsp]
          simp [isEof, hn, done]
        rw [this] at h
        cases h
        exact ⟨hadv (Adv.refl _), fun hne => absurd (hrest ▸ hn) hne, Or.inl hcm⟩
      · rw [lexOne_atWord hn hs' hcm.1] at h
        cases hr : lexWord (advance (f + 1)) (f + 1) m.pos m with
        | ub => rw [hr] at h; cases h
        | diverge => rw [hr] at h; cases h
        | ok s =>
          obtain ⟨l1, t1, rfl, h1, h2, h3⟩ := lexWord_word ih hn hs' hcm hr
          rw [hr] at h
          cases h
          exact ⟨hadv h1, fun _ => hrest ▸ h2, h3⟩

/-! ### Termination -/

theorem good_of_noNL {l l' : L} (h : Good l.rest) (ha : Adv NoNL l l') : Good l'.rest := by
  obtain ⟨bs, hb, hr, _⟩ := ha
  rw [hr] at h
  exact good_suffix_noNewline h hb

theorem good_or_nil {l l' : L} (h : l.rest = [] ∨ Good l.rest) (ha : Adv All l l') : l'.rest = [] ∨ Good l'.rest := by
  obtain ⟨bs, _, hr, _⟩ := ha
  rcases h with h | h
  · rw [hr] at h; simp at h; exact Or.inl h.2
  · rw [hr] at h; exact good_suffix h

theorem asc_adv {asc : Prop} {l l' : L} (h : asc → ∀ b ∈ l.rest, b < 128) {P : Nat → Prop} (ha : Adv P l l') :
    asc → ∀ b ∈ l'.rest, b < 128 := by
  obtain ⟨bs, _, hr, _⟩ := ha
  intro hasc b hb
  exact h hasc b (by rw [hr]; simp [hb])

/-- `adv` ends on texts shorter than `n`. -/
def EndsBelow (asc : Prop) (n : Nat) (adv : L → Res (L × Token)) : Prop :=
  ∀ l, (l.rest = [] ∨ Good l.rest) → EnterInv l → (asc → ∀ b ∈ l.rest, b < 128) → l.rest.length < n → Fin asc (adv l)

theorem skipUntil_fin {asc : Prop} {n : Nat} {adv : L → Res (L × Token)} (hw : WordFn adv) (he : EndsBelow asc n adv) :
    ∀ (f : Nat) (l : L), Good l.rest → (Clean l ∨ l.fl.enter = true ∧ cur l = 34) → (asc → ∀ b ∈ l.rest, b < 128) →
      l.rest.length < n → l.rest.length ≤ f → Fin asc (skipUntil adv f l) := by
  intro f
  induction f with
  | zero => intro l h _ _ _ hf; exact absurd (by simpa using hf) h.ne
  | succ f ih =>
    intro l hg hc ha hn hf
    unfold skipUntil
    by_cases hs : isSpaceOrPunct (cur l) = true
    · rw [if_pos hs]; trivial
    rw [if_neg hs]
    have hcl : Clean l := by
      rcases hc with hc | hc
      · exact hc
      · rw [hc.2] at hs; exact absurd (by decide) hs
    apply Fin.bind (he l (Or.inr hg) (enterInv_of_false hcl.1) ha hn)
    rintro ⟨l', t⟩ hr
    obtain ⟨h1, h2, h3⟩ := hw l l' t hcl (by simpa using hs) hr
    have := h2 hg.ne
    exact ih _ (good_of_noNL hg h1) h3 (asc_adv ha h1) (by omega) (by omega)

theorem lexPrefixed_fin {asc : Prop} {n : Nat} {adv : L → Res (L × Token)} (hw : WordFn adv) (he : EndsBelow asc n adv)
    {f : Nat} {beg : Pos} {base : Nat} {p : Nat → Bool} (hp : ∀ c, p c = true → NoNL c) {l : L} (hg : Good l.rest)
    (hc : Clean l) (ha : asc → ∀ b ∈ l.rest, b < 128) (hn : l.rest.length < n) (hf : l.rest.length ≤ f) :
    Fin asc (lexPrefixed adv f beg base p l) := by
  unfold lexPrefixed
  have h1 : Adv NoNL l (skipWhile p l) := (skipWhile_adv _ _).mono hp
  have hc1 : Clean (skipWhile p l) := by simpa [Clean] using hc
  have := h1.le
  by_cases hs : (!isSpaceOrPunct (cur (skipWhile p l))) = true
  · simp only [hs, if_true]
    apply Fin.bind (skipUntil_fin hw he f _ (good_of_noNL hg h1) (Or.inl hc1) (asc_adv ha h1) (by omega) (by omega))
    intro b _; trivial
  · simp only [hs]; trivial

theorem lexNumber_fin {asc : Prop} {n : Nat} {adv : L → Res (L × Token)} (hw : WordFn adv) (he : EndsBelow asc n adv)
    {f : Nat} {beg : Pos} {l : L} (hg : Good l.rest) (hd : isDig (cur l) = true)
    (hc : Clean l) (ha : asc → ∀ b ∈ l.rest, b < 128) (hn : l.rest.length ≤ n + 1) (hf : l.rest.length ≤ f) :
    Fin asc (lexNumber adv f beg l) := by
  have hg1 := good_skip hg (noNL_dig _ hd)
  have hl := length_skip hg.ne
  have ha1 : asc → ∀ b ∈ (skipChar l).rest, b < 128 := asc_adv ha (skip_adv (P := All) hg.ne trivial)
  unfold lexNumber
  simp only []
  have key : ∀ {base : Nat} {p : Nat → Bool} {c : Nat}, (∀ c, p c = true → NoNL c) → NoNL c →
      accepts (skipChar l) c = true → Fin asc (lexPrefixed adv f beg base p (skipChar (skipChar l))) := by
    intro base p c hp hcn hac
    have hl2 := length_skip hg1.ne
    exact lexPrefixed_fin hw he hp (good_skip hg1 (by rw [accepts_cur hac]; exact hcn)) hc
      (asc_adv ha1 (skip_adv (P := All) hg1.ne trivial)) (by omega) (by omega)
  split
  · rename_i h1
    exact key (by intro c h; simp at h; simp only [NoNL]; omega) (by decide) h1.2
  split
  · rename_i h1
    exact key noNL_xdig (by decide) h1.2
  split
  · rename_i h1
    exact key (by intro c h; simp at h; simp only [NoNL]; omega) (by decide) h1.2
  · trivial

theorem lexWord_fin {asc : Prop} {n : Nat} {adv : L → Res (L × Token)} (hw : WordFn adv) (he : EndsBelow asc n adv)
    {f : Nat} {beg : Pos} {l : L} (hg : Good l.rest)
    (hc : Clean l) (ha : asc → ∀ b ∈ l.rest, b < 128) (hn : l.rest.length ≤ n + 1) (hf : l.rest.length ≤ f) :
    Fin asc (lexWord adv f beg l) := by
  unfold lexWord
  simp only []
  split
  · split <;> trivial
  split
  · trivial
  split
  · rename_i hd
    exact Fin.bind (lexNumber_fin hw he hg hd hc ha hn hf) fun _ _ => trivial
  · trivial

theorem lexOne_fin {asc : Prop} {n : Nat} {adv : L → Res (L × Token)} (hw : WordFn adv) (he : EndsBelow asc n adv)
    {f : Nat} {l0 : L} (hg : l0.rest = [] ∨ Good l0.rest) (hi : EnterInv l0)
    (hx : l0.fl.exit = false ∧ l0.fl.retFmt = false)
    (ha : asc → ∀ b ∈ l0.rest, b < 128) (hn : l0.rest.length ≤ n + 1) (hf : l0.rest.length ≤ f) :
    Fin asc (lexOne adv f l0) := by
  unfold lexOne
  by_cases hen : l0.fl.enter = true
  · rw [if_pos hen]
    have hc := hi hen
    have hne := cur_ne hc (by decide)
    have hg0 : Good l0.rest := hg.resolve_left hne
    have hg1 : Good (skipChar { l0 with fl := { l0.fl with enter := false, cont := true } }).rest :=
      good_skip (l := { l0 with fl := { l0.fl with enter := false, cont := true } }) hg0
        (by show cur l0 ≠ 10; rw [hc]; decide)
    have hl : (skipChar { l0 with fl := { l0.fl with enter := false, cont := true } }).rest.length < l0.rest.length :=
      length_skip (l := { l0 with fl := { l0.fl with enter := false, cont := true } }) hne
    obtain ⟨r, hr⟩ := lexString_fin l0.pos false (f := f) hg1 (by omega)
    simp only [hr]
    trivial
  rw [if_neg hen]
  have h0 : Adv All l0 (skipSpaces l0) := (skipWhile_adv _ _).all
  have hg1 := good_or_nil hg h0
  have hfl : (skipSpaces l0).fl = l0.fl := skipWhile_fl _ _
  have ha1 := asc_adv ha h0
  have hle := h0.le
  have hsp := skipWhile_stop isSpace l0
  rw [show skipWhile isSpace l0 = skipSpaces l0 from rfl] at hsp
  generalize skipSpaces l0 = lb at *
  simp only []
  by_cases heof : isEof lb = true
  · rw [if_pos heof]; trivial
  rw [if_neg heof]
  have hne : lb.rest ≠ [] := fun hr => heof (isEof_iff.mpr hr)
  have hgb : Good lb.rest := hg1.resolve_left hne
  have hnl : cur lb ≠ 10 := by
    rcases hsp with h | h
    · exact absurd h hne
    · intro hc; rw [hc] at h; revert h; decide
  have hgs := good_skip hgb hnl
  have hls := length_skip hne
  have has : asc → ∀ b ∈ (skipChar lb).rest, b < 128 := asc_adv ha1 (skip_adv (P := All) hne trivial)
  cases hp : Chain.runAlts punctuation lb with
  | some r => trivial
  | none =>
    simp only []
    split
    · trivial
    split
    · split
      · obtain ⟨r, hr⟩ := lexString_fin lb.pos false (f := f) hgs (by omega)
        rw [hr]; trivial
      · trivial
    split
    · trivial
    split
    · refine Fin.bind ?_ fun _ _ => trivial
      unfold lexQuote
      split
      · trivial
      · exact Fin.ok (lexString_fin lb.pos true (f := f) hgs (by omega))
    split
    · exact Fin.bind (lexChar_fin _ hgs (by omega) has) fun _ _ => trivial
    · exact lexWord_fin hw he hgb (by unfold Clean; rw [hfl]; exact ⟨by simpa using hen, hx⟩) ha1 (by omega) (by omega)

/-- The flag invariant after a step. -/
def StepEnter : Step → Prop
  | .tok l' _ => EnterInv l'
  | .again l' => EnterInv l'

theorem bind_done_enter {r : Res (L × Token)} {s : Step} (h : ∀ l' t, r = .ok (l', t) → EnterInv l')
    (hs : r.bind done = .ok s) : StepEnter s := by
  cases r with
  | ub => cases hs
  | diverge => cases hs
  | ok r => cases hs; exact h r.1 r.2 rfl

theorem skipUntil_enter {adv : L → Res (L × Token)} (ha : ∀ l l' t, EnterInv l → adv l = .ok (l', t) → EnterInv l') :
    ∀ (f : Nat) (l l' : L), EnterInv l → skipUntil adv f l = .ok l' → EnterInv l' := by
  intro f
  induction f with
  | zero => intro l l' _ h; simp [skipUntil] at h
  | succ f ih =>
    intro l l' hi h
    unfold skipUntil at h
    split at h
    · cases h; exact hi
    · cases hr : adv l with
      | ub => rw [hr] at h; cases h
      | diverge => rw [hr] at h; cases h
      | ok r => rw [hr] at h; exact ih _ _ (ha _ _ _ hi hr) h

theorem lexWord_enter {adv : L → Res (L × Token)} (ha : ∀ l l' t, EnterInv l → adv l = .ok (l', t) → EnterInv l')
    {f : Nat} {beg : Pos} {l : L} {s : Step} (hn : l.rest ≠ []) (he : l.fl.enter = false)
    (h : lexWord adv f beg l = .ok s) : StepEnter s := by
  unfold lexWord at h
  simp only [] at h
  split at h
  · rename_i hq
    split at h
    · cases h; exact enterInv_of_false he
    · cases h
      intro _
      have := hq.2
      cases hr : l.rest with
      | nil => exact absurd hr hn
      | cons c r =>
        simp [peekNext, hr] at this
        simp [cur, skip_cons hr]
        cases r <;> simp_all
  split at h
  · cases h
    exact enterInv_of_false (by simpa [lexIdent] using he)
  split at h
  · apply bind_done_enter _ h
    intro l' t h
    unfold lexNumber at h
    simp only [] at h
    have key : ∀ {base : Nat} {p : Nat → Bool}, lexPrefixed adv f beg base p (skipChar (skipChar l)) = .ok (l', t) →
        EnterInv l' := by
      intro base p h
      unfold lexPrefixed at h
      have h0 : EnterInv (skipWhile p (skipChar (skipChar l))) := enterInv_of_false (by simpa using he)
      by_cases hs : (!isSpaceOrPunct (cur (skipWhile p (skipChar (skipChar l))))) = true
      · simp only [hs, if_true] at h
        cases hr : skipUntil adv f (skipWhile p (skipChar (skipChar l))) with
        | ub => rw [hr] at h; cases h
        | diverge => rw [hr] at h; cases h
        | ok r => rw [hr] at h; cases h; exact skipUntil_enter ha _ _ _ h0 hr
      · simp only [hs] at h; cases h; exact h0
    split at h
    · exact key h
    split at h
    · exact key h
    split at h
    · exact key h
    · obtain ⟨_, h2, _⟩ := lexDecimal_adv (P := All) (fun _ _ => trivial) trivial trivial trivial trivial beg l.rest (skipChar l)
      injection h with h
      rw [h] at h2
      simp only [] at h2
      exact enterInv_of_false (by rw [h2]; simpa using he)
  · cases h; exact enterInv_of_false he

theorem lexOne_enter {adv : L → Res (L × Token)} (ha : ∀ l l' t, EnterInv l → adv l = .ok (l', t) → EnterInv l')
    {f : Nat} {l0 : L} {s : Step} (h : lexOne adv f l0 = .ok s) : StepEnter s := by
  unfold lexOne at h
  by_cases hen : l0.fl.enter = true
  · rw [if_pos hen] at h
    exact bind_done_enter (fun l' t h => enterInv_of_false (by rw [lexString_enter h]; rfl)) h
  rw [if_neg hen] at h
  have hfl : (skipSpaces l0).fl = l0.fl := skipWhile_fl _ _
  have he : (skipSpaces l0).fl.enter = false := by rw [hfl]; simpa using hen
  clear hfl
  generalize skipSpaces l0 = lb at *
  simp only [] at h
  by_cases heof : isEof lb = true
  · rw [if_pos heof] at h; cases h; exact enterInv_of_false he
  rw [if_neg heof] at h
  have hne : lb.rest ≠ [] := fun hr => heof (isEof_iff.mpr hr)
  cases hp : Chain.runAlts punctuation lb with
  | some r =>
    rw [hp] at h
    cases h
    exact enterInv_of_false (by rw [(Chain.runAlts_adv _ _ _ hp).2.1]; exact he)
  | none =>
    rw [hp] at h
    simp only [] at h
    split at h
    · cases h
      refine enterInv_of_false ?_
      unfold lexDot
      simp only []
      repeat' split
      all_goals exact he
    split at h
    · split at h
      · exact bind_done_enter (fun l' t h => enterInv_of_false (by rw [lexString_enter h]; exact he)) h
      · cases h; exact enterInv_of_false he
    split at h
    · cases h
      have hw : ∀ fuel (l : L), (commentLoop fuel 1 l).2.fl = l.fl := fun fuel l => (commentLoop_adv fuel 1 l).2
      unfold lexSlash skipMultiLineComment
      split
      · exact enterInv_of_false (by simp [skipSingleLineComment, he])
      split
      · have h1 := hw (skipChar (skipChar lb)).rest.length (skipChar (skipChar lb))
        generalize commentLoop (skipChar (skipChar lb)).rest.length 1 (skipChar (skipChar lb)) = r at h1
        obtain ⟨b, l1⟩ := r
        simp only [] at h1 ⊢
        cases b
        · exact enterInv_of_false (by rw [h1]; exact he)
        · exact enterInv_of_false (by rw [h1]; exact he)
      split
      · exact enterInv_of_false he
      · exact enterInv_of_false he
    split at h
    · apply bind_done_enter _ h
      intro l' t h
      unfold lexQuote at h
      split at h
      · injection h with h
        have hm := multilineLoop_fl (skipChar (skipChar lb)).pos
          ((skipChar (skipChar (skipChar lb))).rest.length + 1) (skipChar (skipChar (skipChar lb)))
        have : multilineString (skipChar (skipChar lb)) = multilineLoop (skipChar (skipChar lb)).pos
          ((skipChar (skipChar (skipChar lb))).rest.length + 1) (skipChar (skipChar (skipChar lb))) := rfl
        rw [← this, h] at hm
        exact enterInv_of_false (by rw [hm]; exact he)
      · exact enterInv_of_false (by rw [lexString_enter h]; exact he)
    split at h
    · exact bind_done_enter (fun l' t h => enterInv_of_false (by rw [lexChar_fl h]; exact he)) h
    · exact lexWord_enter ha hne he h

theorem lexLoop_enter {adv : L → Res (L × Token)} (ha : ∀ l l' t, EnterInv l → adv l = .ok (l', t) → EnterInv l') {f : Nat} :
    ∀ (n : Nat) (l l' : L) (t : Token), lexLoop adv f n l = .ok (l', t) → EnterInv l' := by
  intro n
  induction n with
  | zero => intro l l' t h; simp [lexLoop] at h
  | succ n ih =>
    intro l l' t h
    unfold lexLoop at h
    cases hs : lexOne adv f l with
    | ub => rw [hs] at h; cases h
    | diverge => rw [hs] at h; cases h
    | ok s =>
      have := lexOne_enter ha hs
      rw [hs] at h
      cases s with
      | tok l1 t1 => cases h; exact this
      | again l1 => exact ih _ _ _ h

theorem advance_enter : ∀ (f : Nat) (l l' : L) (t : Token), EnterInv l → advance f l = .ok (l', t) → EnterInv l' := by
  intro f
  induction f with
  | zero => intro l l' t _ h; simp [advance] at h
  | succ f ih =>
    intro l l' t hi h
    unfold advance at h
    split at h
    · cases h; exact hi
    split at h
    · cases h; exact hi
    · exact lexLoop_enter ih _ _ _ _ h

theorem lexSlash_again {beg : Pos} {l l' : L} (h : lexSlash beg l = .again l') : l'.fl = l.fl := by
  unfold lexSlash at h
  split at h
  · cases h; simp [skipSingleLineComment]
  split at h
  · have h1 := (commentLoop_adv (skipChar l).rest.length 1 (skipChar l)).2
    unfold skipMultiLineComment at h
    generalize commentLoop (skipChar l).rest.length 1 (skipChar l) = r at h h1
    obtain ⟨b, l1⟩ := r
    cases b
    · cases h
    · cases h; exact h1
  split at h
  · cases h
  · cases h

theorem bind_done_again {r : Res (L × Token)} {l' : L} : r.bind done ≠ .ok (.again l') := by
  cases r <;> simp [done]

theorem lexOne_again {adv : L → Res (L × Token)} {f : Nat} {l l' : L} (h : lexOne adv f l = .ok (.again l')) :
    l'.fl = l.fl := by
  unfold lexOne at h
  split at h
  · exact absurd h bind_done_again
  have hfl : (skipSpaces l).fl = l.fl := skipWhile_fl _ _
  rw [← hfl]
  clear hfl
  generalize skipSpaces l = lb at *
  simp only [] at h
  split at h
  · cases h
  cases hp : Chain.runAlts punctuation lb with
  | some r => rw [hp] at h; cases h
  | none =>
    rw [hp] at h
    simp only [] at h
    split at h
    · cases h
    split at h
    · split at h
      · exact absurd h bind_done_again
      · cases h
    split at h
    · injection h with h
      exact (lexSlash_again h).trans (skip_fl lb)
    split at h
    · exact absurd h bind_done_again
    split at h
    · exact absurd h bind_done_again
    unfold lexWord at h
    simp only [] at h
    split at h
    · split at h <;> cases h
    split at h
    · cases h
    split at h
    · exact absurd h bind_done_again
    · cases h

theorem lexLoop_fin {asc : Prop} {n : Nat} {adv : L → Res (L × Token)} (hw : WordFn adv) (hadv : AdvFn All adv)
    (he : EndsBelow asc n adv)
    {f : Nat} : ∀ (k : Nat) (l : L), (l.rest = [] ∨ Good l.rest) → EnterInv l →
      (l.fl.exit = false ∧ l.fl.retFmt = false) → (asc → ∀ b ∈ l.rest, b < 128) → l.rest.length ≤ n + 1 →
      l.rest.length ≤ f → l.rest.length < k → (∀ l l' t, EnterInv l → adv l = .ok (l', t) → EnterInv l') →
      Fin asc (lexLoop adv f k l) := by
  intro k
  induction k with
  | zero => intro l _ _ _ _ _ _ hk; omega
  | succ k ih =>
    intro l hg hi hx ha hn hf hk hent
    unfold lexLoop
    apply Fin.bind (lexOne_fin hw he hg hi hx ha hn hf)
    intro s hs
    cases s with
    | tok l' t => trivial
    | again l' =>
      have h1 : AdvS l l' := lexOne_ok hadv hs
      have h2 := lexOne_again hs
      have h3 := lexOne_enter hent hs
      have := h1.2
      exact ih _ (good_or_nil hg h1.1) h3 (by rw [h2]; exact hx) (asc_adv ha h1.1) (by omega) (by omega) (by omega) hent

theorem clearMaybe_keeps (l : L) : (clearMaybe l).rest = l.rest ∧ (clearMaybe l).fl.enter = l.fl.enter ∧
    (clearMaybe l).fl.exit = l.fl.exit ∧ (clearMaybe l).fl.retFmt = l.fl.retFmt := by
  unfold clearMaybe; split <;> simp

theorem advance_fin (asc : Prop) : ∀ (f n : Nat), n + 1 ≤ f → EndsBelow asc n (advance f) := by
  intro f
  induction f with
  | zero => intro n h; omega
  | succ f ih =>
    intro n hn l hg hi ha hl
    unfold advance
    by_cases h1 : l.fl.exit = true
    · rw [if_pos h1]; trivial
    rw [if_neg h1]
    by_cases h2 : l.fl.retFmt = true
    · rw [if_pos h2]; trivial
    rw [if_neg h2]
    obtain ⟨k1, k2, k3, k4⟩ := clearMaybe_keeps l
    have hcur : cur (clearMaybe l) = cur l := by unfold cur; rw [k1]
    apply lexLoop_fin (n := n - 1) (advance_word f) (fun a b c h => (advance_ok f a b c h).adv) (ih (n - 1) (by omega))
    · rw [k1]; exact hg
    · intro h; rw [hcur]; rw [k2] at h; exact hi h
    · rw [k3, k4]; exact ⟨by simpa using h1, by simpa using h2⟩
    · rw [k1]; exact ha
    · rw [k1]; omega
    · rw [k1]; omega
    · rw [k1]; omega
    · exact advance_enter f

end Verif.Lexer
