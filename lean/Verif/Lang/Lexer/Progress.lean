import Verif.Lang.Lexer.Lemmas
/-! # Every returned token is a range of the bytes read -/
namespace Verif.Lexer

/-- `t` begins at `lb`, is not empty, is not an end of file, and ends at or before `l'`. -/
def Ends (lb l' : L) (t : Token) : Prop :=
  ∃ le, Adv All lb le ∧ Adv All le l' ∧ t.beg = lb.pos ∧ t.fin = le.pos ∧ le.rest.length < lb.rest.length ∧
    t.tag ≠ .eof

/-- Strictly advanced. -/
def AdvS (l l' : L) : Prop := Adv All l l' ∧ l'.rest.length < l.rest.length

theorem AdvS.then {l l1 l2 : L} (h : AdvS l l1) (h' : Adv All l1 l2) : AdvS l l2 :=
  ⟨h.1.trans h', Nat.lt_of_le_of_lt h'.le h.2⟩

theorem AdvS.skip {l l1 : L} (h : AdvS l l1) (hn : l1.rest ≠ []) : AdvS l (skipChar l1) :=
  h.then (skip_adv hn trivial)

theorem AdvS.first {l : L} (hn : l.rest ≠ []) : AdvS l (skipChar l) :=
  ⟨skip_adv hn trivial, by have := skip_length hn; omega⟩

theorem AdvS.flags {l l1 : L} (fl : Flags) (h : AdvS l l1) : AdvS l { l1 with fl := fl } := h

theorem Ends.at {lb l : L} (t : Tag) (h : AdvS lb l) (ht : t ≠ .eof) : Ends lb l (mk l lb.pos t) :=
  ⟨l, h.1, Adv.refl _, rfl, rfl, h.2, ht⟩

theorem Ends.at' {lb l l' : L} (t : Tag) (h : AdvS lb l) (h' : Adv All l l') (ht : t ≠ .eof) :
    Ends lb l' (mk l lb.pos t) :=
  ⟨l, h.1, h', rfl, rfl, h.2, ht⟩

theorem commentLoop_adv : ∀ (fuel nest : Nat) (l : L),
    Adv All l (commentLoop fuel nest l).2 ∧ (commentLoop fuel nest l).2.fl = l.fl := by
  intro fuel
  induction fuel with
  | zero =>
    intro nest l
    unfold commentLoop
    by_cases h : nest = 0
    · rw [if_pos h]; exact ⟨Adv.refl _, rfl⟩
    · rw [if_neg h]; by_cases h' : isEof l = true
      · rw [if_pos h']; exact ⟨Adv.refl _, rfl⟩
      · rw [if_neg h']; exact ⟨Adv.refl _, rfl⟩
  | succ f ih =>
    intro nest l
    have step : ∀ (n : Nat) (l1 : L), l1.rest ≠ [] → 
        Adv All l1 (commentLoop f n (skipChar l1)).2 ∧ (commentLoop f n (skipChar l1)).2.fl = l1.fl := by
      intro n l1 h1
      exact ⟨(skip_adv h1 trivial).trans (ih n _).1, (ih n _).2⟩
    unfold commentLoop
    by_cases h : nest = 0
    · rw [if_pos h]; exact ⟨Adv.refl _, rfl⟩
    rw [if_neg h]; by_cases h' : isEof l = true
    · rw [if_pos h']; exact ⟨Adv.refl _, rfl⟩
    rw [if_neg h']
    have hne : l.rest ≠ [] := fun hr => h' (isEof_iff.mpr hr)
    simp only []
    have h0 : Adv All l (skipChar l) := skip_adv hne trivial
    by_cases ha : accepts l 47 = true
    · rw [if_pos ha]
      by_cases hb : accepts (skipChar l) 42 = true
      · rw [if_pos hb]
        exact ⟨h0.trans (step _ _ (accepts_ne hb)).1, (step _ _ (accepts_ne hb)).2⟩
      · rw [if_neg hb]; exact step _ _ hne
    rw [if_neg ha]
    by_cases ha : accepts l 42 = true
    · rw [if_pos ha]
      by_cases hb : accepts (skipChar l) 47 = true
      · rw [if_pos hb]
        exact ⟨h0.trans (step _ _ (accepts_ne hb)).1, (step _ _ (accepts_ne hb)).2⟩
      · rw [if_neg hb]; exact step _ _ hne
    rw [if_neg ha]
    exact step _ _ hne

theorem multilineLoop_ends {lb : L} : ∀ (fuel : Nat) (l : L), AdvS lb l →
    Ends lb (multilineLoop lb.pos fuel l).1 (multilineLoop lb.pos fuel l).2 := by
  intro fuel
  induction fuel with
  | zero => intro l h; exact Ends.at _ h (by decide)
  | succ f ih =>
    intro l h
    unfold multilineLoop
    by_cases h' : isEof l = true
    · rw [if_pos h']; exact Ends.at _ h (by decide)
    rw [if_neg h']
    have hne : l.rest ≠ [] := fun hr => h' (isEof_iff.mpr hr)
    by_cases ha : accepts l 34 = true
    · rw [if_pos ha]
      simp only []
      by_cases hb : cur (skipChar l) = 34 ∧ peekNext (skipChar l) = 34
      · rw [if_pos hb]
        have hn1 := cur_ne hb.1 (by decide)
        have hn2 : (skipChar (skipChar l)).rest ≠ [] := by
          intro hr
          have h2 := hb.2
          cases hh : (skipChar l).rest with
          | nil => exact hn1 hh
          | cons c r =>
            rw [skip_cons hh] at hr
            simp at hr
            simp [peekNext, hh, hr] at h2
        exact Ends.at' _ (h.skip hne) ((skip_adv hn1 trivial).trans (skip_adv hn2 trivial)) (by decide)
      · rw [if_neg hb]; exact ih _ (h.skip hne)
    · rw [if_neg ha]; exact ih _ (h.skip hne)

theorem multiline_ends {l : L} (hne : l.rest ≠ []) :
    Ends l (multilineString l).1 (multilineString l).2 := 
  multilineLoop_ends _ _ (AdvS.first hne)

theorem peek_ne {l : L} {c : Nat} (hne : l.rest ≠ []) (h : peekNext l = c) (hc : c ≠ 255) : (skipChar l).rest ≠ [] := by
  cases hh : l.rest with
  | nil => exact absurd hh hne
  | cons d r =>
    rw [skip_cons hh]
    intro hr
    simp at hr
    simp [peekNext, hh, hr] at h
    omega

theorem skip_nil {l : L} (h : l.rest = []) : (skipChar l).rest = [] := by simp [skipChar, h]

/-- What the string loop gives. -/
def StrOk (lb : L) : StrEnd → Prop
  | .closed l => AdvS lb l
  | .fmt l t => Ends lb l t

theorem stringLoop_ok {lb : L} {lit : Bool} : ∀ (fuel : Nat) (l : L) (r : StrEnd), AdvS lb l →
    stringLoop lb.pos lit fuel l = .ok r → StrOk lb r := by
  intro fuel
  induction fuel using Nat.strongRecOn with
  | _ fuel ih =>
    intro l r h hr
    cases fuel with
    | zero => simp [stringLoop] at hr
    | succ f =>
      unfold stringLoop at hr
      by_cases h1 : cur l = 34
      · rw [if_pos h1] at hr; cases hr; exact h
      rw [if_neg h1] at hr
      by_cases h2 : accepts l 10 = true
      · rw [if_pos h2] at hr
        simp only [] at hr
        by_cases h3 : accepts (skipChar l) 92 = true
        · rw [if_pos h3] at hr
          exact ih f (by omega) _ _ ((h.skip (accepts_ne h2)).skip (accepts_ne h3)) hr
        · rw [if_neg h3] at hr; cases hr; exact h.skip (accepts_ne h2)
      rw [if_neg h2] at hr
      by_cases h3 : cur l = 92
      · rw [if_pos h3] at hr
        have hn := cur_ne h3 (by decide)
        by_cases h4 : (skipChar l).rest = []
        · -- at the end of the buffer the loop never ends
          exact absurd hr (stuck f _ r (skip_nil h4))
        · exact ih f (by omega) _ _ ((h.skip hn).skip h4) hr
      rw [if_neg h3] at hr
      by_cases h4 : (!lit && l.fl.cont && cur l == 36 && peekNext l == 123) = true
      · rw [if_pos h4] at hr
        simp at h4
        have hn := cur_ne h4.1.2 (by decide)
        have hn2 := peek_ne hn h4.2 (by decide)
        cases hr
        refine Ends.at' _ (h.skip hn) ?_ (by decide)
        exact Adv.trans (adv_flags _ _ _) (skip_adv (l := { skipChar l with fl := _ }) hn2 trivial)
      rw [if_neg h4] at hr
      by_cases h5 : l.rest = []
      · exact absurd hr (stuck f _ r (by simp [skipChar, h5]))
      · exact ih f (by omega) _ _ (h.skip h5) hr
where
  stuck (f : Nat) : ∀ (l : L) (r : StrEnd), l.rest = [] → stringLoop lb.pos lit f l ≠ .ok r := by
    induction f with
    | zero => intro l r _ h; simp [stringLoop] at h
    | succ f ih =>
      intro l r hl h
      unfold stringLoop at h
      have hc : cur l = 255 := by simp [cur, hl]
      rw [if_neg (by omega), if_neg (by simp [accepts, isEof, hl]), if_neg (by omega), if_neg (by simp [hc])] at h
      exact ih _ _ (by simp [skipChar, hl]) h

theorem stringLoop_stuck (beg : Pos) (lit : Bool) : ∀ (fuel : Nat) (l : L), l.rest = [] →
    stringLoop beg lit fuel l = .diverge := by
  intro f
  induction f with
  | zero => intro l _; rfl
  | succ f ih =>
    intro l hl
    unfold stringLoop
    have hc : cur l = 255 := by simp [cur, hl]
    rw [if_neg (by omega), if_neg (by simp [accepts, isEof, hl]), if_neg (by omega), if_neg (by simp [hc])]
    exact ih _ (by simp [skipChar, hl])

theorem lexString_ends {lb l l' : L} {lit : Bool} {fuel : Nat} {t : Token} (h : AdvS lb l)
    (hr : lexString fuel lb.pos lit l = .ok (l', t)) : Ends lb l' t := by
  unfold lexString at hr
  cases hs : stringLoop lb.pos lit fuel l with
  | ub => rw [hs] at hr; cases hr
  | diverge => rw [hs] at hr; cases hr
  | ok r =>
    have hok := stringLoop_ok fuel l r h hs
    rw [hs] at hr
    cases r with
    | fmt l1 t1 => cases hr; exact hok
    | closed l1 =>
      simp only [Res.bind_ok] at hr
      have hok' : AdvS lb (if lit then l1 else { l1 with fl := { l1.fl with cont := false, exit := true } }) := by
        cases lit
        · exact hok.flags _
        · exact hok
      generalize (if lit then l1 else { l1 with fl := { l1.fl with cont := false, exit := true } }) = l2 at hr hok'
      by_cases ha : accepts l2 34 = true
      · rw [if_pos ha] at hr; cases hr
        exact Ends.at _ (hok'.skip (accepts_ne ha)) (by decide)
      · rw [if_neg ha] at hr; cases hr
        exact Ends.at _ hok' (by decide)

theorem charLoop_stuck : ∀ (fuel k : Nat) (l : L), l.rest = [] → charLoop fuel k l = .diverge := by
  intro f
  induction f with
  | zero => intro k l _; rfl
  | succ f ih =>
    intro k l hl
    unfold charLoop
    have hc : cur l = 255 := by simp [cur, hl]
    rw [if_neg (by omega), if_neg (by omega)]
    exact ih _ _ (by simp [skipChar, hl])

theorem charLoop_ok {lb : L} : ∀ (fuel k : Nat) (l : L) (r : Nat × L), AdvS lb l →
    charLoop fuel k l = .ok r → AdvS lb r.2 := by
  intro fuel
  induction fuel with
  | zero => intro k l r _ hr; simp [charLoop] at hr
  | succ f ih =>
    intro k l r h hr
    by_cases h5 : l.rest = []
    · rw [charLoop_stuck _ _ _ h5] at hr; cases hr
    unfold charLoop at hr
    by_cases h1 : cur l = 39 ∨ cur l = 10
    · rw [if_pos h1] at hr; cases hr; exact h
    rw [if_neg h1] at hr
    by_cases h2 : cur l = 92
    · rw [if_pos h2] at hr
      by_cases h4 : (skipChar l).rest = []
      · rw [charLoop_stuck _ _ _ (skip_nil h4)] at hr; cases hr
      · exact ih _ _ _ ((h.skip h5).skip h4) hr
    · rw [if_neg h2] at hr
      exact ih _ _ _ (h.skip h5) hr

theorem lexChar_ends {lb l l' : L} {fuel : Nat} {t : Token} (h : AdvS lb l)
    (hr : lexChar fuel lb.pos l = .ok (l', t)) : Ends lb l' t := by
  unfold lexChar at hr
  cases hs : charLoop fuel 0 l with
  | ub => rw [hs] at hr; cases hr
  | diverge => rw [hs] at hr; cases hr
  | ok r =>
    obtain ⟨k, l1⟩ := r
    have hok : AdvS lb l1 := charLoop_ok fuel 0 l _ h hs
    rw [hs] at hr
    simp only [Res.bind_ok] at hr
    by_cases ha : accepts l1 39 = true
    · rw [if_pos ha] at hr
      by_cases hb : isEof (skipChar l1) = true
      · rw [if_pos hb] at hr; cases hr
      rw [if_neg hb] at hr
      cases hc : Text.convertEscapeSeq l.rest (l.rest.length - (skipChar l1).rest.length - 1) with
      | ub => rw [hc] at hr; cases hr
      | diverge => rw [hc] at hr; cases hr
      | ok r =>
        rw [hc] at hr
        simp only [Res.bind_ok] at hr
        have hn := accepts_ne ha
        by_cases hk : r.1 = k
        · rw [if_pos hk] at hr; cases hr
          exact Ends.at' _ hok (skip_adv hn trivial) (by simp)
        · rw [if_neg hk] at hr; cases hr
          exact Ends.at _ (hok.skip hn) (by decide)
    · rw [if_neg ha] at hr; cases hr
      exact Ends.at _ hok (by decide)

/-! ### Words -/

theorem lexFraction_adv {P : Nat → Prop} (hd : ∀ c, isDig c = true → P c) (he : P 101) (hp : P 43) (hm : P 45) (l : L) :
    Adv P l (lexFraction l) ∧ (lexFraction l).fl = l.fl := by
  unfold lexFraction
  have h1 : Adv P l (skipWhile isDig l) := (skipWhile_adv _ _).mono hd
  simp only []
  by_cases ha : accepts (skipWhile isDig l) 101 = true
  · rw [if_pos ha]
    have h2 : Adv P l (skipChar (skipWhile isDig l)) :=
      h1.trans (skip_adv (accepts_ne ha) (by rw [accepts_cur ha]; exact he))
    have h3 : Adv P l (if accepts (skipChar (skipWhile isDig l)) 43 = true then skipChar (skipChar (skipWhile isDig l))
        else if accepts (skipChar (skipWhile isDig l)) 45 = true then skipChar (skipChar (skipWhile isDig l))
        else skipChar (skipWhile isDig l)) := by
      by_cases hb : accepts (skipChar (skipWhile isDig l)) 43 = true
      · rw [if_pos hb]; exact h2.trans (skip_adv (accepts_ne hb) (by rw [accepts_cur hb]; exact hp))
      rw [if_neg hb]
      by_cases hb : accepts (skipChar (skipWhile isDig l)) 45 = true
      · rw [if_pos hb]; exact h2.trans (skip_adv (accepts_ne hb) (by rw [accepts_cur hb]; exact hm))
      rw [if_neg hb]; exact h2
    refine ⟨h3.trans ((skipWhile_adv _ _).mono hd), ?_⟩
    rw [skipWhile_fl]
    split
    · simp
    · split <;> simp
  · rw [if_neg ha]; exact ⟨h1, by simp⟩

theorem lexDecimal_adv {P : Nat → Prop} (hd : ∀ c, isDig c = true → P c) (he : P 101) (hp : P 43) (hm : P 45) (ht : P 46)
    (beg : Pos) (p : List Nat) (l : L) :
    Adv P l (lexDecimal beg p l).1 ∧ (lexDecimal beg p l).1.fl = l.fl ∧
      ∃ t, (lexDecimal beg p l).2 = mk (lexDecimal beg p l).1 beg t ∧ t ≠ .eof := by
  unfold lexDecimal
  have h1 : Adv P l (skipWhile isDig l) := (skipWhile_adv _ _).mono hd
  simp only []
  split
  · rename_i h
    have hn := cur_ne h.1 (by decide)
    have h2 := lexFraction_adv hd he hp hm (skipChar (skipWhile isDig l))
    exact ⟨(h1.trans (skip_adv hn (by rw [h.1]; exact ht))).trans h2.1, by rw [h2.2]; simp, _, rfl, by decide⟩
  · exact ⟨h1, by simp, _, rfl, by simp⟩

/-- `adv` returns states that are further on. -/
def AdvFn (P : Nat → Prop) (adv : L → Res (L × Token)) : Prop := ∀ l l' t, adv l = .ok (l', t) → Adv P l l'

theorem skipUntil_adv {P : Nat → Prop} {adv : L → Res (L × Token)} (ha : AdvFn P adv) :
    ∀ (fuel : Nat) (l l' : L), skipUntil adv fuel l = .ok l' → Adv P l l' := by
  intro fuel
  induction fuel with
  | zero => intro l l' h; simp [skipUntil] at h
  | succ f ih =>
    intro l l' h
    unfold skipUntil at h
    by_cases hc : isSpaceOrPunct (cur l) = true
    · rw [if_pos hc] at h; cases h; exact Adv.refl _
    rw [if_neg hc] at h
    cases hs : adv l with
    | ub => rw [hs] at h; cases h
    | diverge => rw [hs] at h; cases h
    | ok r =>
      rw [hs] at h
      exact (ha l r.1 r.2 hs).trans (ih _ _ h)

theorem lexPrefixed_adv {adv : L → Res (L × Token)} (ha : AdvFn All adv) {fuel : Nat} {beg : Pos} {base : Nat}
    {p : Nat → Bool} {l l' : L} {t : Token} (h : lexPrefixed adv fuel beg base p l = .ok (l', t)) :
    Adv All l l' ∧ ∃ g, t = mk l' beg g ∧ g ≠ .eof := by
  unfold lexPrefixed at h
  have h1 : Adv All l (skipWhile p l) := (skipWhile_adv _ _).all
  by_cases hc : (!isSpaceOrPunct (cur (skipWhile p l))) = true
  · simp only [hc, if_true] at h
    cases hs : skipUntil adv fuel (skipWhile p l) with
    | ub => rw [hs] at h; cases h
    | diverge => rw [hs] at h; cases h
    | ok r =>
      rw [hs] at h
      cases h
      exact ⟨h1.trans (skipUntil_adv ha _ _ _ hs), _, rfl, by decide⟩
  · simp only [hc] at h
    cases h
    exact ⟨h1, _, rfl, by simp⟩

theorem lexNumber_ends {adv : L → Res (L × Token)} (ha : AdvFn All adv) {fuel : Nat} {lb l' : L} {t : Token}
    (hn : lb.rest ≠ []) (h : lexNumber adv fuel lb.pos lb = .ok (l', t)) : Ends lb l' t := by
  have hs := AdvS.first hn
  unfold lexNumber at h
  simp only [] at h
  have key : ∀ {base : Nat} {p : Nat → Bool} {c : Nat}, accepts (skipChar lb) c = true →
      lexPrefixed adv fuel lb.pos base p (skipChar (skipChar lb)) = .ok (l', t) → Ends lb l' t := by
    intro base p c hc h
    obtain ⟨h1, g, hg, hge⟩ := lexPrefixed_adv ha h
    rw [hg]
    exact Ends.at g ((hs.skip (accepts_ne hc)).then h1) hge
  by_cases h1 : cur lb = 48 ∧ accepts (skipChar lb) 98 = true
  · rw [if_pos h1] at h; exact key h1.2 h
  rw [if_neg h1] at h
  by_cases h1 : cur lb = 48 ∧ accepts (skipChar lb) 120 = true
  · rw [if_pos h1] at h; exact key h1.2 h
  rw [if_neg h1] at h
  by_cases h1 : cur lb = 48 ∧ accepts (skipChar lb) 111 = true
  · rw [if_pos h1] at h; exact key h1.2 h
  rw [if_neg h1] at h
  obtain ⟨h1, _, g, hg, hge⟩ := lexDecimal_adv (P := All) (fun _ _ => trivial) trivial trivial trivial trivial lb.pos lb.rest (skipChar lb)
  injection h with h
  rw [h] at h1 hg
  simp only [] at h1 hg
  rw [hg]
  exact Ends.at g (hs.then h1) hge

theorem lexIdent_ends {lb : L} (hn : lb.rest ≠ []) : Ends lb (lexIdent lb.pos lb).1 (lexIdent lb.pos lb).2 := by
  unfold lexIdent
  refine Ends.at _ ((AdvS.first hn).then (skipWhile_adv _ _).all) ?_
  split <;> simp

/-- A step from `lb`: a token that begins at `lb`, or something skipped. -/
def StepOk (lb : L) : Step → Prop
  | .tok l' t => Ends lb l' t
  | .again l' => AdvS lb l'

theorem done_ok {lb : L} {r : L × Token} {s : Step} (h : Ends lb r.1 r.2) (hs : done r = .ok s) : StepOk lb s := by
  cases hs; exact h

theorem bind_done {lb : L} {r : Res (L × Token)} {s : Step} (h : ∀ l' t, r = .ok (l', t) → Ends lb l' t)
    (hs : r.bind done = .ok s) : StepOk lb s := by
  cases r with
  | ub => cases hs
  | diverge => cases hs
  | ok r => exact done_ok (h r.1 r.2 rfl) hs

theorem lexWord_ok {adv : L → Res (L × Token)} (ha : AdvFn All adv) {fuel : Nat} {lb : L} {s : Step}
    (hn : lb.rest ≠ []) (h : lexWord adv fuel lb.pos lb = .ok s) : StepOk lb s := by
  unfold lexWord at h
  have hs := AdvS.first hn
  split at h
  · simp only [] at h
    split at h
    · exact done_ok (Ends.at _ hs (by decide)) h
    · exact done_ok (Ends.at _ (hs.flags _) (by decide)) h
  · split at h
    · exact done_ok (lexIdent_ends hn) h
    · split at h
      · exact bind_done (fun l' t h => lexNumber_ends ha hn h) h
      · exact done_ok (Ends.at _ hs (by decide)) h

theorem lexDot_ends {lb l : L} (hs : AdvS lb l) : Ends lb (lexDot lb.pos l).1 (lexDot lb.pos l).2 := by
  unfold lexDot
  by_cases h : accepts l 46 = true
  · rw [if_pos h]
    simp only []
    by_cases h2 : accepts (skipChar l) 46 = true
    · rw [if_pos h2]; exact Ends.at _ ((hs.skip (accepts_ne h)).skip (accepts_ne h2)) (by decide)
    · rw [if_neg h2]; exact Ends.at _ (hs.skip (accepts_ne h)) (by decide)
  rw [if_neg h]
  by_cases h : accepts l 91 = true
  · rw [if_pos h]; exact Ends.at _ (hs.skip (accepts_ne h)) (by decide)
  · rw [if_neg h]; exact Ends.at _ (hs.flags _) (by decide)

theorem lexSlash_ok {lb l : L} (hs : AdvS lb l) : StepOk lb (lexSlash lb.pos l) := by
  unfold lexSlash
  by_cases h : accepts l 47 = true
  · rw [if_pos h]; exact (hs.skip (accepts_ne h)).then (skipWhile_adv _ _).all
  rw [if_neg h]
  by_cases h : accepts l 42 = true
  · rw [if_pos h]
    have hc := (commentLoop_adv (skipChar l).rest.length 1 (skipChar l)).1
    unfold skipMultiLineComment
    have := (hs.skip (accepts_ne h)).then hc
    generalize commentLoop (skipChar l).rest.length 1 (skipChar l) = r at this
    obtain ⟨b, l1⟩ := r
    simp only []
    cases b
    · exact Ends.at _ this (by decide)
    · exact this
  rw [if_neg h]
  by_cases h : accepts l 61 = true
  · rw [if_pos h]; exact Ends.at _ (hs.skip (accepts_ne h)) (by decide)
  · rw [if_neg h]; exact Ends.at _ hs (by decide)

/-- A quoted string may begin two bytes late (multi-line strings begin at the third quote). -/
theorem lexQuote_ends {lb l l' : L} {fuel : Nat} {t : Token} (hs : AdvS lb l)
    (h : lexQuote fuel lb.pos l = .ok (l', t)) : ∃ lb', Adv All lb lb' ∧ Ends lb' l' t := by
  unfold lexQuote at h
  by_cases hc : cur l = 34 ∧ peekNext l = 34
  · rw [if_pos hc] at h
    have hn := cur_ne hc.1 (by decide)
    have hn2 := peek_ne hn hc.2 (by decide)
    have := multiline_ends hn2
    injection h with h
    rw [h] at this
    exact ⟨_, (hs.skip hn).1, this⟩
  · rw [if_neg hc] at h
    exact ⟨lb, Adv.refl _, lexString_ends hs h⟩

/-- What one iteration gives. -/
def OneOk (l : L) : Step → Prop
  | .again l' => AdvS l l'
  | .tok l' t => (∃ lb, Adv All l lb ∧ Ends lb l' t) ∨
      (Adv All l l' ∧ t = mk l' l'.pos .eof ∧ l'.rest = [])

theorem StepOk.lift {l lb : L} {s : Step} (h0 : Adv All l lb) (h : StepOk lb s) : OneOk l s := by
  cases s with
  | tok l' t => exact Or.inl ⟨lb, h0, h⟩
  | again l' => exact ⟨h0.trans h.1, Nat.lt_of_lt_of_le h.2 h0.le⟩

theorem lexOne_ok {adv : L → Res (L × Token)} (ha : AdvFn All adv) {fuel : Nat} {l0 : L} {s : Step}
    (h : lexOne adv fuel l0 = .ok s) : OneOk l0 s := by
  unfold lexOne at h
  by_cases he : l0.fl.enter = true
  · rw [if_pos he] at h
    by_cases hent : l0.rest = []
    · simp only [lexString, stringLoop_stuck _ _ _ (skipChar { l0 with fl := { l0.fl with enter := false, cont := true } })
        (skip_nil (l := { l0 with fl := _ }) hent), Res.bind_diverge] at h
      cases h
    have hs : AdvS l0 (skipChar { l0 with fl := { l0.fl with enter := false, cont := true } }) :=
      AdvS.first (l := { l0 with fl := { l0.fl with enter := false, cont := true } }) hent
    exact StepOk.lift (Adv.refl _) (bind_done (fun l' t h => lexString_ends hs h) h)
  rw [if_neg he] at h
  have h0 : Adv All l0 (skipSpaces l0) := (skipWhile_adv _ _).all
  generalize skipSpaces l0 = lb at h h0
  simp only [] at h
  by_cases heof : isEof lb = true
  · rw [if_pos heof] at h
    cases h
    exact Or.inr ⟨h0, rfl, isEof_iff.mp heof⟩
  rw [if_neg heof] at h
  have hn : lb.rest ≠ [] := fun hr => heof (isEof_iff.mpr hr)
  have hs := AdvS.first hn
  cases hp : Chain.runAlts punctuation lb with
  | some r =>
    rw [hp] at h
    obtain ⟨h1, _, h3⟩ := Chain.runAlts_adv _ _ _ hp
    exact StepOk.lift h0 (done_ok (Ends.at _ ⟨h1, h3⟩ (by simp)) h)
  | none =>
    rw [hp] at h
    simp only [] at h
    by_cases h1 : accepts lb 46 = true
    · rw [if_pos h1] at h; exact StepOk.lift h0 (done_ok (lexDot_ends hs) h)
    rw [if_neg h1] at h
    by_cases h1 : accepts lb 125 = true
    · rw [if_pos h1] at h
      by_cases h2 : (skipChar lb).fl.cont = true
      · rw [if_pos h2] at h
        exact StepOk.lift h0 (bind_done (fun l' t h => lexString_ends hs h) h)
      · rw [if_neg h2] at h
        exact StepOk.lift h0 (done_ok (Ends.at _ hs (by simp)) h)
    rw [if_neg h1] at h
    by_cases h1 : accepts lb 47 = true
    · rw [if_pos h1] at h
      cases h
      exact StepOk.lift h0 (lexSlash_ok hs)
    rw [if_neg h1] at h
    by_cases h1 : accepts lb 34 = true
    · rw [if_pos h1] at h
      cases hq : lexQuote fuel lb.pos (skipChar lb) with
      | ub => rw [hq] at h; cases h
      | diverge => rw [hq] at h; cases h
      | ok r =>
        obtain ⟨lb', ha', hb'⟩ := lexQuote_ends hs hq
        rw [hq] at h
        cases h
        exact Or.inl ⟨lb', h0.trans ha', hb'⟩
    rw [if_neg h1] at h
    by_cases h1 : accepts lb 39 = true
    · rw [if_pos h1] at h
      exact StepOk.lift h0 (bind_done (fun l' t h => lexChar_ends hs h) h)
    rw [if_neg h1] at h
    exact StepOk.lift h0 (lexWord_ok ha hn h)

theorem lexLoop_ok {adv : L → Res (L × Token)} (ha : AdvFn All adv) {fuel : Nat} :
    ∀ (n : Nat) (l l' : L) (t : Token), lexLoop adv fuel n l = .ok (l', t) → OneOk l (.tok l' t) := by
  intro n
  induction n with
  | zero => intro l l' t h; simp [lexLoop] at h
  | succ n ih =>
    intro l l' t h
    unfold lexLoop at h
    cases hs : lexOne adv fuel l with
    | ub => rw [hs] at h; cases h
    | diverge => rw [hs] at h; cases h
    | ok s =>
      have hok := lexOne_ok ha hs
      rw [hs] at h
      cases s with
      | tok l1 t1 => cases h; exact hok
      | again l1 =>
        rcases ih _ _ _ h with ⟨lb, h1, h2⟩ | ⟨h1, h2⟩
        · exact Or.inl ⟨lb, hok.1.trans h1, h2⟩
        · exact Or.inr ⟨hok.1.trans h1, h2⟩

/-- What `advanceLexer` returns: a non-empty token, the end of the file, or one of the two empty markers, for
which a flag was set. -/
def AdvanceOk (l l' : L) (t : Token) : Prop :=
  (∃ lb, Adv All l lb ∧ Ends lb l' t) ∨ (Adv All l l' ∧ t = mk l' l'.pos .eof ∧ l'.rest = []) ∨
  (l.fl.exit = true ∧ l' = { l with fl := { l.fl with exit := false } } ∧ t = mk l l.pos .rString) ∨
  (l.fl.exit = false ∧ l.fl.retFmt = true ∧ l' = { l with fl := { l.fl with retFmt := false } } ∧
    t = mk l l.pos .lStrFmt)

theorem clearMaybe_eq (l : L) : ∃ fl, clearMaybe l = { l with fl := fl } := by
  unfold clearMaybe; split
  · exact ⟨_, rfl⟩
  · exact ⟨l.fl, rfl⟩

theorem AdvanceOk.adv {l l' : L} {t : Token} (h : AdvanceOk l l' t) : Adv All l l' := by
  rcases h with ⟨lb, h1, le, h2, h3, _⟩ | ⟨h1, _⟩ | ⟨_, h1, _⟩ | ⟨_, _, h1, _⟩
  · exact (h1.trans h2).trans h3
  · exact h1
  · subst h1; exact adv_flags _ _ _
  · subst h1; exact adv_flags _ _ _

theorem advance_ok : ∀ (fuel : Nat) (l l' : L) (t : Token), advance fuel l = .ok (l', t) → AdvanceOk l l' t := by
  intro fuel
  induction fuel with
  | zero => intro l l' t h; simp [advance] at h
  | succ f ih =>
    intro l l' t h
    unfold advance at h
    by_cases h1 : l.fl.exit = true
    · rw [if_pos h1] at h; cases h; exact Or.inr (Or.inr (Or.inl ⟨h1, rfl, rfl⟩))
    rw [if_neg h1] at h
    by_cases h2 : l.fl.retFmt = true
    · rw [if_pos h2] at h; cases h; exact Or.inr (Or.inr (Or.inr ⟨by simpa using h1, h2, rfl, rfl⟩))
    rw [if_neg h2] at h
    obtain ⟨fl, hfl⟩ := clearMaybe_eq l
    rw [hfl] at h
    rcases lexLoop_ok (fun a b c h => (ih a b c h).adv) _ _ _ _ h with h | h
    · exact Or.inl h
    · exact Or.inr (Or.inl h)

end Verif.Lexer
