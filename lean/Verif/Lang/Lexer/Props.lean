import Verif.Lang.Lexer.Terminate
/-!
# Properties of the lexer (C18, C67)
-/
namespace Verif.Lexer

/-! ## Specification -/

/-- Line of byte `n` of a text, from 1: one more than the newlines before it. -/
def lineOf (src : List Nat) (n : Nat) : Nat := 1 + (src.take n).count 10

/-- Column of byte `n`, from 1: one more than the bytes between it and the preceding newline. -/
def columnOf (src : List Nat) (n : Nat) : Nat := 1 + ((src.take n).reverse.takeWhile (· ≠ 10)).length

/-- The position of byte `n` of a text. -/
def locate (src : List Nat) (n : Nat) : Pos := ⟨n, lineOf src n, columnOf src n⟩

/-- The two tokens that have no text of their own: the end of a string expression and the start of an
interpolation. -/
def isMarker (t : Tag) : Bool := t == .rString || t == .lStrFmt

/-- A token sequence covers a source in order: it ends with the only end-of-file token, at the end of the
source; ranges do not overlap and follow each other; only the markers are empty. -/
structure Covers (src : List Nat) (toks : List Token) : Prop where
  last : ∃ ts t, toks = ts ++ [t] ∧ t.tag = .eof ∧ t.beg.off = src.length ∧ t.fin.off = src.length ∧
    ∀ u ∈ ts, u.tag ≠ .eof
  range : ∀ t ∈ toks, t.beg.off ≤ t.fin.off ∧ t.fin.off ≤ src.length
  nonempty : ∀ t ∈ toks, t.tag ≠ .eof → isMarker t.tag = false → t.beg.off < t.fin.off
  ordered : toks.Pairwise fun a b => a.fin.off ≤ b.beg.off

/-! ## Lemmas -/

def At (src : List Nat) (l : L) : Prop := ∃ pre, src = pre ++ l.rest ∧ l.pos = posAfter ⟨0, 1, 1⟩ pre

theorem At.adv {P : Nat → Prop} {src : List Nat} {l l' : L} (h : At src l) (ha : Adv P l l') : At src l' := by
  obtain ⟨pre, h1, h2⟩ := h
  obtain ⟨bs, _, h3, h4⟩ := ha
  exact ⟨pre ++ bs, by rw [h1, h3, List.append_assoc], by rw [h4, h2, posAfter_append]⟩

theorem posAfter_locate (pre : List Nat) : posAfter ⟨0, 1, 1⟩ pre =
    ⟨pre.length, 1 + pre.count 10, 1 + (pre.reverse.takeWhile (· ≠ 10)).length⟩ := by
  have key : ∀ (r : List Nat), posAfter ⟨0, 1, 1⟩ r.reverse =
      ⟨r.length, 1 + r.count 10, 1 + (r.takeWhile (· ≠ 10)).length⟩ := by
    intro r
    induction r with
    | nil => rfl
    | cons c r ih =>
      rw [List.reverse_cons, posAfter_append, ih]
      show stepPos _ c = _
      unfold stepPos
      by_cases h : c = 10
      · subst h
        simp
        omega
      · rw [if_neg h]
        simp [h]
        omega
  have := key pre.reverse
  rw [List.reverse_reverse] at this
  rw [this]
  simp

theorem At.pos {src : List Nat} {l : L} (h : At src l) :
    l.pos = locate src l.pos.off ∧ l.pos.off + l.rest.length = src.length := by
  obtain ⟨pre, h1, h2⟩ := h
  rw [posAfter_locate] at h2
  rw [h2]
  constructor
  · simp [locate, lineOf, columnOf, h1]
  · simp [h1]

def measure (l : L) : Nat := 3 * l.rest.length + l.fl.exit.toNat + l.fl.retFmt.toNat

theorem advance_measure {f : Nat} {l l' : L} {t : Token} (h : advance f l = .ok (l', t)) (ht : t.tag ≠ .eof) :
    measure l' < measure l := by
  rcases advance_ok f l l' t h with ⟨lb, h1, le, h2, h3, _, _, h4, _⟩ | ⟨_, h1, _⟩ | ⟨h1, h2, _⟩ | ⟨h0, h1, h2, _⟩
  · have := h1.le
    have := h3.le
    unfold measure
    cases l'.fl.exit <;> cases l'.fl.retFmt <;> simp <;> omega
  · rw [h1] at ht; exact absurd rfl ht
  · rw [h2]; simp [measure, h1]
  · rw [h2]; simp [measure, h1, h0]

/-- One token: its range and positions. -/
theorem advance_token {f : Nat} {src : List Nat} {l l' : L} {t : Token} (ha : At src l)
    (h : advance f l = .ok (l', t)) :
    l.pos.off ≤ t.beg.off ∧ t.beg.off ≤ t.fin.off ∧ t.fin.off ≤ l'.pos.off ∧
    t.beg = locate src t.beg.off ∧ t.fin = locate src t.fin.off ∧
    (t.tag ≠ .eof → isMarker t.tag = false → t.beg.off < t.fin.off) ∧
    (t.tag = .eof → l'.rest = [] ∧ t.beg.off = src.length ∧ t.fin.off = src.length) := by
  have hl := ha.pos
  rcases advance_ok f l l' t h with ⟨lb, h1, le, h2, h3, h4, h5, h6, h7⟩ | ⟨h1, h2, h3⟩ | ⟨h1, h2, h3⟩ | ⟨h0, h1, h2, h3⟩
  · have a1 := ha.adv h1
    have a2 := a1.adv h2
    have a3 := a2.adv h3
    have p1 := a1.pos
    have p2 := a2.pos
    have p3 := a3.pos
    have := h1.le
    have := h2.le
    have := h3.le
    rw [h4, h5]
    refine ⟨by omega, by omega, by omega, p1.1, p2.1, fun _ _ => by omega, fun he => absurd he h7⟩
  · have a1 := ha.adv h1
    have p1 := a1.pos
    have := h1.le
    rw [h3] at p1
    subst h2
    simp only [mk]
    refine ⟨by simp at p1; omega, Nat.le_refl _, Nat.le_refl _, p1.1, p1.1, fun h => absurd rfl h, fun _ => ⟨h3, ?_, ?_⟩⟩ <;>
      simpa using p1.2
  · subst h2; subst h3
    exact ⟨Nat.le_refl _, Nat.le_refl _, Nat.le_refl _, hl.1, hl.1, fun _ h => by simp [isMarker, mk] at h, fun h => by simp [mk] at h⟩
  · subst h2; subst h3
    exact ⟨Nat.le_refl _, Nat.le_refl _, Nat.le_refl _, hl.1, hl.1, fun _ h => by simp [isMarker, mk] at h, fun h => by simp [mk] at h⟩

theorem lexAll_tokens {f : Nat} {src : List Nat} : ∀ (n : Nat) (l : L) (toks : List Token), At src l →
    lexAll f n l = .ok toks → Covers src toks ∧ (∀ t ∈ toks, l.pos.off ≤ t.beg.off) ∧
      ∀ t ∈ toks, t.beg = locate src t.beg.off ∧ t.fin = locate src t.fin.off := by
  intro n
  induction n with
  | zero => intro l toks _ h; simp [lexAll] at h
  | succ n ih =>
    intro l toks ha h
    unfold lexAll at h
    cases hr : advance f l with
    | ub => rw [hr] at h; cases h
    | diverge => rw [hr] at h; cases h
    | ok r =>
      obtain ⟨l', t⟩ := r
      rw [hr] at h
      simp only [Res.bind_ok] at h
      obtain ⟨t1, t2, t3, t4, t5, t6, t7⟩ := advance_token ha hr
      have ha' := ha.adv (advance_ok f l l' t hr).adv
      have hp' := ha'.pos
      by_cases he : t.tag = .eof
      · rw [if_pos he] at h
        cases h
        obtain ⟨_, e1, e2⟩ := t7 he
        refine ⟨⟨⟨[], t, rfl, he, e1, e2, by simp⟩, ?_, ?_, by simp⟩, ?_, ?_⟩
        · intro u hu; simp at hu; subst hu; omega
        · intro u hu; simp at hu; subst hu; exact t6
        · intro u hu; simp at hu; subst hu; exact t1
        · intro u hu; simp at hu; subst hu; exact ⟨t4, t5⟩
      · rw [if_neg he] at h
        cases hq : lexAll f n l' with
        | ub => rw [hq] at h; cases h
        | diverge => rw [hq] at h; cases h
        | ok ts =>
          rw [hq] at h
          cases h
          obtain ⟨hc, hle, hloc⟩ := ih l' ts ha' hq
          have hmem : ∀ u ∈ ts, t.fin.off ≤ u.beg.off := fun u hu => Nat.le_trans t3 (hle u hu)
          refine ⟨⟨?_, ?_, ?_, ?_⟩, ?_, ?_⟩
          · obtain ⟨us, u, h1, h2, h3, h4, h5⟩ := hc.last
            refine ⟨t :: us, u, by rw [h1]; rfl, h2, h3, h4, ?_⟩
            intro w hw
            rcases List.mem_cons.mp hw with rfl | hw
            · exact he
            · exact h5 w hw
          · intro u hu
            rcases List.mem_cons.mp hu with rfl | hu
            · omega
            · exact hc.range u hu
          · intro u hu
            rcases List.mem_cons.mp hu with rfl | hu
            · exact t6
            · exact hc.nonempty u hu
          · exact List.pairwise_cons.mpr ⟨hmem, hc.ordered⟩
          · intro u hu
            rcases List.mem_cons.mp hu with rfl | hu
            · exact t1
            · have := hmem u hu; omega
          · intro u hu
            rcases List.mem_cons.mp hu with rfl | hu
            · exact ⟨t4, t5⟩
            · exact hloc u hu

theorem init_at (src : List Nat) : At src (init src) := ⟨[], rfl, rfl⟩

theorem lexAll_fin {asc : Prop} {f : Nat} : ∀ (n : Nat) (l : L), measure l < n → l.rest.length + 2 ≤ f →
    (l.rest = [] ∨ Good l.rest) → EnterInv l → (asc → ∀ b ∈ l.rest, b < 128) → Fin asc (lexAll f n l) := by
  intro n
  induction n with
  | zero => intro l h; omega
  | succ n ih =>
    intro l hm hf hg hi ha
    unfold lexAll
    have h1 := advance_fin asc f (l.rest.length + 1) (by omega) l hg hi ha (by omega)
    apply Fin.bind h1
    rintro ⟨l', t⟩ hr
    simp only []
    by_cases he : t.tag = .eof
    · rw [if_pos he]; trivial
    · rw [if_neg he]
      have hadv := (advance_ok f l l' t hr).adv
      have := advance_measure hr he
      have := hadv.le
      have h2 := ih l' (by omega) (by omega) (good_or_nil hg hadv) (advance_enter f l l' t hi hr) (asc_adv ha hadv)
      cases hq : lexAll f n l' with
      | ub => rw [hq] at h2; exact h2
      | diverge => rw [hq] at h2; exact h2
      | ok ts => trivial

/-! ## C18: lexing ends, and covers the source -/

/-- **C18 (partial).** A source that ends with a newline not preceded by a backslash is lexed in finitely
many steps, and if it is ASCII text the lexer gives a token sequence (and does not fail).  Missing: sources
that end otherwise, on which the lexer may run forever (theorems below), and the value of character
literals with other bytes, on which an assertion of the compiler may fail. -/
theorem lexing_ends_partial (text : List Nat) (h : text.getLast? ≠ some 92) (fuel : Nat)
    (hf : 3 * text.length + 6 ≤ fuel) :
    lex fuel (text ++ [10]) ≠ .diverge ∧
    ((∀ b ∈ text, b < 128) → ∃ toks, lex fuel (text ++ [10]) = .ok toks) := by
  have hm : measure (init (text ++ [10])) < fuel := by simp [measure, init]; omega
  have hg : (init (text ++ [10])).rest = [] ∨ Good (init (text ++ [10])).rest := Or.inr ⟨text, rfl, h⟩
  have hi : EnterInv (init (text ++ [10])) := enterInv_of_false rfl
  have hlen : (init (text ++ [10])).rest.length + 2 ≤ fuel := by simp [init]; omega
  constructor
  · have := lexAll_fin (asc := False) fuel (init (text ++ [10])) hm hlen hg hi (fun h => h.elim)
    unfold lex
    intro hd
    rw [hd] at this
    exact this
  · intro ha
    have := lexAll_fin (asc := True) fuel (init (text ++ [10])) hm hlen hg hi (by
      intro _ b hb
      rcases List.mem_append.mp hb with hb | hb
      · exact ha b hb
      · simp at hb; omega)
    unfold lex
    revert this
    cases lexAll fuel fuel (init (text ++ [10])) with
    | ok ts => intro _; exact ⟨ts, rfl⟩
    | ub => intro h; exact absurd trivial h
    | diverge => intro h; exact h.elim

example : (str "x = 'a' /* c */ + 0b12").getLast? ≠ some 92 ∧ ∀ b ∈ str "x = 'a' /* c */ + 0b12", b < 128 := by
  decide

/-- **C18.** Whatever the source, a token sequence that the lexer gives covers it: the sequence ends with the
only end-of-file token, which stands at the end of the source; the ranges are in order and do not overlap;
every token but the end of file and the two empty markers consumes at least one byte. -/
theorem tokens_cover_source (fuel : Nat) (src : List Nat) (toks : List Token) (h : lex fuel src = .ok toks) :
    Covers src toks :=
  (lexAll_tokens fuel (init src) toks (init_at src) h).1

example : ∃ toks, lex 20 (str "a+1") = .ok toks ∧ toks.map (·.tag) = [.ident, .sym .Plus, .intLit 1, .eof] :=
  ⟨_, rfl, by decide⟩

/-! ## C67: token positions -/

/-- **C67.** The line and column recorded for the begin and the end of every token are those of its byte
offsets in the source. -/
theorem token_positions (fuel : Nat) (src : List Nat) (toks : List Token) (h : lex fuel src = .ok toks) :
    ∀ t ∈ toks, t.beg = locate src t.beg.off ∧ t.fin = locate src t.fin.off :=
  (lexAll_tokens fuel (init src) toks (init_at src) h).2.2

example : ∃ toks, lex 30 (str "a\n  b") = .ok toks ∧ (toks.map fun t => (t.beg.row, t.beg.col)) = [(1, 1), (2, 3), (2, 4)] :=
  ⟨_, rfl, by decide⟩

/-! ## C18 is false of the code: sources on which the lexer never ends -/

theorem lex_of_advance {src : List Nat} (h : ∀ f, advance f (init src) = .diverge) (fuel : Nat) :
    lex fuel src = .diverge := by
  unfold lex
  cases fuel with
  | zero => rfl
  | succ n => unfold lexAll; rw [h]; rfl

theorem advance_of_lexOne {src : List Nat} (h : ∀ f, lexOne (advance f) f (init src) = .diverge) (f : Nat) :
    advance f (init src) = .diverge := by
  cases f with
  | zero => rfl
  | succ f =>
    unfold advance
    rw [if_neg (by simp [init]), if_neg (by simp [init])]
    have : clearMaybe (init src) = init src := rfl
    rw [this]
    cases f with
    | zero => rfl
    | succ f => unfold lexLoop; rw [h]; rfl

theorem stringLoop_unterminated (beg : Pos) : ∀ (f : Nat) (body : List Nat) (p : Pos) (fl : Flags),
    (∀ b ∈ body, b ≠ 34 ∧ b ≠ 10) → stringLoop beg true f ⟨body, p, fl⟩ = .diverge := by
  intro f
  induction f with
  | zero => intro body p fl _; rfl
  | succ f ih =>
    intro body p fl h
    cases body with
    | nil => exact stringLoop_stuck _ _ _ _ rfl
    | cons c r =>
      have hc := h c (by simp)
      have hr : ∀ b ∈ r, b ≠ 34 ∧ b ≠ 10 := fun b hb => h b (by simp [hb])
      unfold stringLoop
      rw [if_neg (by simpa [cur] using hc.1), if_neg (by simp [accepts, cur, hc.2])]
      split
      · cases r with
        | nil => exact stringLoop_stuck _ _ _ _ rfl
        | cons d r => exact ih r _ _ fun b hb => hr b (by simp [hb])
      · rw [if_neg (by simp)]
        exact ih r _ _ hr

/-- **C18 is false of the code.** A string literal that is still open at the end of the file sends the lexer
into an endless loop, whatever its text. -/
theorem unterminated_string_diverges (body : List Nat) (h : ∀ b ∈ body, b ≠ 34 ∧ b ≠ 10) (fuel : Nat) :
    lex fuel (34 :: body) = .diverge := by
  refine lex_of_advance (advance_of_lexOne fun f => ?_) fuel
  have hq : ¬ (cur (skipChar (init (34 :: body))) = 34 ∧ peekNext (skipChar (init (34 :: body))) = 34) := by
    rintro ⟨h1, _⟩
    cases body with
    | nil => simp [cur, skipChar, init] at h1
    | cons c r => simp [cur, skipChar, init] at h1; exact (h c (by simp)).1 h1
  show ((lexQuote f ⟨0, 1, 1⟩ (skipChar (init (34 :: body)))).bind done) = .diverge
  unfold lexQuote
  rw [if_neg hq]
  unfold lexString
  have : skipChar (init (34 :: body)) = ⟨body, ⟨1, 1, 2⟩, {}⟩ := rfl
  rw [this, stringLoop_unterminated _ f body _ _ h]
  rfl

example : ∀ b ∈ str "hello \\n", b ≠ 34 ∧ b ≠ 10 := by decide

theorem charLoop_unterminated : ∀ (f k : Nat) (body : List Nat) (p : Pos) (fl : Flags),
    (∀ b ∈ body, b ≠ 39 ∧ b ≠ 10) → charLoop f k ⟨body, p, fl⟩ = .diverge := by
  intro f
  induction f with
  | zero => intro k body p fl _; rfl
  | succ f ih =>
    intro k body p fl h
    cases body with
    | nil => exact charLoop_stuck _ _ _ rfl
    | cons c r =>
      have hc := h c (by simp)
      have hr : ∀ b ∈ r, b ≠ 39 ∧ b ≠ 10 := fun b hb => h b (by simp [hb])
      unfold charLoop
      rw [if_neg (by simpa [cur, not_or] using hc)]
      split
      · cases r with
        | nil => exact charLoop_stuck _ _ _ rfl
        | cons d r => exact ih _ r _ _ fun b hb => hr b (by simp [hb])
      · exact ih _ r _ _ hr

/-- **C18 is false of the code.** The same for a character literal. -/
theorem unterminated_char_diverges (body : List Nat) (h : ∀ b ∈ body, b ≠ 39 ∧ b ≠ 10) (fuel : Nat) :
    lex fuel (39 :: body) = .diverge := by
  refine lex_of_advance (advance_of_lexOne fun f => ?_) fuel
  show ((lexChar f ⟨0, 1, 1⟩ (skipChar (init (39 :: body)))).bind done) = .diverge
  unfold lexChar
  have : skipChar (init (39 :: body)) = ⟨body, ⟨1, 1, 2⟩, {}⟩ := rfl
  rw [this, charLoop_unterminated f 0 body _ _ h]
  rfl

theorem lexOne_eof (adv : L → Res (L × Token)) (f : Nat) (p : Pos) (fl : Flags) (h : fl.enter = false) :
    lexOne adv f ⟨[], p, fl⟩ = .ok (.tok ⟨[], p, fl⟩ ⟨.eof, p, p⟩) := by
  unfold lexOne
  rw [if_neg (by simp [h])]
  rfl

theorem advance_eof (f : Nat) (p : Pos) (fl : Flags) (h : Clean ⟨[], p, fl⟩) :
    ∃ r, (∀ l' t, r = .ok (l', t) → ∃ fl', l' = ⟨[], p, fl'⟩ ∧ Clean ⟨[], p, fl'⟩) ∧
      advance f ⟨[], p, fl⟩ = r := by
  refine ⟨_, ?_, rfl⟩
  intro l' t hr
  obtain ⟨h1, _, h3⟩ := advance_word f _ _ _ h rfl hr
  obtain ⟨bs, _, h4, h5⟩ := h1
  simp at h4
  obtain ⟨rfl, h4⟩ := h4
  have h3 : Clean l' := by
    rcases h3 with h3 | h3
    · exact h3
    · have := h3.2; simp [cur, h4] at this
  obtain ⟨r', p', fl'⟩ := l'
  simp only at h4 h5
  subst h4
  have : p' = p := h5
  subst this
  exact ⟨fl', rfl, h3⟩

theorem skipUntil_eof (f : Nat) (p : Pos) : ∀ (n : Nat) (fl : Flags), Clean ⟨[], p, fl⟩ →
    ∀ l', skipUntil (advance f) n ⟨[], p, fl⟩ ≠ .ok l' := by
  intro n
  induction n with
  | zero => intro fl _ l' h; simp [skipUntil] at h
  | succ n ih =>
    intro fl hc l' h
    unfold skipUntil at h
    rw [if_neg (by show ¬ isSpaceOrPunct 255 = true; decide)] at h
    obtain ⟨r, h1, h2⟩ := advance_eof f p fl hc
    rw [h2] at h
    cases r with
    | ub => cases h
    | diverge => cases h
    | ok q =>
      obtain ⟨fl', e, hc'⟩ := h1 q.1 q.2 rfl
      simp only [Res.bind_ok] at h
      rw [e] at h
      exact ih fl' hc' l' h

/-- **C18 is false of the code.** A file that ends with a binary literal is not lexed: no number of steps is
enough, whatever the digits. -/
theorem binary_literal_at_eof_never_lexed (ds : List Nat) (h : ∀ d ∈ ds, d = 48 ∨ d = 49) (fuel : Nat)
    (toks : List Token) : lex fuel (48 :: 98 :: ds) ≠ .ok toks := by
  intro hl
  unfold lex at hl
  cases fuel with
  | zero => simp [lexAll] at hl
  | succ n =>
    unfold lexAll at hl
    cases ha : advance (n + 1) (init (48 :: 98 :: ds)) with
    | ub => rw [ha] at hl; cases hl
    | diverge => rw [ha] at hl; cases hl
    | ok r =>
      unfold advance at ha
      rw [if_neg (by simp [init]),
        if_neg (by simp [init])] at ha
      have : clearMaybe (init (48 :: 98 :: ds)) = init (48 :: 98 :: ds) := rfl
      rw [this] at ha
      cases n with
      | zero => simp [lexLoop] at ha
      | succ n =>
        unfold lexLoop at ha
        rw [lexOne_atWord (by simp [init]) (by rfl) rfl] at ha
        have hw : lexWord (advance (n + 1)) (n + 1) (init (48 :: 98 :: ds)).pos (init (48 :: 98 :: ds)) =
            (lexPrefixed (advance (n + 1)) (n + 1) ⟨0, 1, 1⟩ 2 (fun c => c == 48 || c == 49)
              ⟨ds, ⟨2, 1, 3⟩, {}⟩).bind done := rfl
        rw [hw] at ha
        have hskip : ∃ p, skipWhile (fun c => c == 48 || c == 49) ⟨ds, ⟨2, 1, 3⟩, {}⟩ = ⟨[], p, {}⟩ := by
          have hfl := skipWhile_fl (fun c => c == 48 || c == 49) ⟨ds, ⟨2, 1, 3⟩, {}⟩
          have hst := skipWhile_stop (fun c => c == 48 || c == 49) ⟨ds, ⟨2, 1, 3⟩, {}⟩
          obtain ⟨bs, _, hb, _⟩ := skipWhile_adv (fun c => c == 48 || c == 49) ⟨ds, ⟨2, 1, 3⟩, {}⟩
          generalize skipWhile (fun c => c == 48 || c == 49) ⟨ds, ⟨2, 1, 3⟩, {}⟩ = m at *
          obtain ⟨r, p, fl⟩ := m
          simp only at hfl hb
          subst hfl
          cases r with
          | nil => exact ⟨p, rfl⟩
          | cons c r =>
            simp [cur] at hst
            rcases h c (by rw [hb]; simp) with h | h <;> omega
        obtain ⟨p, hp⟩ := hskip
        have hpre : ∀ x, lexPrefixed (advance (n + 1)) (n + 1) ⟨0, 1, 1⟩ 2 (fun c => c == 48 || c == 49)
            ⟨ds, ⟨2, 1, 3⟩, {}⟩ ≠ .ok x := by
          intro x hx
          unfold lexPrefixed at hx
          rw [hp] at hx
          simp only [] at hx
          rw [if_pos (by rfl)] at hx
          cases hs : skipUntil (advance (n + 1)) (n + 1) ⟨[], p, {}⟩ with
          | ub => rw [hs] at hx; cases hx
          | diverge => rw [hs] at hx; cases hx
          | ok l' => exact skipUntil_eof _ _ _ _ ⟨rfl, rfl, rfl⟩ l' hs
        cases hq : lexPrefixed (advance (n + 1)) (n + 1) ⟨0, 1, 1⟩ 2 (fun c => c == 48 || c == 49)
            ⟨ds, ⟨2, 1, 3⟩, {}⟩ with
        | ub => rw [hq] at ha; cases ha
        | diverge => rw [hq] at ha; cases ha
        | ok x => exact hpre x hq

example : ∀ d ∈ str "1011", d = 48 ∨ d = 49 := by decide

/-- **C18 is false of the code.** A character literal that ends the file makes the compiler subtract
pointers into different objects. -/
theorem char_literal_at_eof_undefined (c : Nat) (h : c ≠ 39 ∧ c ≠ 10 ∧ c ≠ 92) (fuel : Nat) (hf : 5 ≤ fuel) :
    lex fuel [39, c, 39] = .ub := by
  obtain ⟨n, rfl⟩ : ∃ n, fuel = n + 5 := ⟨fuel - 5, by omega⟩
  have hloop : charLoop (n + 4) 0 ⟨[c, 39], ⟨1, 1, 2⟩, {}⟩ = .ok (1, ⟨[39], stepPos ⟨1, 1, 2⟩ c, {}⟩) := by
    unfold charLoop
    rw [if_neg (by simp only [cur, List.headD_cons]; omega), if_neg (by simp only [cur, List.headD_cons]; omega)]
    rfl
  have h1 : advance (n + 5) (init [39, c, 39]) = .ub := by
    show ((((lexChar (n + 4) ⟨0, 1, 1⟩ ⟨[c, 39], ⟨1, 1, 2⟩, {}⟩).bind done).bind _)) = .ub
    unfold lexChar
    rw [hloop]
    rfl
  unfold lex lexAll
  rw [h1]
  rfl

end Verif.Lexer
