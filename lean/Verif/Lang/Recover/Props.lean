import Verif.Lang.Recover.Model
/-!
# Where parsing goes on after a syntax error: properties
-/
namespace Verif.Recover

/-! ## Specification -/

/-- Code in which every brace that is opened is closed. -/
inductive Bal : List Tok → Prop where
  | nil : Bal []
  | tok {t : Tok} {ts : List Tok} : t ≠ .lbrace → t ≠ .rbrace → Bal ts → Bal (t :: ts)
  | braces {a b : List Tok} : Bal a → Bal b → Bal (.lbrace :: (a ++ .rbrace :: b))

/-- The tokens a declaration can begin with: attributes, `pub`, `extern`, the keywords of
declarations, and `#` for those under a condition. -/
def Begins (t : Tok) : Prop :=
  t ∈ [Tok.type, .struct, .class, .enum, .var, .const, .async, .func, .at, .define, .interface,
    .pub, .macro, .extern, .test, .exception, .hash]

/-- Tokens that neither begin nor end anything that parsing could go on at. -/
def Junk (ts : List Tok) : Prop :=
  ∀ t ∈ ts, t = .lbrace ∨ t = .rbrace ∨ ∃ n, t = .other n

/-! ## Errors in blocks -/

theorem until_len (tag : Tok) (ts : List Tok) : (syncUntil tag ts).length ≤ ts.length := by
  induction ts with
  | nil => simp [syncUntil]
  | cons t ts ih =>
    simp only [syncUntil]
    split
    · simp
    · simp only [List.length_cons]; omega

theorem until_first (tag : Tok) (a b : List Tok) (h : tag ∉ a) :
    syncUntil tag (a ++ tag :: b) = tag :: b := by
  induction a with
  | nil => simp [syncUntil]
  | cons t a ih =>
    simp only [List.mem_cons, not_or] at h
    have : t ≠ tag := fun e => h.1 e.symm
    simp only [List.cons_append, syncUntil, if_neg this]
    exact ih h.2

theorem until_early (tag : Tok) (a b : List Tok) (h : tag ∈ a) :
    b.length < (syncUntil tag (a ++ b)).length := by
  induction a with
  | nil => simp at h
  | cons t a ih =>
    simp only [List.cons_append, syncUntil]
    split
    · simp only [List.length_cons, List.length_append]; omega
    · rename_i hn
      simp only [List.mem_cons] at h
      rcases h with h | h
      · exact absurd h.symm hn
      · exact ih h

theorem bal_rbrace {ts : List Tok} (h : Bal ts) : Tok.rbrace ∈ ts ↔ Tok.lbrace ∈ ts := by
  induction h with
  | nil => simp
  | tok h1 h2 _ ih =>
    simp only [List.mem_cons, ih, Ne.symm h1, Ne.symm h2, false_or]
  | braces _ _ _ _ => simp

/-- After an error in a block, outside of any braces in it, parsing goes on at the end of the block
exactly if there are no braces in what is left of the block. -/
theorem block_iff (t : Tok) (body after : List Tok) (hb : Bal body) :
    inBlock (t :: (body ++ .rbrace :: after)) = .rbrace :: after ↔ Tok.lbrace ∉ body := by
  rw [← bal_rbrace hb]
  constructor
  · intro h hm
    have := until_early .rbrace body (.rbrace :: after) hm
    simp only [inBlock, raised, advance, List.tail_cons] at h
    rw [h] at this
    omega
  · intro h
    exact until_first _ _ _ h

/-- If there are braces, it goes on at the first that is closed: all behind it is taken for code
behind the block. -/
theorem block_first (t : Tok) (a b after : List Tok) (ha : Tok.rbrace ∉ a) :
    inBlock (t :: (a ++ .rbrace :: (b ++ .rbrace :: after))) =
      .rbrace :: (b ++ .rbrace :: after) :=
  until_first _ _ _ ha

/-- After an error within braces of a statement, or at such a brace, it never goes on at the end of
the block. -/
theorem block_within_never (t : Tok) (a b after : List Tok) :
    inBlock (t :: (a ++ .rbrace :: (b ++ .rbrace :: after))) ≠ .rbrace :: after := by
  intro h
  have := until_early .rbrace (a ++ .rbrace :: b) (.rbrace :: after) (by simp)
  simp only [inBlock, raised, advance, List.tail_cons] at h
  simp only [List.append_assoc, List.cons_append] at this
  rw [h] at this
  omega

/-- If the error is at the end of the block itself, it never goes on there. -/
theorem block_end_never (after : List Tok) : inBlock (.rbrace :: after) ≠ .rbrace :: after := by
  intro h
  have := until_len .rbrace after
  simp only [inBlock, raised, advance, List.tail_cons] at h
  rw [h] at this
  simp only [List.length_cons] at this
  omega

/-- All code up to the next closing brace is then skipped, whatever it is. -/
theorem block_end_skips (code after : List Tok) (h : Tok.rbrace ∉ code) :
    inBlock (.rbrace :: (code ++ .rbrace :: after)) = .rbrace :: after :=
  until_first _ _ _ h

-- `x = ); y; } func`: fine.
example : Bal [.semi, .other 1, .semi] ∧ Tok.lbrace ∉ [Tok.semi, .other 1, .semi] ∧
    inBlock [.other 0, .semi, .other 1, .semi, .rbrace, .func] = [.rbrace, .func] :=
  ⟨.tok (by decide) (by decide) (.tok (by decide) (by decide) (.tok (by decide) (by decide) .nil)),
    by decide, by decide⟩
-- `x = ); if y { z } w } func`: goes on at the end of the `if`, `w }` is left.
example : Bal [.semi, .if, .other 1, .lbrace, .other 2, .rbrace, .other 3] ∧
    inBlock [.other 0, .semi, .if, .other 1, .lbrace, .other 2, .rbrace, .other 3, .rbrace, .func] =
      [.rbrace, .other 3, .rbrace, .func] :=
  ⟨.tok (by decide) (by decide) (.tok (by decide) (by decide) (.tok (by decide) (by decide)
    (.braces (a := [.other 2]) (b := [.other 3]) (.tok (by decide) (by decide) .nil)
      (.tok (by decide) (by decide) .nil)))), by decide⟩
-- `x = } func g { y } var`: all of `g` but its end is skipped.
example : Tok.rbrace ∉ [Tok.func, .other 1, .lbrace, .other 2] ∧
    inBlock [.rbrace, .func, .other 1, .lbrace, .other 2, .rbrace, .var] = [.rbrace, .var] := by
  decide

/-! ## Errors in other declarations -/

theorem loop_len (ts : List Tok) : (syncLoop ts).length ≤ ts.length := by
  induction ts with
  | nil => simp [syncLoop]
  | cons t ts ih =>
    simp only [syncLoop]
    split
    · simp
    · split
      · simp
      · simp only [List.length_cons]; omega

theorem loop_junk (a b : List Tok) (h : Junk a) : syncLoop (a ++ b) = syncLoop b := by
  induction a with
  | nil => rfl
  | cons t a ih =>
    have ht := h t (by simp)
    have ha : Junk a := fun x hx => h x (by simp [hx])
    rcases ht with rfl | rfl | ⟨n, rfl⟩ <;> simp [syncLoop, stops, ih ha]

/-- The declarations that parsing goes on at. -/
theorem loop_begins (d : Tok) (rest : List Tok) (hd : Begins d) :
    syncLoop (d :: rest) = d :: rest ↔ d ∉ [Tok.extern, .test, .exception, .hash] := by
  have hl := loop_len rest
  constructor
  · intro h hm
    have : syncLoop (d :: rest) = syncLoop rest := by
      simp only [List.mem_cons, List.not_mem_nil, or_false] at hm
      rcases hm with rfl | rfl | rfl | rfl <;> simp [syncLoop, stops]
    rw [this] at h
    rw [h] at hl
    simp only [List.length_cons] at hl
    omega
  · intro h
    simp only [Begins, List.mem_cons, List.not_mem_nil, or_false] at hd
    rcases hd with rfl | rfl | rfl | rfl | rfl | rfl | rfl | rfl | rfl | rfl | rfl | rfl | rfl |
      rfl | rfl | rfl | rfl <;> first | (exact absurd (by decide) h) | simp [syncLoop, stops]

/-- After an error in a declaration, parsing goes on at the next declaration exactly if there is a
token between the two and the declaration is not one that begins with `extern`, `test`,
`exception` or `#`. -/
theorem program_iff (bad d : Tok) (junk rest : List Tok) (hj : Junk junk) (hd : Begins d) :
    inProgram (bad :: (junk ++ d :: rest)) = d :: rest ↔
      junk ≠ [] ∧ d ∉ [Tok.extern, .test, .exception, .hash] := by
  cases junk with
  | nil =>
    simp only [inProgram, raised, synchronize, advance, List.tail_cons, List.nil_append, ne_eq,
      not_true_eq_false, false_and, iff_false]
    intro h
    have := loop_len rest
    rw [h] at this
    simp only [List.length_cons] at this
    omega
  | cons j junk =>
    have ha : Junk junk := fun x hx => hj x (by simp [hx])
    simp only [inProgram, raised, synchronize, advance, List.tail_cons, List.cons_append,
      loop_junk _ _ ha, loop_begins d rest hd, ne_eq, reduceCtorEq, not_false_eq_true, true_and]

/-- Behind a semicolon it goes on with any declaration, if there is a token before the semicolon. -/
theorem program_semi_partial (bad j : Tok) (junk rest : List Tok) (hj : Junk junk) :
    inProgram (bad :: j :: (junk ++ .semi :: rest)) = rest := by
  simp [inProgram, raised, synchronize, advance, loop_junk _ _ hj, syncLoop]

/-- What is declared `extern` behind an error is then taken for a declaration that is not. -/
theorem program_extern_lost (bad j d : Tok) (junk rest : List Tok) (hj : Junk junk)
    (hd : d ∈ [Tok.type, .var, .const, .func, .struct]) :
    inProgram (bad :: j :: (junk ++ .extern :: d :: rest)) = d :: rest := by
  simp only [List.mem_cons, List.not_mem_nil, or_false] at hd
  rcases hd with rfl | rfl | rfl | rfl | rfl <;>
    simp [inProgram, raised, synchronize, advance, loop_junk _ _ hj, syncLoop, stops]

/-- After every error less is left than before, so that parsing comes to its end. -/
theorem program_less (bad : Tok) (rest : List Tok) :
    (inProgram (bad :: rest)).length < (bad :: rest).length := by
  have h := loop_len rest.tail
  have : rest.tail.length ≤ rest.length := by simp
  simp only [inProgram, raised, synchronize, advance, List.tail_cons, List.length_cons]
  omega

-- `) x func f`: fine; `) func f struct S`: `f` is skipped; `) x test t var v`: the test is skipped.
example : Junk [.other 1] ∧ Begins .func ∧
    inProgram [.other 0, .other 1, .func, .other 2] = [.func, .other 2] :=
  ⟨by simp [Junk], by simp [Begins], by decide⟩
example : inProgram [.other 0, .func, .other 1, .lbrace, .rbrace, .struct, .other 2] =
    [.struct, .other 2] := by decide
example : inProgram [.other 0, .other 1, .test, .other 2, .lbrace, .rbrace, .var, .other 3] =
    [.var, .other 3] := by decide
-- `) x extern func f ;`
example : inProgram [.other 0, .other 1, .extern, .func, .other 2, .semi] =
    [.func, .other 2, .semi] := by decide
-- `) x ; test t { }`
example : Junk [] ∧ inProgram [.other 0, .other 1, .semi, .test, .other 2, .lbrace, .rbrace] =
    [.test, .other 2, .lbrace, .rbrace] := ⟨by simp [Junk], by decide⟩

end Verif.Recover
