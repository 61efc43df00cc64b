import Verif.Lang.Attr.Model
/-!
# Attributes and their arguments: properties
-/
namespace Verif.Attr

/-! ## Specification -/

/-- A value as written: a literal with or without a sign. -/
inductive Value where
  | plain (v : Nat)
  | neg (v : Nat)
  | pos (v : Nat)
deriving DecidableEq, Repr

/-- An argument as written: maybe a name, and a value. -/
structure Written where
  name : Option Nat
  value : Value
deriving DecidableEq, Repr

/-- The text of a value. -/
def Value.text : Value → List Tok
  | .plain v => [.lit v]
  | .neg v => [.minus, .lit v]
  | .pos v => [.plus, .lit v]

/-- The text of an argument. -/
def Written.text (w : Written) : List Tok :=
  (match w.name with | none => [] | some n => [.ident n, .colon]) ++ w.value.text

/-- The text of arguments with commas between. -/
def text : List Written → List Tok
  | [] => []
  | [w] => w.text
  | w :: w' :: ws => w.text ++ .comma :: text (w' :: ws)

/-- The text of an attribute. -/
def attrText (name : Nat) (ws : List Written) : List Tok :=
  .ident name :: .lparen :: (text ws ++ [.rparen])

/-- An argument that came through. -/
inductive Same : Written → Arg → Prop where
  | pos (v : Nat) : Same ⟨none, .plain v⟩ (.pos v)
  | named (n v : Nat) : Same ⟨some n, .plain v⟩ (.named n v)

/-- The arguments that came through. -/
inductive AllSame : List Written → List Arg → Prop where
  | nil : AllSame [] []
  | cons {w : Written} {a : Arg} {ws : List Written} {as : List Arg} :
      Same w a → AllSame ws as → AllSame (w :: ws) (a :: as)

/-- Values without a sign. -/
def Unsigned (ws : List Written) : Prop := ∀ w ∈ ws, ∃ v, w.value = .plain v

/-- No argument has a name, or all have. -/
def Uniform (ws : List Written) : Prop :=
  (∀ w ∈ ws, w.name = none) ∨ (∀ w ∈ ws, w.name ≠ none)

/-! ## Lemmas -/

theorem args_iff (ws : List Written) (rest : List Tok) :
    (∃ as, args (text ws ++ .rparen :: rest) = some (as, rest) ∧ AllSame ws as) ↔
      Unsigned ws ∧ ∀ w ∈ ws, w.name = none := by
  fun_induction text ws with
  | case1 => simp [args, Unsigned, AllSame.nil]
  | case2 w =>
    obtain ⟨n, v⟩ := w
    cases n <;> cases v <;> simp [Written.text, Value.text, args, Unsigned]
    exact .cons (.pos _) .nil
  | case3 w w' ws ih =>
    obtain ⟨n, v⟩ := w
    cases n with
    | some n => cases v <;> simp [Written.text, Value.text, args]
    | none =>
      cases v with
      | neg v => simp [Written.text, Value.text, args, Unsigned]
      | pos v => simp [Written.text, Value.text, args, Unsigned]
      | plain v =>
        have : (Unsigned (⟨none, .plain v⟩ :: w' :: ws) ∧
            ∀ w ∈ (⟨none, .plain v⟩ :: w' :: ws : List Written), w.name = none) ↔
            (Unsigned (w' :: ws) ∧ ∀ w ∈ w' :: ws, w.name = none) := by
          simp [Unsigned]
        rw [this, ← ih]
        simp only [Written.text, Value.text, List.nil_append, List.cons_append, args]
        constructor
        · rintro ⟨as, h, hs⟩
          cases hs with
          | cons h1 h2 =>
            rename_i a as
            simp only [Option.map_eq_some_iff, Prod.mk.injEq, List.cons.injEq] at h
            obtain ⟨⟨x, y⟩, hx, ⟨_, e⟩, e'⟩ := h
            simp only at e e'
            subst e e'
            exact ⟨_, hx, h2⟩
        · rintro ⟨as, h, hs⟩
          exact ⟨.pos v :: as, by simp [h], .cons (.pos v) hs⟩

theorem kvps_iff (ws : List Written) (rest : List Tok) :
    (∃ as, kvps (text ws ++ .rparen :: rest) = some (as, rest) ∧ AllSame ws as) ↔
      Unsigned ws ∧ ∀ w ∈ ws, w.name ≠ none := by
  fun_induction text ws with
  | case1 => simp [kvps, Unsigned, AllSame.nil]
  | case2 w =>
    obtain ⟨n, v⟩ := w
    cases n <;> cases v <;> simp [Written.text, Value.text, kvps, Unsigned]
    exact .cons (.named _ _) .nil
  | case3 w w' ws ih =>
    obtain ⟨n, v⟩ := w
    cases n with
    | none => cases v <;> simp [Written.text, Value.text, kvps]
    | some n =>
      cases v with
      | neg v => simp [Written.text, Value.text, kvps, Unsigned]
      | pos v => simp [Written.text, Value.text, kvps, Unsigned]
      | plain v =>
        have : (Unsigned (⟨some n, .plain v⟩ :: w' :: ws) ∧
            ∀ w ∈ (⟨some n, .plain v⟩ :: w' :: ws : List Written), w.name ≠ none) ↔
            (Unsigned (w' :: ws) ∧ ∀ w ∈ w' :: ws, w.name ≠ none) := by
          simp [Unsigned]
        rw [this, ← ih]
        simp only [Written.text, Value.text, List.nil_append, List.cons_append, kvps]
        constructor
        · rintro ⟨as, h, hs⟩
          cases hs with
          | cons h1 h2 =>
            rename_i a as
            simp only [Option.map_eq_some_iff, Prod.mk.injEq, List.cons.injEq] at h
            obtain ⟨⟨x, y⟩, hx, ⟨_, e⟩, e'⟩ := h
            simp only at e e'
            subst e e'
            exact ⟨_, hx, h2⟩
        · rintro ⟨as, h, hs⟩
          exact ⟨.named n v :: as, by simp [h], .cons (.named n v) hs⟩

/-- Text of arguments whose first has no name. -/
theorem first_pos (name : Nat) (w : Written) (ws : List Written) (r : List Tok)
    (h : w.name = none) :
    attrib (.ident name :: .lparen :: (text (w :: ws) ++ r)) =
      (args (text (w :: ws) ++ r)).map fun x => (name, x.1, x.2) := by
  obtain ⟨n, v⟩ := w
  simp only at h
  subst h
  cases ws <;> cases v <;> simp [text, Written.text, Value.text, attrib]

/-- Text of arguments whose first has one. -/
theorem first_named (name n : Nat) (v : Value) (ws : List Written) (r : List Tok) :
    attrib (.ident name :: .lparen :: (text (⟨some n, v⟩ :: ws) ++ r)) =
      (kvps (text (⟨some n, v⟩ :: ws) ++ r)).map fun x => (name, x.1, x.2) := by
  cases ws <;> simp [text, Written.text, attrib]

/-! ## Properties -/

/-- The arguments of an attribute come through, in order and with their names, exactly if none has
a sign and either none or all have a name. -/
theorem attr_iff (name : Nat) (ws : List Written) (rest : List Tok) :
    (∃ as, attrib (.ident name :: .lparen :: (text ws ++ .rparen :: rest)) =
        some (name, as, rest) ∧ AllSame ws as) ↔ Unsigned ws ∧ Uniform ws := by
  have lift : ∀ (f : Option (List Arg × List Tok)),
      (∃ as, (f.map fun x => (name, x.1, x.2)) = some (name, as, rest) ∧ AllSame ws as) ↔
        (∃ as, f = some (as, rest) ∧ AllSame ws as) := by
    intro f
    cases f with
    | none => simp
    | some x => obtain ⟨a, b⟩ := x; simp
  cases ws with
  | nil => simp [text, attrib, args, Unsigned, Uniform, AllSame.nil]
  | cons w ws =>
    obtain ⟨n, v⟩ := w
    cases n with
    | none =>
      rw [first_pos name _ ws _ rfl, lift, args_iff]
      simp [Uniform]
    | some n =>
      rw [first_named, lift, kvps_iff]
      simp [Uniform]

/-- At an argument with a sign the attribute is rejected, whatever arguments are before it and
whatever is behind it. Stated for arguments without names. -/
theorem signed_never (name v : Nat) (ws : List Written) (rest : List Tok) (sign : Tok)
    (hs : sign = .minus ∨ sign = .plus) (hw : Unsigned ws) (hn : ∀ w ∈ ws, w.name = none) :
    attrib (.ident name :: .lparen ::
      ((ws.flatMap fun w => w.text ++ [.comma]) ++ sign :: .lit v :: rest)) = none := by
  have key : args ((ws.flatMap fun w => w.text ++ [.comma]) ++ sign :: .lit v :: rest) = none := by
    induction ws with
    | nil => rcases hs with rfl | rfl <;> simp [args]
    | cons w ws ih =>
      obtain ⟨n, x⟩ := w
      have h1 := hn ⟨n, x⟩ (by simp)
      obtain ⟨y, h2⟩ := hw ⟨n, x⟩ (by simp)
      simp only at h1 h2
      subst h1 h2
      have ih := ih (fun w h => hw w (by simp [h])) (fun w h => hn w (by simp [h]))
      have ht : Written.text ⟨none, .plain y⟩ = [.lit y] := rfl
      simp only [List.flatMap_cons, ht, List.nil_append, List.cons_append, args,
        ih, Option.map_none]
  cases ws with
  | nil => rcases hs with rfl | rfl <;> simp [attrib, args]
  | cons w ws =>
    obtain ⟨n, x⟩ := w
    have h1 := hn ⟨n, x⟩ (by simp)
    obtain ⟨y, h2⟩ := hw ⟨n, x⟩ (by simp)
    simp only at h1 h2
    subst h1 h2
    have ht : Written.text ⟨none, .plain y⟩ = [.lit y] := rfl
    simp only [List.flatMap_cons, ht, List.nil_append, List.cons_append]
      at key ⊢
    simp [attrib, key]

/-- Without parentheses there are no arguments. -/
theorem attr_bare (name : Nat) (rest : List Tok) (h : rest.head? ≠ some .lparen) :
    attrib (.ident name :: rest) = some (name, [], rest) := by
  cases rest with
  | nil => simp [attrib]
  | cons t rest => cases t <;> simp_all [attrib]

/-- Arguments need no commas between them: without any the same is read. -/
theorem commas_optional (name : Nat) (vs : List Nat) (rest : List Tok) :
    attrib (.ident name :: .lparen :: (vs.map Tok.lit ++ .rparen :: rest)) =
      some (name, vs.map Arg.pos, rest) := by
  have key : args (vs.map Tok.lit ++ .rparen :: rest) = some (vs.map Arg.pos, rest) := by
    induction vs with
    | nil => simp [args]
    | cons v vs ih =>
      cases vs with
      | nil => simp [args]
      | cons u vs =>
        simp only [List.map_cons, List.cons_append] at ih ⊢
        simp [args] at ih ⊢
        exact ih
  cases vs with
  | nil => simp [attrib, args]
  | cons v vs =>
    simp only [List.map_cons, List.cons_append] at key ⊢
    simp [attrib, key]

-- `name(1, 2)`, `name(x: 1, y: 2)`, `name(1, -2)`, `name(1, x: 2)`, `name(1 2)`.
example : Unsigned [⟨none, .plain 1⟩, ⟨none, .plain 2⟩] ∧
    Uniform [⟨none, .plain 1⟩, ⟨none, .plain 2⟩] ∧
    attrib (attrText 0 [⟨none, .plain 1⟩, ⟨none, .plain 2⟩]) = some (0, [.pos 1, .pos 2], []) :=
  ⟨by simp [Unsigned], by simp [Uniform], by decide⟩
example : Uniform [⟨some 5, .plain 1⟩, ⟨some 6, .plain 2⟩] ∧
    attrib (attrText 0 [⟨some 5, .plain 1⟩, ⟨some 6, .plain 2⟩]) =
      some (0, [.named 5 1, .named 6 2], []) := ⟨by simp [Uniform], by decide⟩
example : attrib (attrText 0 [⟨none, .plain 1⟩, ⟨none, .neg 2⟩]) = none := by decide
example : attrib (attrText 0 [⟨none, .plain 1⟩, ⟨some 5, .plain 2⟩]) = none := by decide
example : attrib [.ident 0, .lparen, .lit 1, .lit 2, .rparen, .other 0] =
    some (0, [.pos 1, .pos 2], [.other 0]) := by decide
example : attrib [.ident 0, .other 0] = some (0, [], [.other 0]) := by decide

end Verif.Attr
