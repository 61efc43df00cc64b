import Verif.Lang.Lexer.Progress
/-!
# Nested comments (C19)

The specification reads a comment as a list of items: opening and closing delimiters and plain bytes.
-/
namespace Verif.Lexer.Comment
open Verif.Lexer

/-! ## Specification -/

inductive Item where
  | op
  | cl
  | ch (c : Nat)
  deriving DecidableEq, Repr

/-- The text of an item: `/*`, `*/` or one byte. -/
def Item.text : Item → List Nat
  | .op => [47, 42]
  | .cl => [42, 47]
  | .ch c => [c]

def text (is : List Item) : List Nat := is.flatMap Item.text

/-- Items whose delimiters are balanced. -/
inductive Balanced : List Item → Prop where
  | nil : Balanced []
  | ch (c : Nat) {is : List Item} : Balanced is → Balanced (.ch c :: is)
  | nest {is js : List Item} : Balanced is → Balanced js → Balanced (.op :: (is ++ .cl :: js))

/-- The items are the ones found reading from left to right: no plain byte forms a delimiter with the byte
that follows it. -/
def Plain : List Item → Prop
  | [] => True
  | .ch c :: is => (∀ d, (text is).head? = some d → ¬(c = 47 ∧ d = 42) ∧ ¬(c = 42 ∧ d = 47)) ∧ Plain is
  | _ :: is => Plain is

/-! ## Lemmas -/

/-- From depth `n` the items reach depth 0 at their end and not before. -/
def Closes : Nat → List Item → Prop
  | 0, is => is = []
  | _ + 1, [] => False
  | n + 1, .ch _ :: is => Closes (n + 1) is
  | n + 1, .op :: is => Closes (n + 2) is
  | n + 1, .cl :: is => Closes n is

theorem closes_append {b : List Item} (hb : Balanced b) : ∀ (n : Nat) (is : List Item), Closes (n + 1) is →
    Closes (n + 1) (b ++ is) := by
  induction hb with
  | nil => intro n is h; exact h
  | ch c _ ih => intro n is h; exact ih n is h
  | nest _ _ ih1 ih2 =>
    intro n is h
    simp only [List.cons_append, List.append_assoc]
    exact ih1 (n + 1) _ (ih2 n is h)

theorem closes_split : ∀ (k n : Nat) (is : List Item), is.length ≤ k → Closes (n + 1) is →
    ∃ b js, Balanced b ∧ is = b ++ .cl :: js ∧ Closes n js := by
  intro k
  induction k with
  | zero => intro n is hk h; cases is with
    | nil => exact h.elim
    | cons => simp at hk
  | succ k ih =>
    intro n is hk h
    cases is with
    | nil => exact h.elim
    | cons i is =>
      simp at hk
      cases i with
      | ch c =>
        obtain ⟨b, js, h1, h2, h3⟩ := ih n is hk h
        exact ⟨.ch c :: b, js, .ch c h1, by rw [h2]; rfl, h3⟩
      | cl => exact ⟨[], is, .nil, rfl, h⟩
      | op =>
        obtain ⟨b, js, h1, h2, h3⟩ := ih (n + 1) is hk h
        obtain ⟨b', js', h1', h2', h3'⟩ := ih n js (by rw [h2] at hk; simp at hk; omega) h3
        exact ⟨.op :: (b ++ .cl :: b'), js', .nest h1 h1', by rw [h2, h2']; simp, h3'⟩

theorem text_cons (i : Item) (is : List Item) : text (i :: is) = i.text ++ text is := rfl

theorem loop_zero (f : Nat) (l : L) : commentLoop f 0 l = (true, l) := by
  unfold commentLoop; simp

theorem loop_ch {f n c : Nat} {r : List Nat} {p : Pos} {fl : Flags}
    (h : ∀ d, r.head? = some d → ¬(c = 47 ∧ d = 42) ∧ ¬(c = 42 ∧ d = 47)) :
    commentLoop (f + 1) (n + 1) ⟨c :: r, p, fl⟩ = commentLoop f (n + 1) ⟨r, stepPos p c, fl⟩ := by
  rw [commentLoop.eq_def]
  simp only [Nat.add_one_ne_zero, if_false]
  rw [if_neg (by simp [isEof])]
  have hs : skipChar ⟨c :: r, p, fl⟩ = ⟨r, stepPos p c, fl⟩ := rfl
  rw [hs]
  by_cases h1 : c = 47
  · rw [if_pos (by simp [accepts, isEof, cur, h1]), if_neg]
    intro ha
    cases r with
    | nil => simp [accepts, isEof] at ha
    | cons d r => exact (h d rfl).1 ⟨h1, by simpa [accepts, isEof, cur] using ha⟩
  · rw [if_neg (by simp [accepts, isEof, cur, h1])]
    by_cases h2 : c = 42
    · rw [if_pos (by simp [accepts, isEof, cur, h2]), if_neg]
      intro ha
      cases r with
      | nil => simp [accepts, isEof] at ha
      | cons d r => exact (h d rfl).2 ⟨h2, by simpa [accepts, isEof, cur] using ha⟩
    · rw [if_neg (by simp [accepts, isEof, cur, h2])]

theorem loop_op {f n : Nat} {r : List Nat} {p : Pos} {fl : Flags} :
    commentLoop (f + 1) (n + 1) ⟨47 :: 42 :: r, p, fl⟩ = commentLoop f (n + 2) ⟨r, posAfter p [47, 42], fl⟩ := by
  rw [commentLoop.eq_def]; rfl

theorem loop_cl {f n : Nat} {r : List Nat} {p : Pos} {fl : Flags} :
    commentLoop (f + 1) (n + 1) ⟨42 :: 47 :: r, p, fl⟩ = commentLoop f n ⟨r, posAfter p [42, 47], fl⟩ := by
  rw [commentLoop.eq_def]; rfl

/-- Plainness against the byte that follows. -/
def PlainBefore (r : List Nat) : List Item → Prop
  | [] => True
  | .ch c :: is => (∀ d, (text is ++ r).head? = some d → ¬(c = 47 ∧ d = 42) ∧ ¬(c = 42 ∧ d = 47)) ∧ PlainBefore r is
  | _ :: is => PlainBefore r is

theorem text_ne (i : Item) (is : List Item) : ∃ d s, text (i :: is) = d :: s := by
  cases i <;> exact ⟨_, _, rfl⟩

theorem plain_before {r : List Nat} : ∀ (n : Nat) (is : List Item), Closes n is → Plain is → PlainBefore r is := by
  intro n is
  induction is generalizing n with
  | nil => intro _ _; trivial
  | cons i is ih =>
    intro hc hp
    cases n with
    | zero => simp [Closes] at hc
    | succ n =>
      cases i with
      | op => exact ih _ hc hp
      | cl => exact ih _ hc hp
      | ch c =>
        refine ⟨?_, ih _ hc hp.2⟩
        intro d hd
        cases is with
        | nil => exact (hc : False).elim
        | cons j is =>
          obtain ⟨e, s, he⟩ := text_ne j is
          rw [he] at hd
          apply hp.1
          rw [he]
          exact hd

theorem loop_items (r : List Nat) (fl : Flags) : ∀ (is : List Item) (n f : Nat) (p : Pos), Closes n is → PlainBefore r is →
    commentLoop (f + is.length) n ⟨text is ++ r, p, fl⟩ = (true, ⟨r, posAfter p (text is), fl⟩) := by
  intro is
  induction is with
  | nil =>
    intro n f p hc _
    cases n with
    | zero => exact loop_zero _ _
    | succ n => exact hc.elim
  | cons i is ih =>
    intro n f p hc hp
    cases n with
    | zero => simp [Closes] at hc
    | succ n =>
      rw [List.length_cons, ← Nat.add_assoc]
      cases i with
      | op =>
        show commentLoop (f + is.length + 1) (n + 1) ⟨47 :: 42 :: (text is ++ r), p, fl⟩ = _
        rw [loop_op, ih (n + 2) f _ hc hp, text_cons, posAfter_append]; rfl
      | cl =>
        show commentLoop (f + is.length + 1) (n + 1) ⟨42 :: 47 :: (text is ++ r), p, fl⟩ = _
        rw [loop_cl, ih n f _ hc hp, text_cons, posAfter_append]; rfl
      | ch c =>
        show commentLoop (f + is.length + 1) (n + 1) ⟨c :: (text is ++ r), p, fl⟩ = _
        rw [loop_ch hp.1, ih (n + 1) f _ hc hp.2, text_cons, posAfter_append]; rfl

theorem length_le_text : ∀ is : List Item, is.length ≤ (text is).length := by
  intro is
  induction is with
  | nil => simp
  | cons i is ih => rw [text_cons]; cases i <;> simp [Item.text] <;> omega

/-- What the loop found. -/
theorem loop_found : ∀ (f n : Nat) (l l' : L), commentLoop f n l = (true, l') →
    ∃ is, Closes n is ∧ Plain is ∧ PlainBefore l'.rest is ∧ l.rest = text is ++ l'.rest := by
  intro f
  induction f with
  | zero =>
    intro n l l' h
    cases n with
    | zero => rw [loop_zero] at h; cases h; exact ⟨[], rfl, trivial, trivial, rfl⟩
    | succ n =>
      unfold commentLoop at h
      simp only [Nat.add_one_ne_zero, if_false] at h
      split at h <;> cases h
  | succ f ih =>
    intro n l l' h
    cases n with
    | zero => rw [loop_zero] at h; cases h; exact ⟨[], rfl, trivial, trivial, rfl⟩
    | succ n =>
      obtain ⟨r, p, fl⟩ := l
      cases r with
      | nil => unfold commentLoop at h; simp [isEof] at h
      | cons c r =>
        by_cases hp : ∀ d, r.head? = some d → ¬(c = 47 ∧ d = 42) ∧ ¬(c = 42 ∧ d = 47)
        · rw [loop_ch hp] at h
          obtain ⟨is, h1, h2, h3, h4⟩ := ih _ _ _ h
          simp only at h4
          refine ⟨.ch c :: is, h1, ⟨?_, h2⟩, ⟨?_, h3⟩, by rw [h4]; rfl⟩
          · intro d hd
            apply hp
            rw [h4]
            cases hs : text is with
            | nil => rw [hs] at hd; cases hd
            | cons e s => rw [hs] at hd; exact hd
          · intro d hd; apply hp; rw [h4]; exact hd
        · have hd : (c = 47 ∧ ∃ s, r = 42 :: s) ∨ (c = 42 ∧ ∃ s, r = 47 :: s) := by
            cases r with
            | nil => exact absurd (fun d hd => by cases hd) hp
            | cons d s =>
              by_cases h1 : c = 47 ∧ d = 42
              · exact Or.inl ⟨h1.1, s, by rw [h1.2]⟩
              · by_cases h2 : c = 42 ∧ d = 47
                · exact Or.inr ⟨h2.1, s, by rw [h2.2]⟩
                · exact absurd (fun e he => by cases he; exact ⟨h1, h2⟩) hp
          rcases hd with ⟨rfl, s, rfl⟩ | ⟨rfl, s, rfl⟩
          · rw [loop_op] at h
            obtain ⟨is, h1, h2, h3, h4⟩ := ih _ _ _ h
            simp only at h4
            exact ⟨.op :: is, h1, h2, h3, by rw [h4]; rfl⟩
          · rw [loop_cl] at h
            obtain ⟨is, h1, h2, h3, h4⟩ := ih _ _ _ h
            simp only at h4
            exact ⟨.cl :: is, h1, h2, h3, by rw [h4]; rfl⟩

theorem loop_unclosed : ∀ (f n : Nat) (l l' : L), l.rest.length ≤ f → commentLoop f n l = (false, l') → l'.rest = [] := by
  intro f
  induction f with
  | zero =>
    intro n l l' hf h
    have hr : l.rest = [] := by simpa using hf
    unfold commentLoop at h
    split at h
    · cases h
    · rw [if_pos (isEof_iff.mpr hr)] at h; cases h; exact hr
  | succ f ih =>
    intro n l l' hf h
    unfold commentLoop at h
    split at h
    · cases h
    split at h
    · rename_i he; cases h; exact isEof_iff.mp he
    rename_i he
    have hn : l.rest ≠ [] := fun hr => he (isEof_iff.mpr hr)
    have hl := skip_length hn
    have hl2 : (skipChar (skipChar l)).rest.length ≤ (skipChar l).rest.length := by simp [skipChar]
    simp only [] at h
    split at h
    · split at h
      · exact ih _ _ _ (by omega) h
      · exact ih _ _ _ (by omega) h
    split at h
    · split at h
      · exact ih _ _ _ (by omega) h
      · exact ih _ _ _ (by omega) h
    · exact ih _ _ _ (by omega) h

/-! ## C19 -/

/-- **C19.** At the opening delimiter of a comment the lexer skips exactly to the closing delimiter that
balances it, whatever the comment contains and however deep it nests, and goes on there. -/
theorem comment_skipped_exactly (adv : L → Res (L × Token)) (fuel : Nat) (body : List Item) (after : List Nat) (p : Pos)
    (fl : Flags) (hfl : fl.enter = false) (hb : Balanced body) (hp : Plain (body ++ [.cl])) :
    lexOne adv fuel ⟨[47, 42] ++ text (body ++ [.cl]) ++ after, p, fl⟩ =
      .ok (.again ⟨after, posAfter p ([47, 42] ++ text (body ++ [.cl])), fl⟩) := by
  have hc : Closes 1 (body ++ [.cl]) := closes_append hb 0 _ rfl
  have hk : skipMultiLineComment ⟨text (body ++ [.cl]) ++ after, posAfter p [47, 42], fl⟩ =
      (true, ⟨after, posAfter p ([47, 42] ++ text (body ++ [.cl])), fl⟩) := by
    unfold skipMultiLineComment
    have hle := length_le_text (body ++ [.cl])
    obtain ⟨f, hf⟩ : ∃ f, (text (body ++ [Item.cl]) ++ after).length = f + (body ++ [Item.cl]).length :=
      ⟨(text (body ++ [Item.cl]) ++ after).length - (body ++ [Item.cl]).length, by simp at hle ⊢; omega⟩
    simp only []
    rw [hf, loop_items after fl _ 1 f _ hc (plain_before 1 _ hc hp), posAfter_append]
  unfold lexOne
  rw [if_neg (by simp [hfl])]
  show Res.ok (lexSlash p (skipChar ⟨[47, 42] ++ text (body ++ [.cl]) ++ after, p, fl⟩)) = _
  have hs : lexSlash p (skipChar ⟨[47, 42] ++ text (body ++ [.cl]) ++ after, p, fl⟩) =
      (match skipMultiLineComment ⟨text (body ++ [.cl]) ++ after, posAfter p [47, 42], fl⟩ with
        | (ok, l1) => if ok then .again l1 else .tok l1 (mk l1 p .error)) := rfl
  rw [hs, hk]
  rfl

/-- A comment in a comment, with delimiters that overlap plain stars and slashes. -/
example : Balanced [.ch 42, .ch 97, .op, .ch 42, .cl, .ch 97] ∧
    Plain ([.ch 42, .ch 97, .op, .ch 42, .cl, .ch 97] ++ [.cl]) := by
  refine ⟨.ch _ (.ch _ (.nest (is := [.ch 42]) (.ch _ .nil) (.ch _ .nil))), ?_⟩
  simp [Plain, text, Item.text]

/-- **C19.** Conversely, when the lexer goes on after a comment it has read a balanced one. -/
theorem skipped_comment_is_balanced (l l' : L) (h : skipMultiLineComment l = (true, l')) :
    ∃ body, Balanced body ∧ Plain (body ++ [.cl]) ∧ l.rest = text (body ++ [.cl]) ++ l'.rest := by
  obtain ⟨is, h1, h2, _, h4⟩ := loop_found _ _ _ _ h
  obtain ⟨b, js, hb, hj, hc⟩ := closes_split _ 0 is (Nat.le_refl _) h1
  have : js = [] := by simpa [Closes] using hc
  subst this
  subst hj
  exact ⟨b, hb, h2, h4⟩

example : (skipMultiLineComment ⟨str "/*a*/b*/c", ⟨2, 1, 3⟩, {}⟩).1 = true := by decide

/-- **C19.** A comment that no closing delimiter balances runs to the end of the file, and is an error. -/
theorem unbalanced_comment_runs_to_end (adv : L → Res (L × Token)) (fuel : Nat) (rest : List Nat) (p : Pos) (fl : Flags)
    (hfl : fl.enter = false)
    (h : ¬ ∃ body after, Balanced body ∧ Plain (body ++ [.cl]) ∧ rest = text (body ++ [.cl]) ++ after) :
    lexOne adv fuel ⟨[47, 42] ++ rest, p, fl⟩ =
      .ok (.tok ⟨[], posAfter p ([47, 42] ++ rest), fl⟩ ⟨.error, p, posAfter p ([47, 42] ++ rest)⟩) := by
  have hk : skipMultiLineComment ⟨rest, posAfter p [47, 42], fl⟩ = (false, ⟨[], posAfter p ([47, 42] ++ rest), fl⟩) := by
    cases hr : skipMultiLineComment ⟨rest, posAfter p [47, 42], fl⟩ with
    | mk b l' =>
      cases b with
      | true =>
        obtain ⟨body, h1, h2, h3⟩ := skipped_comment_is_balanced _ _ hr
        exact absurd ⟨body, l'.rest, h1, h2, h3⟩ h
      | false =>
        have h1 := loop_unclosed _ _ _ _ (Nat.le_refl _) hr
        have ⟨⟨bs, _, h2, h3⟩, h4⟩ := commentLoop_adv rest.length 1 ⟨rest, posAfter p [47, 42], fl⟩
        rw [show commentLoop rest.length 1 ⟨rest, posAfter p [47, 42], fl⟩ = (false, l') from hr] at h2 h3 h4
        obtain ⟨r', p', fl'⟩ := l'
        simp only at h1 h2 h3 h4
        subst h1
        simp only [List.append_nil] at h2
        subst h2
        subst h4
        rw [h3, posAfter_append]
  unfold lexOne
  rw [if_neg (by simp [hfl])]
  show Res.ok (lexSlash p (skipChar ⟨[47, 42] ++ rest, p, fl⟩)) = _
  have hs : lexSlash p (skipChar ⟨[47, 42] ++ rest, p, fl⟩) =
      (match skipMultiLineComment ⟨rest, posAfter p [47, 42], fl⟩ with
        | (ok, l1) => if ok then .again l1 else .tok l1 (mk l1 p .error)) := rfl
  rw [hs, hk]
  rfl

/-- A comment whose text has no closing delimiter at all is an instance. -/
theorem no_close_unbalanced (rest : List Nat) (h : ∀ a b, rest ≠ a ++ [42, 47] ++ b) :
    ¬ ∃ body after, Balanced body ∧ Plain (body ++ [.cl]) ∧ rest = text (body ++ [.cl]) ++ after := by
  rintro ⟨body, after, _, _, hr⟩
  exact h (text body) after (by rw [hr]; simp [text, Item.text])

end Verif.Lexer.Comment
