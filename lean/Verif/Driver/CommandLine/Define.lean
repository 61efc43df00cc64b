import Verif.Driver.CommandLine.Words
/-!
# Definitions on the command line (`-DNAME`, `-DNAME=value`)
-/
namespace Verif.CommandLine

/-- A letter, a digit or an underscore. -/
def Letter (c : Nat) : Prop := (65 ≤ c ∧ c ≤ 90) ∨ (97 ≤ c ∧ c ≤ 122) ∨ c = 95
def WordByte (c : Nat) : Prop := Letter c ∨ (48 ≤ c ∧ c ≤ 57)

/-- A name of a variable. -/
structure Identifier (s : Str) : Prop where
  first : ∃ c, s.head? = some c ∧ Letter c
  all : ∀ c ∈ s, WordByte c

theorem isWord_iff (c : Nat) : isWord c = true ↔ WordByte c := by
  simp only [isWord, isAlpha, isDigit, WordByte, Letter, Bool.or_eq_true, Bool.and_eq_true, decide_eq_true_eq, beq_iff_eq]
  omega

theorem isLetter_iff (c : Nat) : (isAlpha c || c == 95) = true ↔ Letter c := by
  simp only [isAlpha, Letter, Bool.or_eq_true, Bool.and_eq_true, decide_eq_true_eq, beq_iff_eq]
  omega

theorem letter_not_blank {c : Nat} (h : Letter c) : ¬ Blank c := by
  simp only [Letter, Blank] at h ⊢; omega

theorem takeWhile_word {s t : Str} (h : ∀ c ∈ s, WordByte c) (ht : ∀ c, t.head? = some c → ¬ WordByte c) :
    (s ++ t).takeWhile isWord = s ∧ (s ++ t).dropWhile isWord = t := by
  induction s with
  | nil =>
    match t, ht with
    | [], _ => exact ⟨rfl, rfl⟩
    | c :: r, ht =>
      have := ht c rfl
      rw [← isWord_iff] at this
      rw [List.nil_append, List.takeWhile_cons, List.dropWhile_cons, if_neg this, if_neg this]
      exact ⟨rfl, rfl⟩
  | cons c s ih =>
    have hc := (isWord_iff c).2 (h c (by simp))
    have ih := ih fun x hx => h x (List.mem_cons_of_mem _ hx)
    rw [List.cons_append, List.takeWhile_cons, List.dropWhile_cons, if_pos hc, if_pos hc, ih.1, ih.2]
    exact ⟨rfl, rfl⟩

/-- What follows a name decides. -/
def split (name : Str) : Str → Option (Str × Option Str)
  | [] => some (name, none)
  | 61 :: v => some (name, some v)
  | _ => none

theorem mem_takeWhile {p : Nat → Bool} {s : Str} {x : Nat} (h : x ∈ s.takeWhile p) : p x = true := by
  induction s with
  | nil => simp at h
  | cons c s ih =>
    rw [List.takeWhile_cons] at h
    by_cases hc : p c = true
    · rw [if_pos hc] at h
      rcases List.mem_cons.1 h with rfl | h
      · exact hc
      · exact ih h
    · rw [if_neg hc] at h
      simp at h

theorem parseDefine_tail {gap name t : Str} (hg : ∀ c ∈ gap, Blank c) (hn : Identifier name)
    (ht : ∀ c, t.head? = some c → ¬ WordByte c) :
    parseDefine (gap ++ (name ++ t)) = split name t := by
  obtain ⟨c, hc, hl⟩ := hn.first
  match name, hc, hn with
  | d :: name, hc, hn =>
    obtain rfl : d = c := by simpa using hc
    have hd : (gap ++ (d :: name ++ t)).dropWhile isSpace = d :: name ++ t :=
      dropWhile_gap hg (fun x hx => (Option.some.inj hx : d = x) ▸ letter_not_blank hl)
    obtain ⟨h1, h2⟩ := takeWhile_word hn.all ht
    unfold parseDefine
    rw [hd]
    simp only [List.cons_append, (isLetter_iff d).2 hl, if_true]
    rw [List.cons_append] at h1 h2
    rw [h1, h2]
    rfl

/-- C128.  A definition is a name and, after an `=`, its value; nothing else is a definition. -/
theorem definition_read (s : Str) (x : Val) : reading .define s = some x ↔
    ∃ gap name, (∀ c ∈ gap, Blank c) ∧ Identifier name ∧
      ((s = gap ++ name ∧ x = .list [(name, none)]) ∨ ∃ v, s = gap ++ (name ++ 61 :: v) ∧ x = .list [(name, some v)]) := by
  constructor
  · intro h
    obtain ⟨d, hp, hx⟩ := Option.map_eq_some_iff.1 h
    obtain ⟨gap, h1, h2, h3⟩ := gap_of_dropWhile s
    unfold parseDefine at hp
    match hd : s.dropWhile isSpace with
    | [] => rw [hd] at hp; simp at hp
    | c :: r =>
      rw [hd] at hp h1
      simp only at hp
      by_cases hc : (isAlpha c || c == 95) = true
      · rw [if_pos hc] at hp
        have hl := (isLetter_iff c).1 hc
        have hw : isWord c = true := (isWord_iff c).2 (.inl hl)
        have hid : Identifier ((c :: r).takeWhile isWord) := by
          refine ⟨⟨c, by rw [List.takeWhile_cons, if_pos hw]; rfl, hl⟩, fun x hx => ?_⟩
          exact (isWord_iff x).1 (mem_takeWhile hx)
        have hsplit : (c :: r).takeWhile isWord ++ (c :: r).dropWhile isWord = c :: r :=
          List.takeWhile_append_dropWhile ..
        refine ⟨gap, (c :: r).takeWhile isWord, h2, hid, ?_⟩
        match hr : (c :: r).dropWhile isWord with
        | [] =>
          rw [hr] at hp hsplit
          simp only [Option.some.injEq] at hp
          left
          rw [List.append_nil] at hsplit
          refine ⟨by rw [hsplit]; exact h1, ?_⟩
          rw [← hx, ← hp]
        | y :: v =>
          rw [hr] at hp hsplit
          by_cases hy : y = 61
          · subst hy
            simp only [Option.some.injEq] at hp
            right
            refine ⟨v, by rw [hsplit]; exact h1, ?_⟩
            rw [← hx, ← hp]
          · simp [hy] at hp
      · rw [if_neg hc] at hp
        simp at hp
  · rintro ⟨gap, name, hg, hn, ⟨rfl, rfl⟩ | ⟨v, rfl, rfl⟩⟩
    · have := parseDefine_tail (t := []) hg hn (by simp)
      rw [List.append_nil] at this
      simp [reading, this, split]
    · have := parseDefine_tail (t := 61 :: v) hg hn (by
        intro c hc; obtain rfl : 61 = c := by simpa using hc
        simp [WordByte, Letter])
      simp [reading, this, split]

example : reading .define (bytes "APP_VERSION=1=2") = some (.list [(bytes "APP_VERSION", some (bytes "1=2"))]) := by decide

end Verif.CommandLine
