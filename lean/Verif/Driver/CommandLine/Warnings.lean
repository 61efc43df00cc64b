import Verif.Driver.CommandLine.Spec
/-!
# The list of warnings (`src/cxy/core/log.c` 36-98 and 421-464, `src/cxy/core/log.h` 13-34)

The table of names is a hash table in the code; here it is a list (the table itself is C02-C04).
-/
namespace Verif.CommandLine.Warnings
open Verif.CommandLine

/-- log.h 28-30 -/
def all : BitVec 64 := BitVec.allOnes 64 >>> 1
def failure : BitVec 64 := 1#64 <<< 63

/-- log.c 33-53 `registerWarnings` with log.h 13-19. -/
def table : List (Str × BitVec 64) :=
  [(bytes "MissingStage", 1#64 <<< 0), (bytes "UnusedVariable", 1#64 <<< 1), (bytes "RedundantStmt", 1#64 <<< 2),
   (bytes "CMacroRedefine", 1#64 <<< 3), (bytes "CUnsupportedField", 1#64 <<< 4), (bytes "MaybeUninitialized", 1#64 <<< 5),
   (bytes "All", all), (bytes "None", 0)]

/-- log.c 55-98 `parseNextWarningId` with no end given: the text is a name after its blanks. -/
def next (start : Str) : BitVec 64 :=
  let p := start.dropWhile isSpace
  if at' p 0 = 48 then failure
  else (table.lookup p).getD failure

inductive Result where
  | mask (m : BitVec 64)
  /-- An error is reported and the compiler stops (options.c 497). -/
  | error
  | ub
  deriving DecidableEq, Repr

/-- log.c 421-464 `parseWarningLevels`, with options.c 497.  `end` points into the argument while `start` points into a copy
of it, so when there is a `|` the length of the first name is the difference of pointers into two objects (log.c 80),
unless a name beginning with `0` is refused before (log.c 67). -/
def parse (enabled : BitVec 64) : Option Str → Result
  | none => .mask enabled
  | some s =>
    if s = [] then .mask enabled
    else
      let start := s.dropWhile isSpace
      let flip := at' start 0 == 126
      let start := if flip then start.drop 1 else start
      if 124 ∈ s then (if at' (start.dropWhile isSpace) 0 = 48 then .error else .ub)
      else
        let w := next start
        if w = failure then .error
        else if w = 0 ∨ w = all then .mask w
        else if flip then .mask (enabled &&& ~~~w) else .mask (enabled ||| w)

/-! ### Specification -/

/-- The warnings and their numbers. -/
def numbers : List (Str × Nat) :=
  [(bytes "MissingStage", 0), (bytes "UnusedVariable", 1), (bytes "RedundantStmt", 2), (bytes "CMacroRedefine", 3),
   (bytes "CUnsupportedField", 4), (bytes "MaybeUninitialized", 5)]

theorem dropWhile_word {c : Nat} {s : Str} (h : isSpace c = false) : (c :: s).dropWhile isSpace = c :: s := by
  rw [List.dropWhile_cons, h]; rfl

theorem gap_drop {gap : Str} {c : Nat} {s : Str} (hg : ∀ x ∈ gap, Blank x) (h : isSpace c = false) :
    (gap ++ c :: s).dropWhile isSpace = c :: s := by
  induction gap with
  | nil => exact dropWhile_word h
  | cons x xs ih =>
    have hx : isSpace x = true := by
      have := hg x (by simp)
      simp only [Blank] at this
      simp only [isSpace, Bool.or_eq_true, beq_iff_eq, Bool.and_eq_true, decide_eq_true_eq]
      omega
    rw [List.cons_append, List.dropWhile_cons, if_pos hx, ih fun c hc => hg c (List.mem_cons_of_mem _ hc)]

/-- The names begin with a capital and have no `|`; each stands for its bit. -/
theorem names_shape : ∀ e ∈ numbers, ∃ c r, e.1 = c :: r ∧ isSpace c = false ∧ c ≠ 48 ∧ c ≠ 126 ∧ 124 ∉ e.1 ∧
    table.lookup e.1 = some (1#64 <<< e.2) ∧ e.2 < 6 := by
  intro e he
  simp only [numbers, List.mem_cons, List.not_mem_nil, or_false] at he
  rcases he with rfl | rfl | rfl | rfl | rfl | rfl <;>
    exact ⟨_, _, rfl, by decide, by decide, by decide, by decide, by decide, by decide⟩

theorem bit_shape {i : Nat} (h : i < 6) : (1#64 <<< i) ≠ failure ∧ ¬ ((1#64 <<< i) = 0 ∨ (1#64 <<< i) = all) := by
  match i, h with
  | 0, _ => decide
  | 1, _ => decide
  | 2, _ => decide
  | 3, _ => decide
  | 4, _ => decide
  | 5, _ => decide

theorem blank_not_bar {gap : Str} (h : ∀ x ∈ gap, Blank x) : 124 ∉ gap := by
  intro hm
  have := h _ hm
  simp [Blank] at this

/-- C130.  One name switches its warning on, and with `~` off; the others keep their state.  Missing: lists
(`list_undefined`) and `~All` (`all_cannot_be_switched_off`). -/
theorem one_warning_partial {name : Str} {i : Nat} (h : (name, i) ∈ numbers) (enabled : BitVec 64) {gap gap' : Str}
    (hg : ∀ x ∈ gap, Blank x) (hg' : ∀ x ∈ gap', Blank x) :
    (∃ m, parse enabled (some (gap ++ name)) = .mask m ∧
      ∀ j, j < 64 → m.getLsbD j = (decide (j = i) || enabled.getLsbD j)) ∧
    (∃ m, parse enabled (some (gap ++ 126 :: (gap' ++ name))) = .mask m ∧
      ∀ j, j < 64 → m.getLsbD j = (decide (j ≠ i) && enabled.getLsbD j)) := by
  obtain ⟨c, r, hn, hs, h0, ht, hb, hl, hi⟩ := names_shape _ h
  simp only at hn hb hl hi
  subst hn
  obtain ⟨b1, b2⟩ := bit_shape hi
  have hbar := blank_not_bar hg
  have hbar' := blank_not_bar hg'
  have hnext : next (c :: r) = 1#64 <<< i := by
    simp only [next, dropWhile_word hs, at', List.getD_cons_zero, h0, if_false, hl, Option.getD_some]
  have hnext' : next (gap' ++ c :: r) = 1#64 <<< i := by
    simp only [next, gap_drop hg' hs, at', List.getD_cons_zero, h0, if_false, hl, Option.getD_some]
  have hbit : ∀ j, j < 64 → (1#64 <<< i).getLsbD j = decide (j = i) := by
    intro j hj
    rw [BitVec.getLsbD_shiftLeft]
    by_cases hji : j = i
    · subst hji; simp [hj]
    · by_cases hlt : j < i
      · simp [hlt, hji]
      · have : j - i ≠ 0 := by omega
        simp [hji, this, BitVec.getLsbD_one]
  constructor
  · refine ⟨enabled ||| 1#64 <<< i, ?_, ?_⟩
    · have hbar2 : 124 ∉ gap ++ c :: r := by simp only [List.mem_append, not_or]; exact ⟨hbar, hb⟩
      have hf : (c == 126) = false := by simpa using ht
      simp only [parse, gap_drop hg hs, at', List.getD_cons_zero, hf, hbar2, hnext, b1, b2, Bool.false_eq_true, if_false]
      simp
    · intro j hj
      rw [BitVec.getLsbD_or, hbit j hj, Bool.or_comm]
  · refine ⟨enabled &&& ~~~(1#64 <<< i), ?_, ?_⟩
    · have hbar2 : 124 ∉ gap ++ 126 :: (gap' ++ c :: r) := by
        simp only [List.mem_append, List.mem_cons, not_or]
        simp only [List.mem_cons, not_or] at hb
        exact ⟨hbar, by decide, hbar', hb.1, hb.2⟩
      have e : (gap ++ 126 :: (gap' ++ c :: r)).dropWhile isSpace = 126 :: (gap' ++ c :: r) := gap_drop hg (by decide)
      simp only [parse, e, at', List.getD_cons_zero, beq_self_eq_true, List.drop_succ_cons, List.drop_zero, hbar2, hnext',
        b1, b2, if_true, if_false]
      simp
    · intro j hj
      rw [BitVec.getLsbD_and, BitVec.getLsbD_not, hbit j hj, Bool.and_comm]
      simp [hj]

/-- C130 fails: a list of warnings is undefined. -/
theorem list_undefined {name : Str} {i : Nat} (h : (name, i) ∈ numbers) (enabled : BitVec 64) (rest : Str) :
    parse enabled (some (name ++ 124 :: rest)) = .ub ∧ parse enabled (some (126 :: (name ++ 124 :: rest))) = .ub := by
  obtain ⟨c, r, hn, hs, h0, ht, _⟩ := names_shape _ h
  simp only at hn
  subst hn
  have hf : (c == 126) = false := by simpa using ht
  constructor
  · simp only [parse, List.cons_append, dropWhile_word hs, at', List.getD_cons_zero, hf, Bool.false_eq_true, if_false, h0]
    simp
  · rw [List.cons_append]
    have e : (126 :: c :: (r ++ 124 :: rest)).dropWhile isSpace = 126 :: c :: (r ++ 124 :: rest) :=
      dropWhile_word (by decide)
    simp only [parse, e, at', List.getD_cons_zero, beq_self_eq_true, List.drop_succ_cons, List.drop_zero, if_true,
      dropWhile_word hs, h0, if_false]
    simp

/-- C130 fails: `~All` switches every warning on. -/
theorem all_cannot_be_switched_off (enabled : BitVec 64) :
    parse enabled (some (bytes "~All")) = .mask all ∧ ∀ e ∈ numbers, all.getLsbD e.2 = true := by
  refine ⟨?_, by decide⟩
  have h1 : bytes "~All" ≠ [] := by decide
  have h2 : ¬ 124 ∈ bytes "~All" := by decide
  have h3 : (at' ((bytes "~All").dropWhile isSpace) 0 == 126) = true := by decide
  have h4 : next (((bytes "~All").dropWhile isSpace).drop 1) = all := by decide
  have h5 : ¬ all = failure := by decide
  simp only [parse, h1, h2, h3, h4, h5, if_true, if_false, or_true]

/-- C130.  A name which is not in the table is an error. -/
theorem unknown_warning (enabled : BitVec 64) {s : Str} (hne : s ≠ []) (hb : 124 ∉ s)
    (h1 : ∀ c, s.head? = some c → ¬ Blank c ∧ c ≠ 126) (h2 : table.lookup s = none) : parse enabled (some s) = .error := by
  match s, hne with
  | c :: r, _ =>
    obtain ⟨hc1, hc2⟩ := h1 c rfl
    have hs : isSpace c = false := by
      rw [Bool.eq_false_iff]
      intro h
      apply hc1
      simp only [isSpace, Bool.or_eq_true, beq_iff_eq, Bool.and_eq_true, decide_eq_true_eq] at h
      simp only [Blank]; omega
    have hf : (c == 126) = false := by simpa using hc2
    have hn : next (c :: r) = failure := by
      simp only [next, dropWhile_word hs, h2, Option.getD_none]
      split <;> rfl
    simp only [parse, dropWhile_word hs, at', List.getD_cons_zero, hf, hb, hn, Bool.false_eq_true, if_false, if_true]
    simp

example : ∃ m, parse all (some (bytes "~UnusedVariable")) = .mask m ∧ m.getLsbD 1 = false ∧ m.getLsbD 2 = true := by
  obtain ⟨_, m, h1, h2⟩ := one_warning_partial (name := bytes "UnusedVariable") (i := 1) (by decide) all (gap := [])
    (gap' := []) (by simp) (by simp)
  exact ⟨m, h1, by rw [h2 1 (by decide)]; rfl, by rw [h2 2 (by decide)]; decide⟩

example : parse all (some (bytes "UnusedVariable|~RedundantStmt")) = .ub :=
  (list_undefined (name := bytes "UnusedVariable") (i := 1) (by decide) all (bytes "~RedundantStmt")).1

example : parse all (some (bytes "Bogus")) = .error :=
  unknown_warning all (by decide) (by decide)
    (by intro c hc; have : c = 66 := Option.some.inj (hc.symm.trans rfl); subst this; simp [Blank]) (by decide)

end Verif.CommandLine.Warnings
