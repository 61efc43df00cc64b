import Verif.Lang.Tests.Model
namespace Verif.Tests

/-! ## C235: an ordinary build leaves tests out -/

/-- Braces match. -/
inductive Balanced : List Tok → Prop where
  | nil : Balanced []
  | tok {t : Tok} {ts : List Tok} (h1 : t ≠ .lbrace) (h2 : t ≠ .rbrace) (h : Balanced ts) : Balanced (t :: ts)
  | braces {a b : List Tok} (ha : Balanced a) (hb : Balanced b) : Balanced (.lbrace :: (a ++ .rbrace :: b))

theorem skipLoop_balanced {body : List Tok} (h : Balanced body) : ∀ (n : Nat) (rest : List Tok),
    skipLoop (n + 1) (body ++ rest) = skipLoop (n + 1) rest := by
  induction h with
  | nil => intro n rest; rfl
  | tok h1 h2 h ih =>
    intro n rest
    rw [List.cons_append]
    rw [skipLoop]
    · exact ih n rest
    · exact h1
    · exact h2
  | braces ha hb iha ihb =>
    intro n rest
    rw [List.cons_append, skipLoop, List.append_assoc, iha (n + 1), List.cons_append, skipLoop, ihb]

theorem balanced_of_skip : ∀ (m n : Nat) (ts r : List Tok), ts.length ≤ m → skipLoop (n + 1) ts = some r →
    ∃ body ts', Balanced body ∧ ts = body ++ .rbrace :: ts' ∧ skipLoop n ts' = some r
  | _, n, [], r, _, h => by simp [skipLoop] at h
  | 0, n, t :: ts, r, hm, h => by simp at hm
  | m + 1, n, t :: ts, r, hm, h => by
    have hm' : ts.length ≤ m := by simpa using hm
    by_cases h1 : t = .lbrace
    · subst h1
      rw [skipLoop] at h
      obtain ⟨b1, t1, hb1, e1, h'⟩ := balanced_of_skip m (n + 1) ts r hm' h
      have : t1.length ≤ m := by rw [e1] at hm'; simp at hm'; omega
      obtain ⟨b2, t2, hb2, e2, h''⟩ := balanced_of_skip m n t1 r this h'
      exact ⟨.lbrace :: (b1 ++ .rbrace :: b2), t2, .braces hb1 hb2, by rw [e1, e2]; simp, h''⟩
    · by_cases h2 : t = .rbrace
      · subst h2
        rw [skipLoop] at h
        exact ⟨[], ts, .nil, rfl, h⟩
      · rw [skipLoop] at h
        · obtain ⟨b1, t1, hb1, e1, h'⟩ := balanced_of_skip m n ts r hm' h
          exact ⟨t :: b1, t1, .tok h1 h2 hb1, by rw [e1]; rfl, h'⟩
        · exact h1
        · exact h2

/-- What a test declaration looks like, after the word `test`: a name or none, and tokens in braces that match. -/
def IsTest (ts : List Tok) : Prop :=
  ∃ name body, (name = [] ∨ name = [Tok.str]) ∧ Balanced body ∧ ts = name ++ [.lbrace] ++ body ++ [.rbrace]

/-- Skipping a test goes exactly to the end of it. -/
theorem skip_iff (ts r : List Tok) : skipTest ts = some r ↔ ∃ t, IsTest t ∧ ts = t ++ r := by
  constructor
  · intro h
    unfold skipTest at h
    split at h
    · next ts' heq =>
      obtain ⟨body, t', hb, e, h'⟩ := balanced_of_skip ts'.length 0 ts' r (Nat.le_refl _) h
      have er : t' = r := by simpa [skipLoop] using h'
      subst er
      unfold dropName at heq
      split at heq
      · next x =>
        exact ⟨_, ⟨[.str], body, .inr rfl, hb, rfl⟩, by rw [heq, e]; simp⟩
      · exact ⟨_, ⟨[], body, .inl rfl, hb, rfl⟩, by rw [heq, e]; simp⟩
    · simp at h
  · rintro ⟨t, ⟨name, body, hn, hb, rfl⟩, rfl⟩
    have : dropName ((name ++ [Tok.lbrace] ++ body ++ [Tok.rbrace]) ++ r) = .lbrace :: (body ++ .rbrace :: r) := by
      rcases hn with rfl | rfl <;> simp [dropName]
    unfold skipTest
    rw [this]
    simp only [skipLoop_balanced hb 0, skipLoop]

/-- A file: tests and other declarations. -/
inductive Item (D : Type) where
  | test (ts : List Tok)
  | decl (ts : List Tok) (d : D)

def Item.toks {D : Type} : Item D → List Tok
  | .test ts => .test :: ts
  | .decl ts _ => ts

def Item.isTest {D : Type} : Item D → Bool
  | .test _ => true
  | .decl _ _ => false

/-- The text of a test is one, and that of another declaration is read to its end. -/
def Item.Well {D : Type} (decl : List Tok → Option (D × List Tok)) : Item D → Prop
  | .test ts => IsTest ts
  | .decl ts d => ts ≠ [] ∧ ts.head? ≠ some .test ∧ ∀ rest, decl (ts ++ rest) = some (d, rest)

/-- C235, part that holds: an ordinary build of a file reads the declarations that are not tests, as if the tests were not there. -/
theorem tests_left_out_partial {D : Type} (decl : List Tok → Option (D × List Tok)) : ∀ (items : List (Item D)),
    (∀ i ∈ items, i.Well decl) →
    program decl (items.flatMap Item.toks) = some (items.filterMap fun i => match i with | .decl _ d => some d | .test _ => none)
      ∧ program decl (items.flatMap Item.toks) = program decl ((items.filter fun i => !i.isTest).flatMap Item.toks)
  | [], _ => by simp [program]
  | .test ts :: items, h => by
    have hw : IsTest ts := h (.test ts) (by simp)
    obtain ⟨h1, h2⟩ := tests_left_out_partial decl items (fun i hi => h i (by simp [hi]))
    have hs := (skip_iff (ts ++ items.flatMap Item.toks) (items.flatMap Item.toks)).mpr ⟨ts, hw, rfl⟩
    have e : program decl ((Item.test ts :: items).flatMap Item.toks) = program decl (items.flatMap Item.toks) := by
      simp only [List.flatMap_cons, Item.toks, List.cons_append]
      rw [program]
      split
      · next hn => rw [hs] at hn; simp at hn
      · next r hn => rw [hs] at hn; simp only [Option.some.injEq] at hn; rw [hn]
    rw [e]
    exact ⟨by rw [h1]; simp, by rw [h2]; simp [Item.isTest]⟩
  | .decl ts d :: items, h => by
    have hw : ts ≠ [] ∧ ts.head? ≠ some .test ∧ ∀ rest, decl (ts ++ rest) = some (d, rest) := h (.decl ts d) (by simp)
    obtain ⟨h1, h2⟩ := tests_left_out_partial decl items (fun i hi => h i (by simp [hi]))
    have e : ∀ rest, program decl (ts ++ rest) = (program decl rest).map (d :: ·) := by
      intro rest
      cases ts with
      | nil => exact absurd rfl hw.1
      | cons t ts =>
        have hd := hw.2.2 rest
        rw [List.cons_append] at hd ⊢
        rw [program]
        · rw [hd]
          simp only [List.length_cons, List.length_append]
          rw [if_pos (by omega)]
        · intro e'
          apply hw.2.1
          simp [e']
    constructor
    · simp only [List.flatMap_cons, Item.toks]
      rw [e, h1]; simp
    · have hf : (Item.decl ts d :: items).filter (fun i => !i.isTest) = .decl ts d :: items.filter (fun i => !i.isTest) := rfl
      rw [hf, List.flatMap_cons, List.flatMap_cons, Item.toks, e, e, h2]

/-! ## C236: test cases are compiled as written -/

theorem dec_value (n : Nat) : (Excerpt.dec n).foldl (fun v b => v * 10 + (b - 48)) 0 = n := by
  induction n using Nat.strongRecOn with
  | _ n ih =>
    rw [Excerpt.dec]
    split
    · simp
    · rw [List.foldl_append, ih (n / 10) (by omega)]
      simp; omega

theorem dec_inj {m n : Nat} (h : Excerpt.dec m = Excerpt.dec n) : m = n := by
  rw [← dec_value m, h, dec_value n]

theorem number_lt (last row : Nat) : last < number last row := by unfold number; split <;> omega

theorem cases_above {A : Type} : ∀ (ns : List (Node A)) (last : Nat) (c : String × List Nat), c ∈ cases last ns →
    ∃ k, last < k ∧ c.2 = [116, 101, 115, 116] ++ Excerpt.dec k
  | [], _, _, h => by simp [cases] at h
  | ⟨_, .case name row⟩ :: ns, last, c, h => by
    simp only [cases, List.mem_cons] at h
    rcases h with h | h
    · exact ⟨_, number_lt last row, by rw [h]⟩
    · obtain ⟨k, h1, h2⟩ := cases_above ns _ c h
      exact ⟨k, by have := number_lt last row; omega, h2⟩
  | ⟨_, .plain _⟩ :: ns, last, c, h => cases_above ns last c (by simpa only [cases] using h)

/-- The names of the tests of a program, in order. -/
def testNames {A : Type} (ns : List (Node A)) : List String :=
  ns.filterMap fun n => match n.what with | .case name _ => some name | .plain _ => none

/-- C236, part that holds: the test cases that are run are those of the program, in order and under their names, and no two of them
have the same function. -/
theorem cases_partial {A : Type} : ∀ (ns : List (Node A)) (last : Nat),
    (cases last ns).map Prod.fst = testNames ns ∧ (cases last ns).Pairwise fun a b => a.2 ≠ b.2
  | [], _ => ⟨rfl, .nil⟩
  | ⟨_, .case name row⟩ :: ns, last => by
    obtain ⟨h1, h2⟩ := cases_partial ns (number last row)
    refine ⟨by simp [cases, testNames, h1], ?_⟩
    rw [cases, List.pairwise_cons]
    refine ⟨fun c hc e => ?_, h2⟩
    obtain ⟨k, hk, hk'⟩ := cases_above ns _ c hc
    simp only at e
    rw [hk'] at e
    have := dec_inj (List.append_cancel_left e)
    omega
  | ⟨_, .plain _⟩ :: ns, last => by
    obtain ⟨h1, h2⟩ := cases_partial ns last
    exact ⟨by simp only [cases, testNames, List.filterMap_cons] at h1 ⊢; exact h1, by simpa only [cases] using h2⟩

/-- The lines of the tests of a program. -/
def testRows {A : Type} (ns : List (Node A)) : List Nat :=
  ns.filterMap fun n => match n.what with | .case _ row => some row | .plain _ => none

/-- If each test is on a later line than the one before it, a test's function is called after its line. -/
theorem function_after_line {A : Type} : ∀ (ns : List (Node A)) (last : Nat), (last :: testRows ns).Pairwise (· < ·) →
    (cases last ns).map Prod.snd = (testRows ns).map fun r => [116, 101, 115, 116] ++ Excerpt.dec r
  | [], _, _ => rfl
  | ⟨_, .case name row⟩ :: ns, last, h => by
    simp only [testRows, List.filterMap_cons, List.pairwise_cons] at h
    have hn : number last row = row := by
      unfold number; rw [if_neg (by have := h.1 row (by simp); omega)]
    simp only [cases, hn, List.map_cons, testRows, List.filterMap_cons]
    have := function_after_line ns row (by rw [List.pairwise_cons]; exact h.2)
    rw [this]; rfl
  | ⟨_, .plain _⟩ :: ns, last, h => by
    simp only [cases, testRows, List.filterMap_cons] at h ⊢
    exact function_after_line ns last h

mutual
/-- The declarations as they are written, each with its own attributes. -/
def Decl.flat {A : Type} : Decl A → List (Node A)
  | .one as w => [⟨as, w⟩]
  | .group _ ds => flatIn ds
def flatIn {A : Type} : List (Decl A) → List (Node A)
  | [] => []
  | d :: ds => d.flat ++ flatIn ds
end

theorem setHead_what {A : Type} (as : List A) (ns : List (Node A)) : (setHead as ns).map Node.what = ns.map Node.what := by
  cases ns <;> rfl

mutual
theorem read_what {A : Type} : ∀ (d : Decl A) (ns : List (Node A)), read d = .ok ns → ns.map Node.what = d.flat.map Node.what
  | .one as w, ns, h => by simp only [read, Res.ok.injEq] at h; subst h; rfl
  | .group as ds, ns, h => by
    rw [read] at h
    cases hr : readIn ds with
    | ok m =>
      rw [hr] at h
      simp only [Res.map_ok, Res.ok.injEq] at h
      subst h
      rw [setHead_what, readIn_what ds m hr, Decl.flat]
    | ub => rw [hr] at h; simp [Res.map] at h
    | diverge => rw [hr] at h; simp [Res.map] at h
theorem readIn_what {A : Type} : ∀ (ds : List (Decl A)) (ns : List (Node A)), readIn ds = .ok ns →
    ns.map Node.what = (flatIn ds).map Node.what
  | [], ns, h => by simp only [readIn, Res.ok.injEq] at h; subst h; rfl
  | d :: ds, ns, h => by
    rw [readIn] at h
    cases hr : read d with
    | ok m =>
      rw [hr, Res.bind_ok] at h
      split at h
      · simp at h
      · cases hq : readIn ds with
        | ok q =>
          rw [hq] at h
          simp only [Res.map_ok, Res.ok.injEq] at h
          subst h
          rw [List.map_append, read_what d m hr, readIn_what ds q hq, flatIn, List.map_append]
        | ub => rw [hq] at h; simp [Res.map] at h
        | diverge => rw [hq] at h; simp [Res.map] at h
    | ub => rw [hr] at h; simp at h
    | diverge => rw [hr] at h; simp at h
end

/-- C236, part that holds: what is declared is what is written, in order, in `test { … }` or not. -/
theorem read_file_partial {A : Type} : ∀ (ds : List (Decl A)) (ns : List (Node A)), readFile ds = .ok ns →
    ns.map Node.what = (flatIn ds).map Node.what
  | [], ns, h => by simp only [readFile, Res.ok.injEq] at h; subst h; rfl
  | d :: ds, ns, h => by
    rw [readFile] at h
    cases hr : read d with
    | ok m =>
      rw [hr, Res.bind_ok] at h
      cases hq : readFile ds with
      | ok q =>
        rw [hq] at h
        simp only [Res.map_ok, Res.ok.injEq] at h
        subst h
        rw [List.map_append, read_what d m hr, read_file_partial ds q hq, flatIn, List.map_append]
      | ub => rw [hq] at h; simp [Res.map] at h
      | diverge => rw [hq] at h; simp [Res.map] at h
    | ub => rw [hr] at h; simp at h
    | diverge => rw [hr] at h; simp at h

theorem readIn_ones {A : Type} : ∀ (ws : List (Node A)), readIn (ws.map fun n => .one n.attrs n.what) = .ok ws
  | [] => rfl
  | n :: ws => by rw [List.map_cons, readIn, read, Res.bind_ok, readIn_ones ws]; rfl

/-- C236 fails: in `test { … }` the first declaration has the attributes in front of `test` (usually none) instead of its own. -/
theorem attributes_lost {A : Type} (as : List A) (w : Node A) (ws : List (Node A)) :
    read (.group as ((w :: ws).map fun n => .one n.attrs n.what)) = .ok ({ w with attrs := as } :: ws)
      ∧ (read (.group as ((w :: ws).map fun n => .one n.attrs n.what)) = .ok (w :: ws) ↔ w.attrs = as) := by
  have h : read (.group as ((w :: ws).map fun n => .one n.attrs n.what)) = .ok ({ w with attrs := as } :: ws) := by
    rw [read, readIn_ones]; rfl
  refine ⟨h, ?_⟩
  rw [h]
  constructor
  · intro e
    simp only [Res.ok.injEq, List.cons.injEq, and_true] at e
    rw [← e]
  · intro e
    rw [← e]

/-- C236 fails: an empty `test { }` inside another one is read through a null pointer. -/
theorem empty_group {A : Type} (as as' : List A) (ws : List (Node A)) (ds : List (Decl A)) :
    read (.group as ((ws.map fun n => .one n.attrs n.what) ++ .group as' [] :: ds)) = .ub := by
  have : readIn ((ws.map fun n => .one n.attrs n.what) ++ .group as' [] :: ds) = (.ub : Res (List (Node A))) := by
    induction ws with
    | nil => rfl
    | cons w ws ih => rw [List.map_cons, List.cons_append, readIn, read, Res.bind_ok, ih]; rfl
  rw [read, this]; rfl

/-! ## C237: a failing test makes the test run fail -/

/-- The number of tests that fail. -/
def failures (ts : List (String × Bool)) : Nat := ts.countP fun t => !t.2

theorem runLoop_spec : ∀ (ts : List (String × Bool)) (f : Int), -128 ≤ f → f < 128 →
    runLoop f ts = (ts.map (fun t => Event.verdict t.1 t.2), (f + failures ts + 128) % 256 - 128)
  | [], f, h1, h2 => by simp [runLoop, failures]; omega
  | (name, true) :: ts, f, h1, h2 => by
    simp only [runLoop, if_true, runLoop_spec ts f h1 h2, List.map_cons, failures, List.countP_cons]
    simp
  | (name, false) :: ts, f, h1, h2 => by
    have := runLoop_spec ts (inc8 f) (by unfold inc8; omega) (by unfold inc8; omega)
    simp only [runLoop, Bool.false_eq_true, if_false, this, List.map_cons, failures, List.countP_cons, Bool.not_false, if_true]
    congr 1
    unfold inc8
    omega

/-- C237: the test command succeeds exactly if the number of tests that fail is a multiple of 256. -/
theorem succeeds_iff (file : String) (ts : List (String × Bool)) : testCommand file ts = true ↔ failures ts % 256 = 0 := by
  unfold testCommand runTests
  split
  · next h =>
    have : ts = [] := List.eq_nil_of_length_eq_zero h
    subst this
    simp [failures]
  · rw [runLoop_spec ts 0 (by decide) (by decide)]
    simp only [Int.zero_add]
    split
    · next h =>
      simp only [beq_iff_eq]
      omega
    · next h =>
      simp only [beq_iff_eq]
      omega

/-- C237 fails: with 256 failing tests, or a multiple, the run succeeds although tests failed. -/
theorem failures_missed (file : String) (ts : List (String × Bool)) (k : Nat) (h : failures ts = 256 * k) :
    testCommand file ts = true ∧ (runTests file ts).1.all (fun e => match e with | .failed _ _ => false | _ => true) = true := by
  refine ⟨(succeeds_iff file ts).mpr (by omega), ?_⟩
  unfold runTests
  split
  · rfl
  · rw [runLoop_spec ts 0 (by decide) (by decide), h]
    simp only [Int.zero_add]
    rw [if_neg (by omega)]
    simp

/-- C237, part that holds: with fewer than 256 failing tests the run succeeds exactly if none fails. Every test is run and its
outcome printed, in order, and with fewer than 128 failures their number is printed. -/
theorem test_run_partial (file : String) (ts : List (String × Bool)) (hne : ts ≠ []) (h : failures ts < 256) :
    (testCommand file ts = true ↔ ∀ t ∈ ts, t.2 = true)
      ∧ ∃ end_, (runTests file ts).1 = ts.map (fun t => Event.verdict t.1 t.2) ++ end_
        ∧ (failures ts = 0 → end_ = []) ∧ (0 < failures ts → failures ts < 128 → end_ = [.failed (failures ts) ts.length]) := by
  constructor
  · rw [succeeds_iff, Nat.mod_eq_of_lt h]
    unfold failures
    rw [List.countP_eq_zero]
    simp
  · unfold runTests
    rw [if_neg (by simpa using hne), runLoop_spec ts 0 (by decide) (by decide)]
    simp only [Int.zero_add]
    split
    · next hf => exact ⟨_, rfl, fun h0 => by rw [h0] at hf; simp at hf, fun h1 h2 => by
        rw [show ((failures ts : Int) + 128) % 256 - 128 = (failures ts : Int) by omega]⟩
    · next hf => exact ⟨[], by simp, fun _ => rfl, fun h1 h2 => by omega⟩

/-- C237 fails: from the 128th failure on the number printed is another one. -/
theorem number_wrong (file : String) (ts : List (String × Bool)) (h : 128 ≤ failures ts) (n : Int) (total : Nat)
    (hm : Event.failed n total ∈ (runTests file ts).1) : n ≠ (failures ts : Int) ∧ n < 128 := by
  unfold runTests at hm
  split at hm
  · simp at hm
  · rw [runLoop_spec ts 0 (by decide) (by decide)] at hm
    simp only [Int.zero_add] at hm
    split at hm
    · simp at hm
      omega
    · simp at hm

/-- A test with braces in it, and what comes after it. -/
example : skipTest [.str, .lbrace, .other 1, .lbrace, .rbrace, .rbrace, .other 2] = some [.other 2] := by decide

/-- A file with a declaration, a test and another declaration. -/
example : program (fun ts => match ts with | .other n :: r => some (n, r) | _ => none)
    ([Item.decl [.other 1] 1, .test [.str, .lbrace, .other 5, .rbrace], .decl [.other 2] 2].flatMap Item.toks) = some [1, 2] := by
  refine (tests_left_out_partial _ _ ?_).1
  intro i hi
  simp only [List.mem_cons, List.not_mem_nil, or_false] at hi
  rcases hi with rfl | rfl | rfl
  · exact ⟨by decide, by decide, fun _ => rfl⟩
  · exact ⟨[.str], [.other 5], .inr rfl, .tok (by decide) (by decide) .nil, rfl⟩
  · exact ⟨by decide, by decide, fun _ => rfl⟩

/-- Two tests on lines 3 and 9, a third in an included file on line 5. -/
example : (cases 0 [(⟨[], .case "a" 3⟩ : Node Nat), ⟨[7], .plain 1⟩, ⟨[], .case "b" 9⟩, ⟨[], .case "c" 5⟩]).map Prod.snd
    = [[116, 101, 115, 116, 51], [116, 101, 115, 116, 57], [116, 101, 115, 116, 49, 48]] := by
  simp [cases, number, Excerpt.dec]

/-- Two of three tests fail. -/
example : runTests "f" [("a", false), ("b", true), ("c", false)]
    = ([.verdict "a" false, .verdict "b" true, .verdict "c" false, .failed 2 3], -1) := by decide

/-- 256 failing tests. -/
example : failures (List.replicate 256 ("a", false)) = 256 * 1 := by
  unfold failures
  rw [List.countP_replicate]; rfl

end Verif.Tests
