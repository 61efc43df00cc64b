import Verif.Lang.Imports.Model

/-! # The imports a file has

C222: the imports written at the top of a file are read as written, those marked `test` being left out of a compilation
that is not for tests, and of a `define if` the ones in the first branch whose condition holds.  It holds for files in
which the imports left out are of two simple forms and the branches left out have no braces of their own; exactly these
are passed over as a whole. -/

namespace Verif.Imports

/-! ## Specification: imports as one writes them -/

inductive Ents where
  | none
  | one (n : Nat) (as_ : Option Nat)
  | many (e : Nat × Option Nat) (es : List (Nat × Option Nat))

/-- `import [test] [name [as name] from | { names } from] "path" [as name]` -/
structure Src where
  test : Bool
  ents : Ents
  path : Nat
  name : Option Nat

/-- A name for the module is only allowed when no declarations are picked. -/
def Src.valid (s : Src) : Prop := s.name ≠ .none → s.ents = .none

def wEnt : Nat × Option Nat → List Tok
  | (n, .none) => [.ident n]
  | (n, some a) => [.ident n, .kAs, .ident a]

def wEnts : List (Nat × Option Nat) → List Tok
  | [] => []
  | e :: es => .comma :: wEnt e ++ wEnts es

def wHead : Ents → List Tok
  | .none => []
  | .one n a => wEnt (n, a) ++ [.kFrom]
  | .many e es => .lbrace :: wEnt e ++ wEnts es ++ [.rbrace, .kFrom]

def wName : Option Nat → List Tok
  | .none => []
  | some a => [.kAs, .ident a]

/-- What stands after `import [test]`. -/
def Src.body (s : Src) : List Tok := wHead s.ents ++ .str s.path :: wName s.name

def Src.write (s : Src) : List Tok := .kImport :: (if s.test then [.kTest] else []) ++ s.body

def entMeaning (e : Nat × Option Nat) : Nat × Nat := (e.1, e.2.getD e.1)

def Ents.meaning : Ents → List (Nat × Nat)
  | .none => []
  | .one n a => [entMeaning (n, a)]
  | .many e es => entMeaning e :: es.map entMeaning

def Src.meaning (s : Src) : Import := ⟨s.ents.meaning, s.path, s.name⟩

/-- What the import contributes. -/
def Src.means (testMode : Bool) (s : Src) : List Import :=
  if s.test = true ∧ testMode = false then [] else [s.meaning]

/-- The forms of an import that can be passed over: `"path"` and `name from "path"`. -/
def Src.simple (s : Src) : Prop := (s.ents = .none ∧ s.name = .none) ∨ ∃ n, s.ents = .one n .none

/-- The import is read, or it is of a form that can be passed over. -/
def Src.fits (testMode : Bool) (s : Src) : Prop := s.valid ∧ (s.test = true → testMode = false → s.simple)

/-- The import lists names in braces. -/
def Src.braces (s : Src) : Prop := ∃ e es, s.ents = .many e es

def noAs : List Tok → Prop
  | .kAs :: _ => False
  | _ => True

/-! ## Single imports -/

theorem entity_ok (e : Nat × Option Nat) (r : List Tok) (hr : noAs r) :
    entity (wEnt e ++ r) = some (entMeaning e, r) := by
  obtain ⟨n, a⟩ := e
  cases a with
  | none =>
    simp only [wEnt, List.cons_append, List.nil_append, entMeaning, Option.getD_none]
    cases r with
    | nil => rfl
    | cons t ts => cases t <;> first | rfl | exact absurd hr (by simp [noAs])
  | some a => rfl

theorem wEnts_head (es : List (Nat × Option Nat)) (r : List Tok) : noAs (wEnts es ++ .rbrace :: r) := by
  cases es <;> simp [wEnts, noAs]

theorem wEnt_cons (e : Nat × Option Nat) : ∃ n w, wEnt e = .ident n :: w := by
  obtain ⟨n, a⟩ := e
  cases a <;> exact ⟨n, _, rfl⟩

theorem entities_ok : ∀ (es : List (Nat × Option Nat)) (e : Nat × Option Nat) (k : Nat) (r : List Tok), es.length < k →
    entities k (wEnt e ++ (wEnts es ++ .rbrace :: r)) = some (entMeaning e :: es.map entMeaning, .rbrace :: r)
  | [], e, k, r, hk => by
    obtain ⟨k, rfl⟩ : ∃ j, k = j + 1 := ⟨k - 1, by omega⟩
    have he := entity_ok e (wEnts [] ++ .rbrace :: r) (wEnts_head [] r)
    simp only [wEnts, List.nil_append] at he ⊢
    obtain ⟨n, w, hw⟩ := wEnt_cons e
    rw [hw, List.cons_append] at he ⊢
    simp only [entities, he]
    rfl
  | f :: es, e, k, r, hk => by
    obtain ⟨k, rfl⟩ : ∃ j, k = j + 1 := ⟨k - 1, by omega⟩
    have he := entity_ok e (wEnts (f :: es) ++ .rbrace :: r) (wEnts_head _ r)
    have ih := entities_ok es f k r (by simp at hk; omega)
    simp only [wEnts, List.cons_append, List.append_assoc] at he ⊢
    obtain ⟨n, w, hw⟩ := wEnt_cons e
    rw [hw, List.cons_append] at he ⊢
    simp only [entities, he, ih]
    rfl

theorem wEnts_length : ∀ es : List (Nat × Option Nat), es.length ≤ (wEnts es).length
  | [] => by simp [wEnts]
  | e :: es => by
    have := wEnts_length es
    simp only [wEnts, List.length_cons, List.length_append]
    omega

theorem importTail_ok (es : List (Nat × Nat)) (p : Nat) (nm : Option Nat) (r : List Tok) (hr : noAs r)
    (hv : nm ≠ .none → es = []) :
    importTail es (.str p :: (wName nm ++ r)) = some (⟨es, p, nm⟩, r) := by
  simp only [importTail, consumeStr]
  cases nm with
  | none =>
    simp only [wName, List.nil_append]
    by_cases he : es = []
    · rw [if_pos he]
      cases r with
      | nil => rfl
      | cons t ts => cases t <;> first | rfl | exact absurd hr (by simp [noAs])
    · rw [if_neg he]
  | some a =>
    rw [if_pos (hv (by simp))]
    rfl

theorem body_ok (s : Src) (hv : s.valid) (k : Nat) (hk : s.body.length ≤ k) (r : List Tok) (hr : noAs r) :
    importBody k (s.body ++ r) = some (s.meaning, r) := by
  obtain ⟨t, ents, p, nm⟩ := s
  simp only [Src.body, Src.valid, Src.meaning] at *
  cases ents with
  | none =>
    have := importTail_ok [] p nm r hr (fun _ => rfl)
    simp only [wHead, List.nil_append, List.cons_append, Ents.meaning]
    rw [importBody]
    · exact this
    · intro r h; cases h
    · intro n r h; cases h
  | one n a =>
    have he := entity_ok (n, a) (.kFrom :: .str p :: (wName nm ++ r)) (by simp [noAs])
    have ht := importTail_ok [entMeaning (n, a)] p nm r hr (fun h => absurd (hv h) (by simp))
    simp only [wHead, List.append_assoc, List.cons_append, List.nil_append, Ents.meaning]
    cases a <;> simp only [wEnt, List.cons_append, List.nil_append] at he ⊢ <;>
      simp only [importBody, he, consume, if_true] <;> exact ht
  | many e es =>
    have hl := wEnts_length es
    simp only [wHead, List.length_append, List.length_cons] at hk
    have he := entities_ok es e k (.kFrom :: .str p :: (wName nm ++ r)) (by omega)
    have ht := importTail_ok (entMeaning e :: es.map entMeaning) p nm r hr (fun h => absurd (hv h) (by simp))
    simp only [wHead, List.append_assoc, List.cons_append, List.nil_append, Ents.meaning]
    simp only [importBody, he, consume, if_true]
    exact ht

theorem skipUntil_pre (t : Tok) : ∀ (a b : List Tok), t ∉ a → skipUntil t (a ++ t :: b) = t :: b
  | [], b, _ => by simp [skipUntil]
  | x :: a, b, h => by
    simp only [List.mem_cons, not_or] at h
    rw [List.cons_append, skipUntil, if_neg (fun hx => h.1 hx.symm)]
    exact skipUntil_pre t a b h.2

theorem wEnt_no_rbrace (e : Nat × Option Nat) : Tok.rbrace ∉ wEnt e := by
  obtain ⟨n, a⟩ := e
  cases a <;> simp [wEnt]

theorem wEnts_no_rbrace : ∀ es : List (Nat × Option Nat), Tok.rbrace ∉ wEnts es
  | [] => by simp [wEnts]
  | e :: es => by
    simp only [wEnts, List.cons_append, List.mem_cons, List.mem_append, not_or]
    exact ⟨by simp, wEnt_no_rbrace e, wEnts_no_rbrace es⟩

/-- **C222**: exactly the imports of the simple forms are passed over as a whole; of the others, the ones that name
declarations in braces or rename one are an error, and of the ones that name the module the name is left over. -/
theorem skip_iff (s : Src) (hv : s.valid) (r : List Tok) (hr : noAs r) :
    skipTest (s.body ++ r) = some r ↔ s.simple := by
  obtain ⟨t, ents, p, nm⟩ := s
  simp only [Src.body, Src.valid, Src.simple] at *
  have tail : ∀ r, noAs r → skipTail true (.str p :: r) = some r := by
    intro r hr
    cases r with
    | nil => rfl
    | cons t ts => cases t <;> first | rfl | exact absurd hr (by simp [noAs])
  cases ents with
  | none =>
    have h1 : skipTest (wHead .none ++ .str p :: wName nm ++ r) = some (wName nm ++ r) := by
      simp only [wHead, List.nil_append, List.cons_append, skipTest, skipTail, consumeStr]
      rfl
    rw [h1]
    cases nm with
    | none => simp [wName]
    | some a =>
      simp only [wName, Option.some.injEq, reduceCtorEq, and_false, exists_false, or_self, iff_false]
      intro h
      have := congrArg List.length h
      simp at this
      omega
  | one n a =>
    have hn : nm = .none := by
      cases nm with
      | none => rfl
      | some x => exact absurd (hv (by simp)) (by simp)
    subst hn
    cases a with
    | none =>
      simp only [wHead, wEnt, List.cons_append, List.nil_append, wName, skipTest, consume, if_true, tail r hr,
        true_iff]
      exact Or.inr ⟨n, rfl⟩
    | some a =>
      simp only [wHead, wEnt, List.cons_append, List.nil_append, wName, skipTest, consume]
      simp
  | many e es =>
    have hu := skipUntil_pre .rbrace (wEnt e ++ wEnts es) (.kFrom :: .str p :: (wName nm ++ r)) (by
      simp only [List.mem_append, not_or]; exact ⟨wEnt_no_rbrace e, wEnts_no_rbrace es⟩)
    simp only [wHead, List.cons_append, List.append_assoc, List.nil_append, skipTest] at hu ⊢
    rw [hu]
    simp [consume]

/-- **C222**: an import for tests is read when compiling for tests. -/
theorem import_ok (testMode : Bool) (s : Src) (hf : s.fits testMode) (k : Nat) (hk : s.write.length ≤ k)
    (r : List Tok) (hr : noAs r) :
    ∃ o, importDecl testMode k (s.write ++ r) = some (o, r) ∧ o.toList = s.means testMode := by
  have hb := body_ok s hf.1 k (by simp only [Src.write] at hk; simp at hk; omega) r hr
  have hs := skip_iff s hf.1 r hr
  obtain ⟨t, ents, p, nm⟩ := s
  cases t with
  | true =>
    cases testMode with
    | true =>
      refine ⟨some (Src.meaning ⟨true, ents, p, nm⟩), ?_, ?_⟩
      · simp only [Src.write, if_true, List.cons_append, List.nil_append, importDecl, hb]
      · simp [Src.means]
    | false =>
      refine ⟨none, ?_, by simp [Src.means]⟩
      have := hs.2 (hf.2 rfl rfl)
      simp only [Src.write, if_true, List.cons_append, List.nil_append, importDecl, this]
      rfl
  | false =>
    refine ⟨some (Src.meaning ⟨false, ents, p, nm⟩), ?_, by simp [Src.means]⟩
    simp only [Src.write, List.cons_append, List.nil_append, Bool.false_eq_true, if_false]
    have hne : ∀ r', (Src.body ⟨false, ents, p, nm⟩ ++ r) ≠ .kTest :: r' := by
      intro r'
      cases ents with
      | none => simp [Src.body, wHead]
      | one n a => cases a <;> simp [Src.body, wHead, wEnt]
      | many e es => simp [Src.body, wHead]
    rw [importDecl]
    · rw [hb]
    · intro r' h; exact hne r' h

/-! ## Blocks -/

def wBlock (b : List Src) : List Tok := b.flatMap Src.write

def blockMeans (testMode : Bool) (b : List Src) : List Import := b.flatMap (Src.means testMode)

theorem wBlock_noAs : ∀ (b : List Src) (r : List Tok), noAs r → noAs (wBlock b ++ r)
  | [], r, h => h
  | s :: b, r, _ => by simp [wBlock, Src.write, noAs]

theorem write_cons (s : Src) : ∃ w, s.write = .kImport :: w := ⟨_, rfl⟩

theorem block_ok (testMode : Bool) : ∀ (b : List Src) (k : Nat) (r : List Tok), (∀ s ∈ b, s.fits testMode) →
    (wBlock b).length < k → block testMode k (wBlock b ++ .rbrace :: r) = some (blockMeans testMode b, .rbrace :: r)
  | [], k, r, _, hk => by
    obtain ⟨k, rfl⟩ : ∃ j, k = j + 1 := ⟨k - 1, by omega⟩
    rfl
  | s :: b, k, r, hf, hk => by
    obtain ⟨k, rfl⟩ : ∃ j, k = j + 1 := ⟨k - 1, by omega⟩
    have hlen : (wBlock (s :: b)).length = s.write.length + (wBlock b).length := by simp [wBlock]
    have hpos : 0 < s.write.length := by simp [Src.write]
    obtain ⟨o, ho, hm⟩ := import_ok testMode s (hf s (by simp)) k (by omega) (wBlock b ++ .rbrace :: r)
      (wBlock_noAs b _ (by simp [noAs]))
    have ih := block_ok testMode b k r (fun s hs => hf s (by simp [hs])) (by omega)
    have e : wBlock (s :: b) ++ .rbrace :: r = s.write ++ (wBlock b ++ .rbrace :: r) := by simp [wBlock]
    rw [e]
    obtain ⟨w, hw⟩ := write_cons s
    rw [hw, List.cons_append] at ho ⊢
    simp only [block, ho, ih, hm, blockMeans, List.flatMap_cons]

theorem body_rbrace (s : Src) : Tok.rbrace ∈ s.write ↔ s.braces := by
  obtain ⟨t, ents, p, nm⟩ := s
  have hn : Tok.rbrace ∉ wName nm := by cases nm <;> simp [wName]
  simp only [Src.write, Src.body, Src.braces]
  cases ents with
  | none => cases t <;> simp [wHead, hn]
  | one n a => cases t <;> cases a <;> simp [wHead, wEnt, hn]
  | many e es => cases t <;> simp [wHead]

theorem block_rbrace (b : List Src) : Tok.rbrace ∈ wBlock b ↔ ∃ s ∈ b, s.braces := by
  simp only [wBlock, List.mem_flatMap]
  constructor
  · rintro ⟨s, hs, h⟩; exact ⟨s, hs, (body_rbrace s).1 h⟩
  · rintro ⟨s, hs, h⟩; exact ⟨s, hs, (body_rbrace s).2 h⟩

theorem skipUntil_first (t : Tok) : ∀ (a b : List Tok), t ∈ a → ∃ c d, a = c ++ t :: d ∧
    skipUntil t (a ++ b) = t :: (d ++ b)
  | x :: a, b, h => by
    by_cases hx : x = t
    · subst hx; exact ⟨[], a, rfl, by simp [skipUntil]⟩
    · have ha : t ∈ a := by
        rcases List.mem_cons.1 h with h | h
        · exact absurd h.symm hx
        · exact h
      obtain ⟨c, d, h1, h2⟩ := skipUntil_first t a b ha
      exact ⟨x :: c, d, by rw [h1]; rfl, by rw [List.cons_append, skipUntil, if_neg hx, h2]⟩

/-- A block is passed over as a whole exactly when none of its imports has braces. -/
theorem skip_block_iff (b : List Src) (r : List Tok) :
    consume .rbrace (skipUntil .rbrace (wBlock b ++ .rbrace :: r)) = some r ↔ ∀ s ∈ b, ¬ s.braces := by
  constructor
  · intro h s hs hb
    obtain ⟨c, d, h1, h2⟩ := skipUntil_first .rbrace (wBlock b) (.rbrace :: r) ((block_rbrace b).2 ⟨s, hs, hb⟩)
    rw [h2] at h
    simp only [consume, if_true, Option.some.injEq] at h
    have := congrArg List.length h
    simp at this
    omega
  · intro h
    rw [skipUntil_pre .rbrace (wBlock b) r (fun hm => by
      obtain ⟨s, hs, hb⟩ := (block_rbrace b).1 hm; exact h s hs hb)]
    simp [consume]

/-! ## `define if` -/

/-- `define if (c) { .. } else define if (c) { .. } else { .. }` -/
structure Cond where
  first : Bool × List Src
  more : List (Bool × List Src)
  last : Option (List Src)

def wBranch (p : Bool × List Src) : List Tok :=
  [.kDefine, .kIf, .lparen, .cond p.1, .rparen, .lbrace] ++ wBlock p.2 ++ [.rbrace]

def wMore : List (Bool × List Src) → List Tok
  | [] => []
  | p :: ps => .kElse :: wBranch p ++ wMore ps

def wLast : Option (List Src) → List Tok
  | .none => []
  | some b => [.kElse, .lbrace] ++ wBlock b ++ [.rbrace]

def Cond.write (c : Cond) : List Tok := wBranch c.first ++ wMore c.more ++ wLast c.last

/-- The imports of the first branch whose condition holds, else the last ones. -/
def chosen (first : Bool × List Src) : List (Bool × List Src) → Option (List Src) → List Src
  | more, last =>
    if first.1 then first.2
    else match more with
      | p :: ps => chosen p ps last
      | [] => last.getD []

/-- The branches that are not taken have no braces, and the imports of the one that is taken fit. -/
def condFits (testMode : Bool) (first : Bool × List Src) : List (Bool × List Src) → Option (List Src) → Prop
  | more, last =>
    if first.1 then
      (∀ s ∈ first.2, s.fits testMode) ∧ (∀ p ∈ more, ∀ s ∈ p.2, ¬ s.braces) ∧ (∀ b, last = some b → ∀ s ∈ b, ¬ s.braces)
    else (∀ s ∈ first.2, ¬ s.braces) ∧
      match more with
      | p :: ps => condFits testMode p ps last
      | [] => ∀ b, last = some b → ∀ s ∈ b, s.fits testMode

def noElse : List Tok → Prop
  | .kElse :: _ => False
  | _ => True

theorem skipElses_stop (k : Nat) (r : List Tok) (hr : noElse r) : skipElses (k + 1) r = some r := by
  cases r with
  | nil => rfl
  | cons t ts => cases t <;> first | rfl | exact absurd hr (by simp [noElse])

theorem skipElses_ok : ∀ (more : List (Bool × List Src)) (last : Option (List Src)) (k : Nat) (r : List Tok),
    (∀ p ∈ more, ∀ s ∈ p.2, ¬ s.braces) → (∀ b, last = some b → ∀ s ∈ b, ¬ s.braces) → noElse r →
    (wMore more ++ wLast last).length < k → skipElses k (wMore more ++ wLast last ++ r) = some r
  | [], last, k, r, _, hl, hr, hk => by
    obtain ⟨k, rfl⟩ : ∃ j, k = j + 1 := ⟨k - 1, by omega⟩
    cases last with
    | none => exact skipElses_stop k r hr
    | some b =>
      have := (skip_block_iff b r).2 (hl b rfl)
      simp only [wMore, wLast, List.nil_append, List.cons_append, List.append_assoc, List.length_cons,
        List.length_append] at hk ⊢
      obtain ⟨k, rfl⟩ : ∃ j, k = j + 1 := ⟨k - 1, by omega⟩
      simp only [skipElses, consume, if_true] at this ⊢
      rw [this]
      exact skipElses_stop k r hr
  | p :: ps, last, k, r, hm, hl, hr, hk => by
    obtain ⟨k, rfl⟩ : ∃ j, k = j + 1 := ⟨k - 1, by omega⟩
    have hb := (skip_block_iff p.2 (wMore ps ++ wLast last ++ r)).2 (hm p (by simp))
    have hlen : (wMore (p :: ps) ++ wLast last).length ≥ (wMore ps ++ wLast last).length + 1 := by
      simp only [wMore, List.length_append, List.length_cons, List.cons_append]; omega
    have ih := skipElses_ok ps last k r (fun q hq => hm q (by simp [hq])) hl hr (by omega)
    simp only [wMore, wBranch, List.nil_append, List.cons_append, List.append_assoc, skipElses] at hb ih ⊢
    have hu := skipUntil_pre .lbrace [.kIf, .lparen, .cond p.1, .rparen]
      (wBlock p.2 ++ (.rbrace :: (wMore ps ++ (wLast last ++ r)))) (by simp)
    simp only [List.nil_append, List.cons_append] at hu
    rw [hu]
    simp only [consume, if_true] at hb ⊢
    rw [hb]
    exact ih

theorem after_noElse (more : List (Bool × List Src)) (last : Option (List Src)) (h1 : more = []) (h2 : last = .none)
    (r : List Tok) (hr : noElse r) : noElse (wMore more ++ wLast last ++ r) := by
  subst h1; subst h2; exact hr

theorem conditional_ok (testMode : Bool) : ∀ (more : List (Bool × List Src)) (first : Bool × List Src)
    (last : Option (List Src)) (k : Nat) (r : List Tok), condFits testMode first more last → noElse r →
    (wBranch first ++ wMore more ++ wLast last).length < k →
    conditional testMode k (wBranch first ++ wMore more ++ wLast last ++ r) =
      some (blockMeans testMode (chosen first more last), r) := by
  intro more
  induction more with
  | nil =>
    intro first last k r hf hr hk
    obtain ⟨k, rfl⟩ : ∃ j, k = j + 1 := ⟨k - 1, by omega⟩
    obtain ⟨b, B⟩ := first
    cases b with
    | true =>
      simp only [condFits, if_true] at hf
      have hlen : (wBranch (true, B) ++ wMore [] ++ wLast last).length = (wBlock B).length + 7 + (wLast last).length := by
        simp [wBranch, wMore]; omega
      have hb := block_ok testMode B k (wMore [] ++ wLast last ++ r) hf.1 (by omega)
      have hs := skipElses_ok [] last k r (by simp) hf.2.2 hr (by simp [wMore]; omega)
      simp only [wBranch, List.cons_append, List.nil_append, List.append_assoc, conditional, if_true] at hb hs ⊢
      rw [hb]
      simp only [consume, if_true, hs, chosen]
    | false =>
      unfold condFits at hf
      simp only [Bool.false_eq_true, if_false] at hf
      have hsk := (skip_block_iff B (wMore [] ++ wLast last ++ r)).2 hf.1
      unfold chosen
      simp only [wBranch, List.cons_append, List.nil_append, List.append_assoc, conditional, Bool.false_eq_true, if_false]
        at hsk ⊢
      rw [hsk]
      cases last with
      | none =>
        simp only [wMore, wLast, List.nil_append, Option.getD_none, blockMeans, List.flatMap_nil]
        cases r with
        | nil => rfl
        | cons t ts => cases t <;> first | rfl | exact absurd hr (by simp [noElse])
      | some C =>
        have hlen : (wBranch (false, B) ++ wMore [] ++ wLast (some C)).length =
            (wBlock B).length + 7 + ((wBlock C).length + 3) := by
          simp [wBranch, wMore, wLast]; omega
        obtain ⟨k, rfl⟩ : ∃ j, k = j + 1 := ⟨k - 1, by omega⟩
        have hb := block_ok testMode C k r (hf.2 C rfl) (by omega)
        simp only [wMore, wLast, List.nil_append, List.cons_append, List.append_assoc, conditional, hb, consume, if_true,
          Option.getD_some]
  | cons p ps ih =>
    intro first last k r hf hr hk
    obtain ⟨k, rfl⟩ : ∃ j, k = j + 1 := ⟨k - 1, by omega⟩
    obtain ⟨b, B⟩ := first
    have hlen : (wBranch (b, B) ++ wMore (p :: ps) ++ wLast last).length =
        (wBlock B).length + 8 + (wBranch p ++ wMore ps ++ wLast last).length := by
      simp [wBranch, wMore]; omega
    cases b with
    | true =>
      simp only [condFits, if_true] at hf
      have hb := block_ok testMode B k (wMore (p :: ps) ++ wLast last ++ r) hf.1 (by omega)
      have hs := skipElses_ok (p :: ps) last k r hf.2.1 hf.2.2 hr (by
        simp only [wMore, List.length_cons, List.length_append, List.cons_append] at hlen hk ⊢
        omega)
      simp only [wBranch, List.cons_append, List.nil_append, List.append_assoc, conditional, if_true] at hb hs ⊢
      rw [hb]
      simp only [consume, if_true, hs, chosen]
    | false =>
      unfold condFits at hf
      simp only [Bool.false_eq_true, if_false] at hf
      have hsk := (skip_block_iff B (wMore (p :: ps) ++ wLast last ++ r)).2 hf.1
      have ih' := ih p last k r hf.2 hr (by omega)
      rw [chosen]
      simp only [Bool.false_eq_true, if_false]
      rw [show wBranch (false, B) ++ wMore (p :: ps) ++ wLast last ++ r =
        [.kDefine, .kIf, .lparen, .cond false, .rparen, .lbrace] ++
          (wBlock B ++ .rbrace :: (wMore (p :: ps) ++ wLast last ++ r)) by simp [wBranch]]
      simp only [List.cons_append, List.nil_append, conditional, Bool.false_eq_true, if_false]
      rw [hsk]
      rw [show wMore (p :: ps) ++ wLast last ++ r = .kElse :: (wBranch p ++ wMore ps ++ wLast last ++ r) by simp [wMore]]
      exact ih'

/-! ## The top of a file -/

inductive Top where
  | imp (s : Src)
  | cnd (c : Cond)

def Top.write : Top → List Tok
  | .imp s => s.write
  | .cnd c => c.write

def Top.means (testMode : Bool) : Top → List Import
  | .imp s => s.means testMode
  | .cnd c => blockMeans testMode (chosen c.first c.more c.last)

def Top.fits (testMode : Bool) : Top → Prop
  | .imp s => s.fits testMode
  | .cnd c => condFits testMode c.first c.more c.last

/-- What follows the imports is something else. -/
def rest : List Tok → Prop
  | .kImport :: _ => False
  | .kDefine :: _ => False
  | .kAs :: _ => False
  | .kElse :: _ => False
  | _ => True

theorem top_head (t : Top) (r : List Tok) : (∃ w, t.write ++ r = .kImport :: w) ∨ ∃ w, t.write ++ r = .kDefine :: w := by
  cases t with
  | imp s => exact Or.inl ⟨_, rfl⟩
  | cnd c => exact Or.inr ⟨_, rfl⟩

theorem tops_head (ts : List Top) (r : List Tok) (hr : rest r) : noAs (ts.flatMap Top.write ++ r) ∧
    noElse (ts.flatMap Top.write ++ r) := by
  cases ts with
  | nil =>
    simp only [List.flatMap_nil, List.nil_append]
    cases r with
    | nil => exact ⟨trivial, trivial⟩
    | cons t ts => cases t <;> first | exact ⟨trivial, trivial⟩ | exact absurd hr (by simp [rest])
  | cons t ts =>
    rw [List.flatMap_cons, List.append_assoc]
    rcases top_head t (ts.flatMap Top.write ++ r) with ⟨w, h⟩ | ⟨w, h⟩ <;> rw [h] <;> exact ⟨trivial, trivial⟩

/-- **C222**: the imports at the top of a file are read as written: all of them when compiling for tests, the ones not
marked `test` otherwise, and of a `define if` those of the branch that is chosen. -/
theorem tops_ok_partial (testMode : Bool) : ∀ (ts : List Top) (k : Nat) (r : List Tok), (∀ t ∈ ts, t.fits testMode) →
    rest r → (ts.flatMap Top.write).length + 1 < k →
    tops testMode k (ts.flatMap Top.write ++ r) = some (ts.flatMap (Top.means testMode), r)
  | [], k, r, _, hr, hk => by
    obtain ⟨k, rfl⟩ : ∃ j, k = j + 1 := ⟨k - 1, by omega⟩
    simp only [List.flatMap_nil, List.nil_append]
    cases r with
    | nil => rfl
    | cons t ts => cases t <;> first | rfl | exact absurd hr (by simp [rest])
  | t :: ts, k, r, hf, hr, hk => by
    obtain ⟨k, rfl⟩ : ∃ j, k = j + 1 := ⟨k - 1, by omega⟩
    have hpos : 0 < t.write.length := by
      cases t with
      | imp s => simp [Top.write, Src.write]
      | cnd c => simp [Top.write, Cond.write, wBranch]
    have hlen : ((t :: ts).flatMap Top.write).length = t.write.length + (ts.flatMap Top.write).length := by simp
    have ih := tops_ok_partial testMode ts k r (fun t ht => hf t (by simp [ht])) hr (by omega)
    obtain ⟨h1, h2⟩ := tops_head ts r hr
    have hc : conditional testMode k (t.write ++ (ts.flatMap Top.write ++ r)) =
        some (t.means testMode, ts.flatMap Top.write ++ r) := by
      cases t with
      | imp s =>
        obtain ⟨k, rfl⟩ : ∃ j, k = j + 1 := ⟨k - 1, by omega⟩
        obtain ⟨o, ho, hm⟩ := import_ok testMode s (hf (.imp s) (by simp)) k (by simp only [Top.write] at hlen; omega) _ h1
        simp only [Top.write, Top.means]
        obtain ⟨w, hw⟩ := write_cons s
        rw [hw, List.cons_append] at ho ⊢
        simp only [conditional, ho, hm]
      | cnd c =>
        simp only [Top.write, Top.means, Cond.write]
        exact conditional_ok testMode c.more c.first c.last k _ (hf (.cnd c) (by simp)) h2 (by
          simp only [Top.write, Cond.write] at hlen; omega)
    rw [List.flatMap_cons, List.append_assoc, List.flatMap_cons]
    rcases top_head t (ts.flatMap Top.write ++ r) with ⟨w, h⟩ | ⟨w, h⟩
    · rw [h] at hc ⊢
      simp only [tops, hc, ih]
    · rw [h] at hc ⊢
      simp only [tops, hc, ih]

/-- **C222**: a branch whose condition is false is left out as a whole exactly when no import in it has braces. -/
theorem false_branch_iff (testMode : Bool) (b : List Src) (k : Nat) (r : List Tok) (hr : noElse r) :
    conditional testMode (k + 1) (wBranch (false, b) ++ r) = some ([], r) ↔ ∀ s ∈ b, ¬ s.braces := by
  have e : wBranch (false, b) ++ r = [.kDefine, .kIf, .lparen, .cond false, .rparen, .lbrace] ++
      (wBlock b ++ .rbrace :: r) := by simp [wBranch]
  rw [e]
  simp only [List.cons_append, List.nil_append, conditional, Bool.false_eq_true, if_false]
  constructor
  · intro h s hs hb
    obtain ⟨c, d, h1, h2⟩ := skipUntil_first .rbrace (wBlock b) (.rbrace :: r) ((block_rbrace b).2 ⟨s, hs, hb⟩)
    rw [h2] at h
    simp only [consume, if_true] at h
    have hd : noElse (d ++ .rbrace :: r) ∧ r.length < (d ++ .rbrace :: r).length := by
      refine ⟨?_, by simp; omega⟩
      -- after a closing brace inside the block comes `from`, never `else`
      have hne : Tok.kElse ∉ wBlock b := by
        intro hm
        simp only [wBlock, List.mem_flatMap] at hm
        obtain ⟨s, _, hm⟩ := hm
        obtain ⟨t, ents, p, nm⟩ := s
        have hw : ∀ es, Tok.kElse ∉ wEnts es := by
          intro es
          induction es with
          | nil => simp [wEnts]
          | cons e es ih => obtain ⟨n, a⟩ := e; cases a <;> simp [wEnts, wEnt, ih]
        have hn : Tok.kElse ∉ wName nm := by cases nm <;> simp [wName]
        simp only [Src.write, Src.body] at hm
        cases ents with
        | none => cases t <;> simp [wHead, hn] at hm
        | one n a => cases t <;> cases a <;> simp [wHead, wEnt, hn] at hm
        | many e es => obtain ⟨n, a⟩ := e; cases t <;> cases a <;> simp [wHead, wEnt, hn, hw] at hm
      cases d with
      | nil => trivial
      | cons x xs =>
        have : x ≠ .kElse := fun hx => hne (by rw [h1, hx]; simp)
        cases x <;> first | trivial | exact absurd rfl this
    revert h
    cases hd2 : d ++ Tok.rbrace :: r with
    | nil => intro h; simp at hd2
    | cons x xs =>
      rw [hd2] at hd
      intro h
      have hx : x :: xs = r := by
        cases x <;> first | (simp at h; exact h) | exact absurd hd.1 (by simp [noElse])
      rw [hx] at hd
      omega
  · intro h
    rw [(skip_block_iff b r).2 h]
    cases r with
    | nil => rfl
    | cons t ts => cases t <;> first | rfl | exact absurd hr (by simp [noElse])

/-! ## Cases -/

/-- `import test foo from "1"`, `import {a as b, c} from "2"`,
`define if (false) { import "3" as m } else { import "4" }` -/
def sample : List Top :=
  [.imp ⟨true, .one 9 .none, 1, .none⟩, .imp ⟨false, .many (5, some 6) [(7, .none)], 2, .none⟩,
   .cnd ⟨(false, [⟨false, .none, 3, some 8⟩]), [], some [⟨false, .none, 4, .none⟩]⟩]

example : (∀ t ∈ sample, t.fits false) ∧
    sample.flatMap (Top.means false) = [⟨[(5, 6), (7, 7)], 2, .none⟩, ⟨[], 4, .none⟩] := by
  refine ⟨?_, rfl⟩
  intro t ht
  simp only [sample, List.mem_cons, List.not_mem_nil, or_false] at ht
  rcases ht with h | h | h <;> subst h
  · exact ⟨by simp [Src.valid], fun _ _ => Or.inr ⟨9, rfl⟩⟩
  · exact ⟨by simp [Src.valid], by simp⟩
  · simp [Top.fits, condFits, Src.braces, Src.fits, Src.valid]

/-- `import test { a } from "1"` is an error in a compilation that is not for tests. -/
example : importDecl false 10 (Src.write ⟨true, .many (5, .none) [], 1, .none⟩) = none := by rfl

end Verif.Imports
