import Verif.Driver.CommandLine.Words
/-!
# The loop over the arguments follows the reading of the command line
-/
namespace Verif.CommandLine

/-- Names stored one after the other. -/
def put (arr : Nat → Str) : Nat → List Str → Nat → Str
  | _, [] => arr
  | b, x :: xs => put (upd arr b x) (b + 1) xs

theorem put_outside : ∀ (xs : List Str) (arr : Nat → Str) (b j : Nat), j < b ∨ b + xs.length ≤ j →
    put arr b xs j = arr j
  | [], _, _, _, _ => rfl
  | x :: xs, arr, b, j, h => by
    simp only [List.length_cons] at h
    rw [put, put_outside xs _ _ _ (by omega), upd, if_neg (by omega)]

theorem put_inside : ∀ (xs : List Str) (arr : Nat → Str) (b j : Nat) (h : j < xs.length),
    put arr b xs (b + j) = xs[j]
  | x :: xs, arr, b, 0, h => by
    rw [put, put_outside xs _ _ _ (by omega), upd, if_pos (by omega)]; rfl
  | x :: xs, arr, b, j + 1, h => by
    rw [put, show b + (j + 1) = b + 1 + j by omega, put_inside xs _ _ _ (by simpa using h)]
    rfl

theorem flagAt_of {flags : List Flag} {k : Nat} {f : Flag} (h : flags[k]? = some f) : flagAt flags k = f := by
  rw [flagAt, List.getD_eq_getElem?_getD, h]; rfl

/-- The values after the events. -/
def after (flags : List Flag) (vals : Nat → Val) (es : List Event) : Nat → Val :=
  fun k => (saidOf k es).foldl (stepVal (flagAt flags k)) (vals k)

theorem after_file (flags : List Flag) (vals : Nat → Val) (a : Str) (es : List Event) :
    after flags vals (.file a :: es) = after flags vals es := rfl

theorem after_given (flags : List Flag) (vals : Nat → Val) (k : Nat) (v : Option Str) (es : List Event) :
    after flags vals (.given k v :: es) = after flags (upd vals k (stepVal (flagAt flags k) (vals k) v)) es := by
  funext j
  by_cases h : k = j
  · subst h
    simp [after, saidOf, upd]
  · have h' : ¬ j = k := fun e => h e.symm
    simp [after, saidOf, upd, h, h']

/-- The arguments from index `i` on. -/
def Holds (arr : Nat → Str) (i : Nat) (args : List Str) : Prop := ∀ j (h : j < args.length), arr (i + j) = args[j]

theorem holds_head {arr : Nat → Str} {i : Nat} {a : Str} {rest : List Str} (h : Holds arr i (a :: rest)) :
    arr i = a := h 0 (by simp)

theorem holds_tail {arr : Nat → Str} {i : Nat} {a : Str} {rest : List Str} (h : Holds arr i (a :: rest)) :
    Holds arr (i + 1) rest := by
  intro j hj
  have := h (j + 1) (by simpa using hj)
  rw [show i + (j + 1) = i + 1 + j by omega] at this
  exact this

theorem holds_upd {arr : Nat → Str} {i b : Nat} {x : Str} {args : List Str} (h : Holds arr i args) (hb : b < i) :
    Holds (upd arr b x) i args := by
  intro j hj
  rw [upd, if_neg (by omega)]
  exact h j hj

theorem noNul_tail {a : Str} {rest : List Str} (h : NoNul (a :: rest)) : NoNul rest :=
  fun x hx => h x (List.mem_cons_of_mem _ hx)

/-- What the loop returns for a reading of the command line. -/
def expected (flags : List Flag) (base : Nat) (st : St) (es : List Event) : Ending → R St
  | .fine => .ok ⟨put st.arr (base + st.w) (fileNames es), after flags st.vals es, st.w + (fileNames es).length, st.pos⟩
  | .wrong m => report m
  | .undefined => .ub

theorem expected_refusal (flags : List Flag) (base : Nat) (st : St) {e : Ending} (h : e ≠ .fine) (es : List Event) :
    expected flags base st es e = refusal e := by
  cases e with
  | fine => exact absurd rfl h
  | wrong m => rfl
  | undefined => rfl

theorem expected_given (flags : List Flag) (base : Nat) (st : St) (k : Nat) (v : Option Str) (es : List Event)
    (e : Ending) :
    expected flags base st (.given k v :: es) e =
      expected flags base { st with vals := upd st.vals k (stepVal (flagAt flags k) (st.vals k) v) } es e := by
  cases e with
  | fine => rw [expected, expected, after_given]; rfl
  | wrong m => rfl
  | undefined => rfl

theorem expected_file (flags : List Flag) (base : Nat) (st : St) (a : Str) (es : List Event) (e : Ending) :
    expected flags base st (.file a :: es) e =
      expected flags base { st with arr := upd st.arr (base + st.w) a, w := st.w + 1 } es e := by
  cases e with
  | fine =>
    rw [expected, expected, after_file]
    simp [fileNames, put, Nat.add_assoc, Nat.add_comm 1]
  | wrong m => rfl
  | undefined => rfl

theorem dashed {a : Str} (h : 0 ∉ a) (hp : ¬ Plain a) (hi : a ≠ [45, 45]) :
    isIgnore a = false ∧ (isShort a || isLong a) = true := by
  have h1 : isIgnore a = false := by
    rw [Bool.eq_false_iff]; exact fun e => hi ((isIgnore_iff h).1 e)
  refine ⟨h1, ?_⟩
  rw [plain_iff h] at hp
  cases hs : isShort a <;> cases hl : isLong a <;> simp_all

theorem named_unknown {flags : List Flag} {a : Str} (hd : (isShort a || isLong a) = true)
    (h : ∀ k v, ¬ Spells flags a k v) : ∃ v, named flags a = (none, v) := by
  match hn : named flags a with
  | (none, v) => exact ⟨v, rfl⟩
  | (some k, v) => exact absurd (spells_of_named hd hn) (h k v)

theorem loop_line {flags : List Flag} (hs : Sound flags) (base : Nat) {args : List Str} {es : List Event} {e : Ending}
    (hl : Line flags args es e) : NoNul args → ∀ (i : Nat) (st : St), Holds st.arr i args → base + st.w ≤ i →
    loop flags 0 base args.length i st = expected flags base st es e := by
  induction hl with
  | nil => intro _ i st _ _; rfl
  | stop =>
    intro _ i st ha _
    rw [List.length_cons, loop, holds_head ha]; rfl
  | @file a rest es e hp _ ih =>
    intro hn i st ha hb
    obtain ⟨h1, h2, h3⟩ := (plain_iff (hn a (by simp))).1 hp
    rw [List.length_cons, loop]
    simp only [holds_head ha, h1, h2, h3, Bool.or_false, Bool.false_eq_true, if_false]
    rw [plain, if_pos rfl, R.bind, expected_file]
    refine ih (noNul_tail hn) _ _ ?_ ?_
    · exact holds_upd (holds_tail ha) (by omega)
    · simp only; omega
  | @switch a k f rest es e hsp hf hk _ ih =>
    intro hn i st ha hb
    obtain ⟨h1, h2, h3⟩ := named_of_spells hs hsp
    rw [List.length_cons, loop]
    simp only [holds_head ha, h1, h2, h3, Bool.false_eq_true, if_false, if_true, flagAt_of hf, hk]
    rw [expected_given]
    exact ih (noNul_tail hn) _ _ (holds_tail ha) (by simp only; omega)
  | @joined a k f v rest es e hsp hf hk hr _ ih =>
    intro hn i st ha hb
    obtain ⟨h1, h2, h3⟩ := named_of_spells hs hsp
    rw [List.length_cons, loop]
    simp only [holds_head ha, h1, h2, h3, Bool.false_eq_true, if_false, if_true, flagAt_of hf, hk]
    rw [validate_ok _ hk hr, R.bind, expected_given, flagAt_of hf]
    exact ih (noNul_tail hn) _ _ (holds_tail ha) (by simp only; omega)
  | @separate a k f v rest es e hsp hf hk hr _ ih =>
    intro hn i st ha hb
    obtain ⟨h1, h2, h3⟩ := named_of_spells hs hsp
    rw [List.length_cons, List.length_cons, loop]
    simp only [holds_head ha, h1, h2, h3, Bool.false_eq_true, if_false, if_true, flagAt_of hf, hk]
    rw [holds_head (holds_tail ha), validate_ok _ hk hr, R.bind, expected_given, flagAt_of hf]
    exact ih (noNul_tail (noNul_tail hn)) _ _ (holds_tail (holds_tail ha)) (by simp only; omega)
  | @unknown a rest hp hi hsp =>
    intro hn i st ha _
    obtain ⟨h1, h2⟩ := dashed (hn a (by simp)) hp hi
    obtain ⟨v, h3⟩ := named_unknown h2 hsp
    rw [List.length_cons, loop]
    simp only [holds_head ha, h1, h2, h3, Bool.false_eq_true, if_false, if_true]
    rfl
  | @unwanted a k f v rest hsp hf hk =>
    intro _ i st ha _
    obtain ⟨h1, h2, h3⟩ := named_of_spells hs hsp
    rw [List.length_cons, loop]
    simp only [holds_head ha, h1, h2, h3, Bool.false_eq_true, if_false, if_true, flagAt_of hf, hk]
    rfl
  | @lacking a k f hsp hf hk =>
    intro _ i st ha _
    obtain ⟨h1, h2, h3⟩ := named_of_spells hs hsp
    rw [List.length_cons, loop]
    simp only [holds_head ha, h1, h2, h3, Bool.false_eq_true, if_false, if_true, flagAt_of hf, hk]
    rfl
  | @refused a k f v rest e hsp hf hr =>
    intro _ i st ha _
    obtain ⟨h1, h2, h3⟩ := named_of_spells hs hsp
    have hk := refuses_not_fine hr
    rw [List.length_cons, loop]
    simp only [holds_head ha, h1, h2, h3, Bool.false_eq_true, if_false, if_true, flagAt_of hf, hk.2]
    rw [validate_refused _ hr, expected_refusal _ _ _ hk.1]
    cases e with
    | fine => exact absurd rfl hk.1
    | wrong m => simp only [refusal, report]; split <;> rfl
    | undefined => rfl
  | @refusedNext a k f v rest e hsp hf hr =>
    intro _ i st ha _
    obtain ⟨h1, h2, h3⟩ := named_of_spells hs hsp
    have hk := refuses_not_fine hr
    rw [List.length_cons, List.length_cons, loop]
    simp only [holds_head ha, h1, h2, h3, Bool.false_eq_true, if_false, if_true, flagAt_of hf, hk.2]
    rw [holds_head (holds_tail ha), validate_refused _ hr, expected_refusal _ _ _ hk.1]
    cases e with
    | fine => exact absurd rfl hk.1
    | wrong m => simp only [refusal, report]; split <;> rfl
    | undefined => rfl

/-- Every command line has a reading. -/
theorem line_exists {flags : List Flag} (hs : Sound flags) : ∀ (n : Nat) (args : List Str), args.length ≤ n → NoNul args →
    ∃ es e, Line flags args es e
  | _, [], _, _ => ⟨[], .fine, .nil⟩
  | n + 1, a :: rest, hn, hz => by
    have hrest := line_exists hs n rest (by simpa using hn) (noNul_tail hz)
    by_cases hi : a = [45, 45]
    · subst hi; exact ⟨_, _, .stop⟩
    by_cases hp : Plain a
    · obtain ⟨es, e, h⟩ := hrest
      exact ⟨_, _, .file hp h⟩
    obtain ⟨_, h2⟩ := dashed (hz a (by simp)) hp hi
    match hnm : named flags a with
    | (none, v) =>
      refine ⟨_, _, .unknown hp hi fun k w hsp => ?_⟩
      have := (named_of_spells hs hsp).2.2
      rw [hnm] at this
      simp at this
    | (some k, v) =>
      have hsp := spells_of_named h2 hnm
      have hf : ∃ f, flags[k]? = some f := by
        cases hsp with
        | long hf => exact ⟨_, hf⟩
        | longValue hf _ _ => exact ⟨_, hf⟩
        | short hf _ => exact ⟨_, hf⟩
        | shortValue hf _ _ => exact ⟨_, hf⟩
      obtain ⟨f, hf⟩ := hf
      match v with
      | none =>
        by_cases hk : f.kind = .switch
        · obtain ⟨es, e, h⟩ := hrest
          exact ⟨_, _, .switch hsp hf hk h⟩
        · match rest with
          | [] => exact ⟨_, _, .lacking hsp hf hk⟩
          | w :: rest =>
            by_cases hr : reading f.kind w = none
            · obtain ⟨e, he⟩ := refused_of_unread hk hr
              exact ⟨_, _, .refusedNext hsp hf he⟩
            · obtain ⟨es, e, h⟩ := line_exists hs n rest (by simp at hn; omega) (noNul_tail (noNul_tail hz))
              exact ⟨_, _, .separate hsp hf hk hr h⟩
      | some w =>
        by_cases hk : f.kind = .switch
        · exact ⟨_, _, .unwanted hsp hf hk⟩
        · by_cases hr : reading f.kind w = none
          · obtain ⟨e, he⟩ := refused_of_unread hk hr
            exact ⟨_, _, .refused hsp hf he⟩
          · obtain ⟨es, e, h⟩ := hrest
            exact ⟨_, _, .joined hsp hf hk hr h⟩

end Verif.CommandLine
