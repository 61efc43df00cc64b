import Verif.Driver.CommandLine.Spec
/-!
# Single arguments: which flag they name and what their values mean
-/
namespace Verif.CommandLine

theorem getD_nonzero {a : Str} (h : 0 ∉ a) : ∀ {i : Nat}, at' a i = 0 → a.length ≤ i := by
  intro i h0
  refine Nat.le_of_not_lt fun hl => h ?_
  simp only [at', List.getD_eq_getElem?_getD, List.getElem?_eq_getElem hl, Option.getD_some] at h0
  exact h0 ▸ List.getElem_mem hl

theorem isIgnore_iff {a : Str} (h : 0 ∉ a) : isIgnore a = true ↔ a = [45, 45] := by
  constructor
  · intro hi
    simp only [isIgnore, Bool.and_eq_true, beq_iff_eq] at hi
    have hl := getD_nonzero h hi.2
    match a, hi, hl with
    | [], hi, _ => simp [at'] at hi
    | [x], hi, _ => simp [at'] at hi
    | [x, y], hi, _ => simp [at'] at hi; simp [hi]
    | x :: y :: z :: r, _, hl => simp at hl
  · intro hi; subst hi; rfl

theorem isShort_cases {a : Str} (hi : isShort a = true) : ∃ c r, a = 45 :: c :: r ∧ c ≠ 45 ∧ c ≠ 0 := by
  match a, hi with
  | [], hi => simp [isShort, at'] at hi
  | [x], hi => simp [isShort, at'] at hi
  | x :: y :: r, hi =>
    simp [isShort, at'] at hi
    exact ⟨y, r, by simp [hi.1.1], hi.1.2, hi.2⟩

theorem isLong_cases {a : Str} (hi : isLong a = true) : ∃ c r, a = 45 :: 45 :: c :: r := by
  match a, hi with
  | [], hi => simp [isLong, at'] at hi
  | [x], hi => simp [isLong, at'] at hi
  | [x, y], hi => simp [isLong, at'] at hi
  | x :: y :: z :: r, hi =>
    simp [isLong, at'] at hi
    exact ⟨z, r, by simp [hi.1.1, hi.1.2]⟩

theorem plain_iff {a : Str} (h : 0 ∉ a) :
    Plain a ↔ isIgnore a = false ∧ isShort a = false ∧ isLong a = false := by
  match a with
  | [] => simp [Plain, isIgnore, isShort, isLong, at']
  | [x] =>
    simp [Plain, isIgnore, isShort, isLong, at']
    exact Decidable.em _ |>.symm
  | [x, y] =>
    simp only [List.mem_cons, List.not_mem_nil, or_false, not_or] at h
    simp [Plain, isIgnore, isShort, isLong, at']
    by_cases hx : x = 45 <;> by_cases hy : y = 45 <;> simp_all
    exact fun h' => h h'.symm
  | x :: y :: z :: r =>
    simp only [List.mem_cons, not_or] at h
    have h1 : ¬ y = 0 := fun h' => h.2.1 h'.symm
    have h2 : ¬ z = 0 := fun h' => h.2.2.1 h'.symm
    simp [Plain, isIgnore, isShort, isLong, at']
    by_cases hx : x = 45 <;> by_cases hy : y = 45 <;> simp_all

theorem findByName_of {flags : List Flag} (hs : Sound flags) {k : Nat} {f : Flag} (hf : flags[k]? = some f) :
    findByName flags f.name = some k := by
  obtain ⟨hk, rfl⟩ := List.getElem?_eq_some_iff.1 hf
  refine List.findIdx?_eq_some_iff_getElem.2 ⟨hk, by simp, fun j hj => ?_⟩
  have := (List.pairwise_iff_getElem.1 hs.apart j k (by omega) hk hj).1
  simpa using this

theorem findByShort_of {flags : List Flag} (hs : Sound flags) {k : Nat} {f : Flag} (hf : flags[k]? = some f)
    (h0 : f.sf ≠ 0) : findByShort flags f.sf = some k := by
  obtain ⟨hk, rfl⟩ := List.getElem?_eq_some_iff.1 hf
  refine List.findIdx?_eq_some_iff_getElem.2 ⟨hk, by simpa using h0, fun j hj => ?_⟩
  have := (List.pairwise_iff_getElem.1 hs.apart j k (by omega) hk hj).2
  simp only [Bool.and_eq_true, bne_iff_ne, ne_eq, beq_iff_eq, not_and]
  intro h1 h2
  rcases this with h | h
  · exact h1 h
  · exact h h2

theorem findByName_some {flags : List Flag} {name : Str} {k : Nat} (h : findByName flags name = some k) :
    ∃ f, flags[k]? = some f ∧ f.name = name := by
  obtain ⟨hk, h1, _⟩ := List.findIdx?_eq_some_iff_getElem.1 h
  exact ⟨flags[k], List.getElem?_eq_getElem hk, by simpa using h1⟩

theorem findByShort_some {flags : List Flag} {c : Nat} {k : Nat} (h : findByShort flags c = some k) :
    ∃ f, flags[k]? = some f ∧ f.sf = c ∧ f.sf ≠ 0 := by
  obtain ⟨hk, h1, _⟩ := List.findIdx?_eq_some_iff_getElem.1 h
  simp at h1
  exact ⟨flags[k], List.getElem?_eq_getElem hk, h1.2, h1.1⟩

theorem takeWhile_name {name rest : Str} (h : 61 ∉ name) :
    (name ++ 61 :: rest).takeWhile (fun c => c != 61) = name := by
  induction name with
  | nil => rfl
  | cons x xs ih =>
    simp only [List.mem_cons, not_or] at h
    have hx : (x != 61) = true := by simpa using fun e => h.1 (Eq.symm e)
    rw [List.cons_append, List.takeWhile_cons, if_pos hx, ih h.2]

theorem dropWhile_name {name rest : Str} (h : 61 ∉ name) :
    (name ++ 61 :: rest).dropWhile (fun c => c != 61) = 61 :: rest := by
  induction name with
  | nil => rfl
  | cons x xs ih =>
    simp only [List.mem_cons, not_or] at h
    have hx : (x != 61) = true := by simpa using fun e => h.1 (Eq.symm e)
    rw [List.cons_append, List.dropWhile_cons, if_pos hx, ih h.2]

theorem takeWhile_all {name : Str} (h : 61 ∉ name) : name.takeWhile (fun c => c != 61) = name := by
  induction name with
  | nil => rfl
  | cons x xs ih =>
    simp only [List.mem_cons, not_or] at h
    have hx : (x != 61) = true := by simpa using fun e => h.1 (Eq.symm e)
    rw [List.takeWhile_cons, if_pos hx, ih h.2]

theorem dropWhile_all {name : Str} (h : 61 ∉ name) : name.dropWhile (fun c => c != 61) = [] := by
  induction name with
  | nil => rfl
  | cons x xs ih =>
    simp only [List.mem_cons, not_or] at h
    have hx : (x != 61) = true := by simpa using fun e => h.1 (Eq.symm e)
    rw [List.dropWhile_cons, if_pos hx, ih h.2]

theorem isSpace_iff (c : Nat) : isSpace c = true ↔ Blank c := by
  simp only [isSpace, Blank, Bool.or_eq_true, beq_iff_eq, Bool.and_eq_true, decide_eq_true_eq]
  omega

theorem dropWhile_gap {gap v : Str} (hg : ∀ c ∈ gap, Blank c) (hv : ∀ c, v.head? = some c → ¬ Blank c) :
    (gap ++ v).dropWhile isSpace = v := by
  induction gap with
  | nil =>
    match v, hv with
    | [], _ => rfl
    | c :: r, hv =>
      have := hv c rfl
      rw [← isSpace_iff] at this
      rw [List.nil_append, List.dropWhile_cons, if_neg this]
  | cons x xs ih =>
    have hx := (isSpace_iff x).2 (hg x (by simp))
    rw [List.cons_append, List.dropWhile_cons, if_pos hx, ih fun c hc => hg c (List.mem_cons_of_mem _ hc)]

theorem gap_of_dropWhile (s : Str) : ∃ gap, s = gap ++ s.dropWhile isSpace ∧ (∀ c ∈ gap, Blank c) ∧
    ∀ c, (s.dropWhile isSpace).head? = some c → ¬ Blank c := by
  induction s with
  | nil => exact ⟨[], rfl, by simp, by simp⟩
  | cons x xs ih =>
    by_cases hx : isSpace x = true
    · obtain ⟨gap, h1, h2, h3⟩ := ih
      rw [List.dropWhile_cons, if_pos hx]
      refine ⟨x :: gap, by rw [List.cons_append, ← h1], ?_, h3⟩
      intro c hc
      rcases List.mem_cons.1 hc with rfl | hc
      · exact (isSpace_iff _).1 hx
      · exact h2 c hc
    · rw [List.dropWhile_cons, if_neg hx]
      refine ⟨[], rfl, by simp, ?_⟩
      intro c hc
      simp only [List.head?_cons, Option.some.injEq] at hc
      subst hc
      rwa [← isSpace_iff]

/-- What the code finds in an argument is what the argument spells. -/
theorem named_of_spells {flags : List Flag} (hs : Sound flags) {a : Str} {k : Nat} {v : Option Str}
    (h : Spells flags a k v) :
    (isShort a || isLong a) = true ∧ isIgnore a = false ∧ named flags a = (some k, v) := by
  cases h with
  | @long _ f hf =>
    obtain ⟨h1, h2, h3, _⟩ := hs.spelled f (List.mem_of_getElem? hf)
    match hn : f.name, h1 with
    | c :: r, _ =>
      have hc : ¬ c = 0 := by rintro rfl; simp [hn] at h3
      refine ⟨by simp [isShort, isLong, at', hc], by simp [isIgnore, at', hc], ?_⟩
      have e1 : isShort (45 :: 45 :: c :: r) = false := by simp [isShort, at']
      rw [named, e1, if_neg (by simp)]
      have h2' : 61 ∉ c :: r := hn ▸ h2
      simp only [List.drop_succ_cons, List.drop_zero, takeWhile_all h2', dropWhile_all h2']
      rw [← hn, findByName_of hs hf]
  | @longValue _ f gap v hf hg hv =>
    obtain ⟨h1, h2, h3, _⟩ := hs.spelled f (List.mem_of_getElem? hf)
    have e1 : isShort (45 :: 45 :: (f.name ++ 61 :: (gap ++ v))) = false := by simp [isShort, at']
    refine ⟨?_, ?_, ?_⟩
    · match hn : f.name, h1 with
      | c :: r, _ =>
        have hc : ¬ c = 0 := by rintro rfl; simp [hn] at h3
        simp [isShort, isLong, at', hc]
    · match hn : f.name, h1 with
      | c :: r, _ =>
        have hc : ¬ c = 0 := by rintro rfl; simp [hn] at h3
        simp [isIgnore, at', hc]
    · rw [named, e1, if_neg (by simp)]
      simp only [List.drop_succ_cons, List.drop_zero, takeWhile_name h2, dropWhile_name h2, findByName_of hs hf,
        dropWhile_gap hg hv]
  | @short _ f hf h0 =>
    have h4 := (hs.spelled f (List.mem_of_getElem? hf)).2.2.2
    have e1 : isShort [45, f.sf] = true := by simp [isShort, at', h0, h4]
    refine ⟨by simp [e1], by simp [isIgnore, at', h4], ?_⟩
    rw [named, e1, if_pos rfl]
    simp only [at', List.drop_succ_cons, List.drop_zero, if_true]
    exact congrArg (·, none) (findByShort_of hs hf h0)
  | @shortValue _ f v hf h0 hv =>
    have h4 := (hs.spelled f (List.mem_of_getElem? hf)).2.2.2
    have e1 : isShort (45 :: f.sf :: v) = true := by simp [isShort, at', h0, h4]
    refine ⟨by simp [e1], by simp [isIgnore, at', h4], ?_⟩
    rw [named, e1, if_pos rfl]
    simp only [at', List.drop_succ_cons, List.drop_zero, if_neg hv]
    exact congrArg (·, some v) (findByShort_of hs hf h0)

theorem spells_of_named {flags : List Flag} {a : Str} {k : Nat} {v : Option Str}
    (hd : (isShort a || isLong a) = true) (h : named flags a = (some k, v)) : Spells flags a k v := by
  by_cases h1 : isShort a = true
  · obtain ⟨c, r, rfl, _, _⟩ := isShort_cases h1
    rw [named, if_pos h1] at h
    simp only [at', List.drop_succ_cons, List.drop_zero, Prod.mk.injEq] at h
    obtain ⟨f, hf, hc, h0⟩ := findByShort_some h.1
    have hc : c = f.sf := by rw [hc]; rfl
    subst hc
    by_cases hr : r = []
    · subst hr
      rw [if_pos rfl] at h
      rw [← h.2]
      exact .short hf h0
    · rw [if_neg hr] at h
      rw [← h.2]
      exact .shortValue hf h0 hr
  · have h2 : isLong a = true := by simpa [h1] using hd
    obtain ⟨c, r, rfl⟩ := isLong_cases h2
    rw [named, if_neg h1] at h
    simp only [List.drop_succ_cons, List.drop_zero, Prod.mk.injEq] at h
    obtain ⟨f, hf, hn⟩ := findByName_some h.1
    have hsplit : c :: r = (c :: r).takeWhile (fun c => c != 61) ++ (c :: r).dropWhile (fun c => c != 61) :=
      (List.takeWhile_append_dropWhile ..).symm
    rw [← hn] at hsplit
    match hd : (c :: r).dropWhile (fun c => c != 61) with
    | [] =>
      rw [hd] at h hsplit
      rw [hsplit, List.append_nil, ← h.2]
      exact .long hf
    | x :: w =>
      have hx : x = 61 := by
        have := List.head?_dropWhile_not (fun c => c != 61) (c :: r)
        rw [hd] at this
        simpa using this
      subst hx
      rw [hd] at h hsplit
      simp only at h
      obtain ⟨gap, e1, e2, e3⟩ := gap_of_dropWhile w
      rw [hsplit, e1, ← h.2]
      rw [← e1]
      conv => arg 2; rw [e1]
      exact .longValue hf e2 e3

theorem lookup_find (t : List (Str × Int)) (s : Str) :
    (t.find? fun e => e.1 == s).map (·.2) = t.lookup s := by
  induction t with
  | nil => rfl
  | cons e t ih =>
    obtain ⟨x, n⟩ := e
    rw [List.find?_cons, List.lookup_cons]
    by_cases h : x = s
    · subst h; simp
    · have h1 : (x == s) = false := by simpa using h
      have h2 : (s == x) = false := by simpa using fun e => h e.symm
      simp only [h1, h2, ih]

/-- The value of an option after one more is given. -/
def stepVal (f : Flag) (v : Val) : Option Str → Val
  | none => .num 1
  | some s =>
    match f.kind with
    | .many | .define => .pending (listed v ++ ((reading f.kind s).map elements).getD [])
    | _ => (reading f.kind s).getD .unset

/-- The result of a validator that refuses. -/
def refusal {α : Type} : Ending → R α
  | .fine => .ub
  | .wrong m => report m
  | .undefined => .ub

theorem validate_ok {f : Flag} {s : Str} (v : Val) (hk : f.kind ≠ .switch) (h : reading f.kind s ≠ none) :
    validate f.kind f.name v s = .ok (stepVal f v (some s)) := by
  obtain ⟨name, sf, kind, dflt⟩ := f
  simp only at hk h ⊢
  cases kind with
  | switch => exact absurd rfl hk
  | text => rfl
  | int =>
    simp only [reading, validate, stepVal] at h ⊢
    split at h
    · rename_i heq; simp [heq]
    · exact absurd rfl h
  | oneOf t =>
    simp only [reading, validate, stepVal] at h ⊢
    by_cases hs : s = []
    · simp [hs] at h
    · simp only [hs, if_false] at h ⊢
      rw [← lookup_find] at h ⊢
      match hf : t.find? fun e => e.1 == s with
      | none => simp [hf] at h
      | some e => simp [hf]
  | level =>
    match s with
    | [] => simp [reading, List.lookup] at h
    | [c] =>
      by_cases h1 : c = 48
      · subst h1; rfl
      by_cases h2 : c = 100
      · subst h2; rfl
      by_cases h3 : c = 49
      · subst h3; rfl
      by_cases h4 : c = 50
      · subst h4; rfl
      by_cases h5 : c = 51
      · subst h5; rfl
      by_cases h6 : c = 115
      · subst h6; rfl
      · exact absurd (by simp [reading, List.lookup, beq_eq_false_iff_ne.2 h1, beq_eq_false_iff_ne.2 h2, beq_eq_false_iff_ne.2 h3,
          beq_eq_false_iff_ne.2 h4, beq_eq_false_iff_ne.2 h5, beq_eq_false_iff_ne.2 h6]) h
    | c :: d :: r => exact absurd (by simp [reading, List.lookup]) h
  | many =>
    by_cases hs : s = []
    · simp [reading, hs] at h
    · simp [validate, stepVal, reading, hs, elements]
  | define =>
    simp only [reading, validate, stepVal] at h ⊢
    by_cases hs : s = []
    · simp [hs, parseDefine] at h
    · match hp : parseDefine s with
      | none => simp [hp] at h
      | some d => simp [hs, elements]

theorem validate_refused {f : Flag} {s : Str} {e : Ending} (v : Val) (h : Refuses f s e) :
    validate f.kind f.name v s = refusal e := by
  cases h with
  | number hk hr =>
    rw [hk] at hr
    simp only [reading, validate, hk] at hr ⊢
    split at hr
    · simp at hr
    · rename_i hne
      split
      · rename_i n heq; exact absurd heq (hne n)
      · rfl
  | @name _ t hk hs hr =>
    rw [hk] at hr
    simp only [reading, validate, hk, hs, if_false] at hr ⊢
    rw [← lookup_find] at hr
    match hf : t.find? fun e => e.1 == s with
    | none => rw [hf]; rfl
    | some e => simp [hf] at hr
  | empty hk => simp [validate, hk, refusal]
  | level hk hr =>
    rw [hk] at hr
    rw [hk]
    match s with
    | [] => rfl
    | [c] =>
      have h1 : ¬ c = 48 := by rintro rfl; simp [reading, List.lookup] at hr
      have h2 : ¬ c = 100 := by rintro rfl; simp [reading, List.lookup] at hr
      have h3 : ¬ c = 49 := by rintro rfl; simp [reading, List.lookup] at hr
      have h4 : ¬ c = 50 := by rintro rfl; simp [reading, List.lookup] at hr
      have h5 : ¬ c = 51 := by rintro rfl; simp [reading, List.lookup] at hr
      have h6 : ¬ c = 115 := by rintro rfl; simp [reading, List.lookup] at hr
      simp [validate, h1, h2, h3, h4, h5, h6, refusal, msgLevel]
    | c :: d :: r => rfl
  | missing hk => rcases hk with hk | hk <;> simp [validate, hk, refusal, msgMissing]
  | define hk hs hr =>
    rw [hk] at hr
    simp only [reading, Option.map_eq_none_iff] at hr
    simp [validate, hk, hs, hr, refusal, msgDefine]

/-- A value is either read or refused. -/
theorem refused_of_unread {f : Flag} {s : Str} (hk : f.kind ≠ .switch) (h : reading f.kind s = none) :
    ∃ e, Refuses f s e := by
  match hkind : f.kind with
  | .switch => exact absurd hkind hk
  | .text => rw [hkind] at h; simp [reading] at h
  | .int => exact ⟨_, .number hkind h⟩
  | .oneOf t =>
    by_cases hs : s = []
    · subst hs; exact ⟨_, .empty hkind⟩
    · exact ⟨_, .name hkind hs h⟩
  | .level => exact ⟨_, .level hkind h⟩
  | .many =>
    by_cases hs : s = []
    · subst hs; exact ⟨_, .missing (.inl hkind)⟩
    · rw [hkind] at h; simp [reading, hs] at h
  | .define =>
    by_cases hs : s = []
    · subst hs; exact ⟨_, .missing (.inr hkind)⟩
    · exact ⟨_, .define hkind hs h⟩

theorem refuses_not_fine {f : Flag} {s : Str} {e : Ending} (h : Refuses f s e) : e ≠ .fine ∧ f.kind ≠ .switch := by
  cases h <;> refine ⟨by simp, ?_⟩ <;> simp_all <;> rename_i h <;> rcases h with h | h <;> simp [h]

end Verif.CommandLine
