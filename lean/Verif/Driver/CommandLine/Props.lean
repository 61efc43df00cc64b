import Verif.Driver.CommandLine.Parse
/-!
# What the compiler does with its command line

The files compiled and the values of the options are those of the reading `Line`; a command line that is wrong compiles
nothing.
-/
namespace Verif.CommandLine

/-- The options known to a command. -/
def options (cmd : Cmd) : List Flag := globals ++ cmd.flags

def defaultOk (f : Flag) : Bool :=
  match f.kind with
    | .switch => f.dflt != some (bytes "true")
    | .many | .define => f.dflt == some [91, 93]
    | k => match f.dflt with
      | none => false
      | some d => d == [] || (d.head? != some 91 && (reading k d).isSome)

theorem defaultOk_of {f : Flag} (h : defaultOk f = true) : DefaultOk f := by
  obtain ⟨name, sf, kind, dflt⟩ := f
  cases kind <;> simp only [defaultOk, DefaultOk] at h ⊢
  case switch => simpa using h
  case many => simpa using h
  case define => simpa using h
  all_goals
    cases dflt with
    | none => simp at h
    | some d =>
      refine ⟨d, rfl, ?_⟩
      simp only [Bool.or_eq_true, beq_iff_eq, Bool.and_eq_true, bne_iff_ne, ne_eq] at h
      rcases h with h | ⟨h1, h2⟩
      · exact .inl h
      · exact .inr ⟨h1, by intro e; rw [e] at h2; simp at h2⟩

instance : DecidablePred fun f : Flag => f.name ≠ [] ∧ 61 ∉ f.name ∧ 0 ∉ f.name ∧ f.sf ≠ 45 := fun _ => inferInstance

/-- The tables of the compiler pass its own checks. -/
theorem tables_sound : ∀ c ∈ cmds, Sound (options c) := by
  have h : ∀ c ∈ cmds, ((options c).Pairwise fun f g => f.name ≠ g.name ∧ (f.sf = 0 ∨ f.sf ≠ g.sf)) ∧
      ∀ f ∈ options c, f.name ≠ [] ∧ 61 ∉ f.name ∧ 0 ∉ f.name ∧ f.sf ≠ 45 := by
    intro c hc
    simp only [cmds, List.mem_cons, List.not_mem_nil, or_false] at hc
    rcases hc with rfl | rfl | rfl | rfl <;> decide +kernel
  exact fun c hc => ⟨(h c hc).1, (h c hc).2⟩

/-- Every default in the tables is in order but the one of `--with-named-enums`. -/
theorem tables_defaults : ∀ c ∈ cmds, ∀ f ∈ options c, f.name ≠ bytes "with-named-enums" → DefaultOk f := by
  have h : ∀ c ∈ cmds, ∀ f ∈ options c, f.name ≠ bytes "with-named-enums" → defaultOk f = true := by
    intro c hc
    simp only [cmds, List.mem_cons, List.not_mem_nil, or_false] at hc
    rcases hc with rfl | rfl | rfl | rfl <;> decide +kernel
  exact fun c hc f hf hn => defaultOk_of (h c hc f hf hn)

theorem tables_usable : ∀ c ∈ cmds, ∀ f ∈ options c, Usable f := by
  have h : ∀ c ∈ cmds, ∀ f ∈ options c, f.kind = .switch ∨ defaultOk f = true := by
    intro c hc
    simp only [cmds, List.mem_cons, List.not_mem_nil, or_false] at hc
    rcases hc with rfl | rfl | rfl | rfl <;> decide +kernel
  exact fun c hc f hf => (h c hc f hf).imp id defaultOk_of

theorem asks_cmds {args rest : List Str} {cmd : Cmd} (h : Asks args cmd rest) : cmd ∈ cmds ∧ cmd.npos = 0 := by
  have hd : dev ∈ cmds ∧ dev.npos = 0 := ⟨by simp [cmds], rfl⟩
  cases h with
  | named hc =>
    simp only [List.mem_cons, List.not_mem_nil, or_false] at hc
    rcases hc with rfl | rfl | rfl <;> exact ⟨by simp [cmds], rfl⟩
  | none => exact hd
  | default => exact hd

theorem holds_argv (prog : Str) (args : List Str) : Holds (argv prog args) 1 args := by
  intro j hj
  rw [argv, Nat.add_comm, List.getD_eq_getElem?_getD, List.getElem?_cons_succ, List.getElem?_eq_getElem hj]
  rfl

/-- Where the code starts to read, and where it stores the first file. -/
theorem choose_asks {prog : Str} {args rest : List Str} {cmd : Cmd} (h : Asks args cmd rest)
    (hz : NoNul args) (hp : prog ≠ bytes "dev" ∨ args.head? = some cmd.name) :
    ∃ first, choose cmds dev (args.length + 1) (argv prog args) = (cmd, first, rest.length) ∧
      (if cmd.name = argv prog args (first - 1) then first - 1 else first) = 1 ∧ 1 ≤ first ∧
      Holds (argv prog args) first rest := by
  cases h with
  | named hc =>
    refine ⟨2, ?_, by simp [argv], by omega, holds_tail (holds_argv prog _)⟩
    · have e : argv prog (cmd.name :: rest) 1 = cmd.name := rfl
      rw [choose, if_neg (by simp), e]
      simp only [List.mem_cons, List.not_mem_nil, or_false] at hc
      rcases hc with rfl | rfl | rfl <;> rfl
  | none =>
    refine ⟨1, rfl, ?_, by omega, fun j hj => by simp at hj⟩
    have : dev.name ≠ prog := by
      rcases hp with hp | hp
      · exact fun e => hp e.symm
      · simp at hp
    simp [argv, this]
  | @default a rest hne hno =>
    refine ⟨1, ?_, ?_, by omega, holds_argv prog _⟩
    · have e : argv prog (a :: rest) 1 = a := rfl
      rw [choose, if_neg (by simp), e]
      have hf : findCommand cmds dev a = none := by
        rw [findCommand, if_neg hne]
        exact List.find?_eq_none.2 fun c hc => by simpa using hno c hc
      split
      · rfl
      · rw [hf]; rfl
    · have : dev.name ≠ prog := by
        rcases hp with hp | hp
        · exact fun e => hp e.symm
        · simp only [List.head?_cons, Option.some.injEq] at hp
          exact absurd hp.symm (hno dev (by simp [cmds]))
      simp [argv, this]

theorem files_put (arr : Nat → Str) (xs : List Str) : files xs.length (put arr 1 xs) = xs := by
  refine List.ext_getElem (by simp [files]) fun i h1 h2 => ?_
  simp only [files, List.getElem_map, List.getElem_range]
  rw [Nat.add_comm, put_inside xs arr 1 i h2]

/-- The shape of the options: the version and the usage come first. -/
theorem options_first (cmd : Cmd) : (options cmd)[0]? = some ⟨bytes "version", 118, .switch, none⟩ ∧
    (options cmd)[1]? = some ⟨bytes "help", 104, .switch, none⟩ := ⟨rfl, rfl⟩

/-- What a run does, given the reading of its command line. -/
theorem compiler_line {prog : Str} {args rest : List Str} {cmd : Cmd} {es : List Event} {e : Ending}
    (hz : NoNul args) (ha : Asks args cmd rest) (hp : prog ≠ bytes "dev" ∨ args.head? = some cmd.name)
    (hl : Line (options cmd) rest es e) :
    match e with
    | .fine =>
      (saidOf 0 es ≠ [] → compiler prog args = .version) ∧
      (saidOf 0 es = [] → saidOf 1 es ≠ [] → ∃ c, compiler prog args = .help c) ∧
      (saidOf 0 es = [] → saidOf 1 es = [] →
        (fileNames es = [] → compiler prog args = .error noInput) ∧
        (fileNames es ≠ [] → ∃ vals, compiler prog args = .compile cmd.name vals (fileNames es) ∧
          ∀ k f, (options cmd)[k]? = some f → (DefaultOk f → finalValue f (saidOf k es) = some (vals k)) ∧
            (f.kind = .switch → vals k = .num (if saidOf k es = [] then 0 else 1))))
    | .wrong m => compiler prog args = if m.length < 128 then
        (match render (bytes "    ") 0 m with
          | some o => .error o
          | none => .ub) else .ub
    | .undefined => compiler prog args = .ub := by
  obtain ⟨hc, hnp⟩ := asks_cmds ha
  have hs := tables_sound cmd hc
  obtain ⟨first, h1, h2, h3, h4⟩ := choose_asks ha hz hp
  have hz' : NoNul rest := by
    cases ha with
    | named _ => exact noNul_tail hz
    | none => exact hz
    | default _ _ => exact hz
  have hloop := loop_line hs 1 hl hz' first ⟨argv prog args, fun _ => .unset, 0, []⟩ h4 h3
  have hparse := parse_eq (globals := globals) h1
  rw [h2, hnp] at hparse
  change parse globals cmds dev (args.length + 1) (argv prog args) = (loop (options cmd) 0 1 rest.length first _).bind _
    at hparse
  rw [hloop] at hparse
  cases e with
  | fine =>
    simp only [expected, R.bind, Nat.zero_add, Nat.add_zero] at hparse
    obtain ⟨f1, f2, f3⟩ := finish_fine (globals := globals) hnp (tables_usable cmd hc) hl first
      (put (argv prog args) 1 (fileNames es)) (fileNames es).length [] (options_first cmd).1 (options_first cmd).2 rfl rfl
    refine ⟨fun a => ?_, fun a b => ?_, fun a b => ?_⟩
    · have := hparse.trans (f1 a)
      rw [compiler, command, this]
    · have := hparse.trans (f2 a b)
      exact ⟨_, by rw [compiler, command, this]⟩
    · obtain ⟨vals, g1, g2⟩ := f3 a b
      have := hparse.trans g1
      refine ⟨fun hf => ?_, fun hf => ⟨vals, ?_, g2⟩⟩
      · rw [compiler, command, this]
        simp [hf]
      · rw [compiler, command, this]
        simp only
        rw [if_neg (by simpa using hf), files_put]
  | wrong m =>
    simp only [expected, report] at hparse
    by_cases hm : m.length < 128
    · simp only [hm, if_true, R.bind] at hparse ⊢
      rw [compiler, command, hparse]
      rfl
    · simp only [hm, if_false, R.bind] at hparse ⊢
      rw [compiler, command, hparse]
  | undefined =>
    simp only [expected, R.bind] at hparse
    simp only
    rw [compiler, command, hparse]

/-- C127, C128.  Exactly the command lines that read well, name a file and ask neither for the version nor for the usage
are compiled; the files are those named, in order, and every option has the value the command line gives it.  The
hypotheses exclude a program called `dev` run without naming a command (`program_named_dev`) and, by `Asks`, an empty
first argument (`empty_first_argument`).  Of the option `--with-named-enums`, whose default is not in order, only what
`named_enums_off` says is known. -/
theorem files_and_options_partial {prog : Str} {args rest : List Str} {cmd : Cmd} (hz : NoNul args)
    (ha : Asks args cmd rest) (hp : prog ≠ bytes "dev" ∨ args.head? = some cmd.name) (fs : List Str) :
    ((∃ c vals, compiler prog args = .compile c vals fs) ↔
      ∃ es, Line (options cmd) rest es .fine ∧ saidOf 0 es = [] ∧ saidOf 1 es = [] ∧ fileNames es = fs ∧ fs ≠ []) ∧
    ∀ c vals es, compiler prog args = .compile c vals fs → Line (options cmd) rest es .fine →
      c = cmd.name ∧ fileNames es = fs ∧
      ∀ k f, (options cmd)[k]? = some f → f.name ≠ bytes "with-named-enums" →
        finalValue f (saidOf k es) = some (vals k) := by
  obtain ⟨hc, hnp⟩ := asks_cmds ha
  have hz' : NoNul rest := by
    cases ha with
    | named _ => exact noNul_tail hz
    | none => exact hz
    | default _ _ => exact hz
  have key : ∀ {es c vals}, compiler prog args = .compile c vals fs → Line (options cmd) rest es .fine →
      saidOf 0 es = [] ∧ saidOf 1 es = [] ∧ c = cmd.name ∧ fileNames es = fs ∧ fs ≠ [] ∧
      ∀ k f, (options cmd)[k]? = some f → (DefaultOk f → finalValue f (saidOf k es) = some (vals k)) := by
    intro es c vals h hl
    have := compiler_line hz ha hp hl
    simp only at this
    obtain ⟨t1, t2, t3⟩ := this
    by_cases h0 : saidOf 0 es = []
    · by_cases h1 : saidOf 1 es = []
      · obtain ⟨t4, t5⟩ := t3 h0 h1
        by_cases hf : fileNames es = []
        · rw [t4 hf] at h; simp at h
        · obtain ⟨vals', t6, t7⟩ := t5 hf
          rw [t6] at h
          simp only [Outcome.compile.injEq] at h
          obtain ⟨rfl, rfl, rfl⟩ := h
          exact ⟨h0, h1, rfl, rfl, hf, fun k f hkf => (t7 k f hkf).1⟩
      · obtain ⟨c', hc'⟩ := t2 h0 h1
        rw [hc'] at h; simp at h
    · rw [t1 h0] at h; simp at h
  refine ⟨⟨?_, ?_⟩, ?_⟩
  · rintro ⟨c, vals, h⟩
    obtain ⟨es, e, hl⟩ := line_exists (tables_sound cmd hc) rest.length rest (Nat.le_refl _) hz'
    cases e with
    | fine =>
      obtain ⟨k1, k2, _, k3, k4, _⟩ := key h hl
      exact ⟨es, hl, k1, k2, k3, k4⟩
    | wrong m =>
      have := compiler_line hz ha hp hl
      simp only at this
      rw [this] at h
      split at h
      · split at h <;> simp at h
      · simp at h
    | undefined =>
      have := compiler_line hz ha hp hl
      simp only at this
      rw [this] at h
      simp at h
  · rintro ⟨es, hl, h0, h1, rfl, hf⟩
    have := compiler_line hz ha hp hl
    simp only at this
    obtain ⟨vals, h, _⟩ := (this.2.2 h0 h1).2 hf
    exact ⟨_, vals, h⟩
  · intro c vals es h hl
    obtain ⟨_, _, k1, k2, _, k3⟩ := key h hl
    exact ⟨k1, k2, fun k f hkf hn => k3 k f hkf (tables_defaults cmd hc f (List.mem_of_getElem? hkf) hn)⟩

/-- C128 fails: the default `true` of `--with-named-enums` has no effect; the option is off unless it is given. -/
theorem named_enums_off {prog : Str} {args rest fs : List Str} {c : Str} {vals : Nat → Val} {es : List Event}
    (hz : NoNul args) (ha : Asks args dev rest) (hp : prog ≠ bytes "dev" ∨ args.head? = some dev.name)
    (h : compiler prog args = .compile c vals fs) (hl : Line (options dev) rest es .fine) (hs : saidOf 28 es = []) :
    ∃ f, (options dev)[28]? = some f ∧ f.name = bytes "with-named-enums" ∧ f.dflt = some (bytes "true") ∧
      finalValue f (saidOf 28 es) = some (.num 1) ∧ vals 28 = .num 0 := by
  refine ⟨_, rfl, rfl, rfl, by simp [finalValue, hs], ?_⟩
  have := compiler_line hz ha hp hl
  simp only at this
  obtain ⟨t1, t2, t3⟩ := this
  by_cases h0 : saidOf 0 es = []
  · by_cases h1 : saidOf 1 es = []
    · obtain ⟨t4, t5⟩ := t3 h0 h1
      by_cases hf : fileNames es = []
      · rw [t4 hf] at h; simp at h
      · obtain ⟨vals', t6, t7⟩ := t5 hf
        rw [t6] at h
        simp only [Outcome.compile.injEq] at h
        obtain ⟨rfl, rfl, rfl⟩ := h
        have := (t7 28 _ rfl).2 rfl
        rw [if_pos hs] at this
        exact this
    · obtain ⟨c', hc'⟩ := t2 h0 h1
      rw [hc'] at h; simp at h
  · rw [t1 h0] at h; simp at h

theorem plain_names {fs : List Str} {flags : List Flag} (h : ∀ a ∈ fs, Plain a) :
    Line flags fs (fs.map .file) .fine := by
  induction fs with
  | nil => exact .nil
  | cons a fs ih => exact .file (h a (by simp)) (ih fun x hx => h x (List.mem_cons_of_mem _ hx))

theorem fileNames_map (fs : List Str) : fileNames (fs.map .file) = fs := by
  induction fs with
  | nil => rfl
  | cons a fs ih => rw [List.map_cons]; simp only [fileNames, List.filterMap_cons] at ih ⊢; rw [ih]

theorem saidOf_map (k : Nat) (fs : List Str) : saidOf k (fs.map .file) = [] := by
  induction fs with
  | nil => rfl
  | cons a fs ih => rw [List.map_cons]; simp only [saidOf, List.filterMap_cons] at ih ⊢; exact ih

/-- Files only, read from `first` on and stored from `base` on. -/
theorem compiler_plain {prog : Str} {args fs : List Str} {first base : Nat} (hz : NoNul fs) (hf : ∀ a ∈ fs, Plain a)
    (hne : fs ≠ []) (hc : choose cmds dev (args.length + 1) (argv prog args) = (dev, first, fs.length))
    (hb : (if dev.name = argv prog args (first - 1) then first - 1 else first) = base) (hbf : base ≤ first)
    (hh : Holds (argv prog args) first fs) :
    ∃ vals, compiler prog args = .compile dev.name vals (files fs.length (put (argv prog args) base fs)) := by
  have hd : dev ∈ cmds := by simp [cmds]
  have hl : Line (options dev) fs (fs.map .file) .fine := plain_names hf
  have hloop := loop_line (tables_sound dev hd) base hl hz first ⟨argv prog args, fun _ => .unset, 0, []⟩ hh hbf
  have hparse := parse_eq (globals := globals) hc
  rw [hb] at hparse
  change parse globals cmds dev (args.length + 1) (argv prog args) = (loop (options dev) 0 base fs.length first _).bind _
    at hparse
  rw [hloop] at hparse
  simp only [expected, R.bind, Nat.zero_add, Nat.add_zero, fileNames_map] at hparse
  obtain ⟨vals, g1, _⟩ := (finish_fine (globals := globals) (cmd := dev) rfl (tables_usable dev hd) hl first
      (put (argv prog args) base fs) fs.length [] (options_first dev).1 (options_first dev).2 rfl rfl).2.2
      (saidOf_map 0 fs) (saidOf_map 1 fs)
  refine ⟨vals, ?_⟩
  rw [compiler, command, hparse.trans g1]
  simp only
  rw [if_neg (by simpa using hne)]

/-- C127 fails: when the program is called `dev`, the first of several files is left out and the last one is compiled
twice. -/
theorem program_named_dev {a b : Str} {fs : List Str} (hz : NoNul (a :: (fs ++ [b])))
    (hf : ∀ x ∈ a :: (fs ++ [b]), Plain x) (hne : a ≠ []) (hno : ∀ c ∈ cmds, c.name ≠ a) :
    ∃ vals, compiler (bytes "dev") (a :: (fs ++ [b])) = .compile dev.name vals (fs ++ [b, b]) := by
  have hc : choose cmds dev ((a :: (fs ++ [b])).length + 1) (argv (bytes "dev") (a :: (fs ++ [b]))) =
      (dev, 1, (a :: (fs ++ [b])).length) := by
    have e : argv (bytes "dev") (a :: (fs ++ [b])) 1 = a := rfl
    rw [choose, if_neg (by simp), e]
    have hf : findCommand cmds dev a = none := by
      rw [findCommand, if_neg hne]
      exact List.find?_eq_none.2 fun c hc => by simpa using hno c hc
    split
    · rfl
    · rw [hf]; rfl
  obtain ⟨vals, h⟩ := compiler_plain hz hf (by simp) hc (base := 0) rfl (by omega) (holds_argv _ _)
  refine ⟨vals, h.trans ?_⟩
  congr 1
  refine List.ext_getElem (by simp [files]) fun i h1 h2 => ?_
  simp only [files, List.getElem_map, List.getElem_range]
  by_cases hi : i < fs.length + 1
  · have := put_inside (a :: (fs ++ [b])) (argv (bytes "dev") (a :: (fs ++ [b]))) 0 (i + 1) (by simp; omega)
    rw [Nat.zero_add] at this
    rw [this]
    simp only [List.getElem_cons_succ]
    by_cases hj : i < fs.length
    · rw [List.getElem_append_left hj, List.getElem_append_left hj]
    · have : i = fs.length := by omega
      subst this
      simp
  · have hi' : i = fs.length + 1 := by simp [files] at h1; omega
    subst hi'
    rw [put_outside _ _ _ _ (.inr (by simp))]
    simp [argv]

/-- C127 fails: an empty first argument is taken as a file, and the last file is left out. -/
theorem empty_first_argument {prog b : Str} {fs : List Str} (hz : NoNul (fs ++ [b]))
    (hf : ∀ x ∈ fs ++ [b], Plain x) :
    ∃ vals, compiler prog ([] :: (fs ++ [b])) = .compile dev.name vals ([] :: fs) := by
  have hc : choose cmds dev (([] :: (fs ++ [b]) : List Str).length + 1) (argv prog ([] :: (fs ++ [b]))) =
      (dev, 2, (fs ++ [b]).length) := by
    have e : argv prog ([] :: (fs ++ [b])) 1 = [] := rfl
    rw [choose, if_neg (by simp), e]
    rfl
  obtain ⟨vals, h⟩ := compiler_plain hz hf (by simp) hc (base := 2) (by simp [argv, dev, bytes]) (by omega)
    (holds_tail (holds_argv _ _))
  refine ⟨vals, h.trans ?_⟩
  congr 1
  refine List.ext_getElem (by simp [files]) fun i h1 h2 => ?_
  simp only [files, List.getElem_map, List.getElem_range]
  match i with
  | 0 => rw [put_outside _ _ _ _ (.inl (by omega))]; rfl
  | i + 1 =>
    have hi : i < fs.length := by simpa using h2
    have := put_inside (fs ++ [b]) (argv prog ([] :: (fs ++ [b]))) 2 i (by simp; omega)
    rw [show i + 1 + 1 = 2 + i by omega, this, List.getElem_append_left hi]
    rfl

end Verif.CommandLine
