import Verif.Driver.CommandLine.Props
/-!
# Command lines that are wrong
-/
namespace Verif.CommandLine

theorem line_append {flags : List Flag} {pre rest : List Str} {es es' : List Event} {e e' : Ending}
    (h : Line flags pre es e) (he : e = .fine) (hns : [45, 45] ∉ pre) (h' : Line flags rest es' e') :
    Line flags (pre ++ rest) (es ++ es') e' := by
  induction h with
  | nil => exact h'
  | stop => simp at hns
  | file hp _ ih => exact .file hp (ih he fun h => hns (List.mem_cons_of_mem _ h))
  | switch h1 h2 h3 _ ih => exact .switch h1 h2 h3 (ih he fun h => hns (List.mem_cons_of_mem _ h))
  | joined h1 h2 h3 h4 _ ih => exact .joined h1 h2 h3 h4 (ih he fun h => hns (List.mem_cons_of_mem _ h))
  | separate h1 h2 h3 h4 _ ih =>
    exact .separate h1 h2 h3 h4 (ih he fun h => hns (List.mem_cons_of_mem _ (List.mem_cons_of_mem _ h)))
  | unknown => simp at he
  | unwanted => simp at he
  | lacking => simp at he
  | refused _ _ hr => exact absurd he (refuses_not_fine hr).1
  | refusedNext _ _ hr => exact absurd he (refuses_not_fine hr).1

theorem render_cons (tab : Str) (ind c : Nat) (rest : Str) (h1 : c ≠ 123) (h2 : c ≠ 10) :
    render tab ind (c :: rest) = (render tab ind rest).map fun o => c :: o := by
  rw [render, if_neg h1]
  all_goals simp_all

theorem render_newline (tab : Str) (rest : Str) :
    render tab 0 (10 :: rest) = (render tab 0 rest).map fun o => 10 :: o := by
  rw [render]; simp

/-- A text without `{` is printed as it is. -/
theorem render_plain (tab : Str) : ∀ (m : Str), 123 ∉ m → render tab 0 m = some m
  | [], _ => rfl
  | c :: m, h => by
    simp only [List.mem_cons, not_or] at h
    have ih := render_plain tab m h.2
    by_cases hc : c = 10
    · subst hc
      rw [render_newline, ih]; rfl
    · rw [render_cons tab 0 c m (fun e => h.1 e.symm) hc, ih]; rfl

theorem render_brace (tab : Str) (ind c : Nat) (rest : Str) (h1 : c ≠ 123) (h2 : c ≠ 62) (h3 : c ≠ 60) :
    render tab ind (123 :: c :: rest) = none := by
  rw [render, if_pos rfl]
  all_goals simp_all

/-- After a `{` the text must be one of the marks of a format. -/
theorem render_format (tab : Str) (c : Nat) (rest : Str) (h1 : c ≠ 123) (h2 : c ≠ 62) (h3 : c ≠ 60) :
    ∀ (m : Str), 123 ∉ m → render tab 0 (m ++ 123 :: c :: rest) = none
  | [], _ => render_brace tab 0 c rest h1 h2 h3
  | d :: m, h => by
    simp only [List.mem_cons, not_or] at h
    have ih := render_format tab c rest h1 h2 h3 m h.2
    rw [List.cons_append]
    by_cases hd : d = 10
    · subst hd
      rw [render_newline, ih]; rfl
    · rw [render_cons tab 0 d _ (fun e => h.1 e.symm) hd, ih]; rfl

/-- C129.  A command line that is wrong is reported with its message, when the message is shorter than 128 bytes and has
no `{`.  Missing: longer messages (`long_unknown_argument`, `wrong_level`), messages with a `{` (`brace_in_argument`), and
a value out of a list, for which the message is empty (`unknown_choice_silent`) or there is none (`empty_choice`). -/
theorem wrong_line_reported_partial {prog : Str} {args rest : List Str} {cmd : Cmd} {es : List Event} {m : Str}
    (hz : NoNul args) (ha : Asks args cmd rest) (hp : prog ≠ bytes "dev" ∨ args.head? = some cmd.name)
    (hl : Line (options cmd) rest es (.wrong m)) (hm : m.length < 128) (hb : 123 ∉ m) :
    compiler prog args = .error m := by
  have := compiler_line hz ha hp hl
  simp only [hm, if_true, render_plain _ m hb] at this
  exact this

/-- The arguments up to a wrong one. -/
structure Upto (cmd : Cmd) (prog : Str) (args pre : List Str) (u : Str) (post : List Str) : Prop where
  bytes : NoNul args
  asks : Asks args cmd (pre ++ u :: post)
  prog : prog ≠ CommandLine.bytes "dev" ∨ args.head? = some cmd.name
  good : ∃ es, Line (options cmd) pre es .fine
  more : [45, 45] ∉ pre

/-- An argument that looks like an option and is none. -/
structure Unknown (cmd : Cmd) (u : Str) : Prop where
  dash : ¬ Plain u
  ignore : u ≠ [45, 45]
  none : ∀ k v, ¬ Spells (options cmd) u k v

theorem unknown_outcome {cmd : Cmd} {prog : Str} {args pre : List Str} {u : Str} {post : List Str}
    (h : Upto cmd prog args pre u post) (hu : Unknown cmd u) :
    compiler prog args = if u.length < 88 then
        (match render (bytes "    ") 0 (bytes "error: unrecognized command argument '" ++ (u ++ bytes "'\n")) with
          | some o => .error o
          | none => .ub) else .ub := by
  obtain ⟨es, hg⟩ := h.good
  have hl := line_append hg rfl h.more (Line.unknown (rest := post) hu.dash hu.ignore hu.none)
  have := compiler_line h.bytes h.asks h.prog hl
  simp only [List.length_append, List.append_assoc] at this
  have e1 : (bytes "error: unrecognized command argument '").length = 38 := by decide
  have e2 : (bytes "'\n").length = 2 := by decide
  rw [e1, e2] at this
  rw [this]
  by_cases hlen : u.length < 88
  · rw [if_pos hlen, if_pos (by omega)]
    rfl
  · rw [if_neg hlen, if_neg (by omega)]

/-- C129.  The first unknown option is named in the message, when it is shorter than 88 bytes and has no `{`. -/
theorem unknown_argument_reported_partial {cmd : Cmd} {prog : Str} {args pre : List Str} {u : Str} {post : List Str}
    (h : Upto cmd prog args pre u post) (hu : Unknown cmd u) (hlen : u.length < 88) (hb : 123 ∉ u) :
    compiler prog args = .error (bytes "error: unrecognized command argument '" ++ (u ++ bytes "'\n")) := by
  rw [unknown_outcome h hu, if_pos hlen, render_plain]
  have e1 : 123 ∉ bytes "error: unrecognized command argument '" := by decide
  have e2 : 123 ∉ bytes "'\n" := by decide
  simp [e1, e2, hb]

/-- C129 fails: the message about an unknown option of 88 bytes or more does not fit. -/
theorem long_unknown_argument {cmd : Cmd} {prog : Str} {args pre : List Str} {u : Str} {post : List Str}
    (h : Upto cmd prog args pre u post) (hu : Unknown cmd u) (hlen : 88 ≤ u.length) : compiler prog args = .ub := by
  rw [unknown_outcome h hu, if_neg (by omega)]

/-- C129 fails: the message is used as a format, so a `{` in an unknown option stops the compiler. -/
theorem brace_in_argument {cmd : Cmd} {prog : Str} {args pre : List Str} {x y : Str} {c : Nat} {post : List Str}
    (h : Upto cmd prog args pre (x ++ 123 :: c :: y) post) (hu : Unknown cmd (x ++ 123 :: c :: y)) (hx : 123 ∉ x)
    (h1 : c ≠ 123) (h2 : c ≠ 62) (h3 : c ≠ 60) : compiler prog args = .ub := by
  rw [unknown_outcome h hu]
  have e1 : 123 ∉ bytes "error: unrecognized command argument '" := by decide
  rw [List.append_assoc, ← List.append_assoc, List.cons_append, List.cons_append,
    render_format _ c _ h1 h2 h3 _ (by simp [e1, hx])]
  split <;> rfl

theorem spells_letter {cmd : Cmd} {k : Nat} {f : Flag} {v : Str} (hf : (options cmd)[k]? = some f) (h0 : f.sf ≠ 0)
    (hv : v ≠ []) : Spells (options cmd) (45 :: f.sf :: v) k (some v) := .shortValue hf h0 hv

/-- C129 fails: the message about a wrong optimisation level never fits. -/
theorem wrong_level {cmd : Cmd} {prog : Str} {args pre : List Str} {v : Str} {post : List Str}
    (h : Upto cmd prog args pre (45 :: 79 :: v) post) (hv : v ≠ []) (hr : reading .level v = none) :
    compiler prog args = .ub := by
  obtain ⟨es, hg⟩ := h.good
  have hf : (options cmd)[9]? = some ⟨bytes "optimization", 79, .level, some (bytes "d")⟩ := rfl
  have hl := line_append hg rfl h.more
    (Line.refused (rest := post) (.shortValue hf (by decide) hv) hf (.level rfl hr))
  have := compiler_line h.bytes h.asks h.prog hl
  simp only [List.length_append] at this
  have e1 : (bytes "error: value '").length = 14 := by decide
  have e2 : (bytes "' passed to flag '").length = 18 := by decide
  have e3 : (bytes "optimization").length = 12 := by decide
  have e4 : (bytes "' cannot be parsed as an optimization flag, supported values -O1, -O2, -O3 -Os -Od\n").length = 83 := by
    decide
  rw [e1, e2, e3, e4, if_neg] at this
  · exact this
  · have : 0 < v.length := List.length_pos_iff.2 hv
    omega

/-- C129 fails: the message about a value which is not in the list of an option is empty. -/
theorem unknown_choice_silent {cmd : Cmd} {prog : Str} {args pre : List Str} {a v : Str} {post : List Str} {k : Nat}
    {f : Flag} {t : List (Str × Int)} (h : Upto cmd prog args pre a post) (hs : Spells (options cmd) a k (some v))
    (hf : (options cmd)[k]? = some f) (hk : f.kind = .oneOf t) (hv : v ≠ []) (hr : t.lookup v = none) :
    compiler prog args = .error [] := by
  obtain ⟨es, hg⟩ := h.good
  have hr' : reading f.kind v = none := by simp [hk, reading, hr]
  have hl := line_append hg rfl h.more (Line.refused (rest := post) hs hf (.name hk hv hr'))
  exact compiler_line h.bytes h.asks h.prog hl

/-- C129 fails: an empty value for such an option is read past its end. -/
theorem empty_choice {cmd : Cmd} {prog : Str} {args pre : List Str} {a : Str} {post : List Str} {k : Nat}
    {f : Flag} {t : List (Str × Int)} (h : Upto cmd prog args pre a post) (hs : Spells (options cmd) a k (some []))
    (hf : (options cmd)[k]? = some f) (hk : f.kind = .oneOf t) : compiler prog args = .ub := by
  obtain ⟨es, hg⟩ := h.good
  have hl := line_append hg rfl h.more (Line.refused (rest := post) hs hf (.empty hk))
  exact compiler_line h.bytes h.asks h.prog hl

/-! ### Cases -/

/-- `cxy build a.cxy -O2 --cflags -I. b.cxy -- c.cxy` -/
def exampleArgs : List Str :=
  [bytes "build", bytes "a.cxy", bytes "-O2", bytes "--cflags", bytes "-I.", bytes "b.cxy", bytes "--", bytes "c.cxy"]

def exampleEvents : List Event :=
  [.file (bytes "a.cxy"), .given 9 (some (bytes "2")), .given 7 (some (bytes "-I.")), .file (bytes "b.cxy")]

theorem example_line : Line (options build) exampleArgs.tail exampleEvents .fine :=
  .file (.inl (by decide))
    (.joined (.shortValue (k := 9) (f := ⟨bytes "optimization", 79, .level, some (bytes "d")⟩) (v := bytes "2") rfl
        (by decide) (by decide)) rfl (by decide) (by decide)
      (.separate (.long (k := 7) (f := ⟨bytes "cflags", 0, .many, some (bytes "[]")⟩) rfl) rfl (by decide) (by decide)
        (.file (.inl (by decide)) .stop)))

theorem example_noNul : NoNul exampleArgs := by unfold NoNul; decide

example : ∃ vals, compiler (bytes "cxy") exampleArgs = .compile (bytes "build") vals [bytes "a.cxy", bytes "b.cxy"] ∧
    vals 9 = .num 50 ∧ vals 7 = .list [(bytes "-I.", none)] ∧ vals 2 = .num 10 ∧ vals 23 = .text (some (bytes "app")) := by
  have ha : Asks exampleArgs build exampleArgs.tail :=
    Asks.named (c := build) (rest := exampleArgs.tail) (by simp)
  obtain ⟨h1, h2⟩ := files_and_options_partial (prog := bytes "cxy") example_noNul ha (.inl (by decide))
    [bytes "a.cxy", bytes "b.cxy"]
  obtain ⟨c, vals, h⟩ := h1.2 ⟨exampleEvents, example_line, by decide, by decide, by decide, by decide⟩
  obtain ⟨rfl, _, h3⟩ := h2 c vals exampleEvents h example_line
  refine ⟨vals, h, ?_, ?_, ?_, ?_⟩
  · exact (Option.some.inj ((h3 9 _ rfl (by decide)).symm.trans (by decide)))
  · exact (Option.some.inj ((h3 7 _ rfl (by decide)).symm.trans (by decide)))
  · exact (Option.some.inj ((h3 2 _ rfl (by decide)).symm.trans (by decide)))
  · exact (Option.some.inj ((h3 23 _ rfl (by decide)).symm.trans (by decide)))

theorem upto_first {u : Str} (hz : 0 ∉ u) (hne : u ≠ []) (hno : ∀ c ∈ cmds, c.name ≠ u) :
    Upto dev (bytes "cxy") [u] [] u [] where
  bytes := by simpa [NoNul] using hz
  asks := .default hne hno
  prog := .inl (by decide)
  good := ⟨[], .nil⟩
  more := by simp

theorem unknown_of_named {cmd : Cmd} {u : Str} (hc : cmd ∈ cmds)
    (hn : (named (options cmd) u).1 = none) (hp : ¬ Plain u) (hi : u ≠ [45, 45]) : Unknown cmd u where
  dash := hp
  ignore := hi
  none := by
    intro k v h
    have := (named_of_spells (tables_sound cmd hc) h).2.2
    rw [this] at hn
    simp at hn

/-- An unknown long option is named in the message. -/
example : compiler (bytes "cxy") [bytes "--bogus"] =
    .error (bytes "error: unrecognized command argument '--bogus'\n") :=
  unknown_argument_reported_partial (upto_first (by decide) (by decide) (by decide))
    (unknown_of_named (by simp [cmds]) (by decide) (by simp [Plain, bytes]) (by decide)) (by decide) (by decide)

/-- `cxy --x={y}` -/
example : compiler (bytes "cxy") [bytes "--x={y}"] = .ub :=
  brace_in_argument (x := bytes "--x=") (c := 121) (y := bytes "}") (upto_first (by decide) (by decide) (by decide))
    (unknown_of_named (by simp [cmds]) (by decide) (by simp [Plain, bytes]) (by decide)) (by decide) (by decide)
    (by decide) (by decide)

/-- `cxy -O4` -/
example : compiler (bytes "cxy") [bytes "-O4"] = .ub :=
  wrong_level (v := bytes "4") (upto_first (by decide) (by decide) (by decide)) (by decide) (by decide)

/-- `cxy --last-stage=Link` -/
example : compiler (bytes "cxy") [bytes "--last-stage=Link"] = .error [] :=
  unknown_choice_silent (k := 23) (v := bytes "Link") (upto_first (by decide) (by decide) (by decide))
    (spells_of_named (by decide) (by decide)) (f := ⟨bytes "last-stage", 0, .oneOf stageTable, some (bytes "Compile")⟩)
    rfl rfl (by decide) (by decide)

end Verif.CommandLine
