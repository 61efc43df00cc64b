/-!
# Model of the compiler pipeline (`src/cxy/driver/stages.c`, `src/cxy/driver/driver.c`)

What a stage does to the program is arbitrary: `body s p` gives the program after stage `s`, the number of errors it
reported, and (for the last stage) whether the back end could make an executable.
-/
namespace Verif.Stages

/-- stages.h 15-35 in order, from `Parse`. -/
inductive Stage where
  | parse | preprocess | shake | bind | constCheck | typeCheck | simplify | memoryMgmt | lower | finalize | codegen
  | collect | compile
  deriving DecidableEq, Repr

/-- The stages `compileProgram` goes through, in the order of the enumeration (driver.c 200-208). -/
def order : List Stage :=
  [.preprocess, .shake, .bind, .constCheck, .typeCheck, .simplify, .memoryMgmt, .lower, .finalize, .codegen, .collect,
   .compile]

/-- stages.c 379-393: the stages without an entry in the table. -/
def noExecutor : Stage → Bool
  | .constCheck | .lower | .finalize | .collect | .parse => true
  | _ => false

/-- stages.c 124-312: the stage that must be recorded before this one runs. -/
def needs : Stage → Option Stage
  | .shake => some .preprocess
  | .bind => some .shake
  | .typeCheck => some .bind
  | .simplify => some .typeCheck
  | .memoryMgmt => some .simplify
  | .codegen => some .simplify
  | .compile => some .codegen
  | _ => none

variable {P : Type}

/-- Result of the work of a stage. -/
structure Work (P : Type) where
  prog : P
  errors : Nat
  made : Bool

/-- The state: the program, the recorded stages (`metadata.stages`), the errors reported so far, what the driver complained
about itself ("cannot ... an ..."), the stages whose work was done, and whether an executable was made. -/
structure St (P : Type) where
  prog : P
  done : List Stage
  errors : Nat
  misuse : Bool
  ran : List Stage
  exe : Bool

/-- Options used by the stages: `withMemoryManager` and whether the program is the main one. -/
structure Opt where
  memory : Bool
  main : Bool

/-- stages.c 124-328: one executor.  `none` is a null result. -/
def execute (body : Stage → P → Work P) (o : Opt) (s : Stage) (st : St P) : St P × Bool :=
  if s = .memoryMgmt && !o.memory then (st, true)
  else if (needs s).any (fun r => !st.done.contains r) then ({ st with errors := st.errors + 1, misuse := true }, false)
  else if s = .compile && !o.main then (st, true)
  else
    let w := body s st.prog
    let st := { st with prog := w.prog, errors := st.errors + w.errors, ran := st.ran ++ [s] }
    if s = .compile then
      if !w.made then (st, false)
      else
        let st := { st with exe := true }
        if st.errors > 0 then (st, false) else ({ st with done := s :: st.done }, true)
    else if st.errors > 0 then (st, false) else ({ st with done := s :: st.done }, true)

/-- stages.c 395-424 `executeCompilerStage` -/
def executeStage (body : Stage → P → Work P) (o : Opt) (s : Stage) (st : St P) : St P × Bool :=
  if noExecutor s then (st, true)
  else
    let r := execute body o s st
    if r.1.errors > 0 then (r.1, false) else r

/-- driver.c 207-213: the loop over the stages. -/
def runStages (body : Stage → P → Work P) (o : Opt) : List Stage → St P → St P × Bool
  | [], st => (st, true)
  | s :: rest, st =>
    match executeStage body o s st with
    | (st, true) => runStages body o rest st
    | (st, false) => (st, false)

/-- driver.c 186-243 `compileProgram` after parsing with `parseErrors` errors; `last` cuts the stages for `cxy dev`
(`options->dev.lastStage`).  Dumping, statistics and running tests are not modelled. -/
def compileProgram (body : Stage → P → Work P) (o : Opt) (last : Nat) (parseErrors : Nat) (prog : P) : St P × Bool :=
  runStages body o (order.take last) ⟨prog, [], parseErrors, false, [], false⟩

/-! ## Proofs -/

/-- Nothing has gone wrong so far and the recorded stages are among those done. -/
def Good (st : St P) (before : List Stage) : Prop :=
  st.errors = 0 ∧ st.misuse = false ∧ ∀ r ∈ before, r ∈ st.done

/-- Stages that always get recorded when they succeed. -/
def recorded : Stage → Bool
  | .preprocess | .shake | .bind | .typeCheck | .simplify | .codegen => true
  | _ => false

theorem executeStage_errors (body : Stage → P → Work P) (o : Opt) (s : Stage) (st : St P) :
    (executeStage body o s st).2 = true → st.errors = 0 → (executeStage body o s st).1.errors = 0 := by
  unfold executeStage
  by_cases hn : noExecutor s = true
  · rw [if_pos hn]; intro _ h; exact h
  · rw [if_neg hn]
    simp only
    split
    · intro h; cases h
    · intro _ _; omega

theorem executeStage_done (body : Stage → P → Work P) (o : Opt) (s : Stage) (st : St P)
    (h : (executeStage body o s st).2 = true) :
    (∀ r ∈ st.done, r ∈ (executeStage body o s st).1.done) ∧
    (recorded s = true → s ∈ (executeStage body o s st).1.done) := by
  revert h
  unfold executeStage
  by_cases hn : noExecutor s = true
  · rw [if_pos hn]; intro _; exact ⟨fun r h => h, fun h => by cases s <;> simp_all [noExecutor, recorded]⟩
  · rw [if_neg hn]
    simp only
    split
    · intro h; cases h
    · intro h
      revert h
      unfold execute
      split
      · rename_i hm
        intro _
        refine ⟨fun r h => h, fun h => ?_⟩
        simp at hm; rw [hm.1] at h; cases h
      · split
        · intro h; cases h
        · split
          · rename_i hm
            intro _
            refine ⟨fun r h => h, fun h => ?_⟩
            simp at hm; rw [hm.1] at h; cases h
          · simp only
            split
            · split
              · intro h; cases h
              · split
                · intro h; cases h
                · intro _; exact ⟨fun r h => List.mem_cons_of_mem _ h, fun _ => List.mem_cons_self ..⟩
            · split
              · intro h; cases h
              · intro _; exact ⟨fun r h => List.mem_cons_of_mem _ h, fun _ => List.mem_cons_self ..⟩

theorem executeStage_keeps (body : Stage → P → Work P) (o : Opt) (s : Stage) (st : St P) (r : Stage) (hrd : r ∈ st.done) :
    r ∈ (executeStage body o s st).1.done := by
  unfold executeStage
  split
  · exact hrd
  · have : r ∈ (execute body o s st).1.done := by
      unfold execute
      by_cases h1 : (s = .memoryMgmt && !o.memory) = true
      · rw [if_pos h1]; exact hrd
      · rw [if_neg h1]
        by_cases h2 : (needs s).any (fun r => !st.done.contains r) = true
        · rw [if_pos h2]; exact hrd
        · rw [if_neg h2]
          by_cases h3 : (s = .compile && !o.main) = true
          · rw [if_pos h3]; exact hrd
          · rw [if_neg h3]
            simp only
            by_cases h4 : s = .compile
            · rw [if_pos h4]
              by_cases h5 : (!(body s st.prog).made) = true
              · rw [if_pos h5]; exact hrd
              · rw [if_neg h5]
                by_cases h6 : st.errors + (body s st.prog).errors > 0
                · rw [if_pos h6]; exact hrd
                · rw [if_neg h6]; exact List.mem_cons_of_mem _ hrd
            · rw [if_neg h4]
              by_cases h6 : st.errors + (body s st.prog).errors > 0
              · rw [if_pos h6]; exact hrd
              · rw [if_neg h6]; exact List.mem_cons_of_mem _ hrd
    simp only
    split <;> exact this

theorem executeStage_misuse (body : Stage → P → Work P) (o : Opt) (s : Stage) (st : St P)
    (h : st.misuse = false) (hn : ∀ r, needs s = some r → r ∈ st.done) : (executeStage body o s st).1.misuse = false := by
  unfold executeStage
  by_cases hx : noExecutor s = true
  · rw [if_pos hx]; exact h
  · rw [if_neg hx]
    have : (execute body o s st).1.misuse = false := by
      unfold execute
      split
      · exact h
      · split
        · rename_i hy
          simp only [Option.any_eq_true] at hy
          obtain ⟨r, hr, hc⟩ := hy
          have := hn r hr
          simp at hc; exact absurd this hc
        · split
          · exact h
          · simp only
            split
            · split
              · exact h
              · split <;> exact h
            · split <;> exact h
    simp only
    split <;> exact this

/-- The work a stage may do. -/
theorem executeStage_ran (body : Stage → P → Work P) (o : Opt) (s : Stage) (st : St P) :
    (executeStage body o s st).1.ran = st.ran ∨ (executeStage body o s st).1.ran = st.ran ++ [s] := by
  unfold executeStage
  by_cases hx : noExecutor s = true
  · rw [if_pos hx]; exact .inl rfl
  · rw [if_neg hx]
    have : (execute body o s st).1.ran = st.ran ∨ (execute body o s st).1.ran = st.ran ++ [s] := by
      unfold execute
      split
      · exact .inl rfl
      · split
        · exact .inl rfl
        · split
          · exact .inl rfl
          · simp only
            split
            · split
              · exact .inr rfl
              · split <;> exact .inr rfl
            · split <;> exact .inr rfl
    simp only
    split <;> exact this

theorem executeStage_exe (body : Stage → P → Work P) (o : Opt) (s : Stage) (st : St P) :
    (executeStage body o s st).1.exe = st.exe ∨
      (s = .compile ∧ o.main = true ∧ .codegen ∈ st.done ∧ (body s st.prog).made = true) := by
  unfold executeStage
  by_cases hx : noExecutor s = true
  · rw [if_pos hx]; exact .inl rfl
  · rw [if_neg hx]
    have : (execute body o s st).1.exe = st.exe ∨
        (s = .compile ∧ o.main = true ∧ .codegen ∈ st.done ∧ (body s st.prog).made = true) := by
      unfold execute
      split
      · exact .inl rfl
      · split
        · exact .inl rfl
        · rename_i hneed
          split
          · exact .inl rfl
          · rename_i hmain
            simp only
            split
            · rename_i hc
              subst hc
              split
              · exact .inl rfl
              · rename_i hmade
                refine .inr ⟨rfl, by simpa using hmain, by simpa [needs] using hneed, by simpa using hmade⟩
            · split <;> exact .inl rfl
    simp only
    split <;> exact this

/-- What is known when the stages `before` have been gone through and `rest` remain. -/
theorem runStages_spec (body : Stage → P → Work P) (o : Opt) : ∀ (rest before : List Stage) (st : St P),
    order.take (before ++ rest).length = before ++ rest → st.errors = 0 → st.misuse = false → st.exe = false →
    (∀ r ∈ before, recorded r = true → r ∈ st.done) →
    (runStages body o rest st).1.misuse = false ∧
    ((runStages body o rest st).2 = true → (runStages body o rest st).1.errors = 0) ∧
    (∃ sub, sub.Sublist rest ∧ (runStages body o rest st).1.ran = st.ran ++ sub) ∧
    ((runStages body o rest st).1.exe = true → .codegen ∈ (runStages body o rest st).1.done)
  | [], before, st, _, he, hm, hx, _ => by
    refine ⟨hm, fun _ => he, ⟨[], List.Sublist.refl _, by simp [runStages]⟩, fun h => ?_⟩
    simp [runStages, hx] at h
  | s :: rest, before, st, ho, he, hm, hx, hb => by
    have hneed : ∀ r, needs s = some r → r ∈ st.done := by
      intro r hr
      have hmem : r ∈ before := by
        clear hb
        have hl : (before ++ s :: rest).length ≤ 12 := by
          rw [← ho]; simp [order]; omega
        have key : ∀ k, k < 12 → ∀ pre suf : List Stage, pre ++ s :: suf = order.take (k + 1) → suf = [] → r ∈ pre := by
          intro k hk pre suf e hs
          subst hs
          have : k = 0 ∨ k = 1 ∨ k = 2 ∨ k = 3 ∨ k = 4 ∨ k = 5 ∨ k = 6 ∨ k = 7 ∨ k = 8 ∨ k = 9 ∨ k = 10 ∨ k = 11 := by omega
          have hpre : pre = (order.take (k + 1)).dropLast := by rw [← e]; simp
          have hs : (order.take (k + 1)).getLast? = some s := by rw [← e]; simp
          rcases this with h | h | h | h | h | h | h | h | h | h | h | h <;> subst h <;>
            simp [order] at hs hpre <;> subst hs <;> simp [needs] at hr <;> subst hr <;> simp [hpre]
        refine key before.length (by simp at hl; omega) before [] ?_ rfl
        have := congrArg (List.take (before.length + 1)) ho
        rw [List.take_take] at this
        simp at this
        rw [this, List.take_append, List.take_of_length_le (Nat.le_succ _)]
        simp
      have hrec : recorded r = true := by
        cases s <;> simp [needs] at hr <;> subst hr <;> rfl
      exact hb r hmem hrec
    have h1 := executeStage_errors body o s st
    have h2 := executeStage_done body o s st
    have h3 := executeStage_misuse body o s st hm hneed
    have h4 := executeStage_ran body o s st
    have h5 := executeStage_exe body o s st
    unfold runStages
    cases hr : executeStage body o s st with
    | mk st' b =>
    rw [hr] at h1 h2 h3 h4 h5
    simp only at h1 h2 h3 h4 h5
    cases b with
    | false =>
      simp only
      refine ⟨h3, (fun h => by cases h), ?_, ?_⟩
      · rcases h4 with h | h
        · exact ⟨[], by simp, by simp [h]⟩
        · exact ⟨[s], by simp, by simp [h]⟩
      · intro hexe
        rcases h5 with h | ⟨e1, _, e3, _⟩
        · rw [h, hx] at hexe; cases hexe
        · -- the executable was made and then the stage failed: earlier stages are still recorded
          have := executeStage_keeps body o s st .codegen e3
          rw [hr] at this
          exact this
    | true =>
      simp only
      have he' := h1 rfl he
      obtain ⟨hd1, hd2⟩ := h2 rfl
      by_cases hexe : st'.exe = true
      · -- only the last stage makes an executable
        rcases h5 with h | ⟨e1, _, e3, _⟩
        · rw [h, hx] at hexe; cases hexe
        · subst e1
          have hrest : rest = [] := by
            have hl : (before ++ Stage.compile :: rest).length ≤ 12 := by rw [← ho]; simp [order]; omega
            have hget : order[before.length]? = some Stage.compile := by
              have h0 : (order.take (before ++ Stage.compile :: rest).length)[before.length]? = some Stage.compile := by
                rw [ho]; simp
              rw [List.getElem?_take] at h0
              split at h0
              · exact h0
              · cases h0
            have : before.length = 11 := by
              have : ∀ n, n < 12 → order[n]? = some Stage.compile → n = 11 := by decide
              refine this _ ?_ hget
              simp at hl; omega
            simp at hl
            have : rest.length = 0 := by omega
            exact List.length_eq_zero_iff.mp this
          subst hrest
          refine ⟨h3, fun _ => he', ?_, fun _ => hd1 _ e3⟩
          rcases h4 with h | h
          · exact ⟨[], by simp, by simp [runStages, h]⟩
          · exact ⟨[Stage.compile], by simp, by simp [runStages, h]⟩
      · obtain ⟨i1, i2, ⟨sub, i3, i4⟩, i5⟩ := runStages_spec body o rest (before ++ [s]) st' (by simpa using ho) he' h3
          (by simpa using hexe) (by
            intro r hrm hrr
            rw [List.mem_append] at hrm
            rcases hrm with h | h
            · exact hd1 _ (hb r h hrr)
            · rw [List.mem_singleton] at h; subst h; exact hd2 hrr)
        refine ⟨i1, i2, ?_, i5⟩
        rcases h4 with h | h
        · exact ⟨sub, i3.cons _, by rw [i4, h]⟩
        · exact ⟨s :: sub, i3.cons_cons _, by rw [i4, h]; simp⟩

/-- A program with errors from parsing makes the first stage run and then stops. -/
theorem runStages_errors (body : Stage → P → Work P) (o : Opt) (st : St P) (he : 0 < st.errors) :
    (executeStage body o .preprocess st).2 = false := by
  unfold executeStage execute
  simp [noExecutor, needs]
  split
  · rfl
  · omega

/-- **C89.** Whatever the stages do: the driver never complains about a stage being out of order, the stages that run are
some of the pipeline's in its order, a successful compilation reported no errors (counting those of parsing), and an
executable is made only after the code generator has finished without any error. -/
theorem pipeline (body : Stage → P → Work P) (o : Opt) (last parseErrors : Nat) (prog : P) :
    let r := compileProgram body o last parseErrors prog
    r.1.misuse = false ∧ r.1.ran.Sublist order ∧ (0 < last → r.2 = true → r.1.errors = 0 ∧ parseErrors = 0) ∧
    (r.1.exe = true → parseErrors = 0 ∧ .codegen ∈ r.1.done) := by
  simp only
  unfold compileProgram
  by_cases hp : parseErrors = 0
  · subst hp
    obtain ⟨a, b, ⟨sub, c, d⟩, e⟩ := runStages_spec body o (order.take last) [] ⟨prog, [], 0, false, [], false⟩
      (by simp) rfl rfl rfl (by simp)
    refine ⟨a, ?_, fun _ h => ⟨b h, rfl⟩, fun h => ⟨rfl, e h⟩⟩
    rw [d]
    exact c.trans (List.take_sublist _ _)
  · cases last with
    | zero => simp [runStages]
    | succ n =>
      have ho : order.take (n + 1) = .preprocess :: (order.tail.take n) := by simp [order]
      rw [ho]
      have hf := runStages_errors body o ⟨prog, [], parseErrors, false, [], false⟩ (by simp; omega)
      have h3 := executeStage_misuse body o .preprocess ⟨prog, [], parseErrors, false, [], false⟩ rfl (by simp [needs])
      have h4 := executeStage_ran body o .preprocess ⟨prog, [], parseErrors, false, [], false⟩
      have h5 := executeStage_exe body o .preprocess ⟨prog, [], parseErrors, false, [], false⟩
      unfold runStages
      cases hr : executeStage body o .preprocess ⟨prog, [], parseErrors, false, [], false⟩ with
      | mk st' b =>
      rw [hr] at hf h3 h4 h5
      simp only at hf
      subst hf
      simp only at h3 h4 h5 ⊢
      refine ⟨h3, ?_, ?_, ?_⟩
      · rcases h4 with h | h <;> rw [h] <;> simp [order]
      · intro _ h; cases h
      · intro h
        rcases h5 with h' | ⟨h', _⟩
        · rw [h'] at h; cases h
        · cases h'

/-- When no stage reports an error, all the work is done and the executable exists. -/
theorem pipeline_completes (body : Stage → P → Work P) (prog : P) (h : ∀ s p, (body s p).errors = 0 ∧ (body s p).made = true) :
    let r := compileProgram body ⟨true, true⟩ 12 0 prog
    r.2 = true ∧ r.1.exe = true ∧
      r.1.ran = [.preprocess, .shake, .bind, .typeCheck, .simplify, .memoryMgmt, .codegen, .compile] := by
  simp [compileProgram, order, runStages, executeStage, execute, noExecutor, needs, h]

/-- A type error stops everything that follows. -/
example : (compileProgram (P := Nat) (fun s p => ⟨p + 1, if s = .typeCheck then 2 else 0, true⟩) ⟨true, true⟩ 12 0 0).1.ran
    = [.preprocess, .shake, .bind, .typeCheck] := by decide

end Verif.Stages
