import Verif.Std.Log.Model

/-!
# Properties of the logger

Source: `src/cxy/stdlib/log.cxy` 5-98, `src/cxy/lang/middle/eval/macro.c` 515-546.
-/

namespace Verif.Logger

/-! ## Specification -/

/-- a message as written: the first part, and the others joined to it with `<<`, which groups to the left -/
def chain (first : Expr) (rest : List Expr) : Expr := rest.foldl .shl first

/-- an expression as the parser gives it for a part: no bare shift, no stream -/
def Part : Expr → Prop
  | .operand _ => True
  | .group _ => True
  | _ => False

/-- the bytes of an ASCII text -/
def bytes (s : String) : List Nat := s.toList.map Char.toNat

/-- severity, most harmless first -/
def severity : List Level := [.trace, .debug, .info, .warning, .error]

/-- the severity of a level -/
def rank (l : Level) : Nat := severity.idxOf l

/-- the short name of a level -/
def label : Level → List Nat
  | .trace => bytes "TRC"
  | .debug => bytes "DBG"
  | .info => bytes "INF"
  | .warning => bytes "WRN"
  | .error => bytes "ERR"

/-- the tag in the log -/
def tagged (tag : List Nat) : List Nat := (tag ++ List.replicate 10 32).take 10

/-- a message is at least as severe as the level asks for -/
def Enabled (level lvl : Level) : Prop := rank level ≤ rank lvl

instance (a b : Level) : Decidable (Enabled a b) := inferInstanceAs (Decidable (_ ≤ _))

/-- one line of the log -/
def line (text : Expr → List Nat) (lvl : Level) (tag now : List Nat) (parts : List Expr) : List Nat :=
  now ++ [32] ++ label lvl ++ [32] ++ tagged tag ++ [32] ++ (parts.map text).flatten ++ [10]

/-- an event in the life of a program: the level is set or a message of some parts comes -/
inductive Event where
  | level (l : Level)
  | say (lvl : Level) (tag now : List Nat) (first : Expr) (rest : List Expr)

/-- the log, and the parts evaluated, from a level on -/
def expected (text : Expr → List Nat) : Level → List Event → List Nat × List Expr
  | _, [] => ([], [])
  | _, .level l :: es => expected text l es
  | cur, .say lvl tag now first rest :: es =>
    let r := expected text cur es
    if Enabled cur lvl then (line text lvl tag now (first :: rest) ++ r.1, (first :: rest) ++ r.2) else r

def Event.op : Event → Op
  | .level l => .setLevel l
  | .say lvl tag now first rest => .say lvl tag now (chain first rest)

def Event.Ok : Event → Prop
  | .level _ => True
  | .say _ _ _ first rest => Part first ∧ ∀ e ∈ rest, Part e

/-! ## Proofs -/

theorem snocInd {α : Type} {motive : List α → Prop} (nil : motive [])
    (snoc : ∀ xs x, motive xs → motive (xs ++ [x])) (l : List α) : motive l := by
  have h : ∀ r : List α, motive r.reverse := by
    intro r
    induction r with
    | nil => exact nil
    | cons x r ih => rw [List.reverse_cons]; exact snoc _ _ ih
  have := h l.reverse
  rwa [List.reverse_reverse] at this

theorem name_label (l : Level) : l.name = label l := by cases l <;> decide

theorem lShift_chain (first : Expr) (hf : Part first) : ∀ rest,
    makeLShift .stream (chain first rest) = chain .stream (first :: rest) := by
  have hbase : lShift .stream first = .shl .stream first := by cases first <;> simp_all [Part, lShift]
  have key : ∀ rest, lShift .stream (chain first rest) = chain .stream (first :: rest) := by
    intro rest
    induction rest using snocInd with
    | nil => exact hbase
    | snoc xs x ih =>
      simp only [chain, List.foldl_append, List.foldl_cons, List.foldl_nil] at ih ⊢
      rw [lShift, ih]
  intro rest
  rw [← key rest]
  unfold makeLShift
  split
  · rfl
  · rename_i e hne
    cases h : chain first rest <;> simp_all [lShift]

theorem part_not_newline {e : Expr} (h : Part e) : e ≠ .newline := by
  intro he; rw [he] at h; exact h

theorem exec_chain (text : Expr → List Nat) (lvl : Level) (tag now : List Nat) (s : St) : ∀ (parts : List Expr),
    (∀ e ∈ parts, Part e) →
    exec text lvl tag now (chain .stream parts) s =
      some { s with out := s.out ++ (now ++ [32] ++ label lvl ++ [32] ++ tagged tag ++ [32] ++ (parts.map text).flatten),
                    evals := s.evals ++ parts } := by
  intro parts
  induction parts using snocInd with
  | nil =>
    intro _
    obtain ⟨t, ht, _, he⟩ := FixedWidth.field_width tag 10 11 (by decide) (by decide)
    simp [chain, exec, log, ht, he, tagged, name_label]
  | snoc xs x ih =>
    intro h
    have ih := ih (fun e he => h e (by simp [he]))
    have hx := part_not_newline (h x (by simp))
    simp only [chain, List.foldl_append, List.foldl_cons, List.foldl_nil] at ih ⊢
    rw [exec, ih]
    simp [hx]

/-- **C216.** `lshift!(stream, a << b << …)` prints the parts in the order written, each as a whole. -/
theorem lshift_prints_parts (text : Expr → List Nat) (lvl : Level) (tag now : List Nat) (s : St) (first : Expr) (rest : List Expr)
    (hf : Part first) (hr : ∀ e ∈ rest, Part e) :
    ∃ s', exec text lvl tag now (makeLShift .stream (chain first rest)) s = some s' ∧
      s'.evals = s.evals ++ first :: rest ∧
      ∃ pre, log lvl tag now s = some pre ∧ s'.out = pre.out ++ ((first :: rest).map text).flatten := by
  rw [lShift_chain first hf, exec_chain text lvl tag now s _ (by
    intro e he
    rcases List.mem_cons.mp he with rfl | he
    · exact hf
    · exact hr e he)]
  have h0 := exec_chain text lvl tag now s [] (by simp)
  simp only [chain, List.foldl_nil, exec] at h0
  exact ⟨_, rfl, rfl, _, h0, by simp⟩

theorem enabled_iff (a b : Level) : Enabled a b ↔ b.val ≥ a.val := by cases a <;> cases b <;> decide

/-- **C217.** The log of a program is, line by line, the messages that were at least as severe as the
level at the time, each with its time, level, tag in ten characters and parts in order; the parts of
other messages are not even evaluated. -/
theorem log_content (text : Expr → List Nat) : ∀ (es : List Event) (s : St), (∀ e ∈ es, e.Ok) →
    ∃ s', run text (es.map Event.op) s = some s' ∧
      s'.out = s.out ++ (expected text s.level es).1 ∧ s'.evals = s.evals ++ (expected text s.level es).2 := by
  intro es
  induction es with
  | nil => intro s _; exact ⟨s, rfl, by simp [expected], by simp [expected]⟩
  | cons e es ih =>
    intro s h
    have h' : ∀ e ∈ es, e.Ok := fun x hx => h x (List.mem_cons_of_mem _ hx)
    have h0 := h e (by simp)
    cases e with
    | level l => exact ih { s with level := l } h'
    | say lvl tag now first rest =>
      obtain ⟨hf, hr⟩ := h0
      have hall : ∀ e ∈ first :: rest, Part e := by
        intro e he
        rcases List.mem_cons.mp he with rfl | he
        · exact hf
        · exact hr e he
      simp only [List.map_cons, Event.op, run, message, expected]
      by_cases hen : Enabled s.level lvl
      · rw [if_pos ((enabled_iff _ _).mp hen), if_pos hen]
        simp only [exec, lShift_chain first hf, exec_chain text lvl tag now s _ hall]
        obtain ⟨s', h1, h2, h3⟩ := ih { s with out := s.out ++ line text lvl tag now (first :: rest), evals := s.evals ++ (first :: rest) } h'
        refine ⟨s', ?_, by rw [h2]; simp, by rw [h3]; simp⟩
        rw [← h1]
        simp [line]
      · rw [if_neg (fun hx => hen ((enabled_iff _ _).mpr hx)), if_neg hen]
        exact ih s h'

/-! ## Cases -/

/-- every operand prints as a letter -/
def letters : Expr → List Nat
  | .operand n => [97 + n]
  | .group (.shl (.operand a) (.operand b)) => [48 + a * 2 ^ b]
  | _ => []

/-- `INF!(0 << (1 << 2) << 3)` after a message that is not severe enough -/
def program : List Event :=
  [.level .info, .say .debug [104] [49] (.operand 5) [], .say .info [104] [50] (.operand 0) [.group (.shl (.operand 1) (.operand 2)), .operand 3]]

example : ∀ e ∈ program, e.Ok := by simp [program, Event.Ok, Part]
example : (run letters (program.map Event.op) ⟨.trace, [], []⟩).map St.out =
    some ([50, 32, 73, 78, 70, 32, 104] ++ List.replicate 9 32 ++ [32, 97, 52, 100, 10]) := by decide

end Verif.Logger
