import Verif.Std.Proc.Model
/-! # C179–C182: the pipes and the end of a process -/
namespace Verif.Proc

/-- The descriptors of the pipes were free, and so are not those of the standard streams, which are in use; they differ; and the pipes
are new and differ. -/
structure Fresh (t : Table) (k : Start) : Prop where
  std : ∀ n < 3, t n ≠ none
  free : ∀ n ∈ [k.input.1, k.input.2, k.out.1, k.out.2, k.err.1, k.err.2], t n = none
  distinct : [k.input.1, k.input.2, k.out.1, k.out.2, k.err.1, k.err.2].Nodup
  pipes : k.pin ≠ k.pout ∧ k.pin ≠ k.perr ∧ k.pout ≠ k.perr
  new : ∀ n p, (t n = some (.rd p) ∨ t n = some (.wr p)) → p ≠ k.pin ∧ p ≠ k.pout ∧ p ≠ k.perr

/-- The facts about numbers. -/
theorem Fresh.numbers {t : Table} {k : Start} (h : Fresh t k) :
    (3 ≤ k.input.1 ∧ 3 ≤ k.input.2 ∧ 3 ≤ k.out.1 ∧ 3 ≤ k.out.2 ∧ 3 ≤ k.err.1 ∧ 3 ≤ k.err.2) ∧
    k.input.1 ≠ k.input.2 ∧ k.input.1 ≠ k.out.1 ∧ k.input.1 ≠ k.out.2 ∧ k.input.1 ≠ k.err.1 ∧ k.input.1 ≠ k.err.2 ∧
    k.input.2 ≠ k.out.1 ∧ k.input.2 ≠ k.out.2 ∧ k.input.2 ≠ k.err.1 ∧ k.input.2 ≠ k.err.2 ∧
    k.out.1 ≠ k.out.2 ∧ k.out.1 ≠ k.err.1 ∧ k.out.1 ≠ k.err.2 ∧ k.out.2 ≠ k.err.1 ∧ k.out.2 ≠ k.err.2 ∧ k.err.1 ≠ k.err.2 := by
  have big : ∀ n ∈ [k.input.1, k.input.2, k.out.1, k.out.2, k.err.1, k.err.2], 3 ≤ n := by
    intro n hn
    by_cases hlt : n < 3
    · exact absurd (h.free n hn) (h.std n hlt)
    · omega
  have d := h.distinct
  simp only [List.nodup_cons, List.mem_cons, List.not_mem_nil, or_false, not_or, not_false_eq_true, List.nodup_nil, and_true] at d
  obtain ⟨⟨a1, a2, a3, a4, a5⟩, ⟨b1, b2, b3, b4⟩, ⟨c1, c2, c3⟩, ⟨d1, d2⟩, e1⟩ := d
  refine ⟨⟨big _ (by simp), big _ (by simp), big _ (by simp), big _ (by simp), big _ (by simp), big _ (by simp)⟩, ?_⟩
  exact ⟨a1, a2, a3, a4, a5, b1, b2, b3, b4, c1, c2, c3, d1, d2, e1⟩

theorem ends (t : Table) (k : Start) (h : Fresh t k) :
    child t k 0 = some (.wr k.pin) ∧ child t k 1 = some (.wr k.pout) ∧ child t k 2 = some (.wr k.perr) ∧
    parent t k (fdin k) = some (.rd k.pin) ∧ parent t k (fdout k) = some (.rd k.pout) ∧ parent t k (fderr k) = some (.rd k.perr) := by
  obtain ⟨⟨g1, g2, g3, g4, g5, g6⟩, n1, n2, n3, n4, n5, n6, n7, n8, n9, n10, n11, n12, n13, n14, n15⟩ := h.numbers
  simp only [child, parent, opened, pipe, dup2, close, fdin, fdout, fderr]
  refine ⟨?_, ?_, ?_, ?_, ?_, ?_⟩
  · simp only [upd]
    repeat' first | rw [if_neg (by omega)] | simp only [if_true]
  · simp only [upd]
    repeat' first | rw [if_neg (by omega)] | simp only [if_true]
  · simp only [upd]
    repeat' first | rw [if_neg (by omega)] | simp only [if_true]
  · simp only [upd]
    repeat' first | rw [if_neg (by omega)] | simp only [if_true]
  · simp only [upd]
    repeat' first | rw [if_neg (by omega)] | simp only [if_true]
  · simp only [upd]
    repeat' first | rw [if_neg (by omega)] | simp only [if_true]

/-! ## C179: output -/

/-- The child writes on its standard output (`true`) and its standard error. -/
def writes (t : Table) : List (Bool × List Nat) → Pipes → Option Pipes
  | [], w => some w
  | (o, bytes) :: r, w => (write t (if o then 1 else 2) bytes w).bind (writes t r)

/-- What was written on one of them. -/
def written (o : Bool) (l : List (Bool × List Nat)) : List Nat := (l.filter fun x => x.1 == o).flatMap (·.2)

/-- **C179 (partial).** Whatever a started program writes on its standard output and standard error, in any order and any pieces, is what
is read from `stdout()` and from `stderr()`, each complete and in order. Missing: a parent whose own standard streams are closed, and
pipes that fill up. -/
theorem output_reaches_parent_partial (t : Table) (k : Start) (h : Fresh t k) (w : Pipes) (l : List (Bool × List Nat)) :
    ∃ w', writes (child t k) l w = some w' ∧
      read (parent t k) (fdout k) w' = some (w k.pout ++ written true l) ∧
      read (parent t k) (fderr k) w' = some (w k.perr ++ written false l) := by
  obtain ⟨_, e1, e2, _, e4, e5⟩ := ends t k h
  obtain ⟨_, _, hp⟩ := h.pipes
  induction l generalizing w with
  | nil => exact ⟨w, rfl, by simp [read, e4, written], by simp [read, e5, written]⟩
  | cons x l ih =>
    obtain ⟨o, bytes⟩ := x
    cases o with
    | true =>
      obtain ⟨w', h1, h2, h3⟩ := ih (upd w k.pout (w k.pout ++ bytes))
      refine ⟨w', ?_, ?_, ?_⟩
      · simp only [writes, write, e1, if_true, Option.bind_some]
        exact h1
      · rw [h2]
        simp [written]
      · rw [h3, upd_ne _ _ (Ne.symm hp)]
        simp [written]
    | false =>
      obtain ⟨w', h1, h2, h3⟩ := ih (upd w k.perr (w k.perr ++ bytes))
      refine ⟨w', ?_, ?_, ?_⟩
      · simp only [writes, write, Bool.false_eq_true, if_false, e2, Option.bind_some]
        exact h1
      · rw [h2, upd_ne _ _ hp]
        simp [written]
      · rw [h3]
        simp [written]

/-- The table of the parent of a process: what was there, and the reading ends. -/
theorem parent_old (t : Table) (k : Start) (n : Nat) : parent t k n = t n ∨ parent t k n = none ∨ ∃ p, parent t k n = some (.rd p) := by
  simp only [parent, opened, pipe, close, upd]
  repeat' split
  all_goals first | exact .inr (.inl rfl) | exact .inl rfl | exact .inr (.inr ⟨_, rfl⟩)

/-- The pipes a table can write on. -/
def Only (P : Nat → Prop) (t : Table) : Prop := ∀ n p, t n = some (.wr p) → P p

theorem Only.upd {P : Nat → Prop} {t : Table} (h : Only P t) (a : Nat) {e : Option End} (he : ∀ p, e = some (.wr p) → P p) :
    Only P (Verif.upd t a e) := by
  intro n p hn
  unfold Verif.upd at hn
  split at hn
  · exact he p hn
  · exact h n p hn

theorem Only.pipe {P : Nat → Prop} {t : Table} (h : Only P t) (fds : Nat × Nat) {q : Nat} (hq : P q) : Only P (pipe t fds q) := by
  refine (h.upd _ (by simp)).upd _ ?_
  intro p hp
  simp only [Option.some.injEq, End.wr.injEq] at hp
  rw [← hp]
  exact hq

theorem Only.dup2 {P : Nat → Prop} {t : Table} (h : Only P t) (a b : Nat) : Only P (dup2 t a b) := h.upd _ (h a)

theorem Only.close {P : Nat → Prop} {t : Table} (h : Only P t) (a : Nat) : Only P (close t a) := h.upd _ (by simp)

theorem child_old (t : Table) (k : Start) (n p : Nat) (h : child t k n = some (.wr p)) :
    (∃ m, t m = some (.wr p)) ∨ p = k.pin ∨ p = k.pout ∨ p = k.perr := by
  have h0 : Only (fun p => (∃ m, t m = some (.wr p)) ∨ p = k.pin ∨ p = k.pout ∨ p = k.perr) t := fun n p h => .inl ⟨n, h⟩
  exact (((((((((h0.pipe k.input (.inr (.inl rfl))).pipe k.out (.inr (.inr (.inl rfl)))).pipe k.err (.inr (.inr (.inr rfl)))).dup2 _ _).dup2
    _ _).dup2 _ _).close _).close _).close _) n p h

/-- No descriptor of a table is for writing on a pipe. -/
def NoWriter (t : Table) : Prop := ∀ n p, t n ≠ some (.wr p)

theorem parent_noWriter (t : Table) (k : Start) (h : NoWriter t) : NoWriter (parent t k) := by
  intro n p e
  rcases parent_old t k n with h1 | h1 | ⟨q, h1⟩
  · exact h n p (by rw [← h1, e])
  · rw [h1] at e
    exact nomatch e
  · rw [h1] at e
    simp at e

/-- **C179.** Output ends when the program ends: however many programs are started one after another, the parent keeps no writing end of
any pipe, and a program has only the writing ends of its own pipes, so that no program waits for the end of another. -/
theorem output_ends (t : Table) (ks : List Start) (h : NoWriter t) :
    NoWriter (starts t ks).1 ∧
    ∀ i (hi : i < ks.length) n p, ((starts t ks).2[i]?.bind fun c => c n) = some (.wr p) →
      p = ks[i].pin ∨ p = ks[i].pout ∨ p = ks[i].perr := by
  induction ks generalizing t with
  | nil => exact ⟨h, fun i hi => absurd hi (by simp)⟩
  | cons k ks ih =>
    obtain ⟨i1, i2⟩ := ih (parent t k) (parent_noWriter t k h)
    refine ⟨i1, fun i hi n p hc => ?_⟩
    cases i with
    | zero =>
      simp only [starts, List.getElem?_cons_zero, Option.bind_some] at hc
      rcases child_old t k n p hc with ⟨m, hm⟩ | hp
      · exact absurd hm (h m p)
      · exact hp
    | succ i =>
      simp only [starts, List.getElem?_cons_succ] at hc
      exact i2 i (by simpa using hi) n p hc

/-- A terminal for the standard streams. -/
def tty : Table := fun n => if n < 3 then some (.file n) else none

def first : Start := ⟨(3, 4), (5, 6), (7, 8), 0, 1, 2⟩

theorem first_fresh : Fresh tty first := by
  refine ⟨by decide, by decide, by decide, by decide, ?_⟩
  intro n p h
  unfold tty at h
  split at h <;> simp at h

example : ∃ w', writes (child tty first) [(true, [104]), (false, [33]), (true, [105])] (fun _ => []) = some w' ∧
    read (parent tty first) (fdout first) w' = some [104, 105] ∧ read (parent tty first) (fderr first) w' = some [33] :=
  output_reaches_parent_partial tty first first_fresh (fun _ => []) _

example : NoWriter tty := by
  intro n p h
  unfold tty at h
  split at h <;> simp at h

/-! ## C180: input -/

/-- **C180, it fails.** Nothing can be written to a program that was started, and it can read nothing: the ends of the pipe are
exchanged. Both calls fail for all bytes, whatever the pipes hold. -/
theorem input_never_arrives (t : Table) (k : Start) (h : Fresh t k) (w : Pipes) (bytes : List Nat) :
    write (parent t k) (fdin k) bytes w = none ∧ read (child t k) 0 w = none := by
  obtain ⟨e0, _, _, e3, _, _⟩ := ends t k h
  simp [write, read, e0, e3]

example : write (parent tty first) (fdin first) [104, 105] (fun _ => []) = none :=
  (input_never_arrives tty first first_fresh _ _).1

/-! ## C181: exit codes -/

theorem exit_code (c : Nat) (h : c < 256) : wifexited (status (.exited c)) = true ∧ wexitstatus (status (.exited c)) = c := by
  have : ∀ c, c < 256 → wifexited (status (.exited c)) = true ∧ wexitstatus (status (.exited c)) = c := by decide +kernel
  exact this c h

/-- **C181 (partial).** A program that exits by itself is reported with its exit code. Missing: the programs that are ended by a signal
(`killed_reported_as_success`). -/
theorem exit_code_partial (c : Nat) (h : c < 256) :
    wait (.ended (.exited c)) = (some (c : Int), .reaped) := by
  obtain ⟨h1, h2⟩ := exit_code c h
  simp [wait, waitpid, h1, h2]

/-- **C181, it fails.** A program ended by a signal is reported as -1 or as a success, with 0; it is a success exactly for the signals
whose number has none of the bits of 49, without a core dump: interrupts (2), illegal instructions (4), aborts (6), arithmetic errors
(8) and more. -/
theorem killed_reported_as_success (s : Nat) (core : Bool) (h0 : 0 < s) (h : s < 127) :
    (wait (.ended (.killed s core))).1 = some (if s &&& 49 = 0 ∧ core = false then 0 else -1) := by
  have : ∀ s, s < 127 → 0 < s → ∀ core,
      (wait (.ended (.killed s core))).1 = some (if s &&& 49 = 0 ∧ core = false then 0 else -1) := by decide +kernel
  exact this s h h0 core

example : (wait (.ended (.killed 6 false))).1 = some 0 ∧ (wait (.ended (.killed 9 false))).1 = some (-1) := by decide

/-! ## C182: asking and waiting -/

/-- **C182, it fails.** Asking whether a program has ended takes away its exit code: `isExited` says yes and a `wait` after it raises,
for every exit code; and after the end by a signal too, which `isExited` takes for an end by itself exactly for the signals of
`killed_reported_as_success`. -/
theorem isExited_takes_exit_code (e : Ending) :
    (wait (isExited (.ended e)).2).1 = none ∧ (∀ c, c < 256 → e = .exited c → (isExited (.ended e)).1 = true) ∧
    (∀ s core, 0 < s → s < 127 → e = .killed s core → (isExited (.ended e)).1 = decide (s &&& 49 = 0 ∧ core = false)) := by
  refine ⟨by simp [isExited, waitpid, wait], fun c hc he => ?_, fun s core h0 h he => ?_⟩
  · subst he
    simp [isExited, waitpid, (exit_code c hc).1]
  · subst he
    have : ∀ s, s < 127 → 0 < s → ∀ core,
        (isExited (.ended (.killed s core))).1 = decide (s &&& 49 = 0 ∧ core = false) := by decide +kernel
    exact this s h h0 core

/-- **C182, it fails.** A program that is still running when the waiting ends early is reported with exit code 0. -/
theorem running_reported_as_success (w : StreamIO.Wake) : (waitAsync .running w .running).1 = some 0 := by
  simp [waitAsync, waitpid, wifexited, wexitstatus]

/-- **C182 (partial).** A program that has ended by itself before the waiting is over is reported by `waitAsync` with its exit code, and
as long as it runs it is not taken for ended by `isExited`, which leaves it as it is. -/
theorem waitAsync_partial (w : StreamIO.Wake) (c : Nat) (h : c < 256) :
    (waitAsync .running w (.ended (.exited c))).1 = some (c : Int) ∧
    (∀ l, (waitAsync (.ended (.exited c)) w l).1 = some (c : Int)) ∧ isExited .running = (false, .running) := by
  obtain ⟨h1, h2⟩ := exit_code c h
  exact ⟨by simp [waitAsync, waitpid, h1, h2], fun l => by simp [waitAsync, waitpid, h1, h2], rfl⟩

end Verif.Proc
