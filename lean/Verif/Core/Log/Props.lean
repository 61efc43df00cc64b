import Verif.Core.Log.Model
/-! # Reported errors are counted and make the log fail (C50) -/
namespace Verif.Log

variable {M : Type}

/-! ## Specification, independent of the model -/

/-- The diagnostic a request stands for, if its warning is enabled. -/
def meant (enabled : Nat) : Req M → Option (Diag M)
  | .error m => some ⟨.error, m⟩
  | .warning m => some ⟨.warning, m⟩
  | .warningWithId id m => if enabled.testBit id then some ⟨.warning, m⟩ else none
  | .note m => some ⟨.note, m⟩

/-- Number of errors among requests. -/
def errors (rs : List (Req M)) : Nat := rs.countP fun r => match r with | .error _ => true | _ => false

/-- Number of warnings that are not disabled. -/
def warnings (enabled : Nat) (rs : List (Req M)) : Nat :=
  (rs.filterMap (meant enabled)).countP fun d => d.kind = .warning

/-- The diagnostics before the `n`-th error (counting from one). -/
def upTo : Nat → List (Diag M) → List (Diag M)
  | 0, _ => []
  | _, [] => []
  | n + 1, d :: ds => if d.kind = .error then (if n = 0 then [] else d :: upTo n ds) else d :: upTo (n + 1) ds

theorem upTo_nil (n : Nat) : upTo n ([] : List (Diag M)) = [] := by cases n <;> rfl

theorem errors_cons (r : Req M) (rs : List (Req M)) :
    errors (r :: rs) = (match r with | .error _ => 1 | _ => 0) + errors rs := by
  unfold errors
  rw [List.countP_cons]
  cases r <;> simp <;> omega

theorem warnings_cons (e : Nat) (r : Req M) (rs : List (Req M)) :
    warnings e (r :: rs) = (if (meant e r).any (fun d => d.kind = .warning) then 1 else 0) + warnings e rs := by
  unfold warnings
  rw [List.filterMap_cons]
  cases h : meant e r with
  | none => simp
  | some d => simp [List.countP_cons]; split <;> omega

theorem request_meant (l : Log M) (r : Req M) :
    request l r = match meant l.enabled r with | none => l | some d => printDiagnostic l d := by
  cases r <;> simp [request, meant]
  split <;> rfl

theorem print_fields (l : Log M) (d : Diag M) :
    (printDiagnostic l d).errorCount = (if d.kind = .error then (l.errorCount + 1) % 2 ^ 64 else l.errorCount) ∧
    (printDiagnostic l d).warningCount = (if d.kind = .warning then (l.warningCount + 1) % 2 ^ 64 else l.warningCount) ∧
    (printDiagnostic l d).maxErrors = l.maxErrors ∧ (printDiagnostic l d).enabled = l.enabled ∧
    (printDiagnostic l d).out = l.out ++ (if (if d.kind = .error then (l.errorCount + 1) % 2 ^ 64 else l.errorCount) ≥ l.maxErrors
      then [] else [d]) := by
  unfold printDiagnostic count
  cases hk : d.kind <;> simp <;> split <;> simp_all

/-- What a history does to a log, from any state. -/
theorem run_spec : ∀ (rs : List (Req M)) (l : Log M), l.errorCount + rs.length < 2 ^ 64 → l.warningCount + rs.length < 2 ^ 64 →
    (run l rs).errorCount = l.errorCount + errors rs ∧
    (run l rs).warningCount = l.warningCount + warnings l.enabled rs ∧
    (run l rs).enabled = l.enabled ∧ (run l rs).maxErrors = l.maxErrors ∧
    (run l rs).out = l.out ++ upTo (l.maxErrors - l.errorCount) (rs.filterMap (meant l.enabled))
  | [], l, _, _ => by simp [run, errors, warnings, upTo_nil]
  | r :: rs, l, h1, h2 => by
    simp only [List.length_cons] at h1 h2
    have hrun : run l (r :: rs) = run (request l r) rs := rfl
    rw [hrun, request_meant]
    cases hm : meant l.enabled r with
    | none =>
      simp only
      obtain ⟨a, b, c, d, e⟩ := run_spec rs l (by omega) (by omega)
      refine ⟨?_, ?_, c, d, ?_⟩
      · rw [a, errors_cons]; cases r <;> simp_all [meant]
      · rw [b, warnings_cons, hm]; simp
      · rw [e, List.filterMap_cons, hm]
    | some dg =>
      simp only
      obtain ⟨p1, p2, p3, p4, p5⟩ := print_fields l dg
      have q1 : (printDiagnostic l dg).errorCount = l.errorCount + (if dg.kind = .error then 1 else 0) := by
        rw [p1]; split
        · rw [Nat.mod_eq_of_lt (by omega)]
        · rfl
      have q2 : (printDiagnostic l dg).warningCount = l.warningCount + (if dg.kind = .warning then 1 else 0) := by
        rw [p2]; split
        · rw [Nat.mod_eq_of_lt (by omega)]
        · rfl
      obtain ⟨a, b, c, d, e⟩ := run_spec rs (printDiagnostic l dg) (by rw [q1]; split <;> omega) (by rw [q2]; split <;> omega)
      rw [p4] at b c e
      rw [p3] at d
      refine ⟨?_, ?_, c, d, ?_⟩
      · rw [a, errors_cons, q1]
        cases r <;> simp_all [meant]
        · rw [← hm]; simp; omega
        · rw [← hm]; simp
        · rw [← hm.2]; simp
        · rw [← hm]; simp
      · rw [b, warnings_cons, hm, q2]; simp; omega
      · rw [e, p5, p3, List.filterMap_cons, hm, List.append_assoc]
        congr 1
        rw [q1]
        by_cases hk : dg.kind = .error
        · rw [if_pos hk, if_pos hk]
          rw [Nat.mod_eq_of_lt (by omega)]
          by_cases hge : l.errorCount + 1 ≥ l.maxErrors
          · rw [if_pos hge, show l.maxErrors - (l.errorCount + 1) = 0 from by omega]
            cases hx : l.maxErrors - l.errorCount with
            | zero => simp [upTo]
            | succ n =>
              have : n = 0 := by omega
              subst this
              simp [upTo, hk]
          · rw [if_neg hge]
            obtain ⟨n, hn⟩ : ∃ n, l.maxErrors - l.errorCount = n + 2 := ⟨l.maxErrors - l.errorCount - 2, by omega⟩
            rw [hn, show l.maxErrors - (l.errorCount + 1) = n + 1 from by omega]
            simp [upTo, hk]
        · rw [if_neg hk, if_neg hk, Nat.add_zero]
          by_cases hge : l.errorCount ≥ l.maxErrors
          · rw [if_pos hge, show l.maxErrors - l.errorCount = 0 from by omega]; simp [upTo]
          · rw [if_neg hge]
            obtain ⟨n, hn⟩ : ∃ n, l.maxErrors - l.errorCount = n + 1 := ⟨l.maxErrors - l.errorCount - 1, by omega⟩
            rw [hn]
            simp [upTo, hk]

/-- How many errors `upTo` lets through. -/
theorem upTo_errors : ∀ (ds : List (Diag M)) (n : Nat),
    (upTo n ds).countP (fun d => d.kind = .error) = min (n - 1) (ds.countP fun d => d.kind = .error)
  | [], n => by rw [upTo_nil]; simp
  | d :: ds, 0 => by simp [upTo]
  | d :: ds, n + 1 => by
    unfold upTo
    by_cases hk : d.kind = .error
    · rw [if_pos hk]
      by_cases hn : n = 0
      · subst hn; simp
      · rw [if_neg hn, List.countP_cons, List.countP_cons, upTo_errors ds n]
        simp [hk]; omega
    · rw [if_neg hk, List.countP_cons, List.countP_cons, upTo_errors ds (n + 1)]
      simp [hk]

theorem meant_errors (e : Nat) : ∀ rs : List (Req M),
    (rs.filterMap (meant e)).countP (fun d => d.kind = .error) = errors rs
  | [] => by simp [errors]
  | r :: rs => by
    rw [errors_cons, ← meant_errors e rs, List.filterMap_cons]
    cases r with
    | error m => simp [meant]; omega
    | warning m => simp [meant]
    | warningWithId id m => simp only [meant]; by_cases h : e.testBit id = true <;> simp [h]
    | note m => simp [meant]

/-- **C50 (partial).** For every history of fewer than 2^64 diagnostics and every limit: the error count is the number of
errors reported, the warning count the number of enabled warnings, the log reports errors exactly when an error was
reported - whatever the limit - and the diagnostics printed are those before the error that reaches the limit.
Missing: the limit is one lower than configured (`limit_off_by_one`), and what is cut off includes warnings and notes. -/
theorem errors_counted_partial (limit : Nat) (rs : List (Req M)) (h : rs.length < 2 ^ 64) :
    let l := run (newLog limit) rs
    l.errorCount = errors rs ∧ l.warningCount = warnings wrnDefault rs ∧
    (hasErrors l = true ↔ ∃ m, Req.error m ∈ rs) ∧
    l.out = upTo limit (rs.filterMap (meant wrnDefault)) := by
  simp only
  obtain ⟨a, b, _, _, e⟩ := run_spec rs (newLog limit) (by simpa [newLog] using h) (by simpa [newLog] using h)
  refine ⟨by simpa [newLog] using a, by simpa [newLog] using b, ?_, by simpa [newLog] using e⟩
  unfold hasErrors
  rw [a]
  simp only [newLog, Nat.zero_add, decide_eq_true_eq]
  show 0 < errors rs ↔ _
  unfold errors
  rw [List.countP_pos_iff]
  constructor
  · rintro ⟨r, hr, hx⟩
    cases r with
    | error m => exact ⟨m, hr⟩
    | _ => simp at hx
  · rintro ⟨m, hm⟩; exact ⟨_, hm, rfl⟩

/-- Once an error is reported the log keeps reporting errors. -/
theorem errors_stick (limit : Nat) (rs more : List (Req M)) (h : (rs ++ more).length < 2 ^ 64)
    (he : hasErrors (run (newLog limit) rs) = true) : hasErrors (run (newLog limit) (rs ++ more)) = true := by
  have h1 := (errors_counted_partial limit rs (by simp at h; omega)).2.2.1
  have h2 := (errors_counted_partial limit (rs ++ more) h).2.2.1
  rw [h2]
  obtain ⟨m, hm⟩ := h1.mp he
  exact ⟨m, by simp [hm]⟩

/-- **C50 fails** for the printing: with a limit of `n` errors at most `n - 1` are printed, and with a limit of one (or
zero) none is, although compilation fails. -/
theorem limit_off_by_one (limit : Nat) (rs : List (Req M)) (h : rs.length < 2 ^ 64) :
    (run (newLog limit) rs).out.countP (fun d => d.kind = .error) = min (limit - 1) (errors rs) := by
  rw [(errors_counted_partial limit rs h).2.2.2, upTo_errors, meant_errors]

example : (run (newLog 10) [.error "a", .warningWithId 0 "off", .warningWithId 1 "b", .note "c"]).out
      = [⟨.error, "a"⟩, ⟨.warning, "b"⟩, ⟨.note, "c"⟩] ∧
    (run (newLog 1) [.warning "w", .error "a", .note "c", .error "b"]).out = [⟨.warning, "w"⟩] ∧
    hasErrors (run (newLog 1) [.warning "w", .error "a", .note "c", .error "b"]) = true := by decide

end Verif.Log
