import Verif.Lang.Unions.Sim
/-! # C188–C190: unions -/
namespace Verif.Unions

/-! ## C188: a union holds what was stored in it -/

theorem mem_foldl (t : Ty) : ∀ (ts ms : List Ty), t ∈ ts.foldl addMember ms ↔ t ∈ ms ∨ t ∈ ts
  | [], ms => by simp
  | a :: ts, ms => by
    rw [List.foldl_cons, mem_foldl t ts]
    unfold addMember
    split
    · rename_i h
      constructor
      · rintro (h1 | h1)
        · exact .inl h1
        · exact .inr (List.mem_cons_of_mem _ h1)
      · rintro (h1 | h1)
        · exact .inl h1
        · rcases List.mem_cons.1 h1 with rfl | h2
          · exact .inl h
          · exact .inr h2
    · simp [or_assoc]

theorem index_exists (ts : List Ty) (t : Ty) (h : ⟨t.base, false⟩ ∈ ts) : ∃ i, indexOf (unionOf ts) t = some i := by
  rw [← Option.isSome_iff_exists, indexOf, List.findIdx?_isSome, List.any_eq_true]
  exact ⟨_, (mem_foldl _ ts []).2 (.inr h), by simp⟩

/-- The expressions `u is T` and `u as T` behind `u = v`. -/
def storeThen (u : Nat) (t : Ty) (v : Int) (e : E Ty) : Block Ty := .cons (.store u t (.lit v)) (.cons (.emit e) .nil)

/-- **C188.** A union of any types gives back what was stored: `is` says which of the types it is, `as` gives the value at this type and stops
the program at every other. -/
theorem union_holds_what_is_stored (ts : List Ty) (t t' : Ty) (ht : ⟨t.base, false⟩ ∈ ts) (ht' : ⟨t'.base, false⟩ ∈ ts) (u : Nat) (v : Int)
    (op : Nat → Int → Int → Int) (P : Prims) (n : Nat) (s : St) :
    ∃ i b c, (storeThen u t v (.is (.var u) t')).lower (unionOf ts) = some b ∧ (storeThen u t v (.as (.var u) t')).lower (unionOf ts) = some c ∧
      b.run op (target (unionOf ts) P) n s = .ok { s with uni := upd s.uni u (i, v), out := s.out ++ [if t.base = t'.base then 1 else 0] } ∧
      c.run op (target (unionOf ts) P) n s =
        if t.base = t'.base then .ok { s with uni := upd s.uni u (i, v), out := s.out ++ [v] } else .abort := by
  obtain ⟨i, hi⟩ := index_exists ts t ht
  obtain ⟨j, hj⟩ := index_exists ts t' ht'
  have hij : (i = j) ↔ t.base = t'.base :=
    ⟨fun e => index_inj _ t t' i hi (e ▸ hj), fun e => by rw [index_base _ t t' e, hj] at hi; simpa using hi.symm⟩
  refine ⟨i, _, _, by simp only [storeThen, Block.lower, Stmt.lower, E.lower, hi, hj, Option.bind_some, E.asserts]; rfl,
    by simp only [storeThen, Block.lower, Stmt.lower, E.lower, hi, hj, Option.bind_some, E.asserts]; rfl, ?_, ?_⟩
  · simp only [Block.append, Block.run, Stmt.run, E.eval, UE.eval, R.bind, upd, if_true, target]
    by_cases h : t.base = t'.base
    · simp [b2i, h, hij.2 h]
    · simp [b2i, h, hij]
  · simp only [Block.append, Block.run, Stmt.run, E.eval, UE.eval, R.bind, upd, if_true, target]
    by_cases h : t.base = t'.base
    · simp [h, hij.2 h, upd]
    · simp [h, hij]

example : indexOf (unionOf [⟨3, false⟩, ⟨5, false⟩, ⟨3, false⟩, ⟨4, false⟩]) ⟨4, true⟩ = some 2 := by decide

/-! ## C189: `as` is checked where it stands -/

/-- **C189 (partial).** The C that is written for a program does what the program says: the same output, and it stops where the program
stops. Missing (see `Stmt.safe`): `as` behind `&&` and `||`, in the condition of an `else if`, in an expression that changes something, or in the
body of a case without braces and variable; cases of several types; and `match` on an element whose index changes something. -/
theorem union_program_partial (ms : List Ty) (op : Nat → Int → Int → Int) (P : Prims) (hP : P.Ok ms) (b : Block Ty) (b' : Block Nat)
    (h : b.safe = true) (hl : b.lower ms = some b') (n : Nat) (s s' : St) (hr : Rel ms s s') :
    RelR (fun t t' => t.out = t'.out ∧ t.num = t'.num ∧ ∀ u, RelV ms (t.uni u) (t'.uni u)) (b.run op (source P) n s) (b'.run op (target ms P) n s') := by
  have := block_sim op hP n b b' h hl s s' hr
  generalize b.run op (source P) n s = r at this ⊢
  generalize b'.run op (target ms P) n s' = r' at this ⊢
  cases this with
  | ok h => exact .ok ⟨h.out, h.num, h.uni⟩
  | abort => exact .abort
  | more => exact .more

/-- `while (x < 2) { match (u) { case T3 as y { emit y + 1; u = x as T5; x++ } else => emit (u as T5) } x++ }` is such a program. -/
example : (Block.cons (Stmt.loop .nil (.bin 0 (.var 0) (.lit 2)) (.cons (.mat (.var 0)
    (.cons [(⟨3, false⟩ : Ty)] (some 1) (.block (.cons (.emit (.bin 1 (.var 1) (.lit 1))) (.cons (.store 0 ⟨5, false⟩ (.next 0)) .nil)))
      (.cons [] none (.one (.emit (.as (.var 0) ⟨5, false⟩))) .nil))) (.cons (.emit (.next 0)) .nil))) .nil).safe = true := by decide

variable (ms : List Ty) (op : Nat → Int → Int → Int) (P : Prims)

theorem aborts (u : Nat) (i : Nat) (b : Block Nat) (n : Nat) (s : St) (h : (s.uni u).1 ≠ i) :
    (Block.cons (.check (.var u) i) b).run op (target ms P) n s = .abort := by
  simp [Block.run, Stmt.run, UE.eval, target, h, R.bind]

/-- What is held when the states are related. -/
theorem held_ne {s s' : St} (hr : Rel ms s s') (u : Nat) (t : Ty) (i : Nat) (hi : indexOf ms t = some i) (hh : (s.uni u).1 ≠ t.base) :
    (s'.uni u).1 ≠ i := by
  intro e
  have := (hr.uni u).1
  rw [e] at this
  exact hh (index_inj ms _ t _ this hi)

/-- **C189 (negated).** `if (u is T && u as T op k) { .. }` does nothing when `u` holds something else; the program that is written stops, for
every such `u`. -/
theorem guard_does_not_protect (u : Nat) (t : Ty) (i : Nat) (hi : indexOf ms t = some i) (o : Nat) (k : Int) (b : Block Ty) (b' : Block Nat)
    (hb : b.lower ms = some b') (n : Nat) (s s' : St) (hr : Rel ms s s') (hh : (s.uni u).1 ≠ t.base) :
    let p : Block Ty := .cons (.ite (.and (.is (.var u) t) (.bin o (.as (.var u) t) (.lit k))) b .none) .nil
    p.run op (source P) n s = .ok s ∧ ∃ p', p.lower ms = some p' ∧ p'.run op (target ms P) n s' = .abort := by
  refine ⟨?_, _, by simp only [Block.lower, Stmt.lower, E.lower, Else.lower, hi, hb, Option.bind_some, E.asserts, Block.append]; rfl, ?_⟩
  · simp [Block.run, Stmt.run, E.eval, UE.eval, R.bind, source, hh, b2i, Else.run]
  · exact aborts ms op P u i _ n s' (held_ne ms hr u t i hi hh)

/-- **C189 (negated).** `if (u is T2) { .. } else if (u as T op k) { .. }` stops the program when `u` holds a `T2`. -/
theorem else_if_checked_too_early (u : Nat) (t t2 : Ty) (i j : Nat) (hi : indexOf ms t = some i) (hj : indexOf ms t2 = some j) (o : Nat) (k : Int)
    (b b2 : Block Ty) (b' b2' : Block Nat) (hb : b.lower ms = some b') (hb2 : b2.lower ms = some b2') (hne : t.base ≠ t2.base) (n : Nat)
    (s s' : St) (hr : Rel ms s s') (hh : (s.uni u).1 = t2.base) :
    let p : Block Ty := .cons (.ite (.is (.var u) t2) b (.elif (.bin o (.as (.var u) t) (.lit k)) b2 .none)) .nil
    p.run op (source P) n s = (b.run op (source P) n s).bind (fun s => .ok s) ∧
      ∃ p', p.lower ms = some p' ∧ p'.run op (target ms P) n s' = .abort := by
  refine ⟨?_, _, by simp only [Block.lower, Stmt.lower, E.lower, Else.lower, hi, hj, hb, hb2, Option.bind_some, E.asserts, Block.append]; rfl, ?_⟩
  · simp [Block.run, Stmt.run, E.eval, UE.eval, R.bind, source, hh, b2i]
  · exact aborts ms op P u i _ n s' (held_ne ms hr u t i hi (by rw [hh]; exact fun e => hne e.symm))

/-- **C189 (negated).** `match (u) { case T2 { .. } case T => emit (u as T) }` stops the program when `u` holds a `T2`. -/
theorem case_checked_too_early (u : Nat) (t t2 : Ty) (i j : Nat) (hi : indexOf ms t = some i) (hj : indexOf ms t2 = some j)
    (b : Block Ty) (b' : Block Nat) (hb : b.lower ms = some b') (hne : t.base ≠ t2.base) (n : Nat)
    (s s' : St) (hr : Rel ms s s') (hh : (s.uni u).1 = t2.base) :
    let p : Block Ty := .cons (.mat (.var u) (.cons [t2] none (.block b) (.cons [t] none (.one (.emit (.as (.var u) t))) .nil))) .nil
    p.run op (source P) n s = (b.run op (source P) n s).bind (fun s => .ok s) ∧
      ∃ p', p.lower ms = some p' ∧ p'.run op (target ms P) n s' = .abort := by
  refine ⟨?_, _, by simp only [Block.lower, Stmt.lower, E.lower, Cases.lower, Body.lower, indices, hi, hj, hb, Option.bind_some, Option.isSome_none, E.asserts, Block.append]; rfl, ?_⟩
  · simp [Block.run, Stmt.run, Cases.find, UE.eval, source, hh, Body.run]
  · exact aborts ms op P u i _ n s' (held_ne ms hr u t i hi (by rw [hh]; exact fun e => hne e.symm))

/-- **C189 (negated).** `emit (f() as T)` calls `f` twice, and uses what the second call returns; if this is of another type a member is read that
is not the one held. -/
theorem called_twice (f : Nat) (t : Ty) (i : Nat) (hi : indexOf ms t = some i) (hP : P.Ok ms) (n : Nat) (s s' : St) (hr : Rel ms s s')
    (h1 : (P.fn f s.num).1.1 = t.base) :
    let p : Block Ty := .cons (.emit (.as (.call f) t)) .nil
    let once := P.fn f s.num
    let twice := P.fn f once.2
    p.run op (source P) n s = .ok { s with num := once.2, out := s.out ++ [once.1.2] } ∧
      ∃ p', p.lower ms = some p' ∧ p'.run op (target ms P) n s' =
        if twice.1.1 = t.base then .ok { s' with num := twice.2, out := s'.out ++ [twice.1.2] } else .confused := by
  refine ⟨?_, _, by simp only [Block.lower, Stmt.lower, E.lower, hi, Option.bind_some, E.asserts, Block.append]; rfl, ?_⟩
  · simp [Block.run, Stmt.run, E.eval, UE.eval, R.bind, source, h1]
  · have hi' : indexOf ms ⟨t.base, false⟩ = some i := (index_base ms ⟨t.base, false⟩ t rfl).trans hi
    simp only [Block.run, Stmt.run, E.eval, UE.eval, R.bind, target, ← hr.num, h1, hi', Option.getD_some, decide_true, if_true]
    by_cases h2 : (P.fn f (P.fn f s.num).2).1.1 = t.base
    · simp only [h2, hi', Option.getD_some, decide_true, if_true]
    · have h3 := hP f (P.fn f s.num).2
      rw [Option.isSome_iff_exists] at h3
      obtain ⟨j, hj⟩ := h3
      have : j ≠ i := fun e => h2 (index_inj ms _ t i (e ▸ hj) hi)
      simp only [hj, Option.getD_some, decide_eq_true_eq, this, if_false, h2]

/-! ## C190: `match` runs the case of what is held -/

/-- Cases with braces, one type each and a variable or none, and `else`. -/
def casesOf : List (Ty × Option Nat × Block Ty) → Block Ty → Cases Ty
  | [], d => .cons [] none (.block d) .nil
  | (t, v, b) :: L, d => .cons [t] v (.block b) (casesOf L d)

theorem find_casesOf (w : Nat × Int) (n : Nat) (s : St) (d : Block Ty) : ∀ L : List (Ty × Option Nat × Block Ty),
    (casesOf L d).find op (source P) w n s = (L.find? (fun c => decide (w.1 = c.1.base))).map fun c =>
      c.2.2.run op (source P) n (match c.2.1 with | some x => { s with num := upd s.num x w.2 } | none => s)
  | [] => by simp [casesOf, Cases.find]
  | (t, v, b) :: L => by
    simp only [casesOf, Cases.find, List.any_cons, List.any_nil, Bool.or_false, source, List.find?_cons]
    by_cases h : w.1 = t.base
    · simp [h, Body.run]
      rfl
    · simp only [h, decide_false, Bool.false_eq_true, if_false]
      exact find_casesOf w n s d L

theorem other_casesOf (n : Nat) (s : St) (d : Block Ty) : ∀ L : List (Ty × Option Nat × Block Ty),
    (casesOf L d).other op (source P) n s = d.run op (source P) n s
  | [] => by simp [casesOf, Cases.other, Body.run]
  | (t, v, b) :: L => by simp only [casesOf, Cases.other]; exact other_casesOf n s d L

theorem safe_casesOf (d : Block Ty) (hd : d.safe = true) : ∀ L : List (Ty × Option Nat × Block Ty), (∀ c ∈ L, c.2.2.safe = true) → (casesOf L d).safe = true
  | [], _ => by simp [casesOf, Cases.safe, Body.safe, hd]
  | (t, v, b) :: L, h => by
    simp only [casesOf, Cases.safe, Body.safe, Bool.and_eq_true]
    exact ⟨h _ (List.mem_cons_self ..), safe_casesOf d hd L fun c hc => h c (List.mem_cons_of_mem _ hc)⟩

/-- **C190 (partial).** `match` runs the body of the case whose type is held, with the variable set to the value that is held, and `else` if there
is none. Missing: cases of several types, elements whose index changes something, and bodies without braces (see C189). -/
theorem match_runs_held_partial (hP : P.Ok ms) (u : UE) (hu : u.pure = true) (L : List (Ty × Option Nat × Block Ty)) (d : Block Ty)
    (hL : ∀ c ∈ L, c.2.2.safe = true) (hd : d.safe = true) (b' : Block Nat) (hl : (Block.cons (.mat u (casesOf L d)) .nil).lower ms = some b')
    (n : Nat) (s s' : St) (hr : Rel ms s s') (w : Nat × Int) (hw : w = (u.eval (source P) s).1) :
    RelR (Rel ms)
      (match L.find? (fun c => decide (w.1 = c.1.base)) with
        | some (_, some x, b) => b.run op (source P) n { s with num := upd s.num x w.2 }
        | some (_, none, b) => b.run op (source P) n s
        | none => d.run op (source P) n s)
      (b'.run op (target ms P) n s') := by
  have := block_sim op hP n _ b' (by simp [Block.safe, Stmt.safe, hu, safe_casesOf d hd L hL]) hl s s' hr
  simp only [Block.run, Stmt.run, find_casesOf, other_casesOf, u.pure_eval _ hu, ← hw] at this
  have e : ∀ r : R St, (r.bind fun s => R.ok s) = r := fun r => by cases r <;> rfl
  rw [e] at this
  cases h : L.find? (fun c => decide (w.1 = c.1.base)) with
  | none => rw [h] at this; exact this
  | some c =>
    rw [h] at this
    obtain ⟨t, v, b⟩ := c
    cases v with
    | none => exact this
    | some x => exact this

/-- `match (u) { case T3 as x { emit x } case T5 { emit 7 } else {} }` -/
example : (Block.cons (.mat (.var 0) (casesOf [(⟨3, false⟩, some 1, .cons (.emit (.var 1)) .nil), (⟨5, false⟩, none, .cons (.emit (.lit 7)) .nil)] .nil)) .nil).lower
    [⟨5, false⟩, ⟨3, false⟩, ⟨8, false⟩] =
    some (.cons (.mat (.var 0) (.cons [1] none (.block (.cons (.set 1 (.as (.var 0) 1)) (.cons (.emit (.var 1)) .nil)))
      (.cons [0] none (.block (.cons (.emit (.lit 7)) .nil)) (.cons [] none (.block .nil) .nil)))) .nil) := by rfl

/-- **C190 (negated).** `case T, T2 { .. }` does nothing when a `T` is held. -/
theorem first_of_several_does_nothing (u : Nat) (t t2 : Ty) (i j : Nat) (hi : indexOf ms t = some i) (hj : indexOf ms t2 = some j)
    (b : Block Ty) (b' : Block Nat) (hb : b.lower ms = some b') (n : Nat) (s s' : St) (hr : Rel ms s s') (hh : (s.uni u).1 = t.base) :
    let p : Block Ty := .cons (.mat (.var u) (.cons [t, t2] none (.block b) .nil)) .nil
    p.run op (source P) n s = (b.run op (source P) n s).bind (fun s => .ok s) ∧
      ∃ p', p.lower ms = some p' ∧ p'.run op (target ms P) n s' = .ok s' := by
  refine ⟨?_, _, by simp only [Block.lower, Stmt.lower, Cases.lower, Body.lower, indices, hi, hj, hb, Option.bind_some, Block.append]; rfl, ?_⟩
  · simp [Block.run, Stmt.run, Cases.find, UE.eval, source, hh, Body.run]
  · have h1 := (hr.uni u).1
    rw [index_base ms _ t hh, hi] at h1
    have h1 : (s'.uni u).1 = i := by simpa using h1.symm
    simp [emptyCases, Block.run, Stmt.run, Cases.find, UE.eval, target, h1, Body.run, R.bind]

/-- **C190 (negated).** Cases for `T` and `const T` are accepted; the C has two cases with one constant, which is no valid C. -/
theorem const_case_invalid (u : UE) (t : Nat) (i : Nat) (hi : indexOf ms ⟨t, false⟩ = some i) :
    let cs : Cases Ty := .cons [⟨t, false⟩] none (.block .nil) (.cons [⟨t, true⟩] none (.block .nil) .nil)
    cs.accepted = true ∧ ∃ p cs', cs.lower ms u = some (p, cs') ∧ cs'.validC = false := by
  have hj : indexOf ms ⟨t, true⟩ = some i := (index_base ms ⟨t, true⟩ ⟨t, false⟩ rfl).trans hi
  refine ⟨by simp [Cases.accepted, Cases.labels], .nil, .cons [i] none (.block .nil) (.cons [i] none (.block .nil) .nil), ?_, ?_⟩
  · simp only [Cases.lower, Body.lower, Block.lower, indices, hi, hj, Option.bind_some, Block.append]
    rfl
  · simp [Cases.validC, Cases.labels]

/-- **C190 (negated).** `match (a.[x++]) { case T as y { emit y } else {} }` takes the type of one element and the value of the next. -/
theorem index_evaluated_twice (a x y : Nat) (t : Ty) (i : Nat) (hi : indexOf ms t = some i) (n : Nat) (s s' : St) (hr : Rel ms s s') (hxy : x ≠ y)
    (h1 : (s.arr a (s.num x)).1 = t.base) :
    let p : Block Ty := .cons (.mat (.at a (.next x)) (.cons [t] (some y) (.block (.cons (.emit (.var y)) .nil)) (.cons [] none (.block .nil) .nil))) .nil
    let k := s.num x
    (∃ z, p.run op (source P) n s = .ok z ∧ z.out = s.out ++ [(s.arr a k).2] ∧ z.num x = k + 1) ∧
      ∃ p', p.lower ms = some p' ∧
        if (s.arr a (k + 1)).1 = t.base then ∃ z, p'.run op (target ms P) n s' = .ok z ∧ z.out = s.out ++ [(s.arr a (k + 1)).2] ∧ z.num x = k + 2
        else p'.run op (target ms P) n s' = .confused := by
  refine ⟨?_, _, by simp only [Block.lower, Stmt.lower, E.lower, Cases.lower, Body.lower, indices, hi, Option.bind_some, E.asserts, Block.append]; rfl, ?_⟩
  · refine ⟨_, by simp [Block.run, Stmt.run, Cases.find, UE.eval, Idx.eval, source, h1, Body.run, E.eval, R.bind]; rfl, ?_, ?_⟩
    · simp [upd]
    · simp [upd, hxy]
  · have h0 := (hr.arr a (s.num x)).1
    rw [index_base ms _ t h1, hi, hr.num] at h0
    have h0 : (s'.arr a (s'.num x)).1 = i := by simpa using h0.symm
    have h2 := hr.arr a (s.num x + 1)
    rw [hr.num] at h2
    by_cases hs : (s.arr a (s.num x + 1)).1 = t.base
    · rw [if_pos hs]
      rw [hr.num] at hs
      have h3 := h2.1
      rw [index_base ms _ t hs, hi] at h3
      have h3 : (s'.arr a (s'.num x + 1)).1 = i := by simpa using h3.symm
      refine ⟨_, by
        simp [emptyCases, Block.run, Stmt.run, Cases.find, UE.eval, Idx.eval, target, h0, Body.run, E.eval, R.bind, upd, h3]
        rfl, ?_, ?_⟩
      · simp [hr.out, hr.num, h2.2]
      · simp [upd, hxy, hr.num]; omega
    · rw [if_neg hs]
      rw [hr.num] at hs
      have h3 : (s'.arr a (s'.num x + 1)).1 ≠ i := fun e => hs (index_inj ms _ t i (e ▸ h2.1) hi)
      simp [emptyCases, Block.run, Stmt.run, Cases.find, UE.eval, Idx.eval, target, h0, Body.run, E.eval, R.bind, upd, h3]

end Verif.Unions
