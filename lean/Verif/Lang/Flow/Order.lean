import Verif.Lang.Flow.Shapes
import Verif.Lang.Prim.Model
/-!
# The order of operands, and operands that are evaluated more than once

`src/cxy/lang/backend/llvm/binary.cpp` (`generateBinaryExpr`), `generate.cpp` (`visitAssignExpr`, `visitPrefixUnaryExpr`,
`visitUnaryExpr`) and `src/cxy/lang/middle/sema/assign.c` (`checkIndexExprAssignment`).
-/
namespace Verif.Flow

variable {Prim State : Type}

/-! ## Watching the calls -/

/-- Primitives that only write down that they were called. -/
def logSem (val : Prim → List Int → Int) : Sem Prim (List Prim) := fun p vs s => some (val p vs, s ++ [p])

mutual
/-- The calls of an expression without `&&`, `||` and `?:`. -/
def Expr.trace (lf : Mix → Bool) : Expr Prim → List Prim
  | .call p args => args.trace lf ++ [p]
  | .bin m p a b => if lf m then a.trace lf ++ b.trace lf ++ [p] else b.trace lf ++ a.trace lf ++ [p]
  | _ => []
def Args.trace (lf : Mix → Bool) : Args Prim → List Prim
  | .nil => []
  | .cons e rest => e.trace lf ++ rest.trace lf
end

mutual
theorem flat_log (lf : Mix → Bool) (val : Prim → List Int → Int) : ∀ (e : Expr Prim), e.flat = true → ∀ s,
    ∃ v, evalE lf (logSem val) e s = .ok v (s ++ e.trace lf)
  | .const v, _, s => ⟨v, by rw [evalE, Expr.trace, List.append_nil] <;> simp⟩
  | .call p args, h, s => by
    obtain ⟨vs, hv⟩ := flatA_log lf val args h s
    exact ⟨val p vs, by rw [evalE, hv, Expr.trace]; simp only [callPrim, logSem, List.append_assoc]⟩
  | .bin m p a b, h, s => by
    rw [Expr.flat, Bool.and_eq_true] at h
    rw [evalE, Expr.trace]
    split
    · obtain ⟨x, hx⟩ := flat_log lf val a h.1 s
      obtain ⟨y, hy⟩ := flat_log lf val b h.2 (s ++ a.trace lf)
      exact ⟨val p [x, y], by simp only [hx, ER.bind, hy, callPrim, logSem, List.append_assoc]⟩
    · obtain ⟨y, hy⟩ := flat_log lf val b h.2 s
      obtain ⟨x, hx⟩ := flat_log lf val a h.1 (s ++ b.trace lf)
      exact ⟨val p [x, y], by simp only [hx, ER.bind, hy, callPrim, logSem, List.append_assoc]⟩
  | .and a b, h, s => by cases h
  | .or a b, h, s => by cases h
  | .tern c a b, h, s => by cases h
theorem flatA_log (lf : Mix → Bool) (val : Prim → List Int → Int) : ∀ (es : Args Prim), es.flat = true → ∀ s,
    ∃ vs, evalA lf (logSem val) es s = .ok vs (s ++ es.trace lf)
  | .nil, _, s => ⟨[], by rw [evalA, Args.trace, List.append_nil]⟩
  | .cons e rest, h, s => by
    rw [Args.flat, Bool.and_eq_true] at h
    obtain ⟨v, hv⟩ := flat_log lf val e h.1 s
    obtain ⟨vs, hvs⟩ := flatA_log lf val rest h.2 (s ++ e.trace lf)
    exact ⟨v :: vs, by rw [evalA, hv]; simp only [hvs, Args.trace, List.append_assoc]⟩
end

/-- What the function `return e` writes down. -/
theorem return_log (val : Prim → List Int → Int) (e : Expr Prim) (h : e.flat = true) :
    ∃ P, compile (.ret (some e)) = some P ∧ ∃ n v, run (logSem val) P n (start P []) = .returned (some v) (e.trace codeOrder) := by
  obtain ⟨P, hP⟩ := plain_functions_are_accepted_partial (body := .ret (some e)) rfl
  obtain ⟨v, hv⟩ := flat_log codeOrder val e h []
  obtain ⟨n, hn⟩ := (accepted_code_is_faithful hP (logSem val) []).2.1 0 (some v) (e.trace codeOrder) (by
    rw [exec, hv]
    rfl)
  exact ⟨P, hP, n, v, hn⟩

/-! ## Binary operators -/

/-- binary.cpp 93-115, for operands of primitive types. -/
def mixOf (l r : Verif.Prim.Prim) : Mix := if l = r then .same else if Verif.Prim.bigger l r then .leftBigger else .other

/-- Which operand is evaluated first depends on the types: for operands of one type the right one is, for different types the
right one is when its type is the smaller one. The function `return l op r` calls what `r` calls before what `l` calls, exactly then. -/
theorem operand_order_depends_on_types (val : Prim → List Int → Int) (l r : Verif.Prim.Prim) (p : Prim) (a b : Expr Prim)
    (ha : a.flat = true) (hb : b.flat = true) :
    ∃ P, compile (.ret (some (.bin (mixOf l r) p a b))) = some P ∧ ∃ n v, run (logSem val) P n (start P []) = .returned (some v)
      (if l = r ∨ Verif.Prim.bigger l r = true then b.trace codeOrder ++ a.trace codeOrder ++ [p]
       else a.trace codeOrder ++ b.trace codeOrder ++ [p]) := by
  obtain ⟨P, hP, n, v, h⟩ := return_log val (.bin (mixOf l r) p a b) (by rw [Expr.flat, ha, hb]; rfl)
  refine ⟨P, hP, n, v, ?_⟩
  rw [h, Expr.trace]
  congr 1
  unfold mixOf
  by_cases h1 : l = r
  · rw [if_pos h1, if_pos (Or.inl h1)]
    rfl
  · rw [if_neg h1]
    by_cases h2 : Verif.Prim.bigger l r = true
    · rw [if_pos h2, if_pos (Or.inr h2)]
      rfl
    · have h3 : ¬(l = r ∨ Verif.Prim.bigger l r = true) := fun h => h.elim h1 h2
      rw [if_neg h2, if_neg h3]
      rfl

/-- `f() + g()` calls `g` first when both give `i32`, and `f` first when `f` gives `i8` and `g` gives `i32`. -/
theorem same_operator_both_orders (val : Prim → List Int → Int) (f g p : Prim) :
    (∃ P, compile (.ret (some (.bin (mixOf .i32 .i32) p (.call f .nil) (.call g .nil)))) = some P ∧
      ∃ n v, run (logSem val) P n (start P []) = .returned (some v) [g, f, p]) ∧
    (∃ P, compile (.ret (some (.bin (mixOf .i8 .i32) p (.call f .nil) (.call g .nil)))) = some P ∧
      ∃ n v, run (logSem val) P n (start P []) = .returned (some v) [f, g, p]) :=
  ⟨operand_order_depends_on_types val .i32 .i32 p (.call f .nil) (.call g .nil) rfl rfl,
   operand_order_depends_on_types val .i8 .i32 p (.call f .nil) (.call g .nil) rfl rfl⟩

/-! ## Assignments -/

/-- generate.cpp 463-484 `visitAssignExpr`, `target = value`: the value, then the address, then the store. Reading a variable or an
element is `load` of its address. -/
def assign (store : Prim) (addr value : Expr Prim) : Expr Prim := .call store (.cons value (.cons addr .nil))

/-- generate.cpp 450-461: `target op= value` becomes `target = target op value`, with a copy of the target. -/
def compound (m : Mix) (op load store : Prim) (addr value : Expr Prim) : Expr Prim :=
  assign store addr (.bin m op (.call load (.cons addr .nil)) value)

/-- generate.cpp 109-119 `visitPrefixUnaryExpr`: `++target` becomes `target += 1`, then the target is read. `second` gives its second
argument. -/
def preInc (op load store second : Prim) (addr : Expr Prim) : Expr Prim :=
  .call second (.cons (compound .same op load store addr (.const 1)) (.cons (.call load (.cons addr .nil)) .nil))

/-- generate.cpp 506-517 `visitUnaryExpr`: `target++` reads the target, then becomes `target += 1`. `first` gives its first argument. -/
def postInc (op load store first : Prim) (addr : Expr Prim) : Expr Prim :=
  .call first (.cons (.call load (.cons addr .nil)) (.cons (compound .same op load store addr (.const 1)) .nil))

section Count
variable [DecidableEq Prim]

/-- How often `f` is called. -/
def calls (f : Prim) (e : Expr Prim) : Nat := (e.trace codeOrder).count f

theorem compound_calls (m : Mix) {op load store f : Prim} (h1 : f ≠ op) (h2 : f ≠ load) (h3 : f ≠ store) (addr value : Expr Prim) :
    calls f (compound m op load store addr value) = 2 * calls f addr + calls f value := by
  unfold calls compound assign
  simp only [Expr.trace, Args.trace, List.append_nil]
  split <;> simp only [List.count_append, List.count_cons, List.count_nil, beq_iff_eq, h1.symm, h2.symm, h3.symm, if_false] <;> omega

/-- The calls in the target of a compound assignment happen twice when the code runs, those in the target of `++` and `--`
three times. -/
theorem target_is_evaluated_again (val : Prim → List Int → Int) (m : Mix) {op load store aux f : Prim} (h1 : f ≠ op) (h2 : f ≠ load) (h3 : f ≠ store)
    (h4 : f ≠ aux) (addr value : Expr Prim) (ha : addr.flat = true) (hv : value.flat = true) :
    (∃ P, compile (.ret (some (compound m op load store addr value))) = some P ∧ ∃ n v log,
      run (logSem val) P n (start P []) = .returned (some v) log ∧ log.count f = 2 * calls f addr + calls f value) ∧
    (∃ P, compile (.ret (some (preInc op load store aux addr))) = some P ∧ ∃ n v log,
      run (logSem val) P n (start P []) = .returned (some v) log ∧ log.count f = 3 * calls f addr) ∧
    (∃ P, compile (.ret (some (postInc op load store aux addr))) = some P ∧ ∃ n v log,
      run (logSem val) P n (start P []) = .returned (some v) log ∧ log.count f = 3 * calls f addr) := by
  have hc : ∀ (m : Mix) (value : Expr Prim), value.flat = true → (compound m op load store addr value).flat = true := by
    intro m value hv
    simp only [compound, assign, Expr.flat, Args.flat, ha, hv, Bool.and_self]
  refine ⟨?_, ?_, ?_⟩
  · obtain ⟨P, hP, n, v, h⟩ := return_log val _ (hc m value hv)
    exact ⟨P, hP, n, v, _, h, compound_calls m h1 h2 h3 addr value⟩
  · obtain ⟨P, hP, n, v, h⟩ := return_log val (preInc op load store aux addr) (by
      simp only [preInc, Expr.flat, Args.flat, hc .same (.const 1) rfl, ha, Bool.and_self])
    refine ⟨P, hP, n, v, _, h, ?_⟩
    have hk := compound_calls (op := op) (load := load) (store := store) .same h1 h2 h3 addr (.const 1)
    unfold calls at hk ⊢
    simp only [preInc, Expr.trace, Args.trace, List.append_nil, List.count_append, List.count_cons, List.count_nil, beq_iff_eq, h2.symm, h4.symm,
      if_false] at hk ⊢
    omega
  · obtain ⟨P, hP, n, v, h⟩ := return_log val (postInc op load store aux addr) (by
      simp only [postInc, Expr.flat, Args.flat, hc .same (.const 1) rfl, ha, Bool.and_self])
    refine ⟨P, hP, n, v, _, h, ?_⟩
    have hk := compound_calls (op := op) (load := load) (store := store) .same h1 h2 h3 addr (.const 1)
    unfold calls at hk ⊢
    simp only [postInc, Expr.trace, Args.trace, List.append_nil, List.count_append, List.count_cons, List.count_nil, beq_iff_eq, h2.symm, h4.symm,
      if_false] at hk ⊢
    omega

end Count

/-- What `target op= value` should do: the value, the address once, then read, compute and store there. -/
def once (sem : Sem Prim State) (op load store : Prim) (addr value : State → ER State) (s : State) : ER State :=
  (value s).bind fun y s1 => (addr s1).bind fun a s2 => (callPrim sem load [a] s2).bind fun x s3 => (callPrim sem op [x, y] s3).bind fun z s4 =>
    callPrim sem store [z, a] s4

/-- For a target that always has the same address, such as a variable, `target op= value` does what it should when the value is
evaluated first (operands of one type or a bigger target). -/
theorem compound_on_fixed_target_partial {sem : Sem Prim State} {m : Mix} (hm : m ≠ .other) (op load store : Prim) (addr value : Expr Prim)
    (ha : addr.uses (Fixed sem)) (s : State) :
    evalE codeOrder sem (compound m op load store addr value) s =
      once sem op load store (evalE codeOrder sem addr) (evalE codeOrder sem value) s := by
  obtain ⟨a, hfix⟩ := fixed_eval codeOrder addr ha
  have hl : codeOrder m = false := by cases m <;> first | rfl | exact absurd rfl hm
  simp only [compound, assign, once, evalE, evalA, hl, Bool.false_eq_true, if_false, hfix]
  cases evalE codeOrder sem value s with
  | stuck s1 => rfl
  | ok y s1 =>
    simp only [ER.bind]
    cases callPrim sem load [a] s1 with
    | stuck s2 => rfl
    | ok x s2 =>
      simp only
      cases callPrim sem op [x, y] s2 with
      | stuck s3 => rfl
      | ok z s3 => rfl

/-! ## Elements of containers -/

/-- Operators of assignments: `=` and the compound ones, as the function they stand for. -/
inductive AssignOp where
  | set
  | op (f : Int → Int → Int)

/-- An assignment `x.[key] op= value`. -/
structure IdxAssign where
  op : AssignOp
  key : Int
  value : Int

/-- The call of a member. -/
structure MemberCall where
  name : String
  args : List Int

/-- sema/assign.c 10-35 `checkIndexExprAssignment`, 37-55: on a class or struct `x.[k] op= v` becomes `x.op_idx_assign(k, v)`; the arguments are
the key and the right side, and the operator is not looked at. -/
def checkIdxAssign (a : IdxAssign) : MemberCall := ⟨"op_idx_assign", [a.key, a.value]⟩

/-- A container whose `op_idx_assign` stores an element. -/
def callMember (c : Int → Int) (m : MemberCall) : Int → Int :=
  match m.name, m.args with
  | "op_idx_assign", [k, v] => fun j => if j = k then v else c j
  | _, _ => c

/-- Assignments one after the other, as compiled. -/
def runAssigns (c : Int → Int) : List IdxAssign → Int → Int
  | [] => c
  | a :: rest => runAssigns (callMember c (checkIdxAssign a)) rest

/-- What assignments should do. -/
def expectAssigns (c : Int → Int) : List IdxAssign → Int → Int
  | [] => c
  | a :: rest => expectAssigns (fun j => if j = a.key then (match a.op with | .set => a.value | .op f => f (c j) a.value) else c j) rest

/-- Counting: after `x.[k] += v`, `n + 1` times, the element is `v` whatever it was before, and should be `n + 1` times `v` more. -/
theorem counting_in_a_container_is_lost (c : Int → Int) (k v : Int) (n : Nat) :
    runAssigns c (List.replicate (n + 1) ⟨.op (· + ·), k, v⟩) k = v ∧
    expectAssigns c (List.replicate (n + 1) ⟨.op (· + ·), k, v⟩) k = c k + (n + 1) * v := by
  constructor
  · have h : ∀ n (c : Int → Int), c k = v → runAssigns c (List.replicate n ⟨.op (· + ·), k, v⟩) k = v := by
      intro n
      induction n with
      | zero => intro c h; exact h
      | succ n ih => intro c _; rw [List.replicate_succ, runAssigns]; exact ih _ (by simp [callMember, checkIdxAssign])
    rw [List.replicate_succ, runAssigns]
    exact h n _ (by simp [callMember, checkIdxAssign])
  · have h : ∀ n (c : Int → Int), expectAssigns c (List.replicate n ⟨.op (· + ·), k, v⟩) k = c k + n * v := by
      intro n
      induction n with
      | zero => intro c; simp [expectAssigns]
      | succ n ih =>
        intro c
        rw [List.replicate_succ, expectAssigns, ih]
        simp only [if_true, Int.natCast_add, Int.natCast_one, Int.add_mul, Int.one_mul]
        omega
    have := h (n + 1) c
    simpa using this

/-- Plain assignments do what they should, in any number and order. -/
theorem element_assignment_partial (as : List IdxAssign) (h : ∀ a ∈ as, a.op = .set) (c : Int → Int) :
    runAssigns c as = expectAssigns c as := by
  induction as generalizing c with
  | nil => rfl
  | cons a rest ih =>
    rw [runAssigns, expectAssigns, h a (by simp)]
    exact ih (fun b hb => h b (List.mem_cons_of_mem _ hb)) _

/-! ## Examples -/

/-- `a[f()] += g()` calls `f` twice. -/
example : calls 1 (compound .same 0 10 11 (.call 5 (.cons (.call 1 .nil) .nil)) (.call 2 .nil)) = 2 := by decide

/-- `m.[k] += 1` on an element that is 41. -/
example : runAssigns (fun _ => 41) [⟨.op (· + ·), 7, 1⟩] 7 = 1 ∧ expectAssigns (fun _ => 41) [⟨.op (· + ·), 7, 1⟩] 7 = 42 := by decide

/-- A loop that counts down: primitive 0 reads, 1 decrements; state is the counter. -/
def countSem : Sem Nat Nat := fun p _ s => if p = 0 then some (s, s) else some (s, s - 1)

example : exec codeOrder countSem 10 (.seq (.while (.call 0 .nil) (.expr (.call 1 .nil)) none) (.ret (some (.call 0 .nil)))) 5 =
    .done (.ret (some 0)) 0 := rfl

example : ∃ P n, compile (Stmt.seq (.while (.call 0 .nil) (.expr (.call 1 .nil)) none) (.ret (some (.call 0 .nil)))) = some P ∧
    run countSem P n (start P 5) = .returned (some 0) 0 := by
  obtain ⟨P, hP⟩ := plain_functions_are_accepted_partial
    (body := Stmt.seq (.while (.call 0 .nil) (.expr (.call 1 .nil)) none) (.ret (some (.call 0 .nil)))) rfl
  obtain ⟨n, hn⟩ := (accepted_code_is_faithful hP countSem 5).2.1 10 (some 0) 0 rfl
  exact ⟨P, n, hP, hn⟩

end Verif.Flow
