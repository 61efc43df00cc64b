import Verif.Lang.Spread.Model
/-!
# Arguments with `...`: properties
-/
namespace Verif.Spread

variable {V : Type}

/-! ## Specification: from left to right, each once -/

def evalAll (w : World V) : List Nat → List Nat → List V
  | [], _ => []
  | e :: es, h => w.val h e :: evalAll w es (h ++ [e])

/-- What the function should be called with. -/
def spec (w : World V) : List Arg → List Nat → List V
  | [], _ => []
  | .plain es :: as, h => evalAll w es h ++ spec w as (h ++ es)
  | .var x n :: as, h => (List.range n).map (w.mem (w.rd h x)) ++ spec w as h
  | .expr e n :: as, h => (List.range n).map (w.mem (w.val h e)) ++ spec w as (h ++ [e])

/-- What should be evaluated, in order. -/
def order : List Arg → List Nat
  | [] => []
  | .plain es :: as => es ++ order as
  | .var _ _ :: as => order as
  | .expr e _ :: as => e :: order as

/-- It is evaluated before the statement. -/
def Arg.early : Arg → Prop
  | .expr _ n => n ≠ 0
  | _ => False

/-- It is evaluated in its place. -/
def Arg.late : Arg → Prop
  | .plain es => es ≠ []
  | _ => False

/-- It has no members. -/
def Arg.empty : Arg → Prop
  | .expr _ n => n = 0
  | _ => False

/-! ## Lemmas -/

theorem args_append (w : World V) (ts : List V) : ∀ (as bs : List CArg) (h : List Nat),
    runArgs w ts (as ++ bs) h =
    ((runArgs w ts as h).1 ++ (runArgs w ts bs (runArgs w ts as h).2).1, (runArgs w ts bs (runArgs w ts as h).2).2)
  | [], _, _ => rfl
  | .plain e :: as, bs, h => by simp [runArgs, args_append w ts as bs]
  | .ofVar x i :: as, bs, h => by simp [runArgs, args_append w ts as bs]
  | .ofTmp t i :: as, bs, h => by simp [runArgs, args_append w ts as bs]

theorem args_plain (w : World V) (ts : List V) : ∀ (es : List Nat) (h : List Nat),
    runArgs w ts (es.map .plain) h = (evalAll w es h, h ++ es)
  | [], h => by simp [runArgs, evalAll]
  | e :: es, h => by simp [runArgs, evalAll, args_plain w ts es]

theorem args_var (w : World V) (ts : List V) (x : Nat) : ∀ (is : List Nat) (h : List Nat),
    runArgs w ts (is.map (.ofVar x)) h = (is.map (w.mem (w.rd h x)), h)
  | [], h => rfl
  | i :: is, h => by simp [runArgs, args_var w ts x is]

theorem args_tmp (w : World V) (ts : List V) (t : Nat) (v : V) (ht : ts[t]? = some v) : ∀ (is : List Nat) (h : List Nat),
    runArgs w ts (is.map (.ofTmp t)) h = (is.map (w.mem v), h)
  | [], h => rfl
  | i :: is, h => by simp [runArgs, args_tmp w ts t v ht is, ht]

theorem tmps_hist (w : World V) : ∀ (es h : List Nat), (runTmps w es h).2 = h ++ es
  | [], h => by simp [runTmps]
  | e :: es, h => by simp [runTmps, tmps_hist w es]

/-- The elements that stay in place. -/
def inPlace : List Arg → List Nat
  | [] => []
  | .plain es :: as => es ++ inPlace as
  | _ :: as => inPlace as

theorem args_hist (w : World V) : ∀ (as : List Arg) (k : Nat) (ts : List V) (h : List Nat),
    (runArgs w ts (compile as k).2 h).2 = h ++ inPlace as
  | [], k, ts, h => by simp [compile, runArgs, inPlace]
  | .plain es :: as, k, ts, h => by
    simp only [compile, args_append, args_plain, inPlace]
    rw [args_hist w as k ts]; simp
  | .var x n :: as, k, ts, h => by
    simp only [compile, args_append, args_var, inPlace]
    rw [args_hist w as k ts]
  | .expr e n :: as, k, ts, h => by
    simp only [compile, inPlace]
    split
    · exact args_hist w as k ts h
    · simp only [args_append]
      have : ∀ (is : List Nat) (h : List Nat), (runArgs w ts (is.map (.ofTmp k)) h).2 = h := by
        intro is
        induction is with
        | nil => intro h; rfl
        | cons i is ih => intro h; simp [runArgs, ih]
      rw [this, args_hist w as (k + 1) ts]

/-- What is evaluated: first the new variables, then what stays in place. -/
theorem exec_hist (w : World V) (as : List Arg) (h : List Nat) : (exec w as h).2 = h ++ (compile as 0).1 ++ inPlace as := by
  unfold exec
  simp only [args_hist, tmps_hist]

theorem tmps_shift : ∀ (as : List Arg) (k j : Nat), (compile as k).1 = (compile as j).1
  | [], _, _ => rfl
  | .plain es :: as, k, j => by simp only [compile]; exact tmps_shift as k j
  | .var x n :: as, k, j => by simp only [compile]; exact tmps_shift as k j
  | .expr e n :: as, k, j => by
    simp only [compile]
    split
    · exact tmps_shift as k j
    · simp only [tmps_shift as (k + 1) (j + 1)]

theorem tmps_sub : ∀ (as : List Arg) (k : Nat), ∀ e ∈ (compile as k).1, e ∈ order as
  | [], _, e, he => by simp [compile] at he
  | .plain es :: as, k, e, he => List.mem_append.2 (.inr (tmps_sub as k e he))
  | .var x n :: as, k, e, he => tmps_sub as k e he
  | .expr e' n :: as, k, e, he => by
    simp only [compile] at he
    split at he
    · exact List.mem_cons_of_mem _ (tmps_sub as k e he)
    · rcases List.mem_cons.1 he with rfl | he
      · exact List.mem_cons_self ..
      · exact List.mem_cons_of_mem _ (tmps_sub as (k + 1) e he)

theorem tmps_nil : ∀ (as : List Arg) (k : Nat), (compile as k).1 = [] ↔ ∀ b ∈ as, ¬ b.early
  | [], _ => by simp [compile]
  | .plain es :: as, k => by simp [compile, tmps_nil as k, Arg.early]
  | .var x n :: as, k => by simp [compile, tmps_nil as k, Arg.early]
  | .expr e n :: as, k => by
    simp only [compile]
    split
    · rename_i hn; simp [tmps_nil as k, Arg.early, hn]
    · rename_i hn; simp [Arg.early, hn]

theorem length_le : ∀ (as : List Arg) (k : Nat), (compile as k).1.length + (inPlace as).length ≤ (order as).length
  | [], _ => by simp [compile, inPlace, order]
  | .plain es :: as, k => by
    have := length_le as k
    simp only [compile, inPlace, order, List.length_append]; omega
  | .var x n :: as, k => length_le as k
  | .expr e n :: as, k => by
    have h1 := length_le as k
    have h2 := length_le as (k + 1)
    simp only [compile, inPlace, order, List.length_cons]
    split
    · omega
    · simp only [List.length_cons]; omega

theorem trace_iff : ∀ (as : List Arg) (k : Nat), (order as).Nodup →
    ((compile as k).1 ++ inPlace as = order as ↔
      (∀ a ∈ as, ¬ a.empty) ∧ as.Pairwise (fun a b => a.late → ¬ b.early))
  | [], _, _ => by simp [compile, inPlace, order]
  | .plain es :: as, k, hn => by
    simp only [compile, inPlace, order] at hn ⊢
    have ih := trace_iff as k (List.nodup_append.1 hn).2.1
    simp only [List.mem_cons, forall_eq_or_imp, Arg.empty, not_false_eq_true, true_and, List.pairwise_cons, Arg.late]
    cases es with
    | nil =>
      simp only [List.nil_append, ne_eq, not_true_eq_false, false_implies, implies_true, true_and]
      exact ih
    | cons e es =>
      simp only [ne_eq, reduceCtorEq, not_false_eq_true, forall_const]
      rw [← tmps_nil as k]
      cases ht : (compile as k).1 with
      | nil =>
        rw [ht] at ih
        simp only [List.nil_append] at ih
        simp only [List.nil_append, List.append_cancel_left_eq, true_and]
        exact ih
      | cons t ts =>
        simp only [List.cons_append, List.cons.injEq, reduceCtorEq, false_and, and_false, iff_false, not_and]
        intro e1
        have := tmps_sub as k t (by rw [ht]; exact List.mem_cons_self ..)
        exact absurd rfl ((List.nodup_append.1 hn).2.2 e (List.mem_cons_self ..) e (e1 ▸ this))
  | .var x n :: as, k, hn => by
    simp only [compile, inPlace, order] at hn ⊢
    simp only [List.mem_cons, forall_eq_or_imp, Arg.empty, not_false_eq_true, true_and, List.pairwise_cons, Arg.late,
      false_implies, implies_true]
    exact trace_iff as k hn
  | .expr e n :: as, k, hn => by
    simp only [compile, inPlace, order] at hn ⊢
    simp only [List.mem_cons, forall_eq_or_imp, Arg.empty, List.pairwise_cons, Arg.late, false_implies, implies_true, true_and]
    split
    · rename_i h0
      have := length_le as k
      constructor
      · intro h
        have := congrArg List.length h
        simp only [List.length_append, List.length_cons] at this
        omega
      · intro h; exact absurd h0 h.1.1
    · rename_i h0
      simp only [List.cons_append, List.cons.injEq, true_and, h0, not_false_eq_true]
      exact trace_iff as (k + 1) (List.nodup_cons.1 hn).2

/-! ## Theorems -/

/-- **What is evaluated is right exactly if nothing moves and nothing is dropped**: each expression is evaluated once, from left to right,
if and only if no spread expression has no members, and none that needs a new variable stands behind an argument evaluated in place. -/
theorem order_iff (w : World V) (as : List Arg) (h : List Nat) (hn : (order as).Nodup) :
    (exec w as h).2 = h ++ order as ↔ (∀ a ∈ as, ¬ a.empty) ∧ as.Pairwise (fun a b => a.late → ¬ b.early) := by
  rw [exec_hist, List.append_assoc, List.append_cancel_left_eq]
  exact trace_iff as 0 hn

theorem mem_inPlace : ∀ (as : List Arg) (e : Nat), e ∈ inPlace as → e ∈ order as
  | [], _, h => by simp [inPlace] at h
  | .plain es :: as, e, h => by
    rcases List.mem_append.1 h with h | h
    · exact List.mem_append.2 (.inl h)
    · exact List.mem_append.2 (.inr (mem_inPlace as e h))
  | .var _ _ :: as, e, h => mem_inPlace as e h
  | .expr _ _ :: as, e, h => List.mem_cons_of_mem _ (mem_inPlace as e h)

/-- **A spread expression without members is never evaluated**: a call of a function that returns nothing, or an empty tuple, does not
happen. -/
theorem empty_dropped (w : World V) (pre post : List Arg) (e : Nat) (hn : (order (pre ++ .expr e 0 :: post)).Nodup) :
    e ∉ (exec w (pre ++ .expr e 0 :: post) []).2 := by
  rw [exec_hist]
  have happ : ∀ (pre post : List Arg), order (pre ++ post) = order pre ++ order post := by
    intro pre post
    induction pre with
    | nil => rfl
    | cons a pre ih => cases a <;> simp [order, ih]
  have hc : ∀ (pre : List Arg) (k : Nat), (compile (pre ++ .expr e 0 :: post) k).1 = (compile (pre ++ post) k).1 := by
    intro pre
    induction pre with
    | nil => intro k; simp [compile]
    | cons a pre ih =>
      intro k
      cases a with
      | plain es => simp [compile, ih]
      | var x n => simp [compile, ih]
      | expr e' n => simp only [List.cons_append, compile]; split <;> simp [ih]
  have hi : ∀ (pre : List Arg), inPlace (pre ++ .expr e 0 :: post) = inPlace (pre ++ post) := by
    intro pre
    induction pre with
    | nil => simp [inPlace]
    | cons a pre ih => cases a <;> simp [inPlace, ih]
  rw [happ] at hn
  have hnot : e ∉ order (pre ++ post) := by
    rw [happ]
    simp only [order] at hn
    have h1 := List.nodup_append.1 hn
    intro hm
    rcases List.mem_append.1 hm with hm | hm
    · exact h1.2.2 e hm e (List.mem_cons_self ..) rfl
    · exact (List.nodup_cons.1 h1.2.1).1 hm
  rw [hc, hi]
  intro hm
  simp only [List.nil_append] at hm
  rcases List.mem_append.1 hm with hm | hm
  · exact hnot (tmps_sub _ _ e hm)
  · exact hnot (mem_inPlace _ e hm)

/-- **A spread expression is evaluated before the arguments in front of it.** -/
theorem moved_first (w : World V) (es : List Nat) (e n : Nat) :
    (exec w [.plain es, .expr e (n + 1)] []).2 = e :: es := by
  rw [exec_hist]
  simp [compile, inPlace]

theorem pure_inv (w : World V) (hv : ∀ h e, w.val h e = w.val [] e) (hr : ∀ h x, w.rd h x = w.rd [] x) :
    ∀ (as : List Arg) (pre : List V) (h h' : List Nat),
    (runArgs w (pre ++ (compile as pre.length).1.map (w.val [])) (compile as pre.length).2 h).1 = spec w as h'
  | [], pre, h, h' => rfl
  | .plain es :: as, pre, h, h' => by
    simp only [compile, args_append, args_plain, spec]
    have : ∀ (es h h' : List Nat), evalAll w es h = evalAll w es h' := by
      intro es
      induction es with
      | nil => intros; rfl
      | cons e es ih => intro h h'; simp only [evalAll]; rw [hv h, hv h', ih _ (h' ++ [e])]
    rw [this es h h', pure_inv w hv hr as pre _ (h' ++ es)]
  | .var x n :: as, pre, h, h' => by
    simp only [compile, args_append, args_var, spec]
    rw [hr h, hr h', pure_inv w hv hr as pre _ h']
  | .expr e n :: as, pre, h, h' => by
    simp only [compile, spec]
    split
    · rename_i h0
      subst h0
      simpa using pure_inv w hv hr as pre h (h' ++ [e])
    · have ih := fun h => pure_inv w hv hr as (pre ++ [w.val [] e]) h (h' ++ [e])
      simp only [List.length_append, List.length_cons, List.length_nil, Nat.zero_add, List.append_assoc, List.cons_append,
        List.nil_append] at ih
      simp only [args_append, List.map_cons]
      rw [args_tmp w _ pre.length (w.val [] e) (by simp), ih, hv h']

/-- **The function gets the right arguments if the order does not matter**: the members of each tuple at its place, in order, none left
out, for any list of arguments. -/
theorem values_right_partial (w : World V) (hv : ∀ h e, w.val h e = w.val [] e) (hr : ∀ h x, w.rd h x = w.rd [] x) (as : List Arg)
    (h : List Nat) : (exec w as h).1 = spec w as h := by
  have ht : ∀ (es h : List Nat), (runTmps w es h).1 = es.map (w.val []) := by
    intro es
    induction es with
    | nil => intro h; rfl
    | cons e es ih => intro h; simp only [runTmps, List.map_cons, ih]; rw [hv]
  have := pure_inv w hv hr as [] (runTmps w (compile as 0).1 h).2 h
  unfold exec
  simp only [ht]
  simpa using this

theorem front_inv (w : World V) : ∀ (as : List Arg) (pre : List V) (h : List Nat), (∀ a ∈ as, ¬ a.empty) →
    as.Pairwise (fun a b => b.early → a.early) →
    runArgs w (pre ++ (runTmps w (compile as pre.length).1 h).1) (compile as pre.length).2 (runTmps w (compile as pre.length).1 h).2 =
      (spec w as h, h ++ order as)
  | [], pre, h, _, _ => by simp [compile, runTmps, runArgs, spec, order]
  | .plain es :: as, pre, h, he, hp => by
    obtain ⟨h1, h2⟩ := List.pairwise_cons.1 hp
    have ht : (compile as pre.length).1 = [] := (tmps_nil as _).2 (fun b hb hx => (h1 b hb hx).elim)
    have ih := front_inv w as pre (h ++ es) (fun a ha => he a (List.mem_cons_of_mem _ ha)) h2
    simp only [compile, ht, runTmps, args_append, args_plain, spec, order] at ih ⊢
    rw [ih]; simp
  | .var x n :: as, pre, h, he, hp => by
    obtain ⟨h1, h2⟩ := List.pairwise_cons.1 hp
    have ht : (compile as pre.length).1 = [] := (tmps_nil as _).2 (fun b hb hx => (h1 b hb hx).elim)
    have ih := front_inv w as pre h (fun a ha => he a (List.mem_cons_of_mem _ ha)) h2
    simp only [compile, ht, runTmps, args_append, args_var, spec, order] at ih ⊢
    rw [ih]
  | .expr e n :: as, pre, h, he, hp => by
    have h0 : ¬ n = 0 := fun x => he _ (List.mem_cons_self ..) x
    have ih := front_inv w as (pre ++ [w.val h e]) (h ++ [e]) (fun a ha => he a (List.mem_cons_of_mem _ ha)) (List.pairwise_cons.1 hp).2
    simp only [List.length_append, List.length_cons, List.length_nil, Nat.zero_add, List.append_assoc, List.cons_append,
      List.nil_append] at ih
    simp only [compile, if_neg h0, runTmps, args_append, spec, order]
    rw [args_tmp w _ pre.length (w.val h e) (by simp), ih]

/-- **Everything is right if spread expressions come first**: then the arguments and what is evaluated are as they should be, whatever the
expressions do to each other. -/
theorem spread_first_partial (w : World V) (as : List Arg) (h : List Nat) (he : ∀ a ∈ as, ¬ a.empty)
    (hp : as.Pairwise (fun a b => b.early → a.early)) : exec w as h = (spec w as h, h ++ order as) := by
  have := front_inv w as [] h he hp
  simpa [exec] using this

/-! ## Cases -/

/-- The value of an expression is its number and how many were evaluated before. -/
def count : World (Nat × Nat) := ⟨fun h e => (e, h.length), fun h x => (x, h.length), fun v i => (10 * v.1 + i, v.2)⟩

/-- `f(...g(), a(), ...x)` -/
example : exec count [.expr 7 2, .plain [1], .var 3 2] [] = ([(70, 0), (71, 0), (1, 1), (30, 2), (31, 2)], [7, 1]) := by decide
example : exec count [.expr 7 2, .plain [1], .var 3 2] [] = (spec count [.expr 7 2, .plain [1], .var 3 2] [], [7, 1]) :=
  spread_first_partial count _ [] (by simp [Arg.empty]) (by simp [Arg.early])
/-- `f(a(), ...g())` evaluates `g` first. -/
example : (exec count [.plain [1], .expr 7 2] []).2 = [7, 1] ∧ order [.plain [1], .expr 7 2] = [1, 7] := ⟨moved_first _ _ _ _, rfl⟩
/-- `f(a(), ...nothing(), b())` -/
example : (exec count [.plain [1], .expr 7 0, .plain [2]] []).2 = [1, 2] := by decide
/-- The values are right when they do not depend on the order. -/
example : (exec (⟨fun _ e => e, fun _ x => x, fun v i => 10 * v + i⟩ : World Nat) [.plain [1, 2], .var 3 1, .expr 7 2] []).1 =
    [1, 2, 30, 70, 71] := values_right_partial _ (fun _ _ => rfl) (fun _ _ => rfl) _ _

end Verif.Spread
