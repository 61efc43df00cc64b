import Verif.Lang.Consts.Props
/-!
# C142-C144: accepted statements that change constants
-/
namespace Verif.Consts
open Verif.Assign (Ty assignable isConst unwrap)
open Verif.Prim (Prim)

theorem assignable_self (impl : Nat → Nat → Bool) (t : Ty) : assignable impl t t = true := by
  unfold Assign.assignable
  simp

theorem loc_field {env : Env} {v s f : Nat} {t : Ty} (hv : (env.var v).ty = .struct s) (hf : env.field s f = some t) :
    locTy env (v, [f]) = some t := by simp [locTy, hv, into, hf]

theorem set_at (m : Mem) (l : Loc) (x : Val) : m.set l x l = x := by simp [Mem.set]
theorem set_ne (m : Mem) {l l' : Loc} (x : Val) (h : l' ≠ l) : m.set l x l' = m l' := by simp [Mem.set, h]

/-- C142 is false: a field of a constant structure can be assigned, `s.f = n`. -/
theorem field_of_constant_assigned {env : Env} {v s f : Nat} {p : Prim} (hc : (env.var v).const = true)
    (hv : (env.var v).ty = .struct s) (hf : env.field s f = some (.prim p)) (n : Int) (m : Mem) :
    accepts env (.assign (.mem (.var v) f) (.num p n)) = true ∧
      exec env m (.assign (.mem (.var v) f) (.num p n)) = some (m.set (v, [f]) (.num n)) := by
  have hl := loc_field hv hf
  have hd : declTy (env.var v) = .const (.struct s) := by simp [declTy, hc, hv, isConst]
  constructor
  · simp [accepts, checkLeft, check, hd, stripAll, hf, isConst, isArr, assignable_self]
  · simp [exec, ev, check, hd, chase, load, store, hl]

/-- C142 is false: what a pointer to a constant points to can be assigned, `*p = n`, although `p.[0] = n` is refused. -/
theorem target_of_constant_pointer_assigned {env : Env} {w : Nat} {p : Prim} (hw : (env.var w).const = false)
    (hwt : (env.var w).ty = .ptr true (.prim p)) (n : Int) (m : Mem) (l : Loc) (hm : m (w, []) = .addr l)
    (hl : locTy env l = some (.prim p)) :
    accepts env (.assign (.deref (.var w)) (.num p n)) = true ∧
      exec env m (.assign (.deref (.var w)) (.num p n)) = some (m.set l (.num n)) ∧
      accepts env (.assign (.idx (.var w) (.num .i8 0)) (.num p n)) = false := by
  have hd : declTy (env.var w) = .ptr true (.prim p) := by simp [declTy, hw, hwt]
  have hlw : locTy env (w, []) = some (.ptr true (.prim p)) := by simp [locTy, hwt, into]
  refine ⟨?_, ?_, ?_⟩
  · simp [accepts, checkLeft, check, hd, hw, isConst, isArr, assignable_self]
  · simp [exec, ev, load, hlw, hm, store, hl]
  · simp [accepts, checkLeft, check, hd, isIndex, unwrap, Verif.Prim.isInteger, Verif.Prim.isSignedInteger]

/-- A pointer to a constant is initialised with its address, and the constant is changed through it. -/
theorem constant_changed_through_pointer {env : Env} {c w : Nat} {p : Prim} (hc : (env.var c).const = true)
    (hct : (env.var c).ty = .prim p) (hw : (env.var w).const = false) (hwt : (env.var w).ty = .ptr true (.prim p)) (n : Int)
    (m : Mem) :
    (∀ s ∈ [Stmt.init w (.ptrof (.var c)), .assign (.deref (.var w)) (.num p n)], accepts env s = true) ∧
      ∃ m', run env m [.init w (.ptrof (.var c)), .assign (.deref (.var w)) (.num p n)] = some m' ∧ m' (c, []) = .num n := by
  have hd : declTy (env.var w) = .ptr true (.prim p) := by simp [declTy, hw, hwt]
  have hdc : declTy (env.var c) = .const (.prim p) := by simp [declTy, hc, hct, isConst]
  have hlw : locTy env (w, []) = some (.ptr true (.prim p)) := by simp [locTy, hwt, into]
  have hlc : locTy env (c, []) = some (.prim p) := by simp [locTy, hct, into]
  have h2 := target_of_constant_pointer_assigned hw hwt n (m.set (w, []) (.addr (c, []))) (c, []) (set_at _ _ _) hlc
  refine ⟨?_, (m.set (w, []) (.addr (c, []))).set (c, []) (.num n), ?_, set_at _ _ _⟩
  · intro s hs
    simp at hs
    rcases hs with rfl | rfl
    · simp [accepts, check, hdc, hc, hwt, wrapped, unwrap, assignable_self]
    · exact h2.1
  · have h1 : exec env m (.init w (.ptrof (.var c))) = some (m.set (w, []) (.addr (c, []))) := by
      simp [exec, ev, load, store, hlw]
    simp only [run, h1, h2.2.1]

/-- C142 is false: so can a field of the structure that a pointer to a constant points to, `p.f = n`. -/
theorem field_through_constant_pointer_assigned {env : Env} {w s f : Nat} {p : Prim} (hw : (env.var w).const = false)
    (hwt : (env.var w).ty = .ptr true (.struct s)) (hf : env.field s f = some (.prim p)) (n : Int) (m : Mem) (c : Nat)
    (hct : (env.var c).ty = .struct s) (hm : m (w, []) = .addr (c, [])) :
    accepts env (.assign (.mem (.var w) f) (.num p n)) = true ∧
      exec env m (.assign (.mem (.var w) f) (.num p n)) = some (m.set (c, [f]) (.num n)) := by
  have hd : declTy (env.var w) = .ptr true (.struct s) := by simp [declTy, hw, hwt]
  have hl := loc_field hct hf
  constructor
  · simp [accepts, checkLeft, check, hd, stripAll, hf, isConst, isArr, assignable_self]
  · simp [exec, ev, check, hd, chase, hm, load, store, hl]

/-- C142 is false: the address of a field of a constant is accepted for a pointer to variables, `var w : ^T = ptrof s.f`. -/
theorem address_of_field_of_constant {env : Env} {v w s f : Nat} {p : Prim} (hc : (env.var v).const = true)
    (hv : (env.var v).ty = .struct s) (hf : env.field s f = some (.prim p)) (hwc : (env.var w).const = false)
    (hw : (env.var w).ty = .ptr false (.prim p)) (n : Int) (m : Mem) :
    (∀ x ∈ [Stmt.init w (.ptrof (.mem (.var v) f)), .assign (.idx (.var w) (.num .i8 0)) (.num p n)], accepts env x = true) ∧
      ∃ m', run env m [.init w (.ptrof (.mem (.var v) f)), .assign (.idx (.var w) (.num .i8 0)) (.num p n)] = some m' ∧
        m' (v, [f]) = .num n := by
  have hl := loc_field hv hf
  have hd : declTy (env.var v) = .const (.struct s) := by simp [declTy, hc, hv, isConst]
  have hdw : declTy (env.var w) = .ptr false (.prim p) := by simp [declTy, hwc, hw]
  have hlw : locTy env (w, []) = some (.ptr false (.prim p)) := by simp [locTy, hw, into]
  refine ⟨?_, (m.set (w, []) (.addr (v, [f]))).set (v, [f]) (.num n), ?_, set_at _ _ _⟩
  · intro x hx
    simp at hx
    rcases hx with rfl | rfl
    · simp [accepts, check, hd, stripAll, hf, hw, wrapped, unwrap, assignable_self]
    · simp [accepts, checkLeft, check, hdw, isIndex, unwrap, Verif.Prim.isInteger,
        Verif.Prim.isSignedInteger, wrapped, isConst, isArr, assignable_self]
  · have h1 : exec env m (.init w (.ptrof (.mem (.var v) f))) = some (m.set (w, []) (.addr (v, [f]))) := by
      simp [exec, ev, check, hd, chase, load, store, hlw]
    have h2 : exec env (m.set (w, []) (.addr (v, [f]))) (.assign (.idx (.var w) (.num .i8 0)) (.num p n)) =
        some ((m.set (w, []) (.addr (v, [f]))).set (v, [f]) (.num n)) := by
      simp [exec, ev, check, hdw, unwrap, load, hlw, set_at, shift, store, hl]
    simp only [run, h1, h2]

/-- C142 is false: an element of a constant array can be assigned if it is inside another element, `a.[i].[j] = n`, although
`a.[i] = n` is refused for plain arrays. -/
theorem element_of_constant_assigned {env : Env} {v : Nat} {p : Prim} {a b i j : Nat} (hc : (env.var v).const = true)
    (hv : (env.var v).ty = .arr (some a) (.arr (some b) (.prim p))) (hi : i < a) (hj : j < b) (n : Int) (m : Mem) :
    accepts env (.assign (.idx (.idx (.var v) (.num .i64 i)) (.num .i64 j)) (.num p n)) = true ∧
      exec env m (.assign (.idx (.idx (.var v) (.num .i64 i)) (.num .i64 j)) (.num p n)) =
        some (m.set (v, [i, j]) (.num n)) := by
  have hd : declTy (env.var v) = .const (.arr (some a) (.arr (some b) (.prim p))) := by simp [declTy, hc, hv, isConst]
  have hl0 : locTy env (v, []) = some (.arr (some a) (.arr (some b) (.prim p))) := by simp [locTy, hv, into]
  have hl1 : locTy env (v, [i]) = some (.arr (some b) (.prim p)) := by simp [locTy, hv, into, hi]
  have hl2 : locTy env (v, [i, j]) = some (.prim p) := by simp [locTy, hv, into, hi, hj]
  constructor
  · simp [accepts, checkLeft, check, hd, isIndex, unwrap, Verif.Prim.isInteger,
      Verif.Prim.isSignedInteger, wrapped, isConst, isArr, assignable_self]
  · simp [exec, ev, check, hd, isIndex, unwrap, Verif.Prim.isInteger,
      Verif.Prim.isSignedInteger, load, elem, hl0, hl1, hi, hj, store, hl2]

/-- C142 is false: `p.[0]++` is accepted for a pointer to constants. -/
theorem element_through_constant_pointer_stepped {env : Env} {w : Nat} {p : Prim} (hp : Verif.Prim.isNumeric p = true)
    (hw : (env.var w).const = false) (hwt : (env.var w).ty = .ptr true (.prim p)) (d n : Int) (m : Mem) (l : Loc)
    (hm : m (w, []) = .addr l) (hl : locTy env l = some (.prim p)) (hn : m l = .num n) :
    accepts env (.step (.idx (.var w) (.num .i8 0)) d) = true ∧
      exec env m (.step (.idx (.var w) (.num .i8 0)) d) = some (m.set l (.num (n + d))) := by
  have hd : declTy (env.var w) = .ptr true (.prim p) := by simp [declTy, hw, hwt]
  have hlw : locTy env (w, []) = some (.ptr true (.prim p)) := by simp [locTy, hwt, into]
  constructor
  · simp [accepts, check, hd, hw, isIndex, unwrap, Verif.Prim.isInteger,
      Verif.Prim.isSignedInteger, stripAll, hp]
  · simp [exec, ev, check, hd, unwrap, load, hlw, hm, shift, hn, store, hl]

/-- C142 is false: the address of what a pointer to constants points to is accepted for a pointer to variables,
`var q : ^T = ptrof p.[0]`. -/
theorem address_of_element_of_constant {env : Env} {w q : Nat} {p : Prim} (hw : (env.var w).const = false)
    (hwt : (env.var w).ty = .ptr true (.prim p)) (hq : (env.var q).ty = .ptr false (.prim p)) (m : Mem) (l : Loc)
    (hm : m (w, []) = .addr l) :
    accepts env (.init q (.ptrof (.idx (.var w) (.num .i8 0)))) = true ∧
      exec env m (.init q (.ptrof (.idx (.var w) (.num .i8 0)))) = some (m.set (q, []) (.addr l)) := by
  have hd : declTy (env.var w) = .ptr true (.prim p) := by simp [declTy, hw, hwt]
  have hlw : locTy env (w, []) = some (.ptr true (.prim p)) := by simp [locTy, hwt, into]
  have hlq : locTy env (q, []) = some (.ptr false (.prim p)) := by simp [locTy, hq, into]
  constructor
  · simp [accepts, check, hd, hw, isIndex, unwrap, Verif.Prim.isInteger,
      Verif.Prim.isSignedInteger, stripAll, wrapped, hq, assignable_self]
  · simp [exec, ev, check, hd, unwrap, load, hlw, hm, shift, store, hlq]

/-- C142 is false for three levels of pointers, as it was in C before the rule on qualified pointers: `q : ^^T` is made to
point to a pointer to a constant, then `**q = n`. -/
theorem constant_changed_through_three_pointers {env : Env} {c k q r : Nat} {p : Prim}
    (hc : env.var c = ⟨true, .prim p⟩) (hk : env.var k = ⟨false, .ptr true (.prim p)⟩)
    (hq : env.var q = ⟨false, .ptr false (.ptr false (.prim p))⟩)
    (hr : env.var r = ⟨false, .ptr false (.ptr false (.ptr true (.prim p)))⟩) (n : Int) (m : Mem) :
    let prog := [Stmt.init k (.ptrof (.var c)), .init r (.ptrof (.var q)), .assign (.deref (.var r)) (.ptrof (.var k)),
      .assign (.deref (.deref (.var q))) (.num p n)]
    (∀ s ∈ prog, accepts env s = true) ∧ ∃ m', run env m prog = some m' ∧ m' (c, []) = .num n := by
  have dc : declTy (env.var c) = .const (.prim p) := by simp [declTy, hc, isConst]
  have dk : declTy (env.var k) = .ptr true (.prim p) := by simp [declTy, hk]
  have dq : declTy (env.var q) = .ptr false (.ptr false (.prim p)) := by simp [declTy, hq]
  have dr : declTy (env.var r) = .ptr false (.ptr false (.ptr true (.prim p))) := by simp [declTy, hr]
  have lc : locTy env (c, []) = some (.prim p) := by simp [locTy, hc, into]
  have lk : locTy env (k, []) = some (.ptr true (.prim p)) := by simp [locTy, hk, into]
  have lq : locTy env (q, []) = some (.ptr false (.ptr false (.prim p))) := by simp [locTy, hq, into]
  have lr : locTy env (r, []) = some (.ptr false (.ptr false (.ptr true (.prim p)))) := by simp [locTy, hr, into]
  have tk : (env.var k).ty = .ptr true (.prim p) := by rw [hk]
  have tr : (env.var r).ty = .ptr false (.ptr false (.ptr true (.prim p))) := by rw [hr]
  have kk : (env.var k).const = false := by rw [hk]
  have kq : (env.var q).const = false := by rw [hq]
  have kr : (env.var r).const = false := by rw [hr]
  have nkc : (k, ([] : List Nat)) ≠ (c, []) := by intro e; cases e; rw [hc] at hk; simp at hk
  have nqr : (q, ([] : List Nat)) ≠ (r, []) := by intro e; cases e; rw [hq] at hr; simp at hr
  have nkr : (k, ([] : List Nat)) ≠ (r, []) := by intro e; cases e; rw [hk] at hr; simp at hr
  have nkq : (k, ([] : List Nat)) ≠ (q, []) := by intro e; cases e; rw [hk] at hq; simp at hq
  have has1 : assignable env.impl (.ptr true (.prim p)) (.ptr false (.prim p)) = true := by
    simp [Assign.assignable, Assign.core, unwrap, isConst, Assign.isPtr, assignable_self]
  have has2 : assignable env.impl (.ptr false (.ptr true (.prim p))) (.ptr false (.ptr false (.prim p))) = true := by
    rw [Assign.assignable] <;> simp [Assign.core, unwrap, isConst, Assign.isPtr, has1]
  have has : assignable env.impl (.ptr false (.ptr false (.ptr true (.prim p)))) (.ptr false (.ptr false (.ptr false (.prim p)))) = true := by
    rw [Assign.assignable] <;> simp [Assign.core, unwrap, isConst, Assign.isPtr, has2]
  refine ⟨?_, ?_⟩
  · intro s hs
    simp at hs
    rcases hs with rfl | rfl | rfl | rfl
    · simp [accepts, check, dc, wrapped, unwrap, tk, assignable_self]
    · simp [accepts, check, dq, kq, tr, wrapped, unwrap, has]
    · simp [accepts, checkLeft, check, dr, dk, kk, kr, wrapped, unwrap, isConst, isArr, assignable_self]
    · simp [accepts, checkLeft, check, dq, kq, isConst, isArr, assignable_self]
  · let m1 := m.set (k, []) (.addr (c, []))
    let m2 := m1.set (r, []) (.addr (q, []))
    let m3 := m2.set (q, []) (.addr (k, []))
    refine ⟨m3.set (c, []) (.num n), ?_, set_at _ _ _⟩
    have e1 : exec env m (.init k (.ptrof (.var c))) = some m1 := by simp [exec, ev, load, store, lk, m1]
    have e2 : exec env m1 (.init r (.ptrof (.var q))) = some m2 := by simp [exec, ev, load, store, lr, m2]
    have h2 : m2 (r, []) = .addr (q, []) := set_at _ _ _
    have e3 : exec env m2 (.assign (.deref (.var r)) (.ptrof (.var k))) = some m3 := by
      simp [exec, ev, load, store, lr, lq, h2, m3]
    have h3 : m3 (q, []) = .addr (k, []) := set_at _ _ _
    have h4 : m3 (k, []) = .addr (c, []) := by
      show ((m1.set (r, []) _).set (q, []) _) (k, []) = _
      rw [set_ne _ _ nkq, set_ne _ _ nkr]
      exact set_at _ _ _
    have e4 : exec env m3 (.assign (.deref (.deref (.var q))) (.num p n)) = some (m3.set (c, []) (.num n)) := by
      simp [exec, ev, load, store, lq, h3, lk, h4, lc]
    simp only [run, e1, e2, e3, e4]

/-! ## C143: variables can be assigned -/

/-- **C143 (partial).** A variable that is not declared constant can be given any value of its type.  Missing: pointers to
constants, see `pointer_to_constant_not_assigned`; arrays. -/
theorem variable_assigned_partial {env : Env} {v : Nat} (hv : (env.var v).const = false) (hc : isConst (env.var v).ty = false)
    (e : Ex) (t : Ty) (k : Bool) (he : check env e = some (t, k)) (ha : isArr t = false)
    (has : assignable env.impl (env.var v).ty t = true) : accepts env (.assign (.var v) e) = true := by
  have hd : declTy (env.var v) = (env.var v).ty := by simp [declTy, hv]
  simp [accepts, checkLeft, check, hd, hv, hc, he, ha, has]

/-- C143 is false for pointers to constants: no assignment to such a variable is accepted. -/
theorem pointer_to_constant_not_assigned {env : Env} {v : Nat} {t : Ty} (ht : (env.var v).ty = .ptr true t) (e : Ex) :
    accepts env (.assign (.var v) e) = false := by
  have hd : isConst (declTy (env.var v)) = true := by simp [declTy, ht, isConst]
  simp only [accepts]
  split
  · rename_i t' k u _ hl _
    simp [checkLeft, check] at hl
    rw [← hl.1, hd]
    simp
  · rfl

/-! ## C144: the type of `*p` -/

/-- **C144 (partial).** The type of `*p`, for a pointer variable that is not constant, is what it points to. -/
theorem deref_type_partial {env : Env} {v : Nat} {k : Bool} {t : Ty} (hv : (env.var v).const = false)
    (ht : (env.var v).ty = .ptr k t) : ∃ f, check env (.deref (.var v)) = some (t, f) := by
  have hd : declTy (env.var v) = .ptr k t := by simp [declTy, hv, ht]
  simp [check, hd]

/-- C144 is false for constant pointer variables: the type of `*p` is that of `p`. -/
theorem deref_of_constant_pointer {env : Env} {v : Nat} {t : Ty} (hv : (env.var v).const = true)
    (ht : (env.var v).ty = .ptr false t) : ∃ f, check env (.deref (.var v)) = some (.ptr false t, f) := by
  have hd : declTy (env.var v) = .const (.ptr false t) := by simp [declTy, hv, ht, isConst]
  simp [check, hd]

/-! ## Cases -/

/-- Constants 0 (a number), 1 (a structure), 2 (an array), 3 (a nested array), variables 4 (a pointer), 5 (a pointer to
constants), 6 (a pointer to such), 7 (a number), 8 (three levels), 9 (two levels), 10 (a constant pointer). -/
def sample : Env where
  var
    | 0 => ⟨true, .prim .i32⟩
    | 1 => ⟨true, .struct 0⟩
    | 2 => ⟨true, .arr (some 3) (.prim .i32)⟩
    | 3 => ⟨true, .arr (some 2) (.arr (some 2) (.prim .i32))⟩
    | 4 => ⟨false, .ptr false (.prim .i32)⟩
    | 5 => ⟨false, .ptr true (.prim .i32)⟩
    | 6 => ⟨false, .ptr false (.ptr true (.prim .i32))⟩
    | 9 => ⟨false, .ptr false (.ptr false (.prim .i32))⟩
    | 10 => ⟨true, .ptr false (.prim .i32)⟩
    | 11 => ⟨false, .ptr true (.struct 0)⟩
    | _ => ⟨false, .prim .i32⟩
  field
    | 0, 0 => some (.prim .i32)
    | 0, 1 => some (.ptr false (.prim .i32))
    | _, _ => none
  impl _ _ := false

theorem sample_fine : FineEnv sample where
  var v := by
    unfold sample
    simp only []
    split <;> trivial
  field s f t h := by
    unfold sample at h
    simp only [] at h
    split at h <;> simp at h <;> subst h <;> trivial

/-- `const c = 1; const a = ...; var p : ^const i32 = ptrof c; p = a; var x = p.[2]; var y : ^i32 = ptrof x; *y = *p; y.[0]++`: a program
of `constants_keep_their_value_partial`. -/
def program : List Stmt :=
  [.init 0 (.num .i32 1), .init 5 (.ptrof (.var 0)), .init 6 (.ptrof (.var 5)), .init 5 (.var 2), .init 7 (.idx (.var 5) (.num .i8 2)),
   .init 4 (.ptrof (.var 7)), .assign (.deref (.var 4)) (.deref (.deref (.var 6))), .step (.idx (.var 4) (.num .i8 0)) 1]

example : (∀ s ∈ program, accepts sample s = true ∧ Plain sample s) ∧ (run sample zero program).isSome = true := by
  have h1 : assignable sample.impl (.ptr true (.prim .i32)) (.const (.arr (some 3) (.prim .i32))) = true := by
    simp [Assign.assignable, Assign.core, unwrap, isConst, Assign.isPtr, assignable_self]
  refine ⟨?_, by decide +kernel⟩
  intro s hs
  simp only [program, List.mem_cons, List.not_mem_nil, or_false] at hs
  rcases hs with rfl | rfl | rfl | rfl | rfl | rfl | rfl | rfl
  · refine ⟨assignable_self _ _, trivial, ?_⟩
    intro t k n u h e; simp [check] at h; rw [← h.1] at e; simp [unwrap] at e
  · refine ⟨assignable_self _ _, ⟨trivial, Or.inr trivial, ?_⟩, ?_⟩
    · intro t k n u h e; simp [check, sample, declTy, isConst] at h; rw [← h.1] at e; simp [unwrap] at e
    · intro t k n u h e; simp [check, sample, declTy, isConst] at h; rw [← h.1] at e; simp [unwrap] at e
  · refine ⟨assignable_self _ _, ⟨trivial, Or.inl rfl, ?_⟩, ?_⟩
    · intro t k n u h e; simp [check, sample, declTy] at h; rw [← h.1] at e; simp [unwrap] at e
    · intro t k n u h e; simp [check, sample, declTy] at h; rw [← h.1] at e; simp [unwrap] at e
  · refine ⟨h1, trivial, ?_⟩
    intro t k n u h e
    simp [check, sample, declTy, isConst] at h
    rw [← h.1] at e
    simp [unwrap] at e
    exact ⟨by intro n' u' e'; rw [← e.2] at e'; simp at e', Or.inr ⟨2, rfl⟩⟩
  · refine ⟨assignable_self _ _, ⟨trivial, trivial⟩, ?_⟩
    intro t k n u h e
    have hc : check sample (.idx (.var 5) (.num .i8 2)) = some (.prim .i32, false) := by decide +kernel
    rw [hc] at h; simp at h; rw [← h.1] at e; simp [unwrap] at e
  · refine ⟨assignable_self _ _, ⟨trivial, Or.inl rfl, ?_⟩, ?_⟩
    · intro t k n u h e; simp [check, sample, declTy] at h; rw [← h.1] at e; simp [unwrap] at e
    · intro t k n u h e; simp [check, sample, declTy] at h; rw [← h.1] at e; simp [unwrap] at e
  · refine ⟨?_, ⟨trivial, ?_⟩, ⟨⟨trivial, ?_⟩, ?_⟩, Or.inl rfl⟩
    · simp [accepts, checkLeft, check, sample, declTy, isConst, isArr, assignable_self]
    · intro t k h; simp [check, sample, declTy] at h; rw [← h.1]; rfl
    · intro t k h; simp [check, sample, declTy] at h; rw [← h.1]; rfl
    · intro t k h; simp [check, sample, declTy] at h; rw [← h.1]; rfl
  · exact ⟨by decide +kernel, ⟨trivial, trivial⟩, Or.inl rfl⟩

/-- The hypotheses of the families above. -/
example : (sample.var 1).const = true ∧ (sample.var 1).ty = .struct 0 ∧ sample.field 0 0 = some (.prim .i32) ∧
    (sample.var 5).const = false ∧ (sample.var 5).ty = .ptr true (.prim .i32) ∧ (sample.var 11).ty = .ptr true (.struct 0) ∧
    (sample.var 3).ty = .arr (some 2) (.arr (some 2) (.prim .i32)) ∧ (sample.var 10).const = true := ⟨rfl, rfl, rfl, rfl, rfl, rfl, rfl, rfl⟩

/-- A constant field after `s.f = 5`. -/
example : ∃ m, run sample zero [.assign (.mem (.var 1) 0) (.num .i32 5)] = some m ∧ m (1, [0]) = .num 5 :=
  ⟨zero.set (1, [0]) (.num 5), by rw [run, (field_of_constant_assigned (env := sample) (v := 1) (s := 0) (f := 0) rfl rfl rfl 5 zero).2]; rfl,
    set_at _ _ _⟩

end Verif.Consts
