import Verif.Lang.Flow.Run
/-! # What the code of an accepted function does

Source: /repo/src/cxy/lang/backend/llvm/generate.cpp 619-824 and 1041-1129, llvm.cpp 257-266. -/
namespace Verif.Flow

variable {Prim State : Type}

/-- The builder when a function begins. -/
def entry : Bld Prim := ⟨fun _ => [], [0], 0, 2, 0, false, false⟩

theorem entry_good : Good (entry : Bld Prim) := by
  refine ⟨fun _ _ => rfl, show 0 < 2 by decide, rfl, fun k hk => ?_⟩
  have hk : k ∈ [0] := hk
  have := List.mem_singleton.1 hk
  show k < 2
  omega

theorem genFunc_eq (body : Stmt Prim) :
    genFunc body = (((closeCase (finish (genS ⟨none, none, none, 1⟩ body entry) 1) 1).insert 1).setCur 1).emit .ret := rfl

theorem compile_ok {body : Stmt Prim} {P : Nat → List (Instr Prim)} (h : compile body = some P) :
    Ok [] (genFunc body) P ∧ P = (genFunc body).code := by
  unfold compile at h
  split at h
  · rename_i hc
    simp only [Bool.and_eq_true, Bool.not_eq_true'] at hc
    cases h
    refine ⟨⟨fun k => List.prefix_rfl, fun _ _ _ _ => rfl, fun k hk => ?_, hc.1⟩, rfl⟩
    have := hc.2
    unfold verify at this
    exact List.all_eq_true.1 this k hk
  · cases h

theorem run_return {sem : Sem Prim State} {P : Nat → List (Instr Prim)} (h : P 1 = [.ret]) (prev : Nat) (regs : Nat → Int) (s : State)
    (v : Option Int) : run sem P 1 ⟨1, prev, P 1, regs, s, v⟩ = .returned v s := by
  simp only [run, step, h]

theorem func_sim {body : Stmt Prim} {P : Nat → List (Instr Prim)} (h : compile body = some P) (sem : Sem Prim State) (N : Nat) (s : State) :
    P 1 = [.ret] ∧ Sim sem P ⟨none, none, none, 1⟩ N (fun prev regs s => ⟨1, prev, P 1, regs, s, none⟩) (start P s)
      (exec codeOrder sem N body s) := by
  obtain ⟨hok, hP⟩ := compile_ok h
  have hb := genS_ok body ⟨none, none, none, 1⟩ entry entry_good
  have hno : 1 ∉ (genS ⟨none, none, none, 1⟩ body (entry : Bld Prim)).order := by
    intro h1
    rcases hb.grown.ord 1 h1 with h2 | h2
    · have h2 : 1 ∈ [0] := h2
      simp at h2
    · have h2 : 2 ≤ 1 := h2
      omega
  have hcur : (genS ⟨none, none, none, 1⟩ body (entry : Bld Prim)).cur ≠ 1 := by
    rcases hb.grown.cur with h2 | h2
    · rw [h2]; show 0 ≠ 1; decide
    · have h2 : 2 ≤ (genS ⟨none, none, none, 1⟩ body (entry : Bld Prim)).cur := h2
      omega
  have hcode : (closeCase (finish (genS ⟨none, none, none, 1⟩ body (entry : Bld Prim)) 1) 1).code 1 = [] := by
    have h1 : (finish (genS ⟨none, none, none, 1⟩ body (entry : Bld Prim)) 1).code 1 = [] := by
      rw [finish_code _ _ hcur.symm, hb.grown.keep 1 (show 1 < 2 by decide) (show 1 ≠ 0 by decide)]
      rfl
    unfold closeCase
    split
    · exact h1
    · refine (code_emit_ne ?_).trans h1
      rw [finish_cur]
      exact hcur.symm
  have h1 : P 1 = [.ret] := by
    rw [hP, genFunc_eq]
    simp only [Bld.emit, Bld.setCur, Bld.insert, upd_same, hcode]
    rfl
  refine ⟨h1, ?_⟩
  have hafter : After (genS ⟨none, none, none, 1⟩ body (entry : Bld Prim)) (genFunc body) := by
    rw [genFunc_eq]
    exact ((closeCase_after ((After.refl _).finish 1) 1).enter hno).emit _
  have okb := hok.back hafter
  have hs := simS sem P N body ⟨none, none, none, 1⟩ [] entry entry_good (fun i hi => by cases hi) (fun k hk => by cases hk) okb 0
    (fun _ => 0) s
  have hstart : at_ P (entry : Bld Prim) 0 (fun _ => 0) s = start P s := rfl
  rw [hstart] at hs
  refine hs.1.then ?_
  intro prev regs s' hr
  have ho := hs.2 s' hr
  refine ⟨1, _, regs, run_jump ?_ prev regs s'⟩
  have hpre := hok.pre
  rw [genFunc_eq] at hpre
  have hpre : Pre (closeCase (finish (genS ⟨none, none, none, 1⟩ body entry) 1) 1) P :=
    hpre.back ((After.refl (((closeCase (finish (genS ⟨none, none, none, 1⟩ body entry) 1) 1).insert 1).setCur 1)).emit _).pre
  cases hd : (genS ⟨none, none, none, 1⟩ body (entry : Bld Prim)).dead with
  | false =>
    have hf : finish (genS ⟨none, none, none, 1⟩ body entry) 1 = ((genS ⟨none, none, none, 1⟩ body entry).emit (.br 1)).setDead false := by
      unfold finish; rw [if_neg (by rw [hd]; simp)]
    have hpre := hpre.back (closeCase_after (After.refl _) 1).pre
    rw [hf] at hpre
    exact hpre
  | true =>
    have hf : finish (genS ⟨none, none, none, 1⟩ body entry) 1 = (genS ⟨none, none, none, 1⟩ body entry).setDead false := by
      unfold finish; rw [if_pos hd]
    rw [hf] at hpre
    have hb0 : ((genS ⟨none, none, none, 1⟩ body entry).setDead false).backTerminated = false :=
      open_not_back (hb.good.setDead false) ho
    unfold closeCase at hpre
    rw [if_neg (by rw [hb0]; simp)] at hpre
    exact hpre

theorem run_final {sem : Sem Prim State} {P : Nat → List (Instr Prim)} {n m : Nat} {c : Cfg Prim State}
    (hn : ∀ c', run sem P n c ≠ .go c') : run sem P (n + m) c = run sem P n c := by
  induction n generalizing c with
  | zero => exact absurd rfl (hn c)
  | succ n ih =>
    rw [show n + 1 + m = (n + m) + 1 by omega, run, run]
    rw [run] at hn
    cases hs : step sem P c with
    | go c1 =>
      rw [hs] at hn
      exact ih hn
    | returned v s' => rfl
    | stuck s' => rfl
    | ub => rfl

/-- The functions that are accepted do what they say, with the operands of binary operators in the order of the backend: if the
body ends, the code returns with the same result in the same state; if a primitive does not come back, the code is there, in the
same state; if the body does not end, neither does the code. -/
theorem accepted_code_is_faithful {body : Stmt Prim} {P : Nat → List (Instr Prim)} (h : compile body = some P) (sem : Sem Prim State)
    (s : State) :
    (∀ N s', exec codeOrder sem N body s = .done .normal s' → ∃ n, run sem P n (start P s) = .returned none s') ∧
    (∀ N v s', exec codeOrder sem N body s = .done (.ret v) s' → ∃ n, run sem P n (start P s) = .returned v s') ∧
    (∀ N s', exec codeOrder sem N body s = .stuck s' → ∃ n, run sem P n (start P s) = .stuck s') ∧
    ((∀ N, exec codeOrder sem N body s = .out) → ∀ n, ∃ c, run sem P n (start P s) = .go c) ∧
    (∀ N s', exec codeOrder sem N body s ≠ .done .brk s' ∧ exec codeOrder sem N body s ≠ .done .cont s') := by
  refine ⟨fun N s' he => ?_, fun N v s' he => ?_, fun N s' he => ?_, fun he n => ?_, fun N s' => ⟨fun he => ?_, fun he => ?_⟩⟩
  · obtain ⟨h1, hs⟩ := func_sim h sem N s
    rw [he] at hs
    obtain ⟨n, prev, regs, hr⟩ := hs
    exact ⟨n + 1, by rw [run_add hr, run_return h1]⟩
  · obtain ⟨h1, hs⟩ := func_sim h sem N s
    rw [he] at hs
    obtain ⟨n, prev, regs, hr⟩ := hs
    exact ⟨n + 1, by rw [run_add hr, run_return h1]⟩
  · obtain ⟨h1, hs⟩ := func_sim h sem N s
    rw [he] at hs
    exact hs
  · obtain ⟨h1, hs⟩ := func_sim h sem n s
    rw [he n] at hs
    obtain ⟨m, c, hm, hr⟩ := hs
    obtain ⟨d, rfl⟩ := Nat.le.dest hm
    cases hn : run sem P n (start P s) with
    | go c' => exact ⟨c', rfl⟩
    | returned v s' => rw [run_final (by rw [hn]; intro _ e; cases e), hn] at hr; cases hr
    | stuck s' => rw [run_final (by rw [hn]; intro _ e; cases e), hn] at hr; cases hr
    | ub => rw [run_final (by rw [hn]; intro _ e; cases e), hn] at hr; cases hr
  · obtain ⟨h1, hs⟩ := func_sim h sem N s
    rw [he] at hs
    obtain ⟨k, _, _, _, hk, _⟩ := hs
    cases hk
  · obtain ⟨h1, hs⟩ := func_sim h sem N s
    rw [he] at hs
    obtain ⟨k, _, _, _, hk, _⟩ := hs
    cases hk

/-- The code of a function that is accepted never falls off a block and never takes a value that is not there. -/
theorem accepted_code_is_defined {body : Stmt Prim} {P : Nat → List (Instr Prim)} (h : compile body = some P) (sem : Sem Prim State)
    (s : State) (n : Nat) : run sem P n (start P s) ≠ .ub := by
  obtain ⟨h1, h2, h3, h4, h5⟩ := accepted_code_is_faithful h sem s
  have key : ∀ m r, run sem P m (start P s) = r → (∀ c, r ≠ .go c) → r ≠ .ub → run sem P n (start P s) ≠ .ub := by
    intro m r hm hgo hub hn
    rcases Nat.le_total n m with hle | hle
    · obtain ⟨d, rfl⟩ := Nat.le.dest hle
      rw [run_final (by rw [hn]; intro _ e; cases e), hn] at hm
      exact hub hm.symm
    · obtain ⟨d, rfl⟩ := Nat.le.dest hle
      rw [run_final (by rw [hm]; exact hgo), hm] at hn
      exact hub hn
  by_cases hall : ∀ N, exec codeOrder sem N body s = .out
  · obtain ⟨c, hc⟩ := h4 hall n
    rw [hc]
    intro e
    cases e
  · obtain ⟨N, hN⟩ := Classical.not_forall.1 hall
    cases hx : exec codeOrder sem N body s with
    | out => exact absurd hx hN
    | stuck s' =>
      obtain ⟨m, hm⟩ := h3 N s' hx
      exact key m _ hm (by intro _ e; cases e) (by intro e; cases e)
    | done o s' =>
      cases o with
      | normal =>
        obtain ⟨m, hm⟩ := h1 N s' hx
        exact key m _ hm (by intro _ e; cases e) (by intro e; cases e)
      | ret v =>
        obtain ⟨m, hm⟩ := h2 N v s' hx
        exact key m _ hm (by intro _ e; cases e) (by intro e; cases e)
      | brk => exact absurd hx (h5 N s').1
      | cont => exact absurd hx (h5 N s').2

/-! ## The meaning of programs does not depend on the number of rounds -/

theorem rounds_more {ec eu : State → ER State} {eb eb' : State → R State} (hb : ∀ s, eb s ≠ .out → eb' s = eb s) :
    ∀ n m s, n ≤ m → rounds ec eb eu n s ≠ .out → rounds ec eb' eu m s = rounds ec eb eu n s
  | 0, _, _, _, h => absurd rfl h
  | n + 1, m, s, hm, h => by
    obtain ⟨m, rfl⟩ : ∃ k, m = k + 1 := ⟨m - 1, by omega⟩
    rw [rounds] at h ⊢
    rw [rounds]
    cases hec : ec s with
    | stuck s' => rfl
    | ok v s1 =>
      rw [hec] at h
      simp only at h ⊢
      by_cases hv : v = 0
      · rw [if_pos hv, if_pos hv]
      · rw [if_neg hv] at h ⊢
        rw [if_neg hv]
        cases he : eb s1 with
        | out => rw [he] at h; exact absurd rfl h
        | stuck s' => rw [hb s1 (by rw [he]; intro e; cases e), he]
        | done o s2 =>
          rw [hb s1 (by rw [he]; intro e; cases e), he]
          rw [he] at h
          have hgo : (match eu s2 with | .stuck s' => R.stuck s' | .ok _ s3 => rounds ec eb eu n s3) ≠ R.out →
              (match eu s2 with | .stuck s' => R.stuck s' | .ok _ s3 => rounds ec eb' eu m s3) =
              (match eu s2 with | .stuck s' => R.stuck s' | .ok _ s3 => rounds ec eb eu n s3) := by
            intro h
            cases hu : eu s2 with
            | stuck s' => rfl
            | ok w s3 =>
              rw [hu] at h
              exact rounds_more hb n m s3 (by omega) h
          cases o with
          | brk => rfl
          | ret w => rfl
          | normal => exact hgo h
          | cont => exact hgo h

mutual
/-- More rounds do not change what a program does. -/
theorem exec_more (lf : Mix → Bool) (sem : Sem Prim State) {N M : Nat} (hle : N ≤ M) : ∀ (st : Stmt Prim) (s : State),
    exec lf sem N st s ≠ .out → exec lf sem M st s = exec lf sem N st s
  | .skip, s, _ => by rw [exec, exec]
  | .brk, s, _ => by rw [exec, exec]
  | .cont, s, _ => by rw [exec, exec]
  | .ret none, s, _ => by rw [exec, exec]
  | .ret (some e), s, _ => by rw [exec, exec]
  | .expr e, s, _ => by rw [exec, exec]
  | .seq a b, s, h => by
    rw [exec] at h ⊢
    rw [exec]
    cases ha : exec lf sem N a s with
    | out => rw [ha] at h; exact absurd rfl h
    | stuck s' => rw [exec_more lf sem hle a s (by rw [ha]; intro e; cases e), ha]
    | done o s1 =>
      rw [exec_more lf sem hle a s (by rw [ha]; intro e; cases e), ha]
      rw [ha] at h
      cases o with
      | normal => exact exec_more lf sem hle b s1 h
      | brk => rfl
      | cont => rfl
      | ret v => rfl
  | .ite c a b, s, h => by
    rw [exec] at h ⊢
    rw [exec]
    cases hc : evalE lf sem c s with
    | stuck s' => rfl
    | ok v s1 =>
      rw [hc] at h
      simp only at h ⊢
      by_cases hv : v = 0
      · rw [if_pos hv] at h ⊢
        rw [if_pos hv]
        exact exec_more lf sem hle b s1 h
      · rw [if_neg hv] at h ⊢
        rw [if_neg hv]
        exact exec_more lf sem hle a s1 h
  | .while c body u, s, h => by
    rw [exec] at h ⊢
    rw [exec]
    exact rounds_more (fun s => exec_more lf sem hle body s) N M s hle h
  | .switch c cases, s, h => by
    rw [exec] at h ⊢
    rw [exec]
    cases hc : evalE lf sem c s with
    | stuck s' => rfl
    | ok v s1 =>
      rw [hc] at h
      simp only at h ⊢
      have h1 := execCases_more lf sem hle cases (fun x => x = some v) s1
      have h2 := execCases_more lf sem hle cases (fun x => x = none) s1
      cases e1 : execCases lf sem N cases (fun x => x = some v) s1 with
      | some r =>
        rw [e1] at h h1
        rw [h1 (by simpa using h)]
      | none =>
        rw [e1] at h h1
        rw [h1 (by simp)]
        simp only at h ⊢
        cases e2 : execCases lf sem N cases (fun x => x = none) s1 with
        | some r =>
          rw [e2] at h h2
          rw [h2 (by simpa using h)]
        | none =>
          rw [e2] at h2
          rw [h2 (by simp)]
theorem execCases_more (lf : Mix → Bool) (sem : Sem Prim State) {N M : Nat} (hle : N ≤ M) : ∀ (cs : Cases Prim) (sel : Option Int → Bool)
    (s : State), execCases lf sem N cs sel s ≠ some .out → execCases lf sem M cs sel s = execCases lf sem N cs sel s
  | .nil, sel, s, _ => by rw [execCases, execCases]
  | .cons v body rest, sel, s, h => by
    rw [execCases] at h ⊢
    rw [execCases]
    by_cases hs : sel v
    · rw [if_pos hs] at h ⊢
      rw [if_pos hs, exec_more lf sem hle body s (fun e => h (by rw [e]))]
    · rw [if_neg hs] at h ⊢
      rw [if_neg hs]
      exact execCases_more lf sem hle rest sel s h
end

/-! ## From left to right -/

mutual
/-- Every primitive in the expression is one of `ok`. -/
def Expr.uses (ok : Prim → Prop) : Expr Prim → Prop
  | .const _ => True
  | .call p args => ok p ∧ args.uses ok
  | .bin _ p a b => ok p ∧ a.uses ok ∧ b.uses ok
  | .and a b => a.uses ok ∧ b.uses ok
  | .or a b => a.uses ok ∧ b.uses ok
  | .tern c a b => c.uses ok ∧ a.uses ok ∧ b.uses ok
def Args.uses (ok : Prim → Prop) : Args Prim → Prop
  | .nil => True
  | .cons e rest => e.uses ok ∧ rest.uses ok
end

/-- Primitives that come back and leave the state alone, like reading a variable or adding. -/
def Quiet (sem : Sem Prim State) (p : Prim) : Prop := ∀ vs s, ∃ v, sem p vs s = some (v, s)

/-- Primitives that give the same value in all states, like adding. -/
def Fixed (sem : Sem Prim State) (p : Prim) : Prop := ∀ vs, ∃ v, ∀ s, sem p vs s = some (v, s)

mutual
/-- Where the backend evaluates the right operand first, it makes no difference: both operands only read, or one is fixed. -/
def Expr.calm (sem : Sem Prim State) : Expr Prim → Prop
  | .const _ => True
  | .call _ args => args.calm sem
  | .bin m _ a b => a.calm sem ∧ b.calm sem ∧
      (m = .other ∨ (a.uses (Quiet sem) ∧ b.uses (Quiet sem)) ∨ a.uses (Fixed sem) ∨ b.uses (Fixed sem))
  | .and a b => a.calm sem ∧ b.calm sem
  | .or a b => a.calm sem ∧ b.calm sem
  | .tern c a b => c.calm sem ∧ a.calm sem ∧ b.calm sem
def Args.calm (sem : Sem Prim State) : Args Prim → Prop
  | .nil => True
  | .cons e rest => e.calm sem ∧ rest.calm sem
end

mutual
/-- All expressions of the statement are calm. -/
def Stmt.calm (sem : Sem Prim State) : Stmt Prim → Prop
  | .skip => True
  | .seq a b => a.calm sem ∧ b.calm sem
  | .expr e => e.calm sem
  | .ite c a b => c.calm sem ∧ a.calm sem ∧ b.calm sem
  | .while c body u => c.calm sem ∧ body.calm sem ∧ (∀ e, u = some e → e.calm sem)
  | .switch c cases => c.calm sem ∧ cases.calm sem
  | .brk => True
  | .cont => True
  | .ret e => ∀ x, e = some x → x.calm sem
def Cases.calm (sem : Sem Prim State) : Cases Prim → Prop
  | .nil => True
  | .cons _ body rest => body.calm sem ∧ rest.calm sem
end

/-- From left to right. -/
def leftToRight : Mix → Bool := fun _ => true

mutual
theorem quiet_eval {sem : Sem Prim State} (lf : Mix → Bool) : ∀ (e : Expr Prim), e.uses (Quiet sem) → ∀ s, ∃ v, evalE lf sem e s = .ok v s
  | .const v, _, s => ⟨v, by rw [evalE]⟩
  | .call p args, h, s => by
    rw [Expr.uses] at h
    obtain ⟨vs, hv⟩ := quiet_evalA lf args h.2 s
    obtain ⟨v, hp⟩ := h.1 vs s
    exact ⟨v, by simp only [evalE, hv, callPrim, hp]⟩
  | .bin m p a b, h, s => by
    rw [Expr.uses] at h
    obtain ⟨x, hx⟩ := quiet_eval lf a h.2.1 s
    obtain ⟨y, hy⟩ := quiet_eval lf b h.2.2 s
    obtain ⟨v, hp⟩ := h.1 [x, y] s
    refine ⟨v, ?_⟩
    rw [evalE]
    split <;> simp only [hx, hy, ER.bind, callPrim, hp]
  | .and a b, h, s => by
    rw [Expr.uses] at h
    obtain ⟨x, hx⟩ := quiet_eval lf a h.1 s
    obtain ⟨y, hy⟩ := quiet_eval lf b h.2 s
    rw [evalE]
    simp only [hx, ER.bind]
    split
    · exact ⟨_, rfl⟩
    · exact ⟨y, hy⟩
  | .or a b, h, s => by
    rw [Expr.uses] at h
    obtain ⟨x, hx⟩ := quiet_eval lf a h.1 s
    obtain ⟨y, hy⟩ := quiet_eval lf b h.2 s
    rw [evalE]
    simp only [hx, ER.bind]
    split
    · exact ⟨y, hy⟩
    · exact ⟨_, rfl⟩
  | .tern c a b, h, s => by
    rw [Expr.uses] at h
    obtain ⟨x, hx⟩ := quiet_eval lf c h.1 s
    obtain ⟨y, hy⟩ := quiet_eval lf a h.2.1 s
    obtain ⟨z, hz⟩ := quiet_eval lf b h.2.2 s
    rw [evalE]
    simp only [hx, ER.bind]
    split
    · exact ⟨z, hz⟩
    · exact ⟨y, hy⟩
theorem quiet_evalA {sem : Sem Prim State} (lf : Mix → Bool) : ∀ (es : Args Prim), es.uses (Quiet sem) → ∀ s, ∃ vs, evalA lf sem es s = .ok vs s
  | .nil, _, s => ⟨[], by rw [evalA]⟩
  | .cons e rest, h, s => by
    rw [Args.uses] at h
    obtain ⟨v, hv⟩ := quiet_eval lf e h.1 s
    obtain ⟨vs, hvs⟩ := quiet_evalA lf rest h.2 s
    exact ⟨v :: vs, by simp only [evalA, hv, hvs]⟩
end

mutual
theorem fixed_eval {sem : Sem Prim State} (lf : Mix → Bool) : ∀ (e : Expr Prim), e.uses (Fixed sem) → ∃ v, ∀ s, evalE lf sem e s = .ok v s
  | .const v, _ => ⟨v, fun s => by rw [evalE]⟩
  | .call p args, h => by
    rw [Expr.uses] at h
    obtain ⟨vs, hv⟩ := fixed_evalA lf args h.2
    obtain ⟨v, hp⟩ := h.1 vs
    exact ⟨v, fun s => by simp only [evalE, hv, callPrim, hp]⟩
  | .bin m p a b, h => by
    rw [Expr.uses] at h
    obtain ⟨x, hx⟩ := fixed_eval lf a h.2.1
    obtain ⟨y, hy⟩ := fixed_eval lf b h.2.2
    obtain ⟨v, hp⟩ := h.1 [x, y]
    refine ⟨v, fun s => ?_⟩
    rw [evalE]
    split <;> simp only [hx, hy, ER.bind, callPrim, hp]
  | .and a b, h => by
    rw [Expr.uses] at h
    obtain ⟨x, hx⟩ := fixed_eval lf a h.1
    obtain ⟨y, hy⟩ := fixed_eval lf b h.2
    by_cases h0 : x = 0
    · exact ⟨0, fun s => by rw [evalE]; simp only [hx, ER.bind]; rw [if_pos h0]⟩
    · exact ⟨y, fun s => by rw [evalE]; simp only [hx, ER.bind]; rw [if_neg h0, hy]⟩
  | .or a b, h => by
    rw [Expr.uses] at h
    obtain ⟨x, hx⟩ := fixed_eval lf a h.1
    obtain ⟨y, hy⟩ := fixed_eval lf b h.2
    by_cases h0 : x = 0
    · exact ⟨y, fun s => by rw [evalE]; simp only [hx, ER.bind]; rw [if_pos h0, hy]⟩
    · exact ⟨1, fun s => by rw [evalE]; simp only [hx, ER.bind]; rw [if_neg h0]⟩
  | .tern c a b, h => by
    rw [Expr.uses] at h
    obtain ⟨x, hx⟩ := fixed_eval lf c h.1
    obtain ⟨y, hy⟩ := fixed_eval lf a h.2.1
    obtain ⟨z, hz⟩ := fixed_eval lf b h.2.2
    by_cases h0 : x = 0
    · exact ⟨z, fun s => by rw [evalE]; simp only [hx, ER.bind]; rw [if_pos h0, hz]⟩
    · exact ⟨y, fun s => by rw [evalE]; simp only [hx, ER.bind]; rw [if_neg h0, hy]⟩
theorem fixed_evalA {sem : Sem Prim State} (lf : Mix → Bool) : ∀ (es : Args Prim), es.uses (Fixed sem) → ∃ vs, ∀ s, evalA lf sem es s = .ok vs s
  | .nil, _ => ⟨[], fun s => by rw [evalA]⟩
  | .cons e rest, h => by
    rw [Args.uses] at h
    obtain ⟨v, hv⟩ := fixed_eval lf e h.1
    obtain ⟨vs, hvs⟩ := fixed_evalA lf rest h.2
    exact ⟨v :: vs, fun s => by simp only [evalA, hv, hvs]⟩
end

mutual
theorem calm_eval {sem : Sem Prim State} : ∀ (e : Expr Prim), e.calm sem → ∀ s, evalE codeOrder sem e s = evalE leftToRight sem e s
  | .const v, _, s => by rw [evalE, evalE]
  | .call p args, h, s => by
    rw [Expr.calm] at h
    rw [evalE, evalE, calm_evalA args h s]
  | .bin m p a b, h, s => by
    rw [Expr.calm] at h
    obtain ⟨ha, hb, hm⟩ := h
    have ea := calm_eval a ha
    have eb := calm_eval b hb
    rw [evalE, evalE]
    simp only [ea, eb, show leftToRight m = true from rfl, if_true]
    cases hc : codeOrder m with
    | true => simp only [if_true]
    | false =>
      simp only [Bool.false_eq_true, if_false]
      rcases hm with rfl | ⟨qa, qb⟩ | fa | fb
      · cases hc
      · obtain ⟨x, hx⟩ := quiet_eval leftToRight a qa s
        obtain ⟨y, hy⟩ := quiet_eval leftToRight b qb s
        simp only [hx, hy, ER.bind]
      · obtain ⟨x, hx⟩ := fixed_eval leftToRight a fa
        simp only [hx, ER.bind]
      · obtain ⟨y, hy⟩ := fixed_eval leftToRight b fb
        simp only [hy, ER.bind]
  | .and a b, h, s => by
    rw [Expr.calm] at h
    rw [evalE, evalE]
    simp only [calm_eval a h.1, calm_eval b h.2]
  | .or a b, h, s => by
    rw [Expr.calm] at h
    rw [evalE, evalE]
    simp only [calm_eval a h.1, calm_eval b h.2]
  | .tern c a b, h, s => by
    rw [Expr.calm] at h
    rw [evalE, evalE]
    simp only [calm_eval c h.1, calm_eval a h.2.1, calm_eval b h.2.2]
theorem calm_evalA {sem : Sem Prim State} : ∀ (es : Args Prim), es.calm sem → ∀ s, evalA codeOrder sem es s = evalA leftToRight sem es s
  | .nil, _, s => by rw [evalA, evalA]
  | .cons e rest, h, s => by
    rw [Args.calm] at h
    rw [evalA, evalA, calm_eval e h.1 s]
    simp only [calm_evalA rest h.2]
end

mutual
theorem calm_exec {sem : Sem Prim State} (N : Nat) : ∀ (st : Stmt Prim), st.calm sem → ∀ s,
    exec codeOrder sem N st s = exec leftToRight sem N st s
  | .skip, _, s => by rw [exec, exec]
  | .brk, _, s => by rw [exec, exec]
  | .cont, _, s => by rw [exec, exec]
  | .ret none, _, s => by rw [exec, exec]
  | .ret (some e), h, s => by
    rw [Stmt.calm] at h
    rw [exec, exec, calm_eval e (h e rfl)]
  | .expr e, h, s => by
    rw [Stmt.calm] at h
    rw [exec, exec, calm_eval e h]
  | .seq a b, h, s => by
    rw [Stmt.calm] at h
    rw [exec, exec, calm_exec N a h.1 s]
    simp only [calm_exec N b h.2]
  | .ite c a b, h, s => by
    rw [Stmt.calm] at h
    rw [exec, exec, calm_eval c h.1]
    simp only [calm_exec N a h.2.1, calm_exec N b h.2.2]
  | .while c body none, h, s => by
    rw [Stmt.calm] at h
    have h1 : evalE codeOrder sem c = evalE leftToRight sem c := funext (calm_eval c h.1)
    have h2 : exec codeOrder sem N body = exec leftToRight sem N body := funext (calm_exec N body h.2.1)
    rw [exec, exec, h1, h2]
  | .while c body (some e), h, s => by
    rw [Stmt.calm] at h
    have h1 : evalE codeOrder sem c = evalE leftToRight sem c := funext (calm_eval c h.1)
    have h2 : exec codeOrder sem N body = exec leftToRight sem N body := funext (calm_exec N body h.2.1)
    have h3 : evalE codeOrder sem e = evalE leftToRight sem e := funext (calm_eval e (h.2.2 e rfl))
    rw [exec, exec, h1, h2]
    simp only [h3]
  | .switch c cases, h, s => by
    rw [Stmt.calm] at h
    rw [exec, exec, calm_eval c h.1]
    simp only [calm_cases N cases h.2]
theorem calm_cases {sem : Sem Prim State} (N : Nat) : ∀ (cs : Cases Prim), cs.calm sem → ∀ sel s,
    execCases codeOrder sem N cs sel s = execCases leftToRight sem N cs sel s
  | .nil, _, sel, s => by rw [execCases, execCases]
  | .cons v body rest, h, sel, s => by
    rw [Cases.calm] at h
    rw [execCases, execCases, calm_exec N body h.1, calm_cases N rest h.2]
end

/-- The functions that are accepted do what they say, from left to right, if that order makes no difference where the backend
takes the right operand first. -/
theorem accepted_code_is_left_to_right_partial {body : Stmt Prim} {P : Nat → List (Instr Prim)} (h : compile body = some P)
    (sem : Sem Prim State) (hc : body.calm sem) (s : State) :
    (∀ N s', exec leftToRight sem N body s = .done .normal s' → ∃ n, run sem P n (start P s) = .returned none s') ∧
    (∀ N v s', exec leftToRight sem N body s = .done (.ret v) s' → ∃ n, run sem P n (start P s) = .returned v s') ∧
    (∀ N s', exec leftToRight sem N body s = .stuck s' → ∃ n, run sem P n (start P s) = .stuck s') ∧
    ((∀ N, exec leftToRight sem N body s = .out) → ∀ n, ∃ c, run sem P n (start P s) = .go c) := by
  obtain ⟨h1, h2, h3, h4, _⟩ := accepted_code_is_faithful h sem s
  simp only [← calm_exec _ body hc]
  exact ⟨h1, h2, h3, h4⟩

end Verif.Flow
