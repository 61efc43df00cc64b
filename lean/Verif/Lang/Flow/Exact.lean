import Verif.Lang.Flow.Accept
/-! # Which functions are accepted, exactly

Source: /repo/src/cxy/lang/backend/llvm/generate.cpp 619-824 and 1041-1129, llvm.cpp 257-266. -/
namespace Verif.Flow

variable {Prim State : Type}

theorem flowE_opens {e : Expr Prim} {k k' : Kind} (h : flowE e k = some k') (hk : k.opens = true) : k'.opens = true := by
  unfold flowE at h
  rw [hk] at h
  simp only [if_true] at h
  split at h
  · cases h; exact hk
  · cases h
    split
    · rfl
    · exact hk

mutual
theorem flat_resets : ∀ (e : Expr Prim), e.flat = true → e.resets = false
  | .const _, _ => rfl
  | .call _ args, h => by rw [Expr.resets]; exact flatA_resets args h
  | .bin _ _ a b, h => by
    rw [Expr.flat, Bool.and_eq_true] at h
    rw [Expr.resets, flat_resets a h.1, flat_resets b h.2]; rfl
  | .and _ _, h => by cases h
  | .or _ _, h => by cases h
  | .tern .., h => by cases h
theorem flatA_resets : ∀ (es : Args Prim), es.flat = true → es.resets = false
  | .nil, _ => rfl
  | .cons e rest, h => by
    rw [Args.flat, Bool.and_eq_true] at h
    rw [Args.resets, flat_resets e h.1, flatA_resets rest h.2]; rfl
end

theorem goes_while {ctx : Ctx} (c : Expr Prim) (body : Stmt Prim) (u : Option (Expr Prim)) {pend : List Nat} {b : Bld Prim} {k : Kind}
    (hg : Good b) (hp : Pend pend b) (h : St pend b k)
    (fb : ∀ pend b k, Good b → Pend pend b → St pend b k → Goes pend (genS ctx body b) (flow true body k)) :
    let b0 := (b.create.insert b.nblk).create.create
    let b1 := match u.map genE with | some _ => b0.create | none => b0
    let b2 := (b1.emit (.br b.nblk)).setCur b.nblk
    let q := genE c b2
    let b3 := q.2.emit (.cbr q.1 (b.nblk + 1) (b.nblk + 2))
    let b4 := (b3.insert (b.nblk + 1)).setCur (b.nblk + 1)
    let x := genS ctx body b4
    let y := genUpdate (u.map genE) (b.nblk + 3) x
    let b8 := ((y.emit (.br b.nblk)).insert (b.nblk + 2)).setCur (b.nblk + 2)
    Goes pend b8 (if k.opens then
        (flowE c k).bind fun k1 => (flow true body k1).bind fun k2 =>
          if k2.opens then (match u with | some e => flowE e k2 | none => some k2) else none
      else none) := by
  intro b0 b1 b2 q b3 b4 x y b8
  obtain ⟨hw, hsome, hnone⟩ := while_ok hg (genE c) (genS ctx body) (u.map genE) (genE_ok c) (genS_ok body ctx) (by
    intro g hgu b hb
    cases u with
    | none => cases hgu
    | some e => cases hgu; exact genE_ok e b hb)
  have hq : GenOk b2 q.2 := genE_ok c b2 hw.g2
  have hx : GenSOk b4 x := genS_ok body ctx b4 hw.g4
  have a8 : After x b8 := hw.ay.trans hw.a8
  -- what cannot be repaired stays
  have d4 : Dbl q.2 → Dbl b8 := fun hd =>
    (((hd.grown ((Grown.refl _).emit _)).enter (b.nblk + 1) : Dbl b4).grown hx.grown).after a8
  have d2 : Dbl (b1.emit (.br b.nblk)) → Dbl b8 := fun hd =>
    d4 (Dbl.grown (b := b2) (hd.on (fun _ => List.prefix_rfl) (fun _ h => h) (fun h => h)) hq.grown)
  have hb1 : b1.cur = b.cur ∧ b1.code = b.code ∧ b1.dead = b.dead ∧ b1.failed = b.failed ∧ b1.order = b.order ++ [b.nblk] := by
    cases u with
    | none => exact ⟨rfl, rfl, rfl, rfl, rfl⟩
    | some e => exact ⟨rfl, rfl, rfl, rfl, rfl⟩
  obtain ⟨b1cur, b1code, b1dead, b1failed, b1order⟩ := hb1
  cases hk : k.opens with
  | false =>
    refine Or.inl (d2 (Or.inr ⟨b.cur, ?_, ?_⟩))
    · show b.cur ∈ b1.order
      rw [b1order]
      exact List.mem_append_left _ hg.mem
    · refine doubled_of (h.shut hk) (i := .br b.nblk) ?_
      simp only [Bld.emit, b1cur, b1code, upd_same]
      exact List.prefix_rfl
  | true =>
    simp only [if_true]
    have s2 : St pend b2 k := by
      refine ⟨fun j hj hc hpj => ?_, by show b1.failed = false; rw [b1failed, h.sound], by show b1.dead = _; rw [b1dead, h.dead],
        fun _ => open_of_empty hw.e2, fun e => by rw [hk] at e; cases e⟩
      have hj : j ∈ b1.order := hj
      rw [b1order] at hj
      have hc : j ≠ b.nblk := hc
      show endsOnce ((b1.emit (.br b.nblk)).code j) = true
      rcases List.mem_append.1 hj with hj | hj
      · by_cases e : j = b.cur
        · simp only [Bld.emit, b1cur, b1code, e, upd_same]
          exact ends_snoc (h.opn hk) rfl
        · rw [code_emit_ne (by rw [b1cur]; exact e), b1code]
          exact h.fine j hj e hpj
      · exact absurd (List.mem_singleton.1 hj) hc
    have gc := flowE_goes pend c hw.g2 s2
    cases h1 : flowE c k with
    | none =>
      rw [h1] at gc
      exact Or.inl (d4 gc)
    | some k1 =>
      rw [h1] at gc
      have gc : St pend q.2 k1 := gc
      have hk1 : k1.opens = true := flowE_opens h1 hk
      have s4 : St pend b4 k1 := gc.next hk1 (i := .cbr q.1 (b.nblk + 1) (b.nblk + 2)) rfl (b.nblk + 1) hw.e4
      have p4 : Pend pend b4 := hp.grown hw.s4
      have gb := fb pend b4 k1 hw.g4 p4 s4
      simp only [Option.bind_some]
      cases h2 : flow true body k1 with
      | none =>
        rw [h2] at gb
        exact Bad.after gb a8
      | some k2 =>
        rw [h2] at gb
        have gb : St pend x k2 := gb
        simp only [Option.bind_some]
        cases hu : u with
        | none =>
          subst hu
          obtain ⟨_, hyx⟩ := hnone rfl
          have hyx : y = x := hyx
          have hb8 : b8 = ((x.emit (.br b.nblk)).insert (b.nblk + 2)).setCur (b.nblk + 2) := by
            show ((y.emit (.br b.nblk)).insert (b.nblk + 2)).setCur (b.nblk + 2) = _
            rw [hyx]
          cases hk2 : k2.opens with
          | false =>
            rw [hb8]
            exact Or.inl ((jump_dbl hx.good gb hk2 _).enter _)
          | true =>
            have e8 := hw.e8
            have e8 : (y.emit (.br b.nblk)).code (b.nblk + 2) = [] := e8
            rw [hyx] at e8
            rw [hb8]
            exact gb.next hk2 rfl (b.nblk + 2) e8
        | some e =>
          subst hu
          obtain ⟨eu, cu, hy⟩ := hsome (genE e) rfl
          have hy : y = (genE e (((x.emit (.br (b.nblk + 3))).insert (b.nblk + 3)).setCur (b.nblk + 3))).2 := hy
          have gu : Good (((x.emit (.br (b.nblk + 3))).insert (b.nblk + 3)).setCur (b.nblk + 3)) := hw.gu
          have hgu := genE_ok e _ gu
          have dy : Dbl y → Dbl b8 := fun hd => (hd.grown ((Grown.refl _).emit _)).enter (b.nblk + 2)
          cases hk2 : k2.opens with
          | false =>
            refine Or.inl (dy ?_)
            rw [hy]
            exact ((jump_dbl hx.good gb hk2 (.br (b.nblk + 3))).enter (b.nblk + 3)).grown hgu.grown
          | true =>
            simp only [if_true]
            have eu : (x.emit (.br (b.nblk + 3))).code (b.nblk + 3) = [] := eu
            have su := gb.next hk2 (i := .br (b.nblk + 3)) rfl (b.nblk + 3) eu
            have gy := flowE_goes pend e gu su
            rw [← hy] at gy
            cases h3 : flowE e k2 with
            | none =>
              rw [h3] at gy
              exact Or.inl (dy gy)
            | some k3 =>
              rw [h3] at gy
              have gy : St pend y k3 := gy
              have hk3 : k3.opens = true := flowE_opens h3 hk2
              exact gy.next hk3 rfl (b.nblk + 2) hw.e8

theorem goes_switch {ctx : Ctx} {inLoop : Bool} (c : Expr Prim) (cs : Cases Prim) {pend : List Nat} {b : Bld Prim} {k : Kind}
    (hg : Good b) (hp : Pend pend b) (h : St pend b k)
    (fc : ∀ e pend b k, Good b → (∀ j ∈ pend, j < b.nblk) → StC pend b k → GoesC pend (genCases ctx e cs b).2.2 (flowCases inLoop cs k)) :
    let q := genE c b
    let x := q.2.create
    let r := genCases ctx q.2.nblk cs x
    let b1 := (r.2.2.setCur b.cur).emit (.switch q.1 r.1 (r.2.1.getD q.2.nblk))
    let b2 := (b1.insert q.2.nblk).setCur q.2.nblk
    Goes pend b2 (if k.opens && c.flat then flowCases inLoop cs k else none) := by
  intro q x r b1 b2
  obtain ⟨gx, sx, g2, s2, e2, hno, hin⟩ := switch_ok hg (genE c) (fun e => genCases ctx e cs) (genE_ok c) (fun e => genCases_ok cs ctx e)
  have hq : GenOk b q.2 := genE_ok c b hg
  have hr : GenSOk x r.2.2 := genCases_ok cs ctx q.2.nblk x gx
  have nq := hq.grown.nblk
  have hlt := hg.curLt
  have hno : q.2.nblk ∉ r.2.2.order := hno
  have keep : ∀ j, j < q.2.nblk → r.2.2.code j = q.2.code j := fun j hj => genCases_keep ctx q.2.nblk cs x gx j (Nat.lt_succ_of_lt hj)
  have d1 : Dbl r.2.2 → Dbl b2 := fun hd =>
    hd.on (fun k => ((After.refl (r.2.2.setCur b.cur)).emit _).pre k) (fun _ hj => List.mem_append_left _ hj) (fun h => h)
  have hmv := genE_moves c b hg
  cases hk : k.opens with
  | false =>
    refine Or.inl (Or.inr ⟨b.cur, List.mem_append_left _ hin, ?_⟩)
    show Doubled (((r.2.2.setCur b.cur).emit (.switch q.1 r.1 (r.2.1.getD q.2.nblk))).code b.cur)
    have hrq : r.2.2.code b.cur = q.2.code b.cur := keep b.cur (by omega)
    have he : ((r.2.2.setCur b.cur).emit (.switch q.1 r.1 (r.2.1.getD q.2.nblk))).code b.cur =
        q.2.code b.cur ++ [.switch q.1 r.1 (r.2.1.getD q.2.nblk)] := by
      simp only [Bld.emit, Bld.setCur, upd_same, hrq]
    rw [he]
    cases hc : c.isConst with
    | true =>
      have hqb : q.2 = b := by
        cases c with
        | const v => show (genE (Expr.const v : Expr Prim) b).2 = b; rw [genE]
        | _ => cases hc
      rw [hqb]
      exact doubled_of (h.shut hk) List.prefix_rfl
    | false =>
      obtain ⟨i, hi⟩ := genE_longer c b hg hc
      exact doubled_of (h.shut hk) (hi.trans (List.prefix_append _ _))
  | true =>
    cases hf : c.flat with
    | false =>
      rw [hf] at hmv
      simp only [Bool.false_eq_true, if_false] at hmv
      have hmv : b.nblk ≤ q.2.cur := hmv
      have hm : q.2.cur ∈ r.2.2.order := hr.grown.sub _ hq.good.mem
      have hcl := hq.good.curLt
      refine Or.inr ⟨q.2.cur, List.mem_append_left _ hm, show q.2.cur ≠ q.2.nblk by omega, fun hh => by have := (hp _ hh).1; omega, ?_⟩
      show ∀ i ∈ ((r.2.2.setCur b.cur).emit _).code q.2.cur, i.isTerm = false
      rw [code_emit_ne (b := r.2.2.setCur b.cur) (show q.2.cur ≠ b.cur by omega)]
      show ∀ i ∈ r.2.2.code q.2.cur, i.isTerm = false
      rw [keep _ hcl]
      exact hq.opn (h.opn hk)
    | true =>
      rw [hf] at hmv
      simp only [if_true] at hmv
      have hmv : q.2.cur = b.cur := hmv
      simp only [Bool.and_self, if_true]
      have hst := flowE_goes pend c hg h
      have hres : flowE c k = some k := by
        unfold flowE
        rw [hk, flat_resets c hf]
        cases c.isConst <;> rfl
      rw [hres] at hst
      have hst : St pend q.2 k := hst
      have gc := fc q.2.nblk (b.cur :: pend) x k gx (by
          intro j hj
          show j < q.2.nblk + 1
          rcases List.mem_cons.1 hj with rfl | hj
          · omega
          · have := (hp j hj).1; omega) ⟨fun j hj hjp => hst.fine j hj
            (by rw [hmv]; exact fun e => hjp (List.mem_cons.2 (Or.inl e))) (fun e => hjp (List.mem_cons_of_mem _ e)), hst.sound, hst.dead, hk⟩
      have gc : GoesC (b.cur :: pend) r.2.2 (flowCases inLoop cs k) := gc
      cases h1 : flowCases inLoop cs k with
      | none =>
        rw [h1] at gc
        rcases gc with hd | ⟨j, hj, hjc, hjp, hjo⟩
        · exact Or.inl (d1 hd)
        · have hjb : j ≠ b.cur := fun e => hjp (List.mem_cons.2 (Or.inl e))
          refine Or.inr ⟨j, List.mem_append_left _ hj, fun e => hno ((show j = q.2.nblk from e) ▸ hj), fun e => hjp (List.mem_cons_of_mem _ e), ?_⟩
          show ∀ i ∈ ((r.2.2.setCur b.cur).emit _).code j, i.isTerm = false
          rw [code_emit_ne (b := r.2.2.setCur b.cur) hjb]
          exact hjo
      | some k' =>
        rw [h1] at gc
        have gc : StC (b.cur :: pend) r.2.2 k' := gc
        refine ⟨fun j hj hc hjp => ?_, gc.sound, gc.dead, fun _ => open_of_empty e2, fun e => by rw [gc.opn] at e; cases e⟩
        have hj : j ∈ r.2.2.order ++ [q.2.nblk] := hj
        have hc : j ≠ q.2.nblk := hc
        rcases List.mem_append.1 hj with hj | hj
        · show endsOnce (((r.2.2.setCur b.cur).emit (.switch q.1 r.1 (r.2.1.getD q.2.nblk))).code j) = true
          by_cases e : j = b.cur
          · rw [e]
            have he : ((r.2.2.setCur b.cur).emit (.switch q.1 r.1 (r.2.1.getD q.2.nblk))).code b.cur =
                q.2.code b.cur ++ [.switch q.1 r.1 (r.2.1.getD q.2.nblk)] := by
              simp only [Bld.emit, Bld.setCur, upd_same, keep b.cur (show b.cur < q.2.nblk by omega)]
            rw [he]
            have ho := hst.opn hk
            unfold Open at ho
            rw [hmv] at ho
            exact ends_snoc ho rfl
          · rw [code_emit_ne (b := r.2.2.setCur b.cur) e]
            exact gc.fine j hj (fun hh => (List.mem_cons.1 hh).elim e hjp)
        · exact absurd (List.mem_singleton.1 hj) hc

mutual
/-- Generating code follows the analysis. -/
theorem flow_goes : ∀ (s : Stmt Prim) (ctx : Ctx) (inLoop : Bool) (pend : List Nat) (b : Bld Prim) (k : Kind), CtxOk ctx inLoop → Good b →
    Pend pend b → St pend b k → Goes pend (genS ctx s b) (flow inLoop s k)
  | .skip, ctx, inLoop, pend, b, k, hc, hg, hp, h => by rw [genS, flow]; exact h
  | .seq x y, ctx, inLoop, pend, b, k, hc, hg, hp, h => by
    rw [genS, flow]
    have h1 := flow_goes x ctx inLoop pend b k hc hg hp h
    have o1 := genS_ok x ctx b hg
    have o2 := genS_ok y ctx _ o1.good
    cases e : flow inLoop x k with
    | none =>
      rw [e] at h1
      exact Bad.after h1 (o2.grown.after o1.good)
    | some k1 =>
      rw [e] at h1
      exact flow_goes y ctx inLoop pend _ k1 hc o1.good (hp.grown o1.grown) h1
  | .expr e, ctx, inLoop, pend, b, k, hc, hg, hp, h => by
    rw [genS, flow]
    have h1 := flowE_goes pend e hg h
    cases e1 : flowE e k with
    | none => rw [e1] at h1; exact Or.inl h1
    | some k1 => rw [e1] at h1; exact h1
  | .ret none, ctx, inLoop, pend, b, k, hc, hg, hp, h => by
    rw [genS, flow]
    cases hk : k.opens with
    | true => exact h.jump hk _
    | false => exact Or.inl ((jump_dbl hg h hk _).on (fun _ => List.prefix_rfl) (fun _ h => h) (fun h => h))
  | .ret (some e), ctx, inLoop, pend, b, k, hc, hg, hp, h => by
    rw [genS, flow]
    have h1 := flowE_goes pend e hg h
    have o1 := genE_ok e b hg
    cases e1 : flowE e k with
    | none =>
      rw [e1] at h1
      exact Or.inl ((Dbl.grown h1 (((Grown.refl _).emit _).emit _)).on (fun _ => List.prefix_rfl) (fun _ h => h) (fun h => h))
    | some k1 =>
      rw [e1] at h1
      have h1 : St pend (genE e b).2 k1 := h1
      simp only [Option.bind_some]
      cases hk : k1.opens with
      | true =>
        have h2 : St pend ((genE e b).2.emit (.setres (genE e b).1)) k1 := by
          refine ⟨h1.fine.emit _, h1.sound, h1.dead, fun _ => ?_, fun e => by rw [hk] at e; cases e⟩
          intro i hi
          simp only [Bld.emit, upd_same, List.mem_append, List.mem_singleton] at hi
          rcases hi with hi | rfl
          · exact h1.opn hk i hi
          · rfl
        exact h2.jump hk _
      | false =>
        exact Or.inl (((jump_dbl o1.good h1 hk _).grown ((Grown.refl _).emit _)).on (fun _ => List.prefix_rfl) (fun _ h => h) (fun h => h))
  | .ite c x y, ctx, inLoop, pend, b, k, hc, hg, hp, h => by
    rw [genS, flow]
    have h1 := flowE_goes pend c hg h
    have o1 := genE_ok c b hg
    have gi := ite_ok o1.good (genE c b).1 (genS ctx x) (genS ctx y) (genS_ok x ctx) (genS_ok y ctx)
    cases e1 : flowE c k with
    | none =>
      rw [e1] at h1
      exact Or.inl (Dbl.grown h1 gi.s5)
    | some k1 =>
      rw [e1] at h1
      have h1 : St pend (genE c b).2 k1 := h1
      simp only [Option.bind_some]
      cases hk : k1.opens with
      | true =>
        exact goes_ite x y o1.good (hp.grown o1.grown) h1 hk (genE c b).1 (fun pend b k hg hp h => flow_goes x ctx inLoop pend b k hc hg hp h)
          (fun pend b k hg hp h => flow_goes y ctx inLoop pend b k hc hg hp h)
      | false =>
        have hd := jump_dbl o1.good h1 hk (.cbr (genE c b).1 (genE c b).2.nblk ((genE c b).2.nblk + 1))
        have ht := genS_ok x ctx _ gi.g1
        have he := genS_ok y ctx _ gi.g3
        refine Or.inl (((((hd.on ?_ ?_ ?_ : Dbl _).grown ht.grown).after gi.a3).grown he.grown).after gi.a5)
        · exact fun _ => List.prefix_rfl
        · exact fun _ hj => List.mem_append_left _ hj
        · exact fun h => h
  | .brk, ctx, inLoop, pend, b, k, hc, hg, hp, h => by
    obtain ⟨h1, h2⟩ := hc
    rw [flow]
    rw [genS]
    cases he : ctx.loopEnd with
    | none =>
      rw [he] at h1
      cases h1
      exact Or.inl (Or.inl rfl)
    | some e =>
      rw [he] at h1
      cases h1
      cases hk : k.opens with
      | true => exact h.jump hk _
      | false => exact Or.inl ((jump_dbl hg h hk _).on (fun _ => List.prefix_rfl) (fun _ h => h) (fun h => h))
  | .cont, ctx, inLoop, pend, b, k, hc, hg, hp, h => by
    obtain ⟨h1, h2⟩ := hc
    rw [flow]
    rw [genS]
    cases he : ctx.loopCondition with
    | none =>
      rw [he] at h2
      cases h2
      exact Or.inl (Or.inl rfl)
    | some e =>
      rw [he] at h2
      cases h2
      cases hu : ctx.loopUpdate with
      | none =>
        cases hk : k.opens with
        | true => exact h.jump hk _
        | false => exact Or.inl ((jump_dbl hg h hk _).on (fun _ => List.prefix_rfl) (fun _ h => h) (fun h => h))
      | some u =>
        cases hk : k.opens with
        | true => exact h.jump hk _
        | false => exact Or.inl ((jump_dbl hg h hk _).on (fun _ => List.prefix_rfl) (fun _ h => h) (fun h => h))
  | .while c body none, ctx, inLoop, pend, b, k, hc, hg, hp, h => by
    rw [genS, flow]
    exact goes_while (ctx := ⟨none, some b.nblk, some (b.nblk + 2), ctx.funcEnd⟩) c body none hg hp h
      (fun pend b k hg hp h => flow_goes body _ true pend b k ⟨rfl, rfl⟩ hg hp h)
  | .while c body (some u), ctx, inLoop, pend, b, k, hc, hg, hp, h => by
    rw [genS, flow]
    exact goes_while (ctx := ⟨some (b.nblk + 3), some b.nblk, some (b.nblk + 2), ctx.funcEnd⟩) c body (some u) hg hp h
      (fun pend b k hg hp h => flow_goes body _ true pend b k ⟨rfl, rfl⟩ hg hp h)
  | .switch c cs, ctx, inLoop, pend, b, k, hc, hg, hp, h => by
    rw [genS, flow]
    exact goes_switch c cs hg hp h (fun e pend b k hg hp h => flowCases_goes cs ctx e inLoop pend b k hc hg hp h)
theorem flowCases_goes : ∀ (cs : Cases Prim) (ctx : Ctx) (e : Nat) (inLoop : Bool) (pend : List Nat) (b : Bld Prim) (k : Kind), CtxOk ctx inLoop →
    Good b → (∀ j ∈ pend, j < b.nblk) → StC pend b k → GoesC pend (genCases ctx e cs b).2.2 (flowCases inLoop cs k)
  | .nil, ctx, e, inLoop, pend, b, k, hc, hg, hp, h => by rw [genCases, flowCases]; exact h
  | .cons v body rest, ctx, e, inLoop, pend, b, k, hc, hg, hp, h => by
    obtain ⟨g1, e1, s1⟩ := case_ok hg
    have s1k : St pend ((b.create.insert b.nblk).setCur b.nblk) k := by
      refine ⟨fun j hj hjc hjp => ?_, h.sound, h.dead, fun _ => open_of_empty e1, fun e => by rw [h.opn] at e; cases e⟩
      have hj : j ∈ b.order ++ [b.nblk] := hj
      rcases List.mem_append.1 hj with hj | hj
      · exact h.fine j hj hjp
      · exact absurd (List.mem_singleton.1 hj) hjc
    have hpe : Pend pend ((b.create.insert b.nblk).setCur b.nblk) := by
      intro j hj
      have := hp j hj
      exact ⟨show j < b.nblk + 1 by omega, show j ≠ b.nblk by omega⟩
    have hb := flow_goes body ctx inLoop pend _ k hc g1 hpe s1k
    have o1 := genS_ok body ctx _ g1
    have g3 := closeCase_good o1.good e
    have o3 := genCases_ok rest ctx e _ g3
    have hfail : (genCases ctx e (.cons v body rest) b).2.2 =
        if v.isNone && !rest.noDefault then (genCases ctx e rest (closeCase (genS ctx body ((b.create.insert b.nblk).setCur b.nblk)) e)).2.2.fail
        else (genCases ctx e rest (closeCase (genS ctx body ((b.create.insert b.nblk).setCur b.nblk)) e)).2.2 := by
      rw [genCases_cons]
      cases v with
      | some v => rfl
      | none =>
        show (if _ then _ else _) = _
        rw [noDefault_iff]
        rfl
    rw [hfail, flowCases]
    cases h1 : flow inLoop body k with
    | none =>
      rw [h1] at hb
      have hbad : Bad pend (genCases ctx e rest (closeCase (genS ctx body ((b.create.insert b.nblk).setCur b.nblk)) e)).2.2 :=
        (Bad.after hb (closeCase_after (After.refl _) e)).after (o3.grown.after g3)
      split
      · exact Or.inl (Or.inl rfl)
      · exact hbad
    | some k1 =>
      rw [h1] at hb
      simp only [Option.bind_some]
      split
      · exact Or.inl (Or.inl rfl)
      · refine flowCases_goes rest ctx e inLoop pend _ k1.again hc g3 ?_ (close_st o1.good hb e)
        intro j hj
        have h2 := (hpe j hj).1
        have h3 := (closeCase_grown o1.grown e).nblk
        omega
end

/-- The end of a function: every block ends, whatever the backend believes about the last one. -/
theorem close_any {b : Bld Prim} {k : Kind} {pend : List Nat} (hg : Good b) (h : St pend (b.setDead k.flag) k) (to : Nat) :
    (∀ j ∈ (closeCase b to).order, j ∉ pend → endsOnce ((closeCase b to).code j) = true) ∧ (closeCase b to).failed = false := by
  have hc := close_st (b := b.setDead k.flag) ⟨hg.fresh, hg.curLt, hg.last, hg.lt⟩ h to
  have e : closeCase (b.setDead k.flag) to = (closeCase b to).setDead k.flag := by
    unfold closeCase
    show (if b.backTerminated then _ else _) = _
    split <;> rfl
  rw [e] at hc
  exact ⟨hc.fine, hc.sound⟩

/-- Exactly the functions on which the analysis succeeds are accepted. -/
theorem accepted_iff (body : Stmt Prim) : (compile body).isSome = (flow false body .on).isSome := by
  have h := flow_goes body ⟨none, none, none, 1⟩ false [] entry .on ⟨rfl, rfl⟩ entry_good (fun _ h => nomatch h)
    ⟨fun j hj hc _ => absurd (List.mem_singleton.1 (show j ∈ [0] from hj)) hc, rfl, rfl, fun _ => open_of_empty rfl, fun e => by cases e⟩
  have hb := genS_ok body ⟨none, none, none, 1⟩ entry entry_good
  have hno : 1 ∉ (genS ⟨none, none, none, 1⟩ body (entry : Bld Prim)).order := by
    intro h1
    rcases hb.grown.ord 1 h1 with h2 | h2
    · have h2 : 1 ∈ [0] := h2
      simp at h2
    · have h2 : 2 ≤ 1 := h2
      omega
  have hcur : (genS ⟨none, none, none, 1⟩ body (entry : Bld Prim)).cur ≠ 1 := fun e => by
    have hm := hb.good.mem
    rw [e] at hm
    exact hno hm
  have hcode : (closeCase (finish (genS ⟨none, none, none, 1⟩ body (entry : Bld Prim)) 1) 1).code 1 = [] := by
    have h1 : (finish (genS ⟨none, none, none, 1⟩ body (entry : Bld Prim)) 1).code 1 = [] := by
      rw [finish_code _ _ hcur.symm, hb.grown.keep 1 (show 1 < 2 by decide) (show 1 ≠ 0 by decide)]
      rfl
    unfold closeCase
    split
    · exact h1
    · refine (code_emit_ne ?_).trans h1
      rw [finish_cur]
      exact hcur.symm
  have hafter : After (genS ⟨none, none, none, 1⟩ body (entry : Bld Prim)) (genFunc body) := by
    rw [genFunc_eq]
    exact ((closeCase_after ((After.refl _).finish 1) 1).enter hno).emit _
  unfold compile
  cases e : flow false body .on with
  | none =>
    rw [e] at h
    have hbad : Bad [] (genFunc body) := Bad.after h hafter
    rw [if_neg]
    · rfl
    · intro hc
      simp only [Bool.and_eq_true, Bool.not_eq_true'] at hc
      obtain ⟨hf, hv⟩ := hc
      unfold verify at hv
      rw [List.all_eq_true] at hv
      rcases hbad with (h1 | ⟨k, hk, hd⟩) | ⟨k, hk, _, _, ho⟩
      · rw [h1] at hf; cases hf
      · have := hv k hk
        rw [doubled_not_ends hd] at this
        cases this
      · obtain ⟨i, hi, ht⟩ := endsOnce_term (hv k hk)
        rw [ho i hi] at ht
        cases ht
  | some k =>
    rw [e] at h
    have h : St [] (genS ⟨none, none, none, 1⟩ body (entry : Bld Prim)) k := h
    have hst : ∃ k', St [] ((finish (genS ⟨none, none, none, 1⟩ body (entry : Bld Prim)) 1).setDead k'.flag) k' := by
      cases k with
      | on =>
        refine ⟨.off, ?_⟩
        have hd := h.dead
        have hd : (genS ⟨none, none, none, 1⟩ body (entry : Bld Prim)).dead = false := hd
        unfold finish
        rw [if_neg (by rw [hd]; simp)]
        exact h.jump rfl 1
      | stale =>
        refine ⟨.stale, ?_⟩
        have hd := h.dead
        have hd : (genS ⟨none, none, none, 1⟩ body (entry : Bld Prim)).dead = true := hd
        unfold finish
        rw [if_pos hd]
        exact ⟨h.fine, h.sound, rfl, h.opn, h.shut⟩
      | off =>
        refine ⟨.off, ?_⟩
        have hd := h.dead
        have hd : (genS ⟨none, none, none, 1⟩ body (entry : Bld Prim)).dead = true := hd
        unfold finish
        rw [if_pos hd]
        exact ⟨h.fine, h.sound, rfl, h.opn, h.shut⟩
    obtain ⟨k', hk'⟩ := hst
    have gf : Good (finish (genS ⟨none, none, none, 1⟩ body (entry : Bld Prim)) 1) := Good.finish hb.good 1
    obtain ⟨h1, h2⟩ := close_any gf hk' 1
    rw [if_pos]
    · rfl
    · simp only [Bool.and_eq_true, Bool.not_eq_true']
      refine ⟨by rw [genFunc_eq]; exact h2, ?_⟩
      unfold verify
      rw [List.all_eq_true, genFunc_eq]
      intro j hj
      rcases List.mem_append.1 (show j ∈ (closeCase (finish (genS ⟨none, none, none, 1⟩ body (entry : Bld Prim)) 1) 1).order ++ [1] from hj) with hj | hj
      · by_cases ej : j = 1
        · subst ej
          simp only [Bld.emit, Bld.setCur, Bld.insert, upd_same, hcode]
          rfl
        · simp only [Bld.emit, Bld.setCur, Bld.insert]
          rw [upd_ne _ _ ej]
          exact h1 j hj (fun h => nomatch h)
      · have ej := List.mem_singleton.1 hj
        subst ej
        simp only [Bld.emit, Bld.setCur, Bld.insert, upd_same, hcode]
        rfl

end Verif.Flow
