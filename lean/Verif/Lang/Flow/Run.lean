import Verif.Lang.Flow.SimS
/-! # The blocks of statements, run

Source: /repo/src/cxy/lang/backend/llvm/generate.cpp 619-824 and 1041-1129, llvm.cpp 257-266. -/
namespace Verif.Flow

variable {Prim State : Type}

/-- Statements with their code. -/
def SimulatesS (sem : Sem Prim State) (P : Nat → List (Instr Prim)) (ctx : Ctx) (N : Nat) (pend : List Nat) (g : Bld Prim → Bld Prim)
    (ex : State → R State) : Prop :=
  ∀ b, Good b → Open b → Pend pend b → Ok pend (g b) P → ∀ prev regs s,
    Sim sem P ctx N (at_ P (g b)) (at_ P b prev regs s) (ex s) ∧ ∀ s', ex s = .done .normal s' → Open (g b)

theorem open_of_empty {b : Bld Prim} (h : b.code b.cur = []) : Open b := by
  intro i hi
  rw [h] at hi
  cases hi

theorem not_ends {b : Bld Prim} {l : List (Instr Prim)} (ho : Open b) (he : l = b.code b.cur) : endsOnce l ≠ true := by
  intro h
  obtain ⟨i, hi, ht⟩ := endsOnce_term h
  rw [he] at hi
  rw [ho i hi] at ht
  cases ht

/-! ## Conditionals -/

/-- The end of a branch that ends. -/
theorem finish_run {sem : Sem Prim State} {P : Nat → List (Instr Prim)} {pend : List Nat} {t y : Bld Prim} {m k : Nat} (hg : Good t)
    (ho : Open t) (hp : Pend pend t) (hm : m ∉ t.order) (hok : Ok pend (((finish t k).insert m).setCur m) P) (hy : y.cur = k)
    (he : y.code y.cur = []) (prev : Nat) (regs : Nat → Int) (s : State) :
    run sem P 1 (at_ P t prev regs s) = .go (at_ P y t.cur regs s) := by
  cases hd : t.dead with
  | true =>
    exfalso
    have hin : t.cur ∈ (((finish t k).insert m).setCur m).order := by
      show t.cur ∈ (finish t k).order ++ [m]
      rw [finish_order]
      exact List.mem_append_left _ hg.mem
    have hfix := hok.fix t.cur hin (fun e => hm (by rw [← show t.cur = m from e]; exact hg.mem)) (fun h => (hp _ h).2 rfl)
    have he := hok.ends t.cur hin
    refine not_ends ho (hfix.trans ?_) he
    show (finish t k).code t.cur = t.code t.cur
    unfold finish
    rw [if_pos hd]
    rfl
  | false =>
    refine run_br (x := y) ?_ hy he prev regs s
    have hf : finish t k = (t.emit (.br k)).setDead false := by unfold finish; rw [if_neg (by rw [hd]; simp)]
    have := hok.pre
    intro j
    have hj := this j
    rw [hf] at hj
    exact hj

theorem sim_ite {sem : Sem Prim State} {P : Nat → List (Instr Prim)} {ctx : Ctx} {N : Nat} {pend : List Nat} {x y : Bld Prim → Bld Prim}
    {ex ey : State → R State} {b : Bld Prim} (hg : Good b) (hp : Pend pend b) (q : Op)
    (hx : ∀ b, Good b → GenSOk b (x b)) (hy : ∀ b, Good b → GenSOk b (y b))
    (sx : SimulatesS sem P ctx N pend x ex) (sy : SimulatesS sem P ctx N pend y ey) :
    let b0 := b.setDead false
    let b1 := (((b0.create.insert b0.nblk).create.create).emit (.cbr q b0.nblk (b0.nblk + 1))).setCur b0.nblk
    let t := x b1
    let b3 := ((finish t (b0.nblk + 2)).insert (b0.nblk + 1)).setCur (b0.nblk + 1)
    let e := y b3
    let b5 := ((finish e (b0.nblk + 2)).insert (b0.nblk + 2)).setCur (b0.nblk + 2)
    Ok pend b5 P → ∀ prev regs s,
      Sim sem P ctx N (at_ P b5) (at_ P b prev regs s) (if q.val regs = 0 then ey s else ex s) ∧ Open b5 := by
  intro b0 b1 t b3 e b5 hok prev regs s
  have hi : IteOk b b1 t b3 e b5 := ite_ok hg q x y hx hy
  refine ⟨?_, open_of_empty hi.e5⟩
  have he : GenSOk b3 e := hy b3 hi.g3
  have ht : GenSOk b1 t := hx b1 hi.g1
  have oke : Ok pend e P := hok.back hi.a5
  have ok3 : Ok pend b3 P := oke.back (he.grown.after hi.g3)
  have okt : Ok pend t P := ok3.back hi.a3
  have pre1 : Pre (b.emit (.cbr q b.nblk (b.nblk + 1))) P := (okt.pre.back ht.grown.pre : Pre b1 P)
  have p3 : Pend pend b3 := hp.grown hi.s3
  have p1 : Pend pend b1 := hp.grown hi.s1
  by_cases hv : q.val regs = 0
  · rw [if_pos hv]
    have h1 := run_cbr (sem := sem) (x := b3) pre1 prev regs s (k := b.nblk + 1) (by rw [if_pos hv]) rfl hi.e3
    have h2 := sy b3 hi.g3 (open_of_empty hi.e3) p3 oke b.cur regs s
    refine Sim.prefix h1 (Nat.le_add_left _ _) (h2.1.then ?_)
    intro prev' regs' s' hr
    exact ⟨1, e.cur, regs', finish_run he.good (h2.2 s' hr) (p3.grown he.grown) hi.n5 hok rfl hi.e5 prev' regs' s'⟩
  · rw [if_neg hv]
    have h1 := run_cbr (sem := sem) (x := b1) pre1 prev regs s (k := b.nblk) (by rw [if_neg hv]) rfl hi.e1
    have h2 := sx b1 hi.g1 (open_of_empty hi.e1) p1 okt b.cur regs s
    refine Sim.prefix h1 (Nat.le_add_left _ _) (h2.1.then ?_)
    intro prev' regs' s' hr
    exact ⟨1, t.cur, regs', finish_run ht.good (h2.2 s' hr) (p1.grown ht.grown) hi.n3 ok3 rfl hi.e5 prev' regs' s'⟩

/-! ## Loops -/

/-- The rounds of a loop: `A` is the condition, `B` the body, `X` its end, `U` the update and `E` the end of the loop. -/
theorem sim_rounds {sem : Sem Prim State} {P : Nat → List (Instr Prim)} {ctx ctx' : Ctx} {N : Nat}
    {A B X U E : Nat → (Nat → Int) → State → Cfg Prim State} {ec eu : State → ER State} {eb : State → R State} {kb kc : Nat}
    (hc : ∀ prev regs s, match ec s with
      | .ok v s' => ∃ n prev' regs', 1 ≤ n ∧ run sem P n (A prev regs s) = .go ((if v = 0 then E else B) prev' regs' s')
      | .stuck s' => ∃ n, run sem P n (A prev regs s) = .stuck s')
    (hb : ∀ prev regs s, Sim sem P ctx' N X (B prev regs s) (eb s))
    (hbrk : ctx'.loopEnd = some kb) (hE : ∀ prev regs s, (⟨kb, prev, P kb, regs, s, none⟩ : Cfg Prim State) = E prev regs s)
    (hcont : contTarget ctx' = some kc) (hU : ∀ prev regs s, (⟨kc, prev, P kc, regs, s, none⟩ : Cfg Prim State) = U prev regs s)
    (hx : ∀ prev regs s s0, eb s0 = .done .normal s → ∃ n prev' regs', run sem P n (X prev regs s) = .go (U prev' regs' s))
    (hu : ∀ prev regs s, match eu s with
      | .ok _ s' => ∃ n prev' regs', run sem P n (U prev regs s) = .go (A prev' regs' s')
      | .stuck s' => ∃ n, run sem P n (U prev regs s) = .stuck s')
    (hf : ctx'.funcEnd = ctx.funcEnd) : ∀ n, n ≤ N → ∀ prev regs s, Sim sem P ctx n E (A prev regs s) (rounds ec eb eu n s)
  | 0, _, prev, regs, s => ⟨0, _, Nat.le_refl _, rfl⟩
  | n + 1, hn, prev, regs, s => by
    have hc1 := hc prev regs s
    rw [rounds]
    cases h1 : ec s with
    | stuck s' => rw [h1] at hc1; exact hc1
    | ok v s1 =>
      rw [h1] at hc1
      obtain ⟨n1, prev1, regs1, hpos, r1⟩ := hc1
      simp only
      by_cases hv : v = 0
      · rw [if_pos hv] at r1 ⊢
        exact ⟨n1, prev1, regs1, r1⟩
      · rw [if_neg hv] at r1 ⊢
        have hb1 := hb prev1 regs1 s1
        have ih := sim_rounds hc hb hbrk hE hcont hU hx hu hf n (by omega)
        have again : ∀ m c prev2 regs2 s2, run sem P m c = .go (U prev2 regs2 s2) → 1 ≤ m →
            Sim sem P ctx (n + 1) E c (match eu s2 with | .stuck s' => .stuck s' | .ok _ s3 => rounds ec eb eu n s3) := by
          intro m c prev2 regs2 s2 hm hm1
          have hu1 := hu prev2 regs2 s2
          cases h3 : eu s2 with
          | stuck s' =>
            rw [h3] at hu1
            obtain ⟨j, hj⟩ := hu1
            exact ⟨m + j, by rw [run_add hm, hj]⟩
          | ok w s3 =>
            rw [h3] at hu1
            obtain ⟨j, prev3, regs3, hj⟩ := hu1
            refine Sim.prefix (n := m + j) (N := n) (c' := A prev3 regs3 s3) ?_ (by omega) (ih prev3 regs3 s3)
            rw [run_add hm, hj]
        cases h2 : eb s1 with
        | stuck s' =>
          rw [h2] at hb1
          obtain ⟨m, hm⟩ := hb1
          exact ⟨n1 + m, by rw [run_add r1, hm]⟩
        | out =>
          rw [h2] at hb1
          obtain ⟨m, c2, hle, hm⟩ := hb1
          exact ⟨n1 + m, c2, by omega, by rw [run_add r1, hm]⟩
        | done o s2 =>
          rw [h2] at hb1
          cases o with
          | brk =>
            obtain ⟨k, m, prev2, regs2, hk, hm⟩ := hb1
            rw [hbrk] at hk
            cases hk
            refine ⟨n1 + m, prev2, regs2, ?_⟩
            rw [run_add r1, hm, hE]
          | ret w =>
            obtain ⟨m, prev2, regs2, hm⟩ := hb1
            refine ⟨n1 + m, prev2, regs2, ?_⟩
            rw [run_add r1, hm, hf]
          | cont =>
            obtain ⟨k, m, prev2, regs2, hk, hm⟩ := hb1
            rw [hcont] at hk
            cases hk
            rw [hU] at hm
            exact again (n1 + m) _ prev2 regs2 s2 (by rw [run_add r1, hm]) (by omega)
          | normal =>
            obtain ⟨m, prev2, regs2, hm⟩ := hb1
            obtain ⟨j, prev3, regs3, hj⟩ := hx prev2 regs2 s2 s1 h2
            exact again (n1 + m + j) _ prev3 regs3 s2 (by rw [Nat.add_assoc, run_add r1, run_add hm, hj]) (by omega)

/-- The meaning of the update. -/
def updateSem (eu : Option (State → ER State)) (s : State) : ER State :=
  match eu with
  | some f => f s
  | none => .ok 0 s

theorem sim_while {sem : Sem Prim State} {P : Nat → List (Instr Prim)} {ctx ctx' : Ctx} {N : Nat} {pend : List Nat}
    {c : Bld Prim → Op × Bld Prim} {body : Bld Prim → Bld Prim} {u : Option (Bld Prim → Op × Bld Prim)} {ec : State → ER State}
    {eb : State → R State} {eu : Option (State → ER State)} {b : Bld Prim} (hg : Good b) (hp : Pend pend b)
    (hc : ∀ b, Good b → GenOk b (c b).2) (hb : ∀ b, Good b → GenSOk b (body b)) (hu : ∀ g, u = some g → ∀ b, Good b → GenOk b (g b).2)
    (sc : Simulates sem P c ec) (sb : SimulatesS sem P ctx' N pend body eb)
    (su : ∀ g, u = some g → ∃ f, eu = some f ∧ Simulates sem P g f) (sn : u = none → eu = none)
    (hend : ctx'.loopEnd = some (b.nblk + 2)) (hcont : contTarget ctx' = some (if u.isSome then b.nblk + 3 else b.nblk))
    (hf : ctx'.funcEnd = ctx.funcEnd) :
    let b0 := (b.create.insert b.nblk).create.create
    let b1 := match u with | some _ => b0.create | none => b0
    let b2 := (b1.emit (.br b.nblk)).setCur b.nblk
    let q := c b2
    let b3 := q.2.emit (.cbr q.1 (b.nblk + 1) (b.nblk + 2))
    let b4 := (b3.insert (b.nblk + 1)).setCur (b.nblk + 1)
    let x := body b4
    let y := genUpdate u (b.nblk + 3) x
    let b8 := ((y.emit (.br b.nblk)).insert (b.nblk + 2)).setCur (b.nblk + 2)
    Ok pend b8 P → ∀ prev regs s,
      Sim sem P ctx N (at_ P b8) (at_ P b prev regs s) (rounds ec eb (updateSem eu) N s) ∧ Open b8 := by
  intro b0 b1 b2 q b3 b4 x y b8 hok prev regs s
  obtain ⟨hw, hsome, hnone⟩ := while_ok hg c body u hc hb hu
  refine ⟨?_, open_of_empty hw.e8⟩
  have hq : GenOk b2 q.2 := hc b2 hw.g2
  have hx : GenSOk b4 x := hb b4 hw.g4
  have okx : Ok pend x P := hok.back (hw.ay.trans hw.a8)
  have pre4 : Pre b3 P := (okx.pre.back hx.grown.pre : Pre b4 P)
  have preq : Pre q.2 P := pre4.back ((After.refl q.2).emit _).pre
  have pre2 : Pre b2 P := preq.back hq.grown.pre
  have prey : Pre (y.emit (.br b.nblk)) P := hok.pre
  -- into the loop
  have hb1 : b1.cur = b.cur ∧ b1.code = b.code := by
    cases u with
    | none => exact ⟨rfl, rfl⟩
    | some g => exact ⟨rfl, rfl⟩
  have hin : run sem P 1 (at_ P b prev regs s) = .go (at_ P b2 b1.cur regs s) := by
    have : at_ P b1 prev regs s = at_ P b prev regs s := by unfold at_; rw [hb1.1, hb1.2]
    rw [← this]
    exact run_br (b := b1) (x := b2) (pre2 : Pre (b1.emit (.br b.nblk)) P) rfl hw.e2 prev regs s
  refine Sim.prefix hin (Nat.le_add_left _ _) ?_
  have hcond : ∀ prev regs s, match ec s with
      | .ok v s' => ∃ n prev' regs', 1 ≤ n ∧ run sem P n (at_ P b2 prev regs s) = .go ((if v = 0 then at_ P b8 else at_ P b4) prev' regs' s')
      | .stuck s' => ∃ n, run sem P n (at_ P b2 prev regs s) = .stuck s' := by
    intro prev regs s
    have h := sc b2 hw.g2 preq prev regs s
    cases he : ec s with
    | stuck s' => rw [he] at h; exact h
    | ok v s' =>
      rw [he] at h
      obtain ⟨n, prev', regs', hr, hv, _⟩ := h
      have hv : q.1.val regs' = v := hv
      by_cases h0 : v = 0
      · refine ⟨n + 1, q.2.cur, regs', by omega, ?_⟩
        rw [run_add hr, if_pos h0]
        exact run_cbr (b := q.2) (x := b8) pre4 prev' regs' s' (k := b.nblk + 2) (by rw [hv, if_pos h0]) rfl hw.e8
      · refine ⟨n + 1, q.2.cur, regs', by omega, ?_⟩
        rw [run_add hr, if_neg h0]
        exact run_cbr (b := q.2) (x := b4) pre4 prev' regs' s' (k := b.nblk + 1) (by rw [hv, if_neg h0]) rfl hw.e4
  have p4 : Pend pend b4 := hp.grown hw.s4
  have hbody : ∀ prev regs s, Sim sem P ctx' N (at_ P x) (at_ P b4 prev regs s) (eb s) :=
    fun prev regs s => (sb b4 hw.g4 (open_of_empty hw.e4) p4 okx prev regs s).1
  have hE : ∀ prev regs s, (⟨b.nblk + 2, prev, P (b.nblk + 2), regs, s, none⟩ : Cfg Prim State) = at_ P b8 prev regs s :=
    fun prev regs s => (at_enter rfl hw.e8 prev regs s).symm
  cases hu0 : u with
  | none =>
    rw [hu0] at hcont
    obtain ⟨_, hyx⟩ := hnone hu0
    have hyx : y = x := hyx
    rw [hyx] at prey
    rw [sn hu0]
    refine sim_rounds (U := at_ P b2) (eu := updateSem none) (kc := b.nblk) hcond hbody hend hE hcont (fun prev regs s => (at_enter rfl hw.e2 prev regs s).symm)
      (fun prev regs s s0 _ => ⟨1, x.cur, regs, run_br (b := x) (x := b2) prey rfl hw.e2 prev regs s⟩)
      (fun prev regs s => ⟨0, prev, regs, rfl⟩) hf N (Nat.le_refl _) _ _ _
  | some g =>
    rw [hu0] at hcont
    obtain ⟨eu0, cu, hy⟩ := hsome g hu0
    obtain ⟨f, hf1, sf⟩ := su g hu0
    rw [hf1]
    let bu := ((x.emit (.br (b.nblk + 3))).insert (b.nblk + 3)).setCur (b.nblk + 3)
    have hbu : preUpdate u (b.nblk + 3) x = bu := by rw [hu0]; rfl
    have gu : Good (preUpdate u (b.nblk + 3) x) := hw.gu
    have eu0 : (preUpdate u (b.nblk + 3) x).code (preUpdate u (b.nblk + 3) x).cur = [] := eu0
    have hy : y = (g (preUpdate u (b.nblk + 3) x)).2 := hy
    rw [hbu] at gu eu0 hy
    have hgy : GenOk bu (g bu).2 := hu g hu0 bu gu
    have preyy : Pre (g bu).2 P := by
      rw [← hy]
      exact hok.pre.back hw.a8.pre
    have preu : Pre (x.emit (.br (b.nblk + 3))) P := (preyy.back hgy.grown.pre : Pre bu P)
    refine sim_rounds (U := at_ P bu) (eu := updateSem (some f)) (kc := b.nblk + 3) hcond hbody hend hE hcont (fun prev regs s => (at_enter rfl eu0 prev regs s).symm)
      (fun prev regs s s0 _ => ⟨1, x.cur, regs, run_br (b := x) (x := bu) preu rfl eu0 prev regs s⟩) ?_ hf N (Nat.le_refl _) _ _ _
    intro prev regs s
    have h := sf bu gu preyy prev regs s
    show match f s with | .ok _ s' => _ | .stuck s' => _
    cases he : f s with
    | stuck s' => rw [he] at h; exact h
    | ok v s' =>
      rw [he] at h
      obtain ⟨n, prev', regs', hr, _, _⟩ := h
      refine ⟨n + 1, y.cur, regs', ?_⟩
      rw [run_add hr, ← hy]
      exact run_br (b := y) (x := b2) prey rfl hw.e2 prev' regs' s'

/-! ## Cases -/

theorem open_not_back {b : Bld Prim} (hg : Good b) (ho : Open b) : b.backTerminated = false := by
  unfold Bld.backTerminated
  rw [hg.last]
  simp only
  cases h : (b.code b.cur).getLast? with
  | none => rfl
  | some i => exact ho i (List.mem_of_getLast? h)

/-- The block that was made for a kind of case: `none` is the default. -/
def pick (r : List (Int × Nat) × Option Nat × Bld Prim) : Option Int → Option Nat
  | some v => (r.1.find? fun e => decide (e.1 = v)).map (·.2)
  | none => r.2.1

/-- What the machine does when the cases give `r`. -/
def SimC (sem : Sem Prim State) (P : Nat → List (Instr Prim)) (ctx : Ctx) (N : Nat) (y : Bld Prim) (k : Option Nat) (s : State) :
    Option (R State) → Prop
  | some r => ∃ j, k = some j ∧ ∀ prev regs, Sim sem P ctx N (at_ P y) ⟨j, prev, P j, regs, s, none⟩ r
  | none => k = none

theorem sim_case {sem : Sem Prim State} {P : Nat → List (Instr Prim)} {ctx : Ctx} {N : Nat} {pend : List Nat} {body : Bld Prim → Bld Prim}
    {ex : State → R State} {b y : Bld Prim} {e : Nat} (hg : Good b) (hp : ∀ k ∈ pend, k < b.nblk)
    (hb : ∀ b, Good b → GenSOk b (body b)) (sb : SimulatesS sem P ctx N pend body ex)
    (hok : Ok pend (closeCase (body ((b.create.insert b.nblk).setCur b.nblk)) e) P) (hy : y.cur = e) (he : y.code y.cur = []) (s : State)
    (prev : Nat) (regs : Nat → Int) :
    Sim sem P ctx N (at_ P y) ⟨b.nblk, prev, P b.nblk, regs, s, none⟩ (ex s) := by
  obtain ⟨g1, e1, s1⟩ := case_ok hg
  have h2 := hb _ g1
  have p1 : Pend pend ((b.create.insert b.nblk).setCur b.nblk) := fun k hk => by
    have := hp k hk
    exact ⟨show k < b.nblk + 1 by omega, show k ≠ b.nblk by omega⟩
  have h3 := sb _ g1 (open_of_empty e1) p1 (hok.back (closeCase_after (After.refl _) e)) prev regs s
  rw [at_enter (b := (b.create.insert b.nblk).setCur b.nblk) rfl e1] at h3
  refine h3.1.then ?_
  intro prev' regs' s' hr
  have ho := h3.2 s' hr
  refine ⟨1, _, regs', run_br (x := y) ?_ hy he prev' regs' s'⟩
  have := hok.pre
  unfold closeCase at this
  rw [if_neg (by rw [open_not_back h2.good ho]; simp)] at this
  exact this

theorem sim_switch {sem : Sem Prim State} {P : Nat → List (Instr Prim)} {ctx : Ctx} {N : Nat} {pend : List Nat} {c : Bld Prim → Op × Bld Prim}
    {cs : Nat → Bld Prim → List (Int × Nat) × Option Nat × Bld Prim} {ec : State → ER State}
    {ecs : (Option Int → Bool) → State → Option (R State)} {b : Bld Prim} (hg : Good b) (ho : Open b) (hp : Pend pend b)
    (hc : ∀ b, Good b → GenOk b (c b).2) (hcs : ∀ e b, Good b → GenSOk b (cs e b).2.2)
    (hkeep : ∀ e b, Good b → ∀ k, k < b.nblk → (cs e b).2.2.code k = b.code k) (sc : Simulates sem P c ec)
    (scs : ∀ e b pend, Good b → (∀ k ∈ pend, k < b.nblk) → Ok pend (cs e b).2.2 P → ∀ y : Bld Prim, y.cur = e → y.code y.cur = [] →
      ∀ w s, SimC sem P ctx N y (pick (cs e b) w) s (ecs (fun x => x = w) s)) :
    let q := c b
    let x := q.2.create
    let r := cs q.2.nblk x
    let b1 := (r.2.2.setCur b.cur).emit (.switch q.1 r.1 (r.2.1.getD q.2.nblk))
    let b2 := (b1.insert q.2.nblk).setCur q.2.nblk
    Ok pend b2 P → ∀ prev regs s,
      Sim sem P ctx N (at_ P b2) (at_ P b prev regs s) (match ec s with
        | .ok v s1 =>
          match ecs (fun x => x = some v) s1 with
          | some r => r
          | none => match ecs (fun x => x = none) s1 with | some r => r | none => .done .normal s1
        | .stuck s1 => .stuck s1) ∧ Open b2 := by
  intro q x r b1 b2 hok prev regs s
  obtain ⟨gx, sx, g2, s2, e2, hno, hin⟩ := switch_ok hg c cs hc hcs
  refine ⟨?_, open_of_empty e2⟩
  have hq : GenOk b q.2 := hc b hg
  have hr : GenSOk x r.2.2 := hcs q.2.nblk x gx
  have hlt := hg.curLt
  have nq := hq.grown.nblk
  have keep : ∀ k, k < q.2.nblk → r.2.2.code k = q.2.code k := fun k hk => hkeep q.2.nblk x gx k (Nat.lt_succ_of_lt hk)
  -- the condition did not leave the block
  have hcur : q.2.cur = b.cur := by
    apply Decidable.byContradiction
    intro hne
    have hm : q.2.cur ∈ r.2.2.order := hr.grown.sub _ hq.good.mem
    have hm2 : q.2.cur ∈ b2.order := List.mem_append_left _ hm
    have hge : b.nblk ≤ q.2.cur := by
      rcases hq.grown.cur with h | h
      · exact absurd h hne
      · exact h
    have hfix := hok.fix q.2.cur hm2 (fun h => by have h : q.2.cur = q.2.nblk := h; have := hq.good.curLt; omega)
      (fun h => by have := (hp _ h).1; omega)
    refine not_ends (hq.opn ho) (hfix.trans ?_) (hok.ends _ hm2)
    refine (code_emit_ne (b := r.2.2.setCur b.cur) hne).trans ?_
    exact keep _ hq.good.curLt
  have pre1 : Pre ((r.2.2.setCur b.cur).emit (.switch q.1 r.1 (r.2.1.getD q.2.nblk))) P := hok.pre
  have prer : Pre r.2.2 P := pre1.back fun k => by
    exact ((After.refl (r.2.2.setCur b.cur)).emit _).pre k
  have preq : Pre q.2 P := prer.back hr.grown.pre
  have okr : Ok (b.cur :: pend) r.2.2 P := by
    refine ⟨prer, fun k hk hc hn => ?_, fun k hk => hok.ends k (List.mem_append_left _ hk), hok.fine⟩
    rw [hok.fix k (List.mem_append_left _ hk) (fun h => by have h : k = q.2.nblk := h; rw [h] at hk; exact hno hk) (fun h => hn (List.mem_cons_of_mem _ h))]
    exact code_emit_ne (b := r.2.2.setCur b.cur) (fun h => hn (by rw [h]; exact List.mem_cons_self))
  have hpend : ∀ k ∈ b.cur :: pend, k < x.nblk := by
    intro k hk
    show k < q.2.nblk + 1
    rcases List.mem_cons.1 hk with rfl | hk
    · omega
    · have := (hp k hk).1; omega
  have hsim := scs q.2.nblk x (b.cur :: pend) gx hpend okr b2 rfl e2
  have h1 := sc b hg preq prev regs s
  cases he : ec s with
  | stuck s' => rw [he] at h1; exact h1
  | ok v s1 =>
    rw [he] at h1
    obtain ⟨n, prev', regs', hrun, hv, _⟩ := h1
    have hv : q.1.val regs' = v := hv
    have hnext : (P q.2.cur).drop (q.2.code q.2.cur).length = .switch q.1 r.1 (r.2.1.getD q.2.nblk) ::
        (P b.cur).drop (((r.2.2.setCur b.cur).emit (.switch q.1 r.1 (r.2.1.getD q.2.nblk))).code b.cur).length := by
      have := next_emit pre1
      rw [hcur, ← keep b.cur (by omega)]
      exact this
    have hjump : run sem P 1 (at_ P q.2 prev' regs' s1) = .go ⟨(pick r (some v)).getD ((pick r none).getD q.2.nblk), q.2.cur,
        P ((pick r (some v)).getD ((pick r none).getD q.2.nblk)), regs', s1, none⟩ := by
      apply run_step
      unfold at_ step
      rw [hnext]
      simp only [jump, pick, hv]
      cases (r.1.find? fun e => decide (e.1 = v)) <;> rfl
    have hto : run sem P (n + 1) (at_ P b prev regs s) = .go ⟨(pick r (some v)).getD ((pick r none).getD q.2.nblk), q.2.cur,
        P ((pick r (some v)).getD ((pick r none).getD q.2.nblk)), regs', s1, none⟩ := by
      rw [run_add hrun, hjump]
    refine Sim.prefix hto (Nat.le_add_left _ _) ?_
    have c1 := hsim (some v) s1
    have c2 := hsim none s1
    simp only
    cases h3 : ecs (fun x => x = some v) s1 with
    | some r1 =>
      rw [h3] at c1
      obtain ⟨j, hj, hs⟩ := c1
      have hj : pick r (some v) = some j := hj
      rw [hj]
      exact hs _ _
    | none =>
      rw [h3] at c1
      have c1 : pick r (some v) = none := c1
      rw [c1]
      simp only
      cases h4 : ecs (fun x => x = none) s1 with
      | some r1 =>
        rw [h4] at c2
        obtain ⟨j, hj, hs⟩ := c2
        have hj : pick r none = some j := hj
        rw [hj]
        exact hs _ _
      | none =>
        rw [h4] at c2
        have c2 : pick r none = none := c2
        rw [c2]
        exact ⟨0, q.2.cur, regs', by rw [at_enter (b := b2) rfl e2]; rfl⟩

/-! ## All statements -/

/-- The end of a jump. -/
theorem run_jump {sem : Sem Prim State} {b : Bld Prim} {P : Nat → List (Instr Prim)} {k : Nat} (h : Pre (b.emit (.br k)) P) (prev : Nat)
    (regs : Nat → Int) (s : State) : run sem P 1 (at_ P b prev regs s) = .go ⟨k, b.cur, P k, regs, s, none⟩ := by
  apply run_step
  unfold at_ step
  rw [next_emit h]
  rfl

mutual
theorem simS (sem : Sem Prim State) (P : Nat → List (Instr Prim)) (N : Nat) : ∀ (st : Stmt Prim) (ctx : Ctx) (pend : List Nat),
    SimulatesS sem P ctx N pend (genS ctx st) (exec codeOrder sem N st)
  | .skip, ctx, pend => by
    intro b hg ho hp hok prev regs s
    rw [genS, exec]
    exact ⟨⟨0, prev, regs, rfl⟩, fun _ _ => ho⟩
  | .seq x y, ctx, pend => by
    intro b hg ho hp hok prev regs s
    rw [genS] at hok ⊢
    rw [exec]
    have hx := genS_ok x ctx b hg
    have hy := genS_ok y ctx _ hx.good
    have okx := hok.back (hy.grown.after hx.good)
    have h1 := simS sem P N x ctx pend b hg ho hp okx prev regs s
    cases h : exec codeOrder sem N x s with
    | stuck s' => rw [h] at h1; exact ⟨h1.1, fun _ e => by cases e⟩
    | out => rw [h] at h1; exact ⟨h1.1, fun _ e => by cases e⟩
    | done o s1 =>
      rw [h] at h1
      cases o with
      | normal =>
        obtain ⟨⟨n, prev1, regs1, hr⟩, ho1⟩ := h1
        have h2 := simS sem P N y ctx pend _ hx.good (ho1 s1 rfl) (hp.grown hx.grown) hok prev1 regs1 s1
        exact ⟨Sim.prefix hr (Nat.le_add_left _ _) h2.1, h2.2⟩
      | brk => exact ⟨h1.1, fun _ e => by cases e⟩
      | cont => exact ⟨h1.1, fun _ e => by cases e⟩
      | ret v => exact ⟨h1.1, fun _ e => by cases e⟩
  | .expr e, ctx, pend => by
    intro b hg ho hp hok prev regs s
    rw [genS] at hok ⊢
    rw [exec]
    have h := simE sem P e b hg hok.pre prev regs s
    have hgo := genE_ok e b hg
    cases he : evalE codeOrder sem e s with
    | stuck s' => rw [he] at h; exact ⟨h, fun _ e => by cases e⟩
    | ok v s1 =>
      rw [he] at h
      obtain ⟨n, prev', regs', hr, _, _⟩ := h
      exact ⟨⟨n, prev', regs', hr⟩, fun _ _ => hgo.opn ho⟩
  | .ret none, ctx, pend => by
    intro b hg ho hp hok prev regs s
    rw [genS] at hok ⊢
    rw [exec]
    exact ⟨⟨1, b.cur, regs, run_jump (hok.pre : Pre (b.emit (.br ctx.funcEnd)) P) prev regs s⟩, fun _ e => by cases e⟩
  | .ret (some e), ctx, pend => by
    intro b hg ho hp hok prev regs s
    rw [genS] at hok ⊢
    rw [exec]
    have pre2 : Pre (((genE e b).2.emit (.setres (genE e b).1)).emit (.br ctx.funcEnd)) P := hok.pre
    have pre1 : Pre ((genE e b).2.emit (.setres (genE e b).1)) P := pre2.back ((After.refl _).emit _).pre
    have pre0 : Pre (genE e b).2 P := pre1.back ((After.refl _).emit _).pre
    have h := simE sem P e b hg pre0 prev regs s
    cases he : evalE codeOrder sem e s with
    | stuck s' => rw [he] at h; exact ⟨h, fun _ e => by cases e⟩
    | ok v s1 =>
      rw [he] at h
      obtain ⟨n, prev', regs', hr, hv, _⟩ := h
      refine ⟨⟨n + 2, (genE e b).2.cur, regs', ?_⟩, fun _ e => by cases e⟩
      rw [run_add hr]
      have n1 := next_emit pre1
      have n2 : (P (genE e b).2.cur).drop (((genE e b).2.emit (.setres (genE e b).1)).code (genE e b).2.cur).length = _ := next_emit pre2
      have hv : (genE e b).1.val regs' = v := hv
      simp only [run, step, at_, n1, n2, jump, hv]
  | .ite c x y, ctx, pend => by
    intro b hg ho hp hok prev regs s
    rw [genS] at hok ⊢
    rw [exec]
    have hc := genE_ok c b hg
    have hi := ite_ok hc.good (genE c b).1 (genS ctx x) (genS ctx y) (genS_ok x ctx) (genS_ok y ctx)
    have hs := sim_ite hc.good (hp.grown hc.grown) (genE c b).1 (genS_ok x ctx) (genS_ok y ctx) (simS sem P N x ctx pend) (simS sem P N y ctx pend) hok
    have h := simE sem P c b hg (hok.pre.back hi.s5.pre) prev regs s
    cases he : evalE codeOrder sem c s with
    | stuck s' => rw [he] at h; exact ⟨h, fun _ e => by cases e⟩
    | ok v s1 =>
      rw [he] at h
      obtain ⟨n, prev', regs', hr, hv, _⟩ := h
      have hv : (genE c b).1.val regs' = v := hv
      have h2 := hs prev' regs' s1
      rw [hv] at h2
      exact ⟨Sim.prefix hr (Nat.le_add_left _ _) h2.1, fun _ _ => h2.2⟩
  | .brk, ctx, pend => by
    intro b hg ho hp hok prev regs s
    rw [genS] at hok ⊢
    rw [exec]
    cases hk : ctx.loopEnd with
    | none =>
      rw [hk] at hok
      have := hok.fine
      cases this
    | some k =>
      rw [hk] at hok
      exact ⟨⟨k, 1, b.cur, regs, hk, run_jump (hok.pre : Pre (b.emit (.br k)) P) prev regs s⟩, fun _ e => by cases e⟩
  | .cont, ctx, pend => by
    intro b hg ho hp hok prev regs s
    rw [genS] at hok ⊢
    rw [exec]
    cases h1 : ctx.loopCondition with
    | none =>
      rw [h1] at hok
      have := hok.fine
      cases this
    | some j =>
      rw [h1] at hok
      cases h2 : ctx.loopUpdate with
      | none =>
        rw [h2] at hok
        exact ⟨⟨j, 1, b.cur, regs, by simp [contTarget, h1, h2], run_jump (hok.pre : Pre (b.emit (.br j)) P) prev regs s⟩, fun _ e => by cases e⟩
      | some k =>
        rw [h2] at hok
        exact ⟨⟨k, 1, b.cur, regs, by simp [contTarget, h1, h2], run_jump (hok.pre : Pre (b.emit (.br k)) P) prev regs s⟩, fun _ e => by cases e⟩
  | .while c body none, ctx, pend => by
    intro b hg ho hp hok prev regs s
    rw [genS] at hok ⊢
    rw [exec]
    have h := sim_while (ctx := ctx) (u := none) (eu := none) (ctx' := ⟨none, some b.nblk, some (b.nblk + 2), ctx.funcEnd⟩) hg hp (genE_ok c)
      (genS_ok body _) (fun g h => by cases h) (simE sem P c) (simS sem P N body _ pend) (fun g h => by cases h) (fun _ => rfl) rfl rfl rfl
      hok prev regs s
    exact ⟨h.1, fun _ _ => h.2⟩
  | .while c body (some e), ctx, pend => by
    intro b hg ho hp hok prev regs s
    rw [genS] at hok ⊢
    rw [exec]
    have h := sim_while (ctx := ctx) (u := some (genE e)) (eu := some (evalE codeOrder sem e))
      (ctx' := ⟨some (b.nblk + 3), some b.nblk, some (b.nblk + 2), ctx.funcEnd⟩) hg hp (genE_ok c)
      (genS_ok body _) (fun g h => by cases h; exact genE_ok e) (simE sem P c) (simS sem P N body _ pend)
      (fun g h => by cases h; exact ⟨_, rfl, simE sem P e⟩) (fun h => by cases h) rfl rfl rfl hok prev regs s
    exact ⟨h.1, fun _ _ => h.2⟩
  | .switch c cases, ctx, pend => by
    intro b hg ho hp hok prev regs s
    rw [genS] at hok ⊢
    rw [exec]
    have h := sim_switch (ctx := ctx) (cs := fun e => genCases ctx e cases) (ecs := execCases codeOrder sem N cases) hg ho hp (genE_ok c)
      (fun e => genCases_ok cases ctx e) (fun e => genCases_keep ctx e cases) (simE sem P c) (simCases sem P N cases ctx) hok prev regs s
    exact ⟨h.1, fun _ _ => h.2⟩
theorem simCases (sem : Sem Prim State) (P : Nat → List (Instr Prim)) (N : Nat) : ∀ (cs : Cases Prim) (ctx : Ctx) (e : Nat) (b : Bld Prim)
    (pend : List Nat), Good b → (∀ k ∈ pend, k < b.nblk) → Ok pend (genCases ctx e cs b).2.2 P → ∀ y : Bld Prim, y.cur = e →
    y.code y.cur = [] → ∀ w s, SimC sem P ctx N y (pick (genCases ctx e cs b) w) s (execCases codeOrder sem N cs (fun x => x = w) s)
  | .nil, ctx, e, b, pend, hg, hp, hok, y, hy, he, w, s => by
    rw [genCases, execCases]
    cases w <;> rfl
  | .cons v body rest, ctx, e, b, pend, hg, hp, hok, y, hy, he, w, s => by
    rw [genCases_cons] at hok ⊢
    rw [execCases]
    obtain ⟨g1, _, s1⟩ := case_ok hg
    have h2 := genS_ok body ctx _ g1
    have g3 := closeCase_good h2.good e
    have s3 := closeCase_grown (s1.trans h2.grown) e
    have h4 := genCases_ok rest ctx e _ g3
    have okr : Ok pend (genCases ctx e rest (closeCase (genS ctx body ((b.create.insert b.nblk).setCur b.nblk)) e)).2.2 P := by
      cases v with
      | some v => exact hok
      | none =>
        simp only at hok
        split at hok
        · have := hok.fine
          cases this
        · exact hok
    have ok3 := okr.back (h4.grown.after g3)
    have hcase := sim_case hg hp (genS_ok body ctx) (simS sem P N body ctx pend) ok3 hy he s
    have hrest := simCases sem P N rest ctx e _ pend g3 (fun k hk => Nat.lt_of_lt_of_le (hp k hk) s3.nblk) okr y hy he w s
    by_cases hw : v = w
    · subst hw
      simp only [decide_true, if_true]
      refine ⟨b.nblk, ?_, hcase⟩
      cases v with
      | none => rfl
      | some v => simp [pick]
    · simp only [decide_eq_true_eq, hw, if_false]
      cases v with
      | none =>
        cases w with
        | none => exact absurd rfl hw
        | some w => exact hrest
      | some v =>
        cases w with
        | none => exact hrest
        | some w =>
          have hne : v ≠ w := fun h => hw (by rw [h])
          have : pick ((v, b.nblk) :: (genCases ctx e rest (closeCase (genS ctx body ((b.create.insert b.nblk).setCur b.nblk)) e)).1,
              (genCases ctx e rest (closeCase (genS ctx body ((b.create.insert b.nblk).setCur b.nblk)) e)).2.1,
              (genCases ctx e rest (closeCase (genS ctx body ((b.create.insert b.nblk).setCur b.nblk)) e)).2.2) (some w) =
            pick (genCases ctx e rest (closeCase (genS ctx body ((b.create.insert b.nblk).setCur b.nblk)) e)) (some w) := by
            simp [pick, hne]
          show SimC sem P ctx N y (pick (_, _, _) (some w)) s _
          rw [this]
          exact hrest
end

end Verif.Flow
