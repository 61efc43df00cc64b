import Verif.Lang.Flow.Build
/-! # The blocks of expressions compute their values

Source: /repo/src/cxy/lang/backend/llvm/binary.cpp 16-115, generate.cpp 487-494, 520-548 and 637-693. -/
namespace Verif.Flow

variable {Prim State : Type}

theorem run_add {sem : Sem Prim State} {P : Nat → List (Instr Prim)} : ∀ {n m : Nat} {c c' : Cfg Prim State},
    run sem P n c = .go c' → run sem P (n + m) c = run sem P m c'
  | 0, m, c, c', h => by
    cases h
    rw [Nat.zero_add]
  | n + 1, m, c, c', h => by
    rw [run] at h
    rw [show n + 1 + m = (n + m) + 1 by omega, run]
    cases hs : step sem P c with
    | go c1 =>
      rw [hs] at h
      exact run_add h
    | returned v s => rw [hs] at h; cases h
    | stuck s => rw [hs] at h; cases h
    | ub => rw [hs] at h; cases h

theorem run_step {sem : Sem Prim State} {P : Nat → List (Instr Prim)} {c c' : Cfg Prim State} (h : step sem P c = .go c') :
    run sem P 1 c = .go c' := by
  simp only [run, h]

/-- The machine stands where the builder stood. -/
def at_ (P : Nat → List (Instr Prim)) (b : Bld Prim) (prev : Nat) (regs : Nat → Int) (s : State) : Cfg Prim State :=
  ⟨b.cur, prev, (P b.cur).drop (b.code b.cur).length, regs, s, none⟩

/-- The final code goes on from what the builder has. -/
def Pre (b : Bld Prim) (P : Nat → List (Instr Prim)) : Prop := ∀ k, b.code k <+: P k

theorem Pre.back {b x : Bld Prim} {P : Nat → List (Instr Prim)} (h : Pre x P) (hg : ∀ k, b.code k <+: x.code k) : Pre b P :=
  fun k => (hg k).trans (h k)

/-- The instruction that is appended comes next. -/
theorem next_emit {b : Bld Prim} {P : Nat → List (Instr Prim)} {i : Instr Prim} (h : Pre (b.emit i) P) :
    (P b.cur).drop (b.code b.cur).length = i :: (P b.cur).drop ((b.emit i).code b.cur).length := by
  have := h b.cur
  simp only [Bld.emit, upd_same] at this ⊢
  obtain ⟨t, e⟩ := this
  rw [← e]
  simp

theorem at_enter {P : Nat → List (Instr Prim)} {b : Bld Prim} {k : Nat} (h : b.cur = k) (he : b.code b.cur = []) (prev : Nat)
    (regs : Nat → Int) (s : State) : at_ P b prev regs s = ⟨k, prev, P k, regs, s, none⟩ := by
  unfold at_
  rw [he, h]
  rfl

/-- A jump to a block that the builder enters. -/
theorem run_br {sem : Sem Prim State} {b x : Bld Prim} {P : Nat → List (Instr Prim)} {k : Nat} (h : Pre (b.emit (.br k)) P)
    (hx : x.cur = k) (he : x.code x.cur = []) (prev : Nat) (regs : Nat → Int) (s : State) :
    run sem P 1 (at_ P b prev regs s) = .go (at_ P x b.cur regs s) := by
  apply run_step
  rw [at_enter hx he]
  unfold at_ step
  rw [next_emit h]
  rfl

theorem run_cbr {sem : Sem Prim State} {b x : Bld Prim} {P : Nat → List (Instr Prim)} {o : Op} {yes no k : Nat}
    (h : Pre (b.emit (.cbr o yes no)) P) (prev : Nat) (regs : Nat → Int) (s : State)
    (hk : k = if o.val regs = 0 then no else yes) (hx : x.cur = k) (he : x.code x.cur = []) :
    run sem P 1 (at_ P b prev regs s) = .go (at_ P x b.cur regs s) := by
  apply run_step
  rw [at_enter hx he]
  unfold at_ step
  rw [next_emit h]
  simp only [jump]
  rw [hk]

theorem val_keep {o : Op} {n : Nat} (h : o.below n) {r r' : Nat → Int} (hr : ∀ k, k < n → r' k = r k) : o.val r' = o.val r := by
  cases o with
  | reg k => exact hr k h
  | const => rfl

/-- What the machine does when the blocks of an expression are run. -/
def SimE (sem : Sem Prim State) (P : Nat → List (Instr Prim)) (b x : Bld Prim) (val : (Nat → Int) → Int) (prev : Nat) (regs : Nat → Int)
    (s : State) : ER State → Prop
  | .ok v s' => ∃ n prev' regs', run sem P n (at_ P b prev regs s) = .go (at_ P x prev' regs' s') ∧ val regs' = v ∧
      ∀ r, r < b.nreg → regs' r = regs r
  | .stuck s' => ∃ n, run sem P n (at_ P b prev regs s) = .stuck s'

/-- The last step of a call. -/
theorem sim_call {sem : Sem Prim State} {P : Nat → List (Instr Prim)} {x : Bld Prim} {p : Prim} {ops : List Op}
    (hp : Pre (x.define (fun n => .call n p ops)).2 P) (prev : Nat) (regs : Nat → Int) (s : State) :
    SimE sem P x (x.define (fun n => .call n p ops)).2 (Op.val · (x.define (fun n => .call n p ops)).1) prev regs s
      (callPrim sem p (ops.map (Op.val regs)) s) := by
  unfold callPrim
  have hn := next_emit (b := { x with nreg := x.nreg + 1 }) hp
  cases h : sem p (ops.map (Op.val regs)) s with
  | none =>
    refine ⟨1, ?_⟩
    rw [run]
    have : step sem P (at_ P x prev regs s) = .stuck s := by
      unfold at_ step
      rw [hn]
      simp only
      rw [h]
    rw [this]
  | some r =>
    refine ⟨1, prev, upd regs x.nreg r.1, ?_, ?_, ?_⟩
    · apply run_step
      unfold at_ step
      rw [hn]
      simp only
      rw [h]
      rfl
    · simp [Bld.define, Op.val]
    · intro k hk
      have hk : k < x.nreg := hk
      simp [upd, show k ≠ x.nreg by omega]

theorem SimE.after {sem : Sem Prim State} {P : Nat → List (Instr Prim)} {b x y : Bld Prim} {v1 v2 : (Nat → Int) → Int} {prev : Nat}
    {regs : Nat → Int} {s : State} {r : ER State} {f : Int → State → ER State} (hn : b.nreg ≤ x.nreg)
    (h1 : SimE sem P b x v1 prev regs s r)
    (h2 : ∀ prev' regs' s' v, v1 regs' = v → (∀ k, k < b.nreg → regs' k = regs k) → SimE sem P x y v2 prev' regs' s' (f v s')) :
    SimE sem P b y v2 prev regs s (r.bind f) := by
  cases r with
  | stuck s' => exact h1
  | ok v s' =>
    obtain ⟨n, prev', regs', hr, hv, hk⟩ := h1
    have h2 := h2 prev' regs' s' v hv hk
    show SimE sem P b y v2 prev regs s (f v s')
    cases hf : f v s' with
    | stuck s2 =>
      rw [hf] at h2
      obtain ⟨m, hm⟩ := h2
      exact ⟨n + m, by rw [run_add hr, hm]⟩
    | ok w s2 =>
      rw [hf] at h2
      obtain ⟨m, prev2, regs2, hm, hv2, hk2⟩ := h2
      exact ⟨n + m, prev2, regs2, by rw [run_add hr, hm], hv2, fun k hlt => by rw [hk2 k (by omega), hk k hlt]⟩

/-- Steps before the code of an expression. -/
theorem SimE.prefix {sem : Sem Prim State} {P : Nat → List (Instr Prim)} {b x y : Bld Prim} {v2 : (Nat → Int) → Int} {prev prev' n : Nat}
    {regs : Nat → Int} {s : State} {r : ER State} (hn : b.nreg ≤ x.nreg)
    (h1 : run sem P n (at_ P b prev regs s) = .go (at_ P x prev' regs s)) (h2 : SimE sem P x y v2 prev' regs s r) :
    SimE sem P b y v2 prev regs s r := by
  cases r with
  | stuck s' =>
    obtain ⟨m, hm⟩ := h2
    exact ⟨n + m, by rw [run_add h1, hm]⟩
  | ok v s' =>
    obtain ⟨m, prev2, regs2, hm, hv2, hk2⟩ := h2
    exact ⟨n + m, prev2, regs2, by rw [run_add h1, hm], hv2, fun k hlt => hk2 k (by omega)⟩

/-- The last step of `&&`, `||` and `?:`. -/
theorem sim_phi {sem : Sem Prim State} {P : Nat → List (Instr Prim)} {x : Bld Prim} {inc : List (Op × Nat)} {o : Op} {prev : Nat}
    (hp : Pre (x.define (fun n => .phi n inc)).2 P) (hf : inc.find? (fun e => decide (e.2 = prev)) = some (o, prev)) (regs : Nat → Int)
    (s : State) :
    SimE sem P x (x.define (fun n => .phi n inc)).2 (Op.val · (x.define (fun n => .phi n inc)).1) prev regs s (.ok (o.val regs) s) := by
  have hn := next_emit (b := { x with nreg := x.nreg + 1 }) hp
  refine ⟨1, prev, upd regs x.nreg (o.val regs), ?_, ?_, ?_⟩
  · apply run_step
    unfold at_ step
    rw [hn]
    simp only
    rw [hf]
    rfl
  · simp [Bld.define, Op.val]
  · intro k hk
    have hk : k < x.nreg := hk
    simp [upd, show k ≠ x.nreg by omega]

theorem ER.bind_ok_right (r : ER State) : r.bind (fun v s => .ok v s) = r := by cases r <;> rfl

/-- Expressions with their code, for a part of the program. -/
def Simulates (sem : Sem Prim State) (P : Nat → List (Instr Prim)) (g : Bld Prim → Op × Bld Prim) (ev : State → ER State) : Prop :=
  ∀ b, Good b → Pre (g b).2 P → ∀ prev regs s, SimE sem P b (g b).2 (Op.val · (g b).1) prev regs s (ev s)

/-- The blocks of `&&` and `||`; `w` is the value if the second operand is not needed. -/
theorem sim_logic {sem : Sem Prim State} {P : Nat → List (Instr Prim)} {x y : Bld Prim → Op × Bld Prim} {ex ey : State → ER State}
    (hx : ∀ b, Good b → GenOk b (x b).2) (hy : ∀ b, Good b → GenOk b (y b).2) (sx : Simulates sem P x ex) (sy : Simulates sem P y ey)
    (isAnd : Bool) {b : Bld Prim} (hg : Good b) :
    let b1 := ((b.create.create.create.emit (.br b.nblk)).insert b.nblk).setCur b.nblk
    let l := x b1
    let b2 := l.2.emit (if isAnd then .cbr l.1 (b.nblk + 1) (b.nblk + 2) else .cbr l.1 (b.nblk + 2) (b.nblk + 1))
    let b3 := (b2.insert (b.nblk + 1)).setCur (b.nblk + 1)
    let r := y b3
    let b4 := r.2.emit (.br (b.nblk + 2))
    let b5 := (b4.insert (b.nblk + 2)).setCur (b.nblk + 2)
    let d := b5.define (fun n => .phi n [(.const (ofBool !isAnd), b2.cur), (r.1, b4.cur)])
    Pre d.2 P → ∀ prev regs s, SimE sem P b d.2 (Op.val · d.1) prev regs s
      ((ex s).bind fun v s1 => if (v = 0) = (isAnd = true) then .ok (ofBool !isAnd) s1 else ey s1) := by
  intro b1 l b2 b3 r b4 b5 d hp prev regs s
  have key := logic_ok hg x y (fun o => if isAnd then .cbr o (b.nblk + 1) (b.nblk + 2) else .cbr o (b.nblk + 2) (b.nblk + 1))
    (ofBool !isAnd) hx hy
  obtain ⟨⟨g1, o1, e1, s1⟩, ⟨g3, o3, e3, s3⟩, ⟨e5, hne⟩, hok⟩ := key
  change Good b1 at g1
  change Good b3 at g3
  change b1.code b1.cur = [] at e1
  change b3.code b3.cur = [] at e3
  change b5.code b5.cur = [] at e5
  change b2.cur ≠ b4.cur at hne
  have hl : GenOk b1 l.2 := hx b1 g1
  have hr : GenOk b3 r.2 := hy b3 g3
  have p5 : Pre b5 P := hp.back ((Grown.refl b5).define _).pre
  have p4 : Pre b4 P := p5
  have pr : Pre r.2 P := p4.back ((Grown.refl r.2).emit _).pre
  have p3 : Pre b3 P := pr.back hr.grown.pre
  have p2 : Pre b2 P := p3
  have pl : Pre l.2 P := p2.back ((Grown.refl l.2).emit _).pre
  have p1 : Pre b1 P := pl.back hl.grown.pre
  have h0 : run sem P 1 (at_ P b prev regs s) = .go (at_ P b1 b.cur regs s) :=
    run_br (b := b) (x := b1) (k := b.nblk) (fun k => p1 k) rfl e1 prev regs s
  refine SimE.prefix s1.nreg h0 (SimE.after hl.grown.nreg (sx b1 g1 pl b.cur regs s) ?_)
  intro prev1 regs1 s1' v hv _
  have hphi2 : [((.const (ofBool !isAnd) : Op), b2.cur), (r.1, b4.cur)].find? (fun e => decide (e.2 = b4.cur)) = some (r.1, b4.cur) := by
    simp [List.find?, hne]
  have hphi1 : [((.const (ofBool !isAnd) : Op), b2.cur), (r.1, b4.cur)].find? (fun e => decide (e.2 = b2.cur)) =
      some (.const (ofBool !isAnd), b2.cur) := by
    simp [List.find?]
  have hn3 : l.2.nreg ≤ b3.nreg := Nat.le_refl _
  have hn5 : l.2.nreg ≤ b5.nreg := hr.grown.nreg
  by_cases hc : (v = 0) = (isAnd = true)
  · rw [if_pos hc]
    refine SimE.prefix hn5 (n := 1) (prev' := l.2.cur) ?_ (sim_phi hp hphi1 regs1 s1')
    cases isAnd
    · have hv0 : ¬ v = 0 := by intro h; rw [eq_iff_iff] at hc; exact absurd (hc.1 h) (by simp)
      exact run_cbr (o := l.1) (k := b.nblk + 2) p2 prev1 regs1 s1' (by rw [hv, if_neg hv0]) rfl e5
    · have hv0 : v = 0 := by rw [eq_iff_iff] at hc; exact hc.2 rfl
      exact run_cbr (o := l.1) (k := b.nblk + 2) p2 prev1 regs1 s1' (by rw [hv, if_pos hv0]) rfl e5
  · rw [if_neg hc]
    have hstep : run sem P 1 (at_ P l.2 prev1 regs1 s1') = .go (at_ P b3 l.2.cur regs1 s1') := by
      cases isAnd
      · have hv0 : v = 0 := Decidable.byContradiction fun h => hc (by rw [eq_iff_iff]; simp [h])
        exact run_cbr (o := l.1) (k := b.nblk + 1) p2 prev1 regs1 s1' (by rw [hv, if_pos hv0]) rfl e3
      · have hv0 : ¬ v = 0 := fun h => hc (by rw [eq_iff_iff]; simp [h])
        exact run_cbr (o := l.1) (k := b.nblk + 1) p2 prev1 regs1 s1' (by rw [hv, if_neg hv0]) rfl e3
    refine SimE.prefix hn3 hstep ?_
    rw [← ER.bind_ok_right (ey s1')]
    refine SimE.after hr.grown.nreg (sy b3 g3 pr l.2.cur regs1 s1') ?_
    intro prev2 regs2 s2 w hw _
    have hbr : run sem P 1 (at_ P r.2 prev2 regs2 s2) = .go (at_ P b5 r.2.cur regs2 s2) :=
      run_br (b := r.2) (x := b5) (k := b.nblk + 2) p4 rfl e5 prev2 regs2 s2
    have hn : r.2.nreg ≤ b5.nreg := Nat.le_refl _
    have := SimE.prefix hn hbr (sim_phi hp hphi2 regs2 s2)
    rw [← hw]
    exact this

theorem find_first (o1 o2 : Op) (a b : Nat) : [(o1, a), (o2, b)].find? (fun e => decide (e.2 = a)) = some (o1, a) := by simp

theorem find_second (o1 o2 : Op) {a b : Nat} (h : a ≠ b) : [(o1, a), (o2, b)].find? (fun e => decide (e.2 = b)) = some (o2, b) := by
  simp [List.find?, h]

/-- The blocks of `?:`. -/
theorem sim_tern {sem : Sem Prim State} {P : Nat → List (Instr Prim)} {x y : Bld Prim → Op × Bld Prim} {ex ey : State → ER State}
    (hx : ∀ b, Good b → GenOk b (x b).2) (hy : ∀ b, Good b → GenOk b (y b).2) (sx : Simulates sem P x ex) (sy : Simulates sem P y ey)
    {b : Bld Prim} (hg : Good b) (q : Op) :
    let b0 := b.setDead false
    let b1 := (((b0.create.insert b0.nblk).create.create).emit (.cbr q b0.nblk (b0.nblk + 1))).setCur b0.nblk
    let t := x b1
    let b2 := (if t.2.dead then t.2 else t.2.emit (.br (b0.nblk + 2))).setDead false
    let b3 := (b2.insert (b0.nblk + 1)).setCur (b0.nblk + 1)
    let e := y b3
    let b4 := (if e.2.dead then e.2 else e.2.emit (.br (b0.nblk + 2))).setDead false
    let b5 := (b4.insert (b0.nblk + 2)).setCur (b0.nblk + 2)
    let d := b5.define (fun n => .phi n [(t.1, b2.cur), (e.1, b4.cur)])
    Pre d.2 P → ∀ prev regs s, SimE sem P b d.2 (Op.val · d.1) prev regs s (if q.val regs = 0 then ey s else ex s) := by
  intro b0 b1 t b2 b3 e b4 b5 d hp prev regs s
  obtain ⟨⟨g1, o1, e1, s1⟩, ⟨g3, o3, e3, s3⟩, ⟨e5, hne⟩, ⟨hb2, hb4⟩, hok⟩ := tern_ok hg q x y hx hy
  change Good b1 at g1
  change Good b3 at g3
  change b1.code b1.cur = [] at e1
  change b3.code b3.cur = [] at e3
  change b5.code b5.cur = [] at e5
  change b2.cur ≠ b4.cur at hne
  change b2 = (t.2.emit (.br (b.nblk + 2))).setDead false at hb2
  change b4 = (e.2.emit (.br (b.nblk + 2))).setDead false at hb4
  have ht : GenOk b1 t.2 := hx b1 g1
  have he : GenOk b3 e.2 := hy b3 g3
  have p5 : Pre b5 P := hp.back ((Grown.refl b5).define _).pre
  have p4 : Pre (e.2.emit (.br (b.nblk + 2))) P := by
    have : Pre b4 P := p5
    rw [hb4] at this
    exact this
  have pe : Pre e.2 P := p4.back ((Grown.refl e.2).emit _).pre
  have p3 : Pre b3 P := pe.back he.grown.pre
  have p2 : Pre (t.2.emit (.br (b.nblk + 2))) P := by
    have : Pre b2 P := p3
    rw [hb2] at this
    exact this
  have pt : Pre t.2 P := p2.back ((Grown.refl t.2).emit _).pre
  have p1 : Pre b1 P := pt.back ht.grown.pre
  have k2 : b2.cur = t.2.cur := by rw [hb2]; rfl
  have k4 : b4.cur = e.2.cur := by rw [hb4]; rfl
  have r2 : b2.nreg = t.2.nreg := by rw [hb2]; rfl
  have r4 : b4.nreg = e.2.nreg := by rw [hb4]; rfl
  have hn1 : b.nreg ≤ b1.nreg := Nat.le_refl _
  have hn3 : b.nreg ≤ b3.nreg := s3.nreg
  have hn5 : t.2.nreg ≤ b5.nreg := by
    have h1 : b3.nreg = b2.nreg := rfl
    have h2 : b5.nreg = b4.nreg := rfl
    have := he.grown.nreg
    omega
  have hn5' : e.2.nreg ≤ b5.nreg := by
    have h2 : b5.nreg = b4.nreg := rfl
    omega
  have pc : Pre (b.emit (.cbr q b.nblk (b.nblk + 1))) P := fun k => p1 k
  by_cases hq : q.val regs = 0
  · rw [if_pos hq]
    have h0 : run sem P 1 (at_ P b prev regs s) = .go (at_ P b3 b.cur regs s) :=
      run_cbr (o := q) (k := b.nblk + 1) pc prev regs s (by rw [if_pos hq]) rfl e3
    refine SimE.prefix hn3 h0 ?_
    rw [← ER.bind_ok_right (ey s)]
    refine SimE.after he.grown.nreg (sy b3 g3 pe b.cur regs s) ?_
    intro prev2 regs2 s2 w hw _
    have hbr : run sem P 1 (at_ P e.2 prev2 regs2 s2) = .go (at_ P b5 e.2.cur regs2 s2) :=
      run_br (b := e.2) (x := b5) (k := b.nblk + 2) p4 rfl e5 prev2 regs2 s2
    rw [← hw]
    rw [← k4] at hbr
    exact SimE.prefix hn5' hbr (sim_phi hp (find_second _ _ hne) regs2 s2)
  · rw [if_neg hq]
    have h0 : run sem P 1 (at_ P b prev regs s) = .go (at_ P b1 b.cur regs s) :=
      run_cbr (o := q) (k := b.nblk) pc prev regs s (by rw [if_neg hq]) rfl e1
    refine SimE.prefix hn1 h0 ?_
    rw [← ER.bind_ok_right (ex s)]
    refine SimE.after ht.grown.nreg (sx b1 g1 pt b.cur regs s) ?_
    intro prev2 regs2 s2 w hw _
    have hbr : run sem P 1 (at_ P t.2 prev2 regs2 s2) = .go (at_ P b5 t.2.cur regs2 s2) :=
      run_br (b := t.2) (x := b5) (k := b.nblk + 2) p2 rfl e5 prev2 regs2 s2
    rw [← hw]
    rw [← k2] at hbr
    exact SimE.prefix hn5 hbr (sim_phi hp (find_first _ _ _ _) regs2 s2)

/-- What the machine does when the blocks of arguments are run. -/
def SimA (sem : Sem Prim State) (P : Nat → List (Instr Prim)) (b x : Bld Prim) (ops : List Op) (prev : Nat) (regs : Nat → Int)
    (s : State) : AR State → Prop
  | .ok vs s' => ∃ n prev' regs', run sem P n (at_ P b prev regs s) = .go (at_ P x prev' regs' s') ∧ ops.map (Op.val regs') = vs ∧
      ∀ r, r < b.nreg → regs' r = regs r
  | .stuck s' => ∃ n, run sem P n (at_ P b prev regs s) = .stuck s'

mutual
theorem simE (sem : Sem Prim State) (P : Nat → List (Instr Prim)) : ∀ e : Expr Prim, Simulates sem P (genE e) (evalE codeOrder sem e)
  | .const v => by
    intro b hg hp prev regs s
    rw [genE, evalE]
    exact ⟨0, prev, regs, rfl, rfl, fun _ _ => rfl⟩
  | .call p args => by
    intro b hg hp prev regs s
    rw [genE] at hp ⊢
    rw [evalE]
    have h1 := genA_ok args b hg
    have pa : Pre (genA args b).2 P := hp.back ((Grown.refl _).define _).pre
    have ha := simA sem P args b hg pa prev regs s
    cases hr : evalA codeOrder sem args s with
    | stuck s' =>
      rw [hr] at ha
      exact ha
    | ok vs s' =>
      rw [hr] at ha
      obtain ⟨n, prev', regs', hrun, hvs, hk⟩ := ha
      have hc := sim_call (sem := sem) hp prev' regs' s'
      rw [hvs] at hc
      simp only
      cases hcp : callPrim sem p vs s' with
      | stuck s2 =>
        rw [hcp] at hc
        obtain ⟨m, hm⟩ := hc
        exact ⟨n + m, by rw [run_add hrun, hm]⟩
      | ok w s2 =>
        rw [hcp] at hc
        obtain ⟨m, prev2, regs2, hm, hv2, hk2⟩ := hc
        have := h1.grown.nreg
        exact ⟨n + m, prev2, regs2, by rw [run_add hrun, hm], hv2, fun k hlt => by rw [hk2 k (by omega), hk k hlt]⟩
  | .bin m p x y => by
    intro b hg hp prev regs s
    rw [genE] at hp ⊢
    rw [evalE]
    by_cases hm : codeOrder m = true
    · simp only [hm, if_true] at hp ⊢
      have h1 := genE_ok x b hg
      have h2 := genE_ok y _ h1.good
      have py : Pre (genE y (genE x b).2).2 P := hp.back ((Grown.refl _).define _).pre
      have px := py.back h2.grown.pre
      refine SimE.after h1.grown.nreg (simE sem P x b hg px prev regs s) ?_
      intro prev1 regs1 s1 v hv _
      refine SimE.after h2.grown.nreg (simE sem P y _ h1.good py prev1 regs1 s1) ?_
      intro prev2 regs2 s2 w hw hk
      have hc := sim_call (sem := sem) hp prev2 regs2 s2
      have hv' : (genE x b).1.val regs2 = v := by rw [← hv]; exact val_keep (genE_below x b hg) hk
      simp only [List.map_cons, List.map_nil, hv'] at hc
      have hw' : (genE y (genE x b).2).1.val regs2 = w := hw
      rw [hw'] at hc
      exact hc
    · simp only [hm, if_false, Bool.false_eq_true] at hp ⊢
      have h1 := genE_ok y b hg
      have h2 := genE_ok x _ h1.good
      have px : Pre (genE x (genE y b).2).2 P := hp.back ((Grown.refl _).define _).pre
      have py := px.back h2.grown.pre
      refine SimE.after h1.grown.nreg (simE sem P y b hg py prev regs s) ?_
      intro prev1 regs1 s1 v hv _
      refine SimE.after h2.grown.nreg (simE sem P x _ h1.good px prev1 regs1 s1) ?_
      intro prev2 regs2 s2 w hw hk
      have hc := sim_call (sem := sem) hp prev2 regs2 s2
      have hv' : (genE y b).1.val regs2 = v := by rw [← hv]; exact val_keep (genE_below y b hg) hk
      have hw' : (genE x (genE y b).2).1.val regs2 = w := hw
      simp only [List.map_cons, List.map_nil, hv', hw'] at hc
      exact hc
  | .and x y => by
    intro b hg hp prev regs s
    rw [genE] at hp ⊢
    rw [evalE]
    have := sim_logic (genE_ok x) (genE_ok y) (simE sem P x) (simE sem P y) true hg hp prev regs s
    simpa [ofBool] using this
  | .or x y => by
    intro b hg hp prev regs s
    rw [genE] at hp ⊢
    rw [evalE]
    have := sim_logic (genE_ok x) (genE_ok y) (simE sem P x) (simE sem P y) false hg hp prev regs s
    have e : (fun (v : Int) (s1 : State) => if (v = 0) = (false = true) then ER.ok (ofBool !false) s1 else evalE codeOrder sem y s1) =
        fun v s1 => if v = 0 then evalE codeOrder sem y s1 else .ok 1 s1 := by
      funext v s1
      by_cases h : v = 0 <;> simp [h, ofBool]
    rw [e] at this
    exact this
  | .tern c x y => by
    intro b hg hp prev regs s
    rw [genE] at hp ⊢
    rw [evalE]
    have h1 := genE_ok c b hg
    have h2 := (tern_ok h1.good (genE c b).1 (genE x) (genE y) (genE_ok x) (genE_ok y)).2.2.2.2
    have pc : Pre (genE c b).2 P := hp.back h2.grown.pre
    refine SimE.after h1.grown.nreg (simE sem P c b hg pc prev regs s) ?_
    intro prev1 regs1 s1 v hv _
    have := sim_tern (genE_ok x) (genE_ok y) (simE sem P x) (simE sem P y) h1.good (genE c b).1 hp prev1 regs1 s1
    have hv' : (genE c b).1.val regs1 = v := hv
    rw [hv'] at this
    exact this
theorem simA (sem : Sem Prim State) (P : Nat → List (Instr Prim)) : ∀ (es : Args Prim) (b : Bld Prim), Good b → Pre (genA es b).2 P →
    ∀ prev regs s, SimA sem P b (genA es b).2 (genA es b).1 prev regs s (evalA codeOrder sem es s)
  | .nil, b, hg, hp, prev, regs, s => by
    rw [genA, evalA]
    exact ⟨0, prev, regs, rfl, rfl, fun _ _ => rfl⟩
  | .cons e rest, b, hg, hp, prev, regs, s => by
    rw [genA] at hp ⊢
    rw [evalA]
    have h1 := genE_ok e b hg
    have h2 := genA_ok rest _ h1.good
    have pe : Pre (genE e b).2 P := hp.back h2.grown.pre
    have he := simE sem P e b hg pe prev regs s
    cases hr : evalE codeOrder sem e s with
    | stuck s' =>
      rw [hr] at he
      exact he
    | ok v s1 =>
      rw [hr] at he
      obtain ⟨n, prev', regs', hrun, hv, hk⟩ := he
      have ha := simA sem P rest _ h1.good hp prev' regs' s1
      simp only
      cases hra : evalA codeOrder sem rest s1 with
      | stuck s2 =>
        rw [hra] at ha
        obtain ⟨m, hm⟩ := ha
        exact ⟨n + m, by rw [run_add hrun, hm]⟩
      | ok vs s2 =>
        rw [hra] at ha
        obtain ⟨m, prev2, regs2, hm, hv2, hk2⟩ := ha
        have := h1.grown.nreg
        refine ⟨n + m, prev2, regs2, by rw [run_add hrun, hm], ?_, fun k hlt => by rw [hk2 k (by omega), hk k hlt]⟩
        have hv' : (genE e b).1.val regs2 = v := by rw [← hv]; exact val_keep (genE_below e b hg) hk2
        rw [List.map_cons, hv', hv2]
end

end Verif.Flow
