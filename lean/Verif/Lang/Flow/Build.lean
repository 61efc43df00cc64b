import Verif.Lang.Flow.Model
/-! # What generating code leaves alone

Source: /repo/src/cxy/lang/backend/llvm/generate.cpp 619-824, binary.cpp 16-65. -/
namespace Verif.Flow

variable {Prim State : Type}

/-- The builder stands at the end of the function, and blocks that do not exist yet are empty. -/
structure Good (b : Bld Prim) : Prop where
  fresh : ∀ k, b.nblk ≤ k → b.code k = []
  curLt : b.cur < b.nblk
  last : b.order.getLast? = some b.cur
  lt : ∀ k ∈ b.order, k < b.nblk

theorem Good.mem {b : Bld Prim} (h : Good b) : b.cur ∈ b.order := List.mem_of_getLast? h.last

/-- No terminator yet in the block where the builder stands. -/
def Open (b : Bld Prim) : Prop := ∀ i ∈ b.code b.cur, i.isTerm = false

/-- `x` was made from `b` by appending to the block of `b` and to newer blocks. -/
structure Grown (b x : Bld Prim) : Prop where
  nblk : b.nblk ≤ x.nblk
  nreg : b.nreg ≤ x.nreg
  pre : ∀ k, b.code k <+: x.code k
  keep : ∀ k, k < b.nblk → k ≠ b.cur → x.code k = b.code k
  sub : ∀ k ∈ b.order, k ∈ x.order
  ord : ∀ k ∈ x.order, k ∈ b.order ∨ b.nblk ≤ k
  cur : x.cur = b.cur ∨ b.nblk ≤ x.cur
  failed : b.failed = true → x.failed = true

theorem Grown.refl (b : Bld Prim) : Grown b b :=
  ⟨Nat.le_refl _, Nat.le_refl _, fun _ => List.prefix_rfl, fun _ _ _ => rfl, fun _ h => h, fun _ h => Or.inl h, Or.inl rfl, fun h => h⟩

theorem Grown.trans {a b c : Bld Prim} (h1 : Grown a b) (h2 : Grown b c) : Grown a c := by
  refine ⟨Nat.le_trans h1.nblk h2.nblk, Nat.le_trans h1.nreg h2.nreg, fun k => (h1.pre k).trans (h2.pre k), fun k hk hc => ?_,
    fun k hk => h2.sub k (h1.sub k hk), fun k hk => ?_, ?_, fun h => h2.failed (h1.failed h)⟩
  · rw [h2.keep k (Nat.lt_of_lt_of_le hk h1.nblk) (by rcases h1.cur with e | e <;> omega), h1.keep k hk hc]
  · rcases h2.ord k hk with h | h
    · exact h1.ord k h
    · exact Or.inr (Nat.le_trans h1.nblk h)
  · rcases h2.cur with h | h
    · rw [h]; exact h1.cur
    · exact Or.inr (Nat.le_trans h1.nblk h)

theorem Grown.emit {b x : Bld Prim} (h : Grown b x) (i : Instr Prim) : Grown b (x.emit i) := by
  refine ⟨h.nblk, h.nreg, fun k => ?_, fun k hk hc => ?_, h.sub, h.ord, h.cur, h.failed⟩
  · by_cases hk : k = x.cur
    · subst hk
      simpa [Bld.emit] using (h.pre x.cur).trans (List.prefix_append _ _)
    · simpa [Bld.emit, hk] using h.pre k
  · have hk' : k ≠ x.cur := by rcases h.cur with e | e <;> omega
    simpa [Bld.emit, hk'] using h.keep k hk hc

theorem Grown.create {b x : Bld Prim} (h : Grown b x) : Grown b x.create :=
  ⟨Nat.le_succ_of_le h.nblk, h.nreg, h.pre, h.keep, h.sub, h.ord, h.cur, h.failed⟩

theorem Grown.setDead {b x : Bld Prim} (h : Grown b x) (v : Bool) : Grown b (x.setDead v) :=
  ⟨h.nblk, h.nreg, h.pre, h.keep, h.sub, h.ord, h.cur, h.failed⟩

theorem Grown.fail {b x : Bld Prim} (h : Grown b x) : Grown b x.fail :=
  ⟨h.nblk, h.nreg, h.pre, h.keep, h.sub, h.ord, h.cur, fun _ => rfl⟩

theorem Grown.enter {b x : Bld Prim} (h : Grown b x) {k : Nat} (hk : b.nblk ≤ k) : Grown b ((x.insert k).setCur k) := by
  refine ⟨h.nblk, h.nreg, h.pre, h.keep, fun j hj => ?_, fun j hj => ?_, Or.inr hk, h.failed⟩
  · simp [Bld.insert, Bld.setCur, h.sub j hj]
  · simp [Bld.insert, Bld.setCur] at hj
    rcases hj with hj | rfl
    · exact h.ord j hj
    · exact Or.inr hk

theorem Grown.back {b x : Bld Prim} (h : Grown b x) : Grown b (x.setCur b.cur) :=
  ⟨h.nblk, h.nreg, h.pre, h.keep, h.sub, h.ord, Or.inl rfl, h.failed⟩

theorem Grown.define {b x : Bld Prim} (h : Grown b x) (f : Nat → Instr Prim) : Grown b (x.define f).2 := by
  have : Grown b { x with nreg := x.nreg + 1 } := ⟨h.nblk, Nat.le_succ_of_le h.nreg, h.pre, h.keep, h.sub, h.ord, h.cur, h.failed⟩
  exact this.emit _

/-- `x` was made from `b`, and blocks that `b` has inserted and left are as they were. -/
structure After (b x : Bld Prim) : Prop where
  pre : ∀ k, b.code k <+: x.code k
  old : ∀ k ∈ b.order, k ≠ b.cur → x.code k = b.code k ∧ x.cur ≠ k
  sub : ∀ k ∈ b.order, k ∈ x.order
  failed : b.failed = true → x.failed = true

theorem After.refl (b : Bld Prim) : After b b := ⟨fun _ => List.prefix_rfl, fun _ _ h => ⟨rfl, h.symm⟩, fun _ h => h, fun h => h⟩

theorem After.trans {a b c : Bld Prim} (h1 : After a b) (h2 : After b c) : After a c := by
  refine ⟨fun k => (h1.pre k).trans (h2.pre k), fun k hk hc => ?_, fun k hk => h2.sub k (h1.sub k hk), fun h => h2.failed (h1.failed h)⟩
  obtain ⟨e1, n1⟩ := h1.old k hk hc
  obtain ⟨e2, n2⟩ := h2.old k (h1.sub k hk) n1.symm
  exact ⟨e2.trans e1, n2⟩

theorem Grown.after {b x : Bld Prim} (hg : Good b) (h : Grown b x) : After b x := by
  refine ⟨h.pre, fun k hk hc => ⟨h.keep k (hg.lt k hk) hc, ?_⟩, h.sub, h.failed⟩
  have := hg.lt k hk
  rcases h.cur with e | e <;> omega

theorem After.emit {b x : Bld Prim} (h : After b x) (i : Instr Prim) : After b (x.emit i) := by
  refine ⟨fun k => ?_, fun k hk hc => ?_, h.sub, h.failed⟩
  · by_cases hk : k = x.cur
    · subst hk
      simpa [Bld.emit] using (h.pre x.cur).trans (List.prefix_append _ _)
    · simpa [Bld.emit, hk] using h.pre k
  · obtain ⟨e, n⟩ := h.old k hk hc
    exact ⟨by simp [Bld.emit, n.symm, e], n⟩

theorem After.create {b x : Bld Prim} (h : After b x) : After b x.create := ⟨h.pre, h.old, h.sub, h.failed⟩

theorem After.setDead {b x : Bld Prim} (h : After b x) (v : Bool) : After b (x.setDead v) := ⟨h.pre, h.old, h.sub, h.failed⟩

theorem After.fail {b x : Bld Prim} (h : After b x) : After b x.fail := ⟨h.pre, h.old, h.sub, fun _ => rfl⟩

theorem After.enter {b x : Bld Prim} (h : After b x) {k : Nat} (hk : k ∉ b.order) : After b ((x.insert k).setCur k) := by
  refine ⟨h.pre, fun j hj hc => ⟨(h.old j hj hc).1, fun e => hk (by rw [show k = j from e]; exact hj)⟩, fun j hj => ?_, h.failed⟩
  simp [Bld.insert, Bld.setCur, h.sub j hj]

theorem Good.emit {b : Bld Prim} (h : Good b) (i : Instr Prim) : Good (b.emit i) := by
  refine ⟨fun k hk => ?_, h.curLt, h.last, h.lt⟩
  have hk : b.nblk ≤ k := hk
  have := h.curLt
  have hne : k ≠ b.cur := by omega
  simpa [Bld.emit, hne] using h.fresh k hk

theorem Good.create {b : Bld Prim} (h : Good b) : Good b.create :=
  ⟨fun k hk => h.fresh k (Nat.le_of_succ_le hk), Nat.lt_succ_of_lt h.curLt, h.last, fun k hk => Nat.lt_succ_of_lt (h.lt k hk)⟩

theorem Good.setDead {b : Bld Prim} (h : Good b) (v : Bool) : Good (b.setDead v) := ⟨h.fresh, h.curLt, h.last, h.lt⟩

theorem Good.fail {b : Bld Prim} (h : Good b) : Good b.fail := ⟨h.fresh, h.curLt, h.last, h.lt⟩

theorem Good.enter {b : Bld Prim} (h : Good b) {k : Nat} (hk : k < b.nblk) : Good ((b.insert k).setCur k) := by
  refine ⟨h.fresh, hk, by simp [Bld.insert, Bld.setCur], fun j hj => ?_⟩
  simp [Bld.insert, Bld.setCur] at hj
  rcases hj with hj | rfl
  · exact h.lt j hj
  · exact hk

theorem Good.define {b : Bld Prim} (h : Good b) (f : Nat → Instr Prim) : Good (b.define f).2 := by
  have : Good { b with nreg := b.nreg + 1 } := ⟨h.fresh, h.curLt, h.last, h.lt⟩
  exact this.emit _

theorem Open.emit {b : Bld Prim} (h : Open b) {i : Instr Prim} (hi : i.isTerm = false) : Open (b.emit i) := by
  intro j hj
  simp [Bld.emit] at hj
  rcases hj with hj | rfl
  · exact h j hj
  · exact hi

theorem Open.define {b : Bld Prim} (h : Open b) {f : Nat → Instr Prim} (hi : ∀ n, (f n).isTerm = false) : Open (b.define f).2 := by
  have : Open { b with nreg := b.nreg + 1 } := h
  exact this.emit (hi _)

/-- Operands that exist. -/
def Op.below (n : Nat) : Op → Prop
  | .reg r => r < n
  | .const _ => True

theorem Op.below_mono {m n : Nat} (h : m ≤ n) {o : Op} (ho : o.below m) : o.below n := by
  cases o with
  | reg r => exact Nat.lt_of_lt_of_le ho h
  | const => trivial

/-- What is true of generating an expression. -/
structure GenOk (b : Bld Prim) (x : Bld Prim) : Prop where
  good : Good x
  grown : Grown b x
  opn : Open b → Open x
  alive : b.dead = false → x.dead = false

theorem GenOk.refl {b : Bld Prim} (h : Good b) : GenOk b b := ⟨h, Grown.refl b, fun h => h, fun h => h⟩

theorem GenOk.trans {a b c : Bld Prim} (h1 : GenOk a b) (h2 : GenOk b c) : GenOk a c :=
  ⟨h2.good, h1.grown.trans h2.grown, fun h => h2.opn (h1.opn h), fun h => h2.alive (h1.alive h)⟩

theorem GenOk.call {a b : Bld Prim} (h : GenOk a b) (p : Prim) (ops : List Op) : GenOk a (b.define (fun n => .call n p ops)).2 :=
  ⟨h.good.define _, h.grown.define _, fun ho => (h.opn ho).define (fun _ => rfl), h.alive⟩

/-- A block that is entered is empty. -/
theorem open_enter {b : Bld Prim} {k : Nat} (h : b.code k = []) : Open ((b.insert k).setCur k) := by
  intro i hi
  have : i ∈ b.code k := hi
  rw [h] at this
  cases this

theorem code_emit_ne {b : Bld Prim} {i : Instr Prim} {k : Nat} (h : k ≠ b.cur) : (b.emit i).code k = b.code k := by
  simp [Bld.emit, h]

/-- Two operands, the second of which is evaluated only sometimes: blocks of `&&` and `||`. -/
theorem logic_ok {b : Bld Prim} (hg : Good b) (x y : Bld Prim → Op × Bld Prim) (cb : Op → Instr Prim) (w : Int)
    (hx : ∀ b, Good b → GenOk b (x b).2) (hy : ∀ b, Good b → GenOk b (y b).2) :
    let b1 := ((b.create.create.create.emit (.br b.nblk)).insert b.nblk).setCur b.nblk
    let l := x b1
    let b2 := l.2.emit (cb l.1)
    let b3 := (b2.insert (b.nblk + 1)).setCur (b.nblk + 1)
    let r := y b3
    let b4 := r.2.emit (.br (b.nblk + 2))
    let b5 := (b4.insert (b.nblk + 2)).setCur (b.nblk + 2)
    (Good b1 ∧ Open b1 ∧ b1.code b1.cur = [] ∧ Grown b b1) ∧ (Good b3 ∧ Open b3 ∧ b3.code b3.cur = [] ∧ Grown b b3) ∧
      (b5.code b5.cur = [] ∧ b2.cur ≠ b4.cur) ∧
      GenOk b (b5.define (fun n => .phi n [(.const w, b2.cur), (r.1, b4.cur)])).2 := by
  intro b1 l b2 b3 r b4 b5
  have c0 : Good (b.create.create.create.emit (.br b.nblk)) := (hg.create.create.create).emit _
  have f0 : ∀ k, b.nblk ≤ k → (b.create.create.create.emit (.br b.nblk)).code k = [] := by
    intro k hk
    have := hg.curLt
    refine (code_emit_ne (show k ≠ b.cur by omega)).trans ?_
    exact hg.fresh k hk
  have g1 : Good b1 := c0.enter (show b.nblk < b.nblk + 1 + 1 + 1 by omega)
  have n1 : b1.nblk = b.nblk + 3 := rfl
  have s1 : Grown b b1 := ((Grown.refl b).create.create.create.emit _).enter (Nat.le_refl _)
  have e1 : b1.code b1.cur = [] := f0 _ (Nat.le_refl _)
  have o1 : Open b1 := open_enter (f0 _ (Nat.le_refl _))
  have hl : GenOk b1 l.2 := hx b1 g1
  have g2 : Good b2 := hl.good.emit _
  have n2 := hl.grown.nblk
  have hc2 : b2.cur = b.nblk ∨ b.nblk + 3 ≤ b2.cur := hl.grown.cur
  have f2 : ∀ k, b.nblk < k → k < b.nblk + 3 → b2.code k = [] := by
    intro k h1 h2
    refine (code_emit_ne (show k ≠ l.2.cur from fun h => by have : b2.cur = l.2.cur := rfl; omega)).trans ?_
    rw [hl.grown.keep k (by omega) (show k ≠ b.nblk by omega)]
    exact f0 k (by omega)
  have g3 : Good b3 := g2.enter (show b.nblk + 1 < l.2.nblk by omega)
  have s3 : Grown b b3 := ((s1.trans hl.grown).emit _).enter (by omega)
  have e3 : b3.code b3.cur = [] := f2 (b.nblk + 1) (by omega) (by omega)
  have o3 : Open b3 := open_enter e3
  have hr : GenOk b3 r.2 := hy b3 g3
  have n3 : b3.nblk = l.2.nblk := rfl
  have n4 := hr.grown.nblk
  have hc4 : b4.cur = b.nblk + 1 ∨ b3.nblk ≤ b4.cur := hr.grown.cur
  have g4 : Good b4 := hr.good.emit _
  have f4 : b4.code (b.nblk + 2) = [] := by
    refine (code_emit_ne (show b.nblk + 2 ≠ r.2.cur from fun h => by have : b4.cur = r.2.cur := rfl; omega)).trans ?_
    rw [hr.grown.keep _ (by omega) (show b.nblk + 2 ≠ b.nblk + 1 by omega)]
    exact f2 _ (by omega) (by omega)
  have g5 : Good b5 := g4.enter (show b.nblk + 2 < r.2.nblk by omega)
  have s5 : Grown b b5 := ((s3.trans hr.grown).emit _).enter (by omega)
  have l2 : b2.cur < b3.nblk := g2.curLt
  refine ⟨⟨g1, o1, e1, s1⟩, ⟨g3, o3, e3, s3⟩, ⟨f4, by omega⟩, g5.define _, s5.define _, fun _ => ?_, fun hd => ?_⟩
  · exact (open_enter f4 : Open b5).define (fun _ => rfl)
  · exact hr.alive (hl.alive hd)

/-- Blocks of `?:`. -/
theorem tern_ok {b : Bld Prim} (hg : Good b) (q : Op) (x y : Bld Prim → Op × Bld Prim)
    (hx : ∀ b, Good b → GenOk b (x b).2) (hy : ∀ b, Good b → GenOk b (y b).2) :
    let b0 := b.setDead false
    let b1 := (((b0.create.insert b0.nblk).create.create).emit (.cbr q b0.nblk (b0.nblk + 1))).setCur b0.nblk
    let t := x b1
    let b2 := (if t.2.dead then t.2 else t.2.emit (.br (b0.nblk + 2))).setDead false
    let b3 := (b2.insert (b0.nblk + 1)).setCur (b0.nblk + 1)
    let e := y b3
    let b4 := (if e.2.dead then e.2 else e.2.emit (.br (b0.nblk + 2))).setDead false
    let b5 := (b4.insert (b0.nblk + 2)).setCur (b0.nblk + 2)
    (Good b1 ∧ Open b1 ∧ b1.code b1.cur = [] ∧ Grown b b1) ∧ (Good b3 ∧ Open b3 ∧ b3.code b3.cur = [] ∧ Grown b b3) ∧
      (b5.code b5.cur = [] ∧ b2.cur ≠ b4.cur) ∧
      (b2 = (t.2.emit (.br (b0.nblk + 2))).setDead false ∧ b4 = (e.2.emit (.br (b0.nblk + 2))).setDead false) ∧
      GenOk b (b5.define (fun n => .phi n [(t.1, b2.cur), (e.1, b4.cur)])).2 := by
  intro b0 b1 t b2 b3 e b4 b5
  have hb1 : b1 = (((b0.create.create.create).emit (.cbr q b0.nblk (b0.nblk + 1))).insert b0.nblk).setCur b0.nblk := rfl
  have hn0 : b0.nblk = b.nblk := rfl
  have hg0 : Good b0 := hg.setDead false
  have c0 : Good ((b0.create.create.create).emit (.cbr q b0.nblk (b0.nblk + 1))) := (hg0.create.create.create).emit _
  have f0 : ∀ k, b.nblk ≤ k → ((b0.create.create.create).emit (.cbr q b0.nblk (b0.nblk + 1))).code k = [] := by
    intro k hk
    have := hg.curLt
    refine (code_emit_ne (show k ≠ b.cur by omega)).trans ?_
    exact hg.fresh k hk
  have g1 : Good b1 := by rw [hb1]; exact c0.enter (show b.nblk < b.nblk + 1 + 1 + 1 by omega)
  have n1 : b1.nblk = b.nblk + 3 := rfl
  have s1 : Grown b b1 := by
    rw [hb1]
    exact ((((Grown.refl b).setDead false).create.create.create).emit _).enter (Nat.le_refl _)
  have e1 : b1.code b1.cur = [] := f0 _ (Nat.le_refl _)
  have o1 : Open b1 := by rw [hb1]; exact open_enter (f0 _ (Nat.le_refl _))
  have ht : GenOk b1 t.2 := hx b1 g1
  have hb2 : b2 = (t.2.emit (.br (b0.nblk + 2))).setDead false := by
    have : t.2.dead = false := ht.alive rfl
    show (if t.2.dead then t.2 else t.2.emit (.br (b0.nblk + 2))).setDead false = _
    rw [this]; rfl
  have g2 : Good b2 := by rw [hb2]; exact (ht.good.emit _).setDead _
  have n2 := ht.grown.nblk
  have m2 : b2.nblk = t.2.nblk := by rw [hb2]; rfl
  have k2 : b2.cur = t.2.cur := by rw [hb2]; rfl
  have hc2 : t.2.cur = b.nblk ∨ b.nblk + 3 ≤ t.2.cur := ht.grown.cur
  have f2 : ∀ k, b.nblk < k → k < b.nblk + 3 → b2.code k = [] := by
    intro k h1 h2
    rw [hb2]
    show (t.2.emit (.br (b0.nblk + 2))).code k = []
    refine (code_emit_ne (show k ≠ t.2.cur by omega)).trans ?_
    rw [ht.grown.keep k (by omega) (show k ≠ b.nblk by omega)]
    exact f0 k (by omega)
  have g3 : Good b3 := g2.enter (by omega)
  have s2 : Grown b b2 := by rw [hb2]; exact ((s1.trans ht.grown).emit _).setDead _
  have s3 : Grown b b3 := s2.enter (by omega)
  have e3 : b3.code b3.cur = [] := f2 (b.nblk + 1) (by omega) (by omega)
  have o3 : Open b3 := open_enter e3
  have he : GenOk b3 e.2 := hy b3 g3
  have hb4 : b4 = (e.2.emit (.br (b0.nblk + 2))).setDead false := by
    have : e.2.dead = false := he.alive rfl
    show (if e.2.dead then e.2 else e.2.emit (.br (b0.nblk + 2))).setDead false = _
    rw [this]; rfl
  have n3 : b3.nblk = b2.nblk := rfl
  have n4 := he.grown.nblk
  have hc4 : e.2.cur = b.nblk + 1 ∨ b3.nblk ≤ e.2.cur := he.grown.cur
  have k4 : b4.cur = e.2.cur := by rw [hb4]; rfl
  have g4 : Good b4 := by rw [hb4]; exact (he.good.emit _).setDead _
  have f4 : b4.code (b0.nblk + 2) = [] := by
    rw [hb4]
    show (e.2.emit (.br (b0.nblk + 2))).code (b0.nblk + 2) = []
    refine (code_emit_ne (show b.nblk + 2 ≠ e.2.cur by omega)).trans ?_
    rw [he.grown.keep _ (by omega) (show b.nblk + 2 ≠ b.nblk + 1 by omega)]
    exact f2 _ (by omega) (by omega)
  have m4 : b4.nblk = e.2.nblk := by rw [hb4]; rfl
  have g5 : Good b5 := g4.enter (by omega)
  have s4 : Grown b b4 := by rw [hb4]; exact ((s3.trans he.grown).emit _).setDead _
  have s5 : Grown b b5 := s4.enter (by omega)
  have l2 : b2.cur < b3.nblk := g2.curLt
  refine ⟨⟨g1, o1, e1, s1⟩, ⟨g3, o3, e3, s3⟩, ⟨f4, by omega⟩, ⟨hb2, hb4⟩, g5.define _, s5.define _, fun _ => ?_, fun _ => ?_⟩
  · exact (open_enter f4 : Open b5).define (fun _ => rfl)
  · show b4.dead = false
    rw [hb4]; rfl

mutual
theorem genE_ok : ∀ (e : Expr Prim) (b : Bld Prim), Good b → GenOk b (genE e b).2
  | .const v, b, hg => by rw [genE]; exact GenOk.refl hg
  | .call p args, b, hg => by
    rw [genE]
    exact (genA_ok args b hg).call p _
  | .bin m p x y, b, hg => by
    rw [genE]
    split
    · have h1 := genE_ok x b hg
      have h2 := genE_ok y _ h1.good
      exact (h1.trans h2).call p _
    · have h1 := genE_ok y b hg
      have h2 := genE_ok x _ h1.good
      exact (h1.trans h2).call p _
  | .and x y, b, hg => by
    rw [genE]
    exact (logic_ok hg (genE x) (genE y) (fun o => .cbr o (b.nblk + 1) (b.nblk + 2)) 0 (genE_ok x) (genE_ok y)).2.2.2
  | .or x y, b, hg => by
    rw [genE]
    exact (logic_ok hg (genE x) (genE y) (fun o => .cbr o (b.nblk + 2) (b.nblk + 1)) 1 (genE_ok x) (genE_ok y)).2.2.2
  | .tern c x y, b, hg => by
    rw [genE]
    have h1 := genE_ok c b hg
    exact h1.trans (tern_ok h1.good (genE c b).1 (genE x) (genE y) (genE_ok x) (genE_ok y)).2.2.2.2
theorem genA_ok : ∀ (es : Args Prim) (b : Bld Prim), Good b → GenOk b (genA es b).2
  | .nil, b, hg => by rw [genA]; exact GenOk.refl hg
  | .cons e rest, b, hg => by
    rw [genA]
    have h1 := genE_ok e b hg
    exact h1.trans (genA_ok rest _ h1.good)
end

mutual
theorem genE_below : ∀ (e : Expr Prim) (b : Bld Prim), Good b → (genE e b).1.below (genE e b).2.nreg
  | .const v, b, _ => by rw [genE]; trivial
  | .call p args, b, _ => by rw [genE]; exact Nat.lt_succ_self _
  | .bin m p x y, b, _ => by rw [genE]; split <;> exact Nat.lt_succ_self _
  | .and x y, b, _ => by rw [genE]; exact Nat.lt_succ_self _
  | .or x y, b, _ => by rw [genE]; exact Nat.lt_succ_self _
  | .tern c x y, b, _ => by rw [genE]; exact Nat.lt_succ_self _
theorem genA_below : ∀ (es : Args Prim) (b : Bld Prim), Good b → ∀ o ∈ (genA es b).1, o.below (genA es b).2.nreg
  | .nil, b, _, o, ho => by rw [genA] at ho; cases ho
  | .cons e rest, b, hg, o, ho => by
    rw [genA] at ho ⊢
    have h1 := genE_ok e b hg
    have h2 := genA_ok rest _ h1.good
    rcases List.mem_cons.1 ho with rfl | ho
    · exact Op.below_mono h2.grown.nreg (genE_below e b hg)
    · exact genA_below rest _ h1.good o ho
end

end Verif.Flow
