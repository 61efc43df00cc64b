import Verif.Lang.Flow.SimE
/-! # The blocks of statements do what the statements say

Source: /repo/src/cxy/lang/backend/llvm/generate.cpp 619-824 and 1041-1129, llvm.cpp 257-266. -/
namespace Verif.Flow

variable {Prim State : Type}

/-- What is true of generating a statement. -/
structure GenSOk (b x : Bld Prim) : Prop where
  good : Good x
  grown : Grown b x

theorem GenOk.toS {b x : Bld Prim} (h : GenOk b x) : GenSOk b x := ⟨h.good, h.grown⟩

theorem GenSOk.trans {a b c : Bld Prim} (h1 : GenSOk a b) (h2 : GenSOk b c) : GenSOk a c := ⟨h2.good, h1.grown.trans h2.grown⟩

/-! ## The end of a branch -/

/-- generate.cpp 660-662, 677-679: a branch to the block that follows, unless the flag is set. -/
def finish (t : Bld Prim) (k : Nat) : Bld Prim := (if t.dead then t else t.emit (.br k)).setDead false

theorem finish_cur (t : Bld Prim) (k : Nat) : (finish t k).cur = t.cur := by unfold finish; split <;> rfl
theorem finish_nblk (t : Bld Prim) (k : Nat) : (finish t k).nblk = t.nblk := by unfold finish; split <;> rfl
theorem finish_order (t : Bld Prim) (k : Nat) : (finish t k).order = t.order := by unfold finish; split <;> rfl
theorem finish_code (t : Bld Prim) (k : Nat) {j : Nat} (h : j ≠ t.cur) : (finish t k).code j = t.code j := by
  unfold finish
  split
  · rfl
  · exact code_emit_ne h

theorem Good.finish {t : Bld Prim} (h : Good t) (k : Nat) : Good (finish t k) := by
  unfold Flow.finish
  split
  · exact h.setDead _
  · exact (h.emit _).setDead _

theorem Grown.finish {b t : Bld Prim} (h : Grown b t) (k : Nat) : Grown b (finish t k) := by
  unfold Flow.finish
  split
  · exact h.setDead _
  · exact (h.emit _).setDead _

theorem After.finish {b t : Bld Prim} (h : After b t) (k : Nat) : After b (finish t k) := by
  unfold Flow.finish
  split
  · exact h.setDead _
  · exact (h.emit _).setDead _

/-! ## Blocks of conditionals -/

/-- What is known of the builders of an `if`. -/
structure IteOk (b b1 t b3 e b5 : Bld Prim) : Prop where
  g1 : Good b1
  e1 : b1.code b1.cur = []
  c1 : b1.cur = b.nblk
  s1 : Grown b b1
  n3 : b.nblk + 1 ∉ t.order
  g3 : Good b3
  e3 : b3.code b3.cur = []
  c3 : b3.cur = b.nblk + 1
  s3 : Grown b b3
  a3 : After t b3
  n5 : b.nblk + 2 ∉ e.order
  g5 : Good b5
  e5 : b5.code b5.cur = []
  c5 : b5.cur = b.nblk + 2
  s5 : Grown b b5
  a5 : After e b5

theorem ite_ok {b : Bld Prim} (hg : Good b) (q : Op) (x y : Bld Prim → Bld Prim)
    (hx : ∀ b, Good b → GenSOk b (x b)) (hy : ∀ b, Good b → GenSOk b (y b)) :
    let b0 := b.setDead false
    let b1 := (((b0.create.insert b0.nblk).create.create).emit (.cbr q b0.nblk (b0.nblk + 1))).setCur b0.nblk
    let t := x b1
    let b3 := ((finish t (b0.nblk + 2)).insert (b0.nblk + 1)).setCur (b0.nblk + 1)
    let e := y b3
    let b5 := ((finish e (b0.nblk + 2)).insert (b0.nblk + 2)).setCur (b0.nblk + 2)
    IteOk b b1 t b3 e b5 := by
  intro b0 b1 t b3 e b5
  have hb1 : b1 = (((b0.create.create.create).emit (.cbr q b0.nblk (b0.nblk + 1))).insert b0.nblk).setCur b0.nblk := rfl
  have hn0 : b0.nblk = b.nblk := rfl
  have hg0 : Good b0 := hg.setDead false
  have c0 : Good ((b0.create.create.create).emit (.cbr q b0.nblk (b0.nblk + 1))) := (hg0.create.create.create).emit _
  have f0 : ∀ k, b.nblk ≤ k → ((b0.create.create.create).emit (.cbr q b0.nblk (b0.nblk + 1))).code k = [] := by
    intro k hk
    have := hg.curLt
    refine (code_emit_ne (show k ≠ b.cur by omega)).trans ?_
    exact hg.fresh k hk
  have g1 : Good b1 := by rw [hb1]; exact c0.enter (show b.nblk < b.nblk + 1 + 1 + 1 by omega)
  have n1 : b1.nblk = b.nblk + 3 := rfl
  have s1 : Grown b b1 := by
    rw [hb1]
    exact ((((Grown.refl b).setDead false).create.create.create).emit _).enter (Nat.le_refl _)
  have e1 : b1.code b1.cur = [] := f0 _ (Nat.le_refl _)
  have ht : GenSOk b1 t := hx b1 g1
  have n2 := ht.grown.nblk
  have hc2 : t.cur = b.nblk ∨ b.nblk + 3 ≤ t.cur := ht.grown.cur
  have ord1 : ∀ k ∈ b1.order, k < b.nblk ∨ k = b.nblk := by
    intro k hk
    have hk : k ∈ b.order ++ [b.nblk] := hk
    rcases List.mem_append.1 hk with h | h
    · exact Or.inl (hg.lt k h)
    · exact Or.inr (List.mem_singleton.1 h)
  have ordt : ∀ k ∈ t.order, k ≤ b.nblk ∨ b.nblk + 3 ≤ k := by
    intro k hk
    rcases ht.grown.ord k hk with h | h
    · have := ord1 k h; omega
    · exact Or.inr h
  have h3 : b.nblk + 1 ∉ t.order := fun h => by have := ordt _ h; omega
  have f2 : ∀ k, b.nblk < k → k < b.nblk + 3 → (finish t (b.nblk + 2)).code k = [] := by
    intro k h1 h2
    rw [finish_code _ _ (show k ≠ t.cur by omega), ht.grown.keep k (by omega) (show k ≠ b.nblk by omega)]
    exact f0 k (by omega)
  have g3 : Good b3 := (ht.good.finish _).enter (by rw [finish_nblk]; omega)
  have s2 : Grown b (finish t (b.nblk + 2)) := (s1.trans ht.grown).finish _
  have s3 : Grown b b3 := s2.enter (by omega)
  have e3 : b3.code b3.cur = [] := f2 (b.nblk + 1) (by omega) (by omega)
  have a3 : After t b3 := ((After.refl t).finish _).enter h3
  have he : GenSOk b3 e := hy b3 g3
  have n3 : b3.nblk = t.nblk := finish_nblk _ _
  have n4 := he.grown.nblk
  have hc4 : e.cur = b.nblk + 1 ∨ b3.nblk ≤ e.cur := he.grown.cur
  have h5 : b.nblk + 2 ∉ e.order := by
    intro h
    rcases he.grown.ord _ h with h | h
    · have h : b.nblk + 2 ∈ (finish t (b.nblk + 2)).order ++ [b.nblk + 1] := h
      rw [finish_order] at h
      rcases List.mem_append.1 h with h | h
      · have := ordt _ h; omega
      · have := List.mem_singleton.1 h; omega
    · omega
  have f4 : (finish e (b.nblk + 2)).code (b.nblk + 2) = [] := by
    rw [finish_code _ _ (show b.nblk + 2 ≠ e.cur by omega), he.grown.keep _ (by omega) (show b.nblk + 2 ≠ b.nblk + 1 by omega)]
    exact f2 _ (by omega) (by omega)
  have g5 : Good b5 := (he.good.finish _).enter (by rw [finish_nblk]; omega)
  have s5 : Grown b b5 := ((s3.trans he.grown).finish _).enter (by omega)
  exact ⟨g1, e1, rfl, s1, h3, g3, e3, rfl, s3, a3, h5, g5, f4, rfl, s5, ((After.refl e).finish _).enter h5⟩

/-! ## Blocks of loops -/

/-- The update of a loop: from the end of the body to the branch back. -/
def genUpdate (u : Option (Bld Prim → Op × Bld Prim)) (updB : Nat) (x : Bld Prim) : Bld Prim :=
  match u with
  | some g => (g (((x.emit (.br updB)).insert updB).setCur updB)).2
  | none => x

/-- Where the update of a loop begins. -/
def preUpdate (u : Option (Bld Prim → Op × Bld Prim)) (updB : Nat) (x : Bld Prim) : Bld Prim :=
  match u with
  | some _ => ((x.emit (.br updB)).insert updB).setCur updB
  | none => x

/-- What is known of the builders of a loop; `bu` is where the update begins. -/
structure WhileOk (b b2 l b4 x bu y b8 : Bld Prim) : Prop where
  g2 : Good b2
  e2 : b2.code b2.cur = []
  c2 : b2.cur = b.nblk
  s2 : Grown b b2
  g4 : Good b4
  e4 : b4.code b4.cur = []
  c4 : b4.cur = b.nblk + 1
  s4 : Grown b b4
  gu : Good bu
  ay : After x y
  g8 : Good b8
  e8 : b8.code b8.cur = []
  c8 : b8.cur = b.nblk + 2
  s8 : Grown b b8
  a8 : After y b8

theorem while_ok {b : Bld Prim} (hg : Good b) (c : Bld Prim → Op × Bld Prim) (body : Bld Prim → Bld Prim)
    (u : Option (Bld Prim → Op × Bld Prim)) (hc : ∀ b, Good b → GenOk b (c b).2) (hb : ∀ b, Good b → GenSOk b (body b))
    (hu : ∀ g, u = some g → ∀ b, Good b → GenOk b (g b).2) :
    let b0 := (b.create.insert b.nblk).create.create
    let b1 := match u with | some _ => b0.create | none => b0
    let b2 := (b1.emit (.br b.nblk)).setCur b.nblk
    let q := c b2
    let b3 := q.2.emit (.cbr q.1 (b.nblk + 1) (b.nblk + 2))
    let b4 := (b3.insert (b.nblk + 1)).setCur (b.nblk + 1)
    let x := body b4
    let bu := preUpdate u (b.nblk + 3) x
    let y := genUpdate u (b.nblk + 3) x
    let b8 := ((y.emit (.br b.nblk)).insert (b.nblk + 2)).setCur (b.nblk + 2)
    WhileOk b b2 q.2 b4 x bu y b8 ∧ (∀ g, u = some g → bu.code bu.cur = [] ∧ bu.cur = b.nblk + 3 ∧ y = (g bu).2) ∧ (u = none → bu = x ∧ y = x) := by
  intro b0 b1 b2 q b3 b4 x bu y b8
  -- the blocks that were created
  obtain ⟨m, hm, hm3, hmu, hb1⟩ : ∃ m, b1.nblk = m ∧ b.nblk + 3 ≤ m ∧ (∀ g, u = some g → b.nblk + 4 ≤ m) ∧
      b1.code = b.code ∧ b1.cur = b.cur ∧ b1.order = b.order ++ [b.nblk] ∧ b1.nreg = b.nreg ∧ b1.failed = b.failed := by
    cases u with
    | none => exact ⟨b.nblk + 3, rfl, Nat.le_refl _, fun g h => by simp at h, rfl, rfl, rfl, rfl, rfl⟩
    | some g => exact ⟨b.nblk + 4, rfl, Nat.le_succ _, fun g h => Nat.le_refl _, rfl, rfl, rfl, rfl, rfl⟩
  obtain ⟨hcode, hcur, hord, hreg, hfail⟩ := hb1
  have hlt := hg.curLt
  have f1 : ∀ k, b.nblk ≤ k → b2.code k = [] := by
    intro k hk
    refine (code_emit_ne (show k ≠ b1.cur by omega)).trans ?_
    rw [hcode]
    exact hg.fresh k hk
  have n2 : b2.nblk = m := hm
  have o2 : b2.order = b.order ++ [b.nblk] := hord
  have g2 : Good b2 := by
    refine ⟨fun k hk => f1 k (by omega), show b.nblk < b2.nblk by omega, by rw [o2]; simp; rfl, fun k hk => ?_⟩
    rw [o2] at hk
    rcases List.mem_append.1 hk with h | h
    · have := hg.lt k h; omega
    · have := List.mem_singleton.1 h; omega
  have s2 : Grown b b2 := by
    have h1 : Grown b b1 := by
      refine ⟨by omega, by omega, fun k => by rw [hcode]; exact List.prefix_rfl, fun k _ _ => by rw [hcode], fun k hk => by rw [hord]; simp [hk],
        fun k hk => ?_, Or.inl hcur, fun h => by rw [hfail]; exact h⟩
      rw [hord] at hk
      rcases List.mem_append.1 hk with h | h
      · exact Or.inl h
      · rw [List.mem_singleton.1 h]; exact Or.inr (Nat.le_refl _)
    have h2 := h1.emit (.br b.nblk)
    exact ⟨h2.nblk, h2.nreg, h2.pre, h2.keep, h2.sub, h2.ord, Or.inr (Nat.le_refl _), h2.failed⟩
  have e2 : b2.code b2.cur = [] := f1 b.nblk (Nat.le_refl _)
  have hq : GenOk b2 q.2 := hc b2 g2
  have nq := hq.grown.nblk
  have cq : q.2.cur = b.nblk ∨ b2.nblk ≤ q.2.cur := hq.grown.cur
  have f3 : ∀ k, b.nblk < k → k < m → b3.code k = [] := by
    intro k h1 h2
    refine (code_emit_ne (show k ≠ q.2.cur by omega)).trans ?_
    rw [hq.grown.keep k (by omega) (show k ≠ b.nblk by omega)]
    exact f1 k (by omega)
  have ordq : ∀ k ∈ q.2.order, k ≤ b.nblk ∨ m ≤ k := by
    intro k hk
    rcases hq.grown.ord k hk with h | h
    · rw [o2] at h
      rcases List.mem_append.1 h with h | h
      · have := hg.lt k h; omega
      · have := List.mem_singleton.1 h; omega
    · omega
  have g3 : Good b3 := hq.good.emit _
  have g4 : Good b4 := g3.enter (show b.nblk + 1 < q.2.nblk by omega)
  have s4 : Grown b b4 := ((s2.trans hq.grown).emit _).enter (by omega)
  have e4 : b4.code b4.cur = [] := f3 (b.nblk + 1) (by omega) (by omega)
  have n4 : b4.nblk = q.2.nblk := rfl
  have hx : GenSOk b4 x := hb b4 g4
  have nx := hx.grown.nblk
  have cx : x.cur = b.nblk + 1 ∨ b4.nblk ≤ x.cur := hx.grown.cur
  have sx : Grown b x := s4.trans hx.grown
  have ordx : ∀ k ∈ x.order, k ≤ b.nblk + 1 ∨ m ≤ k := by
    intro k hk
    rcases hx.grown.ord k hk with h | h
    · have h : k ∈ q.2.order ++ [b.nblk + 1] := h
      rcases List.mem_append.1 h with h | h
      · have := ordq k h; omega
      · have := List.mem_singleton.1 h; omega
    · omega
  have fx : ∀ k, b.nblk + 1 < k → k < m → x.code k = [] := by
    intro k h1 h2
    rw [hx.grown.keep k (by omega) (show k ≠ b.nblk + 1 by omega)]
    exact f3 k (by omega) h2
  cases u with
  | none =>
    have fy : (x.emit (.br b.nblk)).code (b.nblk + 2) = [] :=
      (code_emit_ne (show b.nblk + 2 ≠ x.cur by omega)).trans (fx _ (by omega) (by omega))
    refine ⟨⟨g2, e2, rfl, s2, g4, e4, rfl, s4, hx.good, After.refl x, (hx.good.emit _).enter (show b.nblk + 2 < x.nblk by omega), fy, rfl,
      (sx.emit _).enter (by omega), ((After.refl x).emit _).enter fun h => by have := ordx _ h; omega⟩, fun g h => (by cases h), fun _ => ⟨rfl, rfl⟩⟩
  | some g =>
    have hm4 := hmu g rfl
    have gu : Good bu := (hx.good.emit _).enter (show b.nblk + 3 < x.nblk by omega)
    have su : Grown b bu := (sx.emit _).enter (by omega)
    have fu : ∀ k, b.nblk + 1 < k → k < m → bu.code k = [] := by
      intro k h1 h2
      exact (code_emit_ne (show k ≠ x.cur by omega)).trans (fx k h1 h2)
    have eu : bu.code bu.cur = [] := fu (b.nblk + 3) (by omega) (by omega)
    have hy : GenOk bu y := hu g rfl bu gu
    have nu : bu.nblk = x.nblk := rfl
    have ny := hy.grown.nblk
    have cy : y.cur = b.nblk + 3 ∨ bu.nblk ≤ y.cur := hy.grown.cur
    have au : After x bu := ((After.refl x).emit _).enter fun h => by have := ordx _ h; omega
    have ay : After x y := au.trans (hy.grown.after gu)
    have fy : (y.emit (.br b.nblk)).code (b.nblk + 2) = [] := by
      refine (code_emit_ne (show b.nblk + 2 ≠ y.cur by omega)).trans ?_
      rw [hy.grown.keep _ (by omega) (show b.nblk + 2 ≠ b.nblk + 3 by omega)]
      exact fu _ (by omega) (by omega)
    have n8 : b.nblk + 2 ∉ y.order := by
      intro h
      rcases hy.grown.ord _ h with h | h
      · have h : b.nblk + 2 ∈ x.order ++ [b.nblk + 3] := h
        rcases List.mem_append.1 h with h | h
        · have := ordx _ h; omega
        · have := List.mem_singleton.1 h; omega
      · omega
    refine ⟨⟨g2, e2, rfl, s2, g4, e4, rfl, s4, gu, ay, (hy.good.emit _).enter (show b.nblk + 2 < y.nblk by omega), fy, rfl,
      ((su.trans hy.grown).emit _).enter (by omega), ((After.refl y).emit _).enter n8⟩, fun g' h => ?_, fun h => (by cases h)⟩
    cases h
    exact ⟨eu, rfl, rfl⟩

/-! ## Blocks of cases -/

/-- generate.cpp 810-812 -/
def closeCase (t : Bld Prim) (k : Nat) : Bld Prim := if t.backTerminated then t else t.emit (.br k)

theorem closeCase_good {t : Bld Prim} (h : Good t) (k : Nat) : Good (closeCase t k) := by
  unfold closeCase
  split
  · exact h
  · exact h.emit _

theorem closeCase_grown {b t : Bld Prim} (h : Grown b t) (k : Nat) : Grown b (closeCase t k) := by
  unfold closeCase
  split
  · exact h
  · exact h.emit _

theorem closeCase_after {b t : Bld Prim} (h : After b t) (k : Nat) : After b (closeCase t k) := by
  unfold closeCase
  split
  · exact h
  · exact h.emit _

/-- The block of a case. -/
theorem case_ok {b : Bld Prim} (hg : Good b) :
    let b1 := (b.create.insert b.nblk).setCur b.nblk
    Good b1 ∧ b1.code b1.cur = [] ∧ Grown b b1 := by
  intro b1
  exact ⟨hg.create.enter (show b.nblk < b.nblk + 1 by omega), hg.fresh _ (Nat.le_refl _), (Grown.refl b).create.enter (Nat.le_refl _)⟩

/-- The branch of a `switch` goes back to the block where it began. -/
theorem switch_ok {b : Bld Prim} (hg : Good b) (c : Bld Prim → Op × Bld Prim) (cs : Nat → Bld Prim → List (Int × Nat) × Option Nat × Bld Prim)
    (hc : ∀ b, Good b → GenOk b (c b).2) (hcs : ∀ e b, Good b → GenSOk b (cs e b).2.2) :
    let q := c b
    let x := q.2.create
    let r := cs q.2.nblk x
    let b1 := (r.2.2.setCur b.cur).emit (.switch q.1 r.1 (r.2.1.getD q.2.nblk))
    let b2 := (b1.insert q.2.nblk).setCur q.2.nblk
    Good x ∧ Grown b x ∧ Good b2 ∧ Grown b b2 ∧ b2.code b2.cur = [] ∧ q.2.nblk ∉ r.2.2.order ∧ b.cur ∈ r.2.2.order := by
  intro q x r b1 b2
  have hq : GenOk b q.2 := hc b hg
  have gx : Good x := hq.good.create
  have sx : Grown b x := hq.grown.create
  have hr : GenSOk x r.2.2 := hcs q.2.nblk x gx
  have nr : x.nblk ≤ r.2.2.nblk := hr.grown.nblk
  have nx : x.nblk = q.2.nblk + 1 := rfl
  have nq := hq.grown.nblk
  have hlt := hg.curLt
  have hcq := hq.good.curLt
  have sr : Grown b r.2.2 := sx.trans hr.grown
  have s1 : Grown b b1 := sr.back.emit _
  have e2 : b1.code q.2.nblk = [] := by
    refine (code_emit_ne (b := r.2.2.setCur b.cur) (show q.2.nblk ≠ b.cur by omega)).trans ?_
    show r.2.2.code q.2.nblk = []
    rw [hr.grown.keep _ (by omega) (show q.2.nblk ≠ q.2.cur by omega)]
    exact hq.good.fresh _ (Nat.le_refl _)
  have hno : q.2.nblk ∉ r.2.2.order := by
    intro h
    rcases hr.grown.ord _ h with h | h
    · have := hq.good.lt _ h; omega
    · omega
  refine ⟨gx, sx, ⟨fun k hk => ?_, show q.2.nblk < r.2.2.nblk by omega, ?_, fun k hk => ?_⟩, s1.enter nq, e2, hno, sr.sub _ hg.mem⟩
  · have hk : r.2.2.nblk ≤ k := hk
    refine (code_emit_ne (b := r.2.2.setCur b.cur) (show k ≠ b.cur by omega)).trans ?_
    exact hr.good.fresh k hk
  · show (r.2.2.order ++ [q.2.nblk]).getLast? = some q.2.nblk
    simp
  · have hk : k ∈ r.2.2.order ++ [q.2.nblk] := hk
    show k < r.2.2.nblk
    rcases List.mem_append.1 hk with h | h
    · exact hr.good.lt k h
    · have := List.mem_singleton.1 h; omega

theorem genCases_cons (ctx : Ctx) (e : Nat) (v : Option Int) (body : Stmt Prim) (rest : Cases Prim) (b : Bld Prim) :
    genCases ctx e (.cons v body rest) b =
      let r := genCases ctx e rest (closeCase (genS ctx body ((b.create.insert b.nblk).setCur b.nblk)) e)
      match v with
      | some v => ((v, b.nblk) :: r.1, r.2.1, r.2.2)
      | none => (r.1, some b.nblk, if r.2.1.isSome then r.2.2.fail else r.2.2) := by
  cases v <;> rw [genCases] <;> rfl

mutual
theorem genS_ok : ∀ (s : Stmt Prim) (ctx : Ctx) (b : Bld Prim), Good b → GenSOk b (genS ctx s b)
  | .skip, ctx, b, hg => by rw [genS]; exact ⟨hg, Grown.refl b⟩
  | .seq x y, ctx, b, hg => by
    rw [genS]
    have h1 := genS_ok x ctx b hg
    exact h1.trans (genS_ok y ctx _ h1.good)
  | .expr e, ctx, b, hg => by rw [genS]; exact (genE_ok e b hg).toS
  | .ret none, ctx, b, hg => by rw [genS]; exact ⟨(hg.emit _).setDead _, ((Grown.refl b).emit _).setDead _⟩
  | .ret (some e), ctx, b, hg => by
    rw [genS]
    have h := genE_ok e b hg
    exact ⟨((h.good.emit _).emit _).setDead _, ((h.grown.emit _).emit _).setDead _⟩
  | .ite c x y, ctx, b, hg => by
    rw [genS]
    have h := genE_ok c b hg
    have hi := ite_ok h.good (genE c b).1 (genS ctx x) (genS ctx y) (genS_ok x ctx) (genS_ok y ctx)
    exact h.toS.trans ⟨hi.g5, hi.s5⟩
  | .brk, ctx, b, hg => by
    rw [genS]
    split
    · exact ⟨(hg.emit _).setDead _, ((Grown.refl b).emit _).setDead _⟩
    · exact ⟨hg.fail, (Grown.refl b).fail⟩
  | .cont, ctx, b, hg => by
    rw [genS]
    split
    · exact ⟨(hg.emit _).setDead _, ((Grown.refl b).emit _).setDead _⟩
    · exact ⟨(hg.emit _).setDead _, ((Grown.refl b).emit _).setDead _⟩
    · exact ⟨hg.fail, (Grown.refl b).fail⟩
  | .while c body none, ctx, b, hg => by
    rw [genS]
    have h := (while_ok hg (genE c) (genS ⟨none, some b.nblk, some (b.nblk + 2), ctx.funcEnd⟩ body) none (genE_ok c) (genS_ok body _)
      (fun g h => by cases h)).1
    exact ⟨h.g8, h.s8⟩
  | .while c body (some e), ctx, b, hg => by
    rw [genS]
    have h := (while_ok hg (genE c) (genS ⟨some (b.nblk + 3), some b.nblk, some (b.nblk + 2), ctx.funcEnd⟩ body) (some (genE e)) (genE_ok c)
      (genS_ok body _) (fun g h => by cases h; exact genE_ok e)).1
    exact ⟨h.g8, h.s8⟩
  | .switch c cases, ctx, b, hg => by
    rw [genS]
    have h := switch_ok hg (genE c) (fun e => genCases ctx e cases) (genE_ok c) (fun e => genCases_ok cases ctx e)
    exact ⟨h.2.2.1, h.2.2.2.1⟩
theorem genCases_ok : ∀ (cs : Cases Prim) (ctx : Ctx) (e : Nat) (b : Bld Prim), Good b → GenSOk b (genCases ctx e cs b).2.2
  | .nil, ctx, e, b, hg => by rw [genCases]; exact ⟨hg, Grown.refl b⟩
  | .cons v body rest, ctx, e, b, hg => by
    obtain ⟨g1, _, s1⟩ := case_ok hg
    have h2 := genS_ok body ctx _ g1
    have g3 := closeCase_good h2.good e
    have h3 : GenSOk b (closeCase (genS ctx body ((b.create.insert b.nblk).setCur b.nblk)) e) := ⟨g3, closeCase_grown (s1.trans h2.grown) e⟩
    have h4 := h3.trans (genCases_ok rest ctx e _ g3)
    cases v with
    | some v => rw [genCases_cons]; exact h4
    | none =>
      rw [genCases_cons]
      simp only
      split
      · exact ⟨h4.good.fail, h4.grown.fail⟩
      · exact h4
end

/-- The cases leave the blocks alone that were there. -/
theorem genCases_keep (ctx : Ctx) (e : Nat) : ∀ (cs : Cases Prim) (b : Bld Prim), Good b → ∀ k, k < b.nblk →
    (genCases ctx e cs b).2.2.code k = b.code k
  | .nil, b, hg, k, hk => by rw [genCases]
  | .cons v body rest, b, hg, k, hk => by
    obtain ⟨g1, _, s1⟩ := case_ok hg
    have h2 := genS_ok body ctx _ g1
    have h3 := closeCase_grown h2.grown e
    have h4 := genCases_keep ctx e rest _ (closeCase_good h2.good e) k
      (Nat.lt_of_lt_of_le hk (Nat.le_trans (Nat.le_succ _) h3.nblk))
    have h5 := h3.keep k (Nat.lt_succ_of_lt hk) (show k ≠ b.nblk by omega)
    have h6 := h4.trans h5
    cases v with
    | some v => rw [genCases_cons]; exact h6
    | none =>
      rw [genCases_cons]
      simp only
      split
      · exact h6
      · exact h6

/-! ## What the machine does -/

/-- The target of `continue`. -/
def contTarget (ctx : Ctx) : Option Nat :=
  match ctx.loopCondition, ctx.loopUpdate with
  | some _, some k => some k
  | some k, none => some k
  | none, _ => none

/-- What the machine does from `c` when a statement gives `r`; `norm` is where the statement ends. -/
def Sim (sem : Sem Prim State) (P : Nat → List (Instr Prim)) (ctx : Ctx) (N : Nat) (norm : Nat → (Nat → Int) → State → Cfg Prim State)
    (c : Cfg Prim State) : R State → Prop
  | .done .normal s => ∃ n prev regs, run sem P n c = .go (norm prev regs s)
  | .done .brk s => ∃ k n prev regs, ctx.loopEnd = some k ∧ run sem P n c = .go ⟨k, prev, P k, regs, s, none⟩
  | .done .cont s => ∃ k n prev regs, contTarget ctx = some k ∧ run sem P n c = .go ⟨k, prev, P k, regs, s, none⟩
  | .done (.ret v) s => ∃ n prev regs, run sem P n c = .go ⟨ctx.funcEnd, prev, P ctx.funcEnd, regs, s, v⟩
  | .stuck s => ∃ n, run sem P n c = .stuck s
  | .out => ∃ n c', N ≤ n ∧ run sem P n c = .go c'

section
variable {sem : Sem Prim State} {P : Nat → List (Instr Prim)} {ctx : Ctx} {N : Nat}
  {norm norm' : Nat → (Nat → Int) → State → Cfg Prim State} {c c' : Cfg Prim State} {r : R State}

/-- Steps before. -/
theorem Sim.prefix {n : Nat} (h : run sem P n c = .go c') {M : Nat} (hM : M ≤ n + N) (hs : Sim sem P ctx N norm c' r) :
    Sim sem P ctx M norm c r := by
  match r, hs with
  | .done .normal s, ⟨m, prev, regs, e⟩ => exact ⟨n + m, prev, regs, by rw [run_add h, e]⟩
  | .done .brk s, ⟨k, m, prev, regs, hk, e⟩ => exact ⟨k, n + m, prev, regs, hk, by rw [run_add h, e]⟩
  | .done .cont s, ⟨k, m, prev, regs, hk, e⟩ => exact ⟨k, n + m, prev, regs, hk, by rw [run_add h, e]⟩
  | .done (.ret v) s, ⟨m, prev, regs, e⟩ => exact ⟨n + m, prev, regs, by rw [run_add h, e]⟩
  | .stuck s, ⟨m, e⟩ => exact ⟨n + m, by rw [run_add h, e]⟩
  | .out, ⟨m, d, hm, e⟩ => exact ⟨n + m, d, by omega, by rw [run_add h, e]⟩

/-- Steps behind. -/
theorem Sim.then (hs : Sim sem P ctx N norm c r)
    (hn : ∀ prev regs s, r = .done .normal s → ∃ n prev' regs', run sem P n (norm prev regs s) = .go (norm' prev' regs' s)) :
    Sim sem P ctx N norm' c r := by
  match r, hs, hn with
  | .done .normal s, ⟨m, prev, regs, e⟩, hn =>
    obtain ⟨n, prev', regs', h⟩ := hn prev regs s rfl
    exact ⟨m + n, prev', regs', by rw [run_add e, h]⟩
  | .done .brk s, h, _ => exact h
  | .done .cont s, h, _ => exact h
  | .done (.ret v) s, h, _ => exact h
  | .stuck s, h, _ => exact h
  | .out, h, _ => exact h

end

/-- The final code `P` goes on from the builder; blocks that it has left are final, except those of `switch` statements that
are still to be completed. -/
structure Ok (pend : List Nat) (b : Bld Prim) (P : Nat → List (Instr Prim)) : Prop where
  pre : Pre b P
  fix : ∀ k ∈ b.order, k ≠ b.cur → k ∉ pend → P k = b.code k
  ends : ∀ k ∈ b.order, endsOnce (P k) = true
  fine : b.failed = false

theorem Ok.back {pend : List Nat} {b x : Bld Prim} {P : Nat → List (Instr Prim)} (h : Ok pend x P) (ha : After b x) : Ok pend b P := by
  refine ⟨h.pre.back ha.pre, fun k hk hc hp => ?_, fun k hk => h.ends k (ha.sub k hk), ?_⟩
  · obtain ⟨e, n⟩ := ha.old k hk hc
    rw [h.fix k (ha.sub k hk) n.symm hp, e]
  · cases hf : b.failed with
    | false => rfl
    | true => have := ha.failed hf; rw [h.fine] at this; cases this

/-- Blocks of `switch` statements that are still to be completed. -/
def Pend (pend : List Nat) (b : Bld Prim) : Prop := ∀ k ∈ pend, k < b.nblk ∧ k ≠ b.cur

theorem Pend.grown {pend : List Nat} {b x : Bld Prim} (h : Pend pend b) (hs : Grown b x) : Pend pend x := by
  intro k hk
  obtain ⟨h1, h2⟩ := h k hk
  have := hs.nblk
  rcases hs.cur with e | e
  · exact ⟨by omega, by omega⟩
  · exact ⟨by omega, by omega⟩

theorem endsOnce_term : ∀ {l : List (Instr Prim)}, endsOnce l = true → ∃ i ∈ l, i.isTerm = true
  | [i], h => ⟨i, by simp, h⟩
  | i :: j :: rest, h => by
    simp only [endsOnce, Bool.and_eq_true] at h
    obtain ⟨k, hk, ht⟩ := endsOnce_term (l := j :: rest) h.2
    exact ⟨k, List.mem_cons_of_mem _ hk, ht⟩

end Verif.Flow
