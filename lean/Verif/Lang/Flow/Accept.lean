import Verif.Lang.Flow.Correct
/-! # Which functions are accepted

Source: /repo/src/cxy/lang/backend/llvm/generate.cpp 619-824 and 1041-1129, llvm.cpp 257-266. -/
namespace Verif.Flow

variable {Prim State : Type}

/-! ## The answer -/

/-- How the code so far ends: it can go on (`on`), it can go on but the backend believes that it cannot (`stale`), or it ends
with a jump (`off`). -/
inductive Kind where
  | on | stale | off
  deriving DecidableEq, Repr

/-- What the backend believes. -/
def Kind.flag : Kind → Bool
  | .on => false
  | _ => true

/-- The code can go on. -/
def Kind.opens : Kind → Bool
  | .off => false
  | _ => true

/-- In a new block. -/
def Kind.again : Kind → Kind
  | .on => .on
  | _ => .stale

mutual
/-- The expression has a `?:`. -/
def Expr.resets : Expr Prim → Bool
  | .const _ => false
  | .call _ args => args.resets
  | .bin _ _ a b => a.resets || b.resets
  | .and a b => a.resets || b.resets
  | .or a b => a.resets || b.resets
  | .tern .. => true
def Args.resets : Args Prim → Bool
  | .nil => false
  | .cons e rest => e.resets || rest.resets
end

mutual
/-- The expression has no `&&`, `||` and `?:`. -/
def Expr.flat : Expr Prim → Bool
  | .const _ => true
  | .call _ args => args.flat
  | .bin _ _ a b => a.flat && b.flat
  | _ => false
def Args.flat : Args Prim → Bool
  | .nil => true
  | .cons e rest => e.flat && rest.flat
end

def Expr.isConst : Expr Prim → Bool
  | .const _ => true
  | _ => false

def Args.allConst : Args Prim → Bool
  | .nil => true
  | .cons e rest => e.isConst && rest.allConst

def Cases.noDefault : Cases Prim → Bool
  | .nil => true
  | .cons v _ rest => v.isSome && rest.noDefault

/-- After an expression. -/
def flowE (e : Expr Prim) (k : Kind) : Option Kind :=
  if e.isConst then some k else if k.opens then some (if e.resets then .on else k) else none

mutual
/-- After a statement; `none`: the function is rejected. -/
def flow (inLoop : Bool) : Stmt Prim → Kind → Option Kind
  | .skip, k => some k
  | .seq a b, k => (flow inLoop a k).bind (flow inLoop b)
  | .expr e, k => flowE e k
  | .ret none, k => if k.opens then some .off else none
  | .ret (some e), k => (flowE e k).bind fun k1 => if k1.opens then some .off else none
  | .ite c x y, k => (flowE c k).bind fun k1 =>
      if k1.opens then
        (flow inLoop x .on).bind fun k2 => (flow inLoop y .on).bind fun k3 => if k2 = .stale ∨ k3 = .stale then none else some .on
      else none
  | .brk, k => if inLoop && k.opens then some .off else none
  | .cont, k => if inLoop && k.opens then some .off else none
  | .while c body u, k =>
      if k.opens then
        (flowE c k).bind fun k1 => (flow true body k1).bind fun k2 =>
          if k2.opens then (match u with | some e => flowE e k2 | none => some k2) else none
      else none
  | .switch c cases, k => if k.opens && c.flat then flowCases inLoop cases k else none
/-- After the cases of a `switch`. -/
def flowCases (inLoop : Bool) : Cases Prim → Kind → Option Kind
  | .nil, k => some k
  | .cons v body rest, k => (flow inLoop body k).bind fun k1 =>
      if v.isNone && !rest.noDefault then none else flowCases inLoop rest k1.again
end

/-! ## Blocks -/

theorem ends_snoc : ∀ {l : List (Instr Prim)} {i : Instr Prim}, (∀ j ∈ l, j.isTerm = false) → i.isTerm = true → endsOnce (l ++ [i]) = true
  | [], i, _, hi => hi
  | [a], i, h, hi => by
    have := h a (by simp)
    simp [endsOnce, this, hi]
  | a :: b :: rest, i, h, hi => by
    have ih := ends_snoc (l := b :: rest) (i := i) (fun j hj => h j (List.mem_cons_of_mem _ hj)) hi
    have := h a (by simp)
    simp only [List.cons_append, endsOnce, this, Bool.not_false, Bool.true_and]
    exact ih

theorem ends_last : ∀ {l : List (Instr Prim)}, endsOnce l = true → ∃ pre t, l = pre ++ [t] ∧ t.isTerm = true
  | [i], h => ⟨[], i, rfl, h⟩
  | a :: b :: rest, h => by
    simp only [endsOnce, Bool.and_eq_true] at h
    obtain ⟨pre, t, e, ht⟩ := ends_last (l := b :: rest) h.2
    exact ⟨a :: pre, t, by rw [e]; rfl, ht⟩

/-- A terminator with something behind it. -/
def Doubled (l : List (Instr Prim)) : Prop := ∃ pre t x post, l = pre ++ t :: x :: post ∧ t.isTerm = true

theorem Doubled.prefix {l m : List (Instr Prim)} (h : Doubled l) (hp : l <+: m) : Doubled m := by
  obtain ⟨pre, t, x, post, rfl, ht⟩ := h
  obtain ⟨q, rfl⟩ := hp
  exact ⟨pre, t, x, post ++ q, by simp, ht⟩

theorem doubled_not_ends : ∀ {l : List (Instr Prim)}, Doubled l → endsOnce l = false := by
  rintro l ⟨pre, t, x, post, rfl, ht⟩
  induction pre with
  | nil => simp [endsOnce, ht]
  | cons a pre ih =>
    cases pre with
    | nil => simp only [List.nil_append, List.cons_append] at ih ⊢; simp only [endsOnce, ht, Bool.not_true, Bool.false_and, Bool.and_false]
    | cons c pre => simp only [List.cons_append] at ih ⊢; rw [endsOnce, ih, Bool.and_false]; intro h; cases h

theorem doubled_of {l m : List (Instr Prim)} {i : Instr Prim} (h : endsOnce l = true) (hp : l ++ [i] <+: m) : Doubled m := by
  obtain ⟨pre, t, rfl, ht⟩ := ends_last h
  exact Doubled.prefix ⟨pre, t, i, [], by simp, ht⟩ hp

/-- The blocks that were left end with their only terminator. -/
def Fine (pend : List Nat) (b : Bld Prim) : Prop := ∀ k ∈ b.order, k ≠ b.cur → k ∉ pend → endsOnce (b.code k) = true

theorem Fine.emit {pend : List Nat} {b : Bld Prim} (h : Fine pend b) (i : Instr Prim) : Fine pend (b.emit i) := by
  intro k hk hc hp
  have hc : k ≠ b.cur := hc
  rw [code_emit_ne hc]
  exact h k hk hc hp

theorem Fine.define {pend : List Nat} {b : Bld Prim} (h : Fine pend b) (f : Nat → Instr Prim) : Fine pend (b.define f).2 := by
  have : Fine pend { b with nreg := b.nreg + 1 } := h
  exact this.emit _

theorem Fine.enter {pend : List Nat} {b : Bld Prim} (h : Fine pend b) (ho : Open b) {i : Instr Prim} (hi : i.isTerm = true) (k : Nat) :
    Fine pend (((b.emit i).insert k).setCur k) := by
  intro j hj hc hp
  have hj : j ∈ b.order ++ [k] := hj
  have hc : j ≠ k := hc
  rcases List.mem_append.1 hj with hj | hj
  · show endsOnce ((b.emit i).code j) = true
    by_cases e : j = b.cur
    · subst e
      simp only [Bld.emit, upd_same]
      exact ends_snoc ho hi
    · rw [code_emit_ne e]
      exact h j hj e hp
  · exact absurd (List.mem_singleton.1 hj) hc

mutual
theorem genE_dead : ∀ (e : Expr Prim) (b : Bld Prim), (genE e b).2.dead = (if e.resets then false else b.dead)
  | .const v, b => by rw [genE]; rfl
  | .call p args, b => by rw [genE, Expr.resets]; exact genA_dead args b
  | .bin m p x y, b => by
    rw [genE, Expr.resets]
    split
    · show (genE y (genE x b).2).2.dead = _
      rw [genE_dead y, genE_dead x]
      cases x.resets <;> cases y.resets <;> rfl
    · show (genE x (genE y b).2).2.dead = _
      rw [genE_dead x, genE_dead y]
      cases x.resets <;> cases y.resets <;> rfl
  | .and x y, b => by
    rw [genE, Expr.resets]
    refine (genE_dead y _).trans ?_
    show (if y.resets then false else (genE x _).2.dead) = _
    rw [genE_dead x]
    show (if y.resets then false else if x.resets then false else b.dead) = _
    cases x.resets <;> cases y.resets <;> rfl
  | .or x y, b => by
    rw [genE, Expr.resets]
    refine (genE_dead y _).trans ?_
    show (if y.resets then false else (genE x _).2.dead) = _
    rw [genE_dead x]
    show (if y.resets then false else if x.resets then false else b.dead) = _
    cases x.resets <;> cases y.resets <;> rfl
  | .tern c x y, b => by rw [genE, Expr.resets]; rfl
theorem genA_dead : ∀ (es : Args Prim) (b : Bld Prim), (genA es b).2.dead = (if es.resets then false else b.dead)
  | .nil, b => by rw [genA]; rfl
  | .cons e rest, b => by
    rw [genA, Args.resets]
    show (genA rest (genE e b).2).2.dead = _
    rw [genA_dead rest, genE_dead e]
    cases e.resets <;> cases rest.resets <;> rfl
end

mutual
theorem genE_failed : ∀ (e : Expr Prim) (b : Bld Prim), (genE e b).2.failed = b.failed
  | .const v, b => by rw [genE]
  | .call p args, b => by rw [genE]; exact genA_failed args b
  | .bin m p x y, b => by
    rw [genE]
    split
    · exact (genE_failed y _).trans (genE_failed x b)
    · exact (genE_failed x _).trans (genE_failed y b)
  | .and x y, b => by rw [genE]; exact (genE_failed y _).trans (genE_failed x _)
  | .or x y, b => by rw [genE]; exact (genE_failed y _).trans (genE_failed x _)
  | .tern c x y, b => by
    have h : ∀ (t : Bld Prim) (k : Nat), (finish t k).failed = t.failed := by intro t k; unfold finish; split <;> rfl
    rw [genE]
    refine (h _ _).trans ((genE_failed y _).trans ?_)
    refine (h _ _).trans ((genE_failed x _).trans ?_)
    exact genE_failed c b
theorem genA_failed : ∀ (es : Args Prim) (b : Bld Prim), (genA es b).2.failed = b.failed
  | .nil, b => by rw [genA]
  | .cons e rest, b => by rw [genA]; exact (genA_failed rest _).trans (genE_failed e b)
end

mutual
theorem genE_fine (pend : List Nat) : ∀ (e : Expr Prim) (b : Bld Prim), Good b → Open b → Fine pend b → Fine pend (genE e b).2
  | .const v, b, _, _, hf => by rw [genE]; exact hf
  | .call p args, b, hg, ho, hf => by rw [genE]; exact (genA_fine pend args b hg ho hf).emit _
  | .bin m p x y, b, hg, ho, hf => by
    rw [genE]
    split
    · have h1 := genE_ok x b hg
      exact (genE_fine pend y _ h1.good (h1.opn ho) (genE_fine pend x b hg ho hf)).emit _
    · have h1 := genE_ok y b hg
      exact (genE_fine pend x _ h1.good (h1.opn ho) (genE_fine pend y b hg ho hf)).emit _
  | .and x y, b, hg, ho, hf => by
    have hl := logic_ok hg (genE x) (genE y) (fun o => .cbr o (b.nblk + 1) (b.nblk + 2)) 0 (genE_ok x) (genE_ok y)
    rw [genE]
    obtain ⟨⟨g1, o1, _, _⟩, ⟨g3, o3, _, _⟩, _, _⟩ := hl
    have f0 : Fine pend b.create.create.create := hf
    have h0 : Open b.create.create.create := ho
    have f1 := f0.enter h0 (i := .br b.nblk) rfl b.nblk
    have h1 := genE_ok x _ g1
    have f2 := genE_fine pend x _ g1 o1 f1
    have f3 := f2.enter (h1.opn o1) (i := .cbr (genE x (((b.create.create.create.emit (.br b.nblk)).insert b.nblk).setCur b.nblk)).1 (b.nblk + 1) (b.nblk + 2)) rfl (b.nblk + 1)
    have h3 := genE_ok y _ g3
    have f4 := genE_fine pend y _ g3 o3 f3
    have f5 := f4.enter (h3.opn o3) (i := .br (b.nblk + 2)) rfl (b.nblk + 2)
    exact f5.define _
  | .or x y, b, hg, ho, hf => by
    have hl := logic_ok hg (genE x) (genE y) (fun o => .cbr o (b.nblk + 2) (b.nblk + 1)) 1 (genE_ok x) (genE_ok y)
    rw [genE]
    obtain ⟨⟨g1, o1, _, _⟩, ⟨g3, o3, _, _⟩, _, _⟩ := hl
    have f0 : Fine pend b.create.create.create := hf
    have h0 : Open b.create.create.create := ho
    have f1 := f0.enter h0 (i := .br b.nblk) rfl b.nblk
    have h1 := genE_ok x _ g1
    have f2 := genE_fine pend x _ g1 o1 f1
    have f3 := f2.enter (h1.opn o1) (i := .cbr (genE x (((b.create.create.create.emit (.br b.nblk)).insert b.nblk).setCur b.nblk)).1 (b.nblk + 2) (b.nblk + 1)) rfl (b.nblk + 1)
    have h3 := genE_ok y _ g3
    have f4 := genE_fine pend y _ g3 o3 f3
    have f5 := f4.enter (h3.opn o3) (i := .br (b.nblk + 2)) rfl (b.nblk + 2)
    exact f5.define _
  | .tern c x y, b, hg, ho, hf => by
    have hc := genE_ok c b hg
    have ht := tern_ok hc.good (genE c b).1 (genE x) (genE y) (genE_ok x) (genE_ok y)
    have fc := genE_fine pend c b hg ho hf
    rw [genE]
    obtain ⟨⟨g1, o1, _, _⟩, ⟨g3, o3, _, _⟩, _, ⟨e2, e4⟩, _⟩ := ht
    have f0 : Fine pend ((genE c b).2.setDead false).create.create.create := fc
    have h0 : Open ((genE c b).2.setDead false).create.create.create := hc.opn ho
    have f1 := f0.enter h0 (i := .cbr (genE c b).1 (genE c b).2.nblk ((genE c b).2.nblk + 1)) rfl (genE c b).2.nblk
    have h1 := genE_ok x _ g1
    have f2 := genE_fine pend x _ g1 o1 f1
    have f3 := f2.enter (h1.opn o1) (i := .br ((genE c b).2.nblk + 2)) rfl ((genE c b).2.nblk + 1)
    have h3 := genE_ok y _ g3
    have f4 := genE_fine pend y _ g3 o3 (by rw [e2]; exact f3)
    have f5 := f4.enter (h3.opn o3) (i := .br ((genE c b).2.nblk + 2)) rfl ((genE c b).2.nblk + 2)
    refine Fine.define ?_ _
    simp only [e2] at e4 f5 ⊢
    rw [e4]
    exact f5
theorem genA_fine (pend : List Nat) : ∀ (es : Args Prim) (b : Bld Prim), Good b → Open b → Fine pend b → Fine pend (genA es b).2
  | .nil, b, _, _, hf => by rw [genA]; exact hf
  | .cons e rest, b, hg, ho, hf => by
    rw [genA]
    have h1 := genE_ok e b hg
    exact genA_fine pend rest _ h1.good (h1.opn ho) (genE_fine pend e b hg ho hf)
end

/-- The block of the builder got an instruction. -/
def Longer (b x : Bld Prim) : Prop := ∃ i, b.code b.cur ++ [i] <+: x.code b.cur

theorem Longer.of_emit {b x : Bld Prim} {i : Instr Prim} (h : ∀ k, (b.emit i).code k <+: x.code k) : Longer b x := by
  refine ⟨i, ?_⟩
  have := h b.cur
  simpa [Bld.emit] using this

theorem Longer.on {b x y : Bld Prim} (h : Longer b x) (hp : ∀ k, x.code k <+: y.code k) : Longer b y := by
  obtain ⟨i, hi⟩ := h
  exact ⟨i, hi.trans (hp _)⟩

theorem emit_le (b : Bld Prim) (i : Instr Prim) : ∀ k, b.code k <+: (b.emit i).code k := ((Grown.refl b).emit i).pre

theorem define_longer (b : Bld Prim) (f : Nat → Instr Prim) : Longer b (b.define f).2 :=
  Longer.of_emit (b := b) (i := f b.nreg) (fun _ => List.prefix_rfl)

theorem logic_longer {b : Bld Prim} (hg : Good b) (x y : Bld Prim → Op × Bld Prim) (cb : Op → Instr Prim) (w : Int)
    (hx : ∀ b, Good b → GenOk b (x b).2) (hy : ∀ b, Good b → GenOk b (y b).2) :
    let b1 := ((b.create.create.create.emit (.br b.nblk)).insert b.nblk).setCur b.nblk
    let l := x b1
    let b2 := l.2.emit (cb l.1)
    let b3 := (b2.insert (b.nblk + 1)).setCur (b.nblk + 1)
    let r := y b3
    let b4 := r.2.emit (.br (b.nblk + 2))
    let b5 := (b4.insert (b.nblk + 2)).setCur (b.nblk + 2)
    Longer b (b5.define (fun n => .phi n [(.const w, b2.cur), (r.1, b4.cur)])).2 := by
  intro b1 l b2 b3 r b4 b5
  obtain ⟨⟨g1, _, _, _⟩, ⟨g3, _, _, _⟩, _, _⟩ := logic_ok hg x y cb w hx hy
  have p1 : ∀ k, (b.emit (.br b.nblk)).code k <+: b1.code k := fun _ => List.prefix_rfl
  have p2 : ∀ k, b1.code k <+: l.2.code k := (hx b1 g1).grown.pre
  have p3 : ∀ k, l.2.code k <+: b3.code k := emit_le l.2 _
  have p4 : ∀ k, b3.code k <+: r.2.code k := (hy b3 g3).grown.pre
  have p5 : ∀ k, r.2.code k <+: b5.code k := emit_le r.2 _
  have p6 : ∀ k, b5.code k <+: (b5.define (fun n => .phi n [(.const w, b2.cur), (r.1, b4.cur)])).2.code k := ((Grown.refl b5).define _).pre
  exact Longer.of_emit fun k => ((((p1 k).trans (p2 k)).trans (p3 k)).trans (p4 k)).trans ((p5 k).trans (p6 k))

theorem tern_longer {b : Bld Prim} (hg : Good b) (q : Op) (x y : Bld Prim → Op × Bld Prim)
    (hx : ∀ b, Good b → GenOk b (x b).2) (hy : ∀ b, Good b → GenOk b (y b).2) :
    let b0 := b.setDead false
    let b1 := (((b0.create.insert b0.nblk).create.create).emit (.cbr q b0.nblk (b0.nblk + 1))).setCur b0.nblk
    let t := x b1
    let b2 := (if t.2.dead then t.2 else t.2.emit (.br (b0.nblk + 2))).setDead false
    let b3 := (b2.insert (b0.nblk + 1)).setCur (b0.nblk + 1)
    let e := y b3
    let b4 := (if e.2.dead then e.2 else e.2.emit (.br (b0.nblk + 2))).setDead false
    let b5 := (b4.insert (b0.nblk + 2)).setCur (b0.nblk + 2)
    Longer b (b5.define (fun n => .phi n [(t.1, b2.cur), (e.1, b4.cur)])).2 := by
  intro b0 b1 t b2 b3 e b4 b5
  obtain ⟨⟨g1, _, _, _⟩, ⟨g3, _, _, _⟩, _, _⟩ := tern_ok hg q x y hx hy
  have p1 : ∀ k, (b.emit (.cbr q b.nblk (b.nblk + 1))).code k <+: b1.code k := fun _ => List.prefix_rfl
  have p2 : ∀ k, b1.code k <+: t.2.code k := (hx b1 g1).grown.pre
  have p3 : ∀ k, t.2.code k <+: b3.code k := ((After.refl t.2).finish (b0.nblk + 2)).pre
  have p4 : ∀ k, b3.code k <+: e.2.code k := (hy b3 g3).grown.pre
  have p5 : ∀ k, e.2.code k <+: b5.code k := ((After.refl e.2).finish (b0.nblk + 2)).pre
  have p6 : ∀ k, b5.code k <+: (b5.define (fun n => .phi n [(t.1, b2.cur), (e.1, b4.cur)])).2.code k := ((Grown.refl b5).define _).pre
  exact Longer.of_emit fun k => ((((p1 k).trans (p2 k)).trans (p3 k)).trans (p4 k)).trans ((p5 k).trans (p6 k))

mutual
theorem genE_longer : ∀ (e : Expr Prim) (b : Bld Prim), Good b → e.isConst = false → Longer b (genE e b).2
  | .const v, b, _, h => by cases h
  | .call p args, b, hg, _ => by
    rw [genE]
    rcases genA_longer args b hg with h | h
    · rw [h]
      exact define_longer b _
    · exact h.on ((Grown.refl _).define _).pre
  | .bin m p x y, b, hg, _ => by
    rw [genE]
    have key : ∀ (x y : Expr Prim), (x.isConst = false → Longer b (genE x b).2) →
        (∀ b, Good b → y.isConst = false → Longer b (genE y b).2) → ∀ f, Longer b ((genE y (genE x b).2).2.define f).2 := by
      intro x y hx hy f
      have h1 := genE_ok x b hg
      have h2 := genE_ok y _ h1.good
      cases cx : x.isConst with
      | false => exact ((hx cx).on h2.grown.pre).on ((Grown.refl _).define _).pre
      | true =>
        cases x with
        | const v =>
          have e : (genE (Expr.const v : Expr Prim) b).2 = b := by rw [genE]
          rw [e] at h2 ⊢
          cases cy : y.isConst with
          | false => exact (hy b hg cy).on ((Grown.refl _).define _).pre
          | true =>
            cases y with
            | const w =>
              rw [genE]
              exact define_longer b _
            | _ => cases cy
        | _ => cases cx
    split
    · exact key x y (genE_longer x b hg) (genE_longer y) _
    · exact key y x (genE_longer y b hg) (genE_longer x) _
  | .and x y, b, hg, _ => by
    rw [genE]
    exact logic_longer hg (genE x) (genE y) (fun o => .cbr o (b.nblk + 1) (b.nblk + 2)) 0 (genE_ok x) (genE_ok y)
  | .or x y, b, hg, _ => by
    rw [genE]
    exact logic_longer hg (genE x) (genE y) (fun o => .cbr o (b.nblk + 2) (b.nblk + 1)) 1 (genE_ok x) (genE_ok y)
  | .tern c x y, b, hg, _ => by
    rw [genE]
    have hc := genE_ok c b hg
    have hp := (tern_ok hc.good (genE c b).1 (genE x) (genE y) (genE_ok x) (genE_ok y)).2.2.2.2.grown.pre
    have hl := tern_longer hc.good (genE c b).1 (genE x) (genE y) (genE_ok x) (genE_ok y)
    cases cc : c.isConst with
    | false => exact (genE_longer c b hg cc).on hp
    | true =>
      cases c with
      | const v =>
        have e : (genE (Expr.const v : Expr Prim) b).2 = b := by rw [genE]
        have e1 : (genE (Expr.const v : Expr Prim) b).1 = .const v := by rw [genE]
        simp only [e, e1] at hl ⊢
        exact hl
      | _ => cases cc
theorem genA_longer : ∀ (es : Args Prim) (b : Bld Prim), Good b → (genA es b).2 = b ∨ Longer b (genA es b).2
  | .nil, b, _ => by rw [genA]; exact Or.inl rfl
  | .cons e rest, b, hg => by
    rw [genA]
    have h1 := genE_ok e b hg
    have h2 := genA_ok rest _ h1.good
    cases ce : e.isConst with
    | false => exact Or.inr ((genE_longer e b hg ce).on h2.grown.pre)
    | true =>
      cases e with
      | const v =>
        have e : (genE (Expr.const v : Expr Prim) b).2 = b := by rw [genE]
        simp only [e]
        exact genA_longer rest b hg
      | _ => cases ce
end

mutual
theorem genE_moves : ∀ (e : Expr Prim) (b : Bld Prim), Good b → if e.flat then (genE e b).2.cur = b.cur else b.nblk ≤ (genE e b).2.cur
  | .const v, b, _ => by rw [genE]; rfl
  | .call p args, b, hg => by rw [genE]; exact genA_moves args b hg
  | .bin m p x y, b, hg => by
    rw [genE, Expr.flat]
    have key : ∀ (x y : Expr Prim), (∀ b, Good b → if x.flat then (genE x b).2.cur = b.cur else b.nblk ≤ (genE x b).2.cur) →
        (∀ b, Good b → if y.flat then (genE y b).2.cur = b.cur else b.nblk ≤ (genE y b).2.cur) →
        if (x.flat && y.flat) then (genE y (genE x b).2).2.cur = b.cur else b.nblk ≤ (genE y (genE x b).2).2.cur := by
      intro x y hx hy
      have h1 := genE_ok x b hg
      have hx := hx b hg
      have hy := hy _ h1.good
      have hn := h1.grown.nblk
      cases fx : x.flat <;> cases fy : y.flat <;> simp only [fx, fy, if_true, Bool.false_eq_true, if_false, Bool.and_self, Bool.and_false, Bool.and_true] at hx hy ⊢
      · omega
      · omega
      · omega
      · rw [hy, hx]
    cases codeOrder m with
    | true => exact key x y (genE_moves x) (genE_moves y)
    | false =>
      rw [Bool.and_comm]
      exact key y x (genE_moves y) (genE_moves x)
  | .and x y, b, _ => by rw [genE]; exact Nat.le_add_right _ 2
  | .or x y, b, _ => by rw [genE]; exact Nat.le_add_right _ 2
  | .tern c x y, b, hg => by rw [genE]; exact Nat.le_trans (genE_ok c b hg).grown.nblk (Nat.le_add_right _ 2)
theorem genA_moves : ∀ (es : Args Prim) (b : Bld Prim), Good b → if es.flat then (genA es b).2.cur = b.cur else b.nblk ≤ (genA es b).2.cur
  | .nil, b, _ => by rw [genA]; rfl
  | .cons e rest, b, hg => by
    rw [genA, Args.flat]
    have h1 := genE_ok e b hg
    have hx := genE_moves e b hg
    have hy := genA_moves rest _ h1.good
    have hn := h1.grown.nblk
    show if (e.flat && rest.flat) then (genA rest (genE e b).2).2.cur = b.cur else b.nblk ≤ (genA rest (genE e b).2).2.cur
    cases fx : e.flat <;> cases fy : rest.flat <;> simp only [fx, fy, if_true, Bool.false_eq_true, if_false, Bool.and_self, Bool.and_false, Bool.and_true] at hx hy ⊢
    · have := (genA_ok rest _ h1.good).grown.cur
      omega
    · omega
    · omega
    · rw [hy, hx]
end

/-! ## Statements -/

/-- The builder after code of a kind. -/
structure St (pend : List Nat) (b : Bld Prim) (k : Kind) : Prop where
  fine : Fine pend b
  sound : b.failed = false
  dead : b.dead = k.flag
  opn : k.opens = true → Open b
  shut : k.opens = false → endsOnce (b.code b.cur) = true

/-- What cannot be repaired: a failed assertion or a block with a terminator inside. -/
def Dbl (b : Bld Prim) : Prop := b.failed = true ∨ ∃ k ∈ b.order, Doubled (b.code k)

/-- A block that was left without a terminator. -/
def Left (pend : List Nat) (b : Bld Prim) : Prop := ∃ k ∈ b.order, k ≠ b.cur ∧ k ∉ pend ∧ ∀ i ∈ b.code k, i.isTerm = false

def Bad (pend : List Nat) (b : Bld Prim) : Prop := Dbl b ∨ Left pend b

theorem Dbl.on {b x : Bld Prim} (h : Dbl b) (hp : ∀ k, b.code k <+: x.code k) (hs : ∀ k ∈ b.order, k ∈ x.order)
    (hf : b.failed = true → x.failed = true) : Dbl x := by
  rcases h with h | ⟨k, hk, h⟩
  · exact Or.inl (hf h)
  · exact Or.inr ⟨k, hs k hk, h.prefix (hp k)⟩

theorem Dbl.grown {b x : Bld Prim} (h : Dbl b) (hs : Grown b x) : Dbl x := h.on hs.pre hs.sub hs.failed

theorem Dbl.after {b x : Bld Prim} (h : Dbl b) (hs : After b x) : Dbl x := h.on hs.pre hs.sub hs.failed

theorem Dbl.enter {b : Bld Prim} (h : Dbl b) (k : Nat) : Dbl ((b.insert k).setCur k) :=
  h.on (fun _ => List.prefix_rfl) (fun _ hj => List.mem_append_left _ hj) (fun h => h)

theorem Bad.after {pend : List Nat} {b x : Bld Prim} (h : Bad pend b) (hs : After b x) : Bad pend x := by
  rcases h with h | ⟨k, hk, hc, hp, ht⟩
  · exact Or.inl (h.after hs)
  · obtain ⟨e, n⟩ := hs.old k hk hc
    exact Or.inr ⟨k, hs.sub k hk, n.symm, hp, by rw [e]; exact ht⟩

/-- What generating code gives. -/
def Goes (pend : List Nat) (x : Bld Prim) : Option Kind → Prop
  | some k => St pend x k
  | none => Bad pend x

theorem dbl_longer {pend : List Nat} {b x : Bld Prim} {k : Kind} (hg : Good b) (h : St pend b k) (hk : k.opens = false) (hl : Longer b x)
    (hs : ∀ k ∈ b.order, k ∈ x.order) : Dbl x := by
  obtain ⟨i, hi⟩ := hl
  exact Or.inr ⟨b.cur, hs _ hg.mem, doubled_of (h.shut hk) hi⟩

/-- After an expression. -/
theorem flowE_goes (pend : List Nat) (e : Expr Prim) {b : Bld Prim} {k : Kind} (hg : Good b) (h : St pend b k) :
    match flowE e k with | some k' => St pend (genE e b).2 k' | none => Dbl (genE e b).2 := by
  unfold flowE
  cases he : e.isConst with
  | true =>
    cases e with
    | const v =>
      have e : (genE (Expr.const v : Expr Prim) b).2 = b := by rw [genE]
      rw [e]
      exact h
    | _ => cases he
  | false =>
    have ho := genE_ok e b hg
    cases hk : k.opens with
    | false => exact dbl_longer hg h hk (genE_longer e b hg he) ho.grown.sub
    | true =>
      simp only [Bool.false_eq_true, if_false, if_true]
      have hop := h.opn hk
      refine ⟨genE_fine pend e b hg hop h.fine, by rw [genE_failed, h.sound], ?_, fun _ => ho.opn hop, fun hc => ?_⟩
      · rw [genE_dead, h.dead]
        cases e.resets <;> rfl
      · cases hr : e.resets <;> rw [hr] at hc
        · simp only [Bool.false_eq_true, if_false] at hc; rw [hk] at hc; cases hc
        · cases hc

/-- A jump. -/
theorem St.jump {pend : List Nat} {b : Bld Prim} {k : Kind} (h : St pend b k) (hk : k.opens = true) (to : Nat) :
    St pend ((b.emit (.br to)).setDead true) .off := by
  refine ⟨h.fine.emit _, h.sound, rfl, (fun e => by cases e), fun _ => ?_⟩
  show endsOnce ((b.emit (.br to)).code b.cur) = true
  simp only [Bld.emit, upd_same]
  exact ends_snoc (h.opn hk) rfl

theorem jump_dbl {pend : List Nat} {b : Bld Prim} {k : Kind} (hg : Good b) (h : St pend b k) (hk : k.opens = false) (i : Instr Prim) :
    Dbl (b.emit i) :=
  dbl_longer hg h hk (Longer.of_emit (fun _ => List.prefix_rfl)) (fun _ h => h)

/-- A new block after a jump. -/
theorem St.next {pend : List Nat} {b : Bld Prim} {k : Kind} (h : St pend b k) (hk : k.opens = true) {i : Instr Prim} (hi : i.isTerm = true)
    (to : Nat) (he : (b.emit i).code to = []) : St pend (((b.emit i).insert to).setCur to) k :=
  ⟨h.fine.enter (h.opn hk) hi to, h.sound, h.dead, fun _ => open_enter he, fun e => by rw [hk] at e; cases e⟩

/-- The end of a branch. -/
theorem finish_st {pend : List Nat} {t : Bld Prim} {k : Kind} (hg : Good t) (hp : Pend pend t) (h : St pend t k) (m j : Nat) (hm : m ∉ t.order)
    (he : (finish t j).code m = []) :
    if k = .stale then Left pend (((finish t j).insert m).setCur m) else St pend (((finish t j).insert m).setCur m) .on := by
  have hne : t.cur ≠ m := fun e => hm (by rw [← e]; exact hg.mem)
  cases k with
  | stale =>
    rw [if_pos rfl]
    refine ⟨t.cur, ?_, hne, fun hin => (hp _ hin).2 rfl, ?_⟩
    · show t.cur ∈ (finish t j).order ++ [m]
      rw [finish_order]
      exact List.mem_append_left _ hg.mem
    · show ∀ i ∈ (finish t j).code t.cur, i.isTerm = false
      have hd : t.dead = true := h.dead
      have : finish t j = t.setDead false := by unfold finish; rw [if_pos hd]
      rw [this]
      exact h.opn rfl
  | on =>
    rw [if_neg (by decide)]
    have hd : t.dead = false := h.dead
    have hf : finish t j = (t.emit (.br j)).setDead false := by unfold finish; rw [if_neg (by rw [hd]; simp)]
    rw [hf] at he ⊢
    exact ⟨h.fine.enter (h.opn rfl) rfl m, h.sound, rfl, fun _ => open_enter he, fun e => by cases e⟩
  | off =>
    rw [if_neg (by decide)]
    have hd : t.dead = true := h.dead
    have hf : finish t j = t.setDead false := by unfold finish; rw [if_pos hd]
    rw [hf] at he ⊢
    refine ⟨fun i hi hc hp => ?_, h.sound, rfl, fun _ => open_enter he, fun e => by cases e⟩
    have hi : i ∈ t.order ++ [m] := hi
    have hc : i ≠ m := hc
    rcases List.mem_append.1 hi with hi | hi
    · by_cases e : i = t.cur
      · rw [e]; exact h.shut rfl
      · exact h.fine i hi e hp
    · exact absurd (List.mem_singleton.1 hi) hc

/-- The cases of a `switch`, so far. -/
structure StC (pend : List Nat) (b : Bld Prim) (k : Kind) : Prop where
  fine : ∀ j ∈ b.order, j ∉ pend → endsOnce (b.code j) = true
  sound : b.failed = false
  dead : b.dead = k.flag
  opn : k.opens = true

def GoesC (pend : List Nat) (x : Bld Prim) : Option Kind → Prop
  | some k => StC pend x k
  | none => Bad pend x

theorem close_st {pend : List Nat} {b : Bld Prim} {k : Kind} (hg : Good b) (h : St pend b k) (to : Nat) : StC pend (closeCase b to) k.again := by
  have hflag : b.dead = k.again.flag := by rw [h.dead]; cases k <;> rfl
  have hop : k.again.opens = true := by cases k <;> rfl
  unfold closeCase
  cases hk : k.opens with
  | true =>
    rw [if_neg (by rw [open_not_back hg (h.opn hk)]; simp)]
    refine ⟨fun j hj hp => ?_, h.sound, hflag, hop⟩
    by_cases e : j = b.cur
    · subst e
      simp only [Bld.emit, upd_same]
      exact ends_snoc (h.opn hk) rfl
    · rw [code_emit_ne e]
      exact h.fine j hj e hp
  | false =>
    have hb : b.backTerminated = true := by
      unfold Bld.backTerminated
      rw [hg.last]
      obtain ⟨pre, t, e, ht⟩ := ends_last (h.shut hk)
      simp only [e, List.getLast?_append, List.getLast?_singleton]
      exact ht
    rw [if_pos hb]
    refine ⟨fun j hj hp => ?_, h.sound, hflag, hop⟩
    by_cases e : j = b.cur
    · rw [e]; exact h.shut hk
    · exact h.fine j hj e hp

/-- The targets of jumps are there in loops. -/
def CtxOk (ctx : Ctx) (inLoop : Bool) : Prop := ctx.loopEnd.isSome = inLoop ∧ ctx.loopCondition.isSome = inLoop

theorem noDefault_iff (ctx : Ctx) (e : Nat) : ∀ (cs : Cases Prim) (b : Bld Prim), (genCases ctx e cs b).2.1.isSome = !cs.noDefault
  | .nil, b => by rw [genCases]; rfl
  | .cons v body rest, b => by
    rw [genCases_cons]
    cases v with
    | some v => exact noDefault_iff ctx e rest _
    | none => rfl

theorem goes_ite {ctx : Ctx} {inLoop : Bool} (x y : Stmt Prim) {pend : List Nat} {b : Bld Prim} {k : Kind} (hg : Good b) (hp : Pend pend b)
    (h : St pend b k) (hk : k.opens = true) (q : Op)
    (fx : ∀ pend b k, Good b → Pend pend b → St pend b k → Goes pend (genS ctx x b) (flow inLoop x k))
    (fy : ∀ pend b k, Good b → Pend pend b → St pend b k → Goes pend (genS ctx y b) (flow inLoop y k)) :
    let b0 := b.setDead false
    let b1 := (((b0.create.insert b0.nblk).create.create).emit (.cbr q b0.nblk (b0.nblk + 1))).setCur b0.nblk
    let t := genS ctx x b1
    let b3 := ((finish t (b0.nblk + 2)).insert (b0.nblk + 1)).setCur (b0.nblk + 1)
    let e := genS ctx y b3
    let b5 := ((finish e (b0.nblk + 2)).insert (b0.nblk + 2)).setCur (b0.nblk + 2)
    Goes pend b5 ((flow inLoop x .on).bind fun k2 => (flow inLoop y .on).bind fun k3 => if k2 = .stale ∨ k3 = .stale then none else some .on) := by
  intro b0 b1 t b3 e b5
  have hi : IteOk b b1 t b3 e b5 := ite_ok hg q (genS ctx x) (genS ctx y) (genS_ok x ctx) (genS_ok y ctx)
  have ht : GenSOk b1 t := genS_ok x ctx b1 hi.g1
  have he : GenSOk b3 e := genS_ok y ctx b3 hi.g3
  have a35 : After b3 b5 := (he.grown.after hi.g3).trans hi.a5
  have s0 : St pend (b.setDead false).create.create.create .on :=
    ⟨h.fine, h.sound, rfl, fun _ => h.opn hk, fun e => by cases e⟩
  have s1 : St pend b1 .on := by
    have hh := s0.next rfl (i := .cbr q b.nblk (b.nblk + 1)) rfl b.nblk hi.e1
    exact hh
  have p1 : Pend pend b1 := hp.grown hi.s1
  have gx := fx pend b1 .on hi.g1 p1 s1
  cases h1 : flow inLoop x .on with
  | none =>
    rw [h1] at gx
    exact (Bad.after gx hi.a3).after a35
  | some k2 =>
    rw [h1] at gx
    have f2 := finish_st ht.good (p1.grown ht.grown) gx (b.nblk + 1) (b.nblk + 2) hi.n3 hi.e3
    by_cases hk2 : k2 = .stale
    · rw [if_pos hk2] at f2
      have hbad : Bad pend b5 := Bad.after (Or.inr f2) a35
      simp only [Option.bind_some]
      cases flow inLoop y .on with
      | none => exact hbad
      | some k3 =>
        simp only [Option.bind_some]
        rw [if_pos (Or.inl hk2)]
        exact hbad
    · rw [if_neg hk2] at f2
      have p3 : Pend pend b3 := hp.grown hi.s3
      have gy := fy pend b3 .on hi.g3 p3 f2
      simp only [Option.bind_some]
      cases h3 : flow inLoop y .on with
      | none =>
        rw [h3] at gy
        exact Bad.after gy hi.a5
      | some k3 =>
        rw [h3] at gy
        have f4 := finish_st he.good (p3.grown he.grown) gy (b.nblk + 2) (b.nblk + 2) hi.n5 hi.e5
        simp only [Option.bind_some]
        by_cases hk3 : k3 = .stale
        · rw [if_pos (Or.inr hk3)]
          rw [if_pos hk3] at f4
          exact Or.inr f4
        · rw [if_neg (fun hh => hh.elim hk2 hk3)]
          rw [if_neg hk3] at f4
          exact f4

end Verif.Flow
