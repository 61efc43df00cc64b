import Verif.Lang.Unions.Model
/-! # Unions: the C that is written against the source -/
namespace Verif.Unions

variable (ms : List Ty) (op : Nat → Int → Int → Int) (P : Prims)

/-! ## Which programs -/

def Idx.pure : Idx → Bool
  | .next _ => false
  | _ => true

def UE.pure : UE → Bool
  | .var _ => true
  | .at _ i => i.pure
  | .call _ => false

/-- Nothing is changed by the expression. -/
def E.pure : E κ → Bool
  | .lit _ | .var _ => true
  | .next _ => false
  | .bin _ a b | .and a b | .or a b => a.pure && b.pure
  | .is u _ | .as u _ => u.pure

def E.hasAs : E κ → Bool
  | .as .. => true
  | .bin _ a b | .and a b | .or a b => a.hasAs || b.hasAs
  | _ => false

/-- Every `as` is evaluated whenever the expression is. -/
def E.always : E κ → Bool
  | .bin _ a b => a.always && b.always
  | .and a b | .or a b => a.always && !b.hasAs
  | _ => true

/-- There is no `as`, or the expression changes nothing and every `as` in it is evaluated. -/
def E.safe (e : E κ) : Bool := !e.hasAs || (e.pure && e.always)

mutual
/-- No `as` in what would be put in front of a `match`. -/
def Stmt.quiet : Stmt κ → Bool
  | .set _ e | .store _ _ e | .emit e => !e.hasAs
  | .ite c _ _ => !c.hasAs
  | _ => true
def Stmt.safe : Stmt κ → Bool
  | .check .. => false
  | .set _ e | .store _ _ e | .emit e => e.safe
  | .ite c b o => c.safe && b.safe && o.safe
  | .loop p c b => p.safe && c.safe && b.safe && (match p with | .nil => true | _ => false)
  | .mat u cs => u.pure && cs.safe
def Block.safe : Block κ → Bool
  | .nil => true
  | .cons s b => s.safe && b.safe
/-- No `as` in the condition of an `else if`. -/
def Else.safe : Else κ → Bool
  | .none => true
  | .block b => b.safe
  | .elif c b o => !c.hasAs && b.safe && o.safe
def Body.safe : Body κ → Bool → Bool
  | .block b, _ => b.safe
  | .one s, blk => s.safe && (blk || s.quiet)
/-- At most one type in each case. -/
def Cases.safe : Cases κ → Bool
  | .nil => true
  | .cons [] _ b cs => b.safe true && cs.safe
  | .cons [_] v b cs => b.safe v.isSome && cs.safe
  | .cons _ _ _ _ => false
end

/-! ## Places of types -/

theorem findIdx_inj {α : Type} (l : List α) (p q : α → Bool) (i : Nat) (hp : l.findIdx? p = some i) (hq : l.findIdx? q = some i) :
    ∃ x ∈ l, p x = true ∧ q x = true := by
  rw [List.findIdx?_eq_some_iff_getElem] at hp hq
  obtain ⟨h, h1, -⟩ := hp
  obtain ⟨h', h2, -⟩ := hq
  exact ⟨l[i], List.getElem_mem _, h1, h2⟩

/-- Types with one place are the same, but for `const`. -/
theorem index_inj (t t' : Ty) (i : Nat) (h : indexOf ms t = some i) (h' : indexOf ms t' = some i) : t.base = t'.base := by
  obtain ⟨x, -, h1, h2⟩ := findIdx_inj _ _ _ _ h h'
  simp only [decide_eq_true_eq] at h1 h2
  rw [h1] at h2
  exact (Ty.mk.injEq .. ▸ h2 : _ ∧ _).1

theorem index_base (t t' : Ty) (h : t.base = t'.base) : indexOf ms t = indexOf ms t' := by unfold indexOf; rw [h]

/-! ## States -/

/-- A stored value and what the C has for it. -/
def RelV (a b : Nat × Int) : Prop := indexOf ms ⟨a.1, false⟩ = some b.1 ∧ a.2 = b.2

structure Rel (s s' : St) : Prop where
  num : s.num = s'.num
  out : s.out = s'.out
  uni : ∀ u, RelV ms (s.uni u) (s'.uni u)
  arr : ∀ a i, RelV ms (s.arr a i) (s'.arr a i)

/-- Functions return members of the union. -/
def Prims.Ok : Prop := ∀ f s, (indexOf ms ⟨(P.fn f s).1.1, false⟩).isSome

inductive RelR {α : Type} (p : α → α → Prop) : R α → R α → Prop where
  | ok {a b} (h : p a b) : RelR p (.ok a) (.ok b)
  | abort : RelR p .abort .abort
  | more : RelR p .more .more

theorem RelR.bind {α β : Type} {p : α → α → Prop} {q : β → β → Prop} {x y : R α} {f g : α → R β} (h : RelR p x y)
    (hf : ∀ a b, p a b → RelR q (f a) (g b)) : RelR q (x.bind f) (y.bind g) := by
  cases h with
  | ok h => exact hf _ _ h
  | abort => exact .abort
  | more => exact .more

abbrev RelE (a b : Int × St) : Prop := a.1 = b.1 ∧ Rel ms a.2 b.2

variable {ms} {P}

theorem fits_iff (v w : Nat × Int) (h : RelV ms v w) (t : Ty) (i : Nat) (hi : indexOf ms t = some i) :
    (source P).fits v.1 t = (target ms P).fits w.1 i := by
  show decide (v.1 = t.base) = decide (w.1 = i)
  apply decide_eq_decide.2
  constructor
  · intro e
    have := h.1
    rw [index_base ms ⟨v.1, false⟩ t e, hi] at this
    simpa using this.symm
  · intro e
    have := h.1
    rw [e] at this
    exact index_inj ms _ _ _ this hi

theorem UE.rel (hP : P.Ok ms) (u : UE) (s s' : St) (h : Rel ms s s') :
    RelV ms (u.eval (source P) s).1 (u.eval (target ms P) s').1 ∧ Rel ms (u.eval (source P) s).2 (u.eval (target ms P) s').2 := by
  cases u with
  | var u => exact ⟨h.uni u, h⟩
  | «at» a i =>
    simp only [UE.eval, h.num]
    exact ⟨h.arr _ _, rfl, h.out, h.uni, h.arr⟩
  | call f =>
    simp only [UE.eval, h.num, source, target]
    refine ⟨⟨?_, rfl⟩, rfl, h.out, h.uni, h.arr⟩
    have := hP f s'.num
    rw [Option.isSome_iff_exists] at this
    obtain ⟨i, hi⟩ := this
    rw [hi]
    rfl

theorem UE.pure_eval {κ : Type} (L : Lang κ) (u : UE) (h : u.pure = true) (s : St) : (u.eval L s).2 = s := by
  cases u with
  | var u => rfl
  | «at» a i => cases i <;> simp_all [UE.eval, Idx.eval, UE.pure, Idx.pure]
  | call f => simp [UE.pure] at h

/-! ## Expressions -/

theorem Block.append_nil {κ : Type} : ∀ b : Block κ, b.append .nil = b
  | .nil => rfl
  | .cons s b => by rw [Block.append, Block.append_nil b]

theorem Block.append_assoc {κ : Type} (b c : Block κ) : ∀ a : Block κ, (a.append b).append c = a.append (b.append c)
  | .nil => rfl
  | .cons s a => by simp only [Block.append, Block.append_assoc b c a]

theorem run_append {κ : Type} (L : Lang κ) (c : Block κ) (n : Nat) : ∀ (b : Block κ) (s : St),
    (b.append c).run op L n s = (b.run op L n s).bind fun s => c.run op L n s
  | .nil, s => by simp [Block.append, Block.run, R.bind]
  | .cons t b, s => by
    simp only [Block.append, Block.run]
    cases t.run op L n s with
    | ok a => simp only [R.bind]; exact run_append L c n b a
    | abort => rfl
    | confused => rfl
    | more => rfl

theorem asserts_nil : ∀ e : E Ty, e.hasAs = false → e.asserts ms = .nil
  | .lit _, _ | .var _, _ | .next _, _ | .is .., _ => rfl
  | .bin _ a b, h | .and a b, h | .or a b, h => by
    simp only [E.hasAs, Bool.or_eq_false_iff] at h
    simp only [E.asserts, asserts_nil a h.1, asserts_nil b h.2, Block.append]
  | .as .., h => by simp [E.hasAs] at h

/-- Without `as`. -/
theorem eval_plain (hP : P.Ok ms) : ∀ (e : E Ty) (e' : E Nat) (s s' : St), e.hasAs = false → e.lower ms = some e' → Rel ms s s' →
    RelR (RelE ms) (e.eval op (source P) s) (e'.eval op (target ms P) s')
  | .lit n, e', s, s', _, hl, hr => by
    simp only [E.lower, Option.some.injEq] at hl; subst hl
    exact .ok ⟨rfl, hr⟩
  | .var x, e', s, s', _, hl, hr => by
    simp only [E.lower, Option.some.injEq] at hl; subst hl
    exact .ok ⟨by rw [hr.num], hr⟩
  | .next x, e', s, s', _, hl, hr => by
    simp only [E.lower, Option.some.injEq] at hl; subst hl
    exact .ok ⟨by rw [hr.num], by rw [hr.num], hr.out, hr.uni, hr.arr⟩
  | .bin o a b, e', s, s', h, hl, hr => by
    simp only [E.hasAs, Bool.or_eq_false_iff] at h
    simp only [E.lower, Option.bind_eq_some_iff, Option.some.injEq] at hl
    obtain ⟨a', ha, b', hb, rfl⟩ := hl
    refine (eval_plain hP a a' s s' h.1 ha hr).bind fun r r' hr => ?_
    refine (eval_plain hP b b' _ _ h.2 hb hr.2).bind fun q q' hq => ?_
    exact .ok ⟨by rw [hr.1, hq.1], hq.2⟩
  | .and a b, e', s, s', h, hl, hr => by
    simp only [E.hasAs, Bool.or_eq_false_iff] at h
    simp only [E.lower, Option.bind_eq_some_iff, Option.some.injEq] at hl
    obtain ⟨a', ha, b', hb, rfl⟩ := hl
    refine (eval_plain hP a a' s s' h.1 ha hr).bind fun r r' hr => ?_
    simp only [hr.1]
    split
    · exact .ok hr
    · exact eval_plain hP b b' _ _ h.2 hb hr.2
  | .or a b, e', s, s', h, hl, hr => by
    simp only [E.hasAs, Bool.or_eq_false_iff] at h
    simp only [E.lower, Option.bind_eq_some_iff, Option.some.injEq] at hl
    obtain ⟨a', ha, b', hb, rfl⟩ := hl
    refine (eval_plain hP a a' s s' h.1 ha hr).bind fun r r' hr => ?_
    simp only [hr.1]
    split
    · exact eval_plain hP b b' _ _ h.2 hb hr.2
    · exact .ok hr
  | .is u t, e', s, s', h, hl, hr => by
    simp only [E.lower, Option.bind_eq_some_iff, Option.some.injEq] at hl
    obtain ⟨i, hi, rfl⟩ := hl
    have := u.rel hP s s' hr
    exact .ok ⟨by rw [fits_iff _ _ this.1 t i hi], this.2⟩
  | .as .., _, _, _, h, _, _ => by simp [E.hasAs] at h

/-- The assertions of an expression and the expression behind them. -/
abbrev guarded (e : E Ty) (e' : E Nat) (n : Nat) (s : St) : R (Int × St) :=
  ((e.asserts ms).run op (target ms P) n s).bind fun s => e'.eval op (target ms P) s

/-- What an expression that changes nothing does: its assertions change nothing either. -/
inductive Pureval (P : Prims) (op : Nat → Int → Int → Int) (n : Nat) (e : E Ty) (e' : E Nat) (s s' : St) : Prop where
  | ok (v : Int) (h1 : e.eval op (source P) s = .ok (v, s)) (h2 : (e.asserts ms).run op (target ms P) n s' = .ok s')
      (h3 : e'.eval op (target ms P) s' = .ok (v, s'))
  | abort (h1 : e.eval op (source P) s = .abort) (h2 : (e.asserts ms).run op (target ms P) n s' = .abort)

theorem eval_pure_plain (hP : P.Ok ms) (n : Nat) (e : E Ty) (e' : E Nat) (s s' : St) (h : e.hasAs = false) (hp : e.pure = true)
    (hl : e.lower ms = some e') (hr : Rel ms s s') : Pureval (ms := ms) P op n e e' s s' := by
  induction e generalizing e' with
  | lit n =>
    simp only [E.lower, Option.some.injEq] at hl; subst hl
    exact .ok n rfl rfl rfl
  | var x =>
    simp only [E.lower, Option.some.injEq] at hl; subst hl
    exact .ok _ rfl rfl (by simp only [E.eval, hr.num])
  | next x => simp [E.pure] at hp
  | bin o a b iha ihb =>
    simp only [E.hasAs, Bool.or_eq_false_iff] at h
    simp only [E.pure, Bool.and_eq_true] at hp
    simp only [E.lower, Option.bind_eq_some_iff, Option.some.injEq] at hl
    obtain ⟨a', ha, b', hb, rfl⟩ := hl
    have hn : (E.bin o a b).asserts ms = .nil := asserts_nil _ (by simp [E.hasAs, h])
    cases iha a' h.1 hp.1 ha with
    | abort h1 h2 => rw [asserts_nil a h.1] at h2; simp [Block.run] at h2
    | ok v h1 h2 h3 =>
      cases ihb b' h.2 hp.2 hb with
      | abort k1 k2 => rw [asserts_nil b h.2] at k2; simp [Block.run] at k2
      | ok w k1 k2 k3 =>
        refine .ok (op o v w) ?_ (by rw [hn]; rfl) ?_
        · simp only [E.eval, h1, R.bind, k1]
        · simp only [E.eval, h3, R.bind, k3]
  | and a b iha ihb =>
    simp only [E.hasAs, Bool.or_eq_false_iff] at h
    simp only [E.pure, Bool.and_eq_true] at hp
    simp only [E.lower, Option.bind_eq_some_iff, Option.some.injEq] at hl
    obtain ⟨a', ha, b', hb, rfl⟩ := hl
    have hn : (E.and a b).asserts ms = .nil := asserts_nil _ (by simp [E.hasAs, h])
    cases iha a' h.1 hp.1 ha with
    | abort h1 h2 => rw [asserts_nil a h.1] at h2; simp [Block.run] at h2
    | ok v h1 h2 h3 =>
      cases ihb b' h.2 hp.2 hb with
      | abort k1 k2 => rw [asserts_nil b h.2] at k2; simp [Block.run] at k2
      | ok w k1 k2 k3 =>
        by_cases hv : v = 0
        · refine .ok v ?_ (by rw [hn]; rfl) ?_
          · simp only [E.eval, h1, R.bind, hv, if_true]
          · simp only [E.eval, h3, R.bind, hv, if_true]
        · refine .ok w ?_ (by rw [hn]; rfl) ?_
          · simp only [E.eval, h1, R.bind, hv, if_false, k1]
          · simp only [E.eval, h3, R.bind, hv, if_false, k3]
  | or a b iha ihb =>
    simp only [E.hasAs, Bool.or_eq_false_iff] at h
    simp only [E.pure, Bool.and_eq_true] at hp
    simp only [E.lower, Option.bind_eq_some_iff, Option.some.injEq] at hl
    obtain ⟨a', ha, b', hb, rfl⟩ := hl
    have hn : (E.or a b).asserts ms = .nil := asserts_nil _ (by simp [E.hasAs, h])
    cases iha a' h.1 hp.1 ha with
    | abort h1 h2 => rw [asserts_nil a h.1] at h2; simp [Block.run] at h2
    | ok v h1 h2 h3 =>
      cases ihb b' h.2 hp.2 hb with
      | abort k1 k2 => rw [asserts_nil b h.2] at k2; simp [Block.run] at k2
      | ok w k1 k2 k3 =>
        by_cases hv : v = 0
        · refine .ok w ?_ (by rw [hn]; rfl) ?_
          · simp only [E.eval, h1, R.bind, hv, if_true, k1]
          · simp only [E.eval, h3, R.bind, hv, if_true, k3]
        · refine .ok v ?_ (by rw [hn]; rfl) ?_
          · simp only [E.eval, h1, R.bind, hv, if_false]
          · simp only [E.eval, h3, R.bind, hv, if_false]
  | is u t =>
    simp only [E.lower, Option.bind_eq_some_iff, Option.some.injEq] at hl
    obtain ⟨i, hi, rfl⟩ := hl
    have h1 := u.rel hP s s' hr
    refine .ok (b2i ((source P).fits (u.eval (source P) s).1.1 t)) ?_ rfl ?_
    · simp only [E.eval, u.pure_eval _ hp]
    · simp only [E.eval, u.pure_eval _ hp, fits_iff _ _ h1.1 t i hi]
  | as u t => simp [E.hasAs] at h

theorem eval_pure (hP : P.Ok ms) (n : Nat) (e : E Ty) (e' : E Nat) (s s' : St) (ha : e.always = true) (hp : e.pure = true)
    (hl : e.lower ms = some e') (hr : Rel ms s s') : Pureval (ms := ms) P op n e e' s s' := by
  induction e generalizing e' with
  | lit k => exact eval_pure_plain op hP n _ e' s s' rfl hp hl hr
  | var x => exact eval_pure_plain op hP n _ e' s s' rfl hp hl hr
  | next x => simp [E.pure] at hp
  | is u t => exact eval_pure_plain op hP n _ e' s s' rfl hp hl hr
  | bin o a b iha ihb =>
    simp only [E.always, Bool.and_eq_true] at ha
    simp only [E.pure, Bool.and_eq_true] at hp
    simp only [E.lower, Option.bind_eq_some_iff, Option.some.injEq] at hl
    obtain ⟨a', hla, b', hlb, rfl⟩ := hl
    cases iha a' ha.1 hp.1 hla with
    | abort h1 h2 => exact .abort (by simp only [E.eval, h1, R.bind]) (by rw [E.asserts, run_append, h2]; rfl)
    | ok v h1 h2 h3 =>
      cases ihb b' ha.2 hp.2 hlb with
      | abort k1 k2 => exact .abort (by simp only [E.eval, h1, R.bind, k1]) (by rw [E.asserts, run_append, h2]; exact k2)
      | ok w k1 k2 k3 =>
        exact .ok (op o v w) (by simp only [E.eval, h1, R.bind, k1]) (by rw [E.asserts, run_append, h2]; exact k2)
          (by simp only [E.eval, h3, R.bind, k3])
  | and a b iha ihb =>
    simp only [E.always, Bool.and_eq_true, Bool.not_eq_true'] at ha
    simp only [E.pure, Bool.and_eq_true] at hp
    simp only [E.lower, Option.bind_eq_some_iff, Option.some.injEq] at hl
    obtain ⟨a', hla, b', hlb, rfl⟩ := hl
    have hn : (E.and a b).asserts ms = a.asserts ms := by rw [E.asserts, asserts_nil b ha.2, Block.append_nil]
    cases iha a' ha.1 hp.1 hla with
    | abort h1 h2 => exact .abort (by simp only [E.eval, h1, R.bind]) (by rw [hn, h2])
    | ok v h1 h2 h3 =>
      cases eval_pure_plain op hP n b b' s s' ha.2 hp.2 hlb hr with
      | abort k1 k2 => rw [asserts_nil b ha.2] at k2; simp [Block.run] at k2
      | ok w k1 k2 k3 =>
        by_cases hv : v = 0
        · exact .ok v (by simp only [E.eval, h1, R.bind, hv, if_true]) (by rw [hn, h2]) (by simp only [E.eval, h3, R.bind, hv, if_true])
        · exact .ok w (by simp only [E.eval, h1, R.bind, hv, if_false, k1]) (by rw [hn, h2]) (by simp only [E.eval, h3, R.bind, hv, if_false, k3])
  | or a b iha ihb =>
    simp only [E.always, Bool.and_eq_true, Bool.not_eq_true'] at ha
    simp only [E.pure, Bool.and_eq_true] at hp
    simp only [E.lower, Option.bind_eq_some_iff, Option.some.injEq] at hl
    obtain ⟨a', hla, b', hlb, rfl⟩ := hl
    have hn : (E.or a b).asserts ms = a.asserts ms := by rw [E.asserts, asserts_nil b ha.2, Block.append_nil]
    cases iha a' ha.1 hp.1 hla with
    | abort h1 h2 => exact .abort (by simp only [E.eval, h1, R.bind]) (by rw [hn, h2])
    | ok v h1 h2 h3 =>
      cases eval_pure_plain op hP n b b' s s' ha.2 hp.2 hlb hr with
      | abort k1 k2 => rw [asserts_nil b ha.2] at k2; simp [Block.run] at k2
      | ok w k1 k2 k3 =>
        by_cases hv : v = 0
        · exact .ok w (by simp only [E.eval, h1, R.bind, hv, if_true, k1]) (by rw [hn, h2]) (by simp only [E.eval, h3, R.bind, hv, if_true, k3])
        · exact .ok v (by simp only [E.eval, h1, R.bind, hv, if_false]) (by rw [hn, h2]) (by simp only [E.eval, h3, R.bind, hv, if_false])
  | as u t =>
    simp only [E.lower, Option.bind_eq_some_iff, Option.some.injEq] at hl
    obtain ⟨i, hi, rfl⟩ := hl
    have h1 := u.rel hP s s' hr
    have hf := fits_iff _ _ h1.1 (P := P) t i hi
    have hasr : (E.as u t).asserts ms = .cons (.check u i) .nil := by simp only [E.asserts, hi]
    by_cases hft : (source P).fits (u.eval (source P) s).1.1 t = true
    · refine .ok (u.eval (source P) s).1.2 ?_ ?_ ?_
      · simp only [E.eval, hft, if_true, u.pure_eval _ hp]
      · rw [hasr]
        simp only [Block.run, Stmt.run, ← hf, hft, if_true, R.bind, u.pure_eval _ hp]
      · simp only [E.eval, ← hf, hft, if_true, u.pure_eval _ hp, h1.1.2]
    · refine .abort ?_ ?_
      · simp only [E.eval, hft]
        rfl
      · rw [hasr]
        simp only [Block.run, Stmt.run, ← hf, hft, if_false, R.bind, Bool.false_eq_true]

/-- A safe expression and its assertions. -/
theorem eval_safe (hP : P.Ok ms) (n : Nat) (e : E Ty) (e' : E Nat) (s s' : St) (h : e.safe = true) (hl : e.lower ms = some e')
    (hr : Rel ms s s') : RelR (RelE ms) (e.eval op (source P) s) (guarded (ms := ms) op (P := P) e e' n s') := by
  simp only [E.safe, Bool.or_eq_true, Bool.not_eq_true', Bool.and_eq_true] at h
  unfold guarded
  rcases h with h | h
  · rw [asserts_nil e h]
    exact eval_plain op hP e e' s s' h hl hr
  · cases eval_pure op hP n e e' s s' h.2 h.1 hl hr with
    | abort h1 h2 => rw [h1, h2]; exact .abort
    | ok v h1 h2 h3 =>
      rw [h1, h2]
      simp only [R.bind]
      rw [h3]
      exact .ok ⟨rfl, hr⟩

/-! ## Statements -/

inductive RelO {α : Type} (p : α → α → Prop) : Option α → Option α → Prop where
  | none : RelO p .none .none
  | some {a b} (h : p a b) : RelO p (.some a) (.some b)

theorem iter_rel {c c' : St → R (Int × St)} {b b' : St → R St} (hc : ∀ s s', Rel ms s s' → RelR (RelE ms) (c s) (c' s'))
    (hb : ∀ s s', Rel ms s s' → RelR (Rel ms) (b s) (b' s')) : ∀ (n : Nat) (s s' : St), Rel ms s s' → RelR (Rel ms) (iter c b n s) (iter c' b' n s')
  | 0, s, s', h => .more
  | n + 1, s, s', h => by
    refine (hc s s' h).bind fun r r' hr => ?_
    simp only [hr.1]
    split
    · exact .ok hr.2
    · exact (hb _ _ hr.2).bind fun t t' ht => iter_rel hc hb n t t' ht

theorem bind_assoc {α β γ : Type} (x : R α) (f : α → R β) (g : β → R γ) : (x.bind f).bind g = x.bind fun a => (f a).bind g := by
  cases x <;> rfl

theorem Rel.setNum {s s' : St} (h : Rel ms s s') (x : Nat) (v : Int) :
    Rel ms { s with num := upd s.num x v } { s' with num := upd s'.num x v } :=
  ⟨by rw [h.num], h.out, h.uni, h.arr⟩

mutual
theorem stmt_sim (hP : P.Ok ms) (n : Nat) : ∀ (t : Stmt Ty) (q : Block Nat × Stmt Nat), t.safe = true → t.lower ms = some q →
    (t.quiet = true → q.1 = .nil) ∧ ∀ s s', Rel ms s s' →
      RelR (Rel ms) (t.run op (source P) n s) ((q.1.run op (target ms P) n s').bind fun s => q.2.run op (target ms P) n s)
  | .check .., q, h, hl => by simp [Stmt.safe] at h
  | .set x e, q, h, hl => by
    simp only [Stmt.safe] at h
    simp only [Stmt.lower, Option.bind_eq_some_iff, Option.some.injEq] at hl
    obtain ⟨e', he, rfl⟩ := hl
    refine ⟨fun hq => asserts_nil e (by simpa [Stmt.quiet] using hq), fun s s' hr => ?_⟩
    simp only [Stmt.run]
    have := (eval_safe op hP n e e' s s' h he hr).bind (q := Rel ms)
      (f := fun r => .ok { r.2 with num := upd r.2.num x r.1 }) (g := fun r => .ok { r.2 with num := upd r.2.num x r.1 })
      fun r r' hr => .ok (by rw [hr.1]; exact hr.2.setNum x r'.1)
    rw [guarded, bind_assoc] at this
    exact this
  | .store u t e, q, h, hl => by
    simp only [Stmt.safe] at h
    simp only [Stmt.lower, Option.bind_eq_some_iff, Option.some.injEq] at hl
    obtain ⟨i, hi, e', he, rfl⟩ := hl
    refine ⟨fun hq => asserts_nil e (by simpa [Stmt.quiet] using hq), fun s s' hr => ?_⟩
    simp only [Stmt.run]
    have := (eval_safe op hP n e e' s s' h he hr).bind (q := Rel ms)
      (f := fun r => .ok { r.2 with uni := upd r.2.uni u ((source P).put t, r.1) })
      (g := fun r => .ok { r.2 with uni := upd r.2.uni u ((target ms P).put i, r.1) })
      fun r r' hr => .ok ⟨hr.2.num, hr.2.out, fun y => by
        simp only [upd]
        split
        · exact ⟨(index_base ms ⟨t.base, false⟩ t rfl).trans hi, hr.1⟩
        · exact hr.2.uni y, hr.2.arr⟩
    rw [guarded, bind_assoc] at this
    exact this
  | .emit e, q, h, hl => by
    simp only [Stmt.safe] at h
    simp only [Stmt.lower, Option.bind_eq_some_iff, Option.some.injEq] at hl
    obtain ⟨e', he, rfl⟩ := hl
    refine ⟨fun hq => asserts_nil e (by simpa [Stmt.quiet] using hq), fun s s' hr => ?_⟩
    simp only [Stmt.run]
    have := (eval_safe op hP n e e' s s' h he hr).bind (q := Rel ms)
      (f := fun r => .ok { r.2 with out := r.2.out ++ [r.1] }) (g := fun r => .ok { r.2 with out := r.2.out ++ [r.1] })
      fun r r' hr => .ok ⟨hr.2.num, by rw [hr.2.out, hr.1], hr.2.uni, hr.2.arr⟩
    rw [guarded, bind_assoc] at this
    exact this
  | .ite c b o, q, h, hl => by
    simp only [Stmt.safe, Bool.and_eq_true] at h
    simp only [Stmt.lower, Option.bind_eq_some_iff, Option.some.injEq] at hl
    obtain ⟨c', hc, b', hb, o', ho, rfl⟩ := hl
    have h2 := block_sim hP n b b' h.1.2 hb
    have h3 := else_sim hP n o o' h.2 ho
    simp only [h3.1, Block.append_nil]
    refine ⟨fun hq => asserts_nil c (by simpa [Stmt.quiet] using hq), fun s s' hr => ?_⟩
    simp only [Stmt.run]
    have := (eval_safe op hP n c c' s s' h.1.1 hc hr).bind (q := Rel ms)
      (f := fun r => if r.1 = 0 then o.run op (source P) n r.2 else b.run op (source P) n r.2)
      (g := fun r => if r.1 = 0 then o'.2.run op (target ms P) n r.2 else b'.run op (target ms P) n r.2)
      fun r r' hr => by
        simp only [hr.1]
        split
        · exact h3.2 _ _ hr.2
        · exact h2 _ _ hr.2
    rw [guarded, bind_assoc] at this
    exact this
  | .loop p c b, q, h, hl => by
    simp only [Stmt.safe, Bool.and_eq_true] at h
    simp only [Stmt.lower, Option.bind_eq_some_iff, Option.some.injEq] at hl
    obtain ⟨c', hc, b', hb, rfl⟩ := hl
    have h2 := block_sim hP n b b' h.1.2 hb
    refine ⟨fun _ => rfl, fun s s' hr => ?_⟩
    have hp : p = .nil := by
      cases p with
      | nil => rfl
      | cons _ _ => simp at h
    subst hp
    simp only [Block.run, R.bind, Stmt.run]
    exact iter_rel (fun s s' hr => eval_safe op hP n c c' s s' h.1.1.2 hc hr) h2 n s s' hr
  | .mat u cs, q, h, hl => by
    simp only [Stmt.safe, Bool.and_eq_true] at h
    simp only [Stmt.lower, Option.bind_eq_some_iff, Option.some.injEq] at hl
    obtain ⟨cs', hcs, rfl⟩ := hl
    have h1 := cases_sim hP n cs u cs' h.1 h.2 hcs
    simp only [h1.1]
    refine ⟨fun _ => trivial, fun s s' hr => ?_⟩
    simp only [Block.run, R.bind, Stmt.run]
    have hu := u.rel hP s s' hr
    have hf := (h1.2 _ _ hu.2).1 _ _ hu.1 (by rw [u.pure_eval _ h.1])
    have ho := (h1.2 _ _ hu.2).2
    generalize cs.find op (source P) (u.eval (source P) s).1 n (u.eval (source P) s).2 = x at hf ⊢
    generalize cs'.2.find op (target ms P) (u.eval (target ms P) s').1 n (u.eval (target ms P) s').2 = y at hf ⊢
    cases hf with
    | none => exact ho
    | some h => exact h
theorem block_sim (hP : P.Ok ms) (n : Nat) : ∀ (b : Block Ty) (b' : Block Nat), b.safe = true → b.lower ms = some b' →
    ∀ s s', Rel ms s s' → RelR (Rel ms) (b.run op (source P) n s) (b'.run op (target ms P) n s')
  | .nil, b', h, hl => by
    simp only [Block.lower, Option.some.injEq] at hl; subst hl
    intro s s' hr
    exact .ok hr
  | .cons t b, b', h, hl => by
    simp only [Block.safe, Bool.and_eq_true] at h
    simp only [Block.lower, Option.bind_eq_some_iff, Option.some.injEq] at hl
    obtain ⟨q, hq, b'', hb, rfl⟩ := hl
    intro s s' hr
    have h1 := (stmt_sim hP n t q h.1 hq).2 s s' hr
    have h2 := block_sim hP n b b'' h.2 hb
    have := h1.bind (q := Rel ms) (f := fun s => b.run op (source P) n s) (g := fun s => b''.run op (target ms P) n s) fun _ _ hr => h2 _ _ hr
    rw [run_append]
    simp only [Block.run]
    rw [bind_assoc] at this
    exact this
theorem else_sim (hP : P.Ok ms) (n : Nat) : ∀ (o : Else Ty) (o' : Block Nat × Else Nat), o.safe = true → o.lower ms = some o' →
    o'.1 = .nil ∧ ∀ s s', Rel ms s s' → RelR (Rel ms) (o.run op (source P) n s) (o'.2.run op (target ms P) n s')
  | .none, o', h, hl => by
    simp only [Else.lower, Option.some.injEq] at hl; subst hl
    exact ⟨rfl, fun s s' hr => .ok hr⟩
  | .block b, o', h, hl => by
    simp only [Else.safe] at h
    simp only [Else.lower, Option.bind_eq_some_iff, Option.some.injEq] at hl
    obtain ⟨b', hb, rfl⟩ := hl
    exact ⟨rfl, block_sim hP n b b' h hb⟩
  | .elif c b o, o', h, hl => by
    simp only [Else.safe, Bool.and_eq_true, Bool.not_eq_true'] at h
    simp only [Else.lower, Option.bind_eq_some_iff, Option.some.injEq] at hl
    obtain ⟨c', hc, b', hb, o', ho, rfl⟩ := hl
    have h2 := block_sim hP n b b' h.1.2 hb
    have h3 := else_sim hP n o o' h.2 ho
    refine ⟨by rw [h3.1, asserts_nil c h.1.1]; rfl, fun s s' hr => ?_⟩
    simp only [Else.run]
    refine (eval_plain op hP c c' s s' h.1.1 hc hr).bind fun r r' hr => ?_
    simp only [hr.1]
    split
    · exact h3.2 _ _ hr.2
    · exact h2 _ _ hr.2
theorem body_sim (hP : P.Ok ms) (n : Nat) : ∀ (b : Body Ty) (blk : Bool) (b' : Block Nat × Block Nat), b.safe blk = true → b.lower ms blk = some b' →
    b'.1 = .nil ∧ ∀ s s', Rel ms s s' → RelR (Rel ms) (b.run op (source P) n s) (b'.2.run op (target ms P) n s')
  | .block b, blk, b', h, hl => by
    simp only [Body.safe] at h
    simp only [Body.lower, Option.bind_eq_some_iff, Option.some.injEq] at hl
    obtain ⟨b', hb, rfl⟩ := hl
    exact ⟨rfl, block_sim hP n b b' h hb⟩
  | .one t, true, b', h, hl => by
    simp only [Body.safe, Bool.and_eq_true] at h
    simp only [Body.lower, Option.bind_eq_some_iff, Option.some.injEq] at hl
    obtain ⟨q, hq, rfl⟩ := hl
    have h1 := stmt_sim hP n t q h.1 hq
    refine ⟨rfl, fun s s' hr => ?_⟩
    have := h1.2 s s' hr
    rw [run_append]
    simp only [Block.run]
    rw [show (fun s => (q.2.run op (target ms P) n s).bind fun s => R.ok s) = fun s => q.2.run op (target ms P) n s from by
      funext s; cases q.2.run op (target ms P) n s <;> rfl]
    exact this
  | .one t, false, b', h, hl => by
    simp only [Body.safe, Bool.and_eq_true, Bool.false_or] at h
    simp only [Body.lower, Option.bind_eq_some_iff, Option.some.injEq] at hl
    obtain ⟨q, hq, rfl⟩ := hl
    have h1 := stmt_sim hP n t q h.1 hq
    refine ⟨h1.1 h.2, fun s s' hr => ?_⟩
    have := h1.2 s s' hr
    rw [h1.1 h.2] at this
    simp only [Block.run, R.bind] at this ⊢
    cases e : q.2.run op (target ms P) n s' <;> rw [e] at this <;> exact this
theorem cases_sim (hP : P.Ok ms) (n : Nat) : ∀ (cs : Cases Ty) (u : UE) (cs' : Block Nat × Cases Nat), u.pure = true → cs.safe = true →
    cs.lower ms u = some cs' → cs'.1 = .nil ∧ ∀ s s', Rel ms s s' →
      (∀ w w', RelV ms w w' → w' = (u.eval (target ms P) s').1 →
        RelO (RelR (Rel ms)) (cs.find op (source P) w n s) (cs'.2.find op (target ms P) w' n s')) ∧
      RelR (Rel ms) (cs.other op (source P) n s) (cs'.2.other op (target ms P) n s')
  | .nil, u, cs', hu, h, hl => by
    simp only [Cases.lower, Option.some.injEq] at hl; subst hl
    exact ⟨rfl, fun s s' hr => ⟨fun w w' _ _ => .none, .abort⟩⟩
  | .cons [] v b cs, u, cs', hu, h, hl => by
    simp only [Cases.safe, Bool.and_eq_true] at h
    simp only [Cases.lower, Option.bind_eq_some_iff, Option.some.injEq] at hl
    obtain ⟨b', hb, cs'', hcs, rfl⟩ := hl
    have h1 := body_sim hP n b true b' h.1 hb
    have h2 := cases_sim hP n cs u cs'' hu h.2 hcs
    refine ⟨by rw [h1.1, h2.1]; rfl, fun s s' hr => ⟨fun w w' hw hw' => ?_, ?_⟩⟩
    · simp only [Cases.find, List.any_nil, Bool.false_eq_true, if_false]
      exact (h2.2 s s' hr).1 w w' hw hw'
    · simp only [Cases.other, Body.run]
      exact h1.2 s s' hr
  | .cons [t] v b cs, u, cs', hu, h, hl => by
    simp only [Cases.safe, Bool.and_eq_true] at h
    simp only [Cases.lower, indices, Option.bind_eq_some_iff, Option.some.injEq] at hl
    obtain ⟨is, ⟨i, hi, js, rfl, rfl⟩, b', hb, cs'', hcs, rfl⟩ := hl
    have h1 := body_sim hP n b _ b' h.1 hb
    have h2 := cases_sim hP n cs u cs'' hu h.2 hcs
    refine ⟨by rw [h1.1, h2.1]; rfl, fun s s' hr => ⟨fun w w' hw hw' => ?_, ?_⟩⟩
    · simp only [emptyCases, List.dropLast_singleton, List.foldr_nil, List.getLastD_cons, List.getLastD_nil, Cases.find, List.any_cons, List.any_nil, Bool.or_false]
      have hf := fits_iff _ _ hw (P := P) t i hi
      rw [← hf]
      by_cases hft : (source P).fits w.1 t = true
      · simp only [hft, if_true, Body.run]
        refine .some ?_
        cases v with
        | none => exact h1.2 s s' hr
        | some x =>
          simp only [Block.run, Stmt.run, E.eval, ← hw', u.pure_eval _ hu]
          rw [hf] at hft
          simp only [hft, if_true, R.bind]
          refine h1.2 _ _ ?_
          rw [hw.2]
          exact hr.setNum x w'.2
      · simp only [hft, if_false, Bool.false_eq_true]
        exact (h2.2 s s' hr).1 w w' hw hw'
    · simp only [emptyCases, List.dropLast_singleton, List.foldr_nil, Cases.other]
      exact (h2.2 s s' hr).2
  | .cons (_ :: _ :: _) _ _ _, _, _, _, h, _ => by simp [Cases.safe] at h
end

end Verif.Unions
