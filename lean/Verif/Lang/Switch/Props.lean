import Verif.Lang.Switch.Model
/-!
# A switch runs the case that lists the value
-/
namespace Verif.Switch

open Verif.Prim (Prim)

/-! ## What is meant -/

/-- The values a label stands for; a range has both its ends. -/
def Label.holds (l : Label) (v : Int) : Prop :=
  match l with
  | .one w _ => v = w
  | .range a b _ _ => a ≤ v ∧ v ≤ b

instance (l : Label) (v : Int) : Decidable (l.holds v) := by
  cases l <;> simp only [Label.holds] <;> infer_instance

/-- No value has both labels. -/
def Apart (l m : Label) : Prop := ∀ v, ¬ (l.holds v ∧ m.holds v)

/-- The group has a label for the value. -/
def Group.holds (v : Int) : Group → Bool
  | .labels l ls _ => (l :: ls).any fun m => decide (m.holds v)
  | .default _ => false

/-- The body of a group. -/
def Group.body : Group → Nat
  | .labels _ _ b => b
  | .default b => b

def Group.isDefault : Group → Bool
  | .default _ => true
  | _ => false

/-- The body meant to run for a value: that of the case that lists it, else that of `default`. -/
def meaning (gs : List Group) (v : Int) : Option Nat :=
  match gs.find? (Group.holds v) with
  | some g => some g.body
  | none => (gs.find? Group.isDefault).map Group.body

/-- Only values. -/
def Label.isOne : Label → Bool
  | .one .. => true
  | .range .. => false

/-! ## The sort -/

/-- Neighbours are in order. -/
def Adj (cmp : α → α → Int) : List α → Prop
  | x :: y :: l => cmp x y ≤ 0 ∧ Adj cmp (y :: l)
  | _ => True

/-- `z` may stand in front. -/
def Front (cmp : α → α → Int) (z : α) : List α → Prop
  | x :: _ => cmp z x ≤ 0
  | [] => True

theorem Adj.cons {cmp : α → α → Int} {z : α} {l : List α} (h : Front cmp z l) (h' : Adj cmp l) : Adj cmp (z :: l) := by
  cases l with
  | nil => trivial
  | cons x l => exact ⟨h, h'⟩

theorem Adj.tail {cmp : α → α → Int} {z : α} {l : List α} (h : Adj cmp (z :: l)) : Adj cmp l ∧ Front cmp z l := by
  cases l with
  | nil => exact ⟨trivial, trivial⟩
  | cons x l => exact ⟨h.2, h.1⟩

theorem merge_front {cmp : α → α → Int} {z : α} {xs ys : List α} (hx : Front cmp z xs) (hy : Front cmp z ys) :
    Front cmp z (merge cmp xs ys) := by
  cases xs with
  | nil => simpa [merge] using hy
  | cons x xs =>
    cases ys with
    | nil => simpa [merge] using hx
    | cons y ys =>
      simp only [merge]
      split
      · exact hx
      · exact hy

theorem merge_adj {cmp : α → α → Int} (anti : ∀ x y, 0 < cmp x y → cmp y x ≤ 0) (xs ys : List α) :
    Adj cmp xs → Adj cmp ys → Adj cmp (merge cmp xs ys) := by
  induction xs, ys using merge.induct cmp with
  | case1 ys => intro _ h; simpa [merge] using h
  | case2 xs h => intro h' _; cases xs <;> simpa [merge] using h'
  | case3 x xs y ys h ih =>
    intro h1 h2
    rw [merge, if_pos h]
    exact Adj.cons (merge_front h1.tail.2 h) (ih h1.tail.1 h2)
  | case4 x xs y ys h ih =>
    intro h1 h2
    rw [merge, if_neg h]
    exact Adj.cons (merge_front (anti x y (by omega)) h2.tail.2) (ih h1 h2.tail.1)

theorem merge_perm {cmp : α → α → Int} (xs ys : List α) : (merge cmp xs ys).Perm (xs ++ ys) := by
  induction xs, ys using merge.induct cmp with
  | case1 ys => simp [merge]
  | case2 xs h => cases xs <;> simp [merge]
  | case3 x xs y ys h ih =>
    rw [merge, if_pos h]
    exact ih.cons x
  | case4 x xs y ys h ih =>
    rw [merge, if_neg h]
    exact (ih.cons y).trans (List.perm_middle.symm)

theorem msort_adj {cmp : α → α → Int} (anti : ∀ x y, 0 < cmp x y → cmp y x ≤ 0) (l : List α) : Adj cmp (msort cmp l) := by
  induction l using msort.induct with
  | case1 l h ih1 ih2 =>
    rw [msort, if_pos h]
    exact merge_adj anti _ _ ih1 ih2
  | case2 l h =>
    rw [msort, if_neg h]
    match l, h with
    | [], _ => trivial
    | [_], _ => trivial
    | _ :: _ :: _, h => simp at h

theorem msort_perm {cmp : α → α → Int} (l : List α) : (msort cmp l).Perm l := by
  induction l using msort.induct with
  | case1 l h ih1 ih2 =>
    rw [msort, if_pos h]
    refine (merge_perm _ _).trans ((ih1.append ih2).trans ?_)
    rw [List.take_append_drop]
  | case2 l h => rw [msort, if_neg h]

/-! ## Comparing -/

theorem compare_anti (x y : Label) : 0 < compare x y → compare y x ≤ 0 := by
  cases x <;> cases y <;> simp only [compare, overlap3, inRange3, cmp3] <;> intro h <;> split at h <;> split <;>
    first | omega | (split at h <;> first | omega | (split <;> omega)) | (split <;> omega)

/-- Labels that compare equal share a value. -/
theorem compare_zero {x y : Label} (hx : x.lo ≤ x.hi) (hy : y.lo ≤ y.hi) (h : compare x y = 0) : ¬ Apart x y := by
  intro ha
  cases x with
  | one v t =>
    cases y with
    | one w u =>
      simp only [compare, cmp3] at h
      refine ha v ⟨rfl, ?_⟩
      show v = w
      split at h
      · omega
      · split at h <;> omega
    | range a b ta tb =>
      simp only [compare, inRange3] at h
      refine ha v ⟨rfl, ?_⟩
      show a ≤ v ∧ v ≤ b
      split at h
      · omega
      · split at h <;> omega
  | range a b ta tb =>
    cases y with
    | one w u =>
      simp only [compare, inRange3] at h
      refine ha w ⟨?_, rfl⟩
      show a ≤ w ∧ w ≤ b
      split at h
      · omega
      · split at h <;> omega
    | range c d tc td =>
      simp only [compare, overlap3] at h
      simp only [Label.lo, Label.hi] at hx hy
      have h1 : ¬ b < c ∧ ¬ a > d := by
        split at h
        · omega
        · split at h <;> omega
      by_cases hac : a ≤ c
      · exact ha c ⟨⟨hac, by omega⟩, ⟨Int.le_refl _, hy⟩⟩
      · exact ha a ⟨⟨Int.le_refl _, hx⟩, ⟨by omega, by omega⟩⟩

theorem Apart.symm {x y : Label} (h : Apart x y) : Apart y x := fun v hv => h v ⟨hv.2, hv.1⟩

/-- One comes before the other. -/
def Before (x y : Label) : Prop := x.hi < y.lo

theorem Before.apart {x y : Label} (h : Before x y) : Apart x y := by
  intro v ⟨h1, h2⟩
  cases x <;> cases y <;> simp only [Before, Label.hi, Label.lo, Label.holds] at h h1 h2 <;> omega

/-- Comparing two values, or two ranges. -/
theorem compare_same {x y : Label} (h : x.isOne = y.isOne) (hc : compare x y < 0) : Before x y := by
  cases x <;> cases y <;> simp only [Label.isOne, Bool.true_eq_false, Bool.false_eq_true] at h <;>
    simp only [compare, overlap3, cmp3] at hc <;> simp only [Before, Label.lo, Label.hi] <;> split at hc <;>
    first | omega | (split at hc <;> omega)

theorem sorted_pairwise : ∀ l : List Label, Adj compare l → dups compare l = false → (∀ x ∈ l, x.lo ≤ x.hi) →
    (∀ x ∈ l, ∀ y ∈ l, x.isOne = y.isOne) → l.Pairwise Before := by
  intro l
  induction l with
  | nil => intros; exact List.Pairwise.nil
  | cons x l ih =>
    intro ha hd hne hs
    cases l with
    | nil => simp
    | cons y l =>
      simp only [dups, Bool.or_eq_false_iff, decide_eq_false_iff_not] at hd
      have hxy : Before x y := compare_same (hs x (by simp) y (by simp)) (by have := ha.1; have := hd.1; omega)
      have ih' := ih ha.2 hd.2 (fun z hz => hne z (by simp [hz])) (fun a ha b hb => hs a (by simp [ha]) b (by simp [hb]))
      refine List.Pairwise.cons ?_ ih'
      intro z hz
      cases hz with
      | head => exact hxy
      | tail _ hz =>
        have h1 := (List.pairwise_cons.mp ih').1 z hz
        have h2 := hne y (by simp)
        simp only [Before] at hxy h1 ⊢
        omega

theorem dups_not_pairwise : ∀ l : List Label, (∀ x ∈ l, x.lo ≤ x.hi) → dups compare l = true → ¬ l.Pairwise Apart := by
  intro l
  induction l with
  | nil => intro _ h; simp [dups] at h
  | cons x l ih =>
    intro hne hd hp
    cases l with
    | nil => simp [dups] at hd
    | cons y l =>
      simp only [dups, Bool.or_eq_true, decide_eq_true_eq] at hd
      rcases hd with hd | hd
      · exact compare_zero (hne x (by simp)) (hne y (by simp)) hd ((List.pairwise_cons.mp hp).1 y (by simp))
      · exact ih (fun z hz => hne z (by simp [hz])) hd (List.pairwise_cons.mp hp).2

theorem checkLabel_ne {cond : Prim} {l : Label} (h : checkLabel cond l = .ok) : l.lo ≤ l.hi := by
  simp only [checkLabel] at h
  split at h
  · cases h
  split at h
  · cases h
  omega

theorem check_ok_iff (cond : Prim) (cs : List Case) : check cond cs = .ok ↔
    (∀ l ∈ labelsOf cs, checkLabel cond l = .ok) ∧ dups compare (msort compare (labelsOf cs)) = false := by
  simp only [check]
  constructor
  · intro h
    split at h
    · cases h
    rename_i h1
    split at h
    · cases h
    rename_i h2
    split at h
    · cases h
    rename_i h3
    refine ⟨?_, by simpa using h3⟩
    intro l hl
    simp only [List.any_eq_true, decide_eq_true_eq, not_exists, not_and] at h1 h2
    cases hc : checkLabel cond l with
    | ok => rfl
    | rejected => exact absurd hc (h2 l hl)
    | abort => exact absurd hc (h1 l hl)
  · intro ⟨h1, h2⟩
    rw [if_neg, if_neg, if_neg]
    · simp [h2]
    · simp only [List.any_eq_true, decide_eq_true_eq, not_exists, not_and]
      intro l hl; rw [h1 l hl]; decide
    · simp only [List.any_eq_true, decide_eq_true_eq, not_exists, not_and]
      intro l hl; rw [h1 l hl]; decide

/-- **C123** (partial). In an accepted switch no value has two labels.

Missing: switches with both values and ranges, for which it is false (`overlap_accepted`). -/
theorem labels_apart_partial (cond : Prim) (cs : List Case) (h : check cond cs = .ok)
    (hs : ∀ x ∈ labelsOf cs, ∀ y ∈ labelsOf cs, x.isOne = y.isOne) : (labelsOf cs).Pairwise Apart := by
  obtain ⟨h1, h2⟩ := (check_ok_iff cond cs).mp h
  have hp : (msort compare (labelsOf cs)).Perm (labelsOf cs) := msort_perm _
  have hb := sorted_pairwise _ (msort_adj compare_anti _) h2 (fun x hx => checkLabel_ne (h1 x (hp.mem_iff.mp hx)))
    (fun x hx y hy => hs x (hp.mem_iff.mp hx) y (hp.mem_iff.mp hy))
  exact (hp.pairwise_iff (fun h => h.symm)).mp (hb.imp (fun h => h.apart))

/-- **C123.** A switch whose labels share no value is accepted, if its labels are: a duplicate is only reported when there is one. -/
theorem apart_accepted (cond : Prim) (cs : List Case) (h1 : ∀ l ∈ labelsOf cs, checkLabel cond l = .ok)
    (h2 : (labelsOf cs).Pairwise Apart) : check cond cs = .ok := by
  refine (check_ok_iff cond cs).mpr ⟨h1, ?_⟩
  have hp : (msort compare (labelsOf cs)).Perm (labelsOf cs) := msort_perm _
  cases hd : dups compare (msort compare (labelsOf cs)) with
  | false => rfl
  | true =>
    exact absurd ((hp.pairwise_iff (fun h => h.symm)).mpr h2)
      (dups_not_pairwise _ (fun x hx => checkLabel_ne (h1 x (hp.mem_iff.mp hx))) hd)

/-- **C123** fails: for `v < a ≤ b < w < x` the switch with the labels `v`, `x`, `w`, `a..b`, `v` is accepted whenever each of its
labels is, although `v` has two. A range and a value compare the wrong way round, so that there is no order to sort by. -/
theorem overlap_accepted (cond t ta tb : Prim) (v a b w x : Int) (h1 : v < a) (h2 : a ≤ b) (h3 : b < w) (h4 : w < x)
    (p q r s u : Option Nat)
    (hl : ∀ l ∈ [Label.one v t, .one x t, .one w t, .range a b ta tb], checkLabel cond l = .ok) :
    check cond [⟨some (.one v t), p⟩, ⟨some (.one x t), q⟩, ⟨some (.one w t), r⟩, ⟨some (.range a b ta tb), s⟩,
      ⟨some (.one v t), u⟩] = .ok := by
  refine (check_ok_iff _ _).mpr ⟨?_, ?_⟩
  · intro l hm
    refine hl l ?_
    simp [labelsOf] at hm ⊢
    rcases hm with h | h | h | h | h <;> simp [h]
  · simp only [labelsOf, List.filterMap_cons, List.filterMap_nil]
    have e1 : compare (.one v t) (.one x t) = -1 := by simp only [compare, cmp3]; rw [if_pos (by omega)]
    have e2 : compare (.range a b ta tb) (.one v t) = -1 := by simp only [compare, inRange3]; rw [if_pos (by omega)]
    have e3 : compare (.one w t) (.range a b ta tb) = -1 := by
      simp only [compare, inRange3]; rw [if_neg (by omega), if_pos (by omega)]
    have e4 : compare (.one v t) (.one w t) = -1 := by simp only [compare, cmp3]; rw [if_pos (by omega)]
    have e5 : compare (.one x t) (.one w t) = 1 := by
      simp only [compare, cmp3]; rw [if_neg (by omega), if_pos (by omega)]
    have e6 : compare (.one x t) (.range a b ta tb) = -1 := by
      simp only [compare, inRange3]; rw [if_neg (by omega), if_pos (by omega)]
    have e7 : compare (.one w t) (.one x t) = -1 := by simp only [compare, cmp3]; rw [if_pos (by omega)]
    have m1 : ∀ l : Label, msort compare [l] = [l] := by intro l; rw [msort]; simp
    have m2 : msort compare [Label.one v t, .one x t] = [.one v t, .one x t] := by
      rw [msort]; simp [m1, merge, e1]
    have m3 : msort compare [Label.range a b ta tb, .one v t] = [.range a b ta tb, .one v t] := by
      rw [msort]; simp [m1, merge, e2]
    have m4 : msort compare [Label.one w t, .range a b ta tb, .one v t] = [.one w t, .range a b ta tb, .one v t] := by
      rw [msort]; simp [m1, m3, merge, e3]
    rw [msort]
    simp [m2, m4, merge, e4, e5, e6, dups, e7, e2]

example : (∀ l ∈ [Label.one 1 .i64, .one 11 .i64, .one 10 .i64, .range 5 7 .i64 .i64], checkLabel .i64 l = .ok) := by decide

example : check .i32 (parse [.labels (.one 1 .i32) [.one 7 .i32] 0, .labels (.one 3 .i32) [] 1, .default 2]) = .ok :=
  apart_accepted _ _ (by decide) (by
    simp [labelsOf, parse, casesOf, Apart, Label.holds])

/-! ## Literals -/

/-- **C154** (partial). A literal that is a value of the type of the condition and is written with that type is accepted and built.

Missing: values from 2⁶³ on; literals of another type, for which it is false. -/
theorem literal_case_built_partial (cond : Prim) (hc : Prim.isInteger cond = true) (f : Int) (s : Nat)
    (hm : Prim.minMax cond = some (f, s)) (v : Int) (h1 : f ≤ v) (h2 : v ≤ s) (h3 : v < 2 ^ 63) (b : Nat) :
    ∃ c, build cond [.labels (.one v cond) [] b] = .ok c ∧ c.run v = some b := by
  have ha : Prim.assignable cond cond = true := by simp [Prim.assignable]
  have hr : Prim.inRange cond v v = some true := by
    cases cond <;> simp [Prim.isInteger, Prim.isUnsigned, Prim.isSignedInteger] at hc <;>
      simp only [Prim.minMax, Option.some.injEq, Prod.mk.injEq] at hm <;> obtain ⟨rfl, rfl⟩ := hm <;>
      simp [Prim.inRange, Prim.minMax, Prim.isSigned, Prim.isSignedInteger, Prim.isFloat, Prim.toU64] <;> omega
  have hck : check cond (parse [.labels (.one v cond) [] b]) = .ok := by
    refine apart_accepted _ _ ?_ (by simp [parse, casesOf, labelsOf])
    intro l hl
    simp [parse, casesOf, labelsOf] at hl
    subst hl
    simp only [checkLabel, Label.type, ha, Label.lo, Label.hi, hr]
    simp
  refine ⟨_, by simp only [build, hck]; simp [code, parse, casesOf, verified, labelsOf, Label.const]; rfl, ?_⟩
  simp [Code.run]

/-- **C124** fails: a literal that is written without a type is rejected for every condition of a wider type; `case 5` on an `i32`. -/
theorem bare_literal_rejected (cond : Prim) (hc : Prim.isInteger cond = true) (v : Int)
    (hw : Prim.size (Prim.literalType v) < Prim.size cond) : checkLabel cond (.one v (Prim.literalType v)) = .rejected := by
  have : Prim.assignable (Prim.literalType v) cond = false := by
    revert hw
    have ht : Prim.literalType v = .i8 ∨ Prim.literalType v = .i16 ∨ Prim.literalType v = .i32 ∨
        Prim.literalType v = .i64 := by
      simp only [Prim.literalType]
      split
      · simp
      split
      · simp
      split <;> simp
    revert hc
    rcases ht with h | h | h | h <;> rw [h] <;> cases cond <;> decide
  simp [checkLabel, Label.type, this]

example : Prim.size (Prim.literalType 5) < Prim.size Prim.i32 := by decide

/-- **C154** fails: a literal that is written with a wider type is accepted, and makes an invalid module. -/
theorem wide_literal_breaks_module (cond t : Prim) (ht : t ≠ cond) (v : Int) (b : Nat)
    (hk : checkLabel cond (.one v t) = .ok) : build cond [.labels (.one v t) [] b] = .badModule := by
  have hck : check cond (parse [.labels (.one v t) [] b]) = .ok := by
    refine apart_accepted _ _ ?_ (by simp [parse, casesOf, labelsOf])
    intro l hl
    simp [parse, casesOf, labelsOf] at hl
    subst hl
    exact hk
  simp only [build, hck]
  simp [code, parse, casesOf, verified, labelsOf, Label.const, ht]

example : checkLabel .i8 (.one 5 .i32) = .ok := by decide

/-! ## Which body runs -/

/-- The constants and bodies. -/
def tableOf (cs : List Case) : List (Int × Option Nat) := cs.filterMap fun c => c.label.map fun l => (l.const.1, c.body)

/-- The value is not listed in front of a comma. -/
def Group.lastOnly (v : Int) : Group → Prop
  | .labels l ls _ => ∀ m ∈ (l :: ls).dropLast, ¬ m.holds v
  | .default _ => True

def Group.values : Group → Bool
  | .labels l ls _ => (l :: ls).all Label.isOne
  | .default _ => true

theorem one_const {l : Label} (h : l.isOne = true) (v : Int) : l.const.1 = v ↔ l.holds v := by
  cases l <;> simp [Label.isOne] at h
  simp only [Label.const, Label.holds]
  exact eq_comm

theorem find_casesOf (b : Nat) (v : Int) (ls : List Label) : ∀ l : Label, ((l :: ls).all Label.isOne = true) →
    (∀ m ∈ (l :: ls).dropLast, ¬ m.holds v) →
    (tableOf (casesOf b l ls)).find? (fun e => decide (e.1 = v)) =
      if (l :: ls).any (fun m => decide (m.holds v)) then some (v, some b) else none := by
  induction ls with
  | nil =>
    intro l h1 _
    simp only [List.all_cons, List.all_nil, Bool.and_true] at h1
    simp only [tableOf, casesOf, List.filterMap_cons, Option.map_some, List.filterMap_nil, List.find?_cons, List.find?_nil,
      List.any_cons, List.any_nil, Bool.or_false, one_const h1]
    by_cases hh : l.holds v
    · have := (one_const h1 v).mpr hh
      simp [hh, this]
    · simp [hh]
  | cons m ms ih =>
    intro l h1 h2
    simp only [List.all_cons, Bool.and_eq_true] at h1
    have hl : ¬ l.holds v := h2 l (by simp [List.dropLast])
    have hlc : ¬ l.const.1 = v := fun h => hl ((one_const h1.1 v).mp h)
    have := ih m (by simp [h1.2]) (fun k hk => h2 k (by simp only [List.dropLast]; exact List.mem_cons_of_mem _ hk))
    simp only [tableOf] at this
    simp only [tableOf, casesOf, List.filterMap_cons, Option.map_some, List.find?_cons, hlc, decide_false]
    rw [this]
    simp [hl]

theorem tableOf_append (a b : List Case) : tableOf (a ++ b) = tableOf a ++ tableOf b := by
  simp [tableOf]

theorem find_parse (v : Int) : ∀ gs : List Group, (∀ g ∈ gs, g.values = true) → (∀ g ∈ gs, g.lastOnly v) →
    (tableOf (parse gs)).find? (fun e => decide (e.1 = v)) =
      (gs.find? (Group.holds v)).map fun g => (v, some g.body) := by
  intro gs
  induction gs with
  | nil => intros; rfl
  | cons g gs ih =>
    intro h1 h2
    have ih' := ih (fun g hg => h1 g (by simp [hg])) (fun g hg => h2 g (by simp [hg]))
    cases g with
    | default b =>
      have : tableOf (parse (.default b :: gs)) = tableOf (parse gs) := by simp [parse, tableOf]
      rw [this, ih', List.find?_cons]
      simp [Group.holds]
    | labels l ls b =>
      have g1 := h1 _ List.mem_cons_self
      have g2 := h2 _ List.mem_cons_self
      simp only [parse, tableOf_append, List.find?_append, ih', List.find?_cons]
      rw [find_casesOf b v ls l g1 g2]
      cases hh : (l :: ls).any (fun m => decide (m.holds v)) with
      | true => simp [Group.holds, hh, Group.body]
      | false => simp [Group.holds, hh]

theorem casesOf_labelled (b : Nat) (ls : List Label) : ∀ l : Label, (casesOf b l ls).filter (·.label = none) = [] := by
  induction ls with
  | nil => intro l; simp [casesOf]
  | cons m ms ih => intro l; simp [casesOf]; simpa using ih m

theorem defaults (gs : List Group) : (parse gs).filter (·.label = none) =
    (gs.filter Group.isDefault).map fun g => ⟨none, some g.body⟩ := by
  induction gs with
  | nil => rfl
  | cons g gs ih =>
    cases g with
    | default b => simp only [parse, List.filter_cons, Group.isDefault]; simp [ih, Group.body]
    | labels l ls b =>
      simp only [parse, List.filter_append, casesOf_labelled, ih, List.filter_cons, Group.isDefault]
      simp

/-- **C155** (partial). A switch that is built runs, for a value, the body of the case that lists it, and that of `default` for a
value that no case lists.

Missing: ranges, and values that are listed in front of a comma, for which it is false. -/
theorem listed_case_runs_partial (cond : Prim) (gs : List Group) (c : Code) (h : build cond gs = .ok c)
    (hv : ∀ g ∈ gs, g.values = true) (v : Int) (hl : ∀ g ∈ gs, g.lastOnly v) : c.run v = meaning gs v := by
  simp only [build] at h
  split at h
  · cases h
  · cases h
  split at h
  · cases h
  rename_i c' hc
  split at h
  · cases h
    have hf := find_parse v gs hv hl
    have hd := defaults gs
    have hfind : gs.find? Group.isDefault = (gs.filter Group.isDefault).head? := List.head?_filter.symm
    simp only [code] at hc
    simp only [Code.run, meaning, hfind]
    rw [hd] at hc
    cases hds : gs.filter Group.isDefault with
    | nil =>
      rw [hds] at hc
      simp only [List.map_nil, Option.some.injEq] at hc
      subst hc
      simp only [tableOf] at hf
      rw [hf]
      cases gs.find? (Group.holds v) <;> simp
    | cons d ds =>
      rw [hds] at hc
      cases ds with
      | cons _ _ => simp at hc
      | nil =>
        simp only [List.map_cons, List.map_nil, Option.some.injEq] at hc
        subst hc
        simp only [tableOf] at hf
        rw [hf]
        cases gs.find? (Group.holds v) <;> simp
  · cases h

example : ∃ c, build .i32 [.labels (.one 1 .i32) [.one 7 .i32] 0, .labels (.one 3 .i32) [] 1, .default 2] = .ok c ∧
    c.run 7 = some 0 ∧ c.run 3 = some 1 ∧ c.run 4 = some 2 := by
  have hck : check .i32 (parse [.labels (.one 1 .i32) [.one 7 .i32] 0, .labels (.one 3 .i32) [] 1, .default 2]) = .ok :=
    apart_accepted _ _ (by decide) (by
      simp [labelsOf, parse, casesOf, Apart, Label.holds])
  exact ⟨_, by simp only [build, hck]; simp [code, parse, casesOf, verified, labelsOf, Label.const]; rfl, by simp [Code.run]⟩

/-- **C155** fails: of `case v, w => b` only `w` runs `b`; for `v` nothing runs, not even `default`. -/
theorem first_label_runs_nothing (cond : Prim) (v w : Int) (hvw : v ≠ w) (b d : Nat)
    (h1 : checkLabel cond (.one v cond) = .ok) (h2 : checkLabel cond (.one w cond) = .ok) :
    ∃ c, build cond [.labels (.one v cond) [.one w cond] b, .default d] = .ok c ∧ c.run v = none ∧
      meaning [.labels (.one v cond) [.one w cond] b, .default d] v = some b := by
  have hck : check cond (parse [.labels (.one v cond) [.one w cond] b, .default d]) = .ok := by
    refine apart_accepted _ _ ?_ ?_
    · intro l hl
      simp [parse, casesOf, labelsOf] at hl
      rcases hl with rfl | rfl <;> assumption
    · simp only [parse, casesOf, labelsOf, List.cons_append, List.nil_append, List.filterMap_cons, List.filterMap_nil,
        List.pairwise_cons, List.mem_singleton]
      refine ⟨?_, by simp⟩
      rintro l rfl v' ⟨e1, e2⟩
      exact hvw (e1.symm.trans e2)
  refine ⟨_, by simp only [build, hck]; simp [code, parse, casesOf, verified, labelsOf, Label.const, hvw]; rfl, ?_, ?_⟩
  · simp [Code.run]
  · simp [meaning, Group.holds, Label.holds, Group.body]

example : checkLabel .i32 (.one 1 .i32) = .ok ∧ checkLabel .i32 (.one 2 .i32) = .ok := by decide

/-- **C155** fails: `case a..b => body` only runs for `b`. -/
theorem range_runs_for_its_end_only (cond : Prim) (a b : Int) (hab : a < b) (body : Nat)
    (h1 : checkLabel cond (.range a b cond cond) = .ok) :
    ∃ c, build cond [.labels (.range a b cond cond) [] body] = .ok c ∧ (∀ v, c.run v = some body ↔ v = b) ∧ c.run a = none ∧
      ∀ v, a ≤ v → v ≤ b → meaning [.labels (.range a b cond cond) [] body] v = some body := by
  have hck : check cond (parse [.labels (.range a b cond cond) [] body]) = .ok := by
    refine apart_accepted _ _ ?_ (by simp [parse, casesOf, labelsOf])
    intro l hl
    simp [parse, casesOf, labelsOf] at hl
    subst hl
    exact h1
  refine ⟨_, by simp only [build, hck]; simp [code, parse, casesOf, verified, labelsOf, Label.const]; rfl, ?_, ?_, ?_⟩
  · intro v
    by_cases h : b = v
    · simp [Code.run, h]
    · have h' : ¬ v = b := fun e => h e.symm
      simp [Code.run, h, h']
  · have h' : ¬ b = a := by omega
    simp [Code.run, h']
  · intro v h2 h3
    simp [meaning, Group.holds, Label.holds, Group.body, h2, h3]

example : checkLabel .i32 (.range 1 5 .i32 .i32) = .ok := by decide

end Verif.Switch
