import Verif.Lang.CopyDrop.Model
/-!
# What a value holds is released with it, and copied with it
-/
namespace Verif.CopyDrop

/-! ## Specification -/

mutual
/-- The objects a value holds. What a struct with its own destructor holds is its own affair. -/
def holds : Ty → Val → List Nat
  | .cls, .ref (some a) => [a]
  | .array t, .seq vs => holdsA t vs
  | .tuple ts, .seq vs => holdsL ts vs
  | .struct _ ts, .seq vs => holdsL ts vs
  | .union ts, .alt i v => holds (ts.get i) v
  | .opt t, .opt true v => holds t v
  | _, _ => []

def holdsL : Tys → Vals → List Nat
  | .cons t ts, .cons v vs => holds t v ++ holdsL ts vs
  | _, _ => []

def holdsA (t : Ty) : Vals → List Nat
  | .cons v vs => holds t v ++ holdsA t vs
  | .nil => []
end

mutual
/-- Whether values of a type can hold objects. -/
def CanHold : Ty → Bool
  | .cls => true
  | .array t => CanHold t
  | .tuple ts => CanHoldL ts
  | .union ts => CanHoldL ts
  | .struct _ ts => CanHoldL ts
  | .opt t => CanHold t
  | .prim => false
  | .own _ => false

def CanHoldL : Tys → Bool
  | .nil => false
  | .cons t ts => CanHold t || CanHoldL ts
end

/-- Whether a type, as the type of an element, lets the tuple be destroyed. -/
def Shows : Ty → Bool
  | .cls => true
  | .tuple _ => true
  | .struct _ _ => true
  | .opt t => Shows t
  | _ => false

def anyShows : Tys → Bool
  | .nil => false
  | .cons t ts => (CanHold t && Shows t) || anyShows ts

mutual
/-- Types without arrays that hold objects and without tuples that hold objects only in unions. -/
def Plain : Ty → Prop
  | .prim => True
  | .cls => True
  | .array t => CanHold t = false
  | .tuple ts => PlainL ts ∧ (CanHoldL ts = true → anyShows ts = true)
  | .union ts => PlainL ts
  | .struct _ ts => PlainL ts
  | .own _ => True
  | .opt t => Plain t

def PlainL : Tys → Prop
  | .nil => True
  | .cons t ts => Plain t ∧ PlainL ts
end

mutual
/-- Types all of whose values are released completely: no arrays that hold objects, and no tuples that hold objects but are not
destroyed. -/
def Exact : Ty → Prop
  | .prim => True
  | .cls => True
  | .array t => CanHold t = false
  | .tuple ts => ExactL ts ∧ (CanHoldL ts = true → managed (.tuple ts) = true)
  | .union ts => ExactL ts
  | .struct _ ts => ExactL ts
  | .own _ => True
  | .opt t => Exact t

def ExactL : Tys → Prop
  | .nil => True
  | .cons t ts => Exact t ∧ ExactL ts
end

mutual
/-- An optional value that is not there holds nothing; this is so until `move` is called. -/
def Clean : Ty → Val → Prop
  | .opt t, .opt true v => Clean t v
  | .opt t, .opt false v => copy t v = []
  | .tuple ts, .seq vs => CleanL ts vs
  | .struct _ ts, .seq vs => CleanL ts vs
  | .union ts, .alt i v => Clean (ts.get i) v
  | _, _ => True

def CleanL : Tys → Vals → Prop
  | .cons t ts, .cons v vs => Clean t v ∧ CleanL ts vs
  | _, _ => True
end

/-! ## What can hold objects is destroyed -/

mutual
theorem managed_of_canHold : ∀ t : Ty, Plain t → CanHold t = true → managed t = true
  | .prim, _, h => by cases h
  | .cls, _, _ => rfl
  | .array t, hg, h => by
    have hg : CanHold t = false := hg
    have h : CanHold t = true := h
    rw [hg] at h; cases h
  | .tuple ts, hg, h => contribL_of_shows ts hg.1 (hg.2 h)
  | .union ts, hg, h => anyManaged_of_canHold ts hg h
  | .struct d ts, hg, h => by
    show (d || anyManaged ts) = true
    rw [anyManaged_of_canHold ts hg h, Bool.or_true]
  | .own _, _, h => by cases h
  | .opt _, _, _ => rfl

theorem anyManaged_of_canHold : ∀ ts : Tys, PlainL ts → CanHoldL ts = true → anyManaged ts = true
  | .nil, _, h => by cases h
  | .cons t ts, hg, h => by
    have h : (CanHold t || CanHoldL ts) = true := h
    show (managed t || anyManaged ts) = true
    rw [Bool.or_eq_true] at h ⊢
    exact h.imp (managed_of_canHold t hg.1) (anyManaged_of_canHold ts hg.2)

theorem contributes_of : ∀ t : Ty, Plain t → CanHold t = true → Shows t = true → contributes t = true
  | .prim, _, h, _ => by cases h
  | .cls, _, _, _ => rfl
  | .array _, _, _, h => by cases h
  | .tuple ts, hg, h, _ => contribL_of_shows ts hg.1 (hg.2 h)
  | .union _, _, _, h => by cases h
  | .struct d ts, hg, h, _ => by
    show (d || anyManaged ts) = true
    rw [anyManaged_of_canHold ts hg h, Bool.or_true]
  | .own _, _, h, _ => by cases h
  | .opt t, hg, h, h' => contributes_of t hg h h'

theorem contribL_of_shows : ∀ ts : Tys, PlainL ts → anyShows ts = true → contribL ts = true
  | .nil, _, h => by cases h
  | .cons t ts, hg, h => by
    have h : (CanHold t && Shows t || anyShows ts) = true := h
    show (contributes t || contribL ts) = true
    rw [Bool.or_eq_true] at h ⊢
    refine h.imp (fun h => ?_) (contribL_of_shows ts hg.2)
    rw [Bool.and_eq_true] at h
    exact contributes_of t hg.1 h.1 h.2
end

mutual
theorem plain_exact : ∀ t : Ty, Plain t → Exact t
  | .prim, _ => trivial
  | .cls, _ => trivial
  | .array _, h => h
  | .tuple ts, h => ⟨plainL_exact ts h.1, managed_of_canHold (.tuple ts) h⟩
  | .union ts, h => plainL_exact ts h
  | .struct _ ts, h => plainL_exact ts h
  | .own _, _ => trivial
  | .opt t, h => plain_exact t h

theorem plainL_exact : ∀ ts : Tys, PlainL ts → ExactL ts
  | .nil, _ => trivial
  | .cons t ts, h => ⟨plain_exact t h.1, plainL_exact ts h.2⟩
end

mutual
theorem managed_of_exact : ∀ t : Ty, Exact t → CanHold t = true → managed t = true
  | .prim, _, h => by cases h
  | .cls, _, _ => rfl
  | .array t, hg, h => by
    have hg : CanHold t = false := hg
    have h : CanHold t = true := h
    rw [hg] at h; cases h
  | .tuple ts, hg, h => hg.2 h
  | .union ts, hg, h => anyManaged_of_exact ts hg h
  | .struct d ts, hg, h => by
    show (d || anyManaged ts) = true
    rw [anyManaged_of_exact ts hg h, Bool.or_true]
  | .own _, _, h => by cases h
  | .opt _, _, _ => rfl

theorem anyManaged_of_exact : ∀ ts : Tys, ExactL ts → CanHoldL ts = true → anyManaged ts = true
  | .nil, _, h => by cases h
  | .cons t ts, hg, h => by
    have h : (CanHold t || CanHoldL ts) = true := h
    show (managed t || anyManaged ts) = true
    rw [Bool.or_eq_true] at h ⊢
    exact h.imp (managed_of_exact t hg.1) (anyManaged_of_exact ts hg.2)
end

theorem canHold_get : ∀ (ts : Tys) (i : Nat), CanHoldL ts = false → CanHold (ts.get i) = false
  | .nil, _, _ => rfl
  | .cons t ts, 0, h => by
    have h : (CanHold t || CanHoldL ts) = false := h
    rw [Bool.or_eq_false_iff] at h
    exact h.1
  | .cons t ts, i + 1, h => by
    have h : (CanHold t || CanHoldL ts) = false := h
    rw [Bool.or_eq_false_iff] at h
    exact canHold_get ts i h.2

theorem good_get : ∀ (ts : Tys) (i : Nat), ExactL ts → Exact (ts.get i)
  | .nil, _, _ => trivial
  | .cons _ _, 0, h => h.1
  | .cons _ ts, i + 1, h => good_get ts i h.2

mutual
theorem holds_nil : ∀ (t : Ty) (v : Val), CanHold t = false → holds t v = []
  | .prim, v, _ => by cases v <;> rfl
  | .cls, v, h => by cases h
  | .own _, v, _ => by cases v <;> rfl
  | .array t, .seq vs, h => holdsA_nil t vs h
  | .tuple ts, .seq vs, h => holdsL_nil ts vs h
  | .struct _ ts, .seq vs, h => holdsL_nil ts vs h
  | .union ts, .alt i v, h => holds_nil (ts.get i) v (canHold_get ts i h)
  | .opt t, .opt true v, h => holds_nil t v h
  | .opt _, .opt false _, _ => rfl
  | .array _, .prim, _ => rfl
  | .array _, .ref _, _ => rfl
  | .array _, .alt _ _, _ => rfl
  | .array _, .opt _ _, _ => rfl
  | .tuple _, .prim, _ => rfl
  | .tuple _, .ref _, _ => rfl
  | .tuple _, .alt _ _, _ => rfl
  | .tuple _, .opt _ _, _ => rfl
  | .struct _ _, .prim, _ => rfl
  | .struct _ _, .ref _, _ => rfl
  | .struct _ _, .alt _ _, _ => rfl
  | .struct _ _, .opt _ _, _ => rfl
  | .union _, .prim, _ => rfl
  | .union _, .ref _, _ => rfl
  | .union _, .seq _, _ => rfl
  | .union _, .opt _ _, _ => rfl
  | .opt _, .prim, _ => rfl
  | .opt _, .ref _, _ => rfl
  | .opt _, .seq _, _ => rfl
  | .opt _, .alt _ _, _ => rfl

theorem holdsL_nil : ∀ (ts : Tys) (vs : Vals), CanHoldL ts = false → holdsL ts vs = []
  | .nil, _, _ => by simp [holdsL]
  | .cons _ _, .nil, _ => rfl
  | .cons t ts, .cons v vs, h => by
    have h : (CanHold t || CanHoldL ts) = false := h
    rw [Bool.or_eq_false_iff] at h
    rw [holdsL, holds_nil t v h.1, holdsL_nil ts vs h.2]; rfl

theorem holdsA_nil : ∀ (t : Ty) (vs : Vals), CanHold t = false → holdsA t vs = []
  | _, .nil, _ => rfl
  | t, .cons v vs, h => by rw [holdsA, holds_nil t v h, holdsA_nil t vs h]; rfl
end

theorem canHold_of_not_managed {t : Ty} (hg : Exact t) (h : managed t = false) : CanHold t = false := by
  cases hc : CanHold t with
  | false => rfl
  | true => rw [managed_of_exact t hg hc] at h; cases h

mutual
theorem drop_holds : ∀ (t : Ty) (v : Val), Exact t → drop t v = holds t v
  | .prim, v, _ => by cases v <;> rfl
  | .cls, .ref (some _), _ => rfl
  | .cls, .ref none, _ => rfl
  | .cls, .prim, _ => rfl
  | .cls, .seq _, _ => rfl
  | .cls, .alt _ _, _ => rfl
  | .cls, .opt _ _, _ => rfl
  | .own _, v, _ => by cases v <;> rfl
  | .array t, .seq vs, h => (holdsA_nil t vs h).symm
  | .tuple ts, .seq vs, h => by
    show (if managed (.tuple ts) then dropL ts vs else []) = holdsL ts vs
    split
    · exact dropL_holds ts vs h.1
    · next hm =>
      exact (holds_nil (.tuple ts) (.seq vs) (canHold_of_not_managed h (by simpa using hm))).symm
  | .struct d ts, .seq vs, h => by
    show (if managed (.struct d ts) then dropL ts vs else []) = holdsL ts vs
    split
    · exact dropL_holds ts vs h
    · next hm =>
      exact (holds_nil (.struct d ts) (.seq vs) (canHold_of_not_managed (t := .struct d ts) h (by simpa using hm))).symm
  | .union ts, .alt i v, h => by
    show (if managed (.union ts) then drop (ts.get i) v else []) = holds (ts.get i) v
    split
    · exact drop_holds (ts.get i) v (good_get ts i h)
    · next hm =>
      exact (holds_nil (.union ts) (.alt i v) (canHold_of_not_managed (t := .union ts) h (by simpa using hm))).symm
  | .opt t, .opt true v, h => drop_holds t v h
  | .opt _, .opt false _, _ => rfl
  | .array _, .prim, _ => rfl
  | .array _, .ref _, _ => rfl
  | .array _, .alt _ _, _ => rfl
  | .array _, .opt _ _, _ => rfl
  | .tuple _, .prim, _ => rfl
  | .tuple _, .ref _, _ => rfl
  | .tuple _, .alt _ _, _ => rfl
  | .tuple _, .opt _ _, _ => rfl
  | .struct _ _, .prim, _ => rfl
  | .struct _ _, .ref _, _ => rfl
  | .struct _ _, .alt _ _, _ => rfl
  | .struct _ _, .opt _ _, _ => rfl
  | .union _, .prim, _ => rfl
  | .union _, .ref _, _ => rfl
  | .union _, .seq _, _ => rfl
  | .union _, .opt _ _, _ => rfl
  | .opt _, .prim, _ => rfl
  | .opt _, .ref _, _ => rfl
  | .opt _, .seq _, _ => rfl
  | .opt _, .alt _ _, _ => rfl

theorem dropL_holds : ∀ (ts : Tys) (vs : Vals), ExactL ts → dropL ts vs = holdsL ts vs
  | .nil, _, _ => by simp [holdsL, dropL]
  | .cons _ _, .nil, _ => rfl
  | .cons t ts, .cons v vs, h => by
    rw [holdsL, dropL, dropL_holds ts vs h.2]
    congr 1
    split
    · exact drop_holds t v h.1
    · next hm => exact (holds_nil t v (canHold_of_not_managed h.1 (by simpa using hm))).symm
end

mutual
theorem copy_holds : ∀ (t : Ty) (v : Val), Exact t → Clean t v → copy t v = holds t v
  | .prim, v, _, _ => by cases v <;> rfl
  | .cls, .ref (some _), _, _ => rfl
  | .cls, .ref none, _, _ => rfl
  | .cls, .prim, _, _ => rfl
  | .cls, .seq _, _, _ => rfl
  | .cls, .alt _ _, _, _ => rfl
  | .cls, .opt _ _, _, _ => rfl
  | .own _, v, _, _ => by cases v <;> rfl
  | .array t, .seq vs, h, _ => (holdsA_nil t vs h).symm
  | .tuple ts, .seq vs, h, hc => by
    show (if managed (.tuple ts) then copyL ts vs else []) = holdsL ts vs
    split
    · exact copyL_holds ts vs h.1 hc
    · next hm =>
      exact (holds_nil (.tuple ts) (.seq vs) (canHold_of_not_managed h (by simpa using hm))).symm
  | .struct d ts, .seq vs, h, hc => by
    show (if managed (.struct d ts) then copyL ts vs else []) = holdsL ts vs
    split
    · exact copyL_holds ts vs h hc
    · next hm =>
      exact (holds_nil (.struct d ts) (.seq vs) (canHold_of_not_managed (t := .struct d ts) h (by simpa using hm))).symm
  | .union ts, .alt i v, h, hc => by
    show (if managed (.union ts) then copy (ts.get i) v else []) = holds (ts.get i) v
    split
    · exact copy_holds (ts.get i) v (good_get ts i h) hc
    · next hm =>
      exact (holds_nil (.union ts) (.alt i v) (canHold_of_not_managed (t := .union ts) h (by simpa using hm))).symm
  | .opt t, .opt true v, h, hc => by
    show (if managed t then copy t v else []) = holds t v
    split
    · exact copy_holds t v h hc
    · next hm => exact (holds_nil t v (canHold_of_not_managed h (by simpa using hm))).symm
  | .opt t, .opt false v, _, hc => by
    show (if managed t then copy t v else []) = []
    split
    · exact hc
    · rfl
  | .array _, .prim, _, _ => rfl
  | .array _, .ref _, _, _ => rfl
  | .array _, .alt _ _, _, _ => rfl
  | .array _, .opt _ _, _, _ => rfl
  | .tuple _, .prim, _, _ => rfl
  | .tuple _, .ref _, _, _ => rfl
  | .tuple _, .alt _ _, _, _ => rfl
  | .tuple _, .opt _ _, _, _ => rfl
  | .struct _ _, .prim, _, _ => rfl
  | .struct _ _, .ref _, _, _ => rfl
  | .struct _ _, .alt _ _, _, _ => rfl
  | .struct _ _, .opt _ _, _, _ => rfl
  | .union _, .prim, _, _ => rfl
  | .union _, .ref _, _, _ => rfl
  | .union _, .seq _, _, _ => rfl
  | .union _, .opt _ _, _, _ => rfl
  | .opt _, .prim, _, _ => rfl
  | .opt _, .ref _, _, _ => rfl
  | .opt _, .seq _, _, _ => rfl
  | .opt _, .alt _ _, _, _ => rfl

theorem copyL_holds : ∀ (ts : Tys) (vs : Vals), ExactL ts → CleanL ts vs → copyL ts vs = holdsL ts vs
  | .nil, _, _, _ => by simp [holdsL, copyL]
  | .cons _ _, .nil, _, _ => rfl
  | .cons t ts, .cons v vs, h, hc => by
    rw [holdsL, copyL, copyL_holds ts vs h.2 hc.2]
    congr 1
    split
    · exact copy_holds t v h.1 hc.1
    · next hm => exact (holds_nil t v (canHold_of_not_managed h.1 (by simpa using hm))).symm
end

/-! ## And no others -/

theorem drop_prim : ∀ t : Ty, drop t .prim = [] := by intro t; cases t <;> rfl
theorem dropL_nil : ∀ ts : Tys, dropL ts .nil = [] := by intro ts; cases ts <;> rfl
theorem holdsL_nil' : ∀ ts : Tys, holdsL ts .nil = [] := by intro ts; cases ts <;> rfl
theorem holds_prim : ∀ t : Ty, holds t .prim = [] := by intro t; cases t <;> rfl

mutual
/-- Nothing is released that is not held. -/
theorem drop_sublist : ∀ (t : Ty) (v : Val), (drop t v).Sublist (holds t v)
  | t, .prim => by rw [drop_prim]; exact List.nil_sublist _
  | t, .ref a => by
    cases t <;> try exact List.nil_sublist _
    cases a <;> exact List.Sublist.refl _
  | t, .seq vs => by
    cases t <;> try exact List.nil_sublist _
    case tuple ts =>
      show (if managed (.tuple ts) then dropL ts vs else []).Sublist (holdsL ts vs)
      split
      · exact dropL_sublist ts vs
      · exact List.nil_sublist _
    case struct d ts =>
      show (if managed (.struct d ts) then dropL ts vs else []).Sublist (holdsL ts vs)
      split
      · exact dropL_sublist ts vs
      · exact List.nil_sublist _
  | t, .alt i v => by
    cases t <;> try exact List.nil_sublist _
    case union ts =>
      show (if managed (.union ts) then drop (ts.get i) v else []).Sublist (holds (ts.get i) v)
      split
      · exact drop_sublist (ts.get i) v
      · exact List.nil_sublist _
  | t, .opt ok v => by
    cases t <;> try exact List.nil_sublist _
    case opt t =>
      cases ok
      · exact List.nil_sublist _
      · exact drop_sublist t v

theorem dropL_sublist : ∀ (ts : Tys) (vs : Vals), (dropL ts vs).Sublist (holdsL ts vs)
  | ts, .nil => by rw [dropL_nil]; exact List.nil_sublist _
  | .nil, .cons _ _ => by simp [dropL]
  | .cons t ts, .cons v vs => by
    rw [dropL, holdsL]
    refine List.Sublist.append ?_ (dropL_sublist ts vs)
    split
    · exact drop_sublist t v
    · exact List.nil_sublist _
end

mutual
theorem canHold_wit : ∀ t : Ty, CanHold t = true → ∃ v, holds t v ≠ []
  | .prim, h => by cases h
  | .own _, h => by cases h
  | .cls, _ => ⟨.ref (some 0), by simp [holds]⟩
  | .array t, h => by
    obtain ⟨v, hv⟩ := canHold_wit t h
    exact ⟨.seq (.cons v .nil), by simpa [holds, holdsA] using hv⟩
  | .tuple ts, h => by
    obtain ⟨vs, hv⟩ := canHoldL_wit ts h
    exact ⟨.seq vs, hv⟩
  | .struct _ ts, h => by
    obtain ⟨vs, hv⟩ := canHoldL_wit ts h
    exact ⟨.seq vs, hv⟩
  | .union ts, h => by
    obtain ⟨i, v, hv⟩ := canHoldU_wit ts h
    exact ⟨.alt i v, hv⟩
  | .opt t, h => by
    obtain ⟨v, hv⟩ := canHold_wit t h
    exact ⟨.opt true v, hv⟩

theorem canHoldL_wit : ∀ ts : Tys, CanHoldL ts = true → ∃ vs, holdsL ts vs ≠ []
  | .nil, h => by cases h
  | .cons t ts, h => by
    have h : (CanHold t || CanHoldL ts) = true := h
    rw [Bool.or_eq_true] at h
    rcases h with h | h
    · obtain ⟨v, hv⟩ := canHold_wit t h
      exact ⟨.cons v .nil, by simp [holdsL, holdsL_nil', hv]⟩
    · obtain ⟨vs, hv⟩ := canHoldL_wit ts h
      exact ⟨.cons .prim vs, by simp [holdsL, holds_prim, hv]⟩

theorem canHoldU_wit : ∀ ts : Tys, CanHoldL ts = true → ∃ i v, holds (ts.get i) v ≠ []
  | .nil, h => by cases h
  | .cons t ts, h => by
    have h : (CanHold t || CanHoldL ts) = true := h
    rw [Bool.or_eq_true] at h
    rcases h with h | h
    · obtain ⟨v, hv⟩ := canHold_wit t h
      exact ⟨0, v, hv⟩
    · obtain ⟨i, v, hv⟩ := canHoldU_wit ts h
      exact ⟨i + 1, v, hv⟩
end

theorem nil_of_sublist {l l' : List Nat} (h : l.Sublist l') (h' : l' = []) : l = l' := by
  subst h'; exact List.sublist_nil.1 h

mutual
theorem exact_of : ∀ t : Ty, (∀ v, drop t v = holds t v) → Exact t
  | .prim, _ => trivial
  | .cls, _ => trivial
  | .own _, _ => trivial
  | .array t, h => by
    show CanHold t = false
    cases hc : CanHold t with
    | false => rfl
    | true =>
      obtain ⟨v, hv⟩ := canHold_wit t hc
      have := h (.seq (.cons v .nil))
      exact absurd this.symm (by simpa [holds, holdsA, drop] using hv)
  | .tuple ts, h => by
    have h' : ∀ vs, dropL ts vs = holdsL ts vs := fun vs => by
      have := h (.seq vs)
      change (if managed (.tuple ts) then dropL ts vs else []) = holdsL ts vs at this
      split at this
      · exact this
      · exact nil_of_sublist (dropL_sublist ts vs) this.symm
    refine ⟨exactL_of ts h', fun hc => ?_⟩
    cases hm : managed (.tuple ts) with
    | true => rfl
    | false =>
      obtain ⟨vs, hv⟩ := canHoldL_wit ts hc
      have := h (.seq vs)
      change (if managed (.tuple ts) then dropL ts vs else []) = holdsL ts vs at this
      rw [hm] at this
      exact absurd this.symm hv
  | .struct d ts, h => exactL_of ts fun vs => by
      have := h (.seq vs)
      change (if managed (.struct d ts) then dropL ts vs else []) = holdsL ts vs at this
      split at this
      · exact this
      · exact nil_of_sublist (dropL_sublist ts vs) this.symm
  | .union ts, h => exactU_of ts fun i v => by
      have := h (.alt i v)
      change (if managed (.union ts) then drop (ts.get i) v else []) = holds (ts.get i) v at this
      split at this
      · exact this
      · exact nil_of_sublist (drop_sublist _ v) this.symm
  | .opt t, h => exact_of t fun v => h (.opt true v)

theorem exactL_of : ∀ ts : Tys, (∀ vs, dropL ts vs = holdsL ts vs) → ExactL ts
  | .nil, _ => trivial
  | .cons t ts, h => by
    refine ⟨exact_of t fun v => ?_, exactL_of ts fun vs => ?_⟩
    · have := h (.cons v .nil)
      rw [dropL, holdsL, dropL_nil, holdsL_nil', List.append_nil, List.append_nil] at this
      split at this
      · exact this
      · exact nil_of_sublist (drop_sublist t v) this.symm
    · have := h (.cons .prim vs)
      rw [dropL, holdsL, drop_prim, holds_prim, ite_self] at this
      exact this

theorem exactU_of : ∀ ts : Tys, (∀ i v, drop (ts.get i) v = holds (ts.get i) v) → ExactL ts
  | .nil, _ => trivial
  | .cons t ts, h => ⟨exact_of t (h 0), exactU_of ts fun i => h (i + 1)⟩
end

/-- **C243** Destroying a value releases exactly the objects it holds, each as often as it holds it, for types without arrays of
objects and without tuples that hold objects in unions only. -/
theorem destroy_releases_partial (t : Ty) (v : Val) (hg : Plain t) : drop t v = holds t v := drop_holds t v (plain_exact t hg)

/-- **C243** The types all of whose values are released completely are exactly those without arrays that hold objects and without
tuples that hold objects but are not destroyed; nothing is ever released that is not held. -/
theorem destroy_releases_iff (t : Ty) :
    ((∀ v, drop t v = holds t v) ↔ Exact t) ∧ ∀ v, (drop t v).Sublist (holds t v) :=
  ⟨⟨exact_of t, fun h v => drop_holds t v h⟩, drop_sublist t⟩

/-- **C244** Copying a value takes one more reference to exactly the objects it holds, so that destroying the copy leaves the counts as
they were. -/
theorem copy_takes_partial (t : Ty) (v : Val) (hg : Exact t) (hc : Clean t v) : copy t v = holds t v ∧ copy t v = drop t v :=
  ⟨copy_holds t v hg hc, (copy_holds t v hg hc).trans (drop_holds t v hg).symm⟩

/-- A struct of an object, a tuple of an object and a union, and an optional object. -/
example :
    let t : Ty := .struct false (.cons .cls (.cons (.tuple (.cons .cls (.cons (.union (.cons .prim (.cons .cls .nil))) .nil)))
      (.cons (.opt .cls) .nil)))
    let v : Val := .seq (.cons (.ref (some 1)) (.cons (.seq (.cons (.ref (some 2)) (.cons (.alt 1 (.ref (some 3))) .nil)))
      (.cons (.opt true (.ref (some 4))) .nil)))
    Plain t ∧ Clean t v ∧ drop t v = [1, 2, 3, 4] ∧ copy t v = [1, 2, 3, 4] := by
  refine ⟨?_, ?_, rfl, rfl⟩
  · simp [Plain, PlainL, CanHoldL, CanHold, anyShows, Shows]
  · simp [Clean, CleanL, Tys.get]

/-! ## What is forgotten -/

/-- **C243** is false of arrays: the objects in an array are counted when it is made and never released. -/
theorem array_never_released (t : Ty) (vs : Vals) : drop (.array t) (.seq vs) = [] ∧ copy (.array t) (.seq vs) = [] ∧
    holds (.array t) (.seq vs) = holdsA t vs := ⟨rfl, rfl, rfl⟩

/-- The parts of a tuple that are in unions, or in structs with a destructor of their own that have no parts the flag comes from. -/
def hides : Tys → Bool
  | .nil => true
  | .cons (.union _) ts => hides ts
  | .cons .prim ts => hides ts
  | .cons (.array _) ts => hides ts
  | .cons (.opt (.union _)) ts => hides ts
  | .cons _ _ => false

theorem hides_contribL : ∀ ts : Tys, hides ts = true → contribL ts = false
  | .nil, _ => rfl
  | .cons (.union _) ts, h => hides_contribL ts h
  | .cons .prim ts, h => hides_contribL ts h
  | .cons (.array _) ts, h => hides_contribL ts h
  | .cons (.opt (.union _)) ts, h => hides_contribL ts h
  | .cons .cls _, h => by cases h
  | .cons (.tuple _) _, h => by cases h
  | .cons (.struct _ _) _, h => by cases h
  | .cons (.own _) _, h => by cases h
  | .cons (.opt .prim) _, h => by cases h
  | .cons (.opt .cls) _, h => by cases h
  | .cons (.opt (.array _)) _, h => by cases h
  | .cons (.opt (.tuple _)) _, h => by cases h
  | .cons (.opt (.struct _ _)) _, h => by cases h
  | .cons (.opt (.own _)) _, h => by cases h
  | .cons (.opt (.opt _)) _, h => by cases h

/-- **C243** is false of tuples of unions: nothing in them is released, and nothing is counted when the tuple is copied, while a union
given by name is counted when the tuple is made. -/
theorem tuple_of_unions_forgotten (ts : Tys) (h : hides ts = true) (vs : Vals) :
    drop (.tuple ts) (.seq vs) = [] ∧ copy (.tuple ts) (.seq vs) = [] ∧ holds (.tuple ts) (.seq vs) = holdsL ts vs ∧
      build ts vs = copyL ts vs := by
  have hm : managed (.tuple ts) = false := hides_contribL ts h
  refine ⟨?_, ?_, rfl, rfl⟩
  · show (if managed (.tuple ts) then _ else _) = _
    rw [hm]; rfl
  · show (if managed (.tuple ts) then _ else _) = _
    rw [hm]; rfl

/-- A tuple of a number and a union that holds object 5: it is counted when the tuple is made and never released. -/
example :
    let ts : Tys := .cons .prim (.cons (.union (.cons .prim (.cons .cls .nil))) .nil)
    let vs : Vals := .cons .prim (.cons (.alt 1 (.ref (some 5))) .nil)
    hides ts = true ∧ build ts vs = [5] ∧ holds (.tuple ts) (.seq vs) = [5] ∧ drop (.tuple ts) (.seq vs) = [] := by
  refine ⟨rfl, rfl, rfl, rfl⟩

/-- builtins.cxy 239 `move`: the value is given away and stays where it was. -/
def moveOut : Val → Val
  | .opt _ v => .opt false v
  | v => v

/-- **C244** is false of optional values that were moved: a copy counts the object that was given away, and nobody releases that. -/
theorem copy_of_moved (t : Ty) (v : Val) (hm : managed t = true) :
    copy (.opt t) (moveOut (.opt true v)) = copy t v ∧ drop (.opt t) (moveOut (.opt true v)) = [] := by
  refine ⟨?_, rfl⟩
  show (if managed t then copy t v else []) = copy t v
  rw [if_pos hm]

example : copy (.opt .cls) (moveOut (.opt true (.ref (some 7)))) = [7] ∧ drop (.opt .cls) (moveOut (.opt true (.ref (some 7)))) = [] :=
  ⟨rfl, rfl⟩

end Verif.CopyDrop
