/-!
# Memory cells as functions

Arrays reached through pointers in the C and cxy sources are modelled as functions
from indices to cells, together with an explicit capacity.  `upd` is a single store.
-/
namespace Verif

/-- A single store `m[i] = v`. -/
def upd {β : Type _} (m : Nat → β) (i : Nat) (v : β) : Nat → β :=
  fun j => if j = i then v else m j

@[simp] theorem upd_same {β : Type _} (m : Nat → β) (i : Nat) (v : β) : upd m i v i = v := by
  simp [upd]

@[simp] theorem upd_ne {β : Type _} (m : Nat → β) {i j : Nat} (v : β) (h : j ≠ i) :
    upd m i v j = m j := by
  simp [upd, h]

theorem filterMap_congr' {β γ : Type _} {f g : β → Option γ} {l : List β}
    (h : ∀ a ∈ l, f a = g a) : l.filterMap f = l.filterMap g := by
  induction l with
  | nil => rfl
  | cons x xs ih =>
    rw [List.filterMap_cons, List.filterMap_cons, h x (by simp), ih (fun a ha => h a (by simp [ha]))]

/-- Storing a new value in an empty cell adds exactly that value to the listing. -/
theorem filterMap_range_upd_none {β γ : Type _} (g : β → Option γ) (m : Nat → β) (i : Nat) (v : β) (c : γ)
    (hg : g (m i) = none) (hv : g v = some c) :
    ∀ n, i < n →
      ((List.range n).filterMap (fun j => g (upd m i v j))).Perm
        (c :: (List.range n).filterMap (fun j => g (m j))) := by
  intro n
  induction n with
  | zero => intro h; omega
  | succ n ih =>
    intro h
    rw [List.range_succ, List.filterMap_append, List.filterMap_append]
    by_cases hi : i = n
    · subst hi
      have : (List.range i).filterMap (fun j => g (upd m i v j))
          = (List.range i).filterMap (fun j => g (m j)) := by
        apply filterMap_congr'
        intro a ha
        have : a ≠ i := by have := List.mem_range.mp ha; omega
        simp [this]
      rw [this]
      simp only [List.filterMap_cons, List.filterMap_nil, upd_same, hv, hg, List.append_nil]
      exact List.perm_append_singleton _ _
    · have := ih (by omega)
      have hn : n ≠ i := fun h => hi h.symm
      simp only [List.filterMap_cons, List.filterMap_nil, upd_ne m v hn]
      cases g (m n) with
      | none => simpa using this
      | some x => exact (this.append_right _)

/-- Emptying a full cell removes exactly its value from the listing. -/
theorem filterMap_range_upd_erase {β γ : Type _} (g : β → Option γ) (m : Nat → β) (i : Nat) (v : β) (c : γ)
    (hg : g (m i) = some c) (hv : g v = none) (n : Nat) (hi : i < n) :
      (c :: (List.range n).filterMap (fun j => g (upd m i v j))).Perm
        ((List.range n).filterMap (fun j => g (m j))) := by
  have h := filterMap_range_upd_none g (upd m i v) i (m i) c (by simpa using hv) hg n hi
  have e : upd (upd m i v) i (m i) = m := by
    funext j; by_cases hj : j = i
    · subst hj; simp
    · simp [hj]
  rw [e] at h
  exact h.symm

/-- Replacing the value of a full cell. -/
theorem filterMap_range_upd_replace {β γ : Type _} (g : β → Option γ) (m : Nat → β) (i : Nat) (v : β) (a c : γ)
    (hg : g (m i) = some a) (hv : g v = some c) (n : Nat) (hi : i < n) :
      (a :: (List.range n).filterMap (fun j => g (upd m i v j))).Perm
        (c :: (List.range n).filterMap (fun j => g (m j))) := by
  induction n with
  | zero => omega
  | succ n ih =>
    rw [List.range_succ, List.filterMap_append, List.filterMap_append]
    by_cases hin : i = n
    · subst hin
      have : (List.range i).filterMap (fun j => g (upd m i v j))
          = (List.range i).filterMap (fun j => g (m j)) := by
        apply filterMap_congr'
        intro a ha
        have : a ≠ i := by have := List.mem_range.mp ha; omega
        simp [this]
      rw [this]
      simp only [List.filterMap_cons, List.filterMap_nil, upd_same, hv, hg]
      generalize (List.range i).filterMap (fun j => g (m j)) = l
      have h1 : (a :: (l ++ [c])).Perm (a :: c :: l) := (List.perm_append_singleton c l).cons a
      have h2 : (c :: (l ++ [a])).Perm (c :: a :: l) := (List.perm_append_singleton a l).cons c
      exact h1.trans ((List.Perm.swap c a l).trans h2.symm)
    · have := ih (by omega)
      have hn : n ≠ i := fun h => hin h.symm
      simp only [List.filterMap_cons, List.filterMap_nil, upd_ne m v hn]
      cases g (m n) with
      | none => simpa using this
      | some x => simpa using this.append_right [x]

end Verif
