import Verif.Core.Array.Model
/-! # C12: dynamic arrays behave as sequences -/
namespace Verif.DynArray

variable {α : Type}

/-! ## Specification: a list whose unspecified entries (after growing by `resize`) are `none` -/

def specStep (l : List (Option α)) : Op α → Option (Option α) × List (Option α)
  | .push x => (none, l ++ [some x])
  | .pop => (l.getLast?, l.dropLast)
  | .resize n => (none, l.take n ++ List.replicate (n - l.length) none)
  | .copy xs => (none, l ++ xs.map some)

def specRun : List (Option α) → List (Op α) → List (Option (Option α)) × List (Option α)
  | l, [] => ([], l)
  | l, o :: os => let (x, l') := specStep l o; let (xs, l'') := specRun l' os; (x :: xs, l'')

/-- A value agrees with the specification when it is specified. -/
def Agrees (actual expected : Option α) : Prop := ∀ x, expected = some x → actual = some x

/-- The array shows exactly this list and has room for it. -/
structure Shows (a : Arr α) (l : List (Option α)) : Prop where
  size : a.size = l.length
  fits : a.size ≤ a.capacity
  room : a.capacity ≤ a.room
  cells : ∀ i x, l[i]? = some (some x) → a.mem i = some x

/-- outputs agree: same "nothing popped", and popped values agree when specified -/
def OutAgrees : Option (Option α) → Option (Option α) → Prop
  | none, none => True
  | some a, some b => Agrees a b
  | _, _ => False

theorem push_shows {a : Arr α} {l : List (Option α)} (h : Shows a l) (x : α) :
    ∃ i a', push a x = .ok (i, a') ∧ Shows a' (l ++ [some x]) ∧ i = a.size + 1 := by
  have hfit := h.fits
  have hroom := h.room
  have hsz := h.size
  have hcells : ∀ i y, (l ++ [some x])[i]? = some (some y) → upd a.mem a.size (some x) i = some y := by
    intro i y hi
    by_cases e : i = a.size
    · subst e
      rw [hsz] at hi
      simp at hi
      simp [hi]
    · rw [upd_ne _ _ e]
      rw [List.getElem?_append] at hi
      split at hi
      · exact h.cells i y hi
      · rename_i hge
        have : i - l.length ≠ 0 := by omega
        cases hk : i - l.length with
        | zero => exact absurd hk this
        | succ k => rw [hk] at hi; simp at hi
  by_cases hg : a.size ≥ a.capacity
  · have hle : a.size < (grow a (a.size + 1)).room := by
      unfold grow; simp only; split <;> omega
    refine ⟨a.size + 1, _, by
      unfold push
      simp only [if_pos hg]
      rw [if_pos (show (grow a (a.size + 1)).size < (grow a (a.size + 1)).room from hle)]
      rfl, ⟨?_, ?_, ?_, ?_⟩, rfl⟩
    · simp [grow, hsz]
    · show (grow a (a.size + 1)).size + 1 ≤ (grow a (a.size + 1)).capacity
      unfold grow at hle ⊢; simp only at hle ⊢; omega
    · exact Nat.le_refl _
    · exact hcells
  · refine ⟨a.size + 1, { a with mem := upd a.mem a.size (some x), size := a.size + 1 }, by
      unfold push
      simp only [if_neg hg]
      rw [if_pos (show a.size < a.room by omega)], ⟨?_, ?_, hroom, hcells⟩, rfl⟩
    · simp [hsz]
    · show a.size + 1 ≤ a.capacity; omega

theorem copyFrom_shows (xs : List α) : ∀ (n i : Nat) (a : Arr α) (l : List (Option α)), Shows a l → i + n = xs.length →
    ∃ a', copyFrom (fromData xs) n i a = .ok a' ∧ Shows a' (l ++ (xs.drop i).map some) := by
  intro n
  induction n with
  | zero =>
    intro i a l h hi
    refine ⟨a, rfl, ?_⟩
    rw [List.drop_eq_nil_of_le (by omega)]
    simpa using h
  | succ n ih =>
    intro i a l h hi
    have hlt : i < xs.length := by omega
    obtain ⟨k, a1, h1, h2, _⟩ := push_shows h xs[i]
    obtain ⟨a', h3, h4⟩ := ih (i + 1) a1 _ h2 (by omega)
    refine ⟨a', ?_, ?_⟩
    · unfold copyFrom
      rw [if_pos (show i < (fromData xs).room from hlt)]
      rw [show (fromData xs).mem i = some xs[i] by simp [fromData, hlt]]
      simp only [h1, Res.bind_ok]
      exact h3
    · rw [List.drop_eq_getElem_cons hlt, List.map_cons]
      rw [List.append_assoc] at h4
      exact h4

theorem step_shows {a : Arr α} {l : List (Option α)} (h : Shows a l) (o : Op α) :
    ∃ x a', step a o = .ok (x, a') ∧ OutAgrees x (specStep l o).1 ∧ Shows a' (specStep l o).2 := by
  cases o with
  | push x =>
    obtain ⟨i, a', h1, h2, _⟩ := push_shows h x
    exact ⟨none, a', by simp [step, h1], trivial, h2⟩
  | pop =>
    unfold step pop
    by_cases hs : a.size > 0
    · rw [if_pos hs]
      have hl : l ≠ [] := by intro e; rw [e] at h; have := h.size; simp at this; omega
      have hr := h.room; have hf := h.fits; have hz := h.size
      simp only
      rw [if_pos (show a.size - 1 < a.room by omega)]
      refine ⟨_, _, rfl, ?_, ?_, ?_, h.room, ?_⟩
      · show OutAgrees (some (a.mem (a.size - 1))) l.getLast?
        rw [List.getLast?_eq_getElem?, ← hz, List.getElem?_eq_getElem (by omega)]
        show Agrees _ _
        intro x hx
        exact h.cells _ x (by rw [List.getElem?_eq_getElem (by omega), hx])
      · show a.size - 1 = l.dropLast.length
        simp [hz]
      · show a.size - 1 ≤ a.capacity; omega
      · intro i x hx
        have hx : l.dropLast[i]? = some (some x) := hx
        rw [List.getElem?_dropLast] at hx
        split at hx
        · exact h.cells i x hx
        · simp at hx
    · rw [if_neg hs]
      have hl : l = [] := by have := h.size; exact List.length_eq_zero_iff.mp (by omega)
      subst hl
      exact ⟨none, a, rfl, trivial, h⟩
  | resize n =>
    have hr := h.room; have hf := h.fits; have hz := h.size
    refine ⟨none, resize a n, rfl, trivial, ?_, ?_, ?_, ?_⟩
    · show n = (l.take n ++ List.replicate (n - l.length) none).length
      simp; omega
    · unfold resize grow; simp only; split <;> (try simp only) <;> (try split) <;> omega
    · unfold resize grow; simp only; split <;> (try simp only) <;> (try split) <;> omega
    · intro i x hx
      have hx : (l.take n ++ List.replicate (n - l.length) none)[i]? = some (some x) := hx
      have hm : (resize a n).mem = a.mem := by unfold resize; simp only; split <;> rfl
      rw [hm]
      rw [List.getElem?_append] at hx
      split at hx
      · rw [List.getElem?_take] at hx
        split at hx
        · exact h.cells i x hx
        · simp at hx
      · rw [List.getElem?_replicate] at hx
        split at hx <;> simp at hx
  | copy xs =>
    obtain ⟨a', h1, h2⟩ := copyFrom_shows xs xs.length 0 a l h (by omega)
    by_cases hx : xs.length = 0
    · have : xs = [] := List.length_eq_zero_iff.mp hx
      subst this
      refine ⟨none, a, ?_, trivial, by simpa [specStep] using h⟩
      simp [step, copy, fromData]
    · refine ⟨none, a', ?_, trivial, by simpa [specStep] using h2⟩
      show (copy a (fromData xs)).map _ = _
      unfold copy
      rw [if_neg (show ¬ (fromData xs).size = 0 from hx)]
      rw [show (fromData xs).size = xs.length from rfl, h1]
      rfl

/-- Pointwise agreement of output lists. -/
inductive OutsAgree : List (Option (Option α)) → List (Option (Option α)) → Prop
  | nil : OutsAgree [] []
  | cons {a b as bs} : OutAgrees a b → OutsAgree as bs → OutsAgree (a :: as) (b :: bs)

theorem run_shows (os : List (Op α)) : ∀ (a : Arr α) (l : List (Option α)), Shows a l →
    ∃ outs a', run a os = .ok (outs, a') ∧ OutsAgree outs (specRun l os).1 ∧ Shows a' (specRun l os).2 := by
  induction os with
  | nil => intro a l h; exact ⟨[], a, rfl, .nil, h⟩
  | cons o os ih =>
    intro a l h
    obtain ⟨x, a1, h1, h2, h3⟩ := step_shows h o
    obtain ⟨xs, a2, h4, h5, h6⟩ := ih a1 _ h3
    exact ⟨x :: xs, a2, by simp [run, h1, h4], .cons h2 h5, h6⟩

/-- **C12**: starting from an empty array of any capacity, every history of push, pop, resize and
copy stays in bounds, pops the values the list model pops, and leaves the array showing the list. -/
theorem history_matches_list (capacity : Nat) (os : List (Op α)) :
    ∃ outs a, run (newWithCapacity α capacity) os = .ok (outs, a) ∧
      OutsAgree outs (specRun [] os).1 ∧ Shows a (specRun [] os).2 :=
  run_shows os _ _ ⟨rfl, Nat.zero_le _, Nat.le_refl _, by simp⟩

/-- non-vacuity: growth from capacity 1, stale and fresh cells, a bulk copy -/
example : specRun ([] : List (Option Nat)) [.push 1, .push 2, .pop, .resize 3, .copy [7, 8], .pop] =
    ([none, none, some (some 2), none, none, some (some 8)], [some 1, none, none, some 7]) := by decide

example : (run (newWithCapacity Nat 1) [.push 1, .push 2, .pop, .resize 3, .copy [7, 8], .pop]).map (fun r => (r.1, r.2.size)) =
    .ok ([none, none, some (some 2), none, none, some (some 8)], 4) := by decide

/-- **C58**: the pointer that a push returns is one past the new element, never the new element
(negation of "push returns the address of the pushed element"). -/
theorem push_returns_past_the_element (capacity : Nat) (os : List (Op α)) (x : α) :
    ∃ outs a i a', run (newWithCapacity α capacity) os = .ok (outs, a) ∧ push a x = .ok (i, a') ∧
      a'.mem (i - 1) = some x ∧ i = a'.size := by
  obtain ⟨outs, a, h1, _, h3⟩ := history_matches_list capacity os
  obtain ⟨i, a', h4, h5, h6⟩ := push_shows h3 x
  refine ⟨outs, a, i, a', h1, h4, ?_, ?_⟩
  · rw [h6]
    apply h5.cells
    simp [h3.size]
  · rw [h6, h5.size, h3.size]; simp

end Verif.DynArray
