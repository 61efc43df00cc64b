import Verif.Std.Vector.Model
/-! # C30, C74: vectors -/
namespace Verif.Vector

variable {α : Type}

/-! ## Specification: the same operations on a list -/

/-- An operation on a list; `none` for a failed assertion. -/
def specStep (xs : List α) : Op α → Option (Ret α × List α)
  | .push x => some (.unit, xs ++ [x])
  | .pop => if h : xs ≠ [] then some (.val (xs.getLast h), xs.dropLast) else none
  | .shift => match xs with
    | [] => none
    | x :: xs => some (.val x, xs)
  | .resize n => some (.unit, xs.take n)
  | .shrink => some (.unit, xs)
  | .get i => if 0 ≤ i then (xs[i.toNat]?).map fun x => (.val x, xs) else none
  | .set i x => if 0 ≤ i ∧ i.toNat < xs.length then some (.unit, xs.set i.toNat x) else none
  | .size => some (.num xs.length, xs)

def specRun (xs : List α) : List (Op α) → Option (List (Ret α) × List α)
  | [] => some ([], xs)
  | o :: os => (specStep xs o).bind fun r => (specRun r.2 os).bind fun s => some (r.1 :: s.1, s.2)

/-- The outcome of a history in terms of the specification. -/
def Out.agrees {β γ : Type} (R : β → γ → Prop) : Out β → Option γ → Prop
  | .ok b, some c => R b c
  | .abort, none => True
  | _, _ => False

/-- The vector holds the list. -/
structure Holds (v : Vec α) (xs : List α) : Prop where
  size : v.size = xs.length
  room : v.capacity = v.room
  fits : v.size ≤ v.room
  cells : ∀ i, v.mem i = xs[i]? ∨ xs.length ≤ i

theorem Holds.cell {v : Vec α} {xs : List α} (h : Holds v xs) {i : Nat} (hi : i < xs.length) : v.mem i = some xs[i] := by
  rcases h.cells i with h | h
  · rw [h, List.getElem?_eq_getElem hi]
  · omega

theorem read_holds {v : Vec α} {xs : List α} (h : Holds v xs) {i : Nat} (hi : i < xs.length) : read v i = .ok xs[i] := by
  unfold read
  have := h.size
  have := h.fits
  rw [if_pos (by omega), h.cell hi]

theorem push_holds {v : Vec α} {xs : List α} (h : Holds v xs) (hc : v.size < v.capacity ∨ 2 ≤ v.capacity) (x : α) :
    ∃ v', push v x = .ok v' ∧ Holds v' (xs ++ [x]) ∧ v.capacity ≤ v'.capacity := by
  have h1 := h.size
  have h2 := h.fits
  have h3 := h.room
  have hg : Holds (grow v) xs ∧ (grow v).size < (grow v).room ∧ v.capacity ≤ (grow v).capacity := by
    unfold grow
    split
    · exact ⟨⟨h1, rfl, by simp only []; omega, h.cells⟩, by simp only []; omega, by simp only []; omega⟩
    · exact ⟨h, by omega, Nat.le_refl _⟩
  obtain ⟨g, g1, g2⟩ := hg
  unfold push
  simp only []
  rw [if_pos g1]
  refine ⟨_, rfl, ⟨by simp [g.size], g.room, by simp only []; omega, fun i => ?_⟩, g2⟩
  simp only [upd]
  by_cases hi : i = (grow v).size
  · left
    rw [if_pos hi, hi, g.size]
    simp
  · rw [if_neg hi]
    rcases g.cells i with hm | hm
    · by_cases hlt : i < xs.length
      · left; rw [hm, List.getElem?_append_left hlt]
      · right; have := g.size; simp; omega
    · right; have := g.size; simp; omega

theorem resize_holds {v : Vec α} {xs : List α} (h : Holds v xs) (n : Nat) : Holds (resize v n) (xs.take n) := by
  have h1 := h.size
  refine ⟨?_, rfl, ?_, fun i => ?_⟩
  · simp only [resize, List.length_take]; split <;> omega
  · simp only [resize]; split <;> omega
  · simp only [resize, List.length_take]
    rcases h.cells i with hm | hm
    · by_cases hlt : i < n
      · left; rw [hm, List.getElem?_take_of_lt hlt]
      · right; omega
    · right; omega

/-- Negative and large indices. -/
theorem index_range (v : Vec α) (i : Int) (hi : -2 ^ 31 ≤ i ∧ i < 2 ^ 31) (hs : v.size < 2 ^ 63) :
    inRange v i = decide (0 ≤ i ∧ i.toNat < v.size) ∧ (0 ≤ i → (i % 2 ^ 64).toNat = i.toNat) := by
  unfold inRange
  by_cases h : 0 ≤ i
  · have : i % 2 ^ 64 = i := Int.emod_eq_of_lt h (by omega)
    rw [this]
    exact ⟨by simp [h], fun _ => rfl⟩
  · have : i % 2 ^ 64 = i + 2 ^ 64 := by omega
    rw [this]
    refine ⟨?_, fun h' => absurd h' h⟩
    rw [decide_eq_false (by omega), decide_eq_false (by omega)]

/-- Every growth of the history happens at capacity 2 or more. -/
def Grows (v : Vec α) : List (Op α) → Prop
  | [] => True
  | o :: os =>
    (∀ x, o = .push x → v.size < v.capacity ∨ 2 ≤ v.capacity) ∧
    (∀ i, o = .get i → -2 ^ 31 ≤ i ∧ i < 2 ^ 31) ∧ (∀ i x, o = .set i x → -2 ^ 31 ≤ i ∧ i < 2 ^ 31) ∧
    v.size < 2 ^ 63 ∧
    ∀ r, step v o = .ok r → Grows r.2 os

theorem step_agrees (v : Vec α) (xs : List α) (h : Holds v xs) (o : Op α)
    (hp : ∀ x, o = .push x → v.size < v.capacity ∨ 2 ≤ v.capacity)
    (hg : ∀ i, o = .get i → -2 ^ 31 ≤ i ∧ i < 2 ^ 31) (hs : ∀ i x, o = .set i x → -2 ^ 31 ≤ i ∧ i < 2 ^ 31)
    (hz : v.size < 2 ^ 63) :
    Out.agrees (fun r s => r.1 = s.1 ∧ Holds r.2 s.2) (step v o) (specStep xs o) := by
  have h1 := h.size
  have h2 := h.fits
  cases o with
  | push x =>
    obtain ⟨v', e, hv, _⟩ := push_holds h (hp x rfl) x
    simp only [step, e]
    exact ⟨rfl, hv⟩
  | pop =>
    simp only [step, pop, specStep]
    by_cases hne : xs = []
    · subst hne
      rw [if_neg (by simp at h1; omega)]
      simp [Out.bind, Out.agrees]
    · have hl : 0 < xs.length := List.length_pos_iff.2 hne
      rw [if_pos (by omega), dif_pos hne, read_holds h (by omega : v.size - 1 < xs.length)]
      refine ⟨?_, ⟨by simp [h1], h.room, by simp only []; omega, fun i => ?_⟩⟩
      · rw [List.getLast_eq_getElem]; simp [h1]
      · rcases h.cells i with hm | hm
        · by_cases hlt : i < xs.length - 1
          · left; simp only []; rw [hm, List.dropLast_eq_take, List.getElem?_take_of_lt hlt]
          · right; simp; omega
        · right; simp; omega
  | shift =>
    simp only [step, shift, specStep]
    cases xs with
    | nil => rw [if_neg (by simp at h1; omega)]; simp [Out.bind, Out.agrees]
    | cons x xs =>
      simp at h1
      rw [if_pos (by omega), read_holds h (by simp : 0 < (x :: xs).length)]
      simp only [Out.bind]
      rw [if_pos h2]
      refine ⟨rfl, ⟨by simp only []; omega, h.room, by simp only []; omega, fun i => ?_⟩⟩
      simp only []
      by_cases hlt : i < xs.length
      · left
        rw [if_pos (by omega), h.cell (by simp; omega)]
        simp [List.getElem?_eq_getElem hlt]
      · right; omega
  | resize n => exact ⟨rfl, resize_holds h n⟩
  | shrink =>
    refine ⟨rfl, ?_⟩
    have := resize_holds h v.size
    rw [h1, List.take_length] at this
    show Holds (resize v v.size) xs
    rw [h1]
    exact this
  | get i =>
    obtain ⟨hr, hn⟩ := index_range v i (hg i rfl) hz
    simp only [step, get, specStep, hr]
    by_cases hi : 0 ≤ i
    · by_cases hlt : i.toNat < v.size
      · rw [if_pos (by simpa using ⟨hi, hlt⟩), hn hi, read_holds h (by omega), if_pos hi,
          List.getElem?_eq_getElem (by omega)]
        exact ⟨rfl, h⟩
      · rw [if_neg (by simp [hlt]), if_pos hi, List.getElem?_eq_none (by omega)]
        trivial
    · rw [if_neg (by simp [hi]), if_neg hi]
      trivial
  | set i x =>
    obtain ⟨hr, hn⟩ := index_range v i (hs i x rfl) hz
    simp only [step, set, specStep, hr]
    by_cases hi : 0 ≤ i ∧ i.toNat < v.size
    · rw [if_pos (by simpa using hi), hn hi.1, if_pos (by omega), if_pos ⟨hi.1, by omega⟩]
      refine ⟨rfl, ⟨by simp [h1], h.room, h.fits, fun j => ?_⟩⟩
      simp only [upd]
      by_cases hj : j = i.toNat
      · left; rw [if_pos hj, hj, List.getElem?_set_self (by omega)]
      · rw [if_neg hj, List.length_set, List.getElem?_set_ne (by omega)]
        exact h.cells j
    · rw [if_neg (by simpa using hi), if_neg (by rw [← h1]; exact hi)]
      trivial
  | size => exact ⟨by simp [h1], h⟩

/-- **C30 (partial).** Every history of operations gives the results, the contents and the failed assertions of
the same history on a list, without undefined behaviour, as long as the vector never has to grow from a
capacity of 0 or 1.  The full statement drops `Grows`; `push_at_small_capacity_undefined` shows that it does
not hold then. -/
theorem vector_is_sequence_partial (initialSize : Nat) (ops : List (Op α)) (hg : Grows (new α initialSize) ops) :
    Out.agrees (fun r s => r.1 = s.1 ∧ Holds r.2 s.2) (run (new α initialSize) ops) (specRun [] ops) := by
  have key : ∀ (ops : List (Op α)) (v : Vec α) (xs : List α), Holds v xs → Grows v ops →
      Out.agrees (fun r s => r.1 = s.1 ∧ Holds r.2 s.2) (run v ops) (specRun xs ops) := by
    intro ops
    induction ops with
    | nil => intro v xs h _; exact ⟨rfl, h⟩
    | cons o os ih =>
      intro v xs h hg
      obtain ⟨h1, h2, h3, h4, h5⟩ := hg
      have hs := step_agrees v xs h o h1 h2 h3 h4
      simp only [run, specRun]
      cases e : step v o with
      | ok r =>
        rw [e] at hs
        cases e' : specStep xs o with
        | none => rw [e'] at hs; exact hs.elim
        | some s =>
          rw [e'] at hs
          obtain ⟨hr, hh⟩ := hs
          have := ih r.2 s.2 hh (h5 r e)
          simp only [Out.bind, Option.bind_some]
          cases e2 : run r.2 os with
          | ok t =>
            rw [e2] at this
            cases e3 : specRun s.2 os with
            | none => rw [e3] at this; exact this.elim
            | some u => rw [e3] at this; exact ⟨by simp [hr, this.1], this.2⟩
          | abort =>
            rw [e2] at this
            cases e3 : specRun s.2 os with
            | none => trivial
            | some u => rw [e3] at this; exact this.elim
          | ub => rw [e2] at this; cases e3 : specRun s.2 os <;> (rw [e3] at this; exact this.elim)
      | abort =>
        rw [e] at hs
        cases e' : specStep xs o with
        | none => trivial
        | some s => rw [e'] at hs; exact hs.elim
      | ub => rw [e] at hs; cases e' : specStep xs o <;> (rw [e'] at hs; exact hs.elim)
  exact key ops _ _ ⟨rfl, rfl, Nat.zero_le _, fun i => .inr (Nat.zero_le _)⟩ hg

/-- An operation that does not reduce the capacity below two, with an index that is an `i32`. -/
def Op.safe : Op α → Prop
  | .resize n => 2 ≤ n
  | .shrink => False
  | .get i => -2 ^ 31 ≤ i ∧ i < 2 ^ 31
  | .set i _ => -2 ^ 31 ≤ i ∧ i < 2 ^ 31
  | _ => True

theorem step_keeps (v : Vec α) (xs : List α) (h : Holds v xs) (o : Op α) (ho : o.safe) (hc : 2 ≤ v.capacity) (hz : v.size < 2 ^ 63)
    (r : Ret α × Vec α) (hr : step v o = .ok r) :
    2 ≤ r.2.capacity ∧ r.2.size ≤ v.size + 1 ∧ ∃ ys, Holds r.2 ys := by
  have ha := step_agrees v xs h o (fun _ _ => .inr hc) (fun i e => by subst e; exact ho) (fun i x e => by subst e; exact ho) hz
  rw [hr] at ha
  cases e : specStep xs o with
  | none => rw [e] at ha; exact ha.elim
  | some s =>
    rw [e] at ha
    refine ⟨?_, ?_, _, ha.2⟩
    all_goals
      cases o <;> simp only [step, pop, shift, get, set, Op.safe] at hr ho
    case push x =>
      obtain ⟨v', e, _, hcap⟩ := push_holds h (.inr hc) x
      rw [e] at hr; cases hr; simp only []; omega
    case resize => cases hr; exact ho
    case size => cases hr; exact hc
    case push x =>
      obtain ⟨v', e, hv, hcap⟩ := push_holds h (.inr hc) x
      rw [e] at hr; cases hr; simp only []
      have := h.size; have := hv.size; simp at this; omega
    case resize => cases hr; simp only [resize]; split <;> omega
    case size => cases hr; simp only []; omega
    all_goals
      (repeat' split at hr) <;> first | cases hr | skip
    all_goals
      first
      | (cases e2 : read v (v.size - 1) <;> rw [e2] at hr <;> cases hr <;> simp only [] <;> omega)
      | (cases e2 : read v 0 <;> rw [e2] at hr <;> simp only [Out.bind] at hr <;> (try (split at hr)) <;> cases hr <;> simp only [] <;> omega)
      | (rename_i i _; cases e2 : read v (i % 2 ^ 64).toNat <;> rw [e2] at hr <;> cases hr <;> simp only [] <;> omega)
      | (simp only []; omega)

/-- `Grows` from what the caller writes: an initial capacity of two or more, no `shrink` and no `resize` below
two. -/
theorem grows_of_safe (initialSize : Nat) (hi : 2 ≤ initialSize) (ops : List (Op α)) (hs : ∀ o ∈ ops, o.safe)
    (hn : ops.length < 2 ^ 63) : Grows (new α initialSize) ops := by
  have key : ∀ (ops : List (Op α)) (v : Vec α) (ys : List α), Holds v ys → 2 ≤ v.capacity → v.size + ops.length < 2 ^ 63 →
      (∀ o ∈ ops, o.safe) → Grows v ops := by
    intro ops
    induction ops with
    | nil => intros; trivial
    | cons o os ih =>
      intro v ys h hc hn hs
      simp at hn
      have ho := hs o (by simp)
      refine ⟨fun _ _ => .inr hc, fun i e => by subst e; exact ho, fun i x e => by subst e; exact ho, by omega, fun r hr => ?_⟩
      obtain ⟨h1, h2, zs, hz⟩ := step_keeps v ys h o ho hc (by omega) r hr
      exact ih r.2 zs hz h1 (by omega) (fun o' ho' => hs o' (by simp [ho']))
  exact key ops _ [] ⟨rfl, rfl, Nat.zero_le _, fun i => .inr (Nat.zero_le _)⟩ hi (by simpa [new] using hn) hs

/-- **C30 (partial), in the caller's terms.** The missing part: vectors of initial capacity 0 or 1, and those
shrunk or resized. -/
theorem vector_is_sequence_without_shrink_partial (initialSize : Nat) (hi : 2 ≤ initialSize) (ops : List (Op α))
    (hs : ∀ o ∈ ops, o.safe) (hn : ops.length < 2 ^ 63) :
    Out.agrees (fun r s => r.1 = s.1 ∧ Holds r.2 s.2) (run (new α initialSize) ops) (specRun [] ops) :=
  vector_is_sequence_partial initialSize ops (grows_of_safe initialSize hi ops hs hn)

example : ∀ o ∈ [Op.push 1, .push 2, .resize 2, .push 3, .shift, .get (-1), .pop], Op.safe (α := Nat) o := by
  simp [Op.safe]

/-- The hypothesis of `vector_is_sequence_partial` for a mixed history. -/
example : Grows (new Nat 2) [.push 1, .push 2, .push 3, .shift, .get 1, .pop] := by
  refine ⟨by simp [new], by simp, by simp, by decide, fun r h => ?_⟩
  cases h
  refine ⟨by simp [new, grow], by simp, by simp, by decide, fun r h => ?_⟩
  cases h
  refine ⟨by simp [new, grow], by simp, by simp, by decide, fun r h => ?_⟩
  cases h
  refine ⟨by simp, by simp, by simp, by decide, fun r h => ?_⟩
  cases h
  refine ⟨by simp, fun i hi => by cases hi; decide, by simp, by decide, fun r h => ?_⟩
  cases h
  exact ⟨by simp, by simp, by simp, by decide, fun _ _ => trivial⟩

/-- **C30 is false of the code.** A full vector of capacity 0 or 1 does not grow: the next push writes outside
the allocation, whatever is pushed. -/
theorem push_at_small_capacity_undefined (v : Vec α) (x : α) (hr : v.room = v.capacity) (hs : v.size = v.capacity)
    (hc : v.capacity ≤ 1) : push v x = .ub := by
  have hg : grow v = { v with capacity := v.capacity + v.capacity / 2, room := v.capacity + v.capacity / 2 } := by
    unfold grow; rw [if_pos (by omega)]
  unfold push
  rw [hg]
  simp only []
  rw [if_neg (by omega)]

/-- Shrinking any vector of at most one element gets there. -/
theorem push_after_shrink_undefined (v : Vec α) (xs : List α) (x : α) (h : Holds v xs) (hl : xs.length ≤ 1) :
    push (shrink v) x = .ub := by
  have := h.size
  exact push_at_small_capacity_undefined _ x rfl (by simp [shrink, resize]) (by simp [shrink, resize]; omega)

example : Holds (⟨1, 16, 16, fun i => if i = 0 then some 5 else none⟩ : Vec Nat) [5] := by
  refine ⟨rfl, rfl, by decide, fun i => ?_⟩
  by_cases h : i = 0
  · left; simp [h]
  · right; simp; omega

/-! ## C74: the functions that walk the vector -/

theorem elems_holds {v : Vec α} {xs : List α} (h : Holds v xs) : ∀ n i, i + n = xs.length → elems v n i = .ok (xs.drop i)
  | 0, i, hi => by rw [elems, List.drop_of_length_le (by omega)]
  | n + 1, i, hi => by
    rw [elems, read_holds h (by omega), Out.bind, elems_holds h n (i + 1) (by omega)]
    simp only [Out.bind]
    rw [← List.drop_eq_getElem_cons]

theorem each_holds {v : Vec α} {xs : List α} (h : Holds v xs) : each v = .ok xs := by
  unfold each
  rw [elems_holds h v.size 0 (by rw [h.size]; omega)]
  rfl

theorem pushAll_holds {β : Type} : ∀ (ys : List β) (v : Vec β) (xs : List β), Holds v xs → 2 ≤ v.capacity →
    ∃ v', pushAll v ys = .ok v' ∧ Holds v' (xs ++ ys)
  | [], v, xs, h, _ => ⟨v, rfl, by simpa using h⟩
  | y :: ys, v, xs, h, hc => by
    obtain ⟨v1, e, h1, hcap⟩ := push_holds h (.inr hc) y
    obtain ⟨v2, e2, h2⟩ := pushAll_holds ys v1 _ h1 (by omega)
    exact ⟨v2, by rw [pushAll, e]; exact e2, by simpa using h2⟩

theorem findFrom_holds {v : Vec α} {xs : List α} (h : Holds v xs) (p : α → Bool) : ∀ n i, i + n = xs.length →
    ∃ o, findFrom p v n i = .ok o ∧
      (o = none → ∀ j (hj : j < xs.length), i ≤ j → p xs[j] = false) ∧
      (∀ j x, o = some (j, x) → ∃ hj : j < xs.length, x = xs[j] ∧ p xs[j] = true ∧ i ≤ j ∧
        ∀ k (hk : k < xs.length), i ≤ k → k < j → p xs[k] = false)
  | 0, i, hi => ⟨none, rfl, fun _ j hj hij => by omega, by simp⟩
  | n + 1, i, hi => by
    rw [findFrom, read_holds h (by omega)]
    simp only [Out.bind]
    split
    · rename_i hp
      refine ⟨_, rfl, by simp, fun j x hj => ?_⟩
      simp at hj
      obtain ⟨rfl, rfl⟩ := hj
      exact ⟨by omega, rfl, hp, Nat.le_refl _, fun k hk h1 h2 => by omega⟩
    · rename_i hp
      obtain ⟨o, e, h1, h2⟩ := findFrom_holds h p n (i + 1) (by omega)
      refine ⟨o, e, fun ho j hj hij => ?_, fun j x hj => ?_⟩
      · by_cases hji : j = i
        · subst hji; simpa using hp
        · exact h1 ho j hj (by omega)
      · obtain ⟨hjl, hx, hpj, hij, hk⟩ := h2 j x hj
        refine ⟨hjl, hx, hpj, by omega, fun k hkl hik hkj => ?_⟩
        by_cases hki : k = i
        · subst hki; simpa using hp
        · exact hk k hkl (by omega) hkj

/-- **C74.** `each`, `accumulate`, `filter`, `map` and `find` on a vector of any size give what the same
functions give on the list of its elements. -/
theorem vector_functions {β : Type} (v : Vec α) (xs : List α) (h : Holds v xs) (p : α → Bool) (f : α → β) (g : β → α → β)
    (acc : β) :
    each v = .ok xs ∧ accumulate g acc v = .ok (xs.foldl g acc) ∧
    (∃ w, filter p v = .ok w ∧ Holds w (xs.filter p)) ∧
    (∃ w, map f v = .ok w ∧ Holds w (xs.map f)) ∧
    ∃ o, find p v = .ok o ∧ o.map Prod.snd = xs.find? p := by
  have he := each_holds h
  refine ⟨he, by rw [accumulate, he]; rfl, ?_, ?_, ?_⟩
  · obtain ⟨w, e, hw⟩ := pushAll_holds (xs.filter p) (new α 16) [] ⟨rfl, rfl, Nat.zero_le _, fun i => .inr (Nat.zero_le _)⟩ (by simp [new])
    exact ⟨w, by rw [filter, he]; exact e, by simpa using hw⟩
  · obtain ⟨w, e, hw⟩ := pushAll_holds (xs.map f) (new β 16) [] ⟨rfl, rfl, Nat.zero_le _, fun i => .inr (Nat.zero_le _)⟩ (by simp [new])
    exact ⟨w, by rw [map, he]; exact e, by simpa using hw⟩
  · obtain ⟨o, e, h1, h2⟩ := findFrom_holds h p v.size 0 (by rw [h.size]; omega)
    refine ⟨o, e, ?_⟩
    cases o with
    | none =>
      symm
      simp only [Option.map_none, List.find?_eq_none]
      intro x hx
      obtain ⟨j, hj, rfl⟩ := List.getElem_of_mem hx
      simp [h1 rfl j hj (Nat.zero_le _)]
    | some r =>
      obtain ⟨hj, hx, hp, _, hk⟩ := h2 r.1 r.2 rfl
      symm
      simp only [Option.map_some]
      rw [List.find?_eq_some_iff_getElem]
      refine ⟨by rw [hx]; exact hp, r.1, hj, hx.symm, fun k hk' => ?_⟩
      simp [hk k (by omega) (Nat.zero_le _) hk']

end Verif.Vector
