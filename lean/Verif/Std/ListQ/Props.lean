import Verif.Std.ListQ.Model
/-! # C31, C75: the intrusive list -/
namespace Verif.ListQ

/-! ## Specification: a first-in first-out queue -/

/-- The items popped and those left; popping an empty queue gives null. -/
def specRun (xs : List Nat) : List Op → List Nat × List Nat
  | [] => ([], xs)
  | .push i :: os => specRun (xs ++ [i]) os
  | .pop :: os => ((xs.head?.getD 0) :: (specRun xs.tail os).1, (specRun xs.tail os).2)

/-- Every pushed item is real and not in the queue at that time. -/
def Fresh (xs : List Nat) : List Op → Prop
  | [] => True
  | .push i :: os => i ≠ 0 ∧ i ∉ xs ∧ Fresh (xs ++ [i]) os
  | .pop :: os => Fresh xs.tail os

/-- The links from `a` run through `xs`. -/
def Chain (link : Nat → Nat) : Nat → List Nat → Prop
  | a, [] => a = 0
  | a, x :: xs => a = x ∧ x ≠ 0 ∧ Chain link (link x) xs

structure Holds (q : Q) (xs : List Nat) : Prop where
  chain : Chain q.link q.head xs
  nodup : xs.Nodup
  tail : q.tail = xs.getLast?.getD 0
  count : q.count = xs.length
  others : ∀ i, i ∉ xs → q.link i = 0

theorem chain_congr {l l' : Nat → Nat} : ∀ (xs : List Nat) (a : Nat), (∀ x ∈ xs, l x = l' x) → Chain l a xs → Chain l' a xs
  | [], _, _, h => h
  | x :: xs, a, hx, h => ⟨h.1, h.2.1, hx x (by simp) ▸ chain_congr xs _ (fun y hy => hx y (by simp [hy])) h.2.2⟩

theorem chain_nonzero {l : Nat → Nat} : ∀ (xs : List Nat) (a : Nat), Chain l a xs → ∀ x ∈ xs, x ≠ 0
  | y :: ys, a, h, x, hx => by
    rcases List.mem_cons.1 hx with e | e
    · subst e; exact h.2.1
    · exact chain_nonzero ys _ h.2.2 x e

theorem chain_push {l : Nat → Nat} (i : Nat) (hi : i ≠ 0) (hl : l i = 0) : ∀ (xs : List Nat) (hne : xs ≠ []) (a : Nat),
    xs.Nodup → i ∉ xs → Chain l a xs → Chain (upd l (xs.getLast hne) i) a (xs ++ [i])
  | [x], _, a, _, hm, h => by
    refine ⟨h.1, h.2.1, ?_⟩
    simp at hm
    simp [Chain, upd, hi, hl, hm]
  | x :: y :: xs, hne, a, hn, hm, h => by
    have hn' : (y :: xs).Nodup := (List.nodup_cons.1 hn).2
    refine ⟨h.1, h.2.1, ?_⟩
    have hlast : (x :: y :: xs).getLast hne = (y :: xs).getLast (by simp) := by simp
    have hx : x ≠ (y :: xs).getLast (by simp) := fun e => (List.nodup_cons.1 hn).1 (e ▸ List.getLast_mem _)
    rw [hlast, upd_ne _ _ hx]
    exact chain_push i hi hl (y :: xs) (by simp) _ hn' (fun h => hm (by simp [List.mem_cons.1 h])) h.2.2

theorem push_holds {q : Q} {xs : List Nat} (h : Holds q xs) (i : Nat) (hi : i ≠ 0) (hm : i ∉ xs) :
    ∃ q', push q i = some q' ∧ Holds q' (xs ++ [i]) := by
  unfold push
  rw [if_neg hi, if_pos (h.others i hm)]
  cases xs with
  | nil =>
    have h0 : q.head = 0 := h.chain
    rw [if_pos h0]
    refine ⟨_, rfl, ⟨⟨rfl, hi, h.others i hm⟩, by simp, by simp, by simp [h.count], fun j hj => h.others j (by simp)⟩⟩
  | cons x xs =>
    have hc := h.chain
    have h0 : q.head ≠ 0 := by rw [hc.1]; exact hc.2.1
    rw [if_neg h0]
    have ht : q.tail = (x :: xs).getLast (by simp) := by
      rw [h.tail, List.getLast?_eq_some_getLast (by simp)]; rfl
    refine ⟨_, rfl, ⟨?_, ?_, ?_, ?_, fun j hj => ?_⟩⟩
    · simp only []
      rw [ht]
      exact chain_push i hi (h.others i hm) (x :: xs) (by simp) _ h.nodup hm hc
    · rw [List.nodup_append]
      exact ⟨h.nodup, by simp, fun a ha b hb e => by simp at hb; subst hb; exact hm (e ▸ ha)⟩
    · rw [List.getLast?_append]; rfl
    · simp [h.count]
    · simp only []
      have hj1 : j ∉ x :: xs := fun hh => hj (List.mem_append_left _ hh)
      have : j ≠ q.tail := fun e => hj1 (by rw [e, ht]; exact List.getLast_mem _)
      rw [upd_ne _ _ this]
      exact h.others j hj1

theorem pop_holds {q : Q} {xs : List Nat} (h : Holds q xs) :
    (pop q).1 = xs.head?.getD 0 ∧ Holds (pop q).2 xs.tail := by
  unfold pop
  cases xs with
  | nil =>
    have h0 : q.head = 0 := h.chain
    rw [if_neg (by simp [h0])]
    exact ⟨h0, h⟩
  | cons x xs =>
    have hc := h.chain
    have hx : q.head = x := hc.1
    rw [if_pos (by rw [hx]; exact hc.2.1)]
    have hn := List.nodup_cons.1 h.nodup
    refine ⟨by simp [hx], ⟨?_, hn.2, ?_, by simp [h.count], fun j hj => ?_⟩⟩
    · simp only [List.tail_cons]
      rw [hx]
      exact chain_congr xs _ (fun y hy => by rw [upd_ne]; intro e; exact hn.1 (e ▸ hy)) hc.2.2
    · simp only [List.tail_cons]
      rw [hx]
      cases xs with
      | nil => have : q.link x = 0 := hc.2.2; simp [this]
      | cons y ys =>
        have h2 := hc.2.2
        have : q.link x ≠ 0 := by rw [h2.1]; exact h2.2.1
        rw [if_neg this, h.tail]
        simp [List.getLast?_cons]
    · simp only []
      by_cases e : j = q.head
      · rw [e, upd_same]
      · rw [upd_ne _ _ e]
        exact h.others j (by simp; exact ⟨fun e' => e (by rw [hx, e']), by simpa using hj⟩)

theorem run_holds : ∀ (ops : List Op) (q : Q) (xs : List Nat), Holds q xs → Fresh xs ops →
    ∃ r, run q ops = some r ∧ r.1 = (specRun xs ops).1 ∧ Holds r.2 (specRun xs ops).2
  | [], q, xs, h, _ => ⟨_, rfl, rfl, h⟩
  | .push i :: os, q, xs, h, hf => by
    obtain ⟨q', e, h'⟩ := push_holds h i hf.1 hf.2.1
    obtain ⟨r, e2, h2⟩ := run_holds os q' _ h' hf.2.2
    exact ⟨r, by rw [run, e]; exact e2, h2⟩
  | .pop :: os, q, xs, h, hf => by
    obtain ⟨h1, h2⟩ := pop_holds h
    obtain ⟨r, e, hr, hh⟩ := run_holds os _ _ h2 hf
    exact ⟨((pop q).1 :: r.1, r.2), by rw [run, e]; rfl, by simp [specRun, hr, h1], hh⟩

theorem empty_holds : Holds empty [] := ⟨rfl, List.nodup_nil, rfl, rfl, fun _ _ => rfl⟩

theorem walk_chain {q : Q} : ∀ (xs : List Nat) (a : Nat), Chain q.link a xs → walk q (xs.length + 1) a = (xs, true)
  | [], a, h => by simp [walk, show a = 0 from h]
  | x :: xs, a, h => by
    rw [List.length_cons, walk, if_pos (by rw [h.1]; exact h.2.1), h.1, walk_chain xs _ h.2.2]

/-- **C31.** After any history of pushes (of items that are not in the list at the time) and pops, the items come
out in the order they went in, a pop of the empty list gives null, the iterator visits exactly the remaining items
in order and ends, and `front`, `back`, `size` and `empty` describe them. -/
theorem list_is_fifo (ops : List Op) (hf : Fresh [] ops) :
    ∃ r, run empty ops = some r ∧ r.1 = (specRun [] ops).1 ∧
      iterate r.2 ((specRun [] ops).2.length + 1) = ((specRun [] ops).2, true) ∧
      front r.2 = (specRun [] ops).2.head?.getD 0 ∧ back r.2 = (specRun [] ops).2.getLast?.getD 0 ∧
      size r.2 = (specRun [] ops).2.length ∧ (isEmpty r.2 = true ↔ (specRun [] ops).2 = []) := by
  obtain ⟨r, e, h1, h2⟩ := run_holds ops _ _ empty_holds hf
  refine ⟨r, e, h1, walk_chain _ _ h2.chain, ?_, h2.tail, h2.count, ?_⟩
  · have := h2.chain
    cases hx : (specRun [] ops).2 with
    | nil => rw [hx] at this; exact this
    | cons x xs => rw [hx] at this; exact this.1
  · have := h2.chain
    cases hx : (specRun [] ops).2 with
    | nil => rw [hx] at this; simp [isEmpty, show r.2.head = 0 from this]
    | cons x xs =>
      rw [hx] at this
      simp only [isEmpty, decide_eq_true_eq, reduceCtorEq, iff_false]
      rw [this.1]
      exact this.2.1

/-- An item is pushed again after it was popped. -/
example : Fresh [] [.push 7, .push 9, .pop, .push 7, .push 8] ∧
    specRun [] [.push 7, .push 9, .pop, .push 7, .push 8] = ([7], [9, 7, 8]) := by
  simp [Fresh, specRun]

/-! ## C75: pushing an item that is in the list -/

theorem link_of_inner {l : Nat → Nat} : ∀ (xs : List Nat) (a : Nat), Chain l a xs → ∀ x ∈ xs.dropLast, l x ≠ 0
  | y :: z :: ys, a, h, x, hx => by
    simp only [List.dropLast_cons_cons, List.mem_cons] at hx
    rcases hx with e | e
    · subst e
      have := h.2.2
      rw [this.1]; exact this.2.1
    · exact link_of_inner (z :: ys) _ h.2.2 x e

/-- **C75 (partial).** The assertion in `push` stops every item that is in the list, except the last one.  The full
statement has no exception; `pushing_last_again_loops` shows what happens. -/
theorem pushing_member_fails_partial (q : Q) (xs : List Nat) (h : Holds q xs) (i : Nat) (hi : i ∈ xs.dropLast) :
    push q i = none := by
  unfold push
  rw [if_neg (chain_nonzero xs _ h.chain i (List.dropLast_sublist xs |>.subset hi)), if_neg (link_of_inner xs _ h.chain i hi)]

example : ∃ q, run empty [.push 7, .push 9] = some ([], q) ∧ push q 7 = none := ⟨_, rfl, rfl⟩

theorem walk_cycle {l : Nat → Nat} (q : Q) (hq : q.link = l) (t : Nat) (ht : t ≠ 0) (hl : l t = t) : ∀ n, (walk q n t).2 = false
  | 0 => by simp [walk, ht]
  | n + 1 => by rw [walk, if_pos ht, hq, hl]; exact walk_cycle q hq t ht hl n

theorem walk_to_last (q : Q) (l : Nat → Nat) : ∀ (xs : List Nat) (hne : xs ≠ []) (a : Nat),
    xs.Nodup → Chain l a xs → (∀ x, x ≠ xs.getLast hne → q.link x = l x) → q.link (xs.getLast hne) = xs.getLast hne →
    ∀ n, (walk q n a).2 = false
  | [x], _, a, _, h, hq, hl, n => by
    rw [h.1]
    exact walk_cycle q rfl x h.2.1 hl n
  | x :: y :: xs, hne, a, hn, h, hq, hl, n => by
    have hx : x ≠ (y :: xs).getLast (by simp) := fun e => (List.nodup_cons.1 hn).1 (e ▸ List.getLast_mem _)
    cases n with
    | zero => simp [walk, h.1, h.2.1]
    | succ n =>
      rw [walk, if_pos (by rw [h.1]; exact h.2.1), h.1, hq x (by simpa using hx)]
      exact walk_to_last q l (y :: xs) (by simp) _ (List.nodup_cons.1 hn).2 h.2.2
        (fun z hz => hq z (by simpa using hz)) (by simpa using hl) n

/-- **The exception in C75.** Pushing the last item of any non-empty list again is accepted, and afterwards no
number of steps ends an iteration over the list. -/
theorem pushing_last_again_loops (q : Q) (xs : List Nat) (h : Holds q xs) (hne : xs ≠ []) :
    ∃ q', push q (xs.getLast hne) = some q' ∧ ∀ n, (iterate q' n).2 = false := by
  have ht : q.tail = xs.getLast hne := by rw [h.tail, List.getLast?_eq_some_getLast hne]; rfl
  have h0 := chain_nonzero xs _ h.chain _ (List.getLast_mem hne)
  have hz : q.link (xs.getLast hne) = 0 := by
    have : ∀ (xs : List Nat) (hne : xs ≠ []) (a : Nat), Chain q.link a xs → q.link (xs.getLast hne) = 0 := by
      intro xs
      induction xs with
      | nil => intro h; exact absurd rfl h
      | cons x xs ih =>
        intro _ a hc
        cases xs with
        | nil => exact hc.2.2
        | cons y ys => rw [List.getLast_cons (by simp)]; exact ih (by simp) _ hc.2.2
    exact this xs hne _ h.chain
  have hh : q.head ≠ 0 := by
    have := h.chain
    cases xs with
    | nil => exact absurd rfl hne
    | cons x xs => rw [this.1]; exact this.2.1
  unfold push
  rw [if_neg h0, if_pos hz, if_neg hh, ht]
  refine ⟨_, rfl, fun n => ?_⟩
  unfold iterate
  exact walk_to_last _ q.link xs hne _ h.nodup h.chain (fun x hx => by simp only []; rw [upd_ne _ _ hx]) (by simp) n

example : Holds ⟨7, 9, 2, fun i => if i = 7 then 9 else 0⟩ [7, 9] :=
  ⟨by simp [Chain], by simp, rfl, rfl, fun i hi => by simp at hi; simp [hi.1]⟩

end Verif.ListQ
