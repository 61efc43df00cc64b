import Verif.Std.Thread.Model
/-!
# Threads and joining them: properties
-/
namespace Verif.Threads

/-! ## Invariants -/

/-- Objects are of threads that were created, and those that are no longer joinable of threads that
were waited for. -/
structure Inv (s : S) : Prop where
  made : ∀ t ∈ s.objs, t.handle < s.made
  waited : ∀ t ∈ s.objs, t.joinable = false → t.handle ∈ s.waited
  only : ∀ n ∈ s.waited, n < s.made

theorem inv_step (s : S) (op : Op) (h : Inv s) : Inv (step s op) := by
  cases op with
  | launch =>
    refine ⟨?_, ?_, ?_⟩
    · intro t ht
      simp only [step, launch, List.mem_append, List.mem_singleton] at ht ⊢
      rcases ht with ht | rfl
      · have := h.made t ht; omega
      · simp
    · intro t ht hj
      simp only [step, launch, List.mem_append, List.mem_singleton] at ht ⊢
      rcases ht with ht | rfl
      · exact h.waited t ht hj
      · simp at hj
    · intro n hn
      have := h.only n hn
      simp only [step, launch]; omega
  | copy i =>
    simp only [step, copy]
    split
    · rename_i t ht
      have hm := List.mem_of_getElem? ht
      refine ⟨?_, ?_, h.only⟩
      · intro u hu
        simp only [List.mem_append, List.mem_singleton] at hu
        rcases hu with hu | rfl
        · exact h.made u hu
        · exact h.made u hm
      · intro u hu hj
        simp only [List.mem_append, List.mem_singleton] at hu
        rcases hu with hu | rfl
        · exact h.waited u hu hj
        · exact h.waited u hm hj
    · exact h
  | join i =>
    simp only [step, join]
    split
    · rename_i t ht
      have hm := List.mem_of_getElem? ht
      split
      · refine ⟨?_, ?_, ?_⟩
        · intro u hu
          rcases List.mem_or_eq_of_mem_set hu with hu | rfl
          · exact h.made u hu
          · exact h.made t hm
        · intro u hu hj
          rcases List.mem_or_eq_of_mem_set hu with hu | rfl
          · exact List.mem_cons_of_mem _ (h.waited u hu hj)
          · exact List.mem_cons_self
        · intro n hn
          simp only [List.mem_cons] at hn
          rcases hn with rfl | hn
          · exact h.made t hm
          · exact h.only n hn
      · exact h
    · exact h

theorem inv_foldl (ops : List Op) (s : S) (h : Inv s) : Inv (ops.foldl step s) := by
  induction ops generalizing s with
  | nil => exact h
  | cons op ops ih => exact ih _ (inv_step s op h)

theorem inv_run (ops : List Op) : Inv (run ops) :=
  inv_foldl ops start ⟨by simp [start], by simp [start], by simp [start]⟩

/-- Without copies there is one object for each thread, in order, and none that is joinable was
waited for. -/
structure Own (s : S) : Prop where
  one : ∀ (i : Nat) (t : Thread), s.objs[i]? = some t → t.handle = i
  made : s.made = s.objs.length
  not : ∀ t ∈ s.objs, t.joinable = true → t.handle ∉ s.waited
  once : s.waited.Nodup
  only : ∀ n ∈ s.waited, n < s.made

theorem own_step (s : S) (op : Op) (hc : ∀ i, op ≠ .copy i) (h : Own s) : Own (step s op) := by
  cases op with
  | copy i => exact absurd rfl (hc i)
  | launch =>
    refine ⟨?_, ?_, ?_, h.once, ?_⟩
    · intro i t ht
      simp only [step, launch] at ht
      rw [List.getElem?_append] at ht
      split at ht
      · exact h.one i t ht
      · rename_i hi
        have := List.mem_of_getElem? ht
        simp only [List.mem_singleton] at this
        have hl := (List.getElem?_eq_some_iff.mp ht).1
        simp only [List.length_singleton] at hl
        subst this
        have := h.made
        simp only; omega
    · simp [step, launch, h.made]
    · intro t ht hj
      simp only [step, launch, List.mem_append, List.mem_singleton] at ht ⊢
      rcases ht with ht | rfl
      · exact h.not t ht hj
      · intro hm
        have := h.only _ hm
        simp only at this
        omega
    · intro n hn
      have := h.only n hn
      simp only [step, launch]; omega
  | join i =>
    simp only [step, join]
    split
    · rename_i t ht
      have hm := List.mem_of_getElem? ht
      split
      · rename_i hj
        have hh := h.one i t ht
        have hl := (List.getElem?_eq_some_iff.mp ht).1
        refine ⟨?_, ?_, ?_, ?_, ?_⟩
        · intro k u hu
          simp only [List.getElem?_set] at hu
          split at hu
          · rename_i hk
            cases hu; simp only; omega
          · exact h.one k u hu
        · simp [h.made]
        · intro u hu hju hmem
          obtain ⟨k, hk⟩ := List.getElem?_of_mem hu
          simp only [List.getElem?_set] at hk
          split at hk
          · cases hk; simp at hju
          · rename_i hne
            have := h.one k u hk
            simp only [List.mem_cons] at hmem
            rcases hmem with e | hmem
            · omega
            · exact h.not u (List.mem_of_getElem? hk) hju hmem
        · exact List.nodup_cons.mpr ⟨h.not t hm hj, h.once⟩
        · intro n hn
          simp only [List.mem_cons] at hn
          rcases hn with rfl | hn
          · have := h.made; simp only; omega
          · exact h.only n hn
      · exact h
    · exact h

theorem own_foldl (ops : List Op) (s : S) (hc : ∀ i, Op.copy i ∉ ops) (h : Own s) :
    Own (ops.foldl step s) := by
  induction ops generalizing s with
  | nil => exact h
  | cons op ops ih =>
    refine ih _ (fun i hi => hc i (List.mem_cons_of_mem _ hi)) (own_step s op ?_ h)
    intro i e
    exact hc i (by simp [e])

/-! ## Properties -/

/-- After any program, joining an object has waited for its thread, whatever was joined or copied
before. -/
theorem join_waits (ops : List Op) (i : Nat) (t : Thread) (h : (run ops).objs[i]? = some t) :
    t.handle ∈ (run (ops ++ [.join i])).waited := by
  have hi := inv_run ops
  simp only [run, List.foldl_append, List.foldl_cons, List.foldl_nil] at h ⊢
  simp only [step, join, h]
  split
  · exact List.mem_cons_self
  · rename_i hj
    exact hi.waited t (List.mem_of_getElem? h) (by simpa using hj)

/-- Only threads that were created are waited for. -/
theorem join_made (ops : List Op) (n : Nat) (h : n ∈ (run ops).waited) : n < (run ops).made :=
  (inv_run ops).only n h

/-- No thread is waited for twice by a program that copies no objects. Missing: programs that do. -/
theorem join_once_partial (ops : List Op) (hc : ∀ i, Op.copy i ∉ ops) : (run ops).waited.Nodup :=
  (own_foldl ops start hc
    ⟨by simp [start], by simp [start], by simp [start], by simp [start], by simp [start]⟩).once

/-- With a copy of an object that is joinable a thread is waited for twice: after any program,
joining both waits twice for the thread, which is undefined. -/
theorem copy_twice (ops : List Op) (i : Nat) (t : Thread) (h : (run ops).objs[i]? = some t)
    (hj : t.joinable = true) :
    (run (ops ++ [.copy i, .join i, .join (run ops).objs.length])).waited =
      t.handle :: t.handle :: (run ops).waited := by
  have hl := (List.getElem?_eq_some_iff.mp h).1
  have key : ∀ s : S, s.objs[i]? = some t → i < s.objs.length →
      (([Op.copy i, .join i, .join s.objs.length] : List Op).foldl step s).waited =
        t.handle :: t.handle :: s.waited := by
    intro s hs hlt
    have h1 : (s.objs ++ [t])[i]? = some t := by rw [List.getElem?_append_left hlt]; exact hs
    have h2 : ((s.objs ++ [t]).set i { t with joinable := false })[s.objs.length]? = some t := by
      rw [List.getElem?_set_ne (by omega)]
      simp
    simp only [List.foldl_cons, List.foldl_nil, step, copy, hs, join, h1, hj, if_true, h2]
  have := key (run ops) h hl
  simpa only [run, List.foldl_append] using this

-- Two threads, joined twice each.
example : (∀ i, Op.copy i ∉ [Op.launch, .launch, .join 1, .join 0, .join 1]) ∧
    (run [.launch, .launch, .join 1, .join 0, .join 1]).waited = [0, 1] := by
  constructor
  · intro i; simp
  · decide
-- A copy.
example : (run [.launch]).objs[0]? = some ⟨0, true⟩ ∧
    (run [.launch, .copy 0, .join 0, .join 1]).waited = [0, 0] := by decide
-- A copy of an object that was joined.
example : (run [.launch, .join 0, .copy 0, .join 1]).waited = [0] := by decide

end Verif.Threads
