import Verif.Core.Hmap.Lemmas
import Verif.Core.Hmap.Spec
/-!
# Properties of the compiler's robin-hood map (C05, C06, C07, C51, C52)
-/
namespace Verif.Hmap

open Verif.RH Spec

variable {α : Type}

/-- One client call.  Two levels of recursion are enough for `hmapPut`. -/
def step (hash : α → Nat) (eq : α → α → Bool) (m : Map α) : Op α → Res (Out α × Map α)
  | .put e => (put hash eq 2 m e).map fun (b, m') => (.put b, m')
  | .get k => (get hash eq m k).map fun r => (.got r, m)
  | .remove k => (remove hash eq 2 m k).map fun m' => (.removed, m')
  | .size => .ok (.size m.size, m)

def run (hash : α → Nat) (eq : α → α → Bool) : Map α → List (Op α) → Res (List (Out α) × Map α)
  | m, [] => .ok ([], m)
  | m, o :: os => (step hash eq m o).bind fun (x, m') => (run hash eq m' os).map fun (xs, m'') => (x :: xs, m'')

theorem step_refines {hash : α → Nat} {eq : α → α → Bool} (hc : Compat hash eq) {m : Map α} {s : List α}
    (hi : HInv hash eq m) (hp : (elems m).Perm s) (o : Op α)
    (hf : match o with | .put e => s.any (eq · e) = false | _ => True) :
    ∃ m', step hash eq m o = .ok ((Spec.step eq s o).1, m') ∧ HInv hash eq m' ∧
      (elems m').Perm (Spec.step eq s o).2 := by
  cases o with
  | put e =>
    simp only at hf
    obtain ⟨m', h1, h2, h3⟩ := put_fresh hc 0 hi e (fun x hx => any_false hf x (hp.mem_iff.mp hx))
    exact ⟨m', by simp [step, h1, Spec.step, hf], h2, by simpa [Spec.step, hf] using h3.trans (hp.cons e)⟩
  | get k => exact ⟨m, by simp [step, get_ok hc hi k hp, Spec.step], hi, hp⟩
  | remove k =>
    obtain ⟨m', h1, h2, h3⟩ := remove_ok hc 1 hi k hp
    exact ⟨m', by simp [step, h1, Spec.step], h2, h3⟩
  | size =>
    refine ⟨m, ?_, hi, hp⟩
    have : m.size = s.length := by rw [← hi.1.size_eq]; exact hp.length_eq
    simp [step, Spec.step, this]

theorem run_refines {hash : α → Nat} {eq : α → α → Bool} (hc : Compat hash eq) :
    ∀ (ops : List (Op α)) (m : Map α) (s : List α), HInv hash eq m → (elems m).Perm s → PutsFresh eq s ops →
    ∃ m', run hash eq m ops = .ok ((Spec.run eq s ops).1, m') ∧ HInv hash eq m' ∧
      (elems m').Perm (Spec.run eq s ops).2 := by
  intro ops
  induction ops with
  | nil => intro m s hi hp _; exact ⟨m, rfl, hi, hp⟩
  | cons o os ih =>
    intro m s hi hp hf
    obtain ⟨m1, h1, hi1, hp1⟩ := step_refines hc hi hp o hf.1
    obtain ⟨m2, h2, hi2, hp2⟩ := ih m1 _ hi1 hp1 hf.2
    exact ⟨m2, by simp [run, h1, h2, Spec.run], hi2, hp2⟩

/-- **C05, C51.** Every history of put, get, remove and size in which each put is of an absent
element behaves as the abstract map, for every initial capacity and every compatible hash. -/
theorem fresh_history_matches_map {hash : α → Nat} {eq : α → α → Bool} (hc : Compat hash eq) (c : Nat)
    (ops : List (Op α)) (hf : PutsFresh eq [] ops) :
    ∃ m, run hash eq (create α c) ops = .ok ((Spec.run eq [] ops).1, m) := by
  obtain ⟨m, h, _⟩ := run_refines hc ops (create α c) [] (create_inv _ _ c) (by rw [create, elems_empty]) hf
  exact ⟨m, h⟩

/-- Hypotheses met by a history with colliding keys, a removal and a second insertion. -/
example : ∃ m, run (fun n : Nat => n % 3) (fun a b => decide (a = b)) (create Nat 0)
    [.put 1, .put 4, .put 7, .get 4, .remove 1, .get 7, .put 1, .get 1, .size]
    = .ok ([.put true, .put true, .put true, .got (some 4), .removed, .got (some 7), .put true, .got (some 1),
        .size 3], m) :=
  fresh_history_matches_map (compat_eq _) 0 _ (by simp [PutsFresh, Spec.step])

/-- **C06 is false of the code**: putting a key again can add a second copy and count it twice;
after one removal the old value is still found. -/
theorem reput_can_duplicate :
    ∃ m, run (fun _ : Nat × Nat => 0) (fun a b => decide (a.1 = b.1)) (create (Nat × Nat) 0)
      [.put (1, 10), .put (2, 20), .put (1, 11), .size, .remove (1, 0), .get (1, 0)]
      = .ok ([.put true, .put true, .put true, .size 3, .removed, .got (some (1, 10))], m) := by
  refine ⟨((run (fun _ : Nat × Nat => 0) (fun a b => decide (a.1 = b.1)) (create (Nat × Nat) 0)
      [.put (1, 10), .put (2, 20), .put (1, 11), .size, .remove (1, 0), .get (1, 0)]).getD ([], create _ 0)).2, ?_⟩
  have h := Res.eq_ok ([], create (Nat × Nat) 0) (r := run (fun _ : Nat × Nat => 0) (fun a b => decide (a.1 = b.1))
    (create (Nat × Nat) 0) [.put (1, 10), .put (2, 20), .put (1, 11), .size, .remove (1, 0), .get (1, 0)]) (by decide)
  rw [h]
  simp only [Res.getD, Res.ok.injEq]
  refine Prod.ext ?_ rfl
  decide

/-- ... whereas the abstract map replaces. -/
example : (Spec.run (fun a b : Nat × Nat => decide (a.1 = b.1)) []
    [.put (1, 10), .put (2, 20), .put (1, 11), .size, .remove (1, 0), .get (1, 0)]).1
    = [.put true, .put true, .put false, .size 2, .removed, .got none] := by decide

/-- **C06, partial.** After any fresh history, putting a key that is present replaces it, provided no
other stored element has the same home slot.  (Missing: elements sharing a home slot, for which the
code is wrong.) -/
theorem reput_replaces_partial {hash : α → Nat} {eq : α → α → Bool} (hc : Compat hash eq) (c : Nat)
    (ops : List (Op α)) (hf : PutsFresh eq [] ops) (m : Map α) (outs : List (Out α))
    (hrun : run hash eq (create α c) ops = .ok (outs, m)) (e : α)
    (hin : (Spec.run eq [] ops).2.any (eq · e) = true)
    (hhome : ∀ x ∈ (Spec.run eq [] ops).2, eq x e = false → hash x % m.cap ≠ hash e % m.cap) :
    ∃ m', step hash eq m (.put e) = .ok (.put false, m') ∧
      (elems m').Perm ((Spec.run eq [] ops).2.map fun x => if eq x e then e else x) ∧
      ∀ k, get hash eq m' k = .ok (((Spec.run eq [] ops).2.map fun x => if eq x e then e else x).find? (eq · k)) := by
  obtain ⟨m0, h0, hi, hp⟩ := run_refines hc ops (create α c) [] (create_inv _ _ c) (by rw [create, elems_empty]) hf
  rw [h0] at hrun
  cases hrun
  obtain ⟨x, hx, hxe⟩ := List.any_eq_true.mp hin
  obtain ⟨i, n, hin', hn, rfl⟩ := mem_contents.mp (hp.mem_iff.mpr hx)
  have hfree := hi.free
  have hcap : 0 < m.cap := by omega
  have hnh : n.home < m.cap := by rw [hi.1.reach.home i n hin' hn]; exact Nat.mod_lt _ hcap
  have hsw : ∀ l q, l < dist m.cap i n.home → m.data ((n.home + l) % m.cap) = some q →
      params.swap l (params.probe m.cap ((n.home + l) % m.cap) q.home) = false := by
    intro l q hl hq
    have hlt := dist_lt hin' hnh
    have hsl : (n.home + l) % m.cap < m.cap := Nat.mod_lt _ hcap
    have hqh : q.home < m.cap := by rw [hi.1.reach.home _ q hsl hq]; exact Nat.mod_lt _ hcap
    obtain ⟨q', hq', hg⟩ := hi.1.reach.path i n hin' hn l hl
    rw [hq] at hq'
    cases hq'
    simp only [exact_probe, exactProbe, gtDist, gt_iff_lt, decide_eq_false_iff_not, Nat.not_lt] at hg
    -- equal distance would mean the same home slot
    have hne : l ≠ dist m.cap ((n.home + l) % m.cap) q.home := by
      intro hle
      have h1 := home_add_dist hsl hqh
      rw [← hle] at h1
      have h2 : q.home = n.home := by
        by_cases a : q.home + l < m.cap <;> by_cases b : n.home + l < m.cap
        · rw [Nat.mod_eq_of_lt a, Nat.mod_eq_of_lt b] at h1; omega
        · rw [Nat.mod_eq_of_lt a, Nat.mod_eq_sub_mod (by omega), Nat.mod_eq_of_lt (by omega)] at h1; omega
        · rw [Nat.mod_eq_of_lt b, Nat.mod_eq_sub_mod (by omega), Nat.mod_eq_of_lt (by omega)] at h1; omega
        · rw [Nat.mod_eq_sub_mod (by omega), Nat.mod_eq_of_lt (show q.home + l - m.cap < m.cap by omega),
            Nat.mod_eq_sub_mod (show n.home + l ≥ m.cap by omega),
            Nat.mod_eq_of_lt (show n.home + l - m.cap < m.cap by omega)] at h1
          omega
      have hslot : (n.home + l) % m.cap ≠ i := by
        intro h
        have := dist_eq hnh (show l < m.cap by omega) h
        omega
      have hqn := pairwise_slots hc hi.1.distinct hsl hin' hslot hq hn
      have hqe : eq q.elem e = false := by
        cases hqe : eq q.elem e with
        | false => rfl
        | true => have := hc.trans _ _ _ hqe (hc.symm _ _ hxe); rw [hqn] at this; cases this
      apply hhome q.elem (hp.mem_iff.mp (mem_contents.mpr ⟨_, q, hsl, hq, rfl⟩)) hqe
      rw [← hi.1.reach.home _ q hsl hq, h2, hi.1.reach.home i n hin' hn, hc.hash_eq _ _ hxe]
    show decide (l ≥ dist m.cap ((n.home + l) % m.cap) q.home) = false
    simp only [ge_iff_le, decide_eq_false_iff_not, Nat.not_le]
    omega
  obtain ⟨d', h1, h2, h3⟩ := put_present hc hi.1 e true i n hin' hn hxe hsw
  simp only [if_true] at h3
  have h4 : (elems ⟨m.cap, m.size, d'⟩).Perm ((Spec.run eq [] ops).2.map fun x => if eq x e then e else x) :=
    h3.trans (hp.map _)
  refine ⟨⟨m.cap, m.size, d'⟩, ?_, h4, fun k => ?_⟩
  · simp only [step, put, putInternal]
    rw [if_neg (by omega)]
    simp [h1]
  · exact get_ok hc (m := ⟨m.cap, m.size, d'⟩) ⟨h2, hi.2⟩ k h4

/-- Hypotheses met: two keys with different home slots. -/
example : PutsFresh (fun a b : Nat × Nat => decide (a.1 = b.1)) [] [.put (1, 10), .put (2, 20)] ∧
    ((Spec.run (fun a b : Nat × Nat => decide (a.1 = b.1)) [] [.put (1, 10), .put (2, 20)]).2.any
      (fun x => decide (x.1 = 1))) = true := by
  constructor
  · simp [PutsFresh, Spec.step]
  · decide

/-- **C07 is false of the code**: after `hmapClear` a put takes a remainder modulo zero. -/
theorem put_after_clear_undefined (hash : α → Nat) (eq : α → α → Bool) (m : Map α) (e : α) :
    step hash eq (clear m) (.put e) = .ub := by
  simp [step, put, putInternal, clear, Res.map]

/-- **C07, partial.** Lookups, removals and the size of a cleared map are those of an empty map.
(Missing: insertion, which is undefined.) -/
theorem cleared_map_is_empty_partial (hash : α → Nat) (eq : α → α → Bool) (m : Map α) (k : α) :
    step hash eq (clear m) (.get k) = .ok (.got none, clear m) ∧
    step hash eq (clear m) (.remove k) = .ok (.removed, clear m) ∧
    step hash eq (clear m) .size = .ok (.size 0, clear m) := by
  simp [step, get, remove, clear]

/-! ## Iteration -/

theorem next_spec (m : Map α) : ∀ fuel index, m.cap - index < fuel →
    match next m fuel index with
    | none => ((List.range (m.cap - index)).map (index + ·)).filterMap (fun i => (m.data i).map Node.elem) = []
    | some (x, j) => index < j ∧ j ≤ m.cap ∧
        ((List.range (m.cap - index)).map (index + ·)).filterMap (fun i => (m.data i).map Node.elem)
          = x :: ((List.range (m.cap - j)).map (j + ·)).filterMap (fun i => (m.data i).map Node.elem) := by
  intro fuel
  induction fuel with
  | zero => intro i hi; omega
  | succ fuel ih =>
    intro i hi
    unfold next
    by_cases hic : i < m.cap
    · rw [if_pos hic]
      have hsplit : ((List.range (m.cap - i)).map (i + ·))
          = i :: ((List.range (m.cap - (i + 1))).map (i + 1 + ·)) := by
        rw [show m.cap - i = (m.cap - (i + 1)) + 1 by omega, List.range_succ_eq_map]
        simp only [List.map_cons, List.map_map, Nat.add_zero, List.cons.injEq, true_and]
        apply List.map_congr_left
        intro a _
        simp [Function.comp]; omega
      rw [hsplit, List.filterMap_cons]
      cases hd : m.data i with
      | some n =>
        simp only [Option.map_some]
        exact ⟨by omega, by omega, trivial⟩
      | none =>
        have := ih (i + 1) (by omega)
        simp only [Option.map_none]
        cases hn : next m fuel (i + 1) with
        | none => rw [hn] at this; exact this
        | some p =>
          obtain ⟨x, j⟩ := p
          rw [hn] at this
          exact ⟨by omega, this.2.1, this.2.2⟩
    · rw [if_neg hic]
      simp [show m.cap - i = 0 by omega]

theorem iterate_spec (m : Map α) : ∀ fuel index, m.cap - index < fuel →
    iterate m fuel index
      = ((List.range (m.cap - index)).map (index + ·)).filterMap (fun i => (m.data i).map Node.elem) := by
  intro fuel
  induction fuel with
  | zero => intro i hi; omega
  | succ fuel ih =>
    intro i hi
    unfold iterate
    have h := next_spec m (m.cap + 1) i (by omega)
    cases hn : next m (m.cap + 1) i with
    | none => rw [hn] at h; exact h.symm
    | some p =>
      obtain ⟨x, j⟩ := p
      rw [hn] at h
      show x :: iterate m fuel j = _
      obtain ⟨h1, h2, h3⟩ := h
      rw [ih j (by omega), h3]

/-- **C52.** Iterating over the map after any fresh history visits every element exactly once. -/
theorem iteration_visits_each_once {hash : α → Nat} {eq : α → α → Bool} (hc : Compat hash eq) (c : Nat)
    (ops : List (Op α)) (hf : PutsFresh eq [] ops) (m : Map α) (outs : List (Out α))
    (hrun : run hash eq (create α c) ops = .ok (outs, m)) :
    (iterate m (m.cap + 1) 0).Perm (Spec.run eq [] ops).2 := by
  obtain ⟨m0, h0, hi, hp⟩ := run_refines hc ops (create α c) [] (create_inv _ _ c) (by rw [create, elems_empty]) hf
  rw [h0] at hrun
  cases hrun
  rw [iterate_spec m (m.cap + 1) 0 (by omega)]
  simp only [Nat.sub_zero, Nat.zero_add, List.map_id']
  exact hp

example : (iterate (((run (fun n : Nat => n % 3) (fun a b => decide (a = b)) (create Nat 0)
    [.put 1, .put 4, .put 7, .remove 4, .put 9]).getD ([], create Nat 0)).2) 12 0) = [9, 7, 1] := by decide

end Verif.Hmap
