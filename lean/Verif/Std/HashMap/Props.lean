import Verif.Std.HashMap.Lemmas
/-!
# Properties of the standard library's hash map (C33, C34, C53)
-/
namespace Verif.HashMap

open Verif.RH Spec

variable {K V : Type}

/-- One client call, without removal. -/
def step (hash : K → Nat) (eq : K → K → Bool) (m : Map (K × V)) : Op K V → Res (Out V × Map (K × V))
  | .insert k v r => (insert hash eq m k v r).map fun (b, m') => (.inserted b, m')
  | .get k => (get hash eq m k).map fun r => (.value r, m)
  | .contains k => (containsKey hash eq m k).map fun b => (.contains b, m)
  | .size => .ok (.size m.size, m)
  | .clear => .ok (.done, clear m)

def run (hash : K → Nat) (eq : K → K → Bool) : Map (K × V) → List (Op K V) → Res (List (Out V) × Map (K × V))
  | m, [] => .ok ([], m)
  | m, o :: os => (step hash eq m o).bind fun (x, m') => (run hash eq m' os).map fun (xs, m'') => (x :: xs, m'')

theorem step_refines {hash : K → Nat} {eq : K → K → Bool} (hc : Compat hash eq) {m : Map (K × V)} {s : List (K × V)}
    (hi : MInv hash eq m) (hp : (elems m).Perm s) (o : Op K V) :
    ∃ m', step hash eq m o = .ok ((Spec.step eq s o).1, m') ∧ MInv hash eq m' ∧
      (elems m').Perm (Spec.step eq s o).2 := by
  cases o with
  | insert k v r =>
    obtain ⟨m', h1, h2, h3⟩ := insert_ok hc hi k v r hp
    exact ⟨m', by simp [step, h1, Spec.step], h2, h3⟩
  | get k =>
    refine ⟨m, ?_, hi, hp⟩
    rcases getInternal_ok hc hi k hp with ⟨i, n, h1, h2, h3⟩ | ⟨h1, h2⟩
    · simp [step, get, h1, h2, Spec.step, Spec.lookup, h3]
    · simp [step, get, h1, Spec.step, Spec.lookup, h2]
  | contains k =>
    refine ⟨m, ?_, hi, hp⟩
    have hfa : s.any (fun e => eq e.1 k) = (s.find? (fun e => eq e.1 k)).isSome := by
      rw [Bool.eq_iff_iff, List.find?_isSome, List.any_eq_true]
    rcases getInternal_ok hc hi k hp with ⟨i, n, h1, h2, h3⟩ | ⟨h1, h2⟩
    · simp only [step, containsKey, h1, Spec.step, hfa, h3]; rfl
    · simp only [step, containsKey, h1, Spec.step, hfa, h2]; rfl
  | size =>
    refine ⟨m, ?_, hi, hp⟩
    have : m.size = s.length := by rw [← hi.size_eq]; exact hp.length_eq
    simp [step, Spec.step, this]
  | clear =>
    obtain ⟨h1, h2⟩ := clear_ok hi
    exact ⟨clear m, rfl, h1, by simp [h2, Spec.step]⟩

theorem run_refines {hash : K → Nat} {eq : K → K → Bool} (hc : Compat hash eq) :
    ∀ (ops : List (Op K V)) (m : Map (K × V)) (s : List (K × V)), MInv hash eq m → (elems m).Perm s →
    ∃ m', run hash eq m ops = .ok ((Spec.run eq s ops).1, m') ∧ MInv hash eq m' ∧
      (elems m').Perm (Spec.run eq s ops).2 := by
  intro ops
  induction ops with
  | nil => intro m s hi hp; exact ⟨m, rfl, hi, hp⟩
  | cons o os ih =>
    intro m s hi hp
    obtain ⟨m1, h1, hi1, hp1⟩ := step_refines hc hi hp o
    obtain ⟨m2, h2, hi2, hp2⟩ := ih m1 _ hi1 hp1
    exact ⟨m2, by simp [run, h1, h2, Spec.run], hi2, hp2⟩

/-- **C33.** Every history of insert, get, contains, size and clear behaves as a finite map; no loop
runs forever. -/
theorem history_matches_map {hash : K → Nat} {eq : K → K → Bool} (hc : Compat hash eq) (c : Nat)
    (ops : List (Op K V)) :
    ∃ m, run hash eq (init K V c) ops = .ok ((Spec.run eq [] ops).1, m) := by
  obtain ⟨m, h, _⟩ := run_refines hc ops (init K V c) [] (init_inv _ _ c) (by rw [init, elems_empty])
  exact ⟨m, h⟩

example : ∃ m, run (fun n : Nat => n % 3) (fun a b => decide (a = b)) (init Nat Nat 0)
    [.insert 1 10 true, .insert 4 40 true, .insert 1 11 true, .insert 4 41 false, .get 1, .get 4, .contains 7, .size,
      .clear, .insert 7 70 true, .get 7]
    = .ok ([.inserted true, .inserted true, .inserted false, .inserted false, .value (some 11), .value (some 40),
      .contains false, .size 2, .done, .inserted true, .value (some 70)], m) :=
  history_matches_map (compat_eq _) 0 _

/-- **C34 is false of the code**: removing one key can make another one unfindable.  Keys 3, 8, 4,
13 in a table of five slots; removing 3 loses 13 although the size says three entries remain. -/
theorem removal_can_lose_another_key :
    ∃ m m' : Map (Nat × Nat),
      run (fun n => n) (fun a b => decide (a = b)) (init Nat Nat 1)
        [.insert 3 0 true, .insert 8 0 true, .insert 4 0 true, .insert 13 0 true, .contains 13]
        = .ok ([.inserted true, .inserted true, .inserted true, .inserted true, .contains true], m) ∧
      remove (fun n => n) (fun a b => decide (a = b)) m 3 = .ok m' ∧
      containsKey (fun n => n) (fun a b => decide (a = b)) m' 13 = .ok false ∧ m'.size = 3 := by
  let r := run (fun n => n) (fun a b => decide (a = b)) (init Nat Nat 1)
        [.insert 3 0 true, .insert 8 0 true, .insert 4 0 true, .insert 13 0 true, .contains 13]
  let d : List (Out Nat) × Map (Nat × Nat) := ([], init Nat Nat 0)
  have hr : r = .ok (r.getD d) := Res.eq_ok _ (by decide)
  refine ⟨(r.getD d).2, (remove (fun n => n) (fun a b => decide (a = b)) (r.getD d).2 3).getD d.2, ?_,
    Res.eq_ok _ (by decide), by decide, by decide⟩
  show r = _
  rw [hr]
  congr 1

/-- **C34, partial.** After any history of the other operations, if no entry lies before its home
slot (no chain wraps around the end of the array) and the removed key is less than 128 slots from
its home, removal removes that key and nothing else.  (Missing: wrapped chains and longer chains,
for which the code is wrong.) -/
theorem removal_removes_one_key_partial {hash : K → Nat} {eq : K → K → Bool} (hc : Compat hash eq) (c : Nat)
    (ops : List (Op K V)) (outs : List (Out V)) (m : Map (K × V))
    (hrun : run hash eq (init K V c) ops = .ok (outs, m)) (k : K)
    (hu : ∀ i n, i < m.cap → m.data i = some n → n.home ≤ i)
    (hnear : ∀ i n, i < m.cap → m.data i = some n → eq n.elem.1 k = true → i < n.home + 128) :
    ∃ m', remove hash eq m k = .ok m' ∧
      ∀ more, ∃ m'', run hash eq m' more = .ok ((Spec.run eq (Spec.remove eq (Spec.run eq [] ops).2 k) more).1, m'') := by
  obtain ⟨m0, h0, hi, hp⟩ := run_refines hc ops (init K V c) [] (init_inv _ _ c) (by rw [init, elems_empty])
  rw [h0] at hrun
  cases hrun
  obtain ⟨m', h1, h2, h3⟩ := remove_ok hc hi hu k hnear hp
  refine ⟨m', h1, fun more => ?_⟩
  obtain ⟨m'', h4, _⟩ := run_refines hc more m' _ h2 h3
  exact ⟨m'', h4⟩

/-- A table of five slots with an unwrapped chain of two meets the hypotheses. -/
example :
    let m := ((run (fun n => n) (fun a b => decide (a = b)) (init Nat Nat 1)
      [.insert 1 0 true, .insert 6 0 true]).getD ([], init Nat Nat 0)).2
    (∀ i, i < m.cap → ((m.data i).map (fun n => decide (n.home ≤ i))).getD true = true) ∧
      (m.data 1).map (·.elem.1) = some 1 ∧ (m.data 2).map (·.elem.1) = some 6 := by
  decide

/-- **C53 is false of the code**: iterating over a map with more than 128 entries misses one of its
keys. -/
theorem iteration_misses_entries {hash : K → Nat} {eq : K → K → Bool} (hc : Compat hash eq) (c : Nat)
    (ops : List (Op K V)) (outs : List (Out V)) (m : Map (K × V))
    (hrun : run hash eq (init K V c) ops = .ok (outs, m)) (hcap : m.cap ≤ 2 ^ 64 - 128)
    (hbig : 128 < (Spec.run eq [] ops).2.length) :
    ∃ e ∈ (Spec.run eq [] ops).2, ∀ x ∈ each m, eq x.1 e.1 = false := by
  obtain ⟨m0, h0, hi, hp⟩ := run_refines hc ops (init K V c) [] (init_inv _ _ c) (by rw [init, elems_empty])
  rw [h0] at hrun
  cases hrun
  rw [each_eq m hcap]
  have hlen : 128 < (elems m).length := by rw [hp.length_eq]; exact hbig
  have hle := contents_length_le m.cap m.data
  have hcap128 : 128 ≤ m.cap := by unfold elems at hlen; omega
  have hsplit : elems m = contents 128 m.data
      ++ ((List.range (m.cap - 128)).map (128 + ·)).filterMap (fun i => (m.data i).map Node.elem) := by
    unfold elems contents
    rw [← List.filterMap_append, ← List.range_add, Nat.add_sub_of_le (by omega)]
  have hpw := hi.distinct
  change (elems m).Pairwise _ at hpw
  rw [hsplit] at hpw hlen
  have h128 := contents_length_le 128 m.data
  rw [Nat.min_eq_right hcap128]
  cases hr : ((List.range (m.cap - 128)).map (128 + ·)).filterMap (fun i => (m.data i).map Node.elem) with
  | nil => rw [hr] at hlen; simp at hlen; omega
  | cons e rest =>
    rw [hr] at hsplit hpw
    refine ⟨e, hp.mem_iff.mp (by rw [hsplit]; simp), ?_⟩
    intro x hx
    exact (List.pairwise_append.mp hpw).2.2 x hx e (by simp)

/-- One entry suffices: a key that lands in slot 150 is never visited. -/
theorem iteration_can_miss_only_entry :
    ∃ m : Map (Nat × Nat), run (fun n => n) (fun a b => decide (a = b)) (init Nat Nat 150) [.insert 150 7 true, .get 150]
        = .ok ([.inserted true, .value (some 7)], m) ∧ each m = [] := by
  let r := run (fun n => n) (fun a b => decide (a = b)) (init Nat Nat 150) [.insert 150 7 true, .get 150]
  let d : List (Out Nat) × Map (Nat × Nat) := ([], init Nat Nat 0)
  have hr : r = .ok (r.getD d) := Res.eq_ok _ (by decide)
  refine ⟨(r.getD d).2, ?_, by decide⟩
  show r = _
  rw [hr]
  congr 1

/-- **C53, partial.** While the capacity is at most 128 (at most 90 entries and no larger initial
capacity), iteration visits every entry exactly once.  (Missing: larger capacities.) -/
theorem iteration_visits_each_once_partial {hash : K → Nat} {eq : K → K → Bool} (hc : Compat hash eq) (c : Nat)
    (ops : List (Op K V)) (outs : List (Out V)) (m : Map (K × V))
    (hrun : run hash eq (init K V c) ops = .ok (outs, m)) (hcap : m.cap ≤ 128) :
    (each m).Perm (Spec.run eq [] ops).2 := by
  obtain ⟨m0, h0, hi, hp⟩ := run_refines hc ops (init K V c) [] (init_inv _ _ c) (by rw [init, elems_empty])
  rw [h0] at hrun
  cases hrun
  rw [each_eq m (by omega), Nat.min_eq_left hcap]
  exact hp

example : each (((run (fun n => n) (fun a b => decide (a = b)) (init Nat Nat 0)
    [.insert 7 1 true, .insert 2 5 true]).getD ([], init Nat Nat 0)).2) = [(7, 1), (2, 5)] := by decide

/-- **C54 is false of the code**: `HashMap.map` never returns on a map that has slots. -/
theorem map_never_returns (m : Map (K × V)) (h : 0 < m.cap) (fuel : Nat) (acc : List (K × V)) :
    mapLoop m fuel acc = none := by
  induction fuel generalizing acc with
  | zero => rfl
  | succ fuel ih =>
    unfold mapLoop
    rw [if_pos h]
    cases m.data 0 <;> exact ih _

/-- Every map made by `init` has slots. -/
example : 0 < (init Nat Nat 0).cap := by decide

/-- **C54 (partial).** On a map without slots, as `clear` leaves it, `map` returns the image of the entries: nothing.
Missing: every other map, for which see `map_never_returns`. -/
theorem map_of_cleared_partial (m : Map (K × V)) (fuel : Nat) :
    mapLoop (clear m) (fuel + 1) [] = some [] := by
  have h : (clear m).cap = 0 := by
    unfold clear; split
    · rfl
    · rename_i hc; simpa using hc
  unfold mapLoop
  rw [if_neg (by omega)]

example : (clear (init Nat Nat 0)).cap = 0 ∧ 0 < (init Nat Nat 0).cap := by decide

end Verif.HashMap
