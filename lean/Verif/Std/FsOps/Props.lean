import Verif.Std.FsOps.Model
/-!
# Removing files and directories: properties
-/
namespace Verif.FsOps

/-! ## A tree -/

mutual
/-- What is below an object, over directories only: `Tree fs h i S` says that this is a tree of height at most `h` with the objects `S`,
and that all links in it lead to files. -/
inductive Tree (fs : FS) : Nat → Nat → List Nat → Prop where
  | file {h i : Nat} : fs i = .file → Tree fs h i [i]
  | link {h i j : Nat} : fs i = .link (some j) → fs j = .file → Tree fs h i [i]
  | dir {h i : Nat} {es : List (Nat × Nat)} {S : List Nat} : fs i = .dir es → Trees fs h es S → i ∉ S → Tree fs (h + 1) i (i :: S)

/-- The same for the entries of a directory: names differ, and no object is found twice. -/
inductive Trees (fs : FS) : Nat → List (Nat × Nat) → List Nat → Prop where
  | nil {h : Nat} : Trees fs h [] []
  | cons {h name i : Nat} {es : List (Nat × Nat)} {S T : List Nat} : Tree fs h i S → Trees fs h es T → (∀ x ∈ S, x ∉ T) →
      (∀ e ∈ es, e.1 ≠ name) → Trees fs h ((name, i) :: es) (S ++ T)
end

mutual
theorem Tree.frame {fs fs' : FS} {h i : Nat} {S : List Nat} (t : Tree fs h i S) (same : ∀ x ∈ S, fs' x = fs x)
    (files : ∀ x, fs x = .file → fs' x = .file) : Tree fs' h i S := by
  cases t with
  | file e => exact .file (files _ e)
  | link e f => exact .link ((same i (List.mem_singleton.2 rfl)).trans e) (files _ f)
  | dir e ts hn =>
    exact .dir ((same i List.mem_cons_self).trans e) (ts.frame (fun x hx => same x (List.mem_cons_of_mem _ hx)) files) hn

theorem Trees.frame {fs fs' : FS} {h : Nat} {es : List (Nat × Nat)} {S : List Nat} (t : Trees fs h es S) (same : ∀ x ∈ S, fs' x = fs x)
    (files : ∀ x, fs x = .file → fs' x = .file) : Trees fs' h es S := by
  cases t with
  | nil => exact .nil
  | cons t ts hd hn =>
    exact .cons (t.frame (fun x hx => same x (List.mem_append.2 (.inl hx))) files)
      (ts.frame (fun x hx => same x (List.mem_append.2 (.inr hx))) files) hd hn
end

theorem Tree.self {fs : FS} {h i : Nat} {S : List Nat} (t : Tree fs h i S) : i ∈ S := by
  cases t <;> simp

theorem filter_names {es : List (Nat × Nat)} {name : Nat} (h : ∀ e ∈ es, e.1 ≠ name) : es.filter (fun e => e.1 != name) = es := by
  rw [List.filter_eq_self]; intro e he; simpa using h e he

/-- The result of removing a tree: the name is gone, and nothing outside the tree has changed. -/
def Removed (fs fs' : FS) (d name : Nat) (S : List Nat) : Prop :=
  fs' d = .dir ((fs.entries d).filter (fun e => e.1 != name)) ∧ (∀ x, x ≠ d → x ∉ S → fs' x = fs x) ∧
    (∀ x, fs x = .file → fs' x = .file)

theorem removed_unlink {fs : FS} {d name : Nat} {es : List (Nat × Nat)} (hd : fs d = .dir es) (S : List Nat) :
    Removed fs (fs.unlink d name) d name S := by
  refine ⟨upd_same _ _ _, fun x hx _ => upd_ne _ _ hx, fun x hx => ?_⟩
  have : x ≠ d := fun e => by rw [e, hd] at hx; cases hx
  rw [FS.unlink, upd_ne _ _ this]; exact hx

theorem entries_of {fs : FS} {d : Nat} {es : List (Nat × Nat)} (hd : fs d = .dir es) : fs.entries d = es := by
  unfold FS.entries; rw [hd]

theorem follow_dir {fs : FS} {i : Nat} {es : List (Nat × Nat)} (h : fs i = .dir es) : fs.follow i = some i := by
  unfold FS.follow; rw [h]

/-- All entries of a directory that holds trees are removed, given that each is. -/
theorem fold_removes (n : Nat)
    (one : ∀ (h : Nat) (fs : FS) (d name i : Nat) (S : List Nat) (ds : List (Nat × Nat)), h < n → Tree fs h i S → fs d = .dir ds →
      ds.lookup name = some i → d ∉ S → ∃ fs', remove true n fs d name = some (fs', true) ∧ Removed fs fs' d name S)
    (j h : Nat) (hn : h < n) : ∀ (es : List (Nat × Nat)) (S : List Nat) (fs : FS), Trees fs h es S → fs j = .dir es → j ∉ S →
      ∃ fs', es.foldlM (fun fs e => (remove true n fs j e.1).map Prod.fst) fs = some fs' ∧ fs' j = .dir [] ∧
        (∀ x, x ≠ j → x ∉ S → fs' x = fs x) ∧ ∀ x, fs x = .file → fs' x = .file
  | [], _, fs, _, hj, _ => ⟨fs, rfl, hj, fun _ _ _ => rfl, fun _ h => h⟩
  | (name, i) :: es, _, fs, .cons (S := S) (T := T) t ts hd hne, hj, hns => by
    have hjS : j ∉ S := fun h => hns (List.mem_append.2 (.inl h))
    have hjT : j ∉ T := fun h => hns (List.mem_append.2 (.inr h))
    obtain ⟨fs1, e1, r1, r2, r3⟩ := one h fs j name i S ((name, i) :: es) hn t hj (by simp [List.lookup]) hjS
    rw [entries_of hj] at r1
    have r1 : fs1 j = .dir es := by rw [r1]; simp [filter_names hne]
    have ts1 : Trees fs1 h es T := ts.frame (fun x hx => r2 x (fun e => hjT (e ▸ hx)) (fun hs => hd x hs hx)) r3
    obtain ⟨fs2, e2, q1, q2, q3⟩ := fold_removes n one j h hn es T fs1 ts1 r1 hjT
    refine ⟨fs2, ?_, q1, ?_, fun x hx => q3 x (r3 x hx)⟩
    · simp only [List.foldlM_cons, e1, Option.map_some, Option.bind_eq_bind, Option.bind_some]; exact e2
    · intro x hx hns'
      rw [q2 x hx (fun h => hns' (List.mem_append.2 (.inr h))), r2 x hx (fun h => hns' (List.mem_append.2 (.inl h)))]

theorem remove_tree : ∀ (n h : Nat) (fs : FS) (d name i : Nat) (S : List Nat) (ds : List (Nat × Nat)), h < n → Tree fs h i S →
    fs d = .dir ds → ds.lookup name = some i → d ∉ S → ∃ fs', remove true n fs d name = some (fs', true) ∧ Removed fs fs' d name S := by
  intro n
  induction n with
  | zero => intro h _ _ _ _ _ _ hh; omega
  | succ n ih =>
    intro h fs d name i S ds hh t hd hl hns
    have hf : fs.find d name = some i := by unfold FS.find; rw [entries_of hd]; exact hl
    rw [remove, hf]
    cases t with
    | file e =>
      have : fs.follow i = some i := by unfold FS.follow; rw [e]
      simp only [this, e]
      exact ⟨_, rfl, removed_unlink hd _⟩
    | @link _ _ j e f =>
      have : fs.follow i = some j := by unfold FS.follow; rw [e]
      simp only [this, f]
      exact ⟨_, rfl, removed_unlink hd _⟩
    | @dir h _ es S e ts hi =>
      simp only [follow_dir e, e]
      cases es with
      | nil =>
        refine ⟨fs.unlink d name, ?_, removed_unlink hd _⟩
        simp [FS.rmdir, e]
      | cons x es =>
        obtain ⟨fs1, e1, q1, q2, q3⟩ := fold_removes n ih i h (by omega) (x :: es) S fs ts e hi
        simp only [if_true, e1]
        have hdi : d ≠ i := fun h => hns (by simp [h])
        have hdS : d ∉ S := fun h => hns (List.mem_cons_of_mem _ h)
        have hd1 : fs1 d = .dir ds := by rw [q2 d hdi hdS]; exact hd
        refine ⟨fs1.unlink d name, by simp [FS.rmdir, q1], ?_, ?_, ?_⟩
        · rw [FS.unlink, upd_same, entries_of hd1, entries_of hd]
        · intro y hy hyS
          rw [FS.unlink, upd_ne _ _ hy]
          exact q2 y (fun h => hyS (by simp [h])) (fun h => hyS (List.mem_cons_of_mem _ h))
        · intro y hy
          have : y ≠ d := fun h => by rw [h, hd] at hy; cases hy
          rw [FS.unlink, upd_ne _ _ this]
          exact q3 y hy

/-- **A tree without links to directories is removed, and nothing else.** If each link in a tree leads to a file, then removing it
succeeds, its name is gone from the directory it was in, and no directory outside it has changed. -/
theorem remove_tree_partial {fs : FS} {h d name i : Nat} {S : List Nat} {ds : List (Nat × Nat)} (t : Tree fs h i S) (hd : fs d = .dir ds)
    (hl : ds.lookup name = some i) (hns : d ∉ S) :
    ∃ fs', remove true (h + 1) fs d name = some (fs', true) ∧ fs' d = .dir (ds.filter (fun e => e.1 != name)) ∧
      (∀ x, x ≠ d → x ∉ S → fs' x = fs x) := by
  obtain ⟨fs', e, r1, r2, _⟩ := remove_tree (h + 1) h fs d name i S ds (by omega) t hd hl hns
  exact ⟨fs', e, by rw [r1, entries_of hd], r2⟩

/-! ## Links to directories -/

/-- **Removing a link to a directory removes what is in the directory.** If the name is a link to a directory with something in it,
wherever that directory is, then it is emptied, the link stays, and an exception is raised. -/
theorem link_followed {fs : FS} {h d name i j : Nat} {S : List Nat} {ds es : List (Nat × Nat)} (hd : fs d = .dir ds)
    (hl : ds.lookup name = some i) (hi : fs i = .link (some j)) (hj : fs j = .dir es) (ne : es ≠ []) (ts : Trees fs h es S) (hjS : j ∉ S)
    (hiS : i ∉ S) :
    ∃ fs', remove true (h + 2) fs d name = some (fs', false) ∧ fs' j = .dir [] ∧ fs' i = .link (some j) := by
  have hf : fs.find d name = some i := by unfold FS.find; rw [entries_of hd]; exact hl
  have hfo : fs.follow i = some j := by unfold FS.follow; rw [hi]
  have hij : i ≠ j := fun e => by rw [e, hj] at hi; cases hi
  obtain ⟨fs1, e1, q1, q2, _⟩ := fold_removes (h + 1) (fun h' => remove_tree (h + 1) h') j h (by omega) es S fs ts hj hjS
  have hi1 : fs1 i = .link (some j) := by rw [q2 i hij hiS]; exact hi
  refine ⟨fs1, ?_, q1, hi1⟩
  rw [remove, hf]
  simp only [hfo, hj]
  cases es with
  | nil => exact absurd rfl ne
  | cons x es => simp only [if_true, e1]; simp [FS.rmdir, hi1]

/-- **A link that leads nowhere cannot be removed**: there is no exception, and nothing happens. -/
theorem dangling_stays (b : Bool) {fs : FS} {d name i : Nat} {ds : List (Nat × Nat)} (hd : fs d = .dir ds)
    (hl : ds.lookup name = some i) (hi : fs i = .link none) (n : Nat) : remove b (n + 1) fs d name = some (fs, true) := by
  have hf : fs.find d name = some i := by unfold FS.find; rw [entries_of hd]; exact hl
  have hfo : fs.follow i = none := by unfold FS.follow; rw [hi]
  rw [remove, hf]
  simp only [hfo]

/-! ## Not recursive -/

/-- **Without `recursive` at most the name itself goes**: the file system is as before, or without the name and the name was not a
directory with something in it. -/
theorem plain_removes_one {fs fs' : FS} {d name n : Nat} {ok : Bool} (h : remove false (n + 1) fs d name = some (fs', ok)) :
    fs' = fs ∨ (ok = true ∧ fs' = fs.unlink d name ∧ ∃ i, fs.find d name = some i ∧ fs.entries i = []) := by
  rw [remove] at h
  split at h
  · simp at h; exact .inl h.1.symm
  · rename_i i hf
    split at h
    · simp at h; exact .inl h.1.symm
    · rename_i j hj
      split at h
      · rename_i hdir
        unfold FS.rmdir at h
        split at h
        · rename_i hi
          simp at h
          exact .inr ⟨h.2, h.1.symm, i, hf, by unfold FS.entries; rw [hi]⟩
        · simp at h; exact .inl h.1.symm
      · simp at h; exact .inl h.1.symm
      · rename_i hnd hnd2
        simp at h
        refine .inr ⟨h.2, h.1.symm, i, hf, ?_⟩
        unfold FS.entries
        cases hi : fs i with
        | file => rfl
        | link t => rfl
        | dir es =>
          unfold FS.follow at hj
          rw [hi] at hj
          simp at hj
          subst hj
          exact absurd hi (hnd2 es)

/-- A directory with something in it is refused. -/
theorem plain_refuses {fs : FS} {d name i n : Nat} {e : Nat × Nat} {es : List (Nat × Nat)} (hf : fs.find d name = some i)
    (hi : fs i = .dir (e :: es)) : remove false (n + 1) fs d name = some (fs, false) := by
  rw [remove, hf]
  simp [follow_dir hi, hi]

/-! ## Questions -/

/-- Links lead to what is not a link (all links on the way are followed). -/
def Final (fs : FS) : Prop := ∀ i j, fs i = .link (some j) → (fs j).kind ≠ .link

theorem stat_ne_link {fs : FS} (hf : Final fs) {i : Nat} {s : Kind} (h : fs.stat i = some s) : s ≠ .link := by
  unfold FS.stat FS.follow at h
  cases hi : fs i with
  | file => rw [hi] at h; simp [hi, Inode.kind] at h; rw [← h]; exact Kind.noConfusion
  | dir es => rw [hi] at h; simp [hi, Inode.kind] at h; rw [← h]; exact Kind.noConfusion
  | link t =>
    rw [hi] at h
    cases t with
    | none => cases h
    | some j => simp at h; rw [← h]; exact hf i j hi

/-- **A file or a directory is told from other things**, also behind a link. -/
theorem is_right {fs : FS} (hf : Final fs) (i : Nat) :
    (is .file fs i = true ↔ ∃ j, (j = i ∨ fs i = .link (some j)) ∧ fs j = .file) ∧
    (is .dir fs i = true ↔ ∃ j es, (j = i ∨ fs i = .link (some j)) ∧ fs j = .dir es) := by
  have key : ∀ k, k ≠ .link → (is k fs i = true ↔ ∃ j, (j = i ∨ fs i = .link (some j)) ∧ (fs j).kind = k) := by
    intro k hk
    constructor
    · intro h
      unfold is at h
      cases hs : fs.stat i with
      | none => rw [hs] at h; cases h
      | some s =>
        rw [hs] at h
        simp only [if_neg (stat_ne_link hf hs)] at h
        split at h
        · rename_i e
          unfold FS.stat at hs
          obtain ⟨j, hj, hs⟩ := Option.map_eq_some_iff.1 hs
          refine ⟨j, ?_, hs.trans e⟩
          unfold FS.follow at hj
          split at hj
          · rename_i hi; rw [hj] at hi; exact .inr hi
          · simp at hj; exact .inl hj.symm
        · cases h
    · rintro ⟨j, hj, e⟩
      have hs : fs.stat i = some k := by
        unfold FS.stat
        rcases hj with rfl | hj
        · have : fs.follow j = some j := by
            unfold FS.follow
            split
            · rename_i hl; rw [hl] at e; exact absurd e.symm hk
            · rfl
          rw [this, ← e]; rfl
        · have : fs.follow i = some j := by unfold FS.follow; rw [hj]
          rw [this, ← e]; rfl
      unfold is
      simp [hs]
  refine ⟨(key .file Kind.noConfusion).trans ?_, (key .dir Kind.noConfusion).trans ?_⟩
  · constructor
    · rintro ⟨j, h, e⟩; exact ⟨j, h, by cases hj : fs j <;> rw [hj] at e <;> simp_all [Inode.kind]⟩
    · rintro ⟨j, h, e⟩; exact ⟨j, h, by rw [e]; rfl⟩
  · constructor
    · rintro ⟨j, h, e⟩
      cases hj : fs j with
      | dir es => exact ⟨j, es, h, hj⟩
      | file => rw [hj] at e; cases e
      | link t => rw [hj] at e; cases e
    · rintro ⟨j, es, h, e⟩; exact ⟨j, h, by rw [e]; rfl⟩

/-- **Nothing is ever a link**: `islink` asks behind the link. -/
theorem islink_never {fs : FS} (hf : Final fs) (i : Nat) : islink fs i = false := by
  unfold islink
  split
  · rfl
  · rename_i s hs
    simpa using stat_ne_link hf hs

/-! ## Cases -/

/-- 0 is a directory with `tmp` (100) and `home` (101); `tmp` holds a file (200) and a directory (201) with a file (300). -/
def demo : FS := fun i => match i with
  | 0 => .dir [(100, 1), (101, 2)]
  | 1 => .dir [(200, 3), (201, 4)]
  | 2 => .dir [(400, 6)]
  | 4 => .dir [(300, 5)]
  | 7 => .link (some 2)
  | _ => .file

example : Tree demo 2 1 [1, 3, 4, 5] ∧ 0 ∉ [1, 3, 4, 5] :=
  ⟨.dir rfl (.cons (S := [3]) (.file rfl) (.cons (S := [4, 5]) (.dir rfl (.cons (S := [5]) (.file rfl) .nil (by decide) (by decide))
    (by decide)) .nil (by decide) (by decide)) (by decide) (by decide)) (by decide), by decide⟩

/-- With a link `home2` (202) to `home` in `tmp`: what is in `home` is removed with `tmp`, and `tmp` stays. -/
def linked : FS := upd demo 1 (.dir [(200, 3), (202, 7)])

example : (remove true 5 linked 0 100).map (fun r => (r.1.entries 0, r.1.entries 1, r.1.entries 2, r.2)) =
    some ([(100, 1), (101, 2)], [(202, 7)], [], false) := rfl

example : linked 1 = .dir [(200, 3), (202, 7)] ∧ linked 7 = .link (some 2) ∧ linked 2 = .dir [(400, 6)] ∧
    Trees linked 0 [(400, 6)] [6] :=
  ⟨rfl, rfl, rfl, .cons (S := [6]) (.file rfl) .nil (by decide) (by decide)⟩

example : remove false 3 demo 0 100 = some (demo, false) := plain_refuses (e := (200, 3)) (es := [(201, 4)]) (i := 1) rfl rfl

example : ∃ fs', remove false 1 demo 1 200 = some (fs', true) ∧ fs'.entries 1 = [(201, 4)] := ⟨_, rfl, rfl⟩

example (n : Nat) : remove true (n + 1) (upd demo 3 (.link none)) 1 200 = some (upd demo 3 (.link none), true) :=
  dangling_stays true (ds := [(200, 3), (201, 4)]) rfl rfl rfl n

example : Final linked := by
  intro i j h
  match i with
  | 0 => simp [linked, upd, demo] at h
  | 1 => simp [linked, upd] at h
  | 2 => simp [linked, upd, demo] at h
  | 3 => simp [linked, upd, demo] at h
  | 4 => simp [linked, upd, demo] at h
  | 5 => simp [linked, upd, demo] at h
  | 6 => simp [linked, upd, demo] at h
  | 7 => simp [linked, upd, demo] at h; subst h; simp [linked, upd, demo, Inode.kind]
  | n + 8 => simp [linked, upd, demo] at h

example : is .dir linked 7 = true ∧ islink linked 7 = false ∧ linked 7 = .link (some 2) := ⟨rfl, rfl, rfl⟩

end Verif.FsOps
