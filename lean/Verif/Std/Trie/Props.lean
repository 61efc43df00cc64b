import Verif.Std.Trie.Model
/-! # C32: the trie -/
namespace Verif.Trie

variable {α : Type}

/-- Specification: what was added for a key. -/
def lookup (key : List Nat) (added : List (List Nat × α)) : Option α := (added.find? fun p => p.1 = key).map Prod.snd

/-- The node at the end of a path. -/
def walk (h : Heap α) (n : Nat) : List Nat → Option Nat
  | [] => some n
  | c :: cs => (h.child n c).bind fun m => walk h m cs

/-- The heap is a tree: every node has one path from the root. -/
structure Tree (h : Heap α) (path : Nat → List Nat) : Prop where
  pos : 0 < h.next
  root : path 0 = []
  child : ∀ n c m, h.child n c = some m → m < h.next ∧ n < h.next ∧ path m = path n ++ [c]
  fresh : ∀ n, h.next ≤ n → h.data n = none

theorem walk_path {h : Heap α} {path : Nat → List Nat} (t : Tree h path) : ∀ (key : List Nat) (n m : Nat), n < h.next →
    walk h n key = some m → path m = path n ++ key ∧ m < h.next
  | [], n, m, hn, hw => by simp [walk] at hw; subst hw; simp [hn]
  | c :: cs, n, m, hn, hw => by
    rw [walk] at hw
    cases e : h.child n c with
    | none => rw [e] at hw; simp at hw
    | some k =>
      rw [e] at hw
      obtain ⟨h1, _, h2⟩ := t.child n c k e
      obtain ⟨h3, h4⟩ := walk_path t cs k m h1 hw
      exact ⟨by rw [h3, h2]; simp, h4⟩

theorem walk_append (h : Heap α) : ∀ (k1 k2 : List Nat) (n : Nat), walk h n (k1 ++ k2) = (walk h n k1).bind fun m => walk h m k2
  | [], _, _ => rfl
  | c :: cs, k2, n => by
    simp only [List.cons_append, walk]
    cases h.child n c with
    | none => rfl
    | some m => exact walk_append h cs k2 m

/-- Adding a child keeps the tree, every node reached and every datum. -/
theorem addChild_tree {h : Heap α} {path : Nat → List Nat} (t : Tree h path) (n c : Nat) (hn : n < h.next) :
    ∃ path', Tree (addChild h n c).2 path' ∧ (∀ k, k < h.next → path' k = path k) ∧
      (addChild h n c).2.child n c = some (addChild h n c).1 ∧ (addChild h n c).1 < (addChild h n c).2.next ∧
      h.next ≤ (addChild h n c).2.next ∧
      (∀ n' c' m, h.child n' c' = some m → (addChild h n c).2.child n' c' = some m) ∧
      (∀ n' c' m, (addChild h n c).2.child n' c' = some m → h.child n' c' = some m ∨ h.next ≤ m) ∧
      (∀ k, (addChild h n c).2.data k = h.data k) := by
  unfold addChild
  cases e : h.child n c with
  | some m =>
    exact ⟨path, t, fun _ _ => rfl, e, (t.child n c m e).1, Nat.le_refl _, fun _ _ _ h => h, fun _ _ _ h => .inl h, fun _ => rfl⟩
  | none =>
    refine ⟨fun k => if k = h.next then path n ++ [c] else path k, ⟨by simp, ?_, ?_, ?_⟩, ?_, by simp, by simp, by simp, ?_, ?_, ?_⟩
    · have := t.pos
      rw [if_neg (by omega), t.root]
    · intro n' c' m hm
      simp only [] at hm ⊢
      split at hm
      · rename_i hc
        cases hm
        rw [if_pos rfl, hc.1, hc.2, if_neg (by omega)]
        exact ⟨by omega, by omega, rfl⟩
      · split at hm
        · cases hm
        · obtain ⟨h1, h2, h3⟩ := t.child n' c' m hm
          rw [if_neg (by omega), if_neg (by omega)]
          exact ⟨by omega, by omega, h3⟩
    · intro k hk
      simp only [] at hk ⊢
      rw [if_neg (by omega)]
      exact t.fresh k (by omega)
    · intro k hk
      simp only []
      rw [if_neg (by omega)]
    · intro n' c' m hm
      simp only []
      obtain ⟨_, h2, _⟩ := t.child n' c' m hm
      rw [if_neg (by rintro ⟨rfl, rfl⟩; rw [e] at hm; cases hm), if_neg (by omega)]
      exact hm
    · intro n' c' m hm
      simp only [] at hm
      split at hm
      · cases hm; exact .inr (Nat.le_refl _)
      · split at hm
        · cases hm
        · exact .inl hm
    · intro k
      simp only []
      split
      · rename_i hk; rw [hk, t.fresh _ (Nat.le_refl _)]
      · rfl

theorem addPath_tree : ∀ (key : List Nat) {h : Heap α} {path : Nat → List Nat} (_ : Tree h path) (n : Nat) (_ : n < h.next),
    ∃ path', Tree (addPath h n key).2 path' ∧
      walk (addPath h n key).2 n key = some (addPath h n key).1 ∧
      (addPath h n key).1 < (addPath h n key).2.next ∧
      h.next ≤ (addPath h n key).2.next ∧
      (∀ n' c' m, h.child n' c' = some m → (addPath h n key).2.child n' c' = some m) ∧
      (∀ n' c' m, (addPath h n key).2.child n' c' = some m → h.child n' c' = some m ∨ h.next ≤ m) ∧
      (∀ k, (addPath h n key).2.data k = h.data k)
  | [], h, path, t, n, hn => ⟨path, t, rfl, hn, Nat.le_refl _, fun _ _ _ h => h, fun _ _ _ h => .inl h, fun _ => rfl⟩
  | c :: cs, h, path, t, n, hn => by
    obtain ⟨p1, t1, _, hc1, hn1, hx1, hm1, hb1, hd1⟩ := addChild_tree t n c hn
    obtain ⟨p2, t2, hw2, hn2, hx2, hm2, hb2, hd2⟩ := addPath_tree cs t1 _ hn1
    refine ⟨p2, t2, ?_, hn2, by rw [addPath]; omega, fun n' c' m h => hm2 _ _ _ (hm1 _ _ _ h),
      fun n' c' m h => ?_, fun k => by rw [addPath, hd2, hd1]⟩
    · rw [addPath, walk, hm2 _ _ _ hc1]
      exact hw2
    · rcases hb2 _ _ _ h with h | h
      · exact hb1 _ _ _ h
      · right; omega

/-- The datum stored at a key. -/
def stored (h : Heap α) (key : List Nat) : Option α := (walk h 0 key).bind h.data

theorem walk_mono {h h' : Heap α} (hm : ∀ n c m, h.child n c = some m → h'.child n c = some m) : ∀ (key : List Nat) (n m : Nat),
    walk h n key = some m → walk h' n key = some m
  | [], _, _, h => h
  | c :: cs, n, m, hw => by
    rw [walk] at hw ⊢
    cases e : h.child n c with
    | none => rw [e] at hw; simp at hw
    | some k => rw [e] at hw; rw [hm _ _ _ e]; exact walk_mono hm cs k m hw

/-- In a larger heap, a path that did not exist ends in a new node. -/
theorem walk_new {h h' : Heap α} {path : Nat → List Nat} (t : Tree h path)
    (hb : ∀ n c m, h'.child n c = some m → h.child n c = some m ∨ h.next ≤ m) : ∀ (key : List Nat) (n m : Nat),
    walk h' n key = some m → (h.next ≤ n ∨ walk h n key = none) → h.next ≤ m
  | [], n, m, hw, ho => by
    simp [walk] at hw ho
    omega
  | c :: cs, n, m, hw, ho => by
    rw [walk] at hw ho
    cases e : h'.child n c with
    | none => rw [e] at hw; simp at hw
    | some k =>
      rw [e] at hw
      refine walk_new t hb cs k m hw ?_
      rcases hb _ _ _ e with e2 | e2
      · rw [e2] at ho
        have := t.child _ _ _ e2
        exact .inr (ho.resolve_left (by omega))
      · exact .inl e2

/-- One addition: it fails exactly when the key is there, and otherwise changes that key only. -/
theorem add_stored {h : Heap α} {path : Nat → List Nat} (t : Tree h path) (key : List Nat) (d : α) :
    (stored h key ≠ none → add h key d = none) ∧
    (stored h key = none → ∃ h' path', add h key d = some h' ∧ Tree h' path' ∧
      ∀ k, stored h' k = if k = key then some d else stored h k) := by
  obtain ⟨p, t', hw, hn, hx, hm, hb, hd⟩ := addPath_tree key t 0 t.pos
  have hkeep : ∀ k, stored (addPath h 0 key).2 k = stored h k := by
    intro k
    unfold stored
    cases e : walk h 0 k with
    | some m => rw [walk_mono hm k 0 m e]; simp [hd]
    | none =>
      cases e' : walk (addPath h 0 key).2 0 k with
      | none => rfl
      | some m =>
        simp only [Option.bind_some, Option.bind_none]
        rw [hd]
        exact t.fresh m (walk_new t hb k 0 m e' (.inr e))
  have hk := hkeep key
  have hk2 : stored (addPath h 0 key).2 key = (addPath h 0 key).2.data (addPath h 0 key).1 := by
    unfold stored; rw [hw]; rfl
  unfold add
  simp only []
  rw [← hk2, hk]
  constructor
  · intro hne
    cases e : stored h key with
    | none => exact absurd e hne
    | some _ => rfl
  · intro hnone
    rw [hnone]
    refine ⟨_, p, rfl, ⟨t'.pos, t'.root, t'.child, fun n hn' => ?_⟩, fun k => ?_⟩
    · simp only [] at hn' ⊢
      rw [if_neg (by omega)]
      exact t'.fresh n hn'
    · have hwalk : ∀ (k : List Nat) (n : Nat) (f : Nat → Option α), walk { (addPath h 0 key).2 with data := f } n k = walk (addPath h 0 key).2 n k := by
        intro k
        induction k with
        | nil => intros; rfl
        | cons c cs ih =>
          intro n f
          simp only [walk]
          cases (addPath h 0 key).2.child n c with
          | none => rfl
          | some m => exact ih m f
      unfold stored at hkeep ⊢
      rw [hwalk]
      by_cases hkk : k = key
      · rw [if_pos hkk, hkk, hw]; simp
      · rw [if_neg hkk, ← hkeep k]
        cases e : walk (addPath h 0 key).2 0 k with
        | none => rfl
        | some m =>
          simp only [Option.bind_some]
          rw [if_neg]
          intro hmm
          have h1 := (walk_path t' k 0 m t'.pos e).1
          have h2 := (walk_path t' key 0 _ t'.pos hw).1
          rw [hmm, h2, t'.root] at h1
          simp at h1
          exact hkk h1.symm

/-- The search finds the datum at the end of the key, for keys that are not empty. -/
theorem find_stored (h : Heap α) : ∀ (cs : List Nat) (n i : Nat) (found : Option (Nat × α)),
    (∀ r, found = some r → r.1 ≤ i) → cs ≠ [] →
    (match findLoop h n i found cs with
      | some (j, d) => if j = i + cs.length then some d else none
      | none => none) = (walk h n cs).bind h.data
  | [c], n, i, found, hf, _ => by
    simp only [findLoop, walk]
    cases e : h.child n c with
    | none =>
      cases found with
      | none => rfl
      | some r => have := hf r rfl; simp; intro hh; omega
    | some m =>
      simp only [findLoop, Option.bind_some, walk]
      cases e2 : h.data m with
      | some d => simp
      | none =>
        cases found with
        | none => rfl
        | some r => have := hf r rfl; simp; intro hh; omega
  | c :: c' :: cs, n, i, found, hf, _ => by
    rw [findLoop, walk]
    cases e : h.child n c with
    | none =>
      cases found with
      | none => rfl
      | some r => have := hf r rfl; simp; intro hh; omega
    | some m =>
      simp only [Option.bind_some]
      have := find_stored h (c' :: cs) m (i + 1) (match h.data m with | some d => some (i + 1, d) | none => found) ?_ (by simp)
      · rw [← this]
        have hl : i + (c :: c' :: cs).length = i + 1 + (c' :: cs).length := by simp only [List.length_cons]; omega
        simp only [hl]
        rfl
      · intro r hr
        split at hr
        · cases hr; exact Nat.le_refl _
        · have := hf r hr; omega

theorem find_eq (h : Heap α) (key : List Nat) (hne : key ≠ []) : find h key = stored h key := by
  have := find_stored h key 0 0 none (by simp) hne
  rw [Nat.zero_add] at this
  exact this

theorem find_empty (h : Heap α) : find h [] = none := rfl

theorem new_tree : Tree (new α) (fun _ => []) := ⟨by simp [new], rfl, by simp [new], fun _ _ => rfl⟩

theorem new_stored (k : List Nat) : stored (new α) k = none := by
  cases k with
  | nil => rfl
  | cons c cs => simp [stored, walk, new]

theorem addAll_stored : ∀ (added : List (List Nat × α)) {h : Heap α} {path : Nat → List Nat} (_ : Tree h path),
    (added.map Prod.fst).Nodup → (∀ p ∈ added, stored h p.1 = none) →
    ∃ h', addAll h added = some h' ∧ (∃ path', Tree h' path') ∧
      ∀ k, stored h' k = match lookup k added with | some d => some d | none => stored h k
  | [], h, path, t, _, _ => ⟨h, rfl, ⟨path, t⟩, fun k => by simp [lookup]⟩
  | (k0, d) :: rest, h, path, t, hn, hs => by
    simp only [List.map_cons, List.nodup_cons] at hn
    obtain ⟨h1, p1, e1, t1, hs1⟩ := (add_stored t k0 d).2 (hs (k0, d) (by simp))
    have hne : ∀ p ∈ rest, p.1 ≠ k0 := fun p hp e => hn.1 (List.mem_map.2 ⟨p, hp, e⟩)
    obtain ⟨h2, e2, t2, hs2⟩ := addAll_stored rest t1 hn.2 (fun p hp => by
      rw [hs1, if_neg (hne p hp)]; exact hs p (by simp [hp]))
    refine ⟨h2, by rw [addAll, e1]; exact e2, t2, fun k => ?_⟩
    rw [hs2 k]
    by_cases hk : k = k0
    · have hl : lookup k rest = none := by
        unfold lookup
        simp only [Option.map_eq_none_iff, List.find?_eq_none]
        intro p hp
        simpa [hk] using hne p hp
      rw [hl, hs1, if_pos hk]
      simp [lookup, hk]
    · have : lookup k ((k0, d) :: rest) = lookup k rest := by
        unfold lookup
        rw [List.find?_cons_of_neg]
        simpa using fun e => hk e.symm
      rw [this, hs1, if_neg hk]

/-- **C32 (partial).** After any additions of distinct keys, looking up any key but the empty one gives the datum
that was added for it, or nothing, whatever prefixes the keys share.  The full statement includes the empty key;
`empty_key_never_found` shows that it fails. -/
theorem trie_lookup_partial (added : List (List Nat × α)) (hn : (added.map Prod.fst).Nodup) :
    ∃ h, addAll (new α) added = some h ∧ ∀ key, key ≠ [] → find h key = lookup key added := by
  obtain ⟨h, e, _, hs⟩ := addAll_stored added new_tree hn (fun p _ => new_stored p.1)
  refine ⟨h, e, fun key hne => ?_⟩
  rw [find_eq h key hne, hs key, new_stored]
  cases lookup key added <;> rfl

/-- Adding a key that is already there, the empty one included, fails the assertion in `add`. -/
theorem adding_twice_fails (added : List (List Nat × α)) (hn : (added.map Prod.fst).Nodup) (p : List Nat × α) (hp : p ∈ added)
    (d : α) : ∃ h, addAll (new α) added = some h ∧ add h p.1 d = none := by
  obtain ⟨h, e, ⟨path, t⟩, hs⟩ := addAll_stored added new_tree hn (fun p _ => new_stored p.1)
  refine ⟨h, e, (add_stored t p.1 d).1 ?_⟩
  rw [hs]
  cases hl : lookup p.1 added with
  | some _ => simp
  | none =>
    unfold lookup at hl
    simp only [Option.map_eq_none_iff, List.find?_eq_none] at hl
    have := hl p hp
    simp at this

/-- Keys that are prefixes of one another. -/
example : ([([97], 1), ([97, 98, 99], 2), ([97, 98], 3)].map Prod.fst : List (List Nat)).Nodup ∧
    lookup [97, 98] [([97], 1), ([97, 98, 99], 2), ([97, 98], 3)] = some 3 := by decide

/-- **The exception in C32.** The empty key can be added (once), and is never found. -/
theorem empty_key_never_found (added : List (List Nat × α)) (hn : (added.map Prod.fst).Nodup) (d : α)
    (hd : ([], d) ∈ added) : ∃ h, addAll (new α) added = some h ∧ find h [] = none := by
  obtain ⟨h, e, _⟩ := addAll_stored added new_tree hn (fun p _ => new_stored p.1)
  exact ⟨h, e, rfl⟩

end Verif.Trie
