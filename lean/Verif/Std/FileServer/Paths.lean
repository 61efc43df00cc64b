import Verif.Std.FileServer.Model
/-! # Paths of the file server: what `realpath` gives, and texts of paths -/
namespace Verif.FileServer

/-- A name that may stand for an entry of a directory. -/
def Proper (n : Name) : Prop := n ≠ [] ∧ n ≠ [46] ∧ n ≠ [46, 46] ∧ 47 ∉ n

/-- The names lead from the root through directories, without symbolic links. -/
structure Walk (fs : Fs) (names : List Name) : Prop where
  proper : ∀ n ∈ names, Proper n
  dirs : ∀ k, k < names.length → fs (names.take k) = some .dir
  noLink : ∀ t, fs names ≠ some (.link t)

theorem walk_root {fs : Fs} (h : fs [] = some .dir) : Walk fs [] :=
  ⟨by simp, by simp, by simp [h]⟩

theorem walk_dropLast {fs : Fs} {names : List Name} (h0 : fs [] = some .dir) (h : Walk fs names) : Walk fs names.dropLast := by
  by_cases hn : names = []
  · subst hn; exact walk_root h0
  have hlen : 0 < names.length := List.length_pos_iff.2 hn
  refine ⟨fun n hm => h.proper n ((List.dropLast_prefix names).subset hm), fun k hk => ?_, fun t e => ?_⟩
  · rw [List.length_dropLast] at hk
    rw [List.dropLast_eq_take, List.take_take, Nat.min_eq_left (by omega)]
    exact h.dirs k (by omega)
  · rw [List.dropLast_eq_take, h.dirs _ (by omega)] at e
    cases e

theorem walk_snoc {fs : Fs} {names : List Name} {c : Name} (h : Walk fs names) (hd : fs names = some .dir) (hc : Proper c)
    (hk : ∀ t, fs (names ++ [c]) ≠ some (.link t)) : Walk fs (names ++ [c]) := by
  refine ⟨fun n hm => ?_, fun k hlt => ?_, hk⟩
  · rcases List.mem_append.1 hm with hm | hm
    · exact h.proper n hm
    · rw [List.mem_singleton.1 hm]; exact hc
  · simp only [List.length_append, List.length_cons, List.length_nil] at hlt
    rcases Nat.lt_or_ge k names.length with hl | hl
    · rw [List.take_append_of_le_length (by omega)]
      exact h.dirs k hl
    · rw [show k = names.length by omega, List.take_left' rfl]
      exact hd

/-! ## Parts of a text -/

theorem split_append (n r : List Nat) (hn : 47 ∉ n) : split (n ++ 47 :: r) = n :: split r := by
  induction n with
  | nil => simp [split]
  | cons c n ih =>
    simp only [List.mem_cons, not_or] at hn
    have := ih hn.2
    rw [List.cons_append, split, if_neg (fun e => hn.1 e.symm), this]

theorem split_single (n : List Nat) (hn : 47 ∉ n) : split n = [n] := by
  induction n with
  | nil => rfl
  | cons c n ih =>
    simp only [List.mem_cons, not_or] at hn
    rw [split, if_neg (fun e => hn.1 e.symm), ih hn.2]

theorem split_no_slash (s : List Nat) : ∀ n ∈ split s, 47 ∉ n := by
  induction s with
  | nil => simp [split]
  | cons c s ih =>
    intro n hn
    rw [split] at hn
    split at hn
    · rcases List.mem_cons.1 hn with rfl | hn
      · simp
      · exact ih n hn
    · rename_i hc
      split at hn
      · rename_i m ms e
        rw [e] at ih
        rcases List.mem_cons.1 hn with rfl | hn
        · have := ih m (by simp)
          simp only [List.mem_cons, not_or]
          exact ⟨fun e => hc e.symm, this⟩
        · exact ih n (by simp [hn])
      · rw [List.mem_singleton.1 hn]
        simp only [List.mem_cons, List.not_mem_nil, or_false]
        exact fun e => hc e.symm

theorem split_names : ∀ (names : List Name) (pre : List Nat), 47 ∉ pre → (∀ n ∈ names, 47 ∉ n) →
    split (pre ++ names.flatMap (47 :: ·)) = pre :: names
  | [], pre, hp, _ => by simpa using split_single pre hp
  | n :: names, pre, hp, h => by
    rw [List.flatMap_cons, List.cons_append, split_append _ _ hp, split_names names n (h n (by simp)) (fun m hm => h m (by simp [hm]))]

/-! ## `realpath` -/

theorem resolve_walk (fs : Fs) (h0 : fs [] = some .dir) : ∀ (links : Nat) (at_ todo : List Name), Walk fs at_ → (∀ n ∈ todo, 47 ∉ n) →
    ∀ r, resolve fs links at_ todo = some r → Walk fs r ∧ (fs r).isSome := by
  intro links at_ todo
  induction links, at_, todo using resolve.induct fs with
  | case1 links at_ h =>
    intro hw _ r e
    rw [resolve, if_pos h] at e
    cases e
    exact ⟨hw, h⟩
  | case2 links at_ h =>
    intro hw _ r e
    rw [resolve, if_neg h] at e
    cases e
  | case3 links at_ c cs hd hc ih =>
    intro hw ht r e
    rw [resolve, if_pos hd, if_pos hc] at e
    exact ih hw (fun n hn => ht n (by simp [hn])) r e
  | case4 links at_ cs hd hc ih =>
    intro hw ht r e
    rw [resolve, if_pos hd, if_neg (by decide), if_pos rfl] at e
    exact ih (walk_dropLast h0 hw) (fun n hn => ht n (by simp [hn])) r e
  | case5 links at_ c cs hd hc hc' hk =>
    intro hw ht r e
    rw [resolve, if_pos hd, if_neg hc, if_neg hc', hk] at e
    cases e
  | case6 at_ c cs hd hc hc' t hk =>
    intro hw ht r e
    rw [resolve, if_pos hd, if_neg hc, if_neg hc', hk] at e
    cases e
  | case7 at_ c cs hd hc hc' t hk l ih =>
    intro hw ht r e
    rw [resolve, if_pos hd, if_neg hc, if_neg hc', hk] at e
    refine ih ?_ ?_ r e
    · split
      · exact walk_root h0
      · exact hw
    · intro n hn
      rcases List.mem_append.1 hn with hn | hn
      · exact split_no_slash t n hn
      · exact ht n (by simp [hn])
  | case9 links at_ c cs hd =>
    intro hw ht r e
    rw [resolve, if_neg hd] at e
    cases e
  | case8 links at_ c cs hd hc hc' k hnl hk ih =>
    intro hw ht r e
    rw [resolve, if_pos hd, if_neg hc, if_neg hc'] at e
    simp only [not_or] at hc
    have hstep : resolve fs links (at_ ++ [c]) cs = some r := by
      rw [hk] at e
      cases k with
      | dir => exact e
      | file => exact e
      | link t => exact absurd rfl (hnl t)
    refine ih (walk_snoc hw hd ⟨hc.1, hc.2, hc', ht c (by simp)⟩ ?_) (fun n hn => ht n (by simp [hn])) r hstep
    intro t e2
    rw [hk] at e2
    exact hnl t (Option.some.inj e2)

theorem realpath_walk {fs : Fs} (h0 : fs [] = some .dir) {path : List Nat} {r : List Name} (e : realpath fs path = some r) :
    Walk fs r ∧ (fs r).isSome := by
  unfold realpath at e
  split at e
  · exact resolve_walk fs h0 40 [] _ (walk_root h0) (split_no_slash path) r e
  · cases e

/-- Names that are no links are followed one after the other. -/
theorem resolve_through (fs : Fs) (links : Nat) : ∀ (names at_ rest : List Name), Walk fs (at_ ++ names) →
    (fs (at_ ++ names)).isSome → resolve fs links at_ (names ++ rest) = resolve fs links (at_ ++ names) rest
  | [], at_, rest, _, _ => by simp
  | n :: names, at_, rest, hw, hs => by
    have hp := hw.proper n (by simp)
    have hd : fs at_ = some .dir := by
      have := hw.dirs at_.length (by simp)
      rwa [List.take_left' rfl] at this
    have hsplit : at_ ++ n :: names = (at_ ++ [n]) ++ names := by simp
    have hk : ∃ k, fs (at_ ++ [n]) = some k ∧ ∀ t, k ≠ .link t := by
      cases names with
      | nil =>
        obtain ⟨k, hk⟩ := Option.isSome_iff_exists.1 hs
        exact ⟨k, hk, fun t e => hw.noLink t (by rw [hk, e])⟩
      | cons m ms =>
        refine ⟨.dir, ?_, by simp⟩
        have := hw.dirs (at_ ++ [n]).length (by simp)
        rwa [hsplit, List.take_left' rfl] at this
    obtain ⟨k, hk, hnl⟩ := hk
    rw [hsplit] at hw hs ⊢
    rw [List.cons_append, resolve, if_pos hd, if_neg (by rintro (h | h) <;> simp [Proper, h] at hp),
      if_neg (by intro h; simp [Proper, h] at hp), hk]
    have := resolve_through fs links names (at_ ++ [n]) rest hw hs
    cases k with
    | dir => exact this
    | file => exact this
    | link t => exact absurd rfl (hnl t)

theorem pathText_head (names : List Name) : (pathText names).head? = some 47 := by
  unfold pathText
  cases names <;> simp

theorem split_pathText (names : List Name) (h : ∀ n ∈ names, Proper n) :
    split (pathText names) = if names = [] then [[], []] else [] :: names := by
  unfold pathText
  split
  · rename_i hn; rfl
  · have := split_names names [] (by simp) (fun n hn => (h n hn).2.2.2)
    simpa using this

/-- The path of names without links leads to them. -/
theorem realpath_pathText {fs : Fs} (h0 : fs [] = some .dir) {names : List Name} (hw : Walk fs names) (hs : (fs names).isSome) :
    realpath fs (pathText names) = some names := by
  unfold realpath
  rw [if_pos (pathText_head names), split_pathText names hw.proper]
  split
  · rename_i hn
    subst hn
    rw [resolve, if_pos h0, if_pos (Or.inl rfl), resolve, if_pos h0, if_pos (Or.inl rfl), resolve, if_pos hs]
  · rw [resolve, if_pos h0, if_pos (Or.inl rfl)]
    have := resolve_through fs 40 names [] [] (by simpa using hw) (by simpa using hs)
    rw [List.append_nil] at this
    rw [this, List.nil_append, resolve, if_pos hs]

theorem lookup_pathText {fs : Fs} (h0 : fs [] = some .dir) {names : List Name} (hw : Walk fs names) (hs : (fs names).isSome) :
    lookup fs (pathText names) = fs names := by
  unfold lookup
  rw [realpath_pathText h0 hw hs]
  rfl

/-! ## Texts that begin with the text of another path -/

theorem prefix_name {n m y : List Nat} (hn : 47 ∉ n) (hy : y = [] ∨ y.head? = some 47) (h : n <+: m ++ y) : n <+: m := by
  rcases Nat.le_or_le n.length m.length with hl | hl
  · exact List.prefix_of_prefix_length_le h (List.prefix_append m y) hl
  · have hm : m <+: n := List.prefix_of_prefix_length_le (List.prefix_append m y) h hl
    obtain ⟨s, rfl⟩ := hm
    cases s with
    | nil => simp
    | cons c s =>
      exfalso
      have h2 : c :: s <+: y := (List.prefix_append_right_inj m).1 h
      obtain ⟨r, hr⟩ := h2
      rcases hy with rfl | hy
      · simp at hr
      · rw [← hr] at hy
        simp at hy
        exact hn (by simp [hy])

theorem prefix_slash {n m x y : List Nat} (hn : 47 ∉ n) (hm : 47 ∉ m) (hy : y = [] ∨ y.head? = some 47)
    (h : n ++ 47 :: x <+: m ++ y) : n = m ∧ 47 :: x <+: y := by
  have h1 : n <+: m := prefix_name hn hy ((List.prefix_append n _).trans h)
  obtain ⟨s, rfl⟩ := h1
  rw [List.append_assoc] at h
  have h2 := (List.prefix_append_right_inj n).1 h
  cases s with
  | nil => exact ⟨by simp, by simpa using h2⟩
  | cons c s =>
    exfalso
    obtain ⟨r, hr⟩ := h2
    simp at hr
    exact hm (by simp [hr.1])

theorem flat_head (ms : List Name) : ms.flatMap (47 :: ·) = [] ∨ (ms.flatMap (47 :: ·)).head? = some 47 := by
  cases ms <;> simp

/-- The names lie in another directory, whose name goes on after the name of the root. -/
def Sibling (root names : List Name) : Prop :=
  ∃ parent base sfx rest, root = parent ++ [base] ∧ sfx ≠ [] ∧ names = parent ++ (base ++ sfx) :: rest

theorem flat_prefix : ∀ (root names : List Name), (∀ n ∈ root, 47 ∉ n) → (∀ n ∈ names, 47 ∉ n) →
    root.flatMap (47 :: ·) <+: names.flatMap (47 :: ·) → root <+: names ∨ Sibling root names
  | [], names, _, _, _ => Or.inl (by simp)
  | n :: ns, [], _, _, h => by
    obtain ⟨r, hr⟩ := h
    simp at hr
  | n :: ns, m :: ms, hn, hm, h => by
    simp only [List.flatMap_cons, List.cons_append, List.cons_prefix_cons, true_and] at h
    cases ns with
    | nil =>
      simp only [List.flatMap_nil, List.append_nil] at h
      obtain ⟨sfx, rfl⟩ := prefix_name (hn n (by simp)) (flat_head ms) h
      by_cases hs : sfx = []
      · subst hs; left; simp
      · right
        exact ⟨[], n, sfx, ms, rfl, hs, rfl⟩
    | cons n' ns' =>
      rw [List.flatMap_cons, List.cons_append] at h
      obtain ⟨rfl, h2⟩ := prefix_slash (hn n (by simp)) (hm m (by simp)) (flat_head ms) h
      have h3 : (n' :: ns').flatMap (47 :: ·) <+: ms.flatMap (47 :: ·) := by simpa using h2
      rcases flat_prefix (n' :: ns') ms (fun x hx => hn x (by simp [hx])) (fun x hx => hm x (by simp [hx])) h3 with h4 | h4
      · left
        exact (List.prefix_cons_inj n).2 h4
      · right
        obtain ⟨p, b, s, r, e1, e2, rfl⟩ := h4
        exact ⟨n :: p, b, s, r, by rw [e1]; rfl, e2, rfl⟩

theorem pathText_prefix (root names : List Name) (h1 : ∀ n ∈ root, Proper n) (h2 : ∀ n ∈ names, Proper n)
    (h : pathText root <+: pathText names) : root <+: names ∨ Sibling root names := by
  by_cases hr : root = []
  · left; simp [hr]
  by_cases hn : names = []
  · subst hn
    exfalso
    obtain ⟨n, ns, rfl⟩ := List.exists_cons_of_ne_nil hr
    have := (h1 n (by simp)).1
    unfold pathText at h
    rw [if_neg hr, if_pos rfl] at h
    have := h.length_le
    cases n <;> simp_all
  unfold pathText at h
  rw [if_neg hr, if_neg hn] at h
  exact flat_prefix root names (fun n hn => (h1 n hn).2.2.2) (fun n hn => (h2 n hn).2.2.2) h

/-! ## The test of `fileExists` -/

theorem strncmp_eq' : ∀ (a b : List Nat), a.length = b.length → 0 ∉ b → (Str.strncmp a.length a b = 0 ↔ a = b)
  | [], [], _, _ => by simp [Str.strncmp]
  | a :: as, b :: bs, hl, h0 => by
    simp only [List.mem_cons, not_or] at h0
    simp only [List.length_cons, Str.strncmp] at hl ⊢
    by_cases h : a = b
    · subst h
      rw [if_neg (by simp), if_neg (fun e => h0.1 e.symm), strncmp_eq' as bs (by omega) h0.2]
      simp
    · rw [if_pos h]
      constructor
      · intro e; exfalso; apply h; omega
      · intro e; exact absurd (List.cons.inj e).1 h

theorem buffer_prefix (www absolute : List Nat) (h0 : 0 ∉ www) :
    Str.viewEq (bufferTake www.length absolute) www = true ↔ www <+: absolute := by
  have hl : (bufferTake www.length absolute).length = www.length := by
    unfold bufferTake
    simp
  unfold Str.viewEq Str.viewCompare
  rw [if_pos hl, decide_eq_true_eq, strncmp_eq' _ _ hl h0]
  unfold bufferTake
  constructor
  · intro e
    rcases Nat.lt_or_ge absolute.length www.length with h | h
    · exfalso
      apply h0
      rw [← e, List.take_append, List.take_of_length_le (by omega)]
      simp only [List.mem_append]
      right
      rw [List.take_replicate]
      simp
      omega
    · rw [List.take_append_of_le_length h] at e
      rw [← e]
      exact List.take_prefix _ _
  · rintro ⟨r, rfl⟩
    rw [List.append_assoc, List.take_left' rfl]

/-- What `fileExists` gives is the path of a regular file, and begins with the path of the root. -/
theorem fileExists_some {fs : Fs} (h0 : fs [] = some .dir) {www rel abs : List Nat} (hz : 0 ∉ www) (e : fileExists fs www rel = some abs) :
    ∃ names content t, abs = pathText names ∧ Walk fs names ∧ fs names = some (.file content t) ∧ www <+: pathText names := by
  unfold fileExists at e
  split at e
  · cases e
  · rename_i names hr
    obtain ⟨hw, hs⟩ := realpath_walk h0 hr
    simp only at e
    split at e
    · rename_i hv
      rw [buffer_prefix _ _ hz] at hv
      rw [lookup_pathText h0 hw hs] at e
      split at e
      · rename_i c t hk
        exact ⟨names, c, t, (Option.some.inj e).symm, hw, hk, hv⟩
      · cases e
    · cases e

end Verif.FileServer
