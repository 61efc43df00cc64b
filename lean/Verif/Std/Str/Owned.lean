import Verif.Std.Str.View
/-! # C39, C80, C81: owned strings -/
namespace Verif.Str

/-- The string object holds the text. -/
structure Holds (s : S) (xs : List Nat) : Prop where
  size : s.size = xs.length
  null : s.null = true → xs = [] ∧ s.capacity = 0
  room : s.null = false → s.room = s.capacity + 1 ∧ 16 ≤ s.capacity ∧ s.size ≤ s.capacity
  cells : ∀ i (h : i < xs.length), s.mem i = some xs[i]

/-- A NUL follows the text, unless nothing was ever stored. -/
def Terminated (s : S) : Prop := s.null = true ∨ s.mem s.size = some 0

theorem double_ok : ∀ (f cap n : Nat), 0 < cap → n ≤ cap + f → ∃ c, double f cap n = .ok c ∧ n ≤ c ∧ cap ≤ c
  | 0, cap, n, h0, h => ⟨cap, by rw [double, if_neg (by omega)], by omega, Nat.le_refl _⟩
  | f + 1, cap, n, h0, h => by
    unfold double
    split
    · obtain ⟨c, e, h1, h2⟩ := double_ok f (cap * 2) n (by omega) (by omega)
      exact ⟨c, e, h1, by omega⟩
    · exact ⟨cap, rfl, by omega, Nat.le_refl _⟩

theorem grow_ok (s : S) (xs : List Nat) (h : Holds s xs) (n : Nat) : ∃ s', grow s n = .ok s' ∧ Holds s' xs ∧ s'.null = false ∧
    s'.size + n ≤ s'.capacity ∧ (s.null = false → s'.mem = s.mem) := by
  have h1 := h.size
  unfold grow
  have hm1 : s.size + n ≤ max (s.size + n) 16 := Nat.le_max_left _ _
  have hm2 : 16 ≤ max (s.size + n) 16 := Nat.le_max_right _ _
  simp only []
  generalize max (s.size + n) 16 = N at hm1 hm2 ⊢
  split
  · rename_i hn
    obtain ⟨hx, hc⟩ := h.null hn
    subst hx
    simp at h1
    refine ⟨_, rfl, ⟨by simp [h1], by simp, fun _ => ⟨rfl, hm2, ?_⟩, fun i hi => by simp at hi⟩, rfl, hm1,
      fun h => by rw [hn] at h; cases h⟩
    show s.size ≤ N
    omega
  · rename_i hn
    have hn : s.null = false := by simpa using hn
    obtain ⟨r1, r2, r3⟩ := h.room hn
    split
    · obtain ⟨c, e, hc1, hc2⟩ := double_ok N s.capacity N (by omega) (by omega)
      rw [e]
      exact ⟨_, rfl, ⟨h1, fun h' => by simp [hn] at h', fun _ => ⟨rfl, Nat.le_trans r2 hc2, Nat.le_trans r3 hc2⟩, h.cells⟩, hn,
        Nat.le_trans hm1 hc1, fun _ => rfl⟩
    · exact ⟨s, rfl, h, hn, by omega, fun _ => rfl⟩

theorem append_ok (s : S) (xs d : List Nat) (h : Holds s xs) (ht : Terminated s) :
    ∃ s', append s d = .ok s' ∧ Holds s' (xs ++ d) ∧ Terminated s' := by
  unfold append
  split
  · rename_i hd
    obtain ⟨s1, e, hs1, hn, hcap, _⟩ := grow_ok s xs h d.length
    obtain ⟨r1, r2, r3⟩ := hs1.room hn
    have hz := hs1.size
    rw [e, Out.bind_ok]
    unfold copyIn
    rw [if_pos (by omega), Out.bind_ok]
    unfold wr
    simp only [hn, Bool.not_false, Bool.true_and]
    rw [if_pos (by simp; omega)]
    refine ⟨_, rfl, ⟨by simp [hz], fun h' => by simp at h', fun _ => by simp only []; omega, fun i hi => ?_⟩, .inr (by simp)⟩
    simp only [List.length_append] at hi
    simp only [upd]
    rw [if_neg (by omega)]
    by_cases hix : i < xs.length
    · rw [if_neg (by omega), hs1.cells i hix, List.getElem_append_left hix]
    · rw [if_pos (by omega), List.getElem_append_right (by omega), List.getElem?_eq_getElem (by omega)]
      simp [hz]
  · rename_i hd
    have : d = [] := by simpa using hd
    subst this
    exact ⟨s, rfl, by simpa using h, ht⟩

theorem ld_ok (s : S) (xs : List Nat) (h : Holds s xs) (i : Nat) (hi : i < xs.length) : ld s i = .ok xs[i] := by
  have h1 := h.size
  have hn : s.null = false := by
    cases e : s.null with
    | false => rfl
    | true => have := (h.null e).1; subst this; simp at hi
  obtain ⟨r1, _, r3⟩ := h.room hn
  unfold ld
  simp only [hn, Bool.not_false, Bool.true_and]
  rw [if_pos (by simp; omega), h.cells i hi]

theorem spaces_ok (s : S) (xs : List Nat) (h : Holds s xs) : ∀ n i, i + n = xs.length →
    ∃ j, spaces s n i = .ok j ∧ i ≤ j ∧ j ≤ xs.length ∧ viewTrimLeft (xs.drop i) = xs.drop j
  | 0, i, hi => ⟨i, rfl, Nat.le_refl _, by omega, by rw [List.drop_of_length_le (by omega)]; rfl⟩
  | n + 1, i, hi => by
    have h1 := h.size
    unfold spaces
    rw [if_pos (by omega), ld_ok s xs h i (by omega)]
    simp only [Out.bind_ok]
    rw [List.drop_eq_getElem_cons (by omega : i < xs.length), viewTrimLeft]
    split
    · obtain ⟨j, e, h2, h3, h4⟩ := spaces_ok s xs h n (i + 1) (by omega)
      exact ⟨j, e, by omega, h3, h4⟩
    · exact ⟨i, rfl, Nat.le_refl _, by omega, by rw [← List.drop_eq_getElem_cons]⟩

theorem trimLeft_ok (s : S) (xs : List Nat) (h : Holds s xs) :
    ∃ s', trimLeft s = .ok s' ∧ Holds s' (viewTrimLeft xs) := by
  have h1 := h.size
  obtain ⟨j, e, _, h3, h4⟩ := spaces_ok s xs h xs.length 0 (by omega)
  unfold trimLeft
  rw [h1, e, Out.bind_ok]
  rw [List.drop_zero] at h4
  rw [h4]
  split
  · rename_i hj
    have hn : s.null = false := by
      cases e : s.null with
      | false => rfl
      | true => have := (h.null e).1; subst this; simp at h3; omega
    obtain ⟨r1, r2, r3⟩ := h.room hn
    rw [if_pos (by omega)]
    refine ⟨_, rfl, ⟨by simp, fun h' => by simp [hn] at h', fun _ => by simp only []; omega, fun i hi => ?_⟩⟩
    simp only [List.length_drop] at hi
    simp only []
    rw [if_pos hi, h.cells (i + j) (by omega), List.getElem_drop]
    simp [Nat.add_comm]
  · rename_i hj
    have : j = 0 := by omega
    subst this
    exact ⟨s, rfl, by simpa using h⟩

theorem dropSpaces_ok (s : S) (xs : List Nat) (h : Holds s xs) : ∀ i, i ≤ xs.length →
    ∃ n, dropSpaces s i = .ok n ∧ keepRight xs i = .ok n ∧ n ≤ i
  | 0, _ => ⟨0, rfl, rfl, Nat.le_refl _⟩
  | i + 1, hi => by
    unfold dropSpaces keepRight
    rw [ld_ok s xs h i (by omega), rd_lt xs i (by omega)]
    simp only [Out.bind_ok]
    split
    · obtain ⟨n, e1, e2, hn⟩ := dropSpaces_ok s xs h i (by omega)
      exact ⟨n, e1, e2, by omega⟩
    · exact ⟨i + 1, rfl, rfl, Nat.le_refl _⟩

theorem trimRight_ok (s : S) (xs : List Nat) (h : Holds s xs) :
    ∃ s' ys, trimRight s = .ok s' ∧ viewTrimRight xs = .ok ys ∧ Holds s' ys ∧ Terminated s' := by
  have h1 := h.size
  obtain ⟨n, e1, e2, hn⟩ := dropSpaces_ok s xs h xs.length (Nat.le_refl _)
  unfold trimRight viewTrimRight
  rw [h1, e1, e2]
  simp only [Out.bind_ok]
  cases hnull : s.null with
  | true =>
    obtain ⟨hx, hc⟩ := h.null hnull
    subst hx
    simp at hn
    subst hn
    rw [if_neg (by omega)]
    exact ⟨_, _, rfl, rfl, ⟨by simp, fun _ => ⟨rfl, hc⟩, fun h' => by simp at h', fun i hi => by simp at hi⟩, .inl rfl⟩
  | false =>
    obtain ⟨r1, r2, r3⟩ := h.room hnull
    rw [if_pos (by omega)]
    unfold wr
    simp only [Bool.not_false, Bool.true_and]
    rw [if_pos (by simp; omega)]
    refine ⟨_, _, rfl, rfl, ⟨by simp; omega, fun h' => by simp at h', fun _ => by simp only []; omega, fun i hi => ?_⟩, .inr (by simp)⟩
    simp only [List.length_take] at hi
    simp only [upd]
    rw [if_neg (by omega), h.cells i (by omega)]
    simp

/-! ## C39: contents and termination -/

/-- The operations of a history. -/
inductive Op where
  | append (d : List Nat)
  | clear
  | trim
  | trimRight

def step (s : S) : Op → Out S
  | .append d => append s d
  | .clear => .ok (clear s)
  | .trim => trim s
  | .trimRight => trimRight s

def run (s : S) : List Op → Out S
  | [] => .ok s
  | o :: os => (step s o).bind fun s => run s os

/-- Specification on lists of bytes. -/
def specStep (xs : List Nat) : Op → List Nat
  | .append d => xs ++ d
  | .clear => []
  | .trim => ((xs.dropWhile white).reverse.dropWhile white).reverse
  | .trimRight => (xs.reverse.dropWhile white).reverse

theorem viewTrimLeft_eq (xs : List Nat) : viewTrimLeft xs = xs.dropWhile white := by
  rw [← isSpace_white]
  induction xs with
  | nil => rfl
  | cons c cs ih => unfold viewTrimLeft; rw [List.dropWhile_cons]; split <;> simp_all

theorem keepRight_eq (xs : List Nat) : ∀ i, i ≤ xs.length →
    ∃ n, keepRight xs i = .ok n ∧ xs.take n = ((xs.take i).reverse.dropWhile isSpace).reverse
  | 0, _ => ⟨0, rfl, by simp⟩
  | i + 1, hi => by
    unfold keepRight
    rw [rd_lt xs i (by omega)]
    simp only [Out.bind_ok]
    have hl : xs.take (i + 1) = xs.take i ++ [xs[i]] := by
      rw [List.take_add_one, List.getElem?_eq_getElem (by omega)]; rfl
    split
    · rename_i hs
      obtain ⟨n, e, h⟩ := keepRight_eq xs i (by omega)
      refine ⟨n, e, ?_⟩
      rw [h, hl, List.reverse_append, List.reverse_singleton, List.singleton_append, List.dropWhile_cons, if_pos hs]
    · rename_i hs
      refine ⟨i + 1, rfl, ?_⟩
      rw [hl, List.reverse_append, List.reverse_singleton, List.singleton_append, List.dropWhile_cons, if_neg hs]
      simp

theorem viewTrimRight_eq (xs : List Nat) : viewTrimRight xs = .ok (xs.reverse.dropWhile white).reverse := by
  rw [← isSpace_white]
  obtain ⟨n, e, h⟩ := keepRight_eq xs xs.length (Nat.le_refl _)
  rw [List.take_length] at h
  simp [viewTrimRight, e, h]

/-- **C39, contents.** After any history of appends, clears and trims, the string holds the bytes that the same history
gives on a list, followed by a NUL inside its allocation; nothing undefined happens and `grow` ends. -/
theorem string_contents (ops : List Op) :
    ∃ s, run S.new ops = .ok s ∧ Holds s (ops.foldl specStep []) ∧ Terminated s := by
  have key : ∀ (ops : List Op) (s : S) (xs : List Nat), Holds s xs → Terminated s →
      ∃ s', run s ops = .ok s' ∧ Holds s' (ops.foldl specStep xs) ∧ Terminated s' := by
    intro ops
    induction ops with
    | nil => intro s xs h ht; exact ⟨s, rfl, h, ht⟩
    | cons o os ih =>
      intro s xs h ht
      have : ∃ s', step s o = .ok s' ∧ Holds s' (specStep xs o) ∧ Terminated s' := by
        cases o with
        | append d => exact append_ok s xs d h ht
        | clear =>
          refine ⟨_, rfl, ?_, ?_⟩
          · unfold clear
            split
            · rename_i hn
              obtain ⟨hx, hc⟩ := h.null hn
              rw [hx] at h
              exact h
            · exact ⟨rfl, fun _ => ⟨rfl, rfl⟩, fun h' => by simp at h', fun i hi => by simp [specStep] at hi⟩
          · unfold clear Terminated
            split
            · rename_i hn; exact .inl hn
            · exact .inl rfl
        | trim =>
          obtain ⟨s1, e1, h1⟩ := trimLeft_ok s xs h
          obtain ⟨s2, ys, e2, e3, h2, ht2⟩ := trimRight_ok s1 _ h1
          rw [viewTrimRight_eq] at e3
          cases e3
          exact ⟨s2, by simp [step, trim, e1, e2], by rw [viewTrimLeft_eq] at h2; exact h2, ht2⟩
        | trimRight =>
          obtain ⟨s2, ys, e2, e3, h2, ht2⟩ := trimRight_ok s xs h
          rw [viewTrimRight_eq] at e3
          cases e3
          exact ⟨s2, e2, h2, ht2⟩
      obtain ⟨s1, e1, h1, ht1⟩ := this
      obtain ⟨s2, e2, h2⟩ := ih s1 _ h1 ht1
      exact ⟨s2, by rw [run, e1]; exact e2, h2⟩
  exact key ops S.new [] ⟨rfl, fun _ => ⟨rfl, rfl⟩, fun h => by simp [S.new] at h, fun i hi => by simp at hi⟩ (.inl rfl)

example : [Op.append [32, 104], .append [105, 32], .trim, .append [33]].foldl specStep [] = [104, 105, 33] := by decide

/-! ## C39: comparison -/

theorem cmpBytes_eq : ∀ (a b : List Nat), a.length = b.length → (cmpBytes a b = 0 ↔ a = b)
  | [], [], _ => by simp [cmpBytes]
  | a :: as, b :: bs, h => by
    unfold cmpBytes
    split
    · rename_i hne
      constructor
      · intro e; omega
      · intro e; simp at e; exact absurd e.1 hne
    · rename_i heq
      have heq : a = b := by simpa using heq
      rw [cmpBytes_eq as bs (by simpa using h)]
      simp [heq]

theorem cmpBytes_neg : ∀ (a b : List Nat), cmpBytes b a = - cmpBytes a b
  | [], [] | [], _ :: _ | _ :: _, [] => by simp [cmpBytes]
  | a :: as, b :: bs => by
    unfold cmpBytes
    by_cases h : a = b
    · rw [if_neg (by simp [h]), if_neg (by simp [h])]; exact cmpBytes_neg as bs
    · rw [if_pos (fun e => h e.symm), if_pos h]; omega

theorem cmpBytes_trans : ∀ (a b c : List Nat), a.length = b.length → b.length = c.length → cmpBytes a b < 0 → cmpBytes b c < 0 →
    cmpBytes a c < 0
  | a :: as, b :: bs, c :: cs, h1, h2, hab, hbc => by
    unfold cmpBytes at hab hbc ⊢
    split at hab <;> split at hbc
    · rw [if_pos (by omega)]; omega
    · rename_i h3 h4
      have : b = c := by simpa using h4
      subst this
      rw [if_pos h3]; exact hab
    · rename_i h3 h4
      have : a = b := by simpa using h3
      subst this
      rw [if_pos h4]; exact hbc
    · rename_i h3 h4
      have h3 : a = b := by simpa using h3
      have h4 : b = c := by simpa using h4
      rw [if_neg (by simp [h3, h4])]
      exact cmpBytes_trans as bs cs (by simpa using h1) (by simpa using h2) hab hbc
  | [], _, _, h1, h2, hab, _ => by
    cases ‹List Nat› <;> simp [cmpBytes] at hab
  | _ :: _, [], _, h1, h2, hab, _ => by simp at h1
  | _ :: _, _ :: _, [], h1, h2, _, _ => by simp at h2

theorem toI32_small (v : Int) (h1 : -2 ^ 31 ≤ v) (h2 : v < 2 ^ 31) : toI32 v = v := by
  unfold toI32
  rw [Int.bmod_def]
  split <;> omega

theorem cmpBytes_lt : ∀ (a b : List Nat), a.length = b.length → (cmpBytes a b < 0 ↔ a < b)
  | [], [], _ => by simp [cmpBytes]
  | a :: as, b :: bs, h => by
    rw [cmpBytes, List.cons_lt_cons_iff]
    by_cases e : a = b
    · subst e
      rw [if_neg (by simp), cmpBytes_lt as bs (by simpa using h)]
      simp
    · rw [if_pos e]
      constructor
      · intro h; left; omega
      · rintro (h | ⟨h, _⟩)
        · omega
        · exact absurd h e
  | [], _ :: _, h => by simp at h
  | _ :: _, [], h => by simp at h

/-- **C39, comparison (partial).** On strings shorter than 2^31 bytes, `compare` is zero exactly for equal contents,
swaps sign with its arguments and is transitive: a total order, by length and then by bytes.  Missing: strings of 2^31 bytes and more. -/
theorem compare_total_order_partial (a b c : List Nat) (ha : a.length < 2 ^ 31) (hb : b.length < 2 ^ 31) (hc : c.length < 2 ^ 31) :
    (compare a b = 0 ↔ a = b) ∧ compare b a = - compare a b ∧
    (compare a b < 0 → compare b c < 0 → compare a c < 0) ∧
    (compare a b < 0 ↔ a.length < b.length ∨ (a.length = b.length ∧ a < b)) := by
  have key : ∀ x y : List Nat, x.length < 2 ^ 31 → y.length < 2 ^ 31 →
      compare x y = if x.length ≠ y.length then (x.length : Int) - y.length else cmpBytes x y := by
    intro x y hx hy
    unfold compare
    rw [toI32_small _ (by omega) (by omega)]
  rw [key a b ha hb, key b a hb ha, key b c hb hc, key a c ha hc]
  refine ⟨?_, ?_, ?_, ?_⟩
  · split
    · rename_i hne
      constructor
      · intro e; omega
      · intro e; exact absurd (by rw [e]) hne
    · rename_i heq; exact cmpBytes_eq a b (by simpa using heq)
  · by_cases h : a.length = b.length
    · rw [if_neg (by simp [h]), if_neg (by simp [h])]; exact cmpBytes_neg a b
    · rw [if_pos (fun e => h e.symm), if_pos h]; omega
  · intro h1 h2
    by_cases e1 : a.length = b.length
    · rw [if_neg (by simp [e1])] at h1
      by_cases e2 : b.length = c.length
      · rw [if_neg (by simp [e2])] at h2
        rw [if_neg (by simp [e1, e2])]
        exact cmpBytes_trans a b c e1 e2 h1 h2
      · rw [if_pos e2] at h2
        rw [if_pos (by omega)]; omega
    · rw [if_pos e1] at h1
      by_cases e2 : b.length = c.length
      · rw [if_pos (by omega)]; omega
      · rw [if_pos e2] at h2
        rw [if_pos (by omega)]; omega
  · by_cases e : a.length = b.length
    · rw [if_neg (by simp [e]), cmpBytes_lt a b e]
      exact ⟨fun h => .inr ⟨e, h⟩, fun h => h.elim (fun h => by omega) (fun h => h.2)⟩
    · rw [if_pos e]; omega

example : compare [98] [97, 97] < 0 ∧ compare [97, 98] [97, 99] < 0 := by decide

/-- **C39 fails** for strings whose lengths differ by a multiple of 2^32: they compare as equal. -/
theorem long_strings_compare_equal (a b : List Nat) (k : Nat) (h : a.length = b.length + (k + 1) * 2 ^ 32) :
    compare a b = 0 ∧ a ≠ b := by
  refine ⟨?_, fun e => by rw [e] at h; omega⟩
  unfold compare
  rw [if_pos (by omega), show (a.length : Int) - b.length = ((k : Int) + 1) * 2 ^ 32 by omega]
  unfold toI32
  rw [Int.bmod_def]
  simp

/-! ## C80: the terminator after `trimLeft`, and `resize` -/

/-- `trimLeft` alone leaves the byte that stood there where the terminator should be: whenever it removes some but not
all bytes, the byte after the text is one of the old text. -/
theorem trimLeft_not_terminated (s : S) (xs : List Nat) (h : Holds s xs) (hc : ∀ c ∈ xs, c ≠ 0)
    (h1 : viewTrimLeft xs ≠ xs) : ∃ s', trimLeft s = .ok s' ∧ Holds s' (viewTrimLeft xs) ∧ ¬ Terminated s' := by
  obtain ⟨s', e, hs'⟩ := trimLeft_ok s xs h
  refine ⟨s', e, hs', ?_⟩
  have hsz := h.size
  obtain ⟨j, ej, _, h3, h4⟩ := spaces_ok s xs h xs.length 0 (by omega)
  rw [List.drop_zero] at h4
  have hj : j ≠ 0 := by rintro rfl; exact h1 (by simpa using h4)
  unfold trimLeft at e
  rw [hsz, ej, Out.bind_ok, if_pos hj] at e
  have hn : s.null = false := by
    cases e : s.null with
    | false => rfl
    | true => have := (h.null e).1; subst this; simp at h3; omega
  obtain ⟨r1, r2, r3⟩ := h.room hn
  rw [if_pos (by omega)] at e
  cases e
  unfold Terminated
  simp only [hn, Bool.false_eq_true, false_or, Nat.lt_irrefl, if_false]
  rw [h.cells (xs.length - j) (by omega)]
  simp only [Option.some.injEq]
  exact hc _ (List.getElem_mem _)

example : viewTrimLeft [32, 97] ≠ [32, 97] := by decide

/-- `resize` stops for every size below the capacity and writes outside the allocation for every size above it. -/
theorem resize_backwards (s : S) (xs : List Nat) (h : Holds s xs) (n : Nat) :
    (n < s.capacity → resize s n = .abort) ∧ (s.capacity < n → resize s n = .ub) := by
  unfold resize
  refine ⟨fun hn => if_neg (by omega), fun hn => ?_⟩
  rw [if_pos (by omega)]
  unfold wr
  cases hnull : s.null with
  | true => simp
  | false =>
    obtain ⟨r1, _, _⟩ := h.room hnull
    simp only [Bool.not_false, Bool.true_and]
    rw [if_neg (by simp; omega)]

/-! ## C81: appending a string to itself -/

/-- **C81 (partial).** While the doubled text fits the capacity, appending a string to itself doubles it.  Missing: the
case where the string has to grow. -/
theorem append_self_partial (s : S) (xs : List Nat) (h : Holds s xs) (ht : Terminated s) (hfit : xs = [] ∨ 2 * xs.length ≤ s.capacity) :
    ∃ s', appendSelf s = .ok s' ∧ Holds s' (xs ++ xs) ∧ Terminated s' := by
  have h1 := h.size
  unfold appendSelf
  split
  · rename_i hne
    have hx : xs ≠ [] := by rintro rfl; simp at h1; exact hne h1
    have hn : s.null = false := by
      cases e : s.null with
      | false => rfl
      | true => exact absurd (h.null e).1 hx
    obtain ⟨r1, r2, r3⟩ := h.room hn
    have := hfit.resolve_left hx
    rw [if_neg (by omega)]
    have hl : ((List.range s.size).map fun i => (s.mem i).getD 0) = xs := by
      apply List.ext_getElem
      · simp [h1]
      · intro i hi1 hi2
        simp [h.cells i hi2]
    rw [hl]
    exact append_ok s xs xs h ht
  · rename_i hz
    have : xs = [] := by
      have : s.size = 0 := by omega
      exact List.length_eq_zero_iff.1 (by omega)
    subst this
    exact ⟨s, rfl, by simpa using h, ht⟩

/-- **C81 fails** whenever the string has to grow: the bytes are read from memory that was given back. -/
theorem append_self_dangles (s : S) (xs : List Nat) (h : Holds s xs) (hx : xs ≠ []) (hfit : s.capacity < 2 * xs.length) :
    appendSelf s = .ub := by
  have h1 := h.size
  have : 0 < xs.length := List.length_pos_iff.2 hx
  unfold appendSelf
  rw [if_pos (by omega), if_pos (by omega)]

example : ∃ s, append S.new [1, 2, 3, 4, 5, 6, 7, 8, 9] = .ok s ∧ appendSelf s = .ub := ⟨_, rfl, rfl⟩

end Verif.Str
