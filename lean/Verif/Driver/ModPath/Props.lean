import Verif.Driver.ModPath.Model

/-!
# Theorems on finding the files of imports (C226, C227)
-/

namespace Verif.ModPath

/-! ### The buffer -/

theorem cstr_eq : ∀ (t : List Nat) (b : Buf) (n i : Nat), 0 ∉ t →
    (∀ k, k < t.length → b (i + k) = t[k]?) → b (i + t.length) = some 0 →
    t.length < n → cstr b n i = some t
  | [], b, n, i, _, _, h0, hn => by
    cases n with
    | zero => simp at hn
    | succ n => simp at h0; simp [cstr, h0]
  | c :: t, b, n, i, hz, hk, h0, hn => by
    cases n with
    | zero => simp at hn
    | succ n =>
      have hc : b i = some c := by simpa using hk 0 (by simp)
      have c0 : c ≠ 0 := fun h => hz (by simp [h])
      have ih := cstr_eq t b n (i + 1) (fun h => hz (List.mem_cons_of_mem _ h))
        (fun k hkt => by
          have := hk (k + 1) (by simpa using hkt)
          rw [show i + 1 + k = i + (k + 1) by omega, this]
          simp)
        (by rw [show i + 1 + t.length = i + (c :: t).length by simp; omega]; exact h0)
        (by simpa using hn)
      unfold cstr
      rw [hc]
      cases c with
      | zero => exact absurd rfl c0
      | succ c => simp [ih]

/-- Two pieces and the zero byte. -/
theorem ask_two (x y : List Nat) (r : Bool) (hx : 0 ∉ x) (hy : 0 ∉ y) :
    ask (((put (fun _ => none) 0 x).bind (put · x.length y)).bind
      (put · (x.length + y.length) [0])) r =
    if x.length + y.length < pathMax then .real (x ++ y) r else .ub := by
  by_cases h : x.length + y.length < pathMax
  · have h1 : 0 + x.length ≤ pathMax := by omega
    have h2 : x.length + y.length ≤ pathMax := by omega
    have h3 : x.length + y.length + [0].length ≤ pathMax := by simp; omega
    simp only [put, h1, h2, h3, if_true, Option.bind_some, h, ask]
    rw [cstr_eq (x ++ y)]
    · simp [hx, hy]
    · intro k hk
      simp only [List.length_append] at hk
      by_cases hkx : k < x.length
      · have a : ¬ (x.length + y.length ≤ 0 + k ∧ 0 + k < x.length + y.length + [0].length) := by
          simp; omega
        have b : ¬ (x.length ≤ 0 + k ∧ 0 + k < x.length + y.length) := by omega
        have c : 0 ≤ 0 + k ∧ 0 + k < 0 + x.length := by omega
        rw [if_neg a, if_neg b, if_pos c]
        simp [List.getElem?_append_left hkx]
      · have a : ¬ (x.length + y.length ≤ 0 + k ∧ 0 + k < x.length + y.length + [0].length) := by
          simp; omega
        have b : x.length ≤ 0 + k ∧ 0 + k < x.length + y.length := by omega
        rw [if_neg a, if_pos b, List.getElem?_append_right (by omega)]
        simp
    · simp
    · simpa using h
  · rw [if_neg h]
    by_cases h1 : 0 + x.length ≤ pathMax
    · by_cases h2 : x.length + y.length ≤ pathMax
      · have h3 : ¬ (x.length + y.length + [0].length ≤ pathMax) := by simp; omega
        simp only [put, h1, h2, h3, if_true, if_false, Option.bind_some, ask]
      · simp only [put, h1, h2, if_true, if_false, Option.bind_some, Option.bind_none, ask]
    · simp only [put, h1, if_false, Option.bind_none, ask]

theorem lastSlash_none : ∀ (t : List Nat), 47 ∉ t → lastSlash t = none
  | [], _ => rfl
  | c :: t, h => by
    have ht := lastSlash_none t (fun q => h (List.mem_cons_of_mem _ q))
    have hc : c ≠ 47 := fun q => h (by simp [q])
    simp [lastSlash, ht, hc]

theorem lastSlash_eq : ∀ (dir file : List Nat), 47 ∉ file →
    lastSlash (dir ++ 47 :: file) = some dir.length
  | [], file, h => by simp [lastSlash, lastSlash_none file h]
  | c :: dir, file, h => by simp [lastSlash, lastSlash_eq dir file h]

/-- Writing the separator as a piece of its own. -/
theorem put_snoc (x : List Nat) (c : Nat) :
    ((put (fun _ => none) 0 x).bind (put · x.length [c])) = put (fun _ => none) 0 (x ++ [c]) := by
  by_cases h : x.length + 1 ≤ pathMax
  · have h1 : 0 + x.length ≤ pathMax := by omega
    have h2 : 0 + (x ++ [c]).length ≤ pathMax := by simp; omega
    have h3 : x.length + [c].length ≤ pathMax := by simp; omega
    simp only [put, h1, h2, h3, if_true, Option.bind_some, Option.some.injEq]
    funext k
    by_cases hk : k < x.length
    · rw [if_neg (by simp; omega), if_pos (by omega), if_pos (by simp; omega)]
      simp [List.getElem?_append_left hk]
    · by_cases hk' : k = x.length
      · subst hk'
        simp
      · rw [if_neg (by simp; omega), if_neg (by omega), if_neg (by simp; omega)]
  · have h2 : ¬ (0 + (x ++ [c]).length ≤ pathMax) := by simp; omega
    have h3 : ¬ (x.length + [c].length ≤ pathMax) := by simpa using h
    by_cases h1 : 0 + x.length ≤ pathMax
    · simp only [put, h1, h2, h3, if_true, if_false, Option.bind_some]
    · simp only [put, h1, h2, if_false, Option.bind_none]

/-! ### Which path is asked for -/

/-- Specification: a path in a directory, with one separator between. -/
def inDir (dir path : List Nat) : List Nat :=
  if dir.getLast? = some 47 then dir ++ path else dir ++ 47 :: path

/-- C226: a path that begins with `./` is looked up in the directory of the file it is
written in, exactly if that fits the buffer. -/
theorem relative_path_partial (d : Driver) (dir file rest : List Nat) (inc : Bool)
    (hf : 47 ∉ file) (hd : 0 ∉ dir) (hr : 0 ∉ rest) :
    locate d (dir ++ 47 :: file) (46 :: 47 :: rest) inc =
      if dir.length + 1 + rest.length < pathMax then .real (dir ++ 47 :: rest) false else .ub := by
  have h := ask_two (dir ++ [47]) rest false (by simp [hd]) hr
  have ht : (dir ++ 47 :: file).take (dir.length + 1) = dir ++ [47] := by
    rw [show dir ++ 47 :: file = (dir ++ [47]) ++ file by simp]
    exact List.take_left' (by simp)
  simp only [locate, List.take_succ_cons, List.take_zero, if_true, lastSlash_eq dir file hf,
    List.drop_succ_cons, List.drop_zero, ht]
  simpa using h

example : locate ⟨none, [47]⟩ [47, 97, 47, 98] [46, 47, 99] false = .real [47, 97, 47, 99] false := by
  simpa [pathMax] using relative_path_partial ⟨none, [47]⟩ [47, 97] [98] [99] false (by decide) (by decide) (by decide)

/-- C226: an import that does not begin with `./` is looked up in the directory of the
library, if there is one, exactly if that fits the buffer. -/
theorem library_path_partial (cur lib importer path : List Nat) (hp : path.take 2 ≠ [46, 47])
    (hl : lib ≠ []) (hz : 0 ∉ lib) (hy : 0 ∉ path) :
    locate ⟨some lib, cur⟩ importer path false =
      if (inDir lib path).length < pathMax then .real (inDir lib path) false else .ub := by
  obtain ⟨l, hll⟩ : ∃ l, lib.getLast? = some l := by
    cases h : lib.getLast? with
    | none => exact absurd (List.getLast?_eq_none_iff.mp h) hl
    | some l => exact ⟨l, rfl⟩
  by_cases h47 : l = 47
  · subst h47
    have := ask_two lib path false hz hy
    simp only [locate, hp, if_false, hll, inDir, if_true, ne_eq, not_true_eq_false,
      List.length_append]
    exact this
  · have := ask_two (lib ++ [47]) path false (by simp [hz]) hy
    rw [← put_snoc] at this
    simp only [locate, hp, if_false, hll, inDir, ne_eq, h47, not_false_eq_true, if_true,
      Option.some.injEq, List.length_append, List.length_cons]
    simp only [List.length_append, List.length_cons, List.length_nil] at this
    rw [show lib.length + (path.length + 1) = lib.length + 1 + path.length by omega]
    simpa using this

/-- C226: all other paths are looked up in the directory the compiler was started in,
exactly if that fits the buffer — unless this is the root. -/
theorem current_path_partial (d : Driver) (importer path : List Nat) (inc : Bool) (l : Nat)
    (hp : path.take 2 ≠ [46, 47]) (hi : inc = true ∨ d.libDir = none)
    (hl : d.currentDir.getLast? = some l) (h47 : l ≠ 47) (hz : 0 ∉ d.currentDir)
    (hy : 0 ∉ path) :
    locate d importer path inc =
      if (inDir d.currentDir path).length < pathMax then .real (inDir d.currentDir path) true
      else .ub := by
  have := ask_two (d.currentDir ++ [47]) path true (by simp [hz]) hy
  rw [← put_snoc] at this
  simp only [List.length_append, List.length_cons, List.length_nil] at this
  have e : locate d importer path inc =
      ask ((((put (fun _ => none) 0 d.currentDir).bind (put · d.currentDir.length [47])).bind
        (put · (d.currentDir.length + 1) path)).bind
          (put · (d.currentDir.length + 1 + path.length) [0])) true := by
    unfold locate
    rw [if_neg hp]
    split
    · rename_i h
      rcases hi with hi | hi
      · simp at hi
      · rw [hi] at h; simp at h
    · simp [hl, h47]
  rw [e]
  simp only [inDir, hl, Option.some.injEq, h47, if_false, List.length_append, List.length_cons]
  rw [show d.currentDir.length + (path.length + 1) = d.currentDir.length + 1 + path.length by omega]
  simpa using this

example : locate ⟨none, [47, 97]⟩ [98] [99] true = .real [47, 97, 47, 99] true := by
  have := current_path_partial ⟨none, [47, 97]⟩ [98] [99] true 97 (by decide) (by simp)
    (by simp) (by decide) (by decide) (by decide)
  simpa [inDir, pathMax] using this

/-! ### Where it is wrong -/

theorem cstr_unset (b : Buf) (c : Nat) (hc : c ≠ 0) (h0 : b 0 = some c) (h1 : b 1 = none) :
    ∀ n, cstr b n 0 = none := by
  intro n
  match n with
  | 0 => rfl
  | 1 =>
    cases c with
    | zero => exact absurd rfl hc
    | succ c => simp [cstr, h0]
  | n + 2 =>
    cases c with
    | zero => exact absurd rfl hc
    | succ c => simp [cstr, h0, h1]

/-- C226 is false of the code: a compiler started in the root directory looks up every
path of that kind with a byte in it that was never set. -/
theorem root_unset (lib : Option (List Nat)) (importer path : List Nat) (inc : Bool)
    (hp : path.take 2 ≠ [46, 47]) (hi : inc = true ∨ lib = none) :
    locate ⟨lib, [47]⟩ importer path inc = .ub := by
  have e : locate ⟨lib, [47]⟩ importer path inc =
      ask (((put (fun _ => none) 0 [47]).bind (put · 2 path)).bind (put · (2 + path.length) [0]))
        true := by
    unfold locate
    rw [if_neg hp]
    split
    · rename_i h
      rcases hi with hi | hi
      · simp at hi
      · subst hi; simp at h
    · simp
  rw [e]
  have h1 : 0 + [47].length ≤ pathMax := by simp [pathMax]
  by_cases h2 : 2 + path.length ≤ pathMax
  · by_cases h3 : 2 + path.length + [0].length ≤ pathMax
    · simp only [put, h1, h2, h3, if_true, Option.bind_some, ask]
      rw [cstr_unset _ 47 (by decide)]
      · simp
      · simp; omega
    · simp only [put, h1, h2, h3, if_true, if_false, Option.bind_some, ask]
  · simp only [put, h1, h2, if_true, if_false, Option.bind_some, Option.bind_none, ask]

/-- C226 is false of the code: if the directory of the library is given as an empty
text, as in `CXY_STDLIB_DIR=`, every import reads the byte in front of that text. -/
theorem empty_library (cur importer path : List Nat) (hp : path.take 2 ≠ [46, 47]) :
    locate ⟨some [], cur⟩ importer path false = .ub := by
  simp [locate, hp]

/-! ### What is missing is reported -/

/-- Specification: a look-up that ended and found no file. -/
def Missing (s : Seen) : Prop := ∃ r, s = .error r

/-- C227: an import without a file is always reported. -/
theorem import_reported_partial (rp : List Nat → Option (List Nat)) (d : Driver)
    (importer path : List Nat) (h : Missing (importFile rp d importer path)) :
    importFile rp d importer path = .error true := by
  obtain ⟨r, h⟩ := h
  unfold importFile at h ⊢
  split at h
  · simp at h
  · split at h
    · simp at h
    · rename_i hn
      simp [hn]
  · split at h
    · simp at h
    · rename_i hn
      simp [hn]

/-- C227 is false of the code: exactly the includes that begin with `./` (in a file
whose path has a directory) end the compilation without a message when the file does
not exist. -/
theorem include_reported_iff (rp : List Nat → Option (List Nat)) (d : Driver)
    (importer path : List Nat) (h : Missing (includeFile rp d importer path)) :
    includeFile rp d importer path = .error false ↔
      path.take 2 = [46, 47] ∧ (lastSlash importer).isSome := by
  obtain ⟨r, h⟩ := h
  by_cases hp : path.take 2 = [46, 47]
  · cases hs : lastSlash importer with
    | none =>
      simp only [includeFile, locate, hp, if_true, hs] at h ⊢
      split at h
      · simp at h
      · rename_i hn
        simp [hn]
    | some s =>
      have key : ∀ b, ∀ p r', ask b false = .real p r' → r' = false := by
        intro b p r' q
        unfold ask at q
        split at q
        · simp at q
        · split at q
          · simp at q
          · simp only [Ask.real.injEq] at q; exact q.2.symm
      simp only [includeFile, locate, hp, if_true, hs, Option.isSome_some, and_self, iff_true] at h ⊢
      split at h
      · simp at h
      · rename_i q
        unfold ask at q
        split at q
        · simp at q
        · split at q <;> simp at q
      · rename_i q
        have := key _ _ _ q
        split at h
        · simp at h
        · rename_i hn
          simp [this]
  · have key : ∀ b, ∀ p r', ask b true = .real p r' → r' = true := by
      intro b p r' q
      unfold ask at q
      split at q
      · simp at q
      · split at q
        · simp at q
        · simp only [Ask.real.injEq] at q; exact q.2.symm
    have noasis : ∀ b p, ask b true ≠ .asIs p := by
      intro b p q
      unfold ask at q
      split at q
      · simp at q
      · split at q <;> simp at q
    simp only [hp, false_and, iff_false]
    intro hc
    simp only [includeFile, locate, hp, if_false] at hc
    cases hl : d.currentDir.getLast? with
    | none => simp [hl] at hc
    | some l =>
      simp only [hl] at hc
      split at hc
      · simp at hc
      · rename_i q; exact noasis _ _ q
      · rename_i q
        have := key _ _ _ q
        split at hc
        · simp at hc
        · simp [this] at hc

/-- There are such includes: any file `./…` that fits and does not exist. -/
theorem relative_include_silent (d : Driver) (dir file rest : List Nat)
    (rp : List Nat → Option (List Nat)) (hf : 47 ∉ file) (hd : 0 ∉ dir) (hr : 0 ∉ rest)
    (hn : dir.length + 1 + rest.length < pathMax) (hm : rp (dir ++ 47 :: rest) = none) :
    includeFile rp d (dir ++ 47 :: file) (46 :: 47 :: rest) = .error false := by
  simp [includeFile, relative_path_partial d dir file rest true hf hd hr, hn, hm]

example : includeFile (fun _ => none) ⟨none, [47, 97]⟩ [47, 97, 47, 98] [46, 47, 99] = .error false :=
  relative_include_silent _ [47, 97] [98] [99] _ (by decide) (by decide) (by decide) (by decide) rfl

end Verif.ModPath
