import Verif.Std.Str.View
/-!
# Splitting paths (`src/cxy/stdlib/path.cxy` 269-287) and handing them to C (190-199)

Paths are byte strings; the separator is `/` (`UNIX` defined).  `PathLike` values are their `__string`.
-/
namespace Verif.Path

open Verif.Str

/-- path.cxy 269-277 `dirname` -/
def dirname (path : List Nat) : Out (List Nat) :=
  (rfind path [47]).bind fun sep =>
    match sep with
    | some k => substr path 0 (k : Int)
    | none => .ok path

/-- path.cxy 279-287 `basename` -/
def basename (path : List Nat) : Out (List Nat) :=
  (rfind path [47]).bind fun sep =>
    match sep with
    | some k => substr path (k + 1) (-1)
    | none => .ok path

/-- path.cxy 42-50: `/`, joining a path and a name. -/
def join (path name : List Nat) : Out (List Nat) :=
  (endswith path [47]).bind fun b => .ok (if b then path ++ name else path ++ [47] ++ name)

theorem rfind_last (path : List Nat) : ∃ r, rfind path [47] = .ok r ∧ IsLast (OccursAt path [47]) r := by
  unfold rfind
  by_cases h : path.length ≥ [47].length
  · rw [if_pos h, if_neg (by simp)]
    simp at h
    exact rfindLoop_last path [47] (by simpa using h) _ (by simp; omega) (fun k hk ho => by
      rw [occursAt_iff] at ho
      simp at ho hk
      omega)
  · rw [if_neg h]
    refine ⟨none, rfl, ?_⟩
    simp at h
    subst h
    intro k hk
    rw [occursAt_iff] at hk
    simp at hk

theorem occurs_mem (path : List Nat) (k : Nat) : OccursAt path [47] k ↔ path[k]? = some 47 := by
  constructor
  · rintro ⟨a, b, e, rfl⟩; rw [e]; simp
  · intro h
    obtain ⟨hk, e⟩ := List.getElem?_eq_some_iff.mp h
    refine ⟨path.take k, path.drop (k + 1), ?_, by simp; omega⟩
    conv => lhs; rw [← List.take_append_drop k path]
    rw [List.append_assoc]
    congr 1
    rw [← e]
    simp

/-- **C44.** For a path with a separator, directory name, separator and base name put together give the path, and the base
name contains no separator; a path without one is its own base name and directory name. -/
theorem split_lossless (path : List Nat) :
    (47 ∈ path → ∃ d b, dirname path = .ok d ∧ basename path = .ok b ∧ path = d ++ [47] ++ b ∧ 47 ∉ b) ∧
    (47 ∉ path → dirname path = .ok path ∧ basename path = .ok path) := by
  obtain ⟨r, hr, hl⟩ := rfind_last path
  constructor
  · intro hm
    cases r with
    | none =>
      obtain ⟨k, hk, e⟩ := List.mem_iff_getElem.mp hm
      exact absurd ((occurs_mem path k).mpr (List.getElem?_eq_some_iff.mpr ⟨hk, e⟩)) (hl k)
    | some k =>
      obtain ⟨hocc, hlast⟩ := hl
      have hget := (occurs_mem path k).mp hocc
      obtain ⟨hk, he⟩ := List.getElem?_eq_some_iff.mp hget
      refine ⟨path.take k, path.drop (k + 1), ?_, ?_, ?_, ?_⟩
      · unfold dirname
        rw [hr, Out.bind_ok]
        simp only [substr]
        rw [if_pos (by omega), if_neg (by omega), if_pos (by omega)]
        simp
      · unfold basename
        rw [hr, Out.bind_ok]
        simp only [substr]
        rw [if_pos (by omega), if_pos trivial, List.take_of_length_le (by simp)]
      · conv => lhs; rw [← List.take_append_drop k path]
        rw [List.append_assoc]
        congr 1
        rw [← he]; simp
      · intro hb
        obtain ⟨j, hj, e⟩ := List.mem_iff_getElem.mp hb
        rw [List.getElem_drop] at e
        have hlt : k + 1 + j < path.length := by rw [List.length_drop] at hj; omega
        have ho := (occurs_mem path (k + 1 + j)).mpr (List.getElem?_eq_some_iff.mpr ⟨hlt, e⟩)
        exact hlast (k + 1 + j) (by omega) ho
  · intro hm
    cases r with
    | none => simp [dirname, basename, hr]
    | some k =>
      have := (occurs_mem path k).mp hl.1
      exact absurd (List.mem_of_getElem? this) hm

/-- Joining a directory name and a base name gives a path that splits back into them. -/
theorem join_split (dir name : List Nat) (h0 : 0 ∉ dir) (hd : dir.getLast? ≠ some 47) (hn : 47 ∉ name) :
    ∃ p, join dir name = .ok p ∧ dirname p = .ok dir ∧ basename p = .ok name := by
  have hj : join dir name = .ok (dir ++ [47] ++ name) := by
    unfold join
    obtain ⟨_, _, b, hb, hiff⟩ := views_partial dir [47] h0
    rw [hb, Out.bind_ok]
    have : b = false := by
      rw [← Bool.not_eq_true, hiff]
      rintro ⟨r, rfl⟩
      simp at hd
    rw [this]; rfl
  refine ⟨_, hj, ?_⟩
  obtain ⟨d, b, h1, h2, h3, h4⟩ := (split_lossless (dir ++ [47] ++ name)).1 (by simp)
  rw [h1, h2]
  have key : ∀ (a c : List Nat) (x y : List Nat), 47 ∉ x → 47 ∉ y → a ++ [47] ++ x = c ++ [47] ++ y → a = c ∧ x = y := by
    intro a
    induction a with
    | nil =>
      intro c x y hx hy e
      cases c with
      | nil => simpa using e
      | cons z zs =>
        simp at e
        exact absurd (by rw [e.2]; simp) hx
    | cons w ws ih =>
      intro c x y hx hy e
      cases c with
      | nil =>
        simp at e
        exact absurd (by rw [← e.2]; simp) hy
      | cons z zs =>
        simp at e
        have := ih zs x y hx hy (by simpa using e.2)
        exact ⟨by rw [e.1, this.1], this.2⟩
  obtain ⟨e1, e2⟩ := key dir d name b hn h4 h3
  rw [e1, e2]
  exact ⟨rfl, rfl⟩

example : dirname [47, 97, 47, 98] = .ok [47, 97] ∧ basename [47, 97, 47, 98] = .ok [98] ∧ dirname [97] = .ok [97] ∧
    dirname [47, 97] = .ok [] := by decide

/-! ## Handing a view to a C function -/

/-- The memory a view points into: the bytes of the view and what follows it (at least one byte can be read). -/
structure View where
  bytes : List Nat
  after : List Nat

/-- The C string found at the start of some bytes: up to the first NUL, or undefined behaviour. -/
def cstr : List Nat → Out (List Nat)
  | [] => .ub
  | 0 :: _ => .ok []
  | (c + 1) :: r => (cstr r).bind fun s => .ok ((c + 1) :: s)

/-- builtins.cxy 451-453 `isnt`: whether the view is followed by a NUL; an empty view is not inspected. -/
def isnt (v : View) : Out Bool :=
  if v.bytes = [] then .ok false
  else match v.after with
    | [] => .ub
    | c :: _ => .ok (c = 0)

/-- path.cxy 190-199 `withNullTermination`: the C string the callback sees; `copyto` asserts that it fits 1024 bytes. -/
def seen (v : View) : Out (List Nat) :=
  (isnt v).bind fun b =>
    if b then (if 1024 > v.bytes.length then cstr (v.bytes ++ [0]) else .abort)
    else cstr (v.bytes ++ v.after)

theorem cstr_append (a r : List Nat) (h : 0 ∉ a) : cstr (a ++ r) = (cstr r).bind fun s => .ok (a ++ s) := by
  induction a with
  | nil => simp only [List.nil_append]; cases cstr r <;> rfl
  | cons c a ih =>
    cases c with
    | zero => simp at h
    | succ c =>
      simp only [List.cons_append, cstr]
      rw [ih (by simpa using h)]
      cases cstr r <;> rfl

/-- **C91 (partial).** A path that is followed by a NUL and shorter than 1024 bytes reaches the operating system as
written.  Missing: paths followed by other bytes (`piece_leaks`) and long ones (`long_path_aborts`). -/
theorem path_reaches_os_partial (p rest : List Nat) (h0 : 0 ∉ p) (hl : p.length < 1024) :
    seen ⟨p, 0 :: rest⟩ = .ok p := by
  unfold seen isnt
  by_cases hp : p = []
  · subst hp; simp [cstr]
  · simp only
    rw [if_neg hp, Out.bind_ok]
    simp only [decide_true, if_true]
    rw [if_pos hl, cstr_append _ _ h0]
    simp [cstr]

/-- **C91 fails** for every non-empty piece of a longer string: the function meant to copy such a piece passes the whole
rest of the string, so `exists`, `mkdir` and the others act on a different file. -/
theorem piece_leaks (p q rest : List Nat) (hp : 0 ∉ p) (hne : p ≠ []) (hq : 0 ∉ q) (hqne : q ≠ []) :
    seen ⟨p, q ++ 0 :: rest⟩ = .ok (p ++ q) := by
  unfold seen isnt
  simp only
  rw [if_neg hne]
  cases q with
  | nil => exact absurd rfl hqne
  | cons c q =>
    have hc : c ≠ 0 := by rintro rfl; simp at hq
    simp only [List.cons_append]
    rw [Out.bind_ok]
    simp only [hc, decide_false, Bool.false_eq_true, if_false]
    rw [← List.cons_append, cstr_append _ _ hp, cstr_append _ _ hq]
    simp [cstr]

/-- **C91 fails** for paths of 1024 bytes and more: the check aborts the program. -/
theorem long_path_aborts (p rest : List Nat) (hl : 1024 ≤ p.length) : seen ⟨p, 0 :: rest⟩ = .abort := by
  unfold seen isnt
  have hp : p ≠ [] := by rintro rfl; simp at hl
  simp only
  rw [if_neg hp, Out.bind_ok]
  simp only [decide_true, if_true]
  rw [if_neg (by omega)]

example : seen ⟨[97], [47, 98, 0]⟩ = .ok [97, 47, 98] ∧ seen ⟨[97], [0]⟩ = .ok [97] := by decide

end Verif.Path
