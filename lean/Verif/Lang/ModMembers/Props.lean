import Verif.Lang.ModMembers.Model
/-!
# The members of a module: properties
-/
namespace Verif.ModMembers

/-- The names that a declaration makes known: an alias stands for the name. -/
def visible : Decl → List Nat
  | .import _ => []
  | .defines n => [n]
  | .names ns => ns.map (fun p => match p.2 with | some a => a | none => p.1)
  | .skip => []
  | .decl n => [n]

/-- What is written for a declaration behind the imports. -/
def written : Decl → List Nat
  | .import n => [n]
  | d => visible d

theorem put_iff (cap : Nat) (ms : List Nat) (n : Nat) : put cap ms n = if (ms ++ [n]).length ≤ cap then some (ms ++ [n]) else none := by
  unfold put; simp only [List.length_append, List.length_cons, List.length_nil, Nat.zero_add, Nat.succ_le_iff]

theorem addNames_eq (cap : Nat) : ∀ (ns : List (Nat × Option Nat)) (ms : List Nat), ms.length ≤ cap →
    addNames cap ns ms = if (ms ++ visible (.names ns)).length ≤ cap then some (ms ++ visible (.names ns)) else none
  | [], ms, h => by simp [addNames, visible, h]
  | (v, a) :: ns, ms, h => by
    have hv : visible (.names ((v, a) :: ns)) = a.getD v :: visible (.names ns) := by cases a <;> simp [visible]
    rw [addNames, put_iff, hv]
    split
    · rename_i hle
      rw [Option.bind_some, addNames_eq cap ns _ hle]
      simp
    · rename_i hgt
      rw [Option.bind_none, if_neg]
      simp only [List.length_append, List.length_cons, List.length_nil] at hgt ⊢
      omega

theorem add_eq (cap : Nat) (ms : List Nat) (h : ms.length ≤ cap) : ∀ d : Decl,
    add cap ms d = if (ms ++ written d).length ≤ cap then some (ms ++ written d) else none
  | .import n => put_iff ..
  | .defines n => put_iff ..
  | .names ns => addNames_eq cap ns ms h
  | .skip => by simp [add, written, visible, h]
  | .decl n => put_iff ..

theorem addDecls_eq (cap : Nat) : ∀ (ds : List Decl) (ms : List Nat), ms.length ≤ cap →
    addDecls cap ds ms = if (ms ++ ds.flatMap written).length ≤ cap then some (ms ++ ds.flatMap written) else none
  | [], ms, h => by simp [addDecls, h]
  | d :: ds, ms, h => by
    rw [addDecls, add_eq cap ms h]
    split
    · rename_i hle
      rw [Option.bind_some, addDecls_eq cap ds _ hle]
      simp
    · rename_i hgt
      rw [Option.bind_none, if_neg]
      simp only [List.length_append, List.flatMap_cons] at hgt ⊢
      omega

theorem addTop_eq (cap : Nat) : ∀ (ds : List Decl) (ms : List Nat), ms.length ≤ cap →
    addTop cap ds ms = if (ms ++ ds.flatMap visible).length ≤ cap then some (ms ++ ds.flatMap visible) else none
  | [], ms, h => by simp [addTop, h]
  | d :: ds, ms, h => by
    by_cases hi : ∃ n, d = .import n
    · obtain ⟨n, rfl⟩ := hi
      rw [addTop, addTop_eq cap ds ms h]
      simp [visible]
    · have hw : written d = visible d := by
        cases d <;> first | rfl | exact absurd ⟨_, rfl⟩ hi
      have ht : addTop cap (d :: ds) ms = (add cap ms d).bind (addTop cap ds) := by
        cases d <;> first | rfl | exact absurd ⟨_, rfl⟩ hi
      rw [ht, add_eq cap ms h, hw]
      split
      · rename_i hle
        rw [Option.bind_some, addTop_eq cap ds _ hle]
        simp
      · rename_i hgt
        rw [Option.bind_none, if_neg]
        simp only [List.length_append, List.flatMap_cons] at hgt ⊢
        omega

/-- How many declarations are skipped. -/
def skips (ds : List Decl) : Nat := (ds.filter (fun d => match d with | .skip => true | _ => false)).length

/-- How many declarations are imports. -/
def imports (ds : List Decl) : Nat := (ds.filter (fun d => match d with | .import _ => true | _ => false)).length

theorem count_visible : ∀ ds : List Decl, countDecls ds = (ds.flatMap visible).length + skips ds
  | [] => rfl
  | d :: ds => by
    have := count_visible ds
    unfold skips at this ⊢
    cases d <;> simp [countDecls, visible, this] <;> omega

theorem written_length : ∀ ds : List Decl, (ds.flatMap written).length = (ds.flatMap visible).length + imports ds
  | [] => rfl
  | d :: ds => by
    have := written_length ds
    unfold imports at this ⊢
    cases d <;> simp only [List.flatMap_cons, List.length_append, List.filter_cons] <;> simp [written, visible] at this ⊢ <;> omega

theorem build_eq (top decls : List Decl) : build top decls =
    if imports decls ≤ skips top + skips decls then some (top.flatMap visible ++ decls.flatMap written) else none := by
  have h1 := count_visible top
  have h2 := count_visible decls
  have h3 := written_length decls
  unfold build
  simp only
  rw [addTop_eq _ _ _ (Nat.zero_le _), if_pos (by simp only [List.nil_append]; omega), Option.bind_some,
    addDecls_eq _ _ _ (by simp only [List.nil_append]; omega)]
  simp only [List.nil_append, List.length_append]
  by_cases h : imports decls ≤ skips top + skips decls
  · rw [if_pos h, if_pos (by omega)]
  · rw [if_neg h, if_neg (by omega)]

/-- **The members of a module are what it declares**: in order, each name once for each declaration of it, none left out and nothing
else, and the array is long enough; for files as the parser builds them, with imports only at the beginning. -/
theorem members_right (top decls : List Decl) (h : ∀ d ∈ decls, ∀ n, d ≠ .import n) :
    build top decls = some ((top ++ decls).flatMap visible) := by
  have hi : imports decls = 0 := by
    unfold imports
    rw [List.length_eq_zero_iff, List.filter_eq_nil_iff]
    intro d hd
    cases d with
    | «import» n => exact absurd rfl (h _ hd n)
    | _ => simp
  have hw : decls.flatMap written = decls.flatMap visible := by
    have := written_length decls
    clear hi this
    induction decls with
    | nil => rfl
    | cons d ds ih =>
      rw [List.flatMap_cons, List.flatMap_cons, ih (fun d hd => h d (List.mem_cons_of_mem _ hd))]
      congr 1
      cases d with
      | «import» n => exact absurd rfl (h _ (List.mem_cons_self ..) n)
      | _ => rfl
  rw [build_eq, if_pos (by omega), hw, List.flatMap_append]

/-- **The array is long enough exactly if there are not more imports behind other declarations than declarations that are skipped.** -/
theorem fits_iff (top decls : List Decl) : (build top decls).isSome ↔ imports decls ≤ skips top + skips decls := by
  rw [build_eq]
  by_cases h : imports decls ≤ skips top + skips decls <;> simp [h]

/-! ## Cases -/

/-- Two imports, definitions with and without alias, C code, and two declarations. -/
example : build [.import 1, .names [(2, none), (3, some 30)], .import 4] [.decl 5, .skip, .defines 6] = some [2, 30, 5, 6] :=
  members_right [.import 1, .names [(2, none), (3, some 30)], .import 4] [.decl 5, .skip, .defines 6] (by simp)
/-- An import behind a declaration would not fit. -/
example : build [] [.decl 5, .import 1] = none := by decide

end Verif.ModMembers
