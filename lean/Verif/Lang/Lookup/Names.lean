import Verif.Lang.Lookup.Sort
/-! # Names are found exactly when they are declared -/
namespace Verif.Lookup
open Verif

variable {δ : Type}

/-- Small enough for the `int` indices of the search: fewer than 2^31 members. -/
def Countable (n : Nat) : Prop := n < 2147483648

/-- A name of the source has no 0 byte. -/
def Plain (n : Name) : Prop := ∀ x ∈ n, 0 < x

instance (n : Name) : Decidable (Plain n) := by unfold Plain; infer_instance
instance (n : Nat) : Decidable (Countable n) := by unfold Countable; infer_instance

theorem sortedMembers_sorted (members : List (Member δ)) (hm : ∀ m ∈ members, Plain m.name) :
    (sortedMembers members).Pairwise fun a b => strcmp a.name b.name ≤ 0 := by
  have hp := qsort_perm compareMembers members
  refine (inOrder_pairwise (cmp := compareMembers)
    (r := fun a b : Member δ => Plain a.name ∧ Plain b.name ∧ strcmp a.name b.name ≤ 0) _ ?_ ?_
    (qsort_inOrder ?_ members)).imp (fun h => h.2.2)
  · intro a ha b hb h
    exact ⟨hm a (hp.subset ha), hm b (hp.subset hb), h⟩
  · rintro a b c ⟨ha, hb, h1⟩ ⟨_, hc, h2⟩
    exact ⟨ha, hc, strcmp_trans _ _ _ ha hb h1 h2⟩
  · intro a b h
    have := strcmp_swap a.name b.name
    unfold compareMembers at h ⊢
    omega

/-- **C121.** Looking up a name among the members of a type, or the options of an enumeration, gives
a member of that name when one is declared and nothing otherwise, whatever the order of the
declaration. -/
theorem lookup_finds_declared (members : List (Member δ)) (name : Name)
    (hn : Countable members.length) (hc : Plain name) (hm : ∀ m ∈ members, Plain m.name) :
    (∃ m ∈ members, m.name = name ∧ findMember members name = .ok (some m)) ∨
    ((∀ m ∈ members, m.name ≠ name) ∧ findMember members name = .ok none) := by
  have hp := qsort_perm compareMembers members
  rcases entry_search (sortedMembers members) name
      (by have := hp.length_eq; unfold sortedMembers; unfold Countable at hn; omega) hc
      (fun m h => hm m (hp.subset h)) (sortedMembers_sorted members hm) with ⟨m, h1, h2, h3⟩ | ⟨h1, h2⟩
  · exact .inl ⟨m, hp.subset h1, h2, h3⟩
  · exact .inr ⟨fun m h => h1 m (hp.symm.subset h), h2⟩

/-- **C121.** When the names differ, the lookup gives the declaration that a walk through the
members would give. -/
theorem lookup_is_exact (members : List (Member δ)) (name : Name)
    (hn : Countable members.length) (hc : Plain name) (hm : ∀ m ∈ members, Plain m.name)
    (hd : (members.map (·.name)).Nodup) :
    findMember members name = .ok (members.find? fun m => m.name == name) := by
  rcases lookup_finds_declared members name hn hc hm with ⟨m, h1, h2, h3⟩ | ⟨h1, h2⟩
  · rw [h3]
    clear h3 hn hc hm
    refine congrArg _ ?_
    symm
    subst h2
    induction members with
    | nil => cases h1
    | cons a l ih =>
      rw [List.map_cons, List.nodup_cons] at hd
      rcases List.mem_cons.mp h1 with rfl | h1
      · simp
      · have hne : a.name ≠ m.name := fun h => hd.1 (h ▸ List.mem_map_of_mem h1)
        rw [List.find?_cons_of_neg (by simpa using hne)]
        exact ih hd.2 h1
  · rw [h2]
    refine congrArg _ ?_
    symm
    rw [List.find?_eq_none]
    intro m h
    simpa using h1 m h

example : findMember [⟨bytes "y", 0⟩, ⟨bytes "x", 1⟩, ⟨bytes "name", 2⟩, ⟨bytes "xs", 3⟩] (bytes "xs")
    = .ok (some ⟨bytes "xs", 3⟩) := by
  rw [lookup_is_exact _ _ (by decide) (by decide +kernel) (by decide +kernel) (by decide +kernel)]
  rfl

/-- **C121.** A member of a class is looked up in the class itself first, then in its bases in
order: the nearest class that declares the name gives the member. -/
theorem inherited_lookup_is_nearest (chain : List (List (Member δ))) (name : Name)
    (hn : ∀ c ∈ chain, Countable c.length) (hc : Plain name)
    (hm : ∀ c ∈ chain, ∀ m ∈ c, Plain m.name) :
    (∃ front c back m, chain = front ++ c :: back ∧ (∀ d ∈ front, ∀ m ∈ d, m.name ≠ name) ∧
      m ∈ c ∧ m.name = name ∧ findInherited chain name = .ok (some m)) ∨
    ((∀ c ∈ chain, ∀ m ∈ c, m.name ≠ name) ∧ findInherited chain name = .ok none) := by
  induction chain with
  | nil => exact .inr ⟨fun c h => by simp at h, rfl⟩
  | cons c cs ih =>
    rcases lookup_finds_declared c name (hn c (.head _)) hc (hm c (.head _))
      with ⟨m, h1, h2, h3⟩ | ⟨h1, h2⟩
    · exact .inl ⟨[], c, cs, m, rfl, (fun d h => by simp at h), h1, h2, by rw [findInherited, h3]; rfl⟩
    · rcases ih (fun d h => hn d (.tail _ h)) (fun d h => hm d (.tail _ h)) with
        ⟨front, d, back, m, e, hf, hmem, hname, hr⟩ | ⟨h3, h4⟩
      · refine .inl ⟨c :: front, d, back, m, by rw [e]; rfl, ?_, hmem, hname, ?_⟩
        · intro d' hd'
          rcases List.mem_cons.mp hd' with rfl | hd'
          · exact h1
          · exact hf d' hd'
        · rw [findInherited, h2]; exact hr
      · refine .inr ⟨?_, by rw [findInherited, h2]; exact h4⟩
        intro d hd
        rcases List.mem_cons.mp hd with rfl | hd
        · exact h1
        · exact h3 d hd

example : Plain (bytes "area") ∧
    ∃ m ∈ [(⟨bytes "area", 1⟩ : Member Nat)], m.name = bytes "area" := by
  decide +kernel

/-- The names of `builtinMacros` are in the order that the search needs, and no name is 0 inside. -/
theorem macros_sorted :
    (builtinMacros.Pairwise fun a b => strcmp a.name b.name ≤ 0) ∧
    (∀ m ∈ builtinMacros, ∀ x ∈ m.name, 0 < x) ∧ (builtinMacros.map (·.name)).Nodup := by
  decide +kernel

/-- **C121.** Every builtin macro is found under its name with its own handler, and no other name is
taken for a builtin macro. -/
theorem macro_lookup_is_exact (name : Name) (hc : Plain name) :
    (∃ m ∈ builtinMacros, m.name = name ∧ findBuiltinMacro name = .ok (some m)) ∨
    ((∀ m ∈ builtinMacros, m.name ≠ name) ∧ findBuiltinMacro name = .ok none) :=
  entry_search builtinMacros name (by decide) hc macros_sorted.2.1 macros_sorted.1

/-- Every macro of the table can be called. -/
theorem every_macro_is_found (m : Member String) (h : m ∈ builtinMacros) :
    findBuiltinMacro m.name = .ok (some m) := by
  rcases macro_lookup_is_exact m.name (macros_sorted.2.1 m h) with ⟨k, h1, h2, h3⟩ | ⟨h1, _⟩
  · rw [h3]
    have hnd := macros_sorted.2.2
    have : k = m := by
      obtain ⟨i, hi, rfl⟩ := List.mem_iff_getElem.mp h1
      obtain ⟨j, hj, rfl⟩ := List.mem_iff_getElem.mp h
      have := (List.getElem_inj (h₀ := by simpa using hi) (h₁ := by simpa using hj) hnd).mp
        (by simpa using h2)
      subst this; rfl
    rw [this]
  · exact absurd rfl (h1 m h)

example : findBuiltinMacro (bytes "typeof") = .ok (some ⟨bytes "typeof", "makeTypeofNode"⟩) :=
  every_macro_is_found ⟨bytes "typeof", "makeTypeofNode"⟩ (by decide +kernel)

end Verif.Lookup
