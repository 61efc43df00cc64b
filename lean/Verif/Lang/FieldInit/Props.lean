import Verif.Lang.FieldInit.Model
/-!
# Default values of fields in new objects: properties
-/
namespace Verif.FieldInit

/-- The fields of all classes of a chain that have default values. -/
def all (ch : List Cls) : List (Nat × Nat) := ch.flatMap Cls.defaults

/-- No two classes of the chain, and no class itself, declare the same field. -/
def Apart (ch : List Cls) : Prop := ((all ch).map Prod.fst).Nodup

theorem fold_miss : ∀ (as : List (Nat × Nat)) (st : Nat → Nat) (f : Nat), f ∉ as.map Prod.fst →
    as.foldl (fun st a => upd st a.1 a.2) st f = st f
  | [], _, _, _ => rfl
  | (g, v) :: as, st, f, h => by
    have hg : f ≠ g := fun e => h (by simp [e])
    rw [List.foldl_cons, fold_miss as _ f (fun m => h (List.mem_cons_of_mem _ m)), upd_ne _ _ hg]

theorem fold_hit : ∀ (as : List (Nat × Nat)) (st : Nat → Nat) (f v : Nat), (as.map Prod.fst).Nodup → (f, v) ∈ as →
    as.foldl (fun st a => upd st a.1 a.2) st f = v
  | (g, w) :: as, st, f, v, hn, h => by
    obtain ⟨h1, h2⟩ := List.nodup_cons.1 hn
    rw [List.foldl_cons]
    rcases List.mem_cons.1 h with e | h
    · cases e
      rw [fold_miss as _ g h1, upd_same]
    · exact fold_hit as _ f v h2 h

/-- The classes before the first without `__defaults_init`. -/
def front (ch : List Cls) : List Cls := ch.takeWhile Cls.hasInit

theorem assigns_perm : ∀ (ch : List Cls), (assigns ch).Perm (all (front ch))
  | [] => .refl _
  | c :: bs => by
    rw [assigns, front]
    cases hc : c.hasInit with
    | false => simp [List.takeWhile, hc, all]
    | true =>
      simp only [List.takeWhile, hc, if_true]
      have := assigns_perm bs
      exact ((this.append_right _).trans List.perm_append_comm)

theorem front_sub (ch : List Cls) : (all (front ch)).Sublist (all ch) := by
  unfold all front
  induction ch with
  | nil => exact .refl _
  | cons c bs ih =>
    simp only [List.takeWhile]
    split
    · exact List.Sublist.append (.refl _) ih
    · exact List.nil_sublist _

theorem nodup_assigns {ch : List Cls} (h : Apart ch) : ((assigns ch).map Prod.fst).Nodup :=
  (((assigns_perm ch).map Prod.fst).nodup_iff).2 ((List.Sublist.map Prod.fst (front_sub ch)).nodup h)

/-- A field of the class at the end of `pre` has its default value exactly if each class before it has a `__defaults_init`; otherwise it
is zero. -/
theorem created_eq {ch pre rest : List Cls} {c : Cls} {f v : Nat} (h : Apart ch) (e : ch = pre ++ c :: rest) (hf : (f, v) ∈ c.defaults) :
    created ch f = if pre.all Cls.hasInit then v else 0 := by
  have hc : c.hasInit = true := by
    unfold Cls.hasInit
    cases hd : c.defaults with
    | nil => rw [hd] at hf; cases hf
    | cons => simp
  unfold created
  cases hp : pre.all Cls.hasInit with
  | true =>
    have : (f, v) ∈ all (front ch) := by
      unfold all front
      rw [e, List.takeWhile_append_of_pos (by intro d hd; exact List.all_eq_true.1 hp d hd)]
      simp only [List.takeWhile, hc, List.flatMap_append, List.flatMap_cons, List.mem_append]
      exact .inr (.inl hf)
    rw [fold_hit _ _ f v (nodup_assigns h) ((assigns_perm ch).mem_iff.2 this)]
    rfl
  | false =>
    rw [fold_miss]
    · rfl
    · intro hm
      obtain ⟨⟨g, w⟩, hm', eq⟩ := List.mem_map.1 hm
      simp only at eq
      subst eq
      clear hm
      have hm := (assigns_perm ch).mem_iff.1 hm'
      -- the classes in front are among `pre`
      have hfr : front ch = front pre := by
        unfold front
        rw [e]
        have : ∃ d ∈ pre, d.hasInit = false := by
          obtain ⟨d, hd, hx⟩ := List.all_eq_false.1 hp
          exact ⟨d, hd, by simpa using hx⟩
        clear hp h e hm
        obtain ⟨d, hd, hx⟩ := this
        induction pre with
        | nil => cases hd
        | cons a pre ih =>
          simp only [List.cons_append, List.takeWhile]
          split
          · rename_i ha
            rcases List.mem_cons.1 hd with rfl | hd
            · rw [hx] at ha; cases ha
            · rw [ih hd]
          · rfl
      rw [hfr] at hm
      have hm : (g, w) ∈ all pre := (front_sub pre).subset hm
      unfold Apart at h
      rw [e] at h
      unfold all at h hm
      rw [List.flatMap_append, List.map_append] at h
      have := (List.nodup_append.1 h).2.2 g (List.mem_map.2 ⟨_, hm, rfl⟩) g
        (by simp only [List.flatMap_cons, List.map_append, List.mem_append]
            exact .inl (List.mem_map.2 ⟨_, hf, rfl⟩))
      exact this rfl

/-- **Fields get their default values exactly if no class in between is without**: in a new object each field of the class and of its
bases has its default value if and only if each class below (derived from) a class with a default value other than zero has a default
value itself or virtual functions. -/
theorem defaults_iff (ch : List Cls) (h : Apart ch) :
    (∀ c ∈ ch, ∀ f v, (f, v) ∈ c.defaults → created ch f = v) ↔
    ∀ pre c rest, ch = pre ++ c :: rest → (∃ f v, (f, v) ∈ c.defaults ∧ v ≠ 0) → ∀ d ∈ pre, d.virt = true ∨ d.defaults ≠ [] := by
  have hi : ∀ d : Cls, d.hasInit = true ↔ d.virt = true ∨ d.defaults ≠ [] := by
    intro d; unfold Cls.hasInit
    cases d.defaults <;> simp
  constructor
  · intro ha pre c rest e hv d hd
    obtain ⟨f, v, hf, hv⟩ := hv
    have h1 := ha c (by rw [e]; simp) f v hf
    rw [created_eq h e hf] at h1
    rw [← hi]
    cases hp : pre.all Cls.hasInit with
    | true => exact List.all_eq_true.1 hp d hd
    | false => rw [hp] at h1; exact absurd h1.symm hv
  · intro hall c hc f v hf
    obtain ⟨pre, rest, e⟩ := List.append_of_mem hc
    rw [created_eq h e hf]
    by_cases hv : v = 0
    · subst hv; split <;> rfl
    · have : pre.all Cls.hasInit = true :=
        List.all_eq_true.2 (fun d hd => (hi d).2 (hall pre c rest e ⟨f, v, hf, hv⟩ d hd))
      simp [this]

/-- **If each class has a default value or virtual functions, every field has its default value.** -/
theorem defaults_right_partial (ch : List Cls) (h : Apart ch) (hd : ∀ d ∈ ch, d.virt = true ∨ d.defaults ≠ []) {c : Cls} (hc : c ∈ ch)
    {f v : Nat} (hf : (f, v) ∈ c.defaults) : created ch f = v :=
  (defaults_iff ch h).2 (fun pre _ rest e _ d hm => hd d (by rw [e]; simp [hm])) c hc f v hf

/-- **A class that adds no default value loses those of its bases**: then all fields are zero. -/
theorem plain_class_loses (c : Cls) (bs : List Cls) (hv : c.virt = false) (hd : c.defaults = []) (f : Nat) : created (c :: bs) f = 0 := by
  unfold created
  simp [assigns, Cls.hasInit, hv, hd]

/-- Fields without a default value are zero. -/
theorem others_zero (ch : List Cls) (f : Nat) (h : f ∉ (all ch).map Prod.fst) : created ch f = 0 := by
  unfold created
  rw [fold_miss]
  intro hm
  exact h ((List.Sublist.map Prod.fst (front_sub ch)).subset (((assigns_perm ch).map Prod.fst).mem_iff.1 hm))

/-! ## Cases -/

/-- `class A { a = 5; }`, `class B: A { n: i32 }`, `class C: B { c = 7; }`. -/
def cA : Cls := ⟨[(0, 5)], false⟩
def cB : Cls := ⟨[], false⟩
def cC : Cls := ⟨[(2, 7)], false⟩

example : Apart [cC, cB, cA] ∧ created [cC, cB, cA] 2 = 7 ∧ created [cC, cB, cA] 0 = 0 ∧ created [cB, cA] 0 = 0 ∧ created [cA] 0 = 5 :=
  ⟨by unfold Apart; decide, rfl, rfl, rfl, rfl⟩

/-- With virtual functions in `A` all is well. -/
example : created [⟨[(2, 7)], true⟩, ⟨[], true⟩, ⟨[(0, 5)], true⟩] 0 = 5 :=
  defaults_right_partial [⟨[(2, 7)], true⟩, ⟨[], true⟩, ⟨[(0, 5)], true⟩] (by unfold Apart; decide) (by simp) (c := ⟨[(0, 5)], true⟩)
    (by simp) (by simp)

end Verif.FieldInit
