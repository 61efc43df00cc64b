import Verif.Lang.TypeTable.Spec
/-! # Comparing and hashing types: lemmas -/
namespace Verif.TypeTable

open Verif.Hash Verif.HTable

/-! ## Qualifiers -/

theorem or_mask (a b m : Flags) : (a ||| b) &&& m = (a &&& m) ||| (b &&& m) := by
  ext i hi; simp only [BitVec.getElem_and, BitVec.getElem_or]; cases a[i] <;> cases b[i] <;> cases m[i] <;> rfl

theorem mask_mask (a m : Flags) : (a &&& m) &&& m = a &&& m := by
  rw [BitVec.and_assoc, BitVec.and_self]

theorem zero_mask (m : Flags) : (0 : Flags) &&& m = 0 := by
  ext i hi; simp

theorem zero_or (a : Flags) : (0 : Flags) ||| a = a := by
  ext i hi; simp

theorem or_assoc' (a b c : Flags) : (a ||| b) ||| c = a ||| (b ||| c) := BitVec.or_assoc ..

theorem or_comm' (a b : Flags) : a ||| b = b ||| a := BitVec.or_comm ..

theorem qualify_qualify (f g : Flags) (t : Tree) : qualify f (qualify g t) = qualify (f ||| g) t := by
  cases t <;> simp [qualify, BitVec.or_assoc]

theorem qualify_zero (t : Tree) : qualify 0 t = t := by
  cases t <;> simp [qualify]

/-- `Extern` is one of the qualifiers of types. -/
theorem extern_mask (f : Flags) : (f &&& applicable) &&& flgExtern = f &&& flgExtern := by
  have : applicable &&& flgExtern = flgExtern := by decide
  rw [BitVec.and_assoc, this]

/-! ## Well-formed types -/

/-- No wrapper directly around an alias. -/
def wrappable : Ty → Prop
  | .node _ d _ _ => d.tag ≠ .alias
  | .wrapped .. => True

mutual
/-- Types as the table builds them: wrappers are not put around an alias, an alias has one
component, and the declaration of a named function has a scope. -/
def Good : Ty → Prop
  | .node _ d full many =>
    (d.tag = .func → d.name ≠ none → d.scope ≠ none) ∧ GoodAll full ∧ GoodAll many ∧
      (d.tag = .alias ∨ d.tag = .info → full.length = 1)
  | .wrapped _ _ t => wrappable t ∧ Good t
def GoodAll : List Ty → Prop
  | [] => True
  | t :: ts => Good t ∧ GoodAll ts
end

mutual
/-- All the records a type consists of. -/
def subs : Ty → List Ty
  | .node i d full many => .node i d full many :: (subsAll full ++ subsAll many)
  | .wrapped i f t => .wrapped i f t :: subs t
def subsAll : List Ty → List Ty
  | [] => []
  | t :: ts => subs t ++ subsAll ts
end

/-- Equal addresses hold equal records. -/
def Consistent (l m : List Ty) : Prop := ∀ x ∈ l, ∀ y ∈ m, x.id = y.id → x = y

theorem self_mem_subs (t : Ty) : t ∈ subs t := by cases t <;> simp [subs]

theorem subs_sub_all {t : Ty} {ts : List Ty} (h : t ∈ ts) : ∀ x ∈ subs t, x ∈ subsAll ts := by
  induction ts with
  | nil => simp at h
  | cons u us ih =>
    intro x hx
    unfold subsAll
    rcases List.mem_cons.mp h with rfl | h
    · exact List.mem_append_left _ hx
    · exact List.mem_append_right _ (ih h x hx)

theorem mem_subsAll {ts : List Ty} {x : Ty} : x ∈ subsAll ts ↔ ∃ t ∈ ts, x ∈ subs t := by
  induction ts with
  | nil => simp [subsAll]
  | cons u us ih => simp [subsAll, ih]

/-- Below the wrappers there is a record of the type. -/
theorem unwrap_mem (acc : Flags) (b : Ty) {rf ri rd rfull rmany} (h : unwrap acc b = (rf, ri, rd, rfull, rmany)) :
    Ty.node ri rd rfull rmany ∈ subs b ∧ (∀ x ∈ subsAll rfull, x ∈ subs b) ∧ (∀ x ∈ subsAll rmany, x ∈ subs b) := by
  match b with
  | .node i d full many =>
    simp only [unwrap, Prod.mk.injEq] at h
    obtain ⟨rfl, rfl, rfl, rfl, rfl⟩ := h
    refine ⟨self_mem_subs _, ?_, ?_⟩ <;> intro x hx <;> simp [subs, hx]
  | .wrapped i f t =>
    simp only [unwrap] at h
    obtain ⟨h1, h2, h3⟩ := unwrap_mem _ t h
    simp only [subs, List.mem_cons]
    exact ⟨Or.inr h1, fun x hx => Or.inr (h2 x hx), fun x hx => Or.inr (h3 x hx)⟩

theorem unwrap_good (acc : Flags) (b : Ty) {rf ri rd rfull rmany} (h : unwrap acc b = (rf, ri, rd, rfull, rmany))
    (hg : Good b) : (rd.tag = .func → rd.name ≠ none → rd.scope ≠ none) ∧ GoodAll rfull ∧ GoodAll rmany := by
  match b with
  | .node i d full many =>
    simp only [unwrap, Prod.mk.injEq] at h
    obtain ⟨rfl, rfl, rfl, rfl, rfl⟩ := h
    simp only [Good] at hg
    exact ⟨hg.1, hg.2.1, hg.2.2.1⟩
  | .wrapped i f t =>
    simp only [unwrap] at h
    exact unwrap_good _ t h (by simp only [Good] at hg; exact hg.2)

/-- An alias below wrappers is the type itself. -/
theorem unwrap_alias (acc : Flags) (b : Ty) {rf ri rd rfull rmany} (h : unwrap acc b = (rf, ri, rd, rfull, rmany))
    (hg : Good b) (ha : rd.tag = .alias) : b = .node ri rd rfull rmany := by
  match b with
  | .node i d full many =>
    simp only [unwrap, Prod.mk.injEq] at h
    obtain ⟨rfl, rfl, rfl, rfl, rfl⟩ := h
    rfl
  | .wrapped i f t =>
    simp only [unwrap] at h
    simp only [Good] at hg
    have := unwrap_alias _ t h hg.2 ha
    rw [this] at hg
    exact absurd ha hg.1

theorem norm_unwrap (acc : Flags) (b : Ty) {rf ri rd rfull rmany} (h : unwrap acc b = (rf, ri, rd, rfull, rmany)) :
    qualify (acc &&& applicable) (norm (erase b)) =
      .node { clean rd with flags := rf } (normAll (if byName rd then [] else eraseAll rfull))
        (normAll (eraseAll rmany)) := by
  match b with
  | .node i d full many =>
    simp only [unwrap, Prod.mk.injEq] at h
    obtain ⟨rfl, rfl, rfl, rfl, rfl⟩ := h
    simp [erase, norm, qualify, clean, or_mask]
  | .wrapped i f t =>
    simp only [unwrap] at h
    have := norm_unwrap _ t h
    rw [← this]
    simp [erase, norm, qualify_qualify, or_mask]

/-! ## The comparison -/

/-- The attributes compared are those that belong to the type. -/
theorem cmpData_iff (a b : Data) (f g : Flags)
    (ha : a.tag = .func → a.name ≠ none → a.scope ≠ none)
    (hb : b.tag = .func → b.name ≠ none → b.scope ≠ none)
    (hal : a.tag = .alias → b.tag = .alias → f = g → byName a = byName b) :
    (a.tag = b.tag ∧ f = g ∧ cmpData a b = true) ↔
      ({ clean a with flags := f } : Data) = { clean b with flags := g } := by
  obtain ⟨at_, af, an, anm, ans, asc⟩ := a
  obtain ⟨bt, bf, bn, bnm, bns, bsc⟩ := b
  simp only at ha hb hal
  by_cases ht : at_ = bt
  · subst ht
    cases at_ <;> simp only [clean, cmpData, Data.mk.injEq, decide_eq_true_eq, Bool.and_eq_true]
    case func =>
      simp only [byName]
      cases anm <;> cases bnm <;> cases asc <;> cases bsc <;> simp_all
    case alias =>
      constructor
      · rintro ⟨_, hf, h⟩
        have := hal rfl rfl hf
        simp only [← this]
        cases hby : byName ⟨.alias, af, an, anm, ans, asc⟩ <;> simp_all
      · rintro ⟨_, hf, _, h, _⟩
        refine ⟨trivial, hf, ?_⟩
        have := hal rfl rfl hf
        simp only [← this] at h
        cases hby : byName ⟨.alias, af, an, anm, ans, asc⟩ <;> simp_all
    all_goals simp [byName]
    all_goals (constructor <;> intro h <;> simp_all)
  · constructor
    · rintro ⟨h, _⟩; exact absurd h ht
    · intro h
      exact absurd (congrArg Data.tag h) ht

theorem byName_of_mask {a b : Data} (ht : a.tag = b.tag) (hf : a.flags &&& applicable = b.flags &&& applicable) :
    byName a = byName b := by
  have h1 := extern_mask a.flags
  have h2 := extern_mask b.flags
  rw [hf, h2] at h1
  unfold byName
  rw [ht, h1]

mutual
theorem cmp_iff (a : Ty) (acc : Flags) (b : Ty) (hg : Good a) (hgb : Good b)
    (hacc : acc = 0 ∨ wrappable a) (hc : Consistent (subs a) (subs b)) :
    cmp acc a b = true ↔ qualify (acc &&& applicable) (norm (erase a)) = norm (erase b) := by
  match a with
  | .wrapped i f t =>
    simp only [Good] at hg
    have h := cmp_iff t (acc ||| f) b hg.2 hgb (Or.inr hg.1)
      (fun x hx y hy => hc x (by simp [subs, hx]) y hy)
    rw [show cmp acc (.wrapped i f t) b = cmp (acc ||| f) t b by simp [cmp], h]
    simp [erase, norm, qualify_qualify, or_mask]
  | .node i d full many =>
    obtain ⟨⟨rf, ri, rd, rfull, rmany⟩, hu⟩ : ∃ x, unwrap 0 b = x := ⟨_, rfl⟩
    have hb := norm_unwrap 0 b hu
    rw [zero_mask, qualify_zero] at hb
    obtain ⟨m1, m2, m3⟩ := unwrap_mem 0 b hu
    obtain ⟨g1, g2, g3⟩ := unwrap_good 0 b hu hgb
    have hg' := hg
    simp only [Good] at hg
    rw [hb]
    have hl : qualify (acc &&& applicable) (norm (erase (.node i d full many))) =
        .node { clean d with flags := (acc ||| d.flags) &&& applicable }
          (normAll (if byName d then [] else eraseAll full)) (normAll (eraseAll many)) := by
      simp [erase, norm, qualify, clean, or_mask]
    rw [hl]
    unfold cmp
    simp only [hu]
    by_cases hi : i = ri
    · rw [if_pos hi]
      have := hc (.node i d full many) (self_mem_subs _) _ m1 hi
      simp only [Ty.node.injEq] at this
      obtain ⟨_, rfl, rfl, rfl⟩ := this
      simp
    · rw [if_neg hi]
      have hal : d.tag = .alias → rd.tag = .alias → (acc ||| d.flags) &&& applicable = rf → byName d = byName rd := by
        intro h1 h2 h3
        rcases hacc with h0 | h0
        · have hbn := unwrap_alias 0 b hu hgb h2
          rw [hbn] at hu
          simp only [unwrap, Prod.mk.injEq] at hu
          rw [← hu.1, h0, zero_or, zero_or] at h3
          exact byName_of_mask (h1.trans h2.symm) h3
        · exact absurd h1 h0
      have hd := cmpData_iff d rd ((acc ||| d.flags) &&& applicable) rf hg.1 g1 hal
      have hfull := cmpMany_iff full rfull hg.2.1 g2 (fun x hx y hy => hc x (by simp [subs, hx]) y (m2 y hy))
      have hmany := cmpMany_iff many rmany hg.2.2.1 g3 (fun x hx y hy => hc x (by simp [subs, hx]) y (m3 y hy))
      simp only [Tree.node.injEq]
      rw [← hd]
      by_cases ht : d.tag = rd.tag
      · by_cases hf : (acc ||| d.flags) &&& applicable = rf
        · rw [if_neg (by simp [ht, hf])]
          simp only [Bool.and_eq_true, Bool.or_eq_true, hmany]
          have hbn : byName d = byName rd := by
            by_cases h1 : d.tag = .alias
            · exact hal h1 (ht ▸ h1) hf
            · unfold byName; rw [← ht]; simp [h1]
          rw [← hbn]
          cases hby : byName d <;> simp [hfull, ht, hf, normAll, and_assoc]
        · simp [hf]
      · simp [ht]
theorem cmpMany_iff (as bs : List Ty) (hg : GoodAll as) (hgb : GoodAll bs)
    (hc : Consistent (subsAll as) (subsAll bs)) :
    cmpMany as bs = true ↔ normAll (eraseAll as) = normAll (eraseAll bs) := by
  match as, bs with
  | [], [] => simp [cmpMany]
  | [], b :: bs => simp [cmpMany, eraseAll, normAll]
  | a :: as, [] => simp [cmpMany, eraseAll, normAll]
  | a :: as, b :: bs =>
    simp only [GoodAll] at hg hgb
    have h1 := cmp_iff a 0 b hg.1 hgb.1 (Or.inl rfl)
      (fun x hx y hy => hc x (by simp [subsAll, hx]) y (by simp [subsAll, hy]))
    have h2 := cmpMany_iff as bs hg.2 hgb.2
      (fun x hx y hy => hc x (by simp [subsAll, hx]) y (by simp [subsAll, hy]))
    rw [zero_mask, qualify_zero] at h1
    simp only [cmpMany, eraseAll, normAll, Bool.and_eq_true, h1, h2, List.cons.injEq]
end

end Verif.TypeTable
