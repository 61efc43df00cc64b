import Verif.Lang.TypeTable.Compare
import Verif.Core.StrPool.Lemmas
/-! # Interning types: lemmas -/
namespace Verif.TypeTable

open Verif.Hash Verif.HTable

/-- the hash the table keeps -/
def key (t : Ty) : BitVec 32 := hashType hashInit t ||| occupiedMask

open Classical in
/-- the equality the table works with: equal types with equal hashes -/
noncomputable def same (a b : Ty) : Bool := decide (norm (erase a) = norm (erase b) ∧ key a = key b)

theorem same_iff {a b : Ty} : same a b = true ↔ norm (erase a) = norm (erase b) ∧ key a = key b := by
  simp [same]

theorem compat : Compat key same where
  refl _ := same_iff.mpr ⟨rfl, rfl⟩
  symm _ _ h := same_iff.mpr ⟨(same_iff.mp h).1.symm, (same_iff.mp h).2.symm⟩
  trans _ _ _ h1 h2 :=
    same_iff.mpr ⟨(same_iff.mp h1).1.trans (same_iff.mp h2).1, (same_iff.mp h1).2.trans (same_iff.mp h2).2⟩
  hash_eq _ _ h := (same_iff.mp h).2

theorem key_or (t : Ty) : key t ||| occupiedMask = key t := by
  unfold key; rw [BitVec.or_assoc, BitVec.or_self]

/-- Invariant of the table. -/
structure SInv (s : State) : Prop where
  inv : Inv key same s.table
  good : ∀ t ∈ contents s.table, Good t
  closed : ∀ t ∈ contents s.table, ∀ u ∈ subs t, u ∈ contents s.table
  fresh : ∀ t ∈ contents s.table, t.id < s.next
  uniq : ∀ a ∈ contents s.table, ∀ b ∈ contents s.table, a.id = b.id → a = b

theorem empty_inv : SInv empty ∧ contents empty.table = [] := by
  obtain ⟨h1, h2⟩ := new_inv key same 4
  have h3 : contents empty.table = [] := h2
  exact ⟨⟨h1, by simp [h3], by simp [h3], by simp [h3], by simp [h3]⟩, h3⟩

/-- A record ready to be interned. -/
structure Fresh (s : State) (t : Ty) : Prop where
  id : t.id = s.next
  good : Good t
  subs : ∀ u ∈ subs t, u = t ∨ u ∈ contents s.table

theorem compare_stored {s : State} (hs : SInv s) {t : Ty} (ht : Fresh s t) {x : Ty} (hx : x ∈ contents s.table)
    (hk : key x = key t) : compareTypes x t = same x t := by
  have h := cmp_iff x 0 t (hs.good x hx) ht.good (Or.inl rfl) (by
    intro y hy z hz hyz
    have hy' := hs.closed x hx y hy
    rcases ht.subs z hz with rfl | hz'
    · have := hs.fresh y hy'
      rw [hyz, ht.id] at this
      omega
    · exact hs.uniq y hy' z hz' hyz)
  rw [zero_mask, qualify_zero] at h
  rw [Bool.eq_iff_iff, same_iff]
  exact ⟨fun h' => ⟨h.mp h', hk⟩, fun h' => h.mpr h'.1⟩

theorem slot_mem {s : State} (hs : SInv s) {i : Nat} {x : Ty} (hic : i < s.table.cap)
    (ho : occupied s.table i = true) (hx : s.table.elems i = some x) :
    x ∈ contents s.table ∧ s.table.hashes i = key x := by
  obtain ⟨e, he, hh, _⟩ := hs.inv.slot i hic ho
  rw [hx] at he
  cases he
  refine ⟨mem_contents.mpr ⟨i, hic, ho, hx⟩, ?_⟩
  rw [hh]; exact key_or _

/-- Interning a record finds the stored equal type or stores the record. -/
theorem getOrInsert_spec {s : State} (hs : SInv s) {t : Ty} (ht : Fresh s t) :
    (∃ x ∈ contents s.table, same x t = true ∧ getOrInsert s t = .ok (x, s)) ∨
    ((∀ x ∈ contents s.table, same x t = false) ∧
      ∃ s', getOrInsert s t = .ok (t, s') ∧ SInv s' ∧ s'.next = s.next + 1 ∧
        (contents s'.table).Perm (t :: contents s.table)) := by
  have hcap := hs.inv.cap_pos
  have hslot : ∀ i x, i < s.table.cap → occupied s.table i = true →
      s.table.hashes i = hashType hashInit t ||| occupiedMask → s.table.elems i = some x →
      compareTypes x t = same x t := by
    intro i x hic ho hh hx
    obtain ⟨hm, hk⟩ := slot_mem hs hic ho hx
    exact compare_stored hs ht hm (by rw [← hk, hh]; rfl)
  have hor : hashType hashInit t ||| occupiedMask = key t ||| occupiedMask := by rw [key_or]; rfl
  have hfind : find compareTypes s.table t (hashType hashInit t) = find same s.table t (key t) :=
    find_congr hcap hor hslot
  have hins : insert compareTypes s.table t (hashType hashInit t) = insert same s.table t (key t) :=
    insert_congr hcap hor hslot
  unfold getOrInsert
  simp only [hfind, hins]
  rcases find_spec compat hs.inv t with ⟨x, hx, hxe, hf⟩ | ⟨hno, hf⟩
  · left
    exact ⟨x, hx, hxe, by rw [hf]⟩
  · right
    refine ⟨hno, ?_⟩
    rw [hf]
    rcases insert_spec compat hs.inv t with ⟨⟨x, hx, hxe⟩, _⟩ | ⟨_, t', h, hinv, hperm⟩
    · rw [hno x hx] at hxe; exact Bool.noConfusion hxe
    · simp only [h]
      refine ⟨⟨t', s.next + 1⟩, rfl, ⟨hinv, ?_, ?_, ?_, ?_⟩, rfl, hperm⟩
      · intro a ha
        rcases List.mem_cons.mp (hperm.subset ha) with rfl | ha
        · exact ht.good
        · exact hs.good a ha
      · intro a ha u hu
        rcases List.mem_cons.mp (hperm.subset ha) with rfl | ha
        · rcases ht.subs u hu with rfl | h
          · exact ‹_ ∈ contents t'›
          · exact hperm.symm.subset (List.mem_cons_of_mem _ h)
        · exact hperm.symm.subset (List.mem_cons_of_mem _ (hs.closed a ha u hu))
      · intro a ha
        rcases List.mem_cons.mp (hperm.subset ha) with rfl | ha
        · rw [ht.id]; exact Nat.lt_succ_self _
        · exact Nat.lt_succ_of_lt (hs.fresh a ha)
      · intro a ha b hb hab
        rcases List.mem_cons.mp (hperm.subset ha) with rfl | ha <;>
        rcases List.mem_cons.mp (hperm.subset hb) with rfl | hb
        · rfl
        · have := hs.fresh b hb; rw [← hab, ht.id] at this; omega
        · have := hs.fresh a ha; rw [hab, ht.id] at this; omega
        · exact hs.uniq a ha b hb hab

/-! ## Requests -/

/-- Requests as the compiler issues them: each kind of type with its number of components, functions
with a name are declared in a scope, and wrappers add only qualifiers of types. -/
def Req.ok : Req → Prop
  | .leaf d =>
    d.tag ∈ [.error, .auto, .void, .null, .primitive, .string, .untaggedUnion, .opaque, .enum, .class, .interface]
  | .flat tag _ _ _ => tag ∈ [.pointer, .reference, .optional, .alias]
  | .plain d is => (d.tag ∈ [.array, .info, .result] ∧ is.length = 1) ∨ (d.tag = .map ∧ is.length = 2)
  | .members d _ => d.tag ∈ [.union, .tuple]
  | .func _ name scope _ _ => name ≠ none → scope ≠ none
  | .wrap _ flags => flags &&& applicable = flags

theorem GoodAll_iff {ts : List Ty} : GoodAll ts ↔ ∀ t ∈ ts, Good t := by
  induction ts with
  | nil => simp [GoodAll]
  | cons a as ih => simp [GoodAll, ih]

theorem eraseAll_eq (ts : List Ty) : eraseAll ts = ts.map erase := by
  induction ts with
  | nil => rfl
  | cons a as ih => simp [eraseAll, ih]

theorem normAll_eq (ts : List Tree) : normAll ts = ts.map norm := by
  induction ts with
  | nil => rfl
  | cons a as ih => simp [normAll, ih]

theorem mapM_mem {outs ts : List Ty} : ∀ {is : List Nat}, is.mapM (outs[·]?) = some ts →
    ts.length = is.length ∧ ∀ t ∈ ts, t ∈ outs := by
  intro is
  induction is generalizing ts with
  | nil => intro h; simp at h; subst h; simp
  | cons i is ih =>
    intro h
    simp only [List.mapM_cons, Option.pure_def, Option.bind_eq_bind, Option.bind_eq_some_iff] at h
    obtain ⟨t, ht, us, hus, h⟩ := h
    cases h
    obtain ⟨h1, h2⟩ := ih hus
    refine ⟨by simp [h1], ?_⟩
    intro u hu
    rcases List.mem_cons.mp hu with rfl | hu
    · exact List.mem_of_getElem? ht
    · exact h2 u hu

/-- What lies behind aliases is a record of the type, and neither an alias nor type information. -/
theorem resolve_spec (t : Ty) (hg : Good t) :
    (∀ u ∈ subs (resolve t), u ∈ subs t) ∧ Good (resolve t) ∧ wrappable (resolve t) := by
  match t with
  | .wrapped i f t => simp only [resolve]; exact ⟨fun u h => h, hg, trivial⟩
  | .node i d [] many =>
    simp only [resolve]
    refine ⟨fun u h => h, hg, ?_⟩
    intro ha
    simp only [Good] at hg
    exact absurd (hg.2.2.2 (Or.inl ha)) (by simp)
  | .node i d [t] many =>
    have hg' := hg
    simp only [Good, GoodAll] at hg
    obtain ⟨h1, h2, h3⟩ := resolve_spec t hg.2.1.1
    unfold resolve
    split
    · exact ⟨fun u h => by simp [subs, subsAll, h1 u h], h2, h3⟩
    · rename_i h
      exact ⟨fun u h => h, hg', fun ha => h (Or.inl ha)⟩
  | .node i d (t :: t' :: ts) many =>
    simp only [resolve]
    refine ⟨fun u h => h, hg, ?_⟩
    intro ha
    simp only [Good] at hg
    exact absurd (hg.2.2.2 (Or.inl ha)) (by simp)

theorem peel_spec (acc : Flags) (t : Ty) (hg : Good t) (hw : wrappable t) :
    (∀ u ∈ subs (peel acc t).2, u ∈ subs t) ∧ Good (peel acc t).2 ∧ wrappable (peel acc t).2 := by
  match t with
  | .node i d full many => simp only [peel]; exact ⟨fun u h => h, hg, hw⟩
  | .wrapped i f t =>
    simp only [Good] at hg
    obtain ⟨h1, h2, h3⟩ := peel_spec (acc ||| f) t hg.2 hg.1
    simp only [peel]
    exact ⟨fun u h => by simp [subs, h1 u h], h2, h3⟩

theorem flatten_spec (acc : Flags) (t : Ty) (hg : Good t) :
    (∀ u ∈ subs (flatten acc t).2, u ∈ subs t) ∧ Good (flatten acc t).2 ∧ wrappable (flatten acc t).2 := by
  obtain ⟨h1, h2, h3⟩ := resolve_spec t hg
  obtain ⟨h4, h5, h6⟩ := peel_spec acc (resolve t) h2 h3
  exact ⟨fun u h => h1 u (h4 u h), h5, h6⟩

/-- The record built by a request can be interned. -/
theorem build_fresh {s : State} (hs : SInv s) {outs : List Ty} (ho : ∀ t ∈ outs, t ∈ contents s.table)
    {r : Req} (hr : r.ok) {b : Built} (hb : build s.next outs r = some b) :
    match b with
    | .ready t => t ∈ outs
    | .intern t => Fresh s t := by
  have hgo : ∀ t ∈ outs, Good t := fun t h => hs.good t (ho t h)
  cases r with
  | leaf d =>
    simp only [build, Option.some.injEq] at hb
    subst hb
    refine ⟨rfl, ?_, ?_⟩
    · simp only [Good, GoodAll, Req.ok] at *
      refine ⟨?_, trivial, trivial, ?_⟩ <;> intro h <;> simp [h] at hr
      rcases h with h | h <;> simp [h] at hr
    · intro u hu; simp [subs, subsAll] at hu; exact Or.inl hu
  | flat tag i flags name =>
    simp only [build, Option.map_eq_some_iff] at hb
    obtain ⟨t, ht, rfl⟩ := hb
    have htm := List.mem_of_getElem? ht
    obtain ⟨h1, h2, h3⟩ := flatten_spec flags t (hgo t htm)
    refine ⟨rfl, ?_, ?_⟩
    · simp only [Good, GoodAll, Req.ok] at *
      refine ⟨?_, ⟨h2, trivial⟩, trivial, fun _ => rfl⟩
      intro h; simp [h] at hr
    · intro u hu
      simp only [subs, subsAll, List.append_nil, List.mem_cons] at hu
      rcases hu with hu | hu
      · exact Or.inl hu
      · exact Or.inr (hs.closed t (ho t htm) u (h1 u hu))
  | plain d is =>
    simp only [build, Option.map_eq_some_iff] at hb
    obtain ⟨ts, hts, rfl⟩ := hb
    obtain ⟨hl, hm⟩ := mapM_mem hts
    refine ⟨rfl, ?_, ?_⟩
    · simp only [Good, Req.ok] at *
      refine ⟨?_, GoodAll_iff.mpr (fun t h => hgo t (hm t h)), trivial, ?_⟩
      · intro h; simp [h] at hr
      · intro h
        rcases hr with hr | hr
        · rw [hl]; exact hr.2
        · rcases h with h | h <;> simp [h] at hr
    · intro u hu
      simp only [subs, subsAll, List.append_nil, List.mem_cons] at hu
      rcases hu with hu | hu
      · exact Or.inl hu
      · obtain ⟨t, ht, hu⟩ := mem_subsAll.mp hu
        exact Or.inr (hs.closed t (ho t (hm t ht)) u hu)
  | members d is =>
    simp only [build, Option.map_eq_some_iff] at hb
    obtain ⟨ts, hts, rfl⟩ := hb
    obtain ⟨hl, hm⟩ := mapM_mem hts
    refine ⟨rfl, ?_, ?_⟩
    · simp only [Good, Req.ok] at *
      refine ⟨?_, trivial, GoodAll_iff.mpr (fun t h => hgo t (hm t h)), ?_⟩
      · intro h; simp [h] at hr
      · intro h; rcases h with h | h <;> simp [h] at hr
    · intro u hu
      simp only [subs, subsAll, List.nil_append, List.mem_cons] at hu
      rcases hu with hu | hu
      · exact Or.inl hu
      · obtain ⟨t, ht, hu⟩ := mem_subsAll.mp hu
        exact Or.inr (hs.closed t (ho t (hm t ht)) u hu)
  | func flags name scope i ps =>
    simp only [build, Option.bind_eq_some_iff, Option.map_eq_some_iff] at hb
    obtain ⟨t, ht, ts, hts, rfl⟩ := hb
    have htm := List.mem_of_getElem? ht
    obtain ⟨hl, hm⟩ := mapM_mem hts
    refine ⟨rfl, ?_, ?_⟩
    · simp only [Good, GoodAll, Req.ok] at *
      exact ⟨fun _ => hr, ⟨hgo t htm, trivial⟩, GoodAll_iff.mpr (fun t h => hgo t (hm t h)), fun _ => rfl⟩
    · intro u hu
      simp only [subs, subsAll, List.append_nil, List.mem_cons, List.mem_append] at hu
      rcases hu with hu | hu | hu
      · exact Or.inl hu
      · exact Or.inr (hs.closed t (ho t htm) u hu)
      · obtain ⟨t, ht, hu⟩ := mem_subsAll.mp hu
        exact Or.inr (hs.closed t (ho t (hm t ht)) u hu)
  | wrap i flags =>
    simp only [build, Option.map_eq_some_iff] at hb
    obtain ⟨t, ht, hb⟩ := hb
    have htm := List.mem_of_getElem? ht
    split at hb
    · subst hb; exact htm
    · subst hb
      obtain ⟨h1, h2, h3⟩ := flatten_spec flags t (hgo t htm)
      refine ⟨rfl, ?_, ?_⟩
      · simp only [Good]; exact ⟨h3, h2⟩
      · intro u hu
        simp only [subs, List.mem_cons] at hu
        rcases hu with hu | hu
        · exact Or.inl hu
        · exact Or.inr (hs.closed t (ho t htm) u (h1 u hu))

/-- The record of a request. -/
def Built.ty : Built → Ty
  | .ready t => t
  | .intern t => t

/-- One request on a good table: the answer is stored, stands for the type built by the request, and
everything stored before still is. -/
theorem request_spec {s : State} (hs : SInv s) {outs : List Ty} (ho : ∀ t ∈ outs, t ∈ contents s.table)
    {r : Req} (hr : r.ok) {b : Built} (hb : build s.next outs r = some b) :
    ∃ x s', request s outs r = some (.ok (x, s')) ∧ SInv s' ∧ same x b.ty = true ∧
      x ∈ contents s'.table ∧ (∀ t ∈ contents s.table, t ∈ contents s'.table) ∧
      (∀ t ∈ contents s'.table, t = x ∨ t ∈ contents s.table) := by
  have h := build_fresh hs ho hr hb
  unfold request
  rw [hb]
  cases b with
  | ready t =>
    exact ⟨t, s, rfl, hs, compat.refl _, ho t h, fun _ h => h, fun _ h => Or.inr h⟩
  | intern t =>
    simp only [Option.map_some, Built.ty]
    rcases getOrInsert_spec hs h with ⟨x, hx, hxe, hg⟩ | ⟨hno, s', hg, hs', _, hp⟩
    · exact ⟨x, s, by rw [hg], hs, hxe, hx, fun _ h => h, fun _ h => Or.inr h⟩
    · exact ⟨t, s', by rw [hg], hs', compat.refl _, hp.symm.subset (List.mem_cons_self ..),
        fun u hu => hp.symm.subset (List.mem_cons_of_mem _ hu), fun u hu => List.mem_cons.mp (hp.subset hu)⟩

end Verif.TypeTable
