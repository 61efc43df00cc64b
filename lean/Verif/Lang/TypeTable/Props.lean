import Verif.Lang.TypeTable.Intern
/-! # C24: interning of types -/
namespace Verif.TypeTable

open Verif.Hash Verif.HTable

/-! ## The comparison -/

/-- Two well-formed types are compared as equal exactly when they are the same tree once wrappers are
turned into qualifiers. -/
theorem compareTypes_exact (a b : Ty) (ha : Good a) (hb : Good b) (hc : Consistent (subs a) (subs b)) :
    compareTypes a b = true ↔ norm (erase a) = norm (erase b) := by
  have := cmp_iff a 0 b ha hb (Or.inl rfl) hc
  rwa [zero_mask, qualify_zero] at this

/-! ## Canonical histories -/

mutual
/-- Qualifiers are attached in one way only: kinds in `W` get them by a wrapper, the others carry them
themselves. No extern aliases. -/
def Canon (W : Tag → Bool) : Tree → Prop
  | .node d full many =>
    (W d.tag = true → d.flags = 0) ∧ (d.tag = .alias → d.flags &&& flgExtern = 0) ∧
      CanonAll W full ∧ CanonAll W many
  | .wrapped f t => f ≠ 0 ∧ (match t with | .node d _ _ => W d.tag = true | .wrapped .. => False) ∧ Canon W t
def CanonAll (W : Tag → Bool) : List Tree → Prop
  | [] => True
  | t :: ts => Canon W t ∧ CanonAll W ts
end

variable {W : Tag → Bool}

mutual
theorem norm_inj (a b : Tree) (ha : Canon W a) (hb : Canon W b) (h : norm a = norm b) : a = b := by
  match a, b with
  | .node d full many, .node d' full' many' =>
    simp only [norm, Tree.node.injEq] at h
    simp only [Canon] at ha hb
    rw [h.1, normAll_inj full full' ha.2.2.1 hb.2.2.1 h.2.1, normAll_inj many many' ha.2.2.2 hb.2.2.2 h.2.2]
  | .wrapped f (.node d full many), .node d' full' many' =>
    exfalso
    simp only [norm, qualify, Tree.node.injEq] at h
    simp only [Canon] at ha hb
    have ht : d.tag = d'.tag := by rw [← h.1]
    have hf : d'.flags = f ||| d.flags := by rw [← h.1]
    rw [hb.1 (ht ▸ ha.2.1), ha.2.2.1 ha.2.1] at hf
    simp at hf
    exact ha.1 hf.symm
  | .node d' full' many', .wrapped f (.node d full many) =>
    exfalso
    simp only [norm, qualify, Tree.node.injEq] at h
    simp only [Canon] at ha hb
    have ht : d'.tag = d.tag := by rw [h.1]
    have hf : d'.flags = f ||| d.flags := by rw [h.1]
    rw [ha.1 (by rw [ht]; exact hb.2.1), hb.2.2.1 hb.2.1] at hf
    simp at hf
    exact hb.1 hf.symm
  | .wrapped f (.node d full many), .wrapped f' (.node d' full' many') =>
    simp only [norm, qualify, Tree.node.injEq] at h
    simp only [Canon] at ha hb
    obtain ⟨t1, f1, n1, m1, s1, c1⟩ := d
    obtain ⟨t2, f2, n2, m2, s2, c2⟩ := d'
    have z1 := ha.2.2.1 ha.2.1
    have z2 := hb.2.2.1 hb.2.1
    simp only at z1 z2
    subst z1; subst z2
    have hd := h.1
    simp only [Data.mk.injEq] at hd
    obtain ⟨rfl, hf, rfl, rfl, rfl, rfl⟩ := hd
    have : f = f' := by
      have e : ∀ g : Flags, g ||| 0 = g := by intro g; simp
      simpa [e] using hf
    rw [this, normAll_inj full full' ha.2.2.2.2.1 hb.2.2.2.2.1 h.2.1,
      normAll_inj many many' ha.2.2.2.2.2 hb.2.2.2.2.2 h.2.2]
  | .wrapped f (.wrapped g t), _ => simp only [Canon] at ha; exact absurd ha.2.1 id
  | _, .wrapped f (.wrapped g t) => simp only [Canon] at hb; exact absurd hb.2.1 id
theorem normAll_inj (as bs : List Tree) (ha : CanonAll W as) (hb : CanonAll W bs)
    (h : normAll as = normAll bs) : as = bs := by
  match as, bs with
  | [], [] => rfl
  | [], b :: bs => simp [normAll] at h
  | a :: as, [] => simp [normAll] at h
  | a :: as, b :: bs =>
    simp only [normAll, List.cons.injEq] at h
    simp only [CanonAll] at ha hb
    rw [norm_inj a b ha.1 hb.1 h.1, normAll_inj as bs ha.2 hb.2 h.2]
end

/-! ## Hashing depends on the tree only -/

theorem clean_tag {a b : Data} (h : clean a = clean b) : a.tag = b.tag := by
  have := congrArg Data.tag h; exact this

theorem clean_byName {a b : Data} (h : clean a = clean b) : byName a = byName b :=
  byName_of_mask (clean_tag h) (congrArg Data.flags h)

theorem hashData_clean (h : BitVec 32) {a b : Data} (hc : clean a = clean b) : hashData h a = hashData h b := by
  have ht := clean_tag hc
  have hb := clean_byName hc
  have hf : a.flags &&& applicable = b.flags &&& applicable := congrArg Data.flags hc
  have hn := congrArg Data.num hc
  have hnm := congrArg Data.name hc
  have hns := congrArg Data.ns hc
  simp only [clean] at hn hnm hns
  unfold hashData hashHead
  simp only [ht, hf, hb] at *
  cases hbt : b.tag <;> simp only [hbt] at hn hnm hns ⊢ <;> simp_all
  split
  · rename_i hby; simp [hby] at hnm; rw [hnm]
  · rfl

theorem tagCode_erase {a b : Ty} (h : erase a = erase b) : a.tagCode = b.tagCode := by
  cases a <;> cases b <;> simp [erase] at h <;> simp [Ty.tagCode]
  rw [clean_tag h.1]

theorem hashTags_erase {as bs : List Ty} : ∀ (h : BitVec 32), eraseAll as = eraseAll bs →
    hashTags h as = hashTags h bs := by
  induction as generalizing bs with
  | nil => intro h he; cases bs <;> simp [eraseAll] at he; rfl
  | cons a as ih =>
    intro h he
    cases bs with
    | nil => simp [eraseAll] at he
    | cons b bs =>
      simp only [eraseAll, List.cons.injEq] at he
      simp only [hashTags]
      rw [tagCode_erase he.1, ih _ he.2]

mutual
theorem hash_erase (a b : Ty) (h : BitVec 32) (he : erase a = erase b) : hashType h a = hashType h b := by
  match a, b with
  | .node i d full many, .node i' d' full' many' =>
    simp only [erase, Tree.node.injEq] at he
    have hb := clean_byName he.1
    unfold hashType
    simp only [hashData_clean h he.1, hashTags_erase _ he.2.2, ← hb, clean_tag he.1]
    have hnum : d'.tag = .array → d.num = d'.num := by
      intro ht
      have := congrArg Data.num he.1
      simpa [clean, clean_tag he.1, ht] using this
    cases hby : byName d with
    | true => simp; split <;> simp_all
    | false =>
      have hf := he.2.1
      rw [← hb] at hf
      simp only [hby] at hf
      simp only [hashFull_erase full full' _ (by simpa using hf)]
      simp; split <;> simp_all
  | .wrapped i f t, .wrapped i' f' t' =>
    simp only [erase, Tree.wrapped.injEq] at he
    unfold hashType hashHead
    rw [he.1]
    exact hash_erase t t' _ he.2
  | .node .., .wrapped .. => simp [erase] at he
  | .wrapped .., .node .. => simp [erase] at he
theorem hashFull_erase (as bs : List Ty) (h : BitVec 32) (he : eraseAll as = eraseAll bs) :
    hashFull h as = hashFull h bs := by
  match as, bs with
  | [], [] => rfl
  | [], b :: bs => simp [eraseAll] at he
  | a :: as, [] => simp [eraseAll] at he
  | a :: as, b :: bs =>
    simp only [eraseAll, List.cons.injEq] at he
    unfold hashFull
    rw [hash_erase a b h he.1]
    exact hashFull_erase as bs _ he.2
end

/-- In canonical histories the table's equality is equality of trees. -/
theorem same_canon {a b : Ty} (ha : Canon W (erase a)) (hb : Canon W (erase b)) :
    same a b = true ↔ erase a = erase b := by
  rw [same_iff]
  constructor
  · intro h; exact norm_inj _ _ ha hb h.1
  · intro h; exact ⟨by rw [h], by unfold key; rw [hash_erase a b _ h]⟩

/-! ## Requests and their meaning -/

theorem clean_mask (tag : Tag) (f : Flags) (name : Option Name) :
    clean { tag, flags := f &&& applicable, name } = clean { tag, flags := f, name } := by
  have h1 : byName { tag, flags := f &&& applicable, name } = byName { tag, flags := f, name } :=
    byName_of_mask rfl (mask_mask ..)
  simp only [clean, h1, mask_mask]

theorem Canon.not_byName {i : Nat} {d : Data} {full many : List Ty} (h : Canon W (erase (.node i d full many))) :
    byName d = false := by
  simp only [erase, Canon] at h
  by_cases ha : d.tag = .alias
  · have := h.2.1 ha
    simp only [clean, extern_mask] at this
    simp [byName, this]
  · simp [byName, ha]

theorem strip_erase (t : Ty) (h : Canon W (erase t)) : strip (erase t) = erase (resolve t) := by
  match t with
  | .wrapped i f t => simp [erase, strip, resolve]
  | .node i d [] many =>
    have := Canon.not_byName h
    simp [erase, strip, resolve, this, eraseAll]
  | .node i d [t] many =>
    have hb := Canon.not_byName h
    have ih := strip_erase t (by
      simp only [erase, hb, Canon, Bool.false_eq_true, if_false, eraseAll, CanonAll] at h
      exact h.2.2.1.1)
    simp only [erase, hb, Bool.false_eq_true, if_false, eraseAll, strip, resolve]
    have : (clean d).tag = d.tag := rfl
    rw [this]
    split
    · exact ih
    · simp [erase, hb, eraseAll]
  | .node i d (t :: t' :: ts) many =>
    have := Canon.not_byName h
    simp [erase, strip, resolve, this, eraseAll]

theorem open_erase (acc : Flags) (t : Ty) :
    open_ (acc &&& applicable) (erase t) = ((peel acc t).1 &&& applicable, erase (peel acc t).2) := by
  match t with
  | .node i d full many => simp [erase, open_, peel]
  | .wrapped i f t =>
    have := open_erase (acc ||| f) t
    rw [or_mask] at this
    simp [erase, open_, peel, this]

theorem flatten_erase (acc : Flags) (t : Ty) (h : Canon W (erase t)) :
    open_ (acc &&& applicable) (strip (erase t)) = ((flatten acc t).1 &&& applicable, erase (flatten acc t).2) := by
  rw [strip_erase t h, open_erase]; rfl

theorem mapM_erase (outs : List Ty) : ∀ (is : List Nat) (ts : List Tree),
    is.mapM ((outs.map erase)[·]?) = some ts → ∃ us, is.mapM (outs[·]?) = some us ∧ us.map erase = ts := by
  intro is
  induction is with
  | nil => intro ts h; simp at h; subst h; exact ⟨[], by simp, rfl⟩
  | cons i is ih =>
    intro ts h
    simp only [List.mapM_cons, Option.pure_def, Option.bind_eq_bind, Option.bind_eq_some_iff, List.getElem?_map,
      Option.map_eq_some_iff] at h
    obtain ⟨t, ⟨u, hu, rfl⟩, ts', hts', h⟩ := h
    cases h
    obtain ⟨us, h1, h2⟩ := ih ts' (by simpa [List.getElem?_map] using hts')
    exact ⟨u :: us, by simp [h1, hu], by simp [h2]⟩

/-- The record a request builds stands for what the request asks for. -/
theorem build_erase {outs : List Ty} (next : Nat) (ho : ∀ t ∈ outs, Canon W (erase t)) {r : Req} (hr : r.ok) {m : Tree}
    (ha : asked (outs.map erase) r = some m) (hm : Canon W m) :
    ∃ b, build next outs r = some b ∧ erase b.ty = m := by
  cases r with
  | leaf d =>
    simp only [asked, Option.some.injEq] at ha
    exact ⟨_, rfl, by rw [← ha]; simp [Built.ty, erase, eraseAll]⟩
  | flat tag i flags name =>
    simp only [asked, Option.map_eq_some_iff, List.getElem?_map] at ha
    obtain ⟨_, ⟨t, ht, rfl⟩, rfl⟩ := ha
    have hc := ho t (List.mem_of_getElem? ht)
    rw [flatten_erase flags t hc] at hm ⊢
    simp only [clean_mask] at hm ⊢
    refine ⟨_, by simp [build, ht]; rfl, ?_⟩
    have hb : byName { tag, flags := (flatten flags t).1, name } = false := by
      simp only [Canon] at hm
      by_cases h : tag = .alias
      · have := hm.2.1 h
        simp only [clean, extern_mask] at this
        simp [byName, this]
      · simp [byName, h]
    simp [Built.ty, erase, eraseAll, hb]
  | plain d is =>
    simp only [asked, Option.map_eq_some_iff] at ha
    obtain ⟨ts, hts, rfl⟩ := ha
    obtain ⟨us, h1, h2⟩ := mapM_erase outs is ts hts
    refine ⟨_, by simp [build, h1]; rfl, ?_⟩
    have hb : byName d = false := by
      have : d.tag ≠ .alias := by
        intro h; simp [Req.ok, h] at hr
      simp [byName, this]
    simp [Built.ty, erase, eraseAll, hb, eraseAll_eq, h2]
  | members d is =>
    simp only [asked, Option.map_eq_some_iff] at ha
    obtain ⟨ts, hts, rfl⟩ := ha
    obtain ⟨us, h1, h2⟩ := mapM_erase outs is ts hts
    refine ⟨_, by simp [build, h1]; rfl, ?_⟩
    simp [Built.ty, erase, eraseAll, eraseAll_eq, h2]
  | func flags name scope i ps =>
    simp only [asked, Option.bind_eq_some_iff, Option.map_eq_some_iff, List.getElem?_map] at ha
    obtain ⟨_, ⟨t, ht, rfl⟩, ts, hts, rfl⟩ := ha
    obtain ⟨us, h1, h2⟩ := mapM_erase outs ps ts (by simpa [List.getElem?_map] using hts)
    refine ⟨_, by simp [build, h1, ht]; rfl, ?_⟩
    simp [Built.ty, erase, eraseAll, eraseAll_eq, h2, byName]
  | wrap i flags =>
    simp only [asked, Option.map_eq_some_iff, List.getElem?_map] at ha
    obtain ⟨_, ⟨t, ht, rfl⟩, hm'⟩ := ha
    have hc := ho t (List.mem_of_getElem? ht)
    have hf : flagsOf (erase t) = t.flags &&& applicable := by
      cases t <;> simp [erase, flagsOf, Ty.flags, clean]
    have hcond : (flagsOf (erase t) &&& flags = flags) ↔ (t.flags &&& flags = flags) := by
      simp only [Req.ok] at hr
      rw [hf, BitVec.and_assoc, BitVec.and_comm applicable flags, hr]
    simp only [hcond] at hm'
    by_cases h : t.flags &&& flags = flags
    · rw [if_pos h] at hm'
      exact ⟨.ready t, by simp [build, ht, h], hm'⟩
    · rw [if_neg h] at hm'
      refine ⟨_, by simp [build, ht, h]; rfl, ?_⟩
      simp only [Req.ok] at hr
      have := flatten_erase flags t hc
      rw [hr] at this
      rw [this] at hm'
      rw [← hm']
      simp [Built.ty, erase]

theorem askedAll_prefix : ∀ (rs : List Req) (ms ms' : List Tree), askedAll ms rs = some ms' →
    ∃ ns, ms' = ms ++ ns ∧ ns.length = rs.length := by
  intro rs
  induction rs with
  | nil => intro ms ms' h; simp [askedAll] at h; exact ⟨[], by simp [h], rfl⟩
  | cons r rs ih =>
    intro ms ms' h
    simp only [askedAll, Option.bind_eq_bind, Option.bind_eq_some_iff] at h
    obtain ⟨t, _, h⟩ := h
    obtain ⟨ns, h1, h2⟩ := ih _ _ h
    exact ⟨t :: ns, by simp [h1], by simp [h2]⟩

theorem run_canonical : ∀ (reqs : List Req) (s : State) (outs : List Ty) (ms : List Tree), SInv s →
    (∀ t ∈ outs, t ∈ contents s.table) → (∀ t ∈ contents s.table, t ∈ outs) → (∀ r ∈ reqs, r.ok) →
    askedAll (outs.map erase) reqs = some ms → (∀ m ∈ ms, Canon W m) →
    ∃ outs' s', run s outs reqs = some (.ok (outs', s')) ∧ SInv s' ∧
      (∀ t ∈ outs', t ∈ contents s'.table) ∧ outs'.map erase = ms := by
  intro reqs
  induction reqs with
  | nil =>
    intro s outs ms hs ho _ _ ha _
    simp only [askedAll, Option.some.injEq] at ha
    exact ⟨outs, s, rfl, hs, ho, ha⟩
  | cons r rs ih =>
    intro s outs ms hs ho hc hr ha hm
    simp only [askedAll, Option.bind_eq_bind, Option.bind_eq_some_iff] at ha
    obtain ⟨m, hmr, ha⟩ := ha
    obtain ⟨ns, hns, _⟩ := askedAll_prefix _ _ _ ha
    have hco : ∀ t ∈ outs, Canon W (erase t) := fun t h =>
      hm _ (by rw [hns]; exact List.mem_append_left _ (List.mem_append_left _ (List.mem_map_of_mem h)))
    have hcm : Canon W m := hm _ (by rw [hns]; simp)
    have hr1 := hr r (by simp)
    obtain ⟨b, hb, hbe⟩ := build_erase s.next hco hr1 hmr hcm
    obtain ⟨x, s', hx, hs', hsame, hxc, hsub, hnew⟩ := request_spec hs ho hr1 hb
    -- the answer stands for what was asked
    have hxe : erase x = m := by
      rw [← hbe]
      have hcx : Canon W (erase x) ∨ x = b.ty := by
        have hf := build_fresh hs ho hr1 hb
        unfold request at hx
        rw [hb] at hx
        cases b with
        | ready t => simp at hx; exact Or.inr hx.1.symm
        | intern t =>
          simp only [Option.map_some, Option.some.injEq] at hx
          rcases getOrInsert_spec hs hf with ⟨y, hy, _, hg⟩ | ⟨_, s'', hg, _⟩
          · rw [hg] at hx; cases hx; exact Or.inl (hco _ (hc _ hy))
          · rw [hg] at hx; cases hx; exact Or.inr rfl
      rcases hcx with hcx | hcx
      · exact (same_canon hcx (by rw [hbe]; exact hcm)).mp hsame
      · rw [hcx]
    obtain ⟨outs', s'', h1, h2, h3, h4⟩ := ih s' (outs ++ [x]) ms hs'
      (by intro t ht
          rcases List.mem_append.mp ht with h | h
          · exact hsub t (ho t h)
          · rw [List.mem_singleton.mp h]; exact hxc)
      (by intro t ht
          rcases hnew t ht with rfl | h
          · simp
          · exact List.mem_append_left _ (hc t h))
      (fun r h => hr r (List.mem_cons_of_mem _ h))
      (by simpa [hxe] using ha) hm
    exact ⟨outs', s'', by simp [run, hx, h1], h2, h3, h4⟩

/-- **C24 (partial)**: every history of requests in which each kind of type receives its qualifiers in one
way only, and no alias is `extern`, is answered correctly: no request loops or reads outside the table,
every answer stands for the type asked for, and two answers are the same handle exactly when the same type
was asked for. The full statement has no hypothesis; it is false, see
`const_pointer_has_two_handles`, `function_type_depends_on_order` and `inferred_return_type_duplicates`. -/
theorem interning_canonical_partial (reqs : List Req) (hr : ∀ r ∈ reqs, r.ok) (ms : List Tree)
    (ha : askedAll [] reqs = some ms) (hm : ∀ m ∈ ms, Canon W m) :
    ∃ outs s, run empty [] reqs = some (.ok (outs, s)) ∧ outs.map erase = ms ∧
      ∀ (i j : Nat) (t u : Ty), outs[i]? = some t → outs[j]? = some u → (t.id = u.id ↔ ms[i]? = ms[j]?) := by
  obtain ⟨he, hc⟩ := empty_inv
  obtain ⟨outs, s, h1, h2, h3, h4⟩ := run_canonical reqs empty [] ms he (by simp) (by simp [hc]) hr ha hm
  refine ⟨outs, s, h1, h4, ?_⟩
  intro i j t u hi hj
  have ti := h3 t (List.mem_of_getElem? hi)
  have uj := h3 u (List.mem_of_getElem? hj)
  have mi : ms[i]? = some (erase t) := by rw [← h4]; simp [hi]
  have mj : ms[j]? = some (erase u) := by rw [← h4]; simp [hj]
  rw [mi, mj, Option.some.injEq]
  constructor
  · intro h; rw [h2.uniq t ti u uj h]
  · intro h
    have ct : Canon W (erase t) := hm _ (List.mem_of_getElem? mi)
    have cu : Canon W (erase u) := hm _ (List.mem_of_getElem? mj)
    rw [compat.unique h2.inv.distinct ti uj ((same_canon ct cu).mpr h)]

end Verif.TypeTable
