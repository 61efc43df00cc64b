import Verif.Lang.TypeTable.Props
/-! # C24: where interning is not canonical -/
namespace Verif.TypeTable

open Verif.Hash Verif.HTable

/-! ## The hash keeps differences -/

/-- `f` keeps apart states that differ in the 31 bits kept by the table. -/
def Keeps (f : BitVec 32 → BitVec 32) : Prop :=
  ∀ h h', (f h).setWidth 31 = (f h').setWidth 31 → h.setWidth 31 = h'.setWidth 31

theorem keeps_uint8 (x : Byte) : Keeps (hashUint8 · x) := by
  intro h h' he
  simp only [hashUint8] at he
  have hm : ∀ a b : BitVec 32, (a * b).setWidth 31 = a.setWidth 31 * b.setWidth 31 := by
    intro a b
    apply BitVec.eq_of_toNat_eq
    simp only [BitVec.toNat_setWidth, BitVec.toNat_mul]
    rw [Nat.mod_mod_of_dvd _ (by decide), ← Nat.mul_mod]
  rw [hm, hm] at he
  have hi : ∀ a : BitVec 31, a * (0x01000193#32).setWidth 31 * 899433627#31 = a := by
    intro a
    rw [BitVec.mul_assoc, show (0x01000193#32).setWidth 31 * 899433627#31 = 1#31 by decide, BitVec.mul_one]
  have he := congrArg (· * 899433627#31) he
  simp only [hi, BitVec.setWidth_xor] at he
  have := congrArg (· ^^^ (x.setWidth 32).setWidth 31) he
  simpa [BitVec.xor_assoc] using this

theorem Keeps.comp {f g : BitVec 32 → BitVec 32} (hf : Keeps f) (hg : Keeps g) : Keeps (fun h => f (g h)) :=
  fun h h' he => hg h h' (hf _ _ he)

theorem keeps_id : Keeps (fun h => h) := fun _ _ h => h

theorem keeps_uint16 (x : BitVec 16) : Keeps (hashUint16 · x) := (keeps_uint8 _).comp (keeps_uint8 _)
theorem keeps_uint32 (x : BitVec 32) : Keeps (hashUint32 · x) := (keeps_uint16 _).comp (keeps_uint16 _)
theorem keeps_uint64 (x : BitVec 64) : Keeps (hashUint64 · x) := (keeps_uint32 _).comp (keeps_uint32 _)

theorem keeps_bytes : ∀ s : List Byte, Keeps (hashRawBytes · s)
  | [] => keeps_id
  | x :: xs => Keeps.comp (f := (hashRawBytes · xs)) (keeps_bytes xs) (keeps_uint8 x)

theorem keeps_name : ∀ n : Option Name, Keeps (hashName · n)
  | none => keeps_id
  | some s => keeps_bytes s

theorem keeps_head (tag : Nat) (f : Flags) : Keeps (hashHead · tag f) := (keeps_uint64 _).comp (keeps_uint32 _)

theorem keeps_data (d : Data) : Keeps (hashData · d) := by
  have hh : ∀ c, Keeps (fun h => hashHead h c d.flags) := fun c => keeps_head c d.flags
  unfold hashData
  cases d.tag
  case primitive =>
    exact Keeps.comp (f := fun h => hashUint32 h (BitVec.ofNat 32 d.num)) (keeps_uint32 _) (hh _)
  case untaggedUnion => exact Keeps.comp (f := fun h => hashName h d.name) (keeps_name _) (hh _)
  case «opaque» => exact Keeps.comp (f := fun h => hashName h d.name) (keeps_name _) (hh _)
  case func => exact Keeps.comp (f := fun h => hashName h d.name) (keeps_name _) (hh _)
  case enum =>
    exact Keeps.comp (f := fun h => hashName h d.ns) (keeps_name _)
      (Keeps.comp (f := fun h => hashName h d.name) (keeps_name _) (hh _))
  case alias =>
    cases byName d
    · exact hh _
    · exact Keeps.comp (f := fun h => hashName h d.name) (keeps_name _) (hh _)
  all_goals exact hh _

theorem keeps_tags : ∀ ts : List Ty, Keeps (hashTags · ts)
  | [] => keeps_id
  | _ :: ts => Keeps.comp (f := (hashTags · ts)) (keeps_tags ts) (keeps_uint64 _)

mutual
theorem keeps_type : ∀ t : Ty, Keeps (hashType · t)
  | .wrapped _ f t => by
    unfold hashType
    exact Keeps.comp (f := (hashType · t)) (keeps_type t) (keeps_head 28 f)
  | .node _ d full many => by
    unfold hashType
    have h1 : Keeps (fun h => hashTags (hashData h d) many) :=
      Keeps.comp (f := (hashTags · many)) (keeps_tags many) (keeps_data d)
    have h2 : Keeps (fun h => if byName d then hashTags (hashData h d) many
        else hashFull (hashTags (hashData h d) many) full) := by
      cases byName d
      · simpa using Keeps.comp (f := (hashFull · full)) (keeps_full full) h1
      · simpa using h1
    by_cases ha : d.tag = .array
    · simp only [ha, if_true]
      exact Keeps.comp (f := (hashNum64 · d.num)) (keeps_uint64 _) h2
    · simp only [ha, if_false]; exact h2
theorem keeps_full : ∀ ts : List Ty, Keeps (hashFull · ts)
  | [] => keeps_id
  | t :: ts => by
    unfold hashFull
    exact Keeps.comp (f := (hashFull · ts)) (keeps_full ts) (keeps_type t)
end

theorem low_of_key {a b : BitVec 32} (h : a ||| occupiedMask = b ||| occupiedMask) : a.setWidth 31 = b.setWidth 31 := by
  have := congrArg (BitVec.setWidth 31) h
  have hz : BitVec.setWidth 31 occupiedMask = 0#31 := by decide
  rw [BitVec.setWidth_or, BitVec.setWidth_or, hz, BitVec.or_zero, BitVec.or_zero] at this
  exact this

/-! ## Const pointers -/

theorem run_append (rs rs' : List Req) : ∀ (s : State) (outs : List Ty) (outs' : List Ty) (s' : State),
    run s outs rs = some (.ok (outs', s')) → run s outs (rs ++ rs') = run s' outs' rs' := by
  induction rs with
  | nil => intro s outs outs' s' h; simp [run] at h; obtain ⟨rfl, rfl⟩ := h; rfl
  | cons r rs ih =>
    intro s outs outs' s' h
    simp only [run, List.cons_append] at h ⊢
    split at h
    · simp at h
    · exact ih _ _ _ _ h
    · simp at h
    · simp at h

/-- **C24 is false of the code**: after any canonical history, for every type `T` asked for so far (other
than an alias, type information or a wrapped type), a pointer to `T` made constant afterwards and a
constant pointer to `T` made at once get different handles, although `compareTypes` calls them equal. -/
theorem const_pointer_has_two_handles {W : Tag → Bool} (reqs : List Req) (hr : ∀ r ∈ reqs, r.ok) (ms : List Tree)
    (ha : askedAll [] reqs = some ms) (hm : ∀ m ∈ ms, Canon W m) (i : Nat) (d : Data) (full many : List Tree)
    (hi : ms[i]? = some (.node d full many)) (hd : d.tag ≠ .alias ∧ d.tag ≠ .info) :
    ∃ outs s x2 x3, run empty [] (reqs ++ [.flat .pointer i 0 none, .wrap reqs.length flgConst,
        .flat .pointer i flgConst none]) = some (.ok (outs, s)) ∧
      outs[reqs.length + 1]? = some x2 ∧ outs[reqs.length + 2]? = some x3 ∧
      compareTypes x2 x3 = true ∧ x2.id ≠ x3.id := by
  obtain ⟨he, hce⟩ := empty_inv
  obtain ⟨ptr, hptr⟩ : ∃ ptr : Tree, ptr = .node { tag := .pointer } [.node d full many] [] := ⟨_, rfl⟩
  -- the history and the plain pointer
  have hplain : asked ms (.flat .pointer i 0 none) = some ptr := by
    have : strip (.node d full many) = .node d full many := by
      rcases full with _ | ⟨t, _ | ⟨t', ts⟩⟩ <;> simp [strip, hd.1, hd.2]
    simp only [asked, hi, Option.map_some, this, open_, hptr]
    rfl
  have hasked : ∀ (rs : List Req) (ns : List Tree), askedAll ns rs = some ms →
      askedAll ns (rs ++ [.flat .pointer i 0 none]) = some (ms ++ [ptr]) := by
    intro rs
    induction rs with
    | nil => intro ns h; simp only [askedAll, Option.some.injEq] at h; subst h; simp only [List.nil_append, askedAll, hplain]; rfl
    | cons r rs ih =>
      intro ns h
      simp only [askedAll, List.cons_append, Option.bind_eq_bind, Option.bind_eq_some_iff] at h ⊢
      obtain ⟨t, h1, h2⟩ := h
      exact ⟨t, h1, ih _ h2⟩
  obtain ⟨outs, s, h1, h2, h3, h4⟩ := run_canonical (W := W) (reqs ++ [Req.flat .pointer i 0 none]) empty [] (ms ++ [ptr]) he (by simp)
    (by simp [hce]) (by
      intro r h
      rcases List.mem_append.mp h with h | h
      · exact hr r h
      · rw [List.mem_singleton.mp h]; simp [Req.ok])
    (by exact hasked reqs [] ha) (by
      intro m h
      rcases List.mem_append.mp h with h | h
      · exact hm m h
      · rw [List.mem_singleton.mp h]
        simp only [hptr, Canon, CanonAll]
        refine ⟨fun _ => trivial, ?_, ⟨?_, trivial⟩, trivial⟩
        · intro h; simp at h
        · have := hm _ (List.mem_of_getElem? hi)
          simpa only [Canon] using this)
  -- lengths
  obtain ⟨ns, hns, hnl⟩ := askedAll_prefix _ _ _ ha
  simp only [List.nil_append] at hns
  subst hns
  have hil : i < ms.length := by
    rw [List.getElem?_eq_some_iff] at hi
    exact hi.1
  have hlen : outs.length = reqs.length + 1 := by
    have := congrArg List.length h4
    simp [hnl] at this; exact this
  -- the type and the plain pointer
  obtain ⟨t, ht, hte⟩ : ∃ t, outs[i]? = some t ∧ erase t = .node d full many := by
    have : (outs.map erase)[i]? = some (.node d full many) := by
      rw [h4, List.getElem?_append_left hil, hi]
    simpa [List.getElem?_map] using this
  obtain ⟨p, hp, hpe⟩ : ∃ p, outs[reqs.length]? = some p ∧ erase p = .node { tag := .pointer } [.node d full many] [] := by
    have : (outs.map erase)[reqs.length]? = some (.node { tag := .pointer } [.node d full many] []) := by
      rw [h4, ← hnl, hptr]; simp
    simpa [List.getElem?_map] using this
  have htm := h3 t (List.mem_of_getElem? ht)
  have hpm := h3 p (List.mem_of_getElem? hp)
  -- flattening does nothing to either
  have hflat : ∀ (f : Flags) (u : Ty) (d : Data) (full many : List Tree), erase u = .node d full many →
      d.tag ≠ .alias → d.tag ≠ .info → flatten f u = (f, u) := by
    intro f u d full many hu h1 h2
    match u with
    | .wrapped .. => simp [erase] at hu
    | .node j d' fu ma =>
      simp only [erase, Tree.node.injEq] at hu
      have e : d'.tag = d.tag := by rw [← hu.1]; rfl
      rcases fu with _ | ⟨a, _ | ⟨b, bs⟩⟩ <;> simp [flatten, resolve, peel, e, h1, h2]
  have hpf : (p.flags &&& flgConst = flgConst) ↔ False := by
    match p with
    | .wrapped .. => simp [erase] at hpe
    | .node j d' fu ma =>
      simp only [erase, Tree.node.injEq] at hpe
      have hz : d'.flags &&& applicable = 0 := congrArg Data.flags hpe.1
      simp only [Ty.flags, iff_false]
      intro hc
      have : d'.flags &&& flgConst = (d'.flags &&& applicable) &&& flgConst := by
        rw [BitVec.and_assoc]; congr 1
      rw [this, hz] at hc
      exact absurd hc (by decide)
  -- second request: the wrapper
  have hb2 : build s.next outs (.wrap reqs.length flgConst) = some (.intern (.wrapped s.next flgConst p)) := by
    have := hflat flgConst p _ _ _ hpe (by decide) (by decide)
    simp [build, hp, hpf, this]
  obtain ⟨x2, s2, hx2, hs2, hsame2, hxc2, hsub2, _⟩ := request_spec h2 h3 (r := .wrap reqs.length flgConst)
    (by simp only [Req.ok]; decide) hb2
  -- third request: the constant pointer
  have ht' : (outs ++ [x2])[i]? = some t := by
    rw [List.getElem?_append_left (by rw [hlen]; omega), ht]
  have hb3 : build s2.next (outs ++ [x2]) (.flat .pointer i flgConst none) =
      some (.intern (.node s2.next { tag := .pointer, flags := flgConst } [t] [])) := by
    have := hflat flgConst t _ _ _ hte hd.1 hd.2
    simp [build, ht', this]
  have hin2 : ∀ u ∈ outs ++ [x2], u ∈ contents s2.table := by
    intro u hu
    rcases List.mem_append.mp hu with h | h
    · exact hsub2 u (h3 u h)
    · rw [List.mem_singleton.mp h]; exact hxc2
  obtain ⟨x3, s3, hx3, hs3, hsame3, hxc3, hsub3, _⟩ := request_spec hs2 hin2 (r := .flat .pointer i flgConst none)
    (by simp [Req.ok]) hb3
  refine ⟨outs ++ [x2] ++ [x3], s3, x2, x3, ?_, ?_, ?_, ?_, ?_⟩
  · rw [show reqs ++ [Req.flat .pointer i 0 none, .wrap reqs.length flgConst, .flat .pointer i flgConst none]
        = (reqs ++ [Req.flat .pointer i 0 none]) ++ [.wrap reqs.length flgConst, .flat .pointer i flgConst none] by simp,
      run_append _ _ _ _ _ _ h1]
    simp [run, hx2, hx3]
  · rw [List.getElem?_append_left (by simp [hlen]), List.getElem?_append_right (by omega), hlen]; simp
  · rw [List.getElem?_append_right (by simp [hlen])]; simp [hlen]
  · rw [compareTypes_exact x2 x3 (hs3.good _ (hsub3 _ hxc2)) (hs3.good _ hxc3) (by
      intro a ha b hb hab
      exact hs3.uniq a (hs3.closed _ (hsub3 _ hxc2) _ ha) b (hs3.closed _ hxc3 _ hb) hab),
      (same_iff.mp hsame2).1, (same_iff.mp hsame3).1]
    simp only [Built.ty, erase, hpe, eraseAll, hte, norm, normAll, qualify, byName]
    simp [clean, normAll, norm]
  · intro hid
    have := hs3.uniq x2 (hsub3 _ hxc2) x3 hxc3 hid
    subst this
    have hk := (same_iff.mp hsame2).2.symm.trans (same_iff.mp hsame3).2
    simp only [Built.ty, key] at hk
    have hlow := low_of_key hk
    have e1 : hashType hashInit (.wrapped s.next flgConst p) =
        hashType (hashHead (hashHead hashInit 28 flgConst) 10 0) t := by
      have : hashType (hashHead hashInit 28 flgConst) p =
          hashType (hashHead hashInit 28 flgConst) (.node 0 { tag := .pointer } [t] []) :=
        hash_erase _ _ _ (by rw [hpe]; simp [erase, eraseAll, hte, byName]; rfl)
      simp only [hashType, this]
      simp [hashData, hashTags, hashFull, byName, Tag.code]
    have e2 : hashType hashInit (.node s2.next { tag := .pointer, flags := flgConst } [t] []) =
        hashType (hashHead hashInit 10 flgConst) t := by
      simp [hashType, hashData, hashTags, hashFull, byName, Tag.code]
    rw [e1, e2] at hlow
    exact absurd (keeps_type t _ _ hlow) (by decide)

/-- The handles of the answers. -/
def handles (r : Option (Res (List Ty × State))) : Option (List Nat) :=
  match r with
  | some (.ok (outs, _)) => some (outs.map Ty.id)
  | _ => none

/-- A sample history: `i32`, a pointer to it, an array of four such pointers, the tuple `(i32, i32*)`,
`const i32`, a pointer to that, a constant pointer to `i32`, a function, and the first pointer again. -/
def sample : List Req :=
  [.leaf { tag := .primitive, num := 9 }, .flat .pointer 0 0 none, .plain { tag := .array, num := 4 } [1],
   .members { tag := .tuple } [0, 1], .wrap 0 flgConst, .flat .pointer 4 0 none, .flat .pointer 0 flgConst none,
   .func 0 (some [0x66#8]) (some 3) 0 [1, 3], .flat .pointer 0 0 none]

/-- In the sample `const` is put on primitive types by a wrapper and on pointers directly: the hypotheses
of `interning_canonical_partial` are met. -/
example : (∀ r ∈ sample, r.ok) ∧ ∃ ms, askedAll [] sample = some ms ∧ ms.length = 9 ∧
    (∀ m ∈ ms, Canon (fun t => t = .primitive) m) := by
  refine ⟨?_, [.node { tag := .primitive, num := 9 } [] [],
    .node { tag := .pointer } [.node { tag := .primitive, num := 9 } [] []] [],
    .node { tag := .array, num := 4 } [.node { tag := .pointer } [.node { tag := .primitive, num := 9 } [] []] []] [],
    .node { tag := .tuple } [] [.node { tag := .primitive, num := 9 } [] [],
      .node { tag := .pointer } [.node { tag := .primitive, num := 9 } [] []] []],
    .wrapped flgConst (.node { tag := .primitive, num := 9 } [] []),
    .node { tag := .pointer, flags := flgConst } [.node { tag := .primitive, num := 9 } [] []] [],
    .node { tag := .pointer, flags := flgConst } [.node { tag := .primitive, num := 9 } [] []] [],
    .node { tag := .func, name := some [0x66#8], scope := some 3 } [.node { tag := .primitive, num := 9 } [] []]
      [.node { tag := .pointer } [.node { tag := .primitive, num := 9 } [] []] [],
       .node { tag := .tuple } [] [.node { tag := .primitive, num := 9 } [] [],
         .node { tag := .pointer } [.node { tag := .primitive, num := 9 } [] []] []]],
    .node { tag := .pointer } [.node { tag := .primitive, num := 9 } [] []] []], rfl, rfl, ?_⟩
  · intro r hr
    simp only [sample, List.mem_cons, List.not_mem_nil, or_false] at hr
    rcases hr with rfl | rfl | rfl | rfl | rfl | rfl | rfl | rfl | rfl <;> simp only [Req.ok] <;> decide
  · intro m hm
    simp only [List.mem_cons, List.not_mem_nil, or_false] at hm
    rcases hm with rfl | rfl | rfl | rfl | rfl | rfl | rfl | rfl | rfl <;> simp [Canon, CanonAll, flgConst]

/-- and its handles: the last request gets the handle of the second. -/
example : handles (run empty [] sample) = some [0, 1, 2, 3, 4, 5, 5, 6, 1] := by decide +kernel

/-- **C24 is false of the code** for qualifiers of the pointed type: after any canonical history, for every
unqualified type `T` asked for so far whose kind is qualified by wrapping, a pointer to `const T` and a
constant pointer to `T` are the same handle. -/
theorem pointer_to_const_is_const_pointer {W : Tag → Bool} (hW : W .pointer = false) (reqs : List Req)
    (hr : ∀ r ∈ reqs, r.ok) (ms : List Tree)
    (ha : askedAll [] reqs = some ms) (hm : ∀ m ∈ ms, Canon W m) (i : Nat) (d : Data) (full many : List Tree)
    (hi : ms[i]? = some (.node d full many)) (hd : d.tag ≠ .alias ∧ d.tag ≠ .info) (hdW : W d.tag = true) :
    ∃ outs s x y z, run empty [] (reqs ++ [.wrap i flgConst, .flat .pointer reqs.length 0 none,
        .flat .pointer i flgConst none]) = some (.ok (outs, s)) ∧
      outs[reqs.length]? = some x ∧ erase x = .wrapped flgConst (.node d full many) ∧
      outs[reqs.length + 1]? = some y ∧ outs[reqs.length + 2]? = some z ∧ y.id = z.id := by
  obtain ⟨ns, hns, hnl⟩ := askedAll_prefix _ _ _ ha
  simp only [List.nil_append] at hns
  subst hns
  have hil : i < ms.length := (List.getElem?_eq_some_iff.mp hi).1
  have hcd : Canon W (.node d full many) := hm _ (List.mem_of_getElem? hi)
  have hz : d.flags = 0 := by simp only [Canon] at hcd; exact hcd.1 hdW
  have hs : strip (.node d full many) = .node d full many := by
    rcases full with _ | ⟨t, _ | ⟨t', ts⟩⟩ <;> simp [strip, hd.1, hd.2]
  obtain ⟨cp, hcp⟩ : ∃ cp : Tree, cp = .node { tag := .pointer, flags := flgConst } [.node d full many] [] := ⟨_, rfl⟩
  have happ : ∀ (rs rs' : List Req) (ns : List Tree), askedAll ns rs = some ms →
      askedAll ns (rs ++ rs') = askedAll ms rs' := by
    intro rs rs'
    induction rs with
    | nil => intro ns h; simp only [askedAll, Option.some.injEq] at h; subst h; rfl
    | cons r rs ih =>
      intro ns h
      simp only [askedAll, List.cons_append, Option.bind_eq_bind, Option.bind_eq_some_iff] at h ⊢
      obtain ⟨t, h1, h2⟩ := h
      rw [h1]
      exact ih _ h2
  have hasked : askedAll [] (reqs ++ [.wrap i flgConst, .flat .pointer reqs.length 0 none,
        .flat .pointer i flgConst none]) = some (ms ++ [.wrapped flgConst (.node d full many)] ++ [cp] ++ [cp]) := by
    rw [happ reqs _ [] ha]
    have q1 : asked ms (.wrap i flgConst) = some (.wrapped flgConst (.node d full many)) := by
      have : ¬ ((0 : Flags) &&& flgConst = flgConst) := by decide
      simp only [asked, hi, Option.map_some, flagsOf, hz, if_neg this, hs, open_]
    have q2 : asked (ms ++ [.wrapped flgConst (.node d full many)]) (.flat .pointer reqs.length 0 none) = some cp := by
      have : (ms ++ [Tree.wrapped flgConst (.node d full many)])[reqs.length]? =
          some (.wrapped flgConst (.node d full many)) := by rw [← hnl]; simp
      simp only [asked, this, Option.map_some, strip, open_, hcp]
      rfl
    have q3 : asked (ms ++ [.wrapped flgConst (.node d full many)] ++ [cp]) (.flat .pointer i flgConst none) = some cp := by
      have : (ms ++ [Tree.wrapped flgConst (.node d full many)] ++ [cp])[i]? = some (.node d full many) := by
        rw [List.append_assoc, List.getElem?_append_left hil, hi]
      simp only [asked, this, Option.map_some, hs, open_]
      rw [hcp]
      rfl
    simp only [askedAll, q1, q2, q3, Option.bind_eq_bind, Option.bind_some]
  obtain ⟨outs, s, h1, h2, h3⟩ := interning_canonical_partial (W := W) _ (by
      intro r h
      simp only [List.mem_append, List.mem_cons, List.not_mem_nil, or_false] at h
      rcases h with h | rfl | rfl | rfl
      · exact hr r h
      · simp only [Req.ok]; decide
      · simp [Req.ok]
      · simp [Req.ok]) _ hasked (by
      intro m h
      simp only [List.mem_append, List.mem_cons, List.not_mem_nil, or_false] at h
      have hcpc : Canon W cp := by
        rw [hcp]
        simp only [Canon, CanonAll, hW]
        exact ⟨by simp, by simp, ⟨by simpa only [Canon] using hcd, trivial⟩, trivial⟩
      rcases h with ((h | rfl) | rfl) | rfl
      · exact hm m h
      · simp only [Canon]
        exact ⟨by decide, hdW, by simpa only [Canon] using hcd⟩
      · exact hcpc
      · exact hcpc)
  have hget : ∀ (k : Nat) (m : Tree), (ms ++ [Tree.wrapped flgConst (.node d full many)] ++ [cp] ++ [cp])[k]? = some m →
      ∃ t, outs[k]? = some t ∧ erase t = m := by
    intro k m hk
    rw [← h2] at hk
    simpa [List.getElem?_map] using hk
  obtain ⟨x, hx, hxe⟩ := hget reqs.length (.wrapped flgConst (.node d full many)) (by rw [← hnl]; simp)
  obtain ⟨y, hy, _⟩ := hget (reqs.length + 1) cp (by rw [← hnl]; simp)
  obtain ⟨z, hz', _⟩ := hget (reqs.length + 2) cp (by rw [← hnl]; simp)
  refine ⟨outs, s, x, y, z, h1, hx, hxe, hy, hz', ?_⟩
  rw [h3 _ _ _ _ hy hz', ← hnl]
  simp

example : (fun t => decide (t = Tag.primitive)) Tag.pointer = false := by decide

/-- **C24 is false of the code** for named functions: a function type whose declaration has no scope is
equal to any function type of the same name and signature, so what two different function types get
depends on whether it was asked for before them. -/
theorem function_type_depends_on_order :
    handles (run empty [] [.leaf { tag := .void }, .func 0 (some [0x66#8]) (some 1) 0 [],
      .func 0 (some [0x66#8]) (some 2) 0 []]) = some [0, 1, 2] ∧
    handles (run empty [] [.leaf { tag := .void }, .func 0 (some [0x66#8]) none 0 [],
      .func 0 (some [0x66#8]) (some 1) 0 [], .func 0 (some [0x66#8]) (some 2) 0 []]) = some [0, 1, 1, 1] := by
  decide +kernel

/-- Every history the compiler issues leaves a good table holding all answers. -/
theorem run_good : ∀ (reqs : List Req) (s : State) (outs : List Ty), SInv s → (∀ t ∈ outs, t ∈ contents s.table) →
    (∀ r ∈ reqs, r.ok) → ∀ outs' s', run s outs reqs = some (.ok (outs', s')) →
    SInv s' ∧ ∀ t ∈ outs', t ∈ contents s'.table := by
  intro reqs
  induction reqs with
  | nil => intro s outs hs ho _ outs' s' h; simp [run] at h; obtain ⟨rfl, rfl⟩ := h; exact ⟨hs, ho⟩
  | cons r rs ih =>
    intro s outs hs ho hr outs' s' h
    simp only [run] at h
    cases hb : build s.next outs r with
    | none => simp [request, hb] at h
    | some b =>
      obtain ⟨x, s1, hx, hs1, _, hxc, hsub, _⟩ := request_spec hs ho (hr r (by simp)) hb
      rw [hx] at h
      refine ih s1 (outs ++ [x]) hs1 ?_ (fun r h => hr r (List.mem_cons_of_mem _ h)) outs' s' h
      intro t ht
      rcases List.mem_append.mp ht with h | h
      · exact hsub t (ho t h)
      · rw [List.mem_singleton.mp h]; exact hxc

/-- **C24 is false of the code** after the return type of a function has been inferred: in the state left by
any history, the function type is overwritten in place and keeps its handle, even when the resulting type
is already in the table under another handle `g`. -/
theorem inferred_return_type_duplicates (reqs : List Req) (hreq : ∀ r ∈ reqs, r.ok) {outs : List Ty} {s : State}
    (hrun : run empty [] reqs = some (.ok (outs, s))) (f g ret : Ty) (hfo : f ∈ outs)
    (hne : f.id ≠ g.id) {i : Nat} {d : Data} {full many : List Ty}
    (hfe : f = .node i d full many) (hge : erase g = .node (clean d) [erase ret] (eraseAll many))
    (hby : byName d = false)
    {x : Ty} {s' : State} (h : changeFunctionRetType s f ret = .ok (x, s')) :
    x.id = f.id ∧ x.id ≠ g.id ∧ erase x = erase g := by
  obtain ⟨he, hce⟩ := empty_inv
  obtain ⟨hs, ho⟩ := run_good reqs empty [] he (by simp) hreq outs s hrun
  have hf := ho f hfo
  subst hfe
  have hfound : ∃ j, findIdx compareTypes s.table (.node i d full many) (hashType hashInit (.node i d full many))
      = .ok (some j) ∧ s.table.elems j = some (.node i d full many) := by
    have hcap := hs.inv.cap_pos
    have hor : hashType hashInit (.node i d full many) ||| occupiedMask =
        key (.node i d full many) ||| occupiedMask := by rw [key_or]; rfl
    have hcong : ∀ k y, k < s.table.cap → occupied s.table k = true →
        s.table.hashes k = hashType hashInit (.node i d full many) ||| occupiedMask → s.table.elems k = some y →
        compareTypes y (.node i d full many) = same y (.node i d full many) := by
      intro k y hk ho hh hy
      obtain ⟨hm, hkey⟩ := slot_mem hs hk ho hy
      have := compareTypes_exact y (.node i d full many) (hs.good y hm) (hs.good _ hf) (by
        intro a ha b hb hab
        exact hs.uniq a (hs.closed _ hm _ ha) b (hs.closed _ hf _ hb) hab)
      rw [Bool.eq_iff_iff, this, same_iff]
      exact ⟨fun h => ⟨h, by rw [← hkey, hh]; rfl⟩, fun h => h.1⟩
    have hidx : findIdx compareTypes s.table (.node i d full many) (hashType hashInit (.node i d full many)) =
        findIdx same s.table (.node i d full many) (key (.node i d full many)) := by
      unfold findIdx
      simp only [← hor]
      rw [probeLoop_congr hcap hcong _ (modPrime _ _) (Nat.mod_lt _ hcap)]
    rw [hidx]
    rcases find_spec compat hs.inv (.node i d full many) with ⟨y, hy, hye, hfi⟩ | ⟨hno, _⟩
    · have : y = .node i d full many := compat.unique hs.inv.distinct hy hf hye
      subst this
      unfold find at hfi
      split at hfi <;> simp_all
    · have := hno _ hf
      rw [compat.refl] at this
      exact Bool.noConfusion this
  obtain ⟨j, hj, hje⟩ := hfound
  unfold changeFunctionRetType at h
  simp only [hj, hje] at h
  split at h <;> try contradiction
  rename_i hx _
  simp only [Option.some.injEq] at hx
  subst hx
  split at h <;> try contradiction
  cases h
  refine ⟨rfl, hne, ?_⟩
  rw [hge]
  simp [erase, hby, eraseAll]

/-- For example `func()` with its return type still to be inferred (`auto`) and `func(): void`: once the first
is inferred to return `void`, the two are equal and have the handles 2 and 3. -/
example : (match run empty [] [.leaf { tag := .void }, .leaf { tag := .auto }, .func 0 none none 1 [],
      .func 0 none none 0 []] with
    | some (.ok ([v, _, f, g], s)) =>
      (match changeFunctionRetType s f v with
       | .ok (x, _) => compareTypes x g && x.id == 2 && g.id == 3
       | _ => false)
    | _ => false) = true := by decide +kernel

end Verif.TypeTable
