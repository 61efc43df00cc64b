import Verif.Core.RobinHood.Model
/-! # Helper lemmas for robin-hood probing -/
namespace Verif.RH

variable {α : Type}

/-! ## Capacities -/

/-- what `idealSize` can return -/
def IsCap (c : Nat) : Prop := c ∈ primes ∨ ∃ k, c = 8800019 * 2 ^ k

theorem doubling_spec (s : Nat) : ∀ fuel last, 1 ≤ last → s ≤ fuel + last →
    s ≤ doubling s fuel last ∧ (∃ k, doubling s fuel last = last * 2 ^ k) ∧
    ∀ m, s ≤ last * 2 ^ m → doubling s fuel last ≤ last * 2 ^ m := by
  intro fuel
  induction fuel with
  | zero =>
    intro last _ h
    refine ⟨by simpa [doubling] using h, ⟨0, by simp [doubling]⟩, ?_⟩
    intro m _
    exact Nat.le_mul_of_pos_right _ (Nat.pow_pos (by omega))
  | succ fuel ih =>
    intro last h1 h
    unfold doubling
    by_cases hlt : last < s
    · rw [if_pos hlt]
      obtain ⟨a, ⟨k, hk⟩, c⟩ := ih (last * 2) (by omega) (by omega)
      refine ⟨a, ⟨k + 1, by rw [hk, Nat.pow_succ, Nat.mul_assoc, Nat.mul_comm 2]⟩, ?_⟩
      intro m hm
      cases m with
      | zero => simp at hm; omega
      | succ m =>
        have := c m (by rw [Nat.pow_succ, Nat.mul_comm (2 ^ m), ← Nat.mul_assoc] at hm; exact hm)
        rw [Nat.pow_succ, Nat.mul_comm (2 ^ m), ← Nat.mul_assoc]
        exact this
    · rw [if_neg hlt]
      refine ⟨by omega, ⟨0, by simp⟩, ?_⟩
      intro m _
      exact Nat.le_mul_of_pos_right _ (Nat.pow_pos (by omega))

theorem find_first_ge (s : Nat) : ∀ l : List Nat, l.Pairwise (· ≤ ·) →
    match l.find? (fun p => decide (p ≥ s)) with
    | some p => s ≤ p ∧ p ∈ l ∧ ∀ q ∈ l, s ≤ q → p ≤ q
    | none => ∀ q ∈ l, q < s := by
  intro l
  induction l with
  | nil => intro _; simp
  | cons a l ih =>
    intro hs
    obtain ⟨h1, h2⟩ := List.pairwise_cons.mp hs
    rw [List.find?_cons]
    by_cases ha : s ≤ a
    · have : decide (a ≥ s) = true := by simpa using ha
      simp only [this]
      refine ⟨ha, by simp, ?_⟩
      intro q hq _
      rcases List.mem_cons.mp hq with h | h
      · omega
      · exact h1 q h
    · have : decide (a ≥ s) = false := by simpa using ha
      simp only [this]
      have ih := ih h2
      cases hf : l.find? (fun p => decide (p ≥ s)) with
      | none =>
        rw [hf] at ih
        intro q hq
        rcases List.mem_cons.mp hq with h | h
        · omega
        · exact ih q h
      | some p =>
        rw [hf] at ih
        refine ⟨ih.1, by simp [ih.2.1], ?_⟩
        intro q hq hsq
        rcases List.mem_cons.mp hq with h | h
        · omega
        · exact ih.2.2 q h hsq

theorem primes_sorted : primes.Pairwise (· ≤ ·) := by decide

theorem primes_le : ∀ p ∈ primes, p ≤ 8800019 := by decide

theorem idealSize_spec (n : Nat) :
    (n + 1) * 10 / 9 ≤ idealSize n ∧ IsCap (idealSize n) ∧
    ∀ c, IsCap c → (n + 1) * 10 / 9 ≤ c → idealSize n ≤ c := by
  unfold idealSize
  simp only
  have h := find_first_ge ((n + 1) * 10 / 9) primes primes_sorted
  generalize hs : (n + 1) * 10 / 9 = s at *
  cases hf : primes.find? (fun p => decide (p ≥ s)) with
  | some p =>
    rw [hf] at h
    refine ⟨h.1, Or.inl h.2.1, ?_⟩
    rintro c (hc | ⟨k, hk⟩) hsc
    · exact h.2.2 c hc hsc
    · have h1 := primes_le p h.2.1
      have h2 : 8800019 ≤ c := by
        rw [hk]; exact Nat.le_mul_of_pos_right _ (Nat.pow_pos (by omega))
      exact Nat.le_trans h1 h2
  | none =>
    rw [hf] at h
    obtain ⟨a, ⟨k, hk⟩, c⟩ := doubling_spec s s 8800019 (by omega) (by omega)
    refine ⟨a, Or.inr ⟨k, hk⟩, ?_⟩
    rintro c' (hc | ⟨m, hm⟩) hsc
    · have := h c' hc; omega
    · rw [hm] at hsc ⊢
      exact c m hsc

theorem idealSize_gt (n : Nat) : n < idealSize n := by
  have := (idealSize_spec n).1
  omega

theorem idealSize_mono {m n : Nat} (h : m ≤ n) : idealSize m ≤ idealSize n := by
  have a := idealSize_spec m
  have b := idealSize_spec n
  exact a.2.2 _ b.2.1 (by omega)

/-! ## Cyclic indices -/

theorem mod_succ (cap d : Nat) : (d % cap + 1) % cap = (d + 1) % cap := by
  simp [Nat.add_mod]

theorem exists_offset {cap : Nat} (hc : 0 < cap) (d i : Nat) (hi : i < cap) :
    ∃ k, k < cap ∧ (d + k) % cap = i := by
  have hd := Nat.mod_lt d hc
  by_cases h : d % cap ≤ i
  · refine ⟨i - d % cap, by omega, ?_⟩
    rw [Nat.add_mod, Nat.mod_eq_of_lt (show i - d % cap < cap by omega)]
    rw [show d % cap + (i - d % cap) = i by omega, Nat.mod_eq_of_lt hi]
  · refine ⟨i + cap - d % cap, by omega, ?_⟩
    rw [Nat.add_mod, Nat.mod_eq_of_lt (show i + cap - d % cap < cap by omega)]
    rw [show d % cap + (i + cap - d % cap) = i + cap by omega]
    simp [Nat.mod_eq_of_lt hi]

/-- true distance of slot `i` from home `h` -/
def dist (cap i h : Nat) : Nat := if h ≤ i then i - h else cap + i - h

theorem dist_lt {cap i h : Nat} (hi : i < cap) (hh : h < cap) : dist cap i h < cap := by
  unfold dist; split <;> omega

theorem home_add_dist {cap i h : Nat} (hi : i < cap) (hh : h < cap) : (h + dist cap i h) % cap = i := by
  unfold dist
  split
  · rw [show h + (i - h) = i by omega, Nat.mod_eq_of_lt hi]
  · rw [show h + (cap + i - h) = i + cap by omega]; simp [Nat.mod_eq_of_lt hi]

theorem dist_eq {cap i h k : Nat} (hh : h < cap) (hk : k < cap) (he : (h + k) % cap = i) :
    dist cap i h = k := by
  unfold dist
  by_cases hlt : h + k < cap
  · rw [Nat.mod_eq_of_lt hlt] at he
    split <;> omega
  · rw [Nat.mod_eq_sub_mod (by omega), Nat.mod_eq_of_lt (by omega)] at he
    split <;> omega

theorem dist_mod_eq {cap h k : Nat} (hh : h < cap) (hk : k < cap) : dist cap ((h + k) % cap) h = k :=
  dist_eq hh hk rfl

/-! ## Contents and invariant -/

def elemOf (o : Option (Node α)) : Option α := o.map Node.elem

theorem mem_contents {cap : Nat} {d : Nat → Option (Node α)} {x : α} :
    x ∈ contents cap d ↔ ∃ i n, i < cap ∧ d i = some n ∧ n.elem = x := by
  unfold contents
  rw [List.mem_filterMap]
  constructor
  · rintro ⟨i, hi, h⟩
    rw [Option.map_eq_some_iff] at h
    obtain ⟨n, hn, hx⟩ := h
    exact ⟨i, n, List.mem_range.mp hi, hn, hx⟩
  · rintro ⟨i, n, hi, hd, hx⟩
    exact ⟨i, List.mem_range.mpr hi, by simp [hd, hx]⟩

theorem filterMap_length_full {β γ : Type _} (f : β → Option γ) (l : List β)
    (h : ∀ x ∈ l, (f x).isSome = true) : (l.filterMap f).length = l.length := by
  induction l with
  | nil => rfl
  | cons a l ih =>
    have ha := h a (by simp)
    obtain ⟨b, hb⟩ := Option.isSome_iff_exists.mp ha
    simp [hb, ih (fun x hx => h x (by simp [hx]))]

theorem exists_free {cap : Nat} {d : Nat → Option (Node α)} (h : (contents cap d).length < cap) :
    ∃ i, i < cap ∧ d i = none := by
  refine Classical.byContradiction fun hn => ?_
  have : (contents cap d).length = cap := by
    unfold contents
    rw [filterMap_length_full]
    · simp
    · intro i hi
      cases hd : d i with
      | none => exact absurd ⟨i, List.mem_range.mp hi, hd⟩ hn
      | some n => simp
  omega

/-- requirements on the two parameters -/
structure Good (P : Params) : Prop where
  /-- a finite distance is the true one -/
  probe_true : ∀ cap i h p, i < cap → h < cap → P.probe cap i h = some p → p = dist cap i h
  /-- a swap only happens with an item that is not farther from home -/
  swap_le : ∀ j p, P.swap j p = true → ∃ q, p = some q ∧ q ≤ j
  /-- without a swap the stored item is at least as far -/
  no_swap : ∀ j p, P.swap j p = false → gtDist j p = false

/-- equality and hash supplied by the client -/
structure Compat (hash : α → Nat) (eq : α → α → Bool) : Prop where
  refl : ∀ a, eq a a = true
  symm : ∀ a b, eq a b = true → eq b a = true
  trans : ∀ a b c, eq a b = true → eq b c = true → eq a c = true
  hash_eq : ∀ a b, eq a b = true → hash a = hash b

theorem Compat.symm_false {hash : α → Nat} {eq : α → α → Bool} (hc : Compat hash eq) {a b : α}
    (h : eq a b = false) : eq b a = false := by
  cases h2 : eq b a with
  | false => rfl
  | true => rw [hc.symm _ _ h2] at h; exact h

theorem Compat.unique {hash : α → Nat} {eq : α → α → Bool} (hc : Compat hash eq) {l : List α}
    (hl : l.Pairwise (fun a b => eq a b = false)) {a b : α} (ha : a ∈ l) (hb : b ∈ l)
    (hab : eq a b = true) : a = b := by
  induction l with
  | nil => simp at ha
  | cons x l ih =>
    obtain ⟨h1, h2⟩ := List.pairwise_cons.mp hl
    rcases List.mem_cons.mp ha with ea | ea <;> rcases List.mem_cons.mp hb with eb | eb
    · rw [ea, eb]
    · subst ea; rw [h1 b eb] at hab; simp at hab
    · subst eb; rw [hc.symm_false (h1 a ea)] at hab; simp at hab
    · exact ih h2 ea eb

theorem compat_eq [DecidableEq α] (hash : α → Nat) : Compat hash (fun a b => decide (a = b)) where
  refl := by intro a; exact decide_eq_true rfl
  symm := by intro a b h; exact decide_eq_true (of_decide_eq_true h).symm
  trans := by
    intro a b c h1 h2
    exact decide_eq_true ((of_decide_eq_true h1).trans (of_decide_eq_true h2))
  hash_eq := by intro a b h; rw [of_decide_eq_true h]

/-- slot `i` does not stop a search whose counter is `l` -/
def Passes (P : Params) (cap : Nat) (d : Nat → Option (Node α)) (l i : Nat) : Prop :=
  ∃ n, d i = some n ∧ gtDist l (P.probe cap i n.home) = false

/-- every item can be reached from its home -/
structure Reach (P : Params) (hash : α → Nat) (cap : Nat) (d : Nat → Option (Node α)) : Prop where
  home : ∀ i n, i < cap → d i = some n → n.home = hash n.elem % cap
  path : ∀ i n, i < cap → d i = some n → ∀ l, l < dist cap i n.home →
    Passes P cap d l ((n.home + l) % cap)

/-- the stored item itself is not skipped at its own slot -/
theorem self_passes {P : Params} (hP : Good P) {cap i h : Nat} (hi : i < cap) (hh : h < cap) :
    gtDist (dist cap i h) (P.probe cap i h) = false := by
  cases hp : P.probe cap i h with
  | none => rfl
  | some p =>
    have := hP.probe_true cap i h p hi hh hp
    subst this
    simp [gtDist]

theorem pairwise_slots {hash : α → Nat} {eq : α → α → Bool} (hc : Compat hash eq) {cap : Nat}
    {d : Nat → Option (Node α)}
    (hd : (contents cap d).Pairwise (fun a b => eq a b = false)) {i j : Nat} {n m : Node α}
    (hi : i < cap) (hj : j < cap) (hij : i ≠ j) (hn : d i = some n) (hm : d j = some m) :
    eq n.elem m.elem = false := by
  unfold contents at hd
  change ((List.range cap).filterMap (fun i => elemOf (d i))).Pairwise _ at hd
  rw [List.pairwise_filterMap, List.pairwise_iff_getElem] at hd
  rcases Nat.lt_or_gt_of_ne hij with h | h
  · have := hd i j (by simpa using hi) (by simpa using hj) h
    simp only [List.getElem_range] at this
    exact this n.elem (by simp [elemOf, hn]) m.elem (by simp [elemOf, hm])
  · have := hd j i (by simpa using hj) (by simpa using hi) h
    simp only [List.getElem_range] at this
    exact hc.symm_false (this m.elem (by simp [elemOf, hm]) n.elem (by simp [elemOf, hn]))

/-! ## Lookup -/

theorem getLoop_hit {P : Params} {hash : α → Nat} {eq : α → α → Bool} (hc : Compat hash eq)
    {cap : Nat} {d : Nat → Option (Node α)} (hcap : 0 < cap) (hr : Reach P hash cap d)
    (hd : (contents cap d).Pairwise (fun a b => eq a b = false)) (test : α → Bool)
    (ht : ∀ a b, test a = true → test b = true → eq a b = true) (i : Nat) (n : Node α) (hi : i < cap)
    (hn : d i = some n) (he : test n.elem = true) (stop : Nat → Nat → Nat → Bool)
    (hstop : ∀ l m, l ≤ dist cap i n.home → d ((n.home + l) % cap) = some m →
      gtDist l (P.probe cap ((n.home + l) % cap) m.home) = false → stop l ((n.home + l) % cap) m.home = false)
    (hself : stop (dist cap i n.home) i n.home = false) :
    ∀ fuel l, l ≤ dist cap i n.home → dist cap i n.home - l < fuel →
      getLoop stop test cap d fuel ((n.home + l) % cap) l = .found i := by
  have hhome : n.home < cap := by rw [hr.home i n hi hn]; exact Nat.mod_lt _ hcap
  intro fuel
  induction fuel with
  | zero => intro l _ h; omega
  | succ fuel ih =>
    intro l hl hf
    unfold getLoop
    by_cases hld : l = dist cap i n.home
    · subst hld
      rw [home_add_dist hi hhome, hn]
      simp only [hself, he]
      simp
    · obtain ⟨m, hm, hg⟩ := hr.path i n hi hn l (by omega)
      rw [hm]
      simp only [hstop l m (by omega) hm hg]
      have hne : test m.elem = false := by
        cases hmk : test m.elem with
        | false => rfl
        | true =>
          exfalso
          have hlt := dist_lt hi hhome
          have hslot : (n.home + l) % cap ≠ i := by
            intro h
            have := dist_eq hhome (show l < cap by omega) h
            omega
          -- two distinct slots hold equal elements
          have hmi : (n.home + l) % cap < cap := Nat.mod_lt _ hcap
          have heq := ht _ _ hmk he
          have := pairwise_slots hc hd hmi hi hslot hm hn
          rw [this] at heq
          simp at heq
      simp only [hne, Bool.false_eq_true, if_false]
      rw [mod_succ]
      exact ih (l + 1) (by omega) (by omega)

theorem getLoop_sound {stop : Nat → Nat → Nat → Bool} {test : α → Bool} {cap : Nat}
    {d : Nat → Option (Node α)} (hcap : 0 < cap) :
    ∀ fuel i j r, i < cap → getLoop stop test cap d fuel i j = .found r →
      r < cap ∧ ∃ n, d r = some n ∧ test n.elem = true := by
  intro fuel
  induction fuel with
  | zero => intro i j r _ h; simp [getLoop] at h
  | succ fuel ih =>
    intro i j r hi h
    unfold getLoop at h
    cases hd : d i with
    | none => simp [hd] at h
    | some x =>
      simp only [hd] at h
      split at h
      · simp at h
      · split at h
        · next he =>
          simp only [GetRes.found.injEq] at h
          subst h
          exact ⟨hi, x, hd, he⟩
        · exact ih _ _ _ (Nat.mod_lt _ hcap) h

theorem getLoop_ends {stop : Nat → Nat → Nat → Bool} {test : α → Bool} {cap : Nat}
    {d : Nat → Option (Node α)} :
    ∀ fuel s j m, m < fuel → d ((s + m) % cap) = none →
      getLoop stop test cap d fuel (s % cap) j ≠ .diverge := by
  intro fuel
  induction fuel with
  | zero => intro s j m h; omega
  | succ fuel ih =>
    intro s j m hm hf
    unfold getLoop
    cases hd : d (s % cap) with
    | none => simp
    | some x =>
      simp only
      split
      · simp
      · split
        · simp
        · rw [mod_succ]
          cases m with
          | zero => simp [hd] at hf
          | succ m =>
            exact ih (s + 1) (j + 1) m (by omega) (by rw [show s + 1 + m = s + (m + 1) by omega]; exact hf)

/-- A lookup of an element that is not stored reports absence. -/
theorem getLoop_miss {stop : Nat → Nat → Nat → Bool} {test : α → Bool} {cap : Nat} {d : Nat → Option (Node α)}
    (hcap : 0 < cap) (hfree : (contents cap d).length < cap) (s : Nat)
    (hno : ∀ x ∈ contents cap d, test x = false) :
    getLoop stop test cap d cap (s % cap) 0 = .absent := by
  obtain ⟨f, hf, hdf⟩ := exists_free hfree
  obtain ⟨m, hm, hmf⟩ := exists_offset hcap s f hf
  have h1 := getLoop_ends (stop := stop) (test := test) (d := d) cap s 0 m hm (by rw [hmf]; exact hdf)
  cases hg : getLoop stop test cap d cap (s % cap) 0 with
  | absent => rfl
  | diverge => exact absurd hg h1
  | found r =>
    obtain ⟨hr, n, hn, he⟩ := getLoop_sound hcap cap _ _ r (Nat.mod_lt _ hcap) hg
    have := hno n.elem (mem_contents.mpr ⟨r, n, hr, hn, rfl⟩)
    rw [this] at he
    simp at he

/-! ## Insertion of a new element -/

theorem contents_added {cap : Nat} {d : Nat → Option (Node α)} {i : Nat} (hi : i < cap) (hd : d i = none) (n : Node α) :
    (contents cap (upd d i (some n))).Perm (n.elem :: contents cap d) :=
  filterMap_range_upd_none elemOf d i (some n) n.elem (by simp [elemOf, hd]) (by simp [elemOf]) cap hi

theorem contents_replaced {cap : Nat} {d : Nat → Option (Node α)} {i : Nat} {x : Node α} (hi : i < cap)
    (hd : d i = some x) (n : Node α) :
    (x.elem :: contents cap (upd d i (some n))).Perm (n.elem :: contents cap d) :=
  filterMap_range_upd_replace elemOf d i (some n) x.elem n.elem (by simp [elemOf, hd]) (by simp [elemOf]) cap hi

theorem contents_erased {cap : Nat} {d : Nat → Option (Node α)} {i : Nat} {x : Node α} (hi : i < cap)
    (hd : d i = some x) : (x.elem :: contents cap (upd d i none)).Perm (contents cap d) :=
  filterMap_range_upd_erase elemOf d i none x.elem (by simp [elemOf, hd]) (by simp [elemOf]) cap hi

theorem putLoop_new {P : Params} (hP : Good P) {hash : α → Nat} {eq : α → α → Bool}
    (hsym : ∀ a b, eq a b = false → eq b a = false)
    {cap : Nat} (hcap : 0 < cap) (replace : Bool) :
    ∀ (fuel : Nat) (d : Nat → Option (Node α)) (it : Node α) (j m : Nat),
      Reach P hash cap d → it.home = hash it.elem % cap →
      (it.elem :: contents cap d).Pairwise (fun a b => eq a b = false) →
      j < cap → (∀ l, l < j → Passes P cap d l ((it.home + l) % cap)) →
      m < fuel → d ((it.home + j + m) % cap) = none →
      ∃ d', putLoop P eq cap replace fuel d it ((it.home + j) % cap) j = .added d' ∧
        Reach P hash cap d' ∧ (contents cap d').Perm (it.elem :: contents cap d) := by
  intro fuel
  induction fuel with
  | zero => intro d it j m _ _ _ _ _ h; omega
  | succ fuel ih =>
    intro d it j m hr hhome hpw hj hpath hm hfree
    have hith : it.home < cap := by rw [hhome]; exact Nat.mod_lt _ hcap
    have hislt : (it.home + j) % cap < cap := Nat.mod_lt _ hcap
    have hdist : dist cap ((it.home + j) % cap) it.home = j := dist_mod_eq hith hj
    generalize hi : (it.home + j) % cap = i at *
    unfold putLoop
    cases hd : d i with
    | none =>
      refine ⟨_, rfl, ⟨?_, ?_⟩, contents_added hislt hd it⟩
      · intro s n hs hn
        by_cases hsi : s = i
        · subst hsi; simp at hn; rw [← hn]; exact hhome
        · rw [upd_ne _ _ hsi] at hn; exact hr.home s n hs hn
      · have mono : ∀ l s, Passes P cap d l s → Passes P cap (upd d i (some it)) l s := by
          rintro l s ⟨n, hn, hg⟩
          have : s ≠ i := by intro h; subst h; rw [hd] at hn; cases hn
          exact ⟨n, by rw [upd_ne _ _ this]; exact hn, hg⟩
        intro s n hs hn l hl
        by_cases hsi : s = i
        · subst hsi
          simp at hn
          subst hn
          rw [hdist] at hl
          exact mono _ _ (hpath l hl)
        · rw [upd_ne _ _ hsi] at hn
          exact mono _ _ (hr.path s n hs hn l hl)
    | some x =>
      have hxm : x.elem ∈ contents cap d := mem_contents.mpr ⟨i, x, hislt, hd, rfl⟩
      have hne : eq x.elem it.elem = false :=
        hsym _ _ ((List.pairwise_cons.mp hpw).1 _ hxm)
      simp only [hne, Bool.false_eq_true, if_false]
      have hxh : x.home < cap := by rw [hr.home i x hislt hd]; exact Nat.mod_lt _ hcap
      -- the free slot is not the current one
      have hm0 : ∃ m', m = m' + 1 := by
        cases m with
        | zero => simp only [Nat.add_zero, hi] at hfree; rw [hd] at hfree; cases hfree
        | succ m' => exact ⟨m', rfl⟩
      obtain ⟨m', rfl⟩ := hm0
      cases hsw : P.swap j (P.probe cap i x.home) with
      | false =>
        simp only [Bool.false_eq_true, if_false]
        rw [← hi, mod_succ, Nat.add_assoc]
        have hpath' : ∀ l, l < j + 1 → Passes P cap d l ((it.home + l) % cap) := by
          intro l hl
          by_cases hlj : l = j
          · subst hlj
            rw [hi]
            exact ⟨x, hd, hP.no_swap _ _ hsw⟩
          · exact hpath l (by omega)
        have hj' : j + 1 < cap := by
          refine Classical.byContradiction fun hn => ?_
          have hlt : (it.home + j + (m' + 1)) % cap < cap := Nat.mod_lt _ hcap
          obtain ⟨k, hk, hke⟩ := exists_offset hcap it.home _ hlt
          obtain ⟨n, hn', _⟩ := hpath' k (by omega)
          rw [hke, hfree] at hn'
          cases hn'
        exact ih d it (j + 1) m' hr hhome hpw hj' hpath' (by omega)
          (by rw [show it.home + (j + 1) + m' = it.home + j + (m' + 1) by omega]; exact hfree)
      | true =>
        simp only [if_true]
        obtain ⟨q, hq, hqj⟩ := hP.swap_le _ _ hsw
        rw [hq]
        simp only [Option.getD_some]
        have hqd := hP.probe_true cap i x.home q hislt hxh hq
        have hitpass : ∀ l, l ≤ j → gtDist l (P.probe cap i it.home) = false := by
          intro l hl
          cases hp : P.probe cap i it.home with
          | none => rfl
          | some p =>
            have := hP.probe_true cap i it.home p hislt hith hp
            rw [hdist] at this
            subst this
            simp [gtDist, hl]
        have mono : ∀ l s, Passes P cap d l s → Passes P cap (upd d i (some it)) l s := by
          rintro l s ⟨n, hn, hg⟩
          by_cases hsi : s = i
          · subst hsi
            rw [hd] at hn
            cases hn
            rw [hq] at hg
            simp only [gtDist, gt_iff_lt, decide_eq_false_iff_not, Nat.not_lt] at hg
            exact ⟨it, by simp, hitpass l (by omega)⟩
          · exact ⟨n, by rw [upd_ne _ _ hsi]; exact hn, hg⟩
        have hr' : Reach P hash cap (upd d i (some it)) := by
          refine ⟨?_, ?_⟩
          · intro s n hs hn
            by_cases hsi : s = i
            · subst hsi; simp at hn; rw [← hn]; exact hhome
            · rw [upd_ne _ _ hsi] at hn; exact hr.home s n hs hn
          · intro s n hs hn l hl
            by_cases hsi : s = i
            · subst hsi
              simp at hn
              subst hn
              rw [hdist] at hl
              exact mono _ _ (hpath l hl)
            · rw [upd_ne _ _ hsi] at hn
              exact mono _ _ (hr.path s n hs hn l hl)
        have hperm := contents_replaced hislt hd it
        have hpw' : (x.elem :: contents cap (upd d i (some it))).Pairwise (fun a b => eq a b = false) :=
          (hperm.pairwise_iff (fun h => hsym _ _ h)).mpr hpw
        have hxi : (x.home + q) % cap = i := by rw [hqd]; exact home_add_dist hislt hxh
        have hqcap : q < cap := by rw [hqd]; exact dist_lt hislt hxh
        have hpath' : ∀ l, l < q + 1 → Passes P cap (upd d i (some it)) l ((x.home + l) % cap) := by
          intro l hl
          by_cases hlq : l = q
          · subst hlq
            rw [hxi]
            exact ⟨it, by simp, hitpass l hqj⟩
          · exact mono _ _ (hr.path i x hislt hd l (by omega))
        have hfi : (it.home + j + (m' + 1)) % cap ≠ i := by
          intro h; rw [h, hd] at hfree; cases hfree
        have hsame : (x.home + (q + 1) + m') % cap = (it.home + j + (m' + 1)) % cap := by
          rw [show x.home + (q + 1) + m' = (x.home + q) + (m' + 1) by omega, Nat.add_mod, hxi, ← hi]
          simp [Nat.add_mod]
        have hj' : q + 1 < cap := by
          refine Classical.byContradiction fun hn => ?_
          have hlt : (it.home + j + (m' + 1)) % cap < cap := Nat.mod_lt _ hcap
          obtain ⟨k, hk, hke⟩ := exists_offset hcap x.home _ hlt
          obtain ⟨n, hn', _⟩ := hpath' k (by omega)
          rw [hke, upd_ne _ _ hfi, hfree] at hn'
          cases hn'
        have hnext : (i + 1) % cap = (x.home + (q + 1)) % cap := by
          rw [← hxi, mod_succ, Nat.add_assoc]
        rw [hnext]
        obtain ⟨d', h1, h2, h3⟩ := ih (upd d i (some it)) x (q + 1) m' hr' (hr.home i x hislt hd) hpw' hj' hpath'
          (by omega) (by rw [hsame, upd_ne _ _ hfi]; exact hfree)
        exact ⟨d', h1, h2, h3.trans hperm⟩

/-! ## Insertion of an element that is already there -/

theorem putLoop_present {P : Params} {hash : α → Nat} {eq : α → α → Bool} (hc : Compat hash eq)
    {cap : Nat} (hcap : 0 < cap) (replace : Bool) {d : Nat → Option (Node α)} (hr : Reach P hash cap d)
    (hd : (contents cap d).Pairwise (fun a b => eq a b = false)) (it : Node α)
    (i : Nat) (n : Node α) (hi : i < cap) (hn : d i = some n) (he : eq n.elem it.elem = true)
    (hsw : ∀ l m, l < dist cap i n.home → d ((n.home + l) % cap) = some m →
      P.swap l (P.probe cap ((n.home + l) % cap) m.home) = false) :
    ∀ fuel l, l ≤ dist cap i n.home → dist cap i n.home - l < fuel →
      putLoop P eq cap replace fuel d it ((n.home + l) % cap) l
        = .present (if replace then upd d i (some it) else d) := by
  have hhome : n.home < cap := by rw [hr.home i n hi hn]; exact Nat.mod_lt _ hcap
  intro fuel
  induction fuel with
  | zero => intro l _ h; omega
  | succ fuel ih =>
    intro l hl hf
    unfold putLoop
    by_cases hld : l = dist cap i n.home
    · subst hld
      rw [home_add_dist hi hhome, hn]
      simp only [he, if_true]
    · obtain ⟨m, hm, hg⟩ := hr.path i n hi hn l (by omega)
      rw [hm]
      have hne : eq m.elem it.elem = false := by
        cases hmk : eq m.elem it.elem with
        | false => rfl
        | true =>
          exfalso
          have hlt := dist_lt hi hhome
          have hslot : (n.home + l) % cap ≠ i := by
            intro h
            have := dist_eq hhome (show l < cap by omega) h
            omega
          have hmi : (n.home + l) % cap < cap := Nat.mod_lt _ hcap
          have heq := hc.trans _ _ _ hmk (hc.symm _ _ he)
          have := pairwise_slots hc hd hmi hi hslot hm hn
          rw [this] at heq
          simp at heq
      simp only [hne, Bool.false_eq_true, if_false, hsw l m (by omega) hm]
      rw [mod_succ]
      exact ih (l + 1) (by omega) (by omega)

/-- Replacing an element by an equal one keeps every item reachable. -/
theorem reach_replace {P : Params} {hash : α → Nat} {eq : α → α → Bool} (hc : Compat hash eq) {cap : Nat}
    {d : Nat → Option (Node α)} (hr : Reach P hash cap d) {i : Nat} {n it : Node α} (hi : i < cap)
    (hn : d i = some n) (hit : it.home = hash it.elem % cap) (he : eq n.elem it.elem = true) :
    Reach P hash cap (upd d i (some it)) := by
  have hsame : it.home = n.home := by rw [hit, hr.home i n hi hn, hc.hash_eq _ _ he]
  have mono : ∀ l s, Passes P cap d l s → Passes P cap (upd d i (some it)) l s := by
    rintro l s ⟨m, hm, hg⟩
    by_cases hsi : s = i
    · subst hsi
      rw [hn] at hm
      cases hm
      exact ⟨it, by simp, by rw [hsame]; exact hg⟩
    · exact ⟨m, by rw [upd_ne _ _ hsi]; exact hm, hg⟩
  refine ⟨?_, ?_⟩
  · intro s m hs hm
    by_cases hsi : s = i
    · subst hsi; simp at hm; rw [← hm]; exact hit
    · rw [upd_ne _ _ hsi] at hm; exact hr.home s m hs hm
  · intro s m hs hm l hl
    by_cases hsi : s = i
    · subst hsi
      simp at hm
      subst hm
      rw [hsame] at hl ⊢
      exact mono _ _ (hr.path s n hs hn l hl)
    · rw [upd_ne _ _ hsi] at hm
      exact mono _ _ (hr.path s m hs hm l hl)

theorem reach_empty (P : Params) (hash : α → Nat) (cap : Nat) : Reach P hash cap (fun _ => none) :=
  Reach.mk (by intro i n _ h; cases h) (by intro i n _ h; cases h)

theorem contents_empty (cap : Nat) : contents cap (fun _ => (none : Option (Node α))) = [] := by
  unfold contents
  rw [List.filterMap_eq_nil_iff]
  intro i _
  rfl

end Verif.RH
