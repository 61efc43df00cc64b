import Verif.Lang.ObjGraph.Model
/-!
# Counts while objects are released
-/
namespace Verif.ObjGraph

/-- One more reference to `v`. -/
def add (ext : Nat → Nat) (v : Option Nat) : Nat → Nat := fun b => ext b + if v = some b then 1 else 0

/-- How many fields of allocated objects hold `a`. -/
def inc (L : List Nat) (live : Nat → Bool) (fld : Nat → List (Option Nat)) (a : Nat) : Nat :=
  (L.map fun b => if live b then (fld b).count (some a) else 0).sum

/-- Counts are right, with the objects of `D` being destroyed. `fld` says which references still count. -/
structure Inv (L : List Nat) (h : Heap) (fld : Nat → List (Option Nat)) (D : List Nat) (ext : Nat → Nat) : Prop where
  sup : ∀ a, h.live a = true → a ∈ L
  ag : ∀ b, h.live b = true → b ∉ D → h.flds b = fld b
  cnt : ∀ a, h.live a = true → h.refs a = ext a + inc L h.live fld a
  out : ∀ a, 0 < ext a → h.live a = true
  clo : ∀ b a, h.live b = true → some a ∈ fld b → h.live a = true
  dy : ∀ d ∈ D, h.live d = true ∧ h.refs d = 0
  pos : ∀ a, h.live a = true → a ∉ D → 0 < h.refs a

theorem sum_map_le (f g : Nat → Nat) : ∀ (L : List Nat), (∀ b ∈ L, f b ≤ g b) → (L.map f).sum ≤ (L.map g).sum
  | [], _ => by simp
  | b :: L, h => by
    simp only [List.map_cons, List.sum_cons]
    exact Nat.add_le_add (h b (by simp)) (sum_map_le f g L fun c hc => h c (by simp [hc]))

theorem sum_map_congr (f g : Nat → Nat) (L : List Nat) (h : ∀ b ∈ L, f b = g b) : (L.map f).sum = (L.map g).sum :=
  Nat.le_antisymm (sum_map_le f g L fun b hb => Nat.le_of_eq (h b hb)) (sum_map_le g f L fun b hb => Nat.le_of_eq (h b hb).symm)

theorem sum_map_pos (f : Nat → Nat) : ∀ (L : List Nat), 0 < (L.map f).sum ↔ ∃ b ∈ L, 0 < f b
  | [] => by simp
  | b :: L => by
    simp only [List.map_cons, List.sum_cons]
    have ih := sum_map_pos f L
    constructor
    · intro h
      by_cases hb : 0 < f b
      · exact ⟨b, by simp, hb⟩
      · obtain ⟨c, hc, h'⟩ := ih.1 (by omega)
        exact ⟨c, by simp [hc], h'⟩
    · rintro ⟨c, hc, h'⟩
      rcases List.mem_cons.1 hc with rfl | hc
      · omega
      · have := ih.2 ⟨c, hc, h'⟩
        omega

theorem sum_map_upd (f g : Nat → Nat) (a k : Nat) (hne : ∀ b, b ≠ a → f b = g b) (ha : f a = g a + k) :
    ∀ (L : List Nat), L.Nodup → a ∈ L → (L.map f).sum = (L.map g).sum + k
  | [], _, h => by simp at h
  | b :: L, hn, h => by
    simp only [List.map_cons, List.sum_cons]
    rw [List.nodup_cons] at hn
    by_cases hb : b = a
    · subst hb
      rw [sum_map_congr f g L fun c hc => hne c (fun h => hn.1 (h ▸ hc)), ha]
      omega
    · rw [hne b hb, sum_map_upd f g a k hne ha L hn.2 ((List.mem_cons.1 h).resolve_left fun h => hb h.symm)]
      omega

theorem inc_pos {L live fld a} : 0 < inc L live fld a ↔ ∃ b ∈ L, live b = true ∧ some a ∈ fld b := by
  unfold inc
  rw [sum_map_pos]
  constructor
  · rintro ⟨b, hb, h⟩
    split at h
    · exact ⟨b, hb, by assumption, List.count_pos_iff.1 h⟩
    · simp at h
  · rintro ⟨b, hb, h, h'⟩
    exact ⟨b, hb, by rw [if_pos h]; exact List.count_pos_iff.2 h'⟩

theorem inc_congr {L live fld fld' a} (h : ∀ b, live b = true → fld b = fld' b) : inc L live fld a = inc L live fld' a := by
  unfold inc
  apply sum_map_congr
  intro b _
  split
  · rw [h b (by assumption)]
  · rfl

theorem count_set (b : Nat) : ∀ (l : List (Option Nat)) (i : Nat),
    l.count (some b) = (l.set i none).count (some b) + if l.getD i none = some b then 1 else 0
  | [], i => by simp
  | w :: l, 0 => by
    simp only [List.set_cons_zero, List.getD_cons_zero, List.count_cons]
    cases w <;> simp
  | w :: l, i + 1 => by
    simp only [List.set_cons_succ, List.getD_cons_succ, List.count_cons]
    rw [count_set b l i]
    omega

theorem mem_set_none {l : List (Option Nat)} {i : Nat} {b : Nat} (h : some b ∈ l.set i none) : some b ∈ l := by
  have := count_set b l i
  have := List.count_pos_iff.2 h
  exact List.count_pos_iff.1 (by omega)

theorem mem_getD {l : List (Option Nat)} {i : Nat} {b : Nat} (h : l.getD i none = some b) : some b ∈ l := by
  have := count_set b l i
  rw [if_pos h] at this
  exact List.count_pos_iff.1 (by omega)

/-- A field is emptied and the reference in it goes to whoever empties it. -/
theorem Inv.take {L h fld D ext} (hi : Inv L h fld D ext) (hL : L.Nodup) {a : Nat} (ha : h.live a = true) (i : Nat)
    (h' : Heap) (hr : h'.refs = h.refs) (hv : h'.live = h.live)
    (hf : ∀ b, b ≠ a → h'.flds b = h.flds b) (hfa : a ∉ D → h'.flds a = (fld a).set i none) :
    Inv L h' (upd fld a ((fld a).set i none)) D (add ext ((fld a).getD i none)) where
  sup := by rw [hv]; exact hi.sup
  ag b hb hD := by
    rw [hv] at hb
    by_cases h : b = a
    · subst h; rw [upd_same]; exact hfa hD
    · rw [upd_ne _ _ h, hf b h]; exact hi.ag b hb hD
  cnt b hb := by
    rw [hv] at hb ⊢
    rw [hr, hi.cnt b hb]
    have : inc L h.live fld b = inc L h.live (upd fld a ((fld a).set i none)) b +
        if (fld a).getD i none = some b then 1 else 0 := by
      refine sum_map_upd _ _ a _ ?_ ?_ L hL (hi.sup a ha)
      · intro c hc; rw [upd_ne _ _ hc]
      · rw [if_pos ha, if_pos ha, upd_same]; exact count_set b (fld a) i
    rw [this]
    show _ = ext b + _ + _
    omega
  out b hb := by
    rw [hv]
    change 0 < ext b + _ at hb
    by_cases h : (fld a).getD i none = some b
    · exact hi.clo a b ha (mem_getD h)
    · rw [if_neg h] at hb; exact hi.out b hb
  clo b c hb hc := by
    rw [hv] at hb ⊢
    by_cases h : b = a
    · subst h; rw [upd_same] at hc; exact hi.clo b c hb (mem_set_none hc)
    · rw [upd_ne _ _ h] at hc; exact hi.clo b c hb hc
  dy d hd := by rw [hr, hv]; exact hi.dy d hd
  pos b hb hD := by rw [hv] at hb; rw [hr]; exact hi.pos b hb hD

/-- How many allocated objects are not being destroyed. -/
def size (L : List Nat) (live : Nat → Bool) (D : List Nat) : Nat := (L.filter fun b => live b && decide (b ∉ D)).length

theorem size_le {L live live' D} (h : ∀ b, live' b = true → live b = true) : size L live' D ≤ size L live D := by
  unfold size
  induction L with
  | nil => simp
  | cons b L ih =>
    rw [List.filter_cons, List.filter_cons]
    by_cases h1 : (live' b && decide (b ∉ D)) = true
    · have h2 : (live b && decide (b ∉ D)) = true := by
        rw [Bool.and_eq_true] at h1 ⊢; exact ⟨h b h1.1, h1.2⟩
      rw [if_pos h1, if_pos h2]
      simpa using ih
    · rw [if_neg h1]
      split
      · simp only [List.length_cons]; omega
      · exact ih

theorem size_cons {L live D a} (ha : a ∈ L) (hv : live a = true) (hD : a ∉ D) : size L live (a :: D) < size L live D := by
  have hle : ∀ L : List Nat, size L live (a :: D) ≤ size L live D := by
    intro L
    unfold size
    induction L with
    | nil => simp
    | cons b L ih =>
      rw [List.filter_cons, List.filter_cons]
      by_cases h1 : (live b && decide (b ∉ a :: D)) = true
      · have h2 : (live b && decide (b ∉ D)) = true := by
          simp only [Bool.and_eq_true, decide_eq_true_eq, List.mem_cons, not_or] at h1 ⊢
          exact ⟨h1.1, h1.2.2⟩
        rw [if_pos h1, if_pos h2]
        simpa using ih
      · rw [if_neg h1]
        split
        · simp only [List.length_cons]; omega
        · exact ih
  induction L with
  | nil => simp at ha
  | cons b L ih =>
    unfold size
    rw [List.filter_cons, List.filter_cons]
    by_cases hb : b = a
    · subst hb
      rw [if_neg (by simp), if_pos (by simp [hv, hD])]
      have := hle L
      unfold size at this
      simp only [List.length_cons]; omega
    · have ih := ih ((List.mem_cons.1 ha).resolve_left fun h => hb h.symm)
      unfold size at ih
      by_cases h1 : (live b && decide (b ∉ D)) = true
      · have h2 : (live b && decide (b ∉ a :: D)) = true := by
          simp only [Bool.and_eq_true, decide_eq_true_eq, List.mem_cons, not_or] at h1 ⊢
          exact ⟨h1.1, hb, h1.2⟩
        rw [if_pos h1, if_pos h2]
        simpa using ih
      · have h2 : ¬ (live b && decide (b ∉ a :: D)) = true := by
          simp only [Bool.and_eq_true, decide_eq_true_eq, List.mem_cons, not_or] at h1 ⊢
          exact fun h => h1 ⟨h.1, h.2.2⟩
        rw [if_neg h1, if_neg h2]
        exact ih

/-- Objects each of which is held by another of them. -/
def Ring (S : Nat → Prop) (h : Heap) (fld : Nat → List (Option Nat)) (D : List Nat) : Prop :=
  ∀ a, S a → h.live a = true ∧ a ∉ D ∧ ∃ b, S b ∧ some a ∈ fld b

/-- What a release leaves. -/
structure Left (L : List Nat) (h h' : Heap) (fld : Nat → List (Option Nat)) (D : List Nat) (ext : Nat → Nat) : Prop where
  inv : Inv L h' fld D ext
  live : ∀ b, h'.live b = true → h.live b = true
  flds : ∀ b, h'.live b = true → h'.flds b = h.flds b
  ring : ∀ S, Ring S h fld D → ∀ a, S a → h'.live a = true

/-- The loop over the fields. -/
theorem dropFields_inv {L : List Nat} (hL : L.Nodup) (d : Heap → Option Nat → Res Heap) (a : Nat) (D : List Nat) (ext : Nat → Nat)
    (m : Nat)
    (ih : ∀ h fld v, Inv L h fld (a :: D) (add ext v) → size L h.live (a :: D) ≤ m →
      ∃ h', d h v = .ok h' ∧ Left L h h' fld (a :: D) ext) :
    ∀ (is : List Nat) (h : Heap) (fld : Nat → List (Option Nat)), Inv L h fld (a :: D) ext → fld a = h.flds a →
      size L h.live (a :: D) ≤ m → (∀ i, i ∉ is → (h.flds a).getD i none = none) →
      ∃ h' l, dropFields d a is h = .ok h' ∧ Inv L h' (upd fld a l) (a :: D) ext ∧ (∀ w ∈ l, w = none) ∧
        (∀ b, h'.live b = true → h.live b = true) ∧ (∀ b, b ≠ a → h'.live b = true → h'.flds b = h.flds b) ∧
        (∀ S, ¬ S a → Ring S h fld (a :: D) → ∀ b, S b → h'.live b = true) := by
  intro is
  induction is with
  | nil =>
    intro h fld hi hfa _ hz
    refine ⟨h, h.flds a, rfl, ?_, ?_, fun _ h => h, fun _ _ _ => rfl, fun S _ hr b hb => (hr b hb).1⟩
    · have : upd fld a (h.flds a) = fld := by
        funext b
        by_cases hb : b = a
        · subst hb; rw [upd_same, hfa]
        · rw [upd_ne _ _ hb]
      rw [this]; exact hi
    · intro w hw
      obtain ⟨i, hlt, rfl⟩ := List.getElem_of_mem hw
      have := hz i (by simp)
      rw [List.getD_eq_getElem?_getD, List.getElem?_eq_getElem hlt] at this
      exact this
  | cons i is iht =>
    intro h fld hi hfa hm hz
    have ha := (hi.dy a (by simp)).1
    have h1 := hi.take hL ha i h rfl rfl (fun _ _ => rfl) (fun hn => absurd (by simp) hn)
    rw [hfa] at h1
    obtain ⟨h', e, hl⟩ := ih h _ _ h1 hm
    have hfa' : h'.flds a = h.flds a := hl.flds a (hl.inv.dy a (by simp)).1
    have hi' : Inv L (zero a i h') (upd fld a ((h.flds a).set i none)) (a :: D) ext :=
      { sup := hl.inv.sup
        ag := fun b hb hD => by
          have : b ≠ a := fun h => hD (by simp [h])
          show upd h'.flds a _ b = _
          rw [upd_ne _ _ this]; exact hl.inv.ag b hb hD
        cnt := hl.inv.cnt
        out := hl.inv.out
        clo := hl.inv.clo
        dy := hl.inv.dy
        pos := hl.inv.pos }
    obtain ⟨h2, l, e2, hi2, hl2, hv2, hf2, hr2⟩ := iht (zero a i h') (upd fld a ((h.flds a).set i none)) hi'
      (by show _ = upd h'.flds a _ a; rw [upd_same, upd_same, hfa'])
      (Nat.le_trans (size_le hl.live) hm)
      (by
        intro j hj
        show (upd h'.flds a _ a).getD j none = none
        rw [upd_same, hfa', List.getD_eq_getElem?_getD, List.getElem?_set]
        by_cases hij : i = j
        · subst hij
          rw [if_pos rfl]
          split <;> rfl
        · rw [if_neg hij, ← List.getD_eq_getElem?_getD]
          exact hz j (by simp; exact ⟨fun h => hij h.symm, hj⟩))
    refine ⟨h2, l, ?_, ?_, hl2, fun b hb => hl.live b (hv2 b hb), ?_, ?_⟩
    · rw [dropFields, e, Res.bind_ok]; exact e2
    · have : upd (upd fld a ((h.flds a).set i none)) a l = upd fld a l := by
        funext b
        by_cases hb : b = a
        · subst hb; rw [upd_same, upd_same]
        · rw [upd_ne _ _ hb, upd_ne _ _ hb, upd_ne _ _ hb]
      rw [← this]; exact hi2
    · intro b hb hv
      rw [hf2 b hb hv]
      show upd h'.flds a _ b = _
      rw [upd_ne _ _ hb]
      exact hl.flds b (hv2 b hv)
    · intro S hS hr b hb
      have hr' : Ring S h (upd fld a ((h.flds a).set i none)) (a :: D) := by
        intro c hc
        obtain ⟨h1, h2, e, he, h3⟩ := hr c hc
        refine ⟨h1, h2, e, he, ?_⟩
        have hea : e ≠ a := fun h => hS (h ▸ he)
        rw [upd_ne _ _ hea]; exact h3
      refine hr2 S hS ?_ b hb
      intro c hc
      obtain ⟨_, h2, e, he, h3⟩ := hr' c hc
      exact ⟨hl.ring S hr' c hc, h2, e, he, h3⟩

/-- Releasing a reference keeps the counts right. -/
theorem dropRef_inv {L : List Nat} (hL : L.Nodup) : ∀ (n : Nat) (D : List Nat) (ext : Nat → Nat) (h : Heap)
    (fld : Nat → List (Option Nat)) (v : Option Nat), Inv L h fld D (add ext v) → size L h.live D ≤ n →
      ∃ h', dropRef n h v = .ok h' ∧ Left L h h' fld D ext := by
  intro n
  induction n with
  | zero =>
    intro D ext h fld v hi hm
    cases v with
    | none =>
      have e : add ext none = ext := by funext b; simp [add]
      rw [e] at hi
      exact ⟨h, by simp [dropRef], hi, fun _ h => h, fun _ _ => rfl, fun S hr a ha => (hr a ha).1⟩
    | some a =>
      exfalso
      have hva := hi.out a (by simp [add])
      have hD : a ∉ D := fun hd => by
        have := hi.cnt a hva
        rw [(hi.dy a hd).2] at this
        simp [add] at this
        omega
      have := size_cons (hi.sup a hva) hva hD
      omega
  | succ n ihn =>
    intro D ext h fld v hi hm
    cases v with
    | none =>
      have e : add ext none = ext := by funext b; simp [add]
      rw [e] at hi
      exact ⟨h, by simp [dropRef], hi, fun _ h => h, fun _ _ => rfl, fun S hr a ha => (hr a ha).1⟩
    | some a =>
      have hva := hi.out a (by simp [add])
      have hcnt := hi.cnt a hva
      have hadd : add ext (some a) a = ext a + 1 := by simp [add]
      have haddne : ∀ b, b ≠ a → add ext (some a) b = ext b := fun b hb => by
        simp [add, show ¬ a = b from fun h => hb h.symm]
      rw [hadd] at hcnt
      have hD : a ∉ D := fun hd => by
        rw [(hi.dy a hd).2] at hcnt
        omega
      obtain ⟨r, hr⟩ : ∃ r, h.refs a = r + 1 := ⟨ext a + inc L h.live fld a, by omega⟩
      have hrr : r = ext a + inc L h.live fld a := by omega
      simp only [dropRef, hva, if_true, hr]
      by_cases h0 : r = 0
      · rw [if_pos h0]
        have hx0 : ext a = 0 := by omega
        have hi0 : inc L h.live fld a = 0 := by omega
        have hinv : Inv L { h with refs := upd h.refs a r } fld (a :: D) ext :=
          { sup := hi.sup
            ag := fun b hb hb' => hi.ag b hb fun hd => hb' (by simp [hd])
            cnt := fun b hb => by
              show upd h.refs a r b = _
              by_cases hba : b = a
              · subst hba; rw [upd_same]; exact hrr
              · rw [upd_ne _ _ hba, ← haddne b hba]; exact hi.cnt b hb
            out := fun b hb => hi.out b (by unfold add; omega)
            clo := hi.clo
            dy := fun d hd => by
              refine ⟨?_, ?_⟩
              · rcases List.mem_cons.1 hd with rfl | hd
                · exact hva
                · exact (hi.dy d hd).1
              · show upd h.refs a r d = 0
                by_cases hda : d = a
                · subst hda; rw [upd_same]; exact h0
                · rw [upd_ne _ _ hda]; exact (hi.dy d ((List.mem_cons.1 hd).resolve_left hda)).2
            pos := fun b hb hb' => by
              have hba : b ≠ a := fun h => hb' (by simp [h])
              show 0 < upd h.refs a r b
              rw [upd_ne _ _ hba]
              exact hi.pos b hb fun hd => hb' (by simp [hd]) }
        have hsz := size_cons (hi.sup a hva) hva hD
        obtain ⟨h', l, e, hi', hl, hlv, hfl, hring⟩ := dropFields_inv hL (dropRef n) a D ext n
          (fun h fld v => ihn (a :: D) ext h fld v) (List.range (h.flds a).length) { h with refs := upd h.refs a r } fld hinv
          (hi.ag a hva hD).symm (by show size L h.live (a :: D) ≤ n; omega)
          (by
            intro i hi
            rw [List.mem_range] at hi
            show (h.flds a).getD i none = none
            rw [List.getD_eq_getElem?_getD, List.getElem?_eq_none (by omega)]; rfl)
        refine ⟨free a h', by rw [e]; rfl, ?_⟩
        have hva' := (hi'.dy a (by simp)).1
        have hca := hi'.cnt a hva'
        rw [(hi'.dy a (by simp)).2] at hca
        have hnone : ∀ b, h'.live b = true → some a ∉ upd fld a l b := fun b hb hm =>
          absurd (inc_pos.2 ⟨b, hi'.sup b hb, hb, hm⟩) (by omega)
        have hlive : ∀ b, (free a h').live b = true ↔ b ≠ a ∧ h'.live b = true := by
          intro b
          show upd h'.live a false b = true ↔ _
          by_cases hba : b = a
          · subst hba; simp
          · simp [hba]
        refine { inv := ?_, live := ?_, flds := ?_, ring := ?_ }
        · exact
          { sup := fun b hb => hi'.sup b ((hlive b).1 hb).2
            ag := fun b hb hb' => by
              have ⟨h1, h2⟩ := (hlive b).1 hb
              have := hi'.ag b h2 (by simp [h1, hb'])
              rw [upd_ne _ _ h1] at this; exact this
            cnt := fun b hb => by
              have ⟨h1, h2⟩ := (hlive b).1 hb
              show h'.refs b = _
              rw [hi'.cnt b h2]
              congr 1
              unfold inc
              apply sum_map_congr
              intro c _
              by_cases hca : c = a
              · subst hca
                rw [upd_same, if_pos hva', if_neg (by rw [hlive]; simp)]
                rw [List.count_eq_zero]
                intro hm
                cases hl _ hm
              · rw [upd_ne _ _ hca]
                by_cases hc : h'.live c = true
                · rw [if_pos hc, if_pos ((hlive c).2 ⟨hca, hc⟩)]
                · rw [if_neg hc, if_neg (fun h => hc ((hlive c).1 h).2)]
            out := fun b hb => (hlive b).2 ⟨fun h => by subst h; omega, hi'.out b hb⟩
            clo := fun b c hb hc => by
              have ⟨h1, h2⟩ := (hlive b).1 hb
              have hc' : some c ∈ upd fld a l b := by rw [upd_ne _ _ h1]; exact hc
              exact (hlive c).2 ⟨fun h => hnone b h2 (h ▸ hc'), hi'.clo b c h2 hc'⟩
            dy := fun d hd => by
              have := hi'.dy d (by simp [hd])
              exact ⟨(hlive d).2 ⟨fun h => hD (h ▸ hd), this.1⟩, this.2⟩
            pos := fun b hb hb' => by
              have ⟨h1, h2⟩ := (hlive b).1 hb
              exact hi'.pos b h2 (by simp [h1, hb']) }
        · exact fun b hb => hlv b ((hlive b).1 hb).2
        · intro b hb
          have ⟨h1, h2⟩ := (hlive b).1 hb
          exact hfl b h1 h2
        · intro S hr b hb
          have hSa : ¬ S a := fun hs => by
            obtain ⟨_, _, c, hc, hm⟩ := hr a hs
            have hcv := (hr c hc).1
            exact absurd (inc_pos.2 ⟨c, hi.sup c hcv, hcv, hm⟩) (by omega)
          have hr' : Ring S { h with refs := upd h.refs a r } fld (a :: D) := by
            intro c hc
            obtain ⟨h1, h2, e, he, h3⟩ := hr c hc
            refine ⟨h1, ?_, e, he, h3⟩
            rw [List.mem_cons, not_or]
            exact ⟨fun h => hSa (h ▸ hc), h2⟩
          exact (hlive b).2 ⟨fun h => hSa (h ▸ hb), hring S hSa hr' b hb⟩
      · rw [if_neg h0]
        refine ⟨_, rfl, ?_, fun _ h => h, fun _ _ => rfl, fun S hr b hb => (hr b hb).1⟩
        exact
          { sup := hi.sup
            ag := hi.ag
            cnt := fun b hb => by
              show upd h.refs a r b = _
              by_cases hba : b = a
              · subst hba; rw [upd_same]; exact hrr
              · rw [upd_ne _ _ hba, ← haddne b hba]; exact hi.cnt b hb
            out := fun b hb => hi.out b (by unfold add; omega)
            clo := hi.clo
            dy := fun d hd => by
              refine ⟨(hi.dy d hd).1, ?_⟩
              show upd h.refs a r d = 0
              have hda : d ≠ a := fun h => hD (h ▸ hd)
              rw [upd_ne _ _ hda]; exact (hi.dy d hd).2
            pos := fun b hb hb' => by
              show 0 < upd h.refs a r b
              by_cases hba : b = a
              · subst hba; rw [upd_same]; omega
              · rw [upd_ne _ _ hba]; exact hi.pos b hb hb' }

end Verif.ObjGraph
