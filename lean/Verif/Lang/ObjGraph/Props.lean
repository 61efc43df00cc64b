import Verif.Lang.ObjGraph.Lemmas
/-!
# What a release destroys, and when an assignment to a member is safe
-/
namespace Verif.ObjGraph

/-! ## Specification -/

/-- Objects that can be reached from the variables; `ext a` is the number of variables and parameters that hold `a`. -/
inductive Reach (flds : Nat → List (Option Nat)) (ext : Nat → Nat) : Nat → Prop where
  | root {a : Nat} (h : 0 < ext a) : Reach flds ext a
  | step {b a : Nat} (h : Reach flds ext b) (h' : some a ∈ flds b) : Reach flds ext a

/-- The counts are right: every allocated object is counted once for each variable and each field of an allocated object that holds
it, somebody holds it, and whatever is held is allocated. `L` lists the addresses in use. -/
structure Right (L : List Nat) (h : Heap) (ext : Nat → Nat) : Prop where
  nodup : L.Nodup
  sup : ∀ a, h.live a = true → a ∈ L
  cnt : ∀ a, h.live a = true → h.refs a = ext a + (L.map fun b => if h.live b then (h.flds b).count (some a) else 0).sum
  out : ∀ a, 0 < ext a → h.live a = true
  clo : ∀ b a, h.live b = true → some a ∈ h.flds b → h.live a = true
  pos : ∀ a, h.live a = true → 0 < h.refs a

/-- No object holds itself over others. -/
def Acyclic (h : Heap) : Prop := ∃ rank : Nat → Nat, ∀ b a, h.live b = true → some a ∈ h.flds b → rank a < rank b

theorem Right.inv {L h ext} (hr : Right L h ext) : Inv L h h.flds [] ext :=
  { sup := hr.sup, ag := fun _ _ _ => rfl, cnt := hr.cnt, out := hr.out, clo := hr.clo, dy := fun _ h => by simp at h,
    pos := fun a ha _ => hr.pos a ha }

theorem Inv.right {L : List Nat} {h fld ext} (hL : L.Nodup) (hi : Inv L h fld [] ext) : Right L h ext :=
  { nodup := hL
    sup := hi.sup
    cnt := fun a ha => by
      rw [hi.cnt a ha]
      exact congrArg _ (inc_congr fun b hb => (hi.ag b hb (by simp)).symm)
    out := hi.out
    clo := fun b a hb hm => hi.clo b a hb (by rw [← hi.ag b hb (by simp)]; exact hm)
    pos := fun a ha => hi.pos a ha (by simp) }

/-! ## Releasing -/

/-- **C241** Releasing a reference comes to an end without touching memory that was given back, leaves all counts right and the
fields of the objects that stay as they were. -/
theorem release_right {L h ext v n} (hr : Right L h (add ext v)) (hn : L.length ≤ n) :
    ∃ h', dropRef n h v = .ok h' ∧ Right L h' ext ∧ (∀ b, h'.live b = true → h.live b = true) ∧
      ∀ b, h'.live b = true → h'.flds b = h.flds b := by
  have hsz : size L h.live [] ≤ n := Nat.le_trans (List.length_filter_le _ _) hn
  obtain ⟨h', e, hl⟩ := dropRef_inv hr.nodup n [] ext h h.flds v hr.inv hsz
  exact ⟨h', e, hl.inv.right hr.nodup, hl.live, hl.flds⟩

/-- **C241** What a variable leads to is allocated. -/
theorem reachable_live {L h ext} (hr : Right L h ext) {a : Nat} (h' : Reach h.flds ext a) : h.live a = true := by
  induction h' with
  | root h => exact hr.out _ h
  | step _ hm ih => exact hr.clo _ _ ih hm

theorem rank_bound (rank : Nat → Nat) : ∀ L : List Nat, ∃ M, ∀ b ∈ L, rank b ≤ M
  | [] => ⟨0, by simp⟩
  | b :: L => by
    obtain ⟨M, h⟩ := rank_bound rank L
    refine ⟨rank b + M, fun c hc => ?_⟩
    rcases List.mem_cons.1 hc with rfl | hc
    · omega
    · have := h c hc; omega

theorem live_reachable {L h ext} (hr : Right L h ext) (hc : Acyclic h) {a : Nat} (ha : h.live a = true) : Reach h.flds ext a := by
  obtain ⟨rank, hk⟩ := hc
  obtain ⟨M, hM⟩ := rank_bound rank L
  suffices ∀ k a, h.live a = true → M - rank a = k → Reach h.flds ext a from this _ a ha rfl
  intro k
  induction k using Nat.strongRecOn with
  | ind k ih =>
    intro a ha hka
    have hp := hr.pos a ha
    rw [hr.cnt a ha] at hp
    by_cases hx : 0 < ext a
    · exact .root hx
    · have hp : 0 < inc L h.live h.flds a := by unfold inc; omega
      obtain ⟨b, hb, hv, hm⟩ := inc_pos.1 hp
      have h1 := hk b a hv hm
      have h2 := hM b hb
      exact .step (ih (M - rank b) (by omega) b hv rfl) hm

/-- **C241** If no object holds itself, releasing a reference destroys exactly the objects the other variables do not lead to. -/
theorem released_iff {L h ext v n} (hr : Right L h (add ext v)) (hc : Acyclic h) (hn : L.length ≤ n) :
    ∃ h', dropRef n h v = .ok h' ∧ ∀ b, h'.live b = true ↔ Reach h.flds ext b := by
  obtain ⟨h', e, hr', hl, hf⟩ := release_right hr hn
  have hc' : Acyclic h' := by
    obtain ⟨rank, hk⟩ := hc
    exact ⟨rank, fun b a hb hm => hk b a (hl b hb) (by rw [← hf b hb]; exact hm)⟩
  refine ⟨h', e, fun b => ⟨fun hb => ?_, fun hb => ?_⟩⟩
  · have := live_reachable hr' hc' hb
    induction this with
    | root h => exact .root h
    | step h1 hm ih =>
      have hv := reachable_live hr' h1
      exact .step (ih hv) (by rw [← hf _ hv]; exact hm)
  · induction hb with
    | root h => exact hr'.out _ h
    | step _ hm ih => exact hr'.clo _ _ ih (by rw [hf _ ih]; exact hm)

/-- Releasing several references one after the other. -/
def dropAll (n : Nat) : Heap → List (Option Nat) → Res Heap
  | h, [] => .ok h
  | h, v :: vs => (dropRef n h v).bind fun h' => dropAll n h' vs

def addAll (ext : Nat → Nat) : List (Option Nat) → Nat → Nat
  | [] => ext
  | v :: vs => add (addAll ext vs) v

/-- **C241** is false of objects that hold each other: objects each of which is held by another of them stay allocated whatever is
released, also when nothing leads to them any more. -/
theorem ring_stays {L n} (hn : L.length ≤ n) (S : Nat → Prop) : ∀ (vs : List (Option Nat)) (h : Heap) (ext : Nat → Nat),
    Right L h (addAll ext vs) → (∀ a, S a → h.live a = true ∧ ∃ b, S b ∧ some a ∈ h.flds b) →
    ∃ h', dropAll n h vs = .ok h' ∧ Right L h' ext ∧ ∀ a, S a → h'.live a = true
  | [], h, ext, hr, hS => ⟨h, rfl, hr, fun a ha => (hS a ha).1⟩
  | v :: vs, h, ext, hr, hS => by
    have hsz : size L h.live [] ≤ n := Nat.le_trans (List.length_filter_le _ _) hn
    obtain ⟨h', e, hl⟩ := dropRef_inv hr.nodup n [] (addAll ext vs) h h.flds v hr.inv hsz
    have hring : Ring S h h.flds [] := fun a ha => ⟨(hS a ha).1, by simp, (hS a ha).2⟩
    have hlive := hl.ring S hring
    have hS' : ∀ a, S a → h'.live a = true ∧ ∃ b, S b ∧ some a ∈ h'.flds b := fun a ha => by
      obtain ⟨_, b, hb, hm⟩ := hS a ha
      exact ⟨hlive a ha, b, hb, by rw [hl.flds b (hlive b hb)]; exact hm⟩
    obtain ⟨k, e', hk⟩ := ring_stays hn S vs h' ext (hl.inv.right hr.nodup) hS'
    exact ⟨k, by rw [dropAll, e, Res.bind_ok]; exact e', hk⟩

/-! ## Assigning to a member -/

/-- The same objects with other fields of `p`. -/
def setF (h : Heap) (p : Nat) (l : List (Option Nat)) : Heap := { h with flds := upd h.flds p l }

theorem setF_self (h : Heap) (p : Nat) : setF h p (h.flds p) = h := by
  have : upd h.flds p (h.flds p) = h.flds := by
    funext b
    by_cases hb : b = p
    · subst hb; rw [upd_same]
    · rw [upd_ne _ _ hb]
  unfold setF
  rw [this]

theorem setF_zero (h : Heap) (p a i : Nat) (l : List (Option Nat)) (hap : a ≠ p) :
    zero a i (setF h p l) = setF (zero a i h) p l := by
  have e : (setF h p l).flds a = h.flds a := upd_ne _ _ hap
  unfold zero
  rw [e]
  unfold setF
  congr 1
  funext b
  show upd (upd h.flds p l) a ((h.flds a).set i none) b = upd (upd h.flds a ((h.flds a).set i none)) p l b
  by_cases hb : b = p
  · subst hb
    rw [upd_same, upd_ne _ _ (fun h => hap h.symm), upd_same]
  · by_cases hba : b = a
    · subst hba
      rw [upd_same, upd_ne _ _ hb, upd_same]
    · rw [upd_ne _ _ hba, upd_ne _ _ hb, upd_ne _ _ hb, upd_ne _ _ hba]

theorem dropFields_mono {d : Heap → Option Nat → Res Heap} (hd : ∀ h v k, d h v = .ok k → ∀ b, k.live b = true → h.live b = true)
    (a : Nat) : ∀ (is : List Nat) (h k : Heap), dropFields d a is h = .ok k → ∀ b, k.live b = true → h.live b = true
  | [], h, k, e, b, hb => by cases e; exact hb
  | i :: is, h, k, e, b, hb => by
    rw [dropFields] at e
    cases e1 : d h ((h.flds a).getD i none) with
    | ok h' =>
      rw [e1, Res.bind_ok] at e
      have := dropFields_mono hd a is _ k e b hb
      exact hd _ _ _ e1 b this
    | ub => rw [e1] at e; cases e
    | diverge => rw [e1] at e; cases e

theorem dropRef_mono : ∀ (n : Nat) (h : Heap) (v : Option Nat) (k : Heap), dropRef n h v = .ok k →
    ∀ b, k.live b = true → h.live b = true
  | n, h, none, k, e, b, hb => by
    have : k = h := by cases n <;> (simp only [dropRef] at e; cases e; rfl)
    exact this ▸ hb
  | 0, h, some a, k, e, b, hb => by simp [dropRef] at e
  | n + 1, h, some a, k, e, b, hb => by
    simp only [dropRef] at e
    split at e
    · split at e
      · cases e
      · split at e
        · cases e1 : dropFields (dropRef n) a (List.range (h.flds a).length) { h with refs := upd h.refs a _ } with
          | ok h' =>
            rw [e1, Res.map_ok] at e
            cases e
            refine dropFields_mono (dropRef_mono n) a _ _ _ e1 b ?_
            have hb' : upd h'.live a false b = true := hb
            by_cases hba : b = a
            · subst hba; rw [upd_same] at hb'; cases hb'
            · rw [upd_ne _ _ hba] at hb'; exact hb'
          | ub => rw [e1] at e; cases e
          | diverge => rw [e1] at e; cases e
        · cases e; exact hb
    · cases e

theorem dropFields_frame {d : Heap → Option Nat → Res Heap} (p : Nat) (l : List (Option Nat))
    (hm : ∀ h v k, d h v = .ok k → ∀ b, k.live b = true → h.live b = true)
    (hd : ∀ h v k, d h v = .ok k → k.live p = true → d (setF h p l) v = .ok (setF k p l)) (a : Nat) (hap : a ≠ p) :
    ∀ (is : List Nat) (h k : Heap), dropFields d a is h = .ok k → k.live p = true →
      dropFields d a is (setF h p l) = .ok (setF k p l)
  | [], h, k, e, _ => by cases e; rfl
  | i :: is, h, k, e, hk => by
    rw [dropFields] at e ⊢
    have e0 : (setF h p l).flds a = h.flds a := upd_ne _ _ hap
    rw [e0]
    cases e1 : d h ((h.flds a).getD i none) with
    | ok h' =>
      rw [e1, Res.bind_ok] at e
      have hv : h'.live p = true := dropFields_mono hm a is _ k e p hk
      rw [hd _ _ _ e1 hv, Res.bind_ok, setF_zero _ _ _ _ _ hap]
      exact dropFields_frame p l hm hd a hap is _ k e hk
    | ub => rw [e1] at e; cases e
    | diverge => rw [e1] at e; cases e

/-- A release does not look at the fields of an object that it does not destroy. -/
theorem dropRef_frame (p : Nat) (l : List (Option Nat)) : ∀ (n : Nat) (h : Heap) (v : Option Nat) (k : Heap), dropRef n h v = .ok k →
    k.live p = true → dropRef n (setF h p l) v = .ok (setF k p l)
  | n, h, none, k, e, hk => by
    have : k = h := by cases n <;> (simp only [dropRef] at e; cases e; rfl)
    subst this
    cases n <;> simp [dropRef]
  | 0, h, some a, k, e, hk => by simp [dropRef] at e
  | n + 1, h, some a, k, e, hk => by
    simp only [dropRef] at e ⊢
    split at e
    · next hv =>
      rw [if_pos (show (setF h p l).live a = true from hv)]
      split at e
      · cases e
      · next r hr =>
        rw [show (setF h p l).refs a = r + 1 from hr]
        simp only
        split at e
        · next h0 =>
          rw [if_pos h0]
          cases e1 : dropFields (dropRef n) a (List.range (h.flds a).length) { h with refs := upd h.refs a r } with
          | ok h' =>
            rw [e1, Res.map_ok] at e
            cases e
            have hk' : upd h'.live a false p = true := hk
            have hap : a ≠ p := fun h => by subst h; rw [upd_same] at hk'; cases hk'
            rw [upd_ne _ _ (fun h => hap h.symm)] at hk'
            have e0 : (setF h p l).flds a = h.flds a := upd_ne _ _ hap
            rw [e0]
            have := dropFields_frame p l (dropRef_mono n) (dropRef_frame p l n) a hap _ _ _ e1 hk'
            change dropFields (dropRef n) a _ { setF h p l with refs := upd h.refs a r } = _ at this
            rw [show (setF h p l).refs = h.refs from rfl, this]
            rfl
          | ub => rw [e1] at e; cases e
          | diverge => rw [e1] at e; cases e
        · next h0 =>
          rw [if_neg h0]
          cases e
          rfl
    · cases e

theorem getD_of_getElem? {l : List (Option Nat)} {i : Nat} {w : Option Nat} (h : l[i]? = some w) : l.getD i none = w := by
  rw [List.getD_eq_getElem?_getD, h]; rfl

/-- What the drop before an assignment to field `f` of `p` does, if `p` can be reached without that field. -/
theorem drop_member {L h ext n p f old} (hr : Right L h ext) (hn : L.length ≤ n) (hp : h.live p = true)
    (ho : (h.flds p)[f]? = some old) (hreach : Reach (zero p f h).flds ext p) :
    ∃ k, dropRef n h old = .ok (setF k p (h.flds p)) ∧ Right L k ext ∧ (∀ b, k.live b = true → h.live b = true) ∧
      k.live p = true ∧ ∀ b, k.live b = true → k.flds b = (zero p f h).flds b := by
  have hold := getD_of_getElem? ho
  have hi : Inv L (zero p f h) (upd h.flds p ((h.flds p).set f none)) [] (add ext old) := by
    rw [← hold]
    exact hr.inv.take hr.nodup hp f (zero p f h) rfl rfl (fun b hb => upd_ne _ _ hb) (fun _ => upd_same _ _ _)
  have hsz : size L (zero p f h).live [] ≤ n := Nat.le_trans (List.length_filter_le _ _) hn
  obtain ⟨k, e, hl⟩ := dropRef_inv hr.nodup n [] ext (zero p f h) _ old hi hsz
  have hrk := hl.inv.right hr.nodup
  have hkp : k.live p = true := by
    have : ∀ a, Reach (zero p f h).flds ext a → k.live a = true := by
      intro a ha
      induction ha with
      | root h => exact hrk.out _ h
      | step _ hm ih => exact hrk.clo _ _ ih (by rw [hl.flds _ ih]; exact hm)
    exact this p hreach
  refine ⟨k, ?_, hrk, hl.live, hkp, hl.flds⟩
  have := dropRef_frame p (h.flds p) n _ _ _ e hkp
  have hs : setF (zero p f h) p (h.flds p) = h := by
    have := setF_self h p
    unfold setF zero at *
    rw [← this]
    congr 1
    funext b
    by_cases hb : b = p
    · subst hb; simp
    · simp [hb]
  rw [hs] at this
  exact this

theorem load_ok {h : Heap} {v : Option Nat} {f : Nat} {w : Option Nat} :
    load h v f = .ok w ↔ ∃ a, v = some a ∧ h.live a = true ∧ (h.flds a)[f]? = some w := by
  unfold load
  cases v with
  | none => simp
  | some a =>
    simp only
    split
    · next hv =>
      cases he : (h.flds a)[f]? with
      | none => simp [he]
      | some u => simp [hv, he]
    · next hv => simp [hv]

theorem follow_cons {h : Heap} {v : Option Nat} {i : Nat} {is : List Nat} {w : Option Nat} :
    follow h v (i :: is) = .ok w ↔ ∃ u, load h v i = .ok u ∧ follow h u is = .ok w := by
  rw [follow]
  cases load h v i with
  | ok u => simp
  | ub => simp
  | diverge => simp

theorem follow_append {h : Heap} : ∀ (ps qs : List Nat) (v : Option Nat),
    follow h v (ps ++ qs) = (follow h v ps).bind fun w => follow h w qs
  | [], qs, v => rfl
  | i :: ps, qs, v => by
    rw [List.cons_append, follow, follow]
    cases load h v i with
    | ok u => exact follow_append ps qs u
    | ub => rfl
    | diverge => rfl

/-- Objects on a path from a variable can be reached. -/
theorem follow_reach {h : Heap} {ext : Nat → Nat} : ∀ (qs : List Nat) (v w : Option Nat), follow h v qs = .ok w →
    (∀ a, v = some a → Reach h.flds ext a) → ∀ a, w = some a → Reach h.flds ext a
  | [], v, w, e, hv => by cases e; exact hv
  | i :: qs, v, w, e, hv => by
    obtain ⟨u, e1, e2⟩ := follow_cons.1 e
    obtain ⟨a, rfl, _, hu⟩ := load_ok.1 e1
    refine follow_reach qs u w e2 fun b hb => ?_
    subst hb
    exact .step (hv a rfl) (List.mem_of_getElem? hu)

/-- A path that does not use field `f` of `p` gives the same value behind the drop. -/
theorem follow_after {h k : Heap} {ext : Nat → Nat} {p f : Nat}
    (hk : ∀ a, Reach (zero p f h).flds ext a → k.live a = true)
    (hf : ∀ b, k.live b = true → k.flds b = (zero p f h).flds b) : ∀ (qs : List Nat) (v w : Option Nat),
    follow (zero p f h) v qs = .ok w → follow h v qs = .ok w → (∀ a, v = some a → Reach (zero p f h).flds ext a) →
    follow (setF k p (h.flds p)) v qs = .ok w
  | [], v, w, e, _, _ => by cases e; rfl
  | i :: qs, v, w, e, e', hv => by
    obtain ⟨u, e1, e2⟩ := follow_cons.1 e
    obtain ⟨u', e1', e2'⟩ := follow_cons.1 e'
    obtain ⟨a, rfl, hl, hu⟩ := load_ok.1 e1
    obtain ⟨a', ha', hl', hu'⟩ := load_ok.1 e1'
    cases ha'
    have hka := hk a (hv a rfl)
    rw [follow_cons]
    by_cases hap : a = p
    · subst hap
      refine ⟨u', load_ok.2 ⟨a, rfl, hka, ?_⟩, ?_⟩
      · show (upd k.flds a (h.flds a) a)[i]? = some u'
        rw [upd_same]; exact hu'
      · by_cases hif : i = f
        · subst hif
          have hu0 : u = none := by
            change (upd h.flds a ((h.flds a).set i none) a)[i]? = some u at hu
            rw [upd_same, List.getElem?_set] at hu
            simp only [if_true] at hu
            split at hu
            · cases hu; rfl
            · cases hu
          subst hu0
          cases qs with
          | nil => cases e2; cases e2'; rfl
          | cons j qs =>
            obtain ⟨_, e3, _⟩ := follow_cons.1 e2
            obtain ⟨_, h3, _⟩ := load_ok.1 e3
            cases h3
        · have huu : u' = u := by
            change (upd h.flds a ((h.flds a).set f none) a)[i]? = some u at hu
            rw [upd_same, List.getElem?_set, if_neg (fun h => hif h.symm), hu'] at hu
            cases hu; rfl
          subst huu
          refine follow_after hk hf qs u' w e2 e2' fun b hb => ?_
          subst hb
          exact .step (hv a rfl) (List.mem_of_getElem? hu)
    · have e0 : (zero p f h).flds a = h.flds a := upd_ne _ _ hap
      rw [e0, hu'] at hu
      have huu : u' = u := by cases hu; rfl
      subst huu
      refine ⟨u', load_ok.2 ⟨a, rfl, hka, ?_⟩, ?_⟩
      · show (upd k.flds p (h.flds p) a)[i]? = some u'
        rw [upd_ne _ _ hap, hf a hka, e0]; exact hu'
      · refine follow_after hk hf qs u' w e2 e2' fun b hb => ?_
        subst hb
        exact .step (hv a rfl) (by rw [e0]; exact List.mem_of_getElem? hu')

/-- The variables of the assignment hold what they hold. -/
def Holds (ext : Nat → Nat) (v : Option Nat) : Prop := ∀ a, v = some a → 0 < ext a

theorem follow_refs (h : Heap) (r : Nat → Nat) : ∀ (qs : List Nat) (v : Option Nat),
    follow { h with refs := r } v qs = follow h v qs
  | [], _ => rfl
  | i :: qs, v => by
    rw [follow, follow]
    have : load { h with refs := r } v i = load h v i := rfl
    rw [this]
    cases load h v i with
    | ok u => exact follow_refs h r qs u
    | ub => rfl
    | diverge => rfl

/-- Counts when the emptied field is filled with a reference somebody held. -/
theorem Right.fill {L k ext p f v} (hr : Right L k (add ext v)) (hp : k.live p = true) (hf : (k.flds p)[f]? = some none)
    {k' : Heap} (hrefs : k'.refs = k.refs) (hlive : k'.live = k.live) (hfl : k'.flds = upd k.flds p ((k.flds p).set f v)) :
    Right L k' ext := by
  have hlt : f < (k.flds p).length := by
    rcases Nat.lt_or_ge f (k.flds p).length with h | h
    · exact h
    · rw [List.getElem?_eq_none h] at hf; cases hf
  have hback : ((k.flds p).set f v).set f none = k.flds p := by
    rw [List.set_set]
    apply List.ext_getElem?
    intro i
    rw [List.getElem?_set]
    by_cases hif : f = i
    · subst hif; rw [if_pos rfl, if_pos hlt, hf]
    · rw [if_neg hif]
  have hget : ((k.flds p).set f v).getD f none = v := by
    rw [List.getD_eq_getElem?_getD, List.getElem?_set, if_pos rfl, if_pos hlt]; rfl
  have hcount : ∀ a, ((k.flds p).set f v).count (some a) = (k.flds p).count (some a) + if v = some a then 1 else 0 := by
    intro a
    have := count_set a ((k.flds p).set f v) f
    rw [hback, hget] at this
    exact this
  refine { nodup := hr.nodup, sup := ?_, cnt := ?_, out := ?_, clo := ?_, pos := ?_ }
  · rw [hlive]; exact hr.sup
  · intro a ha
    rw [hlive] at ha ⊢
    rw [hrefs, hr.cnt a ha, hfl]
    have := sum_map_upd (fun b => if k.live b then (upd k.flds p ((k.flds p).set f v) b).count (some a) else 0)
      (fun b => if k.live b then (k.flds b).count (some a) else 0) p (if v = some a then 1 else 0)
      (fun b hb => by simp [hb]) (by simp only [hp, if_true, upd_same]; exact hcount a) L hr.nodup (hr.sup p hp)
    rw [this]
    unfold add
    omega
  · intro a ha
    rw [hlive]
    exact hr.out a (by unfold add; omega)
  · intro b a hb hm
    rw [hlive] at hb ⊢
    rw [hfl] at hm
    by_cases hbp : b = p
    · subst hbp
      rw [upd_same] at hm
      have := List.count_pos_iff.2 hm
      rw [hcount] at this
      by_cases hva : v = some a
      · exact hr.out a (by unfold add; rw [if_pos hva]; omega)
      · rw [if_neg hva] at this
        exact hr.clo b a hb (List.count_pos_iff.1 (by omega))
    · rw [upd_ne _ _ hbp] at hm
      exact hr.clo b a hb hm
  · intro a ha
    rw [hlive] at ha
    rw [hrefs]; exact hr.pos a ha

/-- A reference more to something allocated. -/
theorem Right.get {L k ext v} (hr : Right L k ext) (hv : ∀ a, v = some a → k.live a = true) :
    ∃ r, getRef k v = .ok { k with refs := r } ∧ Right L { k with refs := r } (add ext v) := by
  cases v with
  | none =>
    refine ⟨k.refs, rfl, ?_⟩
    have e : add ext none = ext := by funext b; simp [add]
    rw [e]; exact hr
  | some a =>
    have ha := hv a rfl
    refine ⟨upd k.refs a (k.refs a + 1), by simp [getRef, ha], ?_⟩
    refine { nodup := hr.nodup, sup := hr.sup, cnt := ?_, out := ?_, clo := hr.clo, pos := ?_ }
    · intro b hb
      show upd k.refs a (k.refs a + 1) b = _
      have hc := hr.cnt b hb
      by_cases hba : b = a
      · subst hba
        rw [upd_same, hc]
        simp only [add, if_true]
        omega
      · rw [upd_ne _ _ hba, hc]
        simp [add, show ¬ a = b from fun h => hba h.symm]
    · intro b hb
      by_cases hba : b = a
      · subst hba; exact ha
      · exact hr.out b (by simpa [add, show ¬ a = b from fun h => hba h.symm] using hb)
    · intro b hb
      show 0 < upd k.refs a (k.refs a + 1) b
      by_cases hba : b = a
      · subst hba; rw [upd_same]; omega
      · rw [upd_ne _ _ hba]; exact hr.pos b hb

theorem getElem?_zero {h : Heap} {p f : Nat} {old : Option Nat} (ho : (h.flds p)[f]? = some old) :
    ((zero p f h).flds p)[f]? = some none := by
  show (upd h.flds p ((h.flds p).set f none) p)[f]? = some none
  rw [upd_same, List.getElem?_set, if_pos rfl]
  split
  · rfl
  · next hlt => rw [List.getElem?_eq_none (by omega)] at ho; cases ho

/-- **C242** `x.ps.f = y.qs` puts the value of `y.qs` into the field and keeps all counts right, if neither path goes over the field
that is assigned. -/
theorem assign_right_partial {L h ext n x ps f p old y qs v} (hr : Right L h ext) (hn : L.length ≤ n) (hx : Holds ext x)
    (hy : Holds ext y) (hp : follow h x ps = .ok (some p)) (hold : load h (some p) f = .ok old) (hv : follow h y qs = .ok v)
    (hp0 : follow (zero p f h) x ps = .ok (some p)) (hv0 : follow (zero p f h) y qs = .ok v) :
    ∃ h', assign n h x ps f (.path y qs) = .ok h' ∧ Right L h' ext ∧ h'.live p = true ∧ h'.flds p = (h.flds p).set f v ∧
      ∀ b, b ≠ p → h'.live b = true → h'.flds b = h.flds b := by
  obtain ⟨p', hpp, hlp, ho⟩ := load_ok.1 hold
  cases hpp
  have hrx : ∀ a, x = some a → Reach (zero p f h).flds ext a := fun a ha => .root (hx a ha)
  have hry : ∀ a, y = some a → Reach (zero p f h).flds ext a := fun a ha => .root (hy a ha)
  have hreach := follow_reach ps x (some p) hp0 hrx p rfl
  obtain ⟨k, e, hrk, hlk, hkp, hfk⟩ := drop_member hr hn hlp ho hreach
  have hk : ∀ a, Reach (zero p f h).flds ext a → k.live a = true := by
    intro a ha
    induction ha with
    | root h => exact hrk.out _ h
    | step _ hm ih => exact hrk.clo _ _ ih (by rw [hfk _ ih]; exact hm)
  have ev := follow_after hk hfk qs y v hv0 hv hry
  have ep := follow_after hk hfk ps x (some p) hp0 hp hrx
  have hvl : ∀ a, v = some a → k.live a = true := fun a ha => hk a (follow_reach qs y v hv0 hry a ha)
  obtain ⟨r, eg, hrg⟩ := hrk.get hvl
  have eg' : getRef (setF k p (h.flds p)) v = .ok { setF k p (h.flds p) with refs := r } := by
    cases v with
    | none =>
      have : r = k.refs := by
        simp only [getRef] at eg
        have := congrArg Heap.refs (Res.ok.inj eg)
        exact this.symm
      subst this
      rfl
    | some a =>
      have ha := hvl a rfl
      simp only [getRef, ha, if_true] at eg
      have := congrArg Heap.refs (Res.ok.inj eg)
      simp only at this
      rw [← this]
      simp only [getRef]
      rw [if_pos (show (setF k p (h.flds p)).live a = true from ha)]
      rfl
  have eold : follow h x (ps ++ [f]) = .ok old := by
    rw [follow_append, hp, Res.bind_ok, follow, hold]; rfl
  refine ⟨{ refs := r, live := k.live, flds := upd k.flds p ((h.flds p).set f v) }, ?_, ?_, hkp, ?_, ?_⟩
  · unfold assign
    rw [eold, Res.bind_ok, e, Res.bind_ok]
    simp only
    rw [ev, Res.bind_ok, eg', Res.bind_ok, follow_refs, ep, Res.bind_ok]
    show (if k.live p = true then _ else _) = _
    rw [if_pos hkp]
    congr 1
    show Heap.mk r k.live (upd (upd k.flds p (h.flds p)) p ((upd k.flds p (h.flds p) p).set f v)) = _
    congr 1
    funext b
    by_cases hb : b = p
    · subst hb; simp
    · simp [hb]
  · have hkf : k.flds p = (h.flds p).set f none := by
      rw [hfk p hkp]; exact upd_same _ _ _
    refine hrg.fill (f := f) (v := v) hkp ?_ rfl rfl ?_
    · show (k.flds p)[f]? = some none
      rw [hfk p hkp]; exact getElem?_zero ho
    · show upd k.flds p _ = upd k.flds p ((k.flds p).set f v)
      rw [hkf, List.set_set]
  · exact upd_same _ _ _
  · intro b hb hbl
    show upd k.flds p _ b = _
    rw [upd_ne _ _ hb, hfk b hbl]
    exact upd_ne _ _ hb

/-- **C242** `x.ps.f = v` for a new value puts it into the field and keeps all counts right, if the path does not go over the field that
is assigned. -/
theorem assign_new_partial {L h ext n x ps f p old v} (hr : Right L h (add ext v)) (hn : L.length ≤ n) (hx : Holds ext x)
    (hp : follow h x ps = .ok (some p)) (hold : load h (some p) f = .ok old) (hp0 : follow (zero p f h) x ps = .ok (some p)) :
    ∃ h', assign n h x ps f (.fresh v) = .ok h' ∧ Right L h' ext ∧ h'.live p = true ∧ h'.flds p = (h.flds p).set f v ∧
      ∀ b, b ≠ p → h'.live b = true → h'.flds b = h.flds b := by
  obtain ⟨p', hpp, hlp, ho⟩ := load_ok.1 hold
  cases hpp
  have hrx : ∀ a, x = some a → Reach (zero p f h).flds (add ext v) a := fun a ha => .root (by have := hx a ha; unfold add; omega)
  have hreach := follow_reach ps x (some p) hp0 hrx p rfl
  obtain ⟨k, e, hrk, hlk, hkp, hfk⟩ := drop_member hr hn hlp ho hreach
  have hk : ∀ a, Reach (zero p f h).flds (add ext v) a → k.live a = true := by
    intro a ha
    induction ha with
    | root h => exact hrk.out _ h
    | step _ hm ih => exact hrk.clo _ _ ih (by rw [hfk _ ih]; exact hm)
  have ep := follow_after hk hfk ps x (some p) hp0 hp hrx
  have eold : follow h x (ps ++ [f]) = .ok old := by
    rw [follow_append, hp, Res.bind_ok, follow, hold]; rfl
  refine ⟨{ k with flds := upd k.flds p ((h.flds p).set f v) }, ?_, ?_, hkp, ?_, ?_⟩
  · unfold assign
    rw [eold, Res.bind_ok, e, Res.bind_ok]
    simp only
    rw [ep, Res.bind_ok]
    show (if k.live p = true then _ else _) = _
    rw [if_pos hkp]
    congr 1
    show Heap.mk k.refs k.live (upd (upd k.flds p (h.flds p)) p ((upd k.flds p (h.flds p) p).set f v)) = _
    congr 1
    funext b
    by_cases hb : b = p
    · subst hb; simp
    · simp [hb]
  · have hkf : k.flds p = (h.flds p).set f none := by
      rw [hfk p hkp]; exact upd_same _ _ _
    refine hrk.fill (f := f) (v := v) hkp ?_ rfl rfl ?_
    · rw [hfk p hkp]; exact getElem?_zero ho
    · show upd k.flds p _ = upd k.flds p ((k.flds p).set f v)
      rw [hkf, List.set_set]
  · exact upd_same _ _ _
  · intro b hb hbl
    show upd k.flds p _ b = _
    rw [upd_ne _ _ hb, hfk b hbl]
    exact upd_ne _ _ hb

/-- If the field holds the only reference to an object, that object is gone behind the drop. -/
theorem gone_after {L h ext n} {p f o : Nat} (hr : Right L h ext) (hn : L.length ≤ n) (hx : 0 < ext p)
    (ho : (h.flds p)[f]? = some (some o)) (h1 : h.refs o = 1) :
    ∃ k, dropRef n h (some o) = .ok k ∧ k.live o = false ∧ k.live p = true ∧ k.flds p = h.flds p := by
  have hp := hr.out p hx
  have hold := getD_of_getElem? ho
  have hreach : Reach (zero p f h).flds ext p := .root hx
  obtain ⟨k, e, hrk, hlk, hkp, hfk⟩ := drop_member hr hn hp ho hreach
  refine ⟨_, e, ?_, hkp, upd_same _ _ _⟩
  show k.live o = false
  cases hko : k.live o with
  | false => rfl
  | true =>
    exfalso
    have hlo := hlk o hko
    have hi : Inv L (zero p f h) (upd h.flds p ((h.flds p).set f none)) [] (add ext (some o)) := by
      rw [← hold]
      exact hr.inv.take hr.nodup hp f (zero p f h) rfl rfl (fun b hb => upd_ne _ _ hb) (fun _ => upd_same _ _ _)
    have hc := hi.cnt o hlo
    change h.refs o = _ at hc
    rw [h1] at hc
    simp only [add, if_true] at hc
    have hc2 := hrk.cnt o hko
    have hpos := hrk.pos o hko
    have hle : (L.map fun b => if k.live b then (k.flds b).count (some o) else 0).sum ≤
        inc L (zero p f h).live (upd h.flds p ((h.flds p).set f none)) o := by
      apply sum_map_le
      intro b _
      by_cases hb : k.live b = true
      · rw [if_pos hb, if_pos (show (zero p f h).live b = true from hlk b hb), hfk b hb]
        exact Nat.le_refl _
      · rw [if_neg hb]; exact Nat.zero_le _
    omega

/-- If others hold the object, the drop only counts down. -/
theorem stays_after {L h ext n} {p f o : Nat} (hr : Right L h ext) (hn : L.length ≤ n) (hp : h.live p = true)
    (ho : (h.flds p)[f]? = some (some o)) (h2 : 1 < h.refs o) :
    dropRef n h (some o) = .ok { h with refs := upd h.refs o (h.refs o - 1) } := by
  have hlo := hr.clo p o hp (List.mem_of_getElem? ho)
  have hL := hr.sup o hlo
  cases n with
  | zero =>
    have := List.length_pos_of_mem hL
    omega
  | succ n =>
    obtain ⟨r, e⟩ : ∃ r, h.refs o = r + 1 := ⟨h.refs o - 1, by omega⟩
    simp only [dropRef, hlo, if_true, e]
    rw [if_neg (by omega)]
    rfl

/-- **C242** is false: `x.f = x.f.qs`, for example `list.head = list.head.next` or `x.f = x.f`, works exactly if somebody else holds
the object the field held; otherwise it uses that object after it was given back. -/
theorem assign_through_old_iff {L h ext n} {p f o : Nat} {qs : List Nat} {v : Option Nat} (hr : Right L h ext) (hn : L.length ≤ n)
    (hx : 0 < ext p) (ho : (h.flds p)[f]? = some (some o)) (hv : follow h (some o) qs = .ok v) :
    (h.refs o = 1 → assign n h (some p) [] f (.path (some p) (f :: qs)) = .ub) ∧
    (h.refs o ≠ 1 → ∃ h', assign n h (some p) [] f (.path (some p) (f :: qs)) = .ok h' ∧ Right L h' ext ∧
      h'.live = h.live ∧ h'.flds = upd h.flds p ((h.flds p).set f v)) := by
  have hp := hr.out p hx
  have eold : follow h (some p) ([] ++ [f]) = .ok (some o) := by
    show follow h (some p) [f] = _
    rw [follow_cons]
    exact ⟨some o, load_ok.2 ⟨p, rfl, hp, ho⟩, rfl⟩
  constructor
  · intro h1
    obtain ⟨k, e, hko, hkp, hkf⟩ := gone_after hr hn hx ho h1
    unfold assign
    rw [eold, Res.bind_ok, e, Res.bind_ok]
    simp only
    have el : load k (some p) f = .ok (some o) := load_ok.2 ⟨p, rfl, hkp, by rw [hkf]; exact ho⟩
    rw [follow, el, Res.bind_ok]
    cases qs with
    | nil => simp [follow, getRef, hko]
    | cons i qs => simp [follow, load, hko]
  · intro h2
    have hlo := hr.clo p o hp (List.mem_of_getElem? ho)
    have h2 : 1 < h.refs o := by have := hr.pos o hlo; omega
    have e := stays_after hr hn hp ho h2
    have hold := getD_of_getElem? ho
    have hi : Inv L (zero p f h) (upd h.flds p ((h.flds p).set f none)) [] (add ext (some o)) := by
      rw [← hold]
      exact hr.inv.take hr.nodup hp f (zero p f h) rfl rfl (fun b hb => upd_ne _ _ hb) (fun _ => upd_same _ _ _)
    have hsz : size L (zero p f h).live [] ≤ n := Nat.le_trans (List.length_filter_le _ _) hn
    obtain ⟨k, ek, hl⟩ := dropRef_inv hr.nodup n [] ext (zero p f h) _ (some o) hi hsz
    have hke : k = { zero p f h with refs := upd h.refs o (h.refs o - 1) } := by
      cases n with
      | zero =>
        have := List.length_pos_of_mem (hr.sup o hlo)
        omega
      | succ n =>
        obtain ⟨r, e⟩ : ∃ r, h.refs o = r + 1 := ⟨h.refs o - 1, by omega⟩
        simp only [dropRef, show (zero p f h).live o = true from hlo, if_true, show (zero p f h).refs o = r + 1 from e] at ek
        rw [if_neg (by omega)] at ek
        rw [← Res.ok.inj ek, e]
        rfl
    have hrk := hl.inv.right hr.nodup
    subst hke
    have hvl : ∀ a, v = some a → h.live a = true := by
      have : ∀ (qs : List Nat) (u : Option Nat), (∀ a, u = some a → h.live a = true) → follow h u qs = .ok v →
          ∀ a, v = some a → h.live a = true := by
        intro qs
        induction qs with
        | nil => intro u hu e; cases e; exact hu
        | cons i qs ih =>
          intro u hu e
          obtain ⟨w, e1, e2⟩ := follow_cons.1 e
          obtain ⟨a, rfl, ha, hw⟩ := load_ok.1 e1
          exact ih w (fun b hb => hr.clo a b ha (List.mem_of_getElem? (hb ▸ hw))) e2
      exact this qs (some o) (fun a ha => by cases ha; exact hlo) hv
    obtain ⟨r, eg, hrg⟩ := hrk.get (v := v) hvl
    have eg' : getRef { h with refs := upd h.refs o (h.refs o - 1) } v = .ok { h with refs := r } := by
      cases v with
      | none =>
        simp only [getRef] at eg ⊢
        have := congrArg Heap.refs (Res.ok.inj eg)
        simp only at this
        rw [this]
      | some a =>
        have ha := hvl a rfl
        simp only [getRef, show (zero p f h).live a = true from ha, if_true] at eg
        have := congrArg Heap.refs (Res.ok.inj eg)
        simp only at this
        simp only [getRef, ha, if_true]
        rw [this]
    refine ⟨{ refs := r, live := h.live, flds := upd h.flds p ((h.flds p).set f v) }, ?_, ?_, rfl, rfl⟩
    · unfold assign
      rw [eold, Res.bind_ok, e, Res.bind_ok]
      simp only
      rw [follow_refs, follow_cons.2 ⟨some o, load_ok.2 ⟨p, rfl, hp, ho⟩, hv⟩, Res.bind_ok, eg', Res.bind_ok]
      show (if h.live p = true then _ else _) = _
      rw [if_pos hp]
    · refine hrg.fill (f := f) (v := v) (p := p) hp (getElem?_zero ho) rfl rfl ?_
      show upd h.flds p _ = upd (upd h.flds p ((h.flds p).set f none)) p ((upd h.flds p ((h.flds p).set f none) p).set f v)
      funext b
      by_cases hb : b = p
      · subst hb; simp
      · simp [hb]

/-! ## A list of two nodes

The list at 0 holds node 1, which holds node 2; a variable holds the list. -/

def exHeap : Heap where
  refs := fun a => if a < 3 then 1 else 0
  live := fun a => decide (a < 3)
  flds := fun a => match a with
    | 0 => [some 1]
    | 1 => [some 2]
    | 2 => [none]
    | _ => []

def exVars : Nat → Nat := fun a => if a = 0 then 1 else 0

theorem exRight : Right [0, 1, 2] exHeap exVars where
  nodup := by decide
  sup := by intro a ha; simp [exHeap] at ha ⊢; omega
  cnt := by
    intro a ha
    have : a < 3 := by simpa [exHeap] using ha
    match a, this with
    | 0, _ => rfl
    | 1, _ => rfl
    | 2, _ => rfl
  out := by intro a ha; by_cases h : a = 0 <;> simp_all [exVars, exHeap]
  clo := by
    intro b a hb hm
    have : b < 3 := by simpa [exHeap] using hb
    match b, this with
    | 0, _ => simp [exHeap] at hm ⊢; omega
    | 1, _ => simp [exHeap] at hm ⊢; omega
    | 2, _ => simp [exHeap] at hm
  pos := by intro a ha; have : a < 3 := by simpa [exHeap] using ha
            simp [exHeap, this]

/-- `list.head = list.head.next` uses the first node after it was given back. -/
example : assign 3 exHeap (some 0) [] 0 (.path (some 0) [0, 0]) = .ub :=
  (assign_through_old_iff exRight (by decide) (by decide) (o := 1) rfl (qs := [0]) (v := some 2) (by decide)).1 rfl

/-- `list.head.next = list` is safe. -/
example : ∃ h', assign 3 exHeap (some 0) [0] 0 (.path (some 0) []) = .ok h' ∧ Right [0, 1, 2] h' exVars ∧ h'.live 1 = true ∧
    h'.flds 1 = [some 0] := by
  have hx : Holds exVars (some 0) := fun a ha => by cases ha; decide
  obtain ⟨h', e, hr, hl, hf, _⟩ := assign_right_partial (n := 3) (x := some 0) (ps := [0]) (f := 0) (p := 1) (old := some 2)
    (y := some 0) (qs := []) (v := some 0) exRight (by decide) hx hx (by decide) (by decide) (by decide) (by decide) (by decide)
  exact ⟨h', e, hr, hl, hf⟩

/-- `list.head.next = null` is safe. -/
example : ∃ h', assign 3 exHeap (some 0) [0] 0 (.fresh none) = .ok h' ∧ Right [0, 1, 2] h' exVars ∧ h'.flds 1 = [none] := by
  have hx : Holds exVars (some 0) := fun a ha => by cases ha; decide
  have e : add exVars none = exVars := by funext b; simp [add]
  obtain ⟨h', e, hr, _, hf, _⟩ := assign_new_partial (n := 3) (x := some 0) (ps := [0]) (f := 0) (p := 1) (old := some 2)
    (v := none) (e ▸ exRight) (by decide) hx (by decide) (by decide) (by decide)
  exact ⟨h', e, hr, hf⟩

/-- Releasing the list releases the nodes. -/
example : Right [0, 1, 2] exHeap (add (fun _ => 0) (some 0)) ∧ Acyclic exHeap := by
  refine ⟨?_, (3 - ·), ?_⟩
  · have : add (fun _ => 0) (some 0) = exVars := by
      funext a; simp only [add, exVars]; by_cases h : a = 0 <;> simp [h]; omega
    rw [this]; exact exRight
  · intro b a hb hm
    have : b < 3 := by simpa [exHeap] using hb
    match b, this with
    | 0, _ => simp [exHeap] at hm; subst hm; decide
    | 1, _ => simp [exHeap] at hm; subst hm; decide
    | 2, _ => simp [exHeap] at hm

/-- Two objects that hold each other, and a variable that holds the first. -/
example : ∃ h : Heap, Right [0, 1] h (addAll (fun _ => 0) [some 0]) ∧
    ∀ a, a < 2 → h.live a = true ∧ ∃ b, b < 2 ∧ some a ∈ h.flds b := by
  refine ⟨⟨fun a => if a = 0 then 2 else 1, fun a => decide (a < 2), fun a => [some (1 - a)]⟩, ?_, ?_⟩
  · refine ⟨by decide, ?_, ?_, ?_, ?_, ?_⟩
    · intro a ha; simp at ha ⊢; omega
    · intro a ha
      have : a < 2 := by simpa using ha
      match a, this with
      | 0, _ => rfl
      | 1, _ => rfl
    · intro a ha
      by_cases h : a = 0
      · subst h; rfl
      · simp [addAll, add, show ¬ 0 = a from fun e => h e.symm] at ha
    · intro b a hb hm; simp at hb hm ⊢; omega
    · intro a ha; show 0 < if a = 0 then 2 else 1; split <;> decide
  · intro a ha
    exact ⟨by simpa using ha, 1 - a, by omega, by simp; omega⟩

end Verif.ObjGraph
