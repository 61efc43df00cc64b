import Verif.Lang.Scope.Model
/-! # C27, C82: name resolution and overload chains -/
namespace Verif.Scope

open HTable (Table)

/-! ## Specification: a stack of finite maps -/
namespace Spec

/-- A scope: each name has the declarations made under it, in order. -/
abbrev Sc := Nat → Option (List Nat)

/-- Innermost scope first. -/
abbrev State := List Sc

def lookup : State → Nat → Option Nat
  | [], _ => none
  | s :: r, n => match s n with
    | some l => l.head?
    | none => lookup r n

def put (s : Sc) (n : Nat) (l : List Nat) : Sc := fun m => if m = n then some l else s m

def step (I : Info) : State → Op → Out (Seen × State)
  | st, .push => .ok (.done, (fun _ => none) :: st)
  | [], .pop => .abort
  | _ :: r, .pop => .ok (.done, r)
  | [], .define _ _ => .abort
  | s :: r, .define n x =>
    if I.ignored n then .ok (.defd .ignored, s :: r)
    else match s n with
      | none => .ok (.defd .accepted, put s n [x] :: r)
      | some _ => .ok (.defd .rejected, s :: r)
  | [], .forward _ _ => .abort
  | s :: r, .forward n x =>
    if I.ignored n then .ok (.defd .ignored, s :: r)
    else match s n with
      | none => .ok (.defd .accepted, put s n [x] :: r)
      | some l => if l.head?.any I.isFwd then .ok (.defd .accepted, put s n [x] :: r) else .ok (.defd .rejected, s :: r)
  | [], .func _ _ => .abort
  | s :: r, .func n x =>
    if I.ignored n then .ok (.defd .ignored, s :: r)
    else match s n with
      | none => .ok (.defd .accepted, put s n [x] :: r)
      | some l => if l.head?.any I.isFunc then .ok (.defd .accepted, put s n (l ++ [x]) :: r) else .ok (.defd .rejected, s :: r)
  | st, .find n => .ok (.found ((lookup st n).or (I.builtin n)), st)

def run (I : Info) : State → List Op → Out (List Seen × State)
  | st, [] => .ok ([], st)
  | st, o :: os => (step I st o).bind fun (s, st) => (run I st os).bind fun (ss, st) => .ok (s :: ss, st)

end Spec

/-! ## The tables -/

def shash (I : Info) (s : Sym) : BitVec 32 := I.hash s.name

theorem compat (I : Info) : HTable.Compat (shash I) same where
  refl := by intro a; simp [same]
  symm := by intro a b h; simp [same] at *; exact h.symm
  trans := by intro a b c h1 h2; simp [same] at *; exact h1.trans h2
  hash_eq := by intro a b h; simp [same] at h; simp [shash, h]

/-- The table holds exactly the symbols of `g`. -/
structure Rep (I : Info) (t : Table Sym) (g : Nat → Option Sym) : Prop where
  inv : HTable.Inv (shash I) same t
  mem : ∀ s, s ∈ HTable.contents t ↔ g s.name = some s
  name : ∀ n s, g n = some s → s.name = n

theorem new_rep (I : Info) : Rep I (HTable.new Sym) (fun _ => none) := by
  obtain ⟨h1, h2⟩ := HTable.new_inv (shash I) same 4
  refine ⟨h1, fun s => ?_, by simp⟩
  show s ∈ HTable.contents (HTable.newWithCapacity Sym 4) ↔ _
  rw [h2]; simp

theorem clear_rep (I : Info) {t : Table Sym} {g : Nat → Option Sym} (h : Rep I t g) : Rep I (HTable.clear t) (fun _ => none) := by
  obtain ⟨h1, h2⟩ := HTable.clear_spec h.inv
  exact ⟨h1, fun s => by rw [h2]; simp, by simp⟩

theorem find_rep (I : Info) {t : Table Sym} {g : Nat → Option Sym} (h : Rep I t g) (s : Sym) :
    HTable.find same t s (I.hash s.name) = .ok (g s.name) := by
  rcases HTable.find_spec (compat I) h.inv s with ⟨x, hx, hxs, hf⟩ | ⟨hno, hf⟩
  · have : x.name = s.name := by simpa [same] using hxs
    rw [h.mem] at hx
    rw [this] at hx
    rw [hx]; exact hf
  · have : g s.name = none := by
      cases e : g s.name with
      | none => rfl
      | some y =>
        have hy := h.name _ _ e
        have := hno y ((h.mem y).2 (by rw [hy]; exact e))
        simp [same, hy] at this
    rw [this]; exact hf

theorem findIdx_rep (I : Info) {t : Table Sym} {g : Nat → Option Sym} (h : Rep I t g) (s : Sym) (y : Sym) (hy : g s.name = some y) :
    ∃ i, HTable.findIdx same t s (I.hash s.name) = .ok (some i) ∧ t.elems i = some y ∧
      ∀ z : Sym, z.name = s.name → Rep I (HTable.store t i z) (fun m => if m = s.name then some z else g m) := by
  have hyn := h.name _ _ hy
  rcases HTable.findIdx_spec (compat I) h.inv s with ⟨i, x, hf, hic, ho, hx, hxm, hxs⟩ | ⟨hno, hf⟩
  · have hxn : x.name = s.name := by simpa [same] using hxs
    have : x = y := by
      have := (h.mem x).1 hxm
      rw [hxn, hy] at this
      cases this; rfl
    subst this
    refine ⟨i, hf, hx, fun z hz => ?_⟩
    have hxz : same x z = true := by simp [same, hxn, hz]
    refine ⟨HTable.store_inv (compat I) h.inv i x z hic ho hx hxz, fun w => ?_, ?_⟩
    · have hp := HTable.contents_store t i x z hic ho hx
      have hd := (HTable.store_inv (compat I) h.inv i x z hic ho hx hxz).distinct
      constructor
      · intro hw
        have hw2 : w ∈ z :: HTable.contents t := hp.mem_iff.1 (List.mem_cons_of_mem _ hw)
        by_cases hwn : w.name = s.name
        · simp only [hwn, if_true, Option.some.injEq]
          -- w and z are both in the stored contents
          have hzm : z ∈ HTable.contents (HTable.store t i z) :=
            HTable.mem_contents.mpr ⟨i, hic, ho, by simp [HTable.store]⟩
          exact ((compat I).unique hd hzm hw (by simp [same, hwn, hz]))
        · simp only [hwn, if_false]
          rcases List.mem_cons.1 hw2 with e | hm
          · subst e; exact absurd hz hwn
          · exact (h.mem w).1 hm
      · intro hw
        by_cases hwn : w.name = s.name
        · simp only [hwn, if_true, Option.some.injEq] at hw
          subst hw
          exact HTable.mem_contents.mpr ⟨i, hic, ho, by simp [HTable.store]⟩
        · simp only [hwn, if_false] at hw
          have hm := (h.mem w).2 hw
          have : w ∈ x :: HTable.contents (HTable.store t i z) := hp.mem_iff.2 (List.mem_cons_of_mem _ hm)
          rcases List.mem_cons.1 this with e | hm
          · subst e; exact absurd hxn hwn
          · exact hm
    · intro n w hw
      by_cases hn : n = s.name
      · simp only [hn, if_true, Option.some.injEq] at hw; subst hw; rw [hz, hn]
      · simp only [hn, if_false] at hw; exact h.name n w hw
  · have := hno y ((h.mem y).2 (by rw [hyn]; exact hy))
    simp [same, hyn] at this

theorem insert_rep (I : Info) {t : Table Sym} {g : Nat → Option Sym} (h : Rep I t g) (s : Sym) :
    (g s.name ≠ none → HTable.insert same t s (I.hash s.name) = .ok (false, t)) ∧
    (g s.name = none → ∃ t', HTable.insert same t s (I.hash s.name) = .ok (true, t') ∧
      Rep I t' (fun m => if m = s.name then some s else g m)) := by
  rcases HTable.insert_spec (compat I) h.inv s with ⟨⟨x, hx, hxs⟩, hf⟩ | ⟨hno, t', hf, hi', hp⟩
  · have : x.name = s.name := by simpa [same] using hxs
    rw [h.mem, this] at hx
    exact ⟨fun _ => hf, fun hn => by rw [hx] at hn; cases hn⟩
  · have hg : g s.name = none := by
      cases e : g s.name with
      | none => rfl
      | some y =>
        have hy := h.name _ _ e
        have := hno y ((h.mem y).2 (by rw [hy]; exact e))
        simp [same, hy] at this
    refine ⟨fun hn => absurd hg hn, fun _ => ⟨t', hf, hi', fun w => ?_, fun n w hw => ?_⟩⟩
    · rw [hp.mem_iff, List.mem_cons, h.mem]
      by_cases hw : w.name = s.name
      · simp only [hw, if_true, Option.some.injEq, hg]
        constructor
        · rintro (e | e)
          · exact e.symm
          · cases e
        · intro e; exact .inl e.symm
      · simp only [hw, if_false]
        constructor
        · rintro (e | e)
          · subst e; exact absurd rfl hw
          · exact e
        · exact .inr
    · by_cases hn : n = s.name
      · simp only [hn, if_true, Option.some.injEq] at hw; subst hw; exact hn.symm
      · simp only [hn, if_false] at hw; exact h.name n w hw

/-! ## The invariant -/

/-- A symbol stands for the declarations `l` made under its name. -/
structure SymFor (I : Info) (s : Sym) (l : List Nat) : Prop where
  head : l.head? = some s.node
  func : I.isFunc s.node = true → s.last = l.getLast? ∧ s.index = l.length % 65536

structure RepSc (I : Info) (t : Table Sym) (f : Spec.Sc) (g : Nat → Option Sym) : Prop where
  rep : Rep I t g
  none_iff : ∀ n, g n = none ↔ f n = none
  some_for : ∀ n s l, g n = some s → f n = some l → SymFor I s l

theorem RepSc.put {I : Info} {t t' : Table Sym} {f : Spec.Sc} {g : Nat → Option Sym} {n : Nat} {z : Sym} {l : List Nat}
    (h : RepSc I t f g) (hr : Rep I t' (fun m => if m = n then some z else g m)) (hz : SymFor I z l) :
    RepSc I t' (Spec.put f n l) (fun m => if m = n then some z else g m) := by
  refine ⟨hr, fun m => ?_, fun m s l' hs hl => ?_⟩
  · unfold Spec.put
    by_cases e : m = n
    · simp [e]
    · simp [e, h.none_iff]
  · unfold Spec.put at hl
    by_cases e : m = n
    · simp [e] at hs hl; subst hs; subst hl; exact hz
    · simp [e] at hs hl; exact h.some_for m s l' hs hl

/-- The overload chain in the heap is the list, and its members belong to name `n` at level `lv`. -/
structure Good (h : Heap) (own : Nat → Option (Nat × Nat)) (lv n : Nat) (l : List Nat) : Prop where
  nodup : l.Nodup
  owned : ∀ x ∈ l, own x = some (lv, n)
  link : ∀ i (hi : i < l.length), h.link l[i] = l[i + 1]?
  first : ∀ x ∈ l, h.first x = l.head?
  fidx : ∀ i (hi : i < l.length), h.fidx l[i] = i % 65536

def Rel (I : Info) (scopes : List (Table Sym)) (h : Heap) (own : Nat → Option (Nat × Nat)) : Spec.State → Prop
  | [] => True
  | f :: r => (∃ t g, scopes[r.length]? = some t ∧ RepSc I t f g) ∧
      (∀ n l, f n = some l → l.head?.any I.isFunc = true → Good h own r.length n l) ∧ Rel I scopes h own r

structure Inv (I : Info) (E : Env) (st : Spec.State) (own : Nat → Option (Nat × Nat)) : Prop where
  rel : Rel I E.scopes E.heap own st
  cur : E.cur = if st.length = 0 then none else some (st.length - 1)
  above : ∀ k t, st.length ≤ k → E.scopes[k]? = some t → Rep I t (fun _ => none)
  some_scope : 0 < E.scopes.length
  fresh : ∀ x, own x = none → E.heap.link x = none ∧ E.heap.fidx x = 0

theorem Rel.set {I : Info} {h : Heap} {own : Nat → Option (Nat × Nat)} (k : Nat) (t : Table Sym) :
    ∀ (st : Spec.State) (scopes : List (Table Sym)), st.length ≤ k → Rel I scopes h own st → Rel I (scopes.set k t) h own st
  | [], _, _, _ => trivial
  | f :: r, scopes, hk, ⟨⟨t', g, h1, h2⟩, h3, h4⟩ => by
    simp only [List.length_cons] at hk
    refine ⟨⟨t', g, ?_, h2⟩, h3, Rel.set k t r scopes (by omega) h4⟩
    rw [List.getElem?_set_ne (by omega)]; exact h1

theorem Rel.append {I : Info} {h : Heap} {own : Nat → Option (Nat × Nat)} (ts : List (Table Sym)) :
    ∀ (st : Spec.State) (scopes : List (Table Sym)), Rel I scopes h own st → Rel I (scopes ++ ts) h own st
  | [], _, _ => trivial
  | f :: r, scopes, ⟨⟨t', g, h1, h2⟩, h3, h4⟩ => by
    refine ⟨⟨t', g, ?_, h2⟩, h3, Rel.append ts r scopes h4⟩
    have := (List.getElem?_eq_some_iff.1 h1).1
    rw [List.getElem?_append_left this]; exact h1

theorem Rel.lookup {I : Info} {scopes : List (Table Sym)} {h : Heap} {own : Nat → Option (Nat × Nat)} (n : Nat) :
    ∀ (st : Spec.State), Rel I scopes h own st → findLoop I scopes n st.length = .ok (Spec.lookup st n)
  | [], _ => rfl
  | f :: r, ⟨⟨t, g, h1, h2⟩, _, h4⟩ => by
    simp only [List.length_cons, findLoop, h1]
    have := find_rep I h2.rep ⟨0, n, 0, none⟩
    rw [show I.hash n = I.hash (⟨0, n, 0, none⟩ : Sym).name from rfl, this]
    simp only [ofH, Out.bind_ok, Spec.lookup]
    cases e : g n with
    | none => rw [(h2.none_iff n).1 e]; exact Rel.lookup n r h4
    | some s =>
      cases e2 : f n with
      | none => rw [(h2.none_iff n).2 e2] at e; cases e
      | some l => simp only []; rw [(h2.some_for n s l e e2).head]

/-- A change of the heap that keeps every chain. -/
theorem Rel.heap {I : Info} {scopes : List (Table Sym)} {h h' : Heap} {own own' : Nat → Option (Nat × Nat)} :
    ∀ (st : Spec.State), (∀ lv n l, lv < st.length → Good h own lv n l → Good h' own' lv n l) → Rel I scopes h own st → Rel I scopes h' own' st
  | [], _, _ => trivial
  | _ :: r, hk, ⟨h1, h2, h3⟩ =>
    ⟨h1, fun n l hn hf => hk _ n l (by simp) (h2 n l hn hf), Rel.heap r (fun lv n l hl => hk lv n l (by simp; omega)) h3⟩

/-- What `defineFunctionDecl` does to the heap when it appends `x` after `z`. -/
def Heap.append (h : Heap) (z x i hd : Nat) : Heap :=
  { link := upd h.link z (some x), fidx := upd h.fidx x i, first := upd h.first x (some hd) }

theorem Good.other {h : Heap} {own : Nat → Option (Nat × Nat)} {lv n : Nat} {l : List Nat} (hg : Good h own lv n l)
    (z x i hd : Nat) (o : Nat × Nat) (hx : own x = none) (hz : own z ≠ some (lv, n)) :
    Good (h.append z x i hd) (upd own x (some o)) lv n l := by
  have hxl : ∀ y ∈ l, y ≠ x := fun y hy e => by have := hg.owned y hy; rw [e, hx] at this; cases this
  have hzl : ∀ y ∈ l, y ≠ z := fun y hy e => by have := hg.owned y hy; rw [e] at this; exact hz this
  refine ⟨hg.nodup, fun y hy => ?_, fun j hj => ?_, fun y hy => ?_, fun j hj => ?_⟩
  · rw [upd_ne _ _ (hxl y hy)]; exact hg.owned y hy
  · simp only [Heap.append]; rw [upd_ne _ _ (hzl _ (List.getElem_mem _))]; exact hg.link j hj
  · simp only [Heap.append]; rw [upd_ne _ _ (hxl y hy)]; exact hg.first y hy
  · simp only [Heap.append]; rw [upd_ne _ _ (hxl _ (List.getElem_mem _))]; exact hg.fidx j hj

/-- What it does when it only records the first declaration. -/
def Heap.mark (h : Heap) (x hd : Nat) : Heap := { h with first := upd h.first x (some hd) }

theorem Good.mark {h : Heap} {own : Nat → Option (Nat × Nat)} {lv n : Nat} {l : List Nat} (hg : Good h own lv n l)
    (x hd : Nat) (hx : own x = none) (o : Option (Nat × Nat)) : Good (h.mark x hd) (upd own x o) lv n l := by
  have hxl : ∀ y ∈ l, y ≠ x := fun y hy e => by have := hg.owned y hy; rw [e, hx] at this; cases this
  refine ⟨hg.nodup, fun y hy => ?_, hg.link, fun y hy => ?_, hg.fidx⟩
  · rw [upd_ne _ _ (hxl y hy)]; exact hg.owned y hy
  · simp only [Heap.mark]; rw [upd_ne _ _ (hxl y hy)]; exact hg.first y hy

theorem Good.snoc {h : Heap} {own : Nat → Option (Nat × Nat)} {lv n : Nat} {l : List Nat} (hg : Good h own lv n l)
    (z x hd : Nat) (hx : own x = none) (hz : l.getLast? = some z) (hhd : l.head? = some hd) (hfr : h.link x = none) :
    Good (h.append z x (l.length % 65536) hd) (upd own x (some (lv, n))) lv n (l ++ [x]) := by
  have hxl : ∀ y ∈ l, y ≠ x := fun y hy e => by have := hg.owned y hy; rw [e, hx] at this; cases this
  have hne : l ≠ [] := by rintro rfl; simp at hz
  have hpos := List.length_pos_iff.2 hne
  have hlast : l[l.length - 1]'(by omega) = z := by
    rw [List.getLast?_eq_getElem?, List.getElem?_eq_getElem (by omega)] at hz
    exact Option.some.inj hz
  have hzx : x ≠ z := fun e => hxl z (by rw [← hlast]; exact List.getElem_mem _) e.symm
  refine ⟨?_, fun y hy => ?_, fun j hj => ?_, fun y hy => ?_, fun j hj => ?_⟩
  · rw [List.nodup_append]
    exact ⟨hg.nodup, by simp, fun a ha b hb => by simp at hb; subst hb; exact hxl a ha⟩
  · rcases List.mem_append.1 hy with hy | hy
    · rw [upd_ne _ _ (hxl y hy)]; exact hg.owned y hy
    · simp at hy; subst hy; simp
  · simp only [List.length_append, List.length_singleton] at hj
    simp only [Heap.append]
    by_cases e : j < l.length
    · rw [List.getElem_append_left e]
      by_cases e2 : j = l.length - 1
      · subst e2
        rw [hlast, upd_same, List.getElem?_append_right (by omega)]
        rw [show l.length - 1 + 1 - l.length = 0 by omega]; rfl
      · have : l[j] ≠ z := by
          rw [← hlast]
          intro e3
          exact e2 ((List.getElem_inj hg.nodup).1 e3)
        rw [upd_ne _ _ this, hg.link j e, List.getElem?_append_left (by omega)]
    · have : j = l.length := by omega
      subst this
      rw [List.getElem_append_right (by omega)]
      simp [hzx, hfr]
  · have hh : (l ++ [x]).head? = some hd := by rw [List.head?_append, hhd]; rfl
    rw [hh]
    simp only [Heap.append]
    rcases List.mem_append.1 hy with hy | hy
    · rw [upd_ne _ _ (hxl y hy), hg.first y hy, hhd]
    · simp at hy; subst hy; simp
  · simp only [List.length_append, List.length_singleton] at hj
    simp only [Heap.append]
    by_cases e : j < l.length
    · rw [List.getElem_append_left e, upd_ne _ _ (hxl _ (List.getElem_mem _))]; exact hg.fidx j e
    · have : j = l.length := by omega
      subst this
      rw [List.getElem_append_right (by omega)]
      simp

/-! ## Every step -/

/-- Functions are entered by `defineFunctionDecl` only, and each once. -/
def Clean (I : Info) (own : Nat → Option (Nat × Nat)) : Op → Prop
  | .define _ x => I.isFunc x = false
  | .forward _ x => I.isFunc x = false
  | .func _ x => I.isFunc x = true ∧ own x = none
  | _ => True

theorem current_ok {I : Info} {E : Env} {f : Spec.Sc} {r : Spec.State} {own : Nat → Option (Nat × Nat)} (h : Inv I E (f :: r) own) :
    ∃ t g, current E = .ok (r.length, t) ∧ E.scopes[r.length]? = some t ∧ RepSc I t f g := by
  obtain ⟨⟨t, g, h1, h2⟩, _⟩ := h.rel
  have hc := h.cur
  simp only [List.length_cons, Nat.add_eq_zero_iff, Nat.one_ne_zero, and_false, if_false, Nat.add_sub_cancel] at hc
  exact ⟨t, g, by simp [current, hc, h1], h1, h2⟩

theorem current_none {I : Info} {E : Env} {own : Nat → Option (Nat × Nat)} (h : Inv I E [] own) : current E = .abort := by
  have hc := h.cur
  simp at hc
  simp [current, hc]

/-- Replacing the table and the map of the innermost scope. -/
theorem Inv.top {I : Info} {E : Env} {f f' : Spec.Sc} {r : Spec.State} {own own' : Nat → Option (Nat × Nat)} (h : Inv I E (f :: r) own)
    (t' : Table Sym) (g' : Nat → Option Sym) (hp : Heap) (hr : RepSc I t' f' g')
    (hg : ∀ n l, f' n = some l → l.head?.any I.isFunc = true → Good hp own' r.length n l)
    (hrest : ∀ lv n l, lv < r.length → Good E.heap own lv n l → Good hp own' lv n l)
    (hfr : ∀ x, own' x = none → hp.link x = none ∧ hp.fidx x = 0) :
    Inv I ⟨E.scopes.set r.length t', E.cur, hp⟩ (f' :: r) own' := by
  obtain ⟨⟨t, g, h1, h2⟩, h3, h4⟩ := h.rel
  have hlt := (List.getElem?_eq_some_iff.1 h1).1
  refine ⟨⟨⟨t', g', ?_, hr⟩, hg, Rel.heap r hrest (Rel.set _ _ r _ (Nat.le_refl _) h4)⟩, h.cur, fun k t hk ht => ?_, by simp; omega, hfr⟩
  · simp only []
    rw [List.getElem?_set_self hlt]
  · simp only [List.length_cons] at hk
    simp only [] at ht
    rw [List.getElem?_set_ne (by omega)] at ht
    exact h.above k t (by simp; omega) ht

theorem set_same {E : Env} {k : Nat} {t : Table Sym} (h : E.scopes[k]? = some t) : (⟨E.scopes.set k t, E.cur, E.heap⟩ : Env) = E := by
  obtain ⟨hl, he⟩ := List.getElem?_eq_some_iff.1 h
  have : E.scopes.set k t = E.scopes := by rw [← he]; exact List.set_getElem_self hl
  rw [this]

/-- `put` with a declaration that is not a function. -/
theorem Inv.put {I : Info} {E : Env} {f : Spec.Sc} {r : Spec.State} {own : Nat → Option (Nat × Nat)} (h : Inv I E (f :: r) own)
    {t' : Table Sym} {g' : Nat → Option Sym} {n x : Nat} (hr : RepSc I t' (Spec.put f n [x]) g') (hx : I.isFunc x = false) :
    Inv I ⟨E.scopes.set r.length t', E.cur, E.heap⟩ (Spec.put f n [x] :: r) own := by
  refine h.top t' g' E.heap hr (fun m l hm hl => ?_) (fun _ _ _ _ => id) h.fresh
  unfold Spec.put at hm
  by_cases e : m = n
  · simp [e] at hm
    subst hm
    simp [hx] at hl
  · simp [e] at hm
    exact h.rel.2.1 m l hm hl

def Agree (I : Info) (a : Out (Seen × Env)) (b : Out (Seen × Spec.State)) (own : Nat → Option (Nat × Nat)) (o : Op) : Prop :=
  (a = .abort ∧ b = .abort) ∨ ∃ s E st own', a = .ok (s, E) ∧ b = .ok (s, st) ∧ Inv I E st own' ∧
    ∀ x, (∀ n, o ≠ .func n x) → own' x = own x

theorem step_agrees (I : Info) (E : Env) (st : Spec.State) (own : Nat → Option (Nat × Nat)) (h : Inv I E st own) (o : Op)
    (ho : Clean I own o) : Agree I (step I E o) (Spec.step I st o) own o := by
  cases o with
  | push =>
    right
    refine ⟨.done, _, _, own, rfl, rfl, ?_, fun _ _ => rfl⟩
    have hc := h.cur
    unfold pushScope
    cases st with
    | nil =>
      simp at hc
      simp only [hc]
      obtain ⟨t, ht⟩ : ∃ t, E.scopes[0]? = some t := ⟨_, List.getElem?_eq_getElem h.some_scope⟩
      refine ⟨⟨⟨t, fun _ => none, ht, h.above 0 t (by simp) ht, by simp, by simp⟩, by simp, trivial⟩, by simp, ?_, h.some_scope, h.fresh⟩
      intro k t hk ht
      exact h.above k t (by simp) ht
    | cons f r =>
      simp at hc
      simp only [hc]
      obtain ⟨⟨t0, g0, h1, h2⟩, h3, h4⟩ := h.rel
      have hlt := (List.getElem?_eq_some_iff.1 h1).1
      split
      · rename_i hk
        obtain ⟨t, ht⟩ : ∃ t, E.scopes[r.length + 1]? = some t := ⟨_, List.getElem?_eq_getElem hk⟩
        refine ⟨⟨⟨t, fun _ => none, ht, h.above _ t (by simp) ht, by simp, by simp⟩, by simp, h.rel⟩, by simp, ?_, h.some_scope, h.fresh⟩
        intro k t hk ht
        simp at hk
        exact h.above k t (by simp; omega) ht
      · rename_i hk
        have hlen : E.scopes.length = r.length + 1 := by omega
        refine ⟨⟨⟨HTable.new Sym, fun _ => none, ?_, new_rep I, by simp, by simp⟩, by simp, Rel.append _ _ _ h.rel⟩, by simp, ?_, by simp, h.fresh⟩
        · simp only [List.length_cons]
          rw [List.getElem?_append_right (by omega), hlen]; simp
        · intro k t hk ht
          simp only [List.length_cons] at hk
          simp only [] at ht
          rw [List.getElem?_append_right (by omega)] at ht
          have := (List.getElem?_eq_some_iff.1 ht).1
          simp at this
          omega
  | pop =>
    cases st with
    | nil =>
      left
      have hc := h.cur
      simp at hc
      exact ⟨by simp [step, popScope, hc], rfl⟩
    | cons f r =>
      right
      have hc := h.cur
      simp at hc
      obtain ⟨⟨t, g, h1, h2⟩, h3, h4⟩ := h.rel
      have hlt := (List.getElem?_eq_some_iff.1 h1).1
      refine ⟨.done, _, _, own, by simp [step, popScope, hc, h1]; rfl, rfl, ?_, fun _ _ => rfl⟩
      refine ⟨Rel.set _ _ r _ (Nat.le_refl _) h4, ?_, ?_, by simp; omega, h.fresh⟩
      · simp only []
        split <;> split <;> simp_all
      · intro k t' hk ht
        simp only [] at ht
        by_cases e : k = r.length
        · subst e
          rw [List.getElem?_set_self hlt] at ht
          cases ht
          exact clear_rep I h2.rep
        · rw [List.getElem?_set_ne (by omega)] at ht
          exact h.above k t' (by simp; omega) ht
  | find n =>
    right
    refine ⟨_, E, st, own, ?_, rfl, h, fun _ _ => rfl⟩
    have hm : depth E = st.length := by
      unfold depth
      rw [h.cur]
      cases st with
      | nil => rfl
      | cons f r => simp
    simp only [step, findSymbol, hm, Rel.lookup n st h.rel, Out.bind_ok]
    cases Spec.lookup st n <;> simp
  | define n x =>
    cases st with
    | nil => left; exact ⟨by simp [step, defineSymbol, current_none h], rfl⟩
    | cons f r =>
      right
      obtain ⟨t, g, hcur, h1, h2⟩ := current_ok h
      simp only [step, defineSymbol, hcur, Out.bind_ok, Spec.step]
      by_cases hig : I.ignored n = true
      · simp only [hig, if_true, Out.bind_ok]
        exact ⟨_, _, _, own, rfl, rfl, h, fun _ _ => rfl⟩
      · simp only [hig, Bool.false_eq_true, if_false]
        obtain ⟨i1, i2⟩ := insert_rep I h2.rep ⟨0, n, x, none⟩
        simp only [] at i1 i2
        cases hf : f n with
        | none =>
          obtain ⟨t', e, hr⟩ := i2 ((h2.none_iff n).2 hf)
          simp only [e, ofH, Out.bind_ok, if_true]
          refine ⟨_, _, _, own, rfl, rfl, ?_, fun _ _ => rfl⟩
          have hx : I.isFunc x = false := ho
          exact h.put (h2.put (l := [x]) hr ⟨rfl, fun hx' => by rw [hx] at hx'; cases hx'⟩) hx
        | some l =>
          have hg : g n ≠ none := fun e => by rw [(h2.none_iff n).1 e] at hf; cases hf
          have hfr := find_rep I h2.rep ⟨0, n, x, none⟩
          simp only [] at hfr
          simp only [i1 hg, ofH, Out.bind_ok, Bool.false_eq_true, if_false, hfr, if_neg hg]
          refine ⟨_, _, _, own, rfl, rfl, ?_, fun _ _ => rfl⟩
          rw [set_same h1]; exact h
  | forward n x =>
    cases st with
    | nil => left; exact ⟨by simp [step, defineForwardDeclarable, current_none h], rfl⟩
    | cons f r =>
      right
      obtain ⟨t, g, hcur, h1, h2⟩ := current_ok h
      simp only [step, defineForwardDeclarable, hcur, Out.bind_ok, Spec.step]
      by_cases hig : I.ignored n = true
      · simp only [hig, if_true, Out.bind_ok]
        exact ⟨_, _, _, own, rfl, rfl, h, fun _ _ => rfl⟩
      · simp only [hig, Bool.false_eq_true, if_false]
        have hx : I.isFunc x = false := ho
        obtain ⟨i1, i2⟩ := insert_rep I h2.rep ⟨0, n, x, none⟩
        simp only [] at i1 i2
        cases hf : f n with
        | none =>
          obtain ⟨t', e, hr⟩ := i2 ((h2.none_iff n).2 hf)
          simp only [e, ofH, Out.bind_ok, if_true]
          refine ⟨_, _, _, own, rfl, rfl, ?_, fun _ _ => rfl⟩
          exact h.put (h2.put (l := [x]) hr ⟨rfl, fun hx' => by rw [hx] at hx'; cases hx'⟩) hx
        | some l =>
          cases hg : g n with
          | none => rw [(h2.none_iff n).1 hg] at hf; cases hf
          | some y =>
            obtain ⟨i, e2, e3, hst⟩ := findIdx_rep I h2.rep ⟨0, n, x, none⟩ y hg
            simp only [] at e2 hst
            have hsf := h2.some_for n y l hg hf
            have hyn := h2.rep.name n y hg
            simp only [i1 (by rw [hg]; simp), ofH, Out.bind_ok, Bool.false_eq_true, if_false, e2, e3, hsf.head, Option.any_some]
            by_cases hw : I.isFwd y.node = true
            · simp only [hw, if_true, Out.bind_ok]
              refine ⟨_, _, _, own, rfl, rfl, ?_, fun _ _ => rfl⟩
              exact h.put (h2.put (l := [x]) (hst { y with node := x } hyn) ⟨rfl, fun hx' => by simp [hx] at hx'⟩) hx
            · simp only [hw, Bool.false_eq_true, if_false, Out.bind_ok]
              refine ⟨_, _, _, own, rfl, rfl, ?_, fun _ _ => rfl⟩
              rw [set_same h1]; exact h
  | func n x =>
    cases st with
    | nil => left; exact ⟨by simp [step, defineFunctionDecl, current_none h], rfl⟩
    | cons f r =>
      right
      obtain ⟨hx, hox⟩ := ho
      obtain ⟨hlx, hix⟩ := h.fresh x hox
      have hpres : ∀ o : Option (Nat × Nat), ∀ y, (∀ m, Op.func n x ≠ .func m y) → upd own x o y = own y := by
        intro o y hy
        by_cases e : y = x
        · subst e; exact absurd rfl (hy n)
        · exact upd_ne _ _ e
      obtain ⟨t, g, hcur, h1, h2⟩ := current_ok h
      simp only [step, defineFunctionDecl, hcur, Out.bind_ok, Spec.step]
      by_cases hig : I.ignored n = true
      · simp only [hig, if_true, Out.bind_ok]
        exact ⟨_, _, _, own, rfl, rfl, h, fun _ _ => rfl⟩
      · simp only [hig, Bool.false_eq_true, if_false]
        obtain ⟨i1, i2⟩ := insert_rep I h2.rep ⟨0, n, x, none⟩
        simp only [] at i1 i2
        cases hf : f n with
        | none =>
          obtain ⟨t', e, hr⟩ := i2 ((h2.none_iff n).2 hf)
          obtain ⟨i, e2, e3, hst⟩ := findIdx_rep I hr ⟨0, n, x, none⟩ ⟨0, n, x, none⟩ (by simp)
          simp only [] at e2 hst
          simp only [e, ofH, Out.bind_ok, e2, e3, Bool.not_true, Bool.false_and, Bool.false_eq_true, if_false]
          refine ⟨_, _, _, upd own x (some (r.length, n)), rfl, rfl, ?_, hpres _⟩
          have hr2 : Rep I (HTable.store t' i ⟨(0 + 1) % 65536, n, x, some x⟩)
              (fun m => if m = n then some ⟨(0 + 1) % 65536, n, x, some x⟩ else g m) := by
            have := hst ⟨(0 + 1) % 65536, n, x, some x⟩ rfl
            have e : (fun m => if m = n then some (⟨(0 + 1) % 65536, n, x, some x⟩ : Sym) else if m = n then some ⟨0, n, x, none⟩ else g m)
                = fun m => if m = n then some ⟨(0 + 1) % 65536, n, x, some x⟩ else g m := by
              funext m; by_cases e : m = n <;> simp [e]
            rw [e] at this
            exact this
          refine h.top _ _ (E.heap.mark x x) (h2.put (l := [x]) hr2 ⟨rfl, fun _ => ⟨rfl, rfl⟩⟩) ?_ ?_ ?_
          · intro m l hm hl
            unfold Spec.put at hm
            by_cases e : m = n
            · simp [e] at hm
              subst hm; subst e
              refine ⟨by simp, by simp, fun j hj => ?_, by simp [Heap.mark], fun j hj => ?_⟩
              · simp at hj; subst hj; simpa [Heap.mark] using hlx
              · simp at hj; subst hj; simpa [Heap.mark] using hix
            · simp [e] at hm
              exact (h.rel.2.1 m l hm hl).mark x x hox _
          · intro lv m l _ hl
            exact hl.mark x x hox _
          · intro y hy
            by_cases e : y = x
            · subst e; simp at hy
            · rw [upd_ne _ _ e] at hy; exact h.fresh y hy
        | some l =>
          cases hg : g n with
          | none => rw [(h2.none_iff n).1 hg] at hf; cases hf
          | some y =>
            obtain ⟨i, e2, e3, hst⟩ := findIdx_rep I h2.rep ⟨0, n, x, none⟩ y hg
            simp only [] at e2 hst
            have hsf := h2.some_for n y l hg hf
            have hyn := h2.rep.name n y hg
            simp only [i1 (by rw [hg]; simp), ofH, Out.bind_ok, e2, e3, hsf.head, Option.any_some, Bool.not_false, Bool.true_and, if_true]
            by_cases hw : I.isFunc y.node = true
            · obtain ⟨hl1, hl2⟩ := hsf.func hw
              have hgood := h.rel.2.1 n l hf (by simp [hsf.head, hw])
              obtain ⟨z, hz⟩ : ∃ z, l.getLast? = some z := by
                cases e : l.getLast? with
                | none => have := hsf.head; rw [List.getLast?_eq_none_iff.1 e] at this; cases this
                | some z => exact ⟨z, rfl⟩
              simp only [hw, Bool.not_true, Bool.false_eq_true, if_false, if_true, hl1, hz, Out.bind_ok]
              refine ⟨_, _, _, upd own x (some (r.length, n)), rfl, rfl, ?_, hpres _⟩
              have hr2 := hst ⟨(y.index + 1) % 65536, y.name, y.node, some x⟩ hyn
              have hlink : Heap.mk (upd E.heap.link z (some x)) (upd E.heap.first x (some y.node)) (upd E.heap.fidx x y.index)
                  = E.heap.append z x (l.length % 65536) y.node := by rw [hl2]; rfl
              rw [hlink]
              have hzo : own z = some (r.length, n) := hgood.owned z (List.mem_of_getLast? hz)
              refine h.top _ _ _ (h2.put (l := l ++ [x]) hr2 ⟨by rw [List.head?_append, hsf.head]; rfl, fun _ => ⟨by simp, ?_⟩⟩) ?_ ?_ ?_
              · simp only [hl2, List.length_append, List.length_singleton]; omega
              · intro m l' hm hl'
                unfold Spec.put at hm
                by_cases e : m = n
                · simp [e] at hm
                  subst hm; subst e
                  exact hgood.snoc z x y.node hox hz hsf.head hlx
                · simp [e] at hm
                  refine (h.rel.2.1 m l' hm hl').other z x _ _ _ hox ?_
                  rw [hzo]; simp; exact fun e' => e e'.symm
              · intro lv m l' hlv hl'
                refine hl'.other z x _ _ _ hox ?_
                rw [hzo]; simp; omega
              · intro w hw'
                by_cases e : w = x
                · subst e; simp at hw'
                · rw [upd_ne _ _ e] at hw'
                  have hwz : w ≠ z := fun e' => by rw [e', hzo] at hw'; cases hw'
                  simp only [Heap.append]
                  rw [upd_ne _ _ hwz, upd_ne _ _ e]; exact h.fresh w hw'
            · simp only [hw, Bool.not_false, if_true, Bool.false_eq_true, if_false, Out.bind_ok]
              refine ⟨_, _, _, upd own x none, rfl, rfl, ?_, hpres _⟩
              have hr2 := hst { y with index := (y.index + 1) % 65536 } hyn
              have hown : upd own x none = own := by
                funext w; by_cases e : w = x
                · subst e; simp [hox]
                · simp [e]
              have hsc : RepSc I (HTable.store t i { y with index := (y.index + 1) % 65536 }) f
                  (fun m => if m = n then some { y with index := (y.index + 1) % 65536 } else g m) := by
                have := h2.put (l := l) hr2 ⟨hsf.head, fun e => absurd e hw⟩
                have e : Spec.put f n l = f := by funext m; by_cases e : m = n <;> simp [Spec.put, e, hf]
                rw [e] at this
                exact this
              refine h.top _ _ (E.heap.mark x y.node) hsc ?_ ?_ ?_
              · intro m l' hm hl'
                exact (h.rel.2.1 m l' hm hl').mark x _ hox _
              · intro lv m l' _ hl'
                exact hl'.mark x _ hox _
              · intro w hw'
                rw [hown] at hw'
                exact h.fresh w hw'

/-! ## Theorems -/

/-- The functions declared in a history. -/
def funcs : List Op → List Nat
  | [] => []
  | .func _ x :: r => x :: funcs r
  | _ :: r => funcs r

/-- Functions are declared by `defineFunctionDecl` and by nothing else. -/
def Separate (I : Info) (ops : List Op) : Prop :=
  (∀ n x, .define n x ∈ ops → I.isFunc x = false) ∧ (∀ n x, .forward n x ∈ ops → I.isFunc x = false) ∧
  ∀ n x, .func n x ∈ ops → I.isFunc x = true

/-- The heap before anything was declared. -/
def blank : Heap := ⟨fun _ => none, fun _ => none, fun _ => 0⟩

theorem run_agrees (I : Info) : ∀ (ops : List Op) (E : Env) (st : Spec.State) (own : Nat → Option (Nat × Nat)), Inv I E st own →
    Separate I ops → (funcs ops).Nodup → (∀ x ∈ funcs ops, own x = none) →
    (run I E ops = .abort ∧ Spec.run I st ops = .abort) ∨
    ∃ ss E' st' own', run I E ops = .ok (ss, E') ∧ Spec.run I st ops = .ok (ss, st') ∧ Inv I E' st' own'
  | [], E, st, own, h, _, _, _ => .inr ⟨[], E, st, own, rfl, rfl, h⟩
  | o :: os, E, st, own, h, ⟨s1, s2, s3⟩, hn, hf => by
    have hclean : Clean I own o := by
      cases o with
      | define n x => exact s1 n x (by simp)
      | forward n x => exact s2 n x (by simp)
      | func n x => exact ⟨s3 n x (by simp), hf x (by simp [funcs])⟩
      | _ => trivial
    rcases step_agrees I E st own h o hclean with ⟨a, b⟩ | ⟨s, E1, st1, own1, a, b, h1, hown⟩
    · left; exact ⟨by simp [run, a], by simp [Spec.run, b]⟩
    · have hsub : (funcs os).Nodup ∧ ∀ x ∈ funcs os, own1 x = none := by
        cases o with
        | func n y =>
          simp only [funcs, List.nodup_cons] at hn
          refine ⟨hn.2, fun x hx => ?_⟩
          rw [hown x (fun m e => by cases e; exact hn.1 hx)]
          exact hf x (by simp [funcs, hx])
        | _ =>
          simp only [funcs] at hn hf
          refine ⟨hn, fun x hx => ?_⟩
          rw [hown x (fun m e => by cases e)]
          exact hf x hx
      rcases run_agrees I os E1 st1 own1 h1
        ⟨fun n x hm => s1 n x (by simp [hm]), fun n x hm => s2 n x (by simp [hm]), fun n x hm => s3 n x (by simp [hm])⟩ hsub.1 hsub.2
        with ⟨c, d⟩ | ⟨ss, E2, st2, own2, c, d, h2⟩
      · left; exact ⟨by simp [run, a, c], by simp [Spec.run, b, d]⟩
      · right; exact ⟨s :: ss, E2, st2, own2, by simp [run, a, c], by simp [Spec.run, b, d], h2⟩

theorem init_inv (I : Info) : Inv I (environmentInit blank) [fun _ => none] (fun _ => none) := by
  refine ⟨⟨⟨HTable.new Sym, fun _ => none, rfl, new_rep I, by simp, by simp⟩, by simp, trivial⟩, rfl, ?_, by simp [environmentInit, pushScope], fun _ _ => ⟨rfl, rfl⟩⟩
  intro k t hk ht
  have := (List.getElem?_eq_some_iff.1 ht).1
  simp [environmentInit, pushScope] at this hk
  omega

/-- **C27 (partial).** For every hash of names and every history of opening and closing scopes, declaring and looking
up, what the client sees is what a stack of maps gives: innermost declaration first, a second declaration in the same
scope rejected, a reopened scope empty, closing with nothing open an assertion failure.  Missing: histories in which a
function was entered by `defineSymbol`, as an import is; see `import_then_declare_undefined`. -/
theorem names_resolve_partial (I : Info) (ops : List Op) (hs : Separate I ops) (hn : (funcs ops).Nodup) :
    (run I (environmentInit blank) ops).bind (fun r => .ok r.1) = (Spec.run I [fun _ => none] ops).bind (fun r => .ok r.1) := by
  rcases run_agrees I ops _ _ _ (init_inv I) hs hn (fun _ _ => rfl) with ⟨a, b⟩ | ⟨ss, E, st, own, a, b, _⟩ <;> simp [a, b]

/-- A hash under which all names collide, `_` is name 0, declarations from 100 up are functions. -/
def demo : Info := ⟨fun _ => 7#32, fun n => n == 0, fun x => decide (100 ≤ x), fun _ => false, fun n => if n = 9 then some 90 else none⟩

example : (run demo (environmentInit blank)
    [.define 1 11, .push, .define 1 12, .define 1 13, .func 2 100, .func 2 101, .find 1, .pop, .find 1, .push, .find 2, .find 9]).bind (fun r => .ok r.1)
    = .ok [.defd .accepted, .done, .defd .accepted, .defd .rejected, .defd .accepted, .defd .accepted, .found (some 12), .done,
      .found (some 11), .done, .found none, .found (some 90)] := by
  rw [names_resolve_partial demo _ (by simp [Separate, demo]; constructor <;> intros <;> omega) (by simp [funcs])]
  rfl

/-- **C82.** Under the same conditions, the compiler's loop over the overloads of a function, started from any of them,
visits exactly the declarations accepted under that name in that scope, in order. -/
theorem overloads_complete_partial (I : Info) (ops : List Op) (hs : Separate I ops) (hn : (funcs ops).Nodup) (ss : List Seen) (E : Env)
    (h : run I (environmentInit blank) ops = .ok (ss, E)) :
    ∃ st, Spec.run I [fun _ => none] ops = .ok (ss, st) ∧
      ∀ s ∈ st, ∀ n l, s n = some l → l.head?.any I.isFunc = true →
        ∀ x ∈ l, ∀ fuel, l.length ≤ fuel → overloads E.heap fuel x = some l := by
  rcases run_agrees I ops _ _ _ (init_inv I) hs hn (fun _ _ => rfl) with ⟨a, _⟩ | ⟨ss', E', st, own, a, b, hi⟩
  · rw [a] at h; cases h
  · rw [a] at h
    cases h
    refine ⟨st, b, fun s hsm n l hl hf x hx fuel hfu => ?_⟩
    have hgood : ∃ lv, Good E.heap own lv n l := by
      have hr := hi.rel
      clear hi b
      induction st with
      | nil => cases hsm
      | cons f r ih =>
        rcases List.mem_cons.1 hsm with e | e
        · subst e; exact ⟨_, hr.2.1 n l hl hf⟩
        · exact ih e hr.2.2
    obtain ⟨lv, hg⟩ := hgood
    have hw : ∀ k j, j + k = l.length → ∀ fuel, k ≤ fuel → walk E.heap fuel l[j]? = some (l.drop j) := by
      intro k
      induction k with
      | zero =>
        intro j hj fuel _
        rw [List.getElem?_eq_none (by omega), List.drop_of_length_le (by omega)]
        cases fuel <;> rfl
      | succ k ih =>
        intro j hj fuel hk
        obtain ⟨f, rfl⟩ : ∃ f, fuel = f + 1 := ⟨fuel - 1, by omega⟩
        have hj' : j < l.length := by omega
        rw [List.getElem?_eq_getElem hj', walk, hg.link j hj', ih (j + 1) (by omega) f (by omega), List.drop_eq_getElem_cons hj']
        rfl
    have hhd : l.head? = some (l[0]'(List.length_pos_of_mem hx)) := by
      rw [List.head?_eq_getElem?, List.getElem?_eq_getElem (List.length_pos_of_mem hx)]
    unfold overloads
    rw [hg.first x hx, hhd, Option.getD_some, ← List.getElem?_eq_getElem]
    simpa using hw l.length 0 (by omega) fuel hfu

example : ∃ E, run demo (environmentInit blank) [.func 1 100, .func 1 101, .func 2 102, .func 1 103] = .ok ([.defd .accepted, .defd .accepted,
    .defd .accepted, .defd .accepted], E) := by
  rcases run_agrees demo [.func 1 100, .func 1 101, .func 2 102, .func 1 103] _ _ _ (init_inv demo) (by simp [Separate, demo]; intros; omega) (by decide)
    (fun _ _ => rfl) with ⟨_, b⟩ | ⟨ss, E, st, own, a, b, _⟩
  · cases b
  · cases b; exact ⟨E, a⟩

/-- **C27 fails** after importing a function: declaring a function of that name follows a null pointer. -/
theorem import_then_declare_undefined (I : Info) (n x y : Nat) (hi : I.ignored n = false) (hx : I.isFunc x = true) :
    run I (environmentInit blank) [.define n x, .func n y] = .ub := by
  obtain ⟨_, i2⟩ := insert_rep I (new_rep I) ⟨0, n, x, none⟩
  obtain ⟨t', e, hr⟩ := i2 rfl
  obtain ⟨j1, _⟩ := insert_rep I hr ⟨0, n, y, none⟩
  obtain ⟨i, f1, f2, _⟩ := findIdx_rep I hr ⟨0, n, y, none⟩ ⟨0, n, x, none⟩ (by simp)
  simp only [] at e j1 f1
  have hins := j1 (by simp)
  simp [run, step, defineSymbol, defineFunctionDecl, current, environmentInit, pushScope, hi, e, ofH, hins, f1, f2, hx]

/-- **C82 fails** when a function also has an alias: here `y`, an overload of name 1 accepted after `x`, is lost once
`z` is declared under the alias, name 2, of `x`. -/
theorem alias_loses_overload : ∃ E, run demo (environmentInit blank) [.func 1 100, .func 2 100, .func 1 101, .func 2 102]
      = .ok ([.defd .accepted, .defd .accepted, .defd .accepted, .defd .accepted], E) ∧
    overloads E.heap 10 100 = some [100, 102] := by
  refine ⟨((run demo (environmentInit blank) [.func 1 100, .func 2 100, .func 1 101, .func 2 102]).getD ([], environmentInit blank)).2, ?_, by decide⟩
  have h := Out.eq_ok (r := run demo (environmentInit blank) [.func 1 100, .func 2 100, .func 1 101, .func 2 102]) ([], environmentInit blank) (by decide)
  have h2 : ((run demo (environmentInit blank) [.func 1 100, .func 2 100, .func 1 101, .func 2 102]).getD ([], environmentInit blank)).1
    = [.defd .accepted, .defd .accepted, .defd .accepted, .defd .accepted] := by decide
  generalize (run demo (environmentInit blank) [.func 1 100, .func 2 100, .func 1 101, .func 2 102]).getD ([], environmentInit blank) = p at h h2 ⊢
  rw [h, ← h2]

/-! ## C83: break and continue -/

/-- There is a loop between here and the innermost function or closure. -/
def InLoop (ks : List Kind) : Prop := ∃ i : Nat, ks[i]? = some Kind.loop ∧ ∀ j < i, ks[j]? ≠ some Kind.func ∧ ks[j]? ≠ some Kind.closure

/-- **C83 (partial).** A `break` inside a loop of its own function is accepted, bound to the innermost such loop.
Missing: that others are rejected. -/
theorem break_in_loop_partial (ks : List Kind) (h : InLoop ks) :
    ∃ i : Nat, findEnclosingLoop ks = some i ∧ ks[i]? = some Kind.loop ∧ ∀ j < i, ks[j]? ≠ some Kind.loop ∧ ks[j]? ≠ some Kind.func ∧ ks[j]? ≠ some Kind.closure := by
  induction ks with
  | nil => obtain ⟨i, hi, _⟩ := h; simp at hi
  | cons k r ih =>
    obtain ⟨i, hi, hb⟩ := h
    cases k with
    | loop => exact ⟨0, rfl, rfl, fun j hj => absurd hj (by omega)⟩
    | _ =>
      cases i with
      | zero => simp at hi
      | succ i =>
        first
        | exact absurd rfl (hb 0 (by omega)).1
        | exact absurd rfl (hb 0 (by omega)).2
        | obtain ⟨i', e, h1, h2⟩ := ih ⟨i, by simpa using hi, fun j hj => by simpa using hb (j + 1) (by omega)⟩
          refine ⟨i' + 1, by simp [findEnclosingLoop, e], by simpa using h1, fun j hj => ?_⟩
          cases j with
          | zero => simp
          | succ j => simpa using h2 j (by omega)

example : InLoop [.other, .loop, .func] := ⟨1, rfl, fun j hj => by have : j = 0 := by omega
                                                                   subst this; decide⟩

/-- **C83 fails** inside every closure written in a loop: its `break` is bound to the loop outside. -/
theorem break_out_of_closure (a b : List Kind) (ha : Kind.loop ∉ a) :
    ¬ InLoop (a ++ Kind.closure :: Kind.loop :: b) ∧ findEnclosingLoop (a ++ Kind.closure :: Kind.loop :: b) = some (a.length + 1) := by
  constructor
  · rintro ⟨i, hi, hb⟩
    rcases Nat.lt_trichotomy i a.length with h | h | h
    · rw [List.getElem?_append_left h] at hi
      exact ha (List.mem_of_getElem? hi)
    · subst h; simp at hi
    · exact (hb a.length h).2 (by simp)
  · induction a with
    | nil => rfl
    | cons k r ih =>
      cases k with
      | loop => simp at ha
      | _ => simp only [List.cons_append, findEnclosingLoop, ih (fun h => ha (List.mem_cons_of_mem _ h))]; simp

end Verif.Scope
