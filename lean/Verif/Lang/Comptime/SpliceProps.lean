import Verif.Lang.Comptime.Splice
/-!
# Loops over array literals generate the wrong calls
-/
namespace Verif.Comptime.Splice

/-- The nodes of a list, linked in order and ended. -/
def Chain (nx : Nat → Option Nat) : List Nat → Prop
  | [] => True
  | [p] => nx p = none
  | p :: q :: l => nx p = some q ∧ Chain nx (q :: l)

theorem upd_self {β : Type} (f : Nat → β) (p : Nat) (b : β) : upd f p b p = b := by simp [upd]

theorem upd_ne {β : Type} (f : Nat → β) {p q : Nat} (b : β) (h : q ≠ p) : upd f p b q = f q := by
  simp [upd, h]

theorem Chain.congr {f g : Nat → Option Nat} : ∀ {l : List Nat}, (∀ p ∈ l, f p = g p) →
    Chain f l → Chain g l
  | [], _, _ => trivial
  | [p], h, hc => by
    simp only [Chain] at hc ⊢
    rw [← h p (by simp)]; exact hc
  | p :: q :: l, h, hc => by
    simp only [Chain] at hc ⊢
    exact ⟨by rw [← h p (by simp)]; exact hc.1,
      Chain.congr (fun r hr => h r (List.mem_cons_of_mem _ hr)) hc.2⟩

theorem Chain.tail {f : Nat → Option Nat} {p : Nat} : ∀ {l : List Nat}, Chain f (p :: l) → Chain f l
  | [], _ => trivial
  | _ :: _, h => h.2

theorem getLast_some {nx : Nat → Option Nat} : ∀ (F p : Nat) (l : List Nat) (z : Nat),
    Chain nx (p :: l) → getLast nx F p = some z → z = (p :: l).getLast (by simp)
  | 0, _, _, _, _, h => by simp [getLast] at h
  | F + 1, p, [], z, hc, h => by
    simp only [Chain] at hc
    simp only [getLast, hc] at h
    simpa using h.symm
  | F + 1, p, q :: l, z, hc, h => by
    simp only [Chain] at hc
    simp only [getLast, hc.1] at h
    rw [getLast_some F q l z hc.2 h]
    simp

theorem getLast_of_chain {nx : Nat → Option Nat} : ∀ (F p : Nat) (l : List Nat),
    Chain nx (p :: l) → l.length < F → getLast nx F p = some ((p :: l).getLast (by simp))
  | 0, _, _, _, h => by simp at h
  | F + 1, p, [], hc, h => by
    simp only [Chain] at hc
    simp [getLast, hc]
  | F + 1, p, q :: l, hc, h => by
    simp only [Chain] at hc
    simp only [getLast, hc.1]
    rw [getLast_of_chain F q l hc.2 (by simpa using h)]
    simp

theorem values_of_chain {h : H} : ∀ (F p : Nat) (l : List Nat),
    Chain h.nx (p :: l) → l.length < F → values h F p = some ((p :: l).map h.val)
  | 0, _, _, _, hl => by simp at hl
  | F + 1, p, [], hc, hl => by
    simp only [Chain] at hc
    simp [values, hc]
  | F + 1, p, q :: l, hc, hl => by
    simp only [Chain] at hc
    simp only [values, hc.1]
    rw [values_of_chain F q l hc.2 (by simpa using hl)]
    simp

theorem Chain.last {nx : Nat → Option Nat} : ∀ {l : List Nat} (hl : l ≠ []), Chain nx l →
    nx (l.getLast hl) = none
  | [p], _, h => h
  | p :: q :: l, _, h => by
    rw [List.getLast_cons (by simp)]
    exact Chain.last (by simp) h.2

/-- Linking a new node, or a whole list, behind the last one. -/
theorem Chain.link {nx : Nat → Option Nat} {k : List Nat} {p : Nat} : ∀ {l : List Nat} (hl : l ≠ []),
    Chain nx l → l.Nodup → Chain nx (p :: k) → l.getLast hl ∉ (p :: k) →
    Chain (upd nx (l.getLast hl) (some p)) (l ++ p :: k)
  | [q], _, _, _, hk, hn => by
    simp only [List.getLast_singleton] at hn ⊢
    refine ⟨upd_self _ _ _, Chain.congr ?_ hk⟩
    intro r hr
    rw [upd_ne]
    intro he; exact hn (he ▸ hr)
  | q :: r :: l, _, hc, hd, hk, hn => by
    rw [List.getLast_cons (by simp)] at hn ⊢
    rw [List.nodup_cons] at hd
    refine ⟨?_, Chain.link (by simp) hc.2 hd.2 hk hn⟩
    have hq : q ≠ (r :: l).getLast (by simp) := by
      intro he
      apply hd.1
      rw [he]
      exact List.getLast_mem _
    rw [upd_ne _ _ hq]
    exact hc.1

/-! ## Adding literals -/

/-- The state of the new argument list: its nodes, all in use, linked in
order. -/
structure Good (s : H × L) (ns : List Nat) : Prop where
  ne : ns ≠ []
  lst : s.2 = some (ns.head ne, ns.getLast ne)
  chain : Chain s.1.nx ns
  nodup : ns.Nodup
  old : ∀ p ∈ ns, p < s.1.fresh

/-- The state before the first argument, or a good one. -/
def Begun (s : H × L) (ns : List Nat) : Prop := (ns = [] ∧ s.2 = none) ∨ Good s ns

/-- The effect of one literal: one more node behind the list, nothing else
changes. -/
theorem addLit_spec {F : Nat} {v : Int} {s : H × L} {ns : List Nat} (hF : 1 < F)
    (hg : Begun s ns) :
    ∃ s', addLit F v s = some s' ∧ Good s' (ns ++ [s.1.fresh]) ∧ s'.1.fresh = s.1.fresh + 1 ∧
      s'.1.val s.1.fresh = v ∧ (∀ q, q ≠ s.1.fresh → s'.1.val q = s.1.val q) ∧
      (∀ q, q ≠ s.1.fresh → (∀ h : ns ≠ [], q ≠ ns.getLast h) → s'.1.nx q = s.1.nx q) ∧
      (∀ h : ns ≠ [], s'.1.nx (ns.getLast h) = some s.1.fresh) ∧ s'.1.nx s.1.fresh = none := by
  obtain ⟨h, l⟩ := s
  rcases hg with ⟨hn, hl⟩ | hg
  · subst hn
    simp only at hl
    subst hl
    have hc : Chain (upd h.nx h.fresh none) [h.fresh] := upd_self _ _ _
    refine ⟨(⟨upd h.nx h.fresh none, upd h.val h.fresh v, h.fresh + 1⟩, some (h.fresh, h.fresh)),
      ?_, ?_, ?_⟩
    · simp only [addLit, insertNode]
      rw [getLast_of_chain F h.fresh [] hc (by simp; omega)]
      rfl
    · refine ⟨by simp, by simp, by simpa using hc, by simp, ?_⟩
      intro p hp
      simp only [List.nil_append, List.mem_singleton] at hp
      simp only [hp]; omega
    · refine ⟨rfl, upd_self _ _ _, fun q hq => upd_ne _ _ hq, fun q hq _ => upd_ne _ _ hq,
        fun hh => absurd rfl hh, upd_self _ _ _⟩
  · have hne := hg.ne
    have hl : l = some (ns.head hne, ns.getLast hne) := hg.lst
    have hzf : ns.getLast hne ≠ h.fresh := by
      have := hg.old _ (List.getLast_mem hne)
      simp only at this; omega
    have hch : Chain (upd h.nx h.fresh none) ns := hg.chain.congr (fun p hp => by
      have := hg.old p hp
      simp only at this
      rw [upd_ne _ _ (by omega)])
    have hl1 : Chain (upd (upd h.nx h.fresh none) (ns.getLast hne) (some h.fresh))
        (ns ++ [h.fresh]) :=
      Chain.link hne hch hg.nodup (k := []) (upd_self _ _ _) (by simpa using hzf)
    have hone : Chain (upd (upd h.nx h.fresh none) (ns.getLast hne) (some h.fresh)) [h.fresh] := by
      show upd (upd h.nx h.fresh none) (ns.getLast hne) (some h.fresh) h.fresh = none
      rw [upd_ne _ _ (fun e => hzf e.symm), upd_self]
    refine ⟨(⟨upd (upd h.nx h.fresh none) (ns.getLast hne) (some h.fresh),
      upd h.val h.fresh v, h.fresh + 1⟩, some (ns.head hne, h.fresh)), ?_, ?_, ?_⟩
    · simp only [addLit, insertNode, hl]
      rw [getLast_of_chain F h.fresh [] hone (by simp; omega)]
      rfl
    · refine ⟨by simp, ?_, hl1, ?_, ?_⟩
      · simp [hne]
      · rw [List.nodup_append]
        refine ⟨hg.nodup, by simp, ?_⟩
        intro a ha b hb
        have := hg.old a ha
        simp only [List.mem_singleton] at hb
        simp only at this
        omega
      · intro p hp
        rw [List.mem_append] at hp
        simp only
        rcases hp with hp | hp
        · have := hg.old p hp
          simp only at this; omega
        · simp only [List.mem_singleton] at hp; omega
    · refine ⟨rfl, upd_self _ _ _, fun q hq => upd_ne _ _ hq, ?_, ?_, ?_⟩
      · intro q hq hq'
        simp only
        rw [upd_ne _ _ (hq' hne), upd_ne _ _ hq]
      · intro _; simp only; rw [upd_self]
      · exact hone

/-- Literals in order: their nodes come behind the list with their values;
other nodes keep theirs.  If the list was begun, its last node is linked to the
first of them; all other links of nodes in use are unchanged. -/
theorem addLits_spec {F : Nat} (hF : 1 < F) : ∀ (vs : List Int) (s : H × L) (ns : List Nat),
    Begun s ns →
    ∃ s' ms, addLits F vs s = some s' ∧ Begun s' (ns ++ ms) ∧ ms.length = vs.length ∧
      s'.1.fresh = s.1.fresh + vs.length ∧ (∀ p ∈ ms, s.1.fresh ≤ p) ∧
      ms.map s'.1.val = vs ∧ (∀ q, q < s.1.fresh → s'.1.val q = s.1.val q) ∧
      (∀ q, q < s.1.fresh → (vs = [] ∨ ∀ h : ns ≠ [], q ≠ ns.getLast h) → s'.1.nx q = s.1.nx q) ∧
      (∀ h : ns ≠ [], ms ≠ [] → Chain s'.1.nx (ns.getLast h :: ms))
  | [], s, ns, hg => by
    refine ⟨s, [], rfl, by simpa using hg, rfl, rfl, by simp, rfl, fun _ _ => rfl,
      fun _ _ _ => rfl, fun _ hm => absurd rfl hm⟩
  | v :: vs, s, ns, hg => by
    obtain ⟨s1, e1, g1, f1, v1, o1, n1, l1, z1⟩ := addLit_spec (v := v) hF hg
    obtain ⟨s2, ms, e2, g2, len2, f2, ge2, v2, o2, n2, c2⟩ :=
      addLits_spec hF vs s1 (ns ++ [s.1.fresh]) (Or.inr g1)
    refine ⟨s2, s.1.fresh :: ms, ?_, ?_, ?_, ?_, ?_, ?_, ?_, ?_, ?_⟩
    · simp only [addLits, e1, Option.bind_some, e2]
    · simpa using g2
    · simp [len2]
    · rw [f2, f1]; simp; omega
    · intro p hp
      rcases List.mem_cons.1 hp with hp | hp
      · omega
      · have := ge2 p hp; omega
    · rw [List.map_cons, v2, o2 _ (by omega), v1]
    · intro q hq
      rw [o2 q (by omega), o1 q (by omega)]
    · intro q hq hl
      have hq' : q ≠ s.1.fresh := by omega
      rcases hl with hl | hl
      · cases hl
      rw [n2 q (by omega) (Or.inr (fun _ => by simpa using hq')), n1 q hq' hl]
    · intro h _
      refine ⟨?_, ?_⟩
      · have hz : ns.getLast h < s.1.fresh := by
          rcases hg with ⟨hn, _⟩ | hg
          · exact absurd hn h
          · exact hg.old _ (List.getLast_mem h)
        rw [n2 _ (by omega) (Or.inr (fun _ => by simp; omega)), l1 h]
      · by_cases hm : ms = []
        · subst hm
          show s2.1.nx s.1.fresh = none
          have hvs : vs = [] := by simpa using len2.symm
          rw [n2 _ (by omega) (Or.inl hvs), z1]
        · have := c2 (by simp) hm
          simpa using this

/-! ## The argument `#{x}` -/

theorem addUse_spec {F e : Nat} {s : H × L} {ns l : List Nat} (hF : l.length < F)
    (hg : Begun s ns) (hc : Chain s.1.nx (e :: l)) (hd : (e :: l).Nodup)
    (ho : ∀ p ∈ e :: l, p < s.1.fresh) (hdis : ∀ p ∈ ns, p ∉ e :: l) :
    ∃ s', addUse F e s = some s' ∧ Good s' (ns ++ s.1.fresh :: l) ∧ s'.1.fresh = s.1.fresh + 1 ∧
      s'.1.val s.1.fresh = s.1.val e ∧ (∀ q, q ≠ s.1.fresh → s'.1.val q = s.1.val q) ∧
      Chain s'.1.nx (e :: l) := by
  obtain ⟨h, a⟩ := s
  simp only at hc ho ⊢
  have hfe : ∀ p ∈ e :: l, p ≠ h.fresh := fun p hp => by have := ho p hp; omega
  -- the copy heads the same chain
  have hcopy : Chain (upd h.nx h.fresh (h.nx e)) (h.fresh :: l) := by
    cases l with
    | nil => simp only [Chain] at hc ⊢; rw [upd_self]; exact hc
    | cons q l =>
      refine ⟨by rw [upd_self]; exact hc.1, hc.2.congr (fun p hp => ?_)⟩
      rw [upd_ne _ _ (hfe p (List.mem_cons_of_mem _ hp))]
  have hlast := hcopy.last (by simp)
  have hsame : upd (upd h.nx h.fresh (h.nx e)) ((h.fresh :: l).getLast (by simp)) none =
      upd h.nx h.fresh (h.nx e) := by
    funext q
    by_cases hq : q = (h.fresh :: l).getLast (by simp)
    · rw [hq, upd_self, hlast]
    · rw [upd_ne _ _ hq]
  have hcold : Chain (upd h.nx h.fresh (h.nx e)) (e :: l) := hc.congr (fun p hp => by
    rw [upd_ne _ _ (hfe p hp)])
  have hdl : (h.fresh :: l).Nodup := by
    rw [List.nodup_cons] at hd ⊢
    exact ⟨fun hm => hfe _ (List.mem_cons_of_mem _ hm) rfl, hd.2⟩
  have hol : ∀ p ∈ h.fresh :: l, p < h.fresh + 1 := by
    intro p hp
    rcases List.mem_cons.1 hp with hp | hp
    · omega
    · have := ho p (List.mem_cons_of_mem _ hp); omega
  rcases hg with ⟨hn, hl⟩ | hg
  · subst hn
    simp only at hl
    subst hl
    refine ⟨(⟨upd h.nx h.fresh (h.nx e), upd h.val h.fresh (h.val e), h.fresh + 1⟩,
      some (h.fresh, (h.fresh :: l).getLast (by simp))), ?_, ?_, rfl, upd_self _ _ _,
      fun q hq => upd_ne _ _ hq, hcold⟩
    · simp only [addUse, insertNode]
      rw [getLast_of_chain F h.fresh l hcopy hF]
      simp only [Option.bind_some, hsame]
      rw [getLast_of_chain F h.fresh l hcopy hF]
      rfl
    · exact ⟨by simp, rfl, hcopy, hdl, hol⟩
  · have hne := hg.ne
    have hl : a = some (ns.head hne, ns.getLast hne) := hg.lst
    have hof : ∀ p ∈ ns, p ≠ h.fresh := fun p hp => by
      have := hg.old p hp
      simp only at this; omega
    have hzl : ns.getLast hne ∉ h.fresh :: l := by
      intro hm
      rcases List.mem_cons.1 hm with hm | hm
      · exact hof _ (List.getLast_mem hne) hm
      · exact hdis _ (List.getLast_mem hne) (List.mem_cons_of_mem _ hm)
    have hch : Chain (upd h.nx h.fresh (h.nx e)) ns := hg.chain.congr (fun p hp => by
      rw [upd_ne _ _ (hof p hp)])
    have hlink := Chain.link hne hch hg.nodup hcopy hzl
    have htail : Chain (upd (upd h.nx h.fresh (h.nx e)) (ns.getLast hne) (some h.fresh))
        (h.fresh :: l) := hcopy.congr (fun p hp =>
      (upd_ne _ _ (fun (he : p = ns.getLast hne) => hzl (he ▸ hp))).symm)
    refine ⟨(⟨upd (upd h.nx h.fresh (h.nx e)) (ns.getLast hne) (some h.fresh),
      upd h.val h.fresh (h.val e), h.fresh + 1⟩,
      some (ns.head hne, (h.fresh :: l).getLast (by simp))), ?_, ?_, rfl, upd_self _ _ _,
      fun q hq => upd_ne _ _ hq, ?_⟩
    · simp only [addUse, insertNode, hl]
      rw [getLast_of_chain F h.fresh l hcopy hF]
      simp only [Option.bind_some, hsame]
      rw [getLast_of_chain F h.fresh l htail hF]
      rfl
    · refine ⟨by simp, ?_, hlink, ?_, ?_⟩
      · simp [hne]
      · rw [List.nodup_append]
        refine ⟨hg.nodup, hdl, ?_⟩
        intro p hp q hq he
        subst he
        rcases List.mem_cons.1 hq with hq | hq
        · exact hof p hp hq
        · exact hdis p hp (List.mem_cons_of_mem _ hq)
      · intro p hp
        rw [List.mem_append] at hp
        rcases hp with hp | hp
        · have := hg.old p hp
          simp only at this ⊢; omega
        · exact hol p hp
    · exact hcold.congr (fun p hp =>
        (upd_ne _ _ (fun (he : p = ns.getLast hne) =>
          hdis _ (List.getLast_mem hne) (he ▸ hp))).symm)

/-! ## One call -/

/-- A chain whose last node is linked on. -/
theorem Chain.extend {f g : Nat → Option Nat} {ms : List Nat} : ∀ {l : List Nat} (hl : l ≠ []),
    Chain f l → l.Nodup → (∀ q ∈ l, q ≠ l.getLast hl → g q = f q) →
    Chain g (l.getLast hl :: ms) → Chain g (l ++ ms)
  | [p], _, _, _, _, hm => hm
  | p :: q :: l, _, hc, hd, he, hm => by
    rw [List.nodup_cons] at hd
    have hpq : p ≠ (p :: q :: l).getLast (by simp) := by
      rw [List.getLast_cons (by simp)]
      intro h
      apply hd.1
      rw [h]
      exact List.getLast_mem _
    refine ⟨?_, Chain.extend (by simp) hc.2 hd.2 ?_ ?_⟩
    · rw [he p (by simp) hpq]; exact hc.1
    · intro r hr hne
      refine he r (List.mem_cons_of_mem _ hr) ?_
      rw [List.getLast_cons (by simp)]
      exact hne
    · rw [List.getLast_cons (by simp)] at hm
      exact hm

theorem call_spec {F e : Nat} {h : H} {l : List Nat} (as bs : List Int) (hF : l.length + 1 < F)
    (hc : Chain h.nx (e :: l)) (hd : (e :: l).Nodup) (ho : ∀ p ∈ e :: l, p < h.fresh) :
    ∃ r ns ms, call F as bs e h = some r ∧ Good r ns ∧
      ns.length = as.length + 1 + l.length + bs.length ∧
      ns.map r.1.val = as ++ (e :: l).map h.val ++ bs ∧
      (∀ q, q < h.fresh → r.1.val q = h.val q) ∧ ms.length = bs.length ∧
      (l = [] ∨ bs = [] → Chain r.1.nx (e :: l)) ∧
      (l ≠ [] → Chain r.1.nx (e :: l ++ ms)) ∧ (e :: l ++ ms).Nodup ∧
      (∀ p ∈ e :: l ++ ms, p < r.1.fresh) := by
  obtain ⟨s1, m1, e1, g1, len1, f1, ge1, v1, o1, n1, -⟩ :=
    addLits_spec (F := F) (by omega) as (h, none) [] (Or.inl ⟨rfl, rfl⟩)
  simp only [List.nil_append] at g1
  simp only at f1 ge1 o1 n1
  have hc1 : Chain s1.1.nx (e :: l) := hc.congr (fun p hp =>
    (n1 p (ho p hp) (Or.inr (fun hh => absurd rfl hh))).symm)
  obtain ⟨s2, e2, g2, f2, v2, o2, c2⟩ := addUse_spec (F := F) (e := e) (l := l) (by omega) g1 hc1 hd
    (fun p hp => by have := ho p hp; omega)
    (fun p hp hm => by have := ge1 p hp; have := ho p hm; omega)
  obtain ⟨s3, m3, e3, g3, len3, f3, ge3, v3, o3, n3, c3⟩ :=
    addLits_spec (F := F) (by omega) bs s2 _ (Or.inr g2)
  have hg3 : Good s3 (m1 ++ s1.1.fresh :: l ++ m3) := by
    rcases g3 with ⟨hn, _⟩ | hg
    · simp at hn
    · exact hg
  have hel : ∀ p ∈ e :: l, p < s1.1.fresh := fun p hp => by have := ho p hp; omega
  refine ⟨s3, _, m3, ?_, hg3, ?_, ?_, ?_, len3, ?_, ?_, ?_, ?_⟩
  · simp only [call, e1, Option.bind_some, e2, e3]
  · simp only [List.length_append, List.length_cons, len1, len3]; omega
  · rw [List.map_append, v3, List.map_append, List.map_cons, List.map_cons]
    congr 1
    congr 1
    · rw [← v1]
      apply List.map_congr_left
      intro p hp
      have hp1 : p < s1.1.fresh := by
        rcases g1 with ⟨hn, _⟩ | hg
        · rw [hn] at hp; simp at hp
        · exact hg.old p hp
      rw [o3 p (by omega), o2 p (by omega)]
    · congr 1
      · rw [o3 _ (by omega), v2, o1 e (ho e (by simp))]
      · apply List.map_congr_left
        intro p hp
        have := ho p (List.mem_cons_of_mem _ hp)
        rw [o3 p (by omega), o2 p (by omega), o1 p this]
  · intro q hq
    rw [o3 q (by omega), o2 q (by omega), o1 q hq]
  · rintro (hl | hb)
    · subst hl
      refine c2.congr (fun p hp => ?_)
      have hp1 := hel p hp
      rw [n3 p (by omega) (Or.inr (fun _ => by simp; omega))]
    · exact c2.congr (fun p hp => by
        have := hel p hp
        rw [n3 p (by omega) (Or.inl hb)])
  · intro hl
    have hz : (m1 ++ s1.1.fresh :: l).getLast (by simp) = (e :: l).getLast (by simp) := by
      simp [List.getLast_cons, hl]
    by_cases hm : m3 = []
    · have hb : bs = [] := by rw [hm] at len3; simpa using len3.symm
      rw [hm, List.append_nil]
      exact c2.congr (fun p hp => by
        have := hel p hp
        rw [n3 p (by omega) (Or.inl hb)])
    · refine Chain.extend (f := s2.1.nx) (by simp) c2 hd ?_ ?_
      · intro q hq hne
        have := hel q hq
        exact n3 q (by omega) (Or.inr (fun _ => by rw [hz]; exact hne))
      · have := c3 (by simp) hm
        rw [hz] at this
        exact this
  · rw [List.nodup_append]
    refine ⟨hd, ?_, ?_⟩
    · have := hg3.nodup
      rw [List.nodup_append] at this
      exact this.2.1
    · intro p hp q hq hpq
      have := hel p hp
      have := ge3 q hq
      omega
  · intro p hp
    rw [List.mem_append] at hp
    rcases hp with hp | hp
    · have := hel p hp; omega
    · exact hg3.old p (by simp [hp])

/-! ## More fuel changes nothing -/

theorem getLast_mono {nx : Nat → Option Nat} {z : Nat} : ∀ (F G p : Nat), F ≤ G →
    getLast nx F p = some z → getLast nx G p = some z
  | 0, _, _, _, h => by simp [getLast] at h
  | F + 1, 0, _, hle, _ => by omega
  | F + 1, G + 1, p, hle, h => by
    simp only [getLast] at h ⊢
    cases hp : nx p with
    | none => simpa [hp] using h
    | some q =>
      simp only [hp] at h ⊢
      exact getLast_mono F G q (by omega) h

theorem insertNode_mono {F G : Nat} (hle : F ≤ G) {h : H} {l : L} {p : Nat} {r : H × L}
    (hr : insertNode F h l p = some r) : insertNode G h l p = some r := by
  cases l with
  | none =>
    simp only [insertNode, Option.map_eq_some_iff] at hr ⊢
    obtain ⟨z, hz, he⟩ := hr
    exact ⟨z, getLast_mono F G p hle hz, he⟩
  | some q =>
    simp only [insertNode, Option.map_eq_some_iff] at hr ⊢
    obtain ⟨z, hz, he⟩ := hr
    exact ⟨z, getLast_mono F G p hle hz, he⟩

theorem addLits_mono {F G : Nat} (hle : F ≤ G) : ∀ (vs : List Int) (s r : H × L),
    addLits F vs s = some r → addLits G vs s = some r
  | [], _, _, h => h
  | v :: vs, s, r, h => by
    simp only [addLits, Option.bind_eq_some_iff] at h ⊢
    obtain ⟨t, ht, h⟩ := h
    exact ⟨t, insertNode_mono hle ht, addLits_mono hle vs t r h⟩

theorem addUse_mono {F G : Nat} (hle : F ≤ G) {e : Nat} {s r : H × L}
    (h : addUse F e s = some r) : addUse G e s = some r := by
  simp only [addUse, Option.bind_eq_some_iff] at h ⊢
  obtain ⟨z, hz, h⟩ := h
  exact ⟨z, getLast_mono F G _ hle hz, insertNode_mono hle h⟩

theorem call_mono {F G : Nat} (hle : F ≤ G) {as bs : List Int} {e : Nat} {h : H} {r : H × L}
    (hr : call F as bs e h = some r) : call G as bs e h = some r := by
  simp only [call, Option.bind_eq_some_iff] at hr ⊢
  obtain ⟨t, ⟨u, hu, ht⟩, hr⟩ := hr
  exact ⟨t, ⟨u, addLits_mono hle as _ u hu, addUse_mono hle ht⟩, addLits_mono hle bs t r hr⟩

/-! ## The whole loop -/

theorem arr_chain (els : List Int) : ∀ (m k : Nat), k + m = els.length →
    Chain (arr els).nx (List.range' k m)
  | 0, _, _ => trivial
  | 1, k, h => by
    show (arr els).nx k = none
    simp only [arr]
    rw [if_neg (by omega)]
  | m + 2, k, h => by
    refine ⟨?_, arr_chain els (m + 1) (k + 1) (by omega)⟩
    simp only [arr]
    rw [if_pos (by omega)]

theorem arr_vals (els : List Int) : (List.range' 0 els.length).map (arr els).val = els := by
  apply List.ext_getElem
  · simp
  · intro i h1 h2
    simp [arr, h2]

/-- The non-empty ends of a list. -/
def suffixes {α : Type} : List α → List (List α)
  | [] => []
  | x :: xs => (x :: xs) :: suffixes xs

theorem values_of_good {F : Nat} {r : H × L} {ns : List Nat} (hg : Good r ns)
    (hF : ns.length ≤ F) : ∃ f z, r.2 = some (f, z) ∧ values r.1 F f = some (ns.map r.1.val) := by
  have hne := hg.ne
  refine ⟨ns.head hne, ns.getLast hne, hg.lst, ?_⟩
  cases ns with
  | nil => exact absurd rfl hne
  | cons p l => exact values_of_chain F p l hg.chain (by simp at hF; omega)

theorem unroll_last {F : Nat} (as : List Int) : ∀ (l : List Nat) (e n : Nat) (h : H),
    Chain h.nx (e :: l) → (e :: l).Nodup → (∀ p ∈ e :: l, p < h.fresh) →
    as.length + l.length + 1 < F → l.length < n →
    unroll F as [] n (some e) h = some ((suffixes ((e :: l).map h.val)).map (as ++ ·))
  | _, _, 0, _, _, _, _, _, hn => by simp at hn
  | l, e, n + 1, h, hc, hd, ho, hF, hn => by
    obtain ⟨r, ns, ms, hcall, hg, hlen, hval, hv, hml, hc1, -, -, hlt⟩ :=
      call_spec (F := F) as [] (by omega) hc hd ho
    have hms : ms = [] := by simpa using hml
    subst hms
    obtain ⟨f, z, hr2, hvs⟩ := values_of_good (F := F) hg (by simp at hlen; omega)
    have hc' := hc1 (Or.inr rfl)
    simp only [unroll, hcall, Option.bind_some, hr2, hvs]
    rw [hval, List.append_nil]
    cases l with
    | nil =>
      have hnx : r.1.nx e = none := hc'
      rw [hnx]
      simp [unroll, suffixes]
    | cons q l =>
      have hnx : r.1.nx e = some q := hc'.1
      rw [hnx, unroll_last as l q n r.1 hc'.2 (List.nodup_cons.1 hd).2
        (fun p hp => hlt p (by simp only [List.append_nil]; exact List.mem_cons_of_mem _ hp))
        (by simp at hF; omega) (by simp at hn; omega)]
      have hmap : (q :: l).map r.1.val = (q :: l).map h.val :=
        List.map_congr_left (fun p hp => hv p (ho p (List.mem_cons_of_mem _ hp)))
      rw [hmap]
      simp [suffixes]

theorem unroll_never {as bs : List Int} (hb : bs ≠ []) (F : Nat) : ∀ (n e q : Nat) (l : List Nat)
    (h : H), Chain h.nx (e :: q :: l) → (e :: q :: l).Nodup → (∀ p ∈ e :: q :: l, p < h.fresh) →
    unroll F as bs n (some e) h = none
  | 0, _, _, _, _, _, _, _ => rfl
  | n + 1, e, q, l, h, hc, hd, ho => by
    simp only [unroll]
    cases hr : call F as bs e h with
    | none => rfl
    | some r =>
      obtain ⟨r', ns, ms, hcall, hg, -, -, -, hml, -, hc1, hnd, hlt⟩ :=
        call_spec (F := F + (q :: l).length + 2) as bs (by omega) hc hd ho
      have hrr : r' = r := by
        have := call_mono (G := F + (q :: l).length + 2) (by omega) hr
        rw [hcall] at this
        exact Option.some.inj this
      subst hrr
      have hc2 := hc1 (by simp)
      obtain ⟨b, ms', rfl⟩ : ∃ b ms', ms = b :: ms' := by
        cases ms with
        | nil => exact absurd (by simpa using hml.symm) hb
        | cons b ms' => exact ⟨b, ms', rfl⟩
      have hnx : r'.1.nx e = some q := by
        have := hc2
        simp only [List.cons_append] at this
        exact this.1
      -- what is left has at least two nodes again
      obtain ⟨q', l', hl'⟩ : ∃ q' l', l ++ b :: ms' = q' :: l' := by
        cases l with
        | nil => exact ⟨_, _, rfl⟩
        | cons x l => exact ⟨_, _, rfl⟩
      simp only [List.cons_append, hl'] at hc2 hnd hlt
      have hnext := unroll_never (as := as) hb F n q q' l' r'.1 hc2.tail (List.nodup_cons.1 hnd).2
        (fun p hp => hlt p (List.mem_cons_of_mem _ hp))
      simp only [Option.bind_some, hnx, hnext]
      cases r'.2 with
      | none => rfl
      | some fz =>
        obtain ⟨f, z⟩ := fz
        simp only
        cases values r'.1 F f <;> rfl

/-! ## The theorems -/

/-- With `#{x}` as the last argument, the call of a round is given the element
of that round *and all elements behind it*. -/
theorem last_argument_gets_all_later_elements (as els : List Int) (F n : Nat)
    (hF : as.length + els.length + 1 < F) (hn : els.length ≤ n) :
    generate F n as [] els = some ((suffixes els).map (as ++ ·)) := by
  cases els with
  | nil => simp [generate, unroll, suffixes]
  | cons v vs =>
    have hr : List.range' 0 (v :: vs).length = 0 :: List.range' 1 vs.length := by
      simp [List.range'_succ]
    have hc := arr_chain (v :: vs) (v :: vs).length 0 (by omega)
    have hv := arr_vals (v :: vs)
    rw [hr] at hc hv
    have hd : (0 :: List.range' 1 vs.length).Nodup := by rw [← hr]; exact List.nodup_range'
    have ho : ∀ p ∈ 0 :: List.range' 1 vs.length, p < (arr (v :: vs)).fresh := by
      intro p hp
      rw [← hr, List.mem_range'] at hp
      obtain ⟨i, hi, hp⟩ := hp
      simp only [arr]
      omega
    have := unroll_last (F := F) as (List.range' 1 vs.length) 0 n (arr (v :: vs)) hc hd ho
      (by simp at hF ⊢; omega) (by simp at hn ⊢; omega)
    rw [hv] at this
    simpa [generate] using this

example : generate 10 3 [7] [] [1, 2, 3] = some [[7, 1, 2, 3], [7, 2, 3], [7, 3]] :=
  last_argument_gets_all_later_elements [7] [1, 2, 3] 10 3 (by decide) (by decide)

/-- With an argument behind `#{x}` and at least two elements, the compiler
never gets to the end of the loop: every round links its further arguments
behind the elements still to come. -/
theorem argument_behind_never_ends (as bs : List Int) (v w : Int) (vs : List Int) (hb : bs ≠ [])
    (F n : Nat) : generate F n as bs (v :: w :: vs) = none := by
  have hr : List.range' 0 (v :: w :: vs).length = 0 :: 1 :: List.range' 2 vs.length := by
    simp [List.range'_succ]
  have hc := arr_chain (v :: w :: vs) (v :: w :: vs).length 0 (by omega)
  rw [hr] at hc
  have hd : (0 :: 1 :: List.range' 2 vs.length).Nodup := by rw [← hr]; exact List.nodup_range'
  have ho : ∀ p ∈ 0 :: 1 :: List.range' 2 vs.length, p < (arr (v :: w :: vs)).fresh := by
    intro p hp
    rw [← hr, List.mem_range'] at hp
    obtain ⟨i, hi, hp⟩ := hp
    simp only [arr]
    omega
  simpa [generate] using unroll_never hb F n 0 1 _ (arr (v :: w :: vs)) hc hd ho

example : ∀ F n, generate F n [7] [9] [1, 2, 3] = none :=
  fun F n => argument_behind_never_ends [7] [9] 1 2 [3] (by simp) F n

/-- The calls that should be generated: one per element, with that element in
the place of `#{x}`. -/
def wanted (as bs els : List Int) : List (List Int) := els.map (fun v => as ++ [v] ++ bs)

/-- The generated calls are the wanted ones exactly for arrays of at most one
element. -/
theorem array_loop_right_iff (as bs els : List Int) (F n : Nat)
    (hF : as.length + els.length + bs.length + 1 < F) (hn : els.length ≤ n) :
    generate F n as bs els = some (wanted as bs els) ↔ els.length ≤ 1 := by
  match els, hF, hn with
  | [], _, _ => simp [generate, unroll, wanted]
  | [v], hF, hn =>
    simp only [List.length_singleton, Nat.le_refl, iff_true]
    have hc : Chain (arr [v]).nx [0] := arr_chain [v] 1 0 (by simp)
    obtain ⟨r, ns, ms, hcall, hg, hlen, hval, -, -, hc1, -⟩ :=
      call_spec (F := F) (l := []) as bs (by simp at hF ⊢; omega) hc (by simp) (by simp [arr])
    obtain ⟨f, z, hr2, hvs⟩ := values_of_good (F := F) hg (by simp at hlen hF; omega)
    obtain ⟨m, rfl⟩ : ∃ m, n = m + 1 := ⟨n - 1, by simp at hn; omega⟩
    have hnx : r.1.nx 0 = none := hc1 (Or.inl rfl)
    simp only [generate, List.cons_ne_nil, if_false, unroll, hcall, Option.bind_some, hr2, hvs,
      hnx, hval]
    simp [wanted, arr]
  | v :: w :: vs, hF, hn =>
    simp only [List.length_cons]
    refine ⟨fun h => ?_, fun h => by omega⟩
    by_cases hb : bs = []
    · subst hb
      rw [last_argument_gets_all_later_elements as _ F n (by simpa using hF) hn] at h
      simp [wanted, suffixes] at h
    · rw [argument_behind_never_ends as bs v w vs hb] at h
      cases h

example : generate 20 1 [7] [9] [5] = some [[7, 5, 9]] :=
  (array_loop_right_iff [7] [9] [5] 20 1 (by decide) (by decide)).2 (by decide)

end Verif.Comptime.Splice
