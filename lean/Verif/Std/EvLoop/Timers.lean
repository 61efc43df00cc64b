import Verif.Std.EvLoop.Model
/-!
# The list of timers
-/
namespace Verif.EvLoop

@[simp] theorem set_same {α : Type} (f : Node → α) (n : Node) (v : α) : set f n v n = v := by simp [set]
@[simp] theorem set_other {α : Type} (f : Node → α) {n m : Node} (v : α) (h : m ≠ n) : set f n v m = f m := by simp [set, h]

/-- The records of `l` are linked in both directions, in this order, from the head of the list. -/
structure Rep (s : Loop) (l : List Node) : Prop where
  head : s.head = l.head?
  nodup : l.Nodup
  links : ∀ a n b, l = a ++ n :: b → s.prev n = a.getLast? ∧ s.next n = b.head?
  alive : ∀ n ∈ l, s.freed n = false

theorem Rep.congr {s t : Loop} {l : List Node} (h : Rep s l) (h1 : t.head = s.head) (h2 : t.prev = s.prev) (h3 : t.next = s.next)
    (h4 : ∀ n ∈ l, t.freed n = s.freed n) : Rep t l :=
  ⟨by rw [h1]; exact h.head, h.nodup, fun a n b e => by rw [h2, h3]; exact h.links a n b e, fun n hn => by rw [h4 n hn]; exact h.alive n hn⟩

theorem split_cons {n x : Node} {l a b : List Node} (h : n :: l = a ++ x :: b) :
    a = [] ∧ n = x ∧ l = b ∨ ∃ a', a = n :: a' ∧ l = a' ++ x :: b := by
  cases a with
  | nil => simp at h; exact Or.inl ⟨rfl, h⟩
  | cons y a' => simp at h; exact Or.inr ⟨a', by rw [h.1], h.2⟩

/-- The list after `add`, with the links back `pv`. -/
abbrev added (s : Loop) (n : Node) (now : Int) (ms : Nat) (pv : Node → Option Node) : Loop :=
  { s with
    tid := set s.tid n s.nextId
    nextId := s.nextId + 1
    due := set s.due n (after now ms)
    next := set s.next n s.head
    head := some n
    prev := pv }

theorem add_rep {s : Loop} {l : List Node} (h : Rep s l) (n : Node) (hn : n ∉ l) (hf : s.freed n = false) (now : Int) (ms : Nat) :
    ∃ pv, add s n now ms = .ok (added s n now ms pv) ∧ Rep (added s n now ms pv) (n :: l) := by
  cases l with
  | nil =>
    have hh : s.head = none := h.head
    refine ⟨set s.prev n none, by simp [add, hh], ⟨rfl, by simp, ?_, ?_⟩⟩
    · intro a x b e
      rcases split_cons e with ⟨rfl, rfl, rfl⟩ | ⟨a', rfl, e2⟩
      · simp [hh]
      · simp at e2
    · intro x hx; simp at hx; subst hx; exact hf
  | cons y l =>
    have hh : s.head = some y := h.head
    have hy : s.freed y = false := h.alive y (by simp)
    have hyn : y ≠ n := fun e => hn (by simp [e])
    refine ⟨set (set s.prev n none) y (some n), by simp [add, hh, hy], ⟨rfl, List.nodup_cons.2 ⟨hn, h.nodup⟩, ?_, ?_⟩⟩
    · intro a x b e
      rcases split_cons e with ⟨rfl, rfl, rfl⟩ | ⟨a', rfl, e2⟩
      · have : n ≠ y := fun e => hyn e.symm
        simp [hh, this]
      · have hx : x ≠ n := fun e' => hn (by rw [e2, e']; simp)
        have hl := h.links _ _ _ e2
        simp only [set_other _ _ hx]
        refine ⟨?_, hl.2⟩
        cases a' with
        | nil => simp at e2; simp [← e2.1]
        | cons z a'' =>
          simp at e2
          have hxy : x ≠ y := by
            intro e'
            have := h.nodup
            rw [e2.2] at this
            rw [e'] at this
            simp at this
          rw [set_other _ _ hxy, set_other _ _ hx, hl.1]
          simp [List.getLast?_cons]
    · intro x hx
      simp at hx
      rcases hx with rfl | hx
      · exact hf
      · exact h.alive x (by simpa using hx)

theorem unlink_rep {s : Loop} {a b : List Node} {n : Node} (h : Rep s (a ++ n :: b)) :
    ∃ hd nx pv, unlink s n = .ok { s with head := hd, next := nx, prev := pv } ∧ nx n = b.head? ∧
      Rep { s with head := hd, next := nx, prev := pv } (a ++ b) := by
  have hl := h.links a n b rfl
  have hnd := h.nodup
  rw [List.nodup_append] at hnd
  obtain ⟨hna, hnb, hab⟩ := hnd
  have hnb' := List.nodup_cons.1 hnb
  have hnn : n ∉ a := fun hx => hab n hx n (by simp) rfl
  have hdis : ∀ x ∈ a, x ∉ b := fun x hx hb => hab x hx x (by simp [hb]) rfl
  have hnd2 : (a ++ b).Nodup := List.nodup_append.2 ⟨hna, hnb'.2, fun x hx y hy e => hab x hx y (by simp [hy]) e⟩
  -- what is to be shown of the new links
  have key : ∀ hd nx pv, hd = (a ++ b).head? →
      (∀ x, nx x = if a.getLast? = some x then b.head? else s.next x) →
      (∀ x, pv x = if b.head? = some x then a.getLast? else s.prev x) →
      nx n = b.head? ∧ Rep { s with head := hd, next := nx, prev := pv } (a ++ b) := by
    intro hd nx pv h1 h2 h3
    refine ⟨?_, h1, hnd2, ?_, fun x hx => h.alive x (by
      rcases List.mem_append.1 hx with hx | hx <;> simp [hx])⟩
    · rw [h2, hl.2]
      split
      · rfl
      · rfl
    · intro a' x b' e
      simp only [h2, h3]
      rcases List.append_eq_append_iff.1 e with ⟨c, e1, e2⟩ | ⟨c, e1, e2⟩
      · -- x in b
        cases c with
        | nil =>
          simp at e1 e2
          subst e1
          have := h.links (a' ++ [n]) x b' (by simp [e2])
          rw [e2] at *
          have hxa : a'.getLast? ≠ some x := fun e' => hdis x (List.mem_of_getLast? e') (by simp)
          simp [hxa, this.2]
        | cons y c =>
          have hb : b = y :: c ++ x :: b' := e2
          have := h.links (a ++ n :: y :: c) x b' (by simp [hb])
          have hxa : a.getLast? ≠ some x := fun e' => hdis x (List.mem_of_getLast? e') (by simp [hb])
          have hxy : y ≠ x := by
            intro e'
            have := hnb'.2
            rw [hb, e'] at this
            simp at this
          subst e1
          simp [hxa, hb, hxy, this.2]
          rw [this.1]
          simp [List.getLast?_append, List.getLast?_cons]
      · -- x in a
        cases c with
        | nil =>
          simp at e1 e2
          subst e1
          subst e2
          have := h.links (a ++ [n]) x b' (by simp)
          have hxa : a.getLast? ≠ some x := fun e' => hdis x (List.mem_of_getLast? e') (by simp)
          simp [hxa, this.2]
        | cons y c =>
          simp at e2
          obtain ⟨rfl, rfl⟩ := e2
          have := h.links a' x (c ++ n :: b) (by simp [e1])
          have hxb : b.head? ≠ some x := fun e' => hdis x (by simp [e1]) (List.mem_of_head? e')
          rw [if_neg hxb, this.1]
          refine ⟨rfl, ?_⟩
          cases c with
          | nil => simp [e1]
          | cons z c =>
            have hlast : a.getLast? ≠ some x := by
              intro e'
              rw [e1] at e' hna
              rw [List.getLast?_append] at e'
              simp [List.getLast?_cons] at e'
              have hm : x ∈ z :: c := by
                cases hc : c.getLast? with
                | none => rw [hc] at e'; simp at e'; simp [e']
                | some w => rw [hc] at e'; simp at e'; subst e'; exact List.mem_cons_of_mem _ (List.mem_of_getLast? hc)
              have := (List.nodup_append.1 hna).2.1
              exact (List.nodup_cons.1 this).1 hm
            rw [if_neg hlast, this.2]
            simp
  have alive : ∀ x, a.getLast? = some x → s.freed x = false := fun x e => h.alive x (by simp [List.mem_of_getLast? e])
  have alive' : ∀ x, b.head? = some x → s.freed x = false := fun x e => h.alive x (by simp [List.mem_of_head? e])
  have hset : ∀ (f : Node → Option Node) (p : Node) (v : Option Node) (x : Node), set f p v x = if some p = some x then v else f x := by
    intro f p v x
    by_cases e : x = p
    · subst e; simp
    · have : ¬ p = x := fun h => e h.symm
      simp [set, e, this]
  cases hp : a.getLast? with
  | none =>
    have ha : a = [] := by simpa using hp
    cases hq : b.head? with
    | none =>
      have hb : b = [] := by simpa using hq
      refine ⟨none, s.next, s.prev, by simp [unlink, hl.1, hl.2, hp, hq], ?_⟩
      rw [← hq]
      exact key _ _ _ (by simp [ha, hb]) (by intro x; simp [hp]) (by intro x; simp [hq])
    | some q =>
      refine ⟨some q, s.next, set s.prev q none, by simp [unlink, hl.1, hl.2, hp, hq, alive' q hq], ?_⟩
      rw [← hq]
      exact key _ _ _ (by simp [ha]) (by intro x; simp [hp]) (by intro x; rw [hset, hq, hp])
  | some p =>
    have hh : (a ++ b).head? = s.head := by
      rw [h.head]
      cases a with
      | nil => simp at hp
      | cons y a => simp
    cases hq : b.head? with
    | none =>
      refine ⟨s.head, set s.next p none, s.prev, by simp [unlink, hl.1, hl.2, hp, hq, alive p hp], ?_⟩
      rw [← hq]
      exact key _ _ _ hh.symm (by intro x; rw [hset, hp, hq]) (by intro x; simp [hq])
    | some q =>
      refine ⟨s.head, set s.next p (some q), set s.prev q (some p), by simp [unlink, hl.1, hl.2, hp, hq, alive p hp, alive' q hq], ?_⟩
      rw [← hq]
      exact key _ _ _ hh.symm (by intro x; rw [hset, hp, hq]) (by intro x; rw [hset, hq, hp])

/-! ## One pass -/

theorem flatMap_congr' {α β : Type} {f g : α → List β} : ∀ {l : List α}, (∀ a ∈ l, f a = g a) → l.flatMap f = l.flatMap g
  | [], _ => rfl
  | a :: l, h => by
    rw [List.flatMap_cons, List.flatMap_cons, h a (by simp), flatMap_congr' fun b hb => h b (by simp [hb])]

def Node.isFd : Node → Bool
  | .fd _ => true
  | .heap _ => false

/-- The timer is live and due. -/
def fires (clk : Nat → Int) (s : Loop) (n : Node) : Bool := decide (s.tid n ≠ -1) && isDue (clk (s.client n)) (s.due n)

/-- The timer is taken out of the list in this pass. -/
def gone (clk : Nat → Int) (s : Loop) (n : Node) : Bool := decide (s.tid n = -1) || (fires clk s n && n.isFd)

def woken (clk : Nat → Int) (s : Loop) (n : Node) : List (Nat × Int) :=
  if fires clk s n then
    match n with
    | .heap _ => [(s.client n, s.tid n)]
    | .fd d => if (s.mask d).r || (s.mask d).w then [(s.client n, timedOut)] else []
  else []

structure Passed (clk : Nat → Int) (s : Loop) (rest : List Node) (s' : Loop) : Prop where
  tid : ∀ m, s'.tid m = if m ∈ rest ∧ fires clk s m = true ∧ m.isFd = false then -1 else s.tid m
  due : ∀ m, s'.due m = if m ∈ rest ∧ fires clk s m = true ∧ m.isFd = true then ⟨0, 0⟩ else s.due m
  mask : ∀ d, s'.mask d = if Node.fd d ∈ rest ∧ fires clk s (.fd d) = true then .none else s.mask d
  freed : ∀ m, s'.freed m = (s.freed m || decide (m ∈ rest ∧ s.tid m = -1))
  client : s'.client = s.client
  nextId : s'.nextId = s.nextId
  nextHeap : s'.nextHeap = s.nextHeap
  last : s'.last = s.last

theorem pass_rep (maxId : Int) (clk : Nat → Int) : ∀ (rest kept : List Node) (s : Loop) (f : Nat), Rep s (kept ++ rest) →
    (∀ n ∈ rest, s.tid n ≤ maxId) → rest.length ≤ f →
    ∃ s', pass maxId clk f s rest.head? = .ok (s', rest.flatMap (woken clk s)) ∧
      Rep s' (kept ++ rest.filter fun n => !gone clk s n) ∧ Passed clk s rest s' := by
  intro rest
  induction rest with
  | nil =>
    intro kept s f h _ _
    refine ⟨s, by unfold pass; rfl, by simpa using h, ⟨?_, ?_, ?_, ?_, rfl, rfl, rfl, rfl⟩⟩ <;> simp
  | cons n rest ih =>
    intro kept s f h hid hf
    cases f with
    | zero => simp at hf
    | succ f =>
      have hf' : rest.length ≤ f := by simpa using hf
      have hn : s.freed n = false := h.alive n (by simp)
      have hnext : s.next n = rest.head? := (h.links kept n rest rfl).2
      have hnd := (List.nodup_append.1 h.nodup).2.1
      have hnr : n ∉ rest := (List.nodup_cons.1 hnd).1
      have hne : ∀ m ∈ rest, m ≠ n := fun m hm e => hnr (e ▸ hm)
      have hid' : ∀ m ∈ rest, s.tid m ≤ maxId := fun m hm => hid m (by simp [hm])
      have hidn : ¬ s.tid n > maxId := by have := hid n (by simp); omega
      rw [List.head?_cons]
      unfold pass
      simp only [hn, Bool.false_eq_true, if_false]
      by_cases hdead : s.tid n = -1
      · -- a deleted timer
        obtain ⟨hd, nx, pv, e, _, hr⟩ := unlink_rep h
        have hr1 : Rep { s with head := hd, next := nx, prev := pv, freed := set s.freed n true } (kept ++ rest) := by
          refine hr.congr rfl rfl rfl ?_
          intro m hm
          have : m ≠ n := by
            intro e'
            subst e'
            simp at hm
            rcases hm with hm | hm
            · exact (List.nodup_append.1 h.nodup).2.2 m hm m (by simp) rfl
            · exact hnr hm
          simp [this]
        obtain ⟨s', e2, hr2, hp⟩ := ih kept _ f hr1 hid' hf'
        refine ⟨s', ?_, ?_, ?_⟩
        · rw [if_pos hdead, e]
          simp only [Res.bind_ok, hnext]
          rw [e2]
          have : woken clk s n = [] := by simp [woken, fires, hdead]
          rw [List.flatMap_cons, this, List.nil_append]
          rfl
        · have : (fun n => !gone clk s n) n = false := by simp [gone, hdead]
          rw [List.filter_cons_of_neg (by simp [gone, hdead])]
          exact hr2
        · refine ⟨?_, ?_, ?_, ?_, hp.client, hp.nextId, hp.nextHeap, hp.last⟩
          · intro m
            rw [hp.tid]
            by_cases hm : m = n
            · subst hm; simp [hnr, hdead]
            · simp [hm]; rfl
          · intro m
            rw [hp.due]
            by_cases hm : m = n
            · subst hm; simp [hnr, fires, hdead]
            · simp [hm]; rfl
          · intro d
            rw [hp.mask]
            by_cases hm : Node.fd d = n
            · subst hm; simp [hnr, fires, hdead]
            · simp [hm]; rfl
          · intro m
            rw [hp.freed]
            by_cases hm : m = n
            · subst hm; simp [hdead]
            · simp [hm]
      · rw [if_neg hdead, if_neg hidn]
        by_cases hdue : isDue (clk (s.client n)) (s.due n) = true
        · have hfire : fires clk s n = true := by simp [fires, hdead, hdue]
          rw [if_pos hdue]
          cases n with
          | heap k =>
            simp only []
            have hr1 : Rep { s with tid := set s.tid (.heap k) (-1) } ((kept ++ [.heap k]) ++ rest) := by
              rw [List.append_assoc]
              exact h.congr rfl rfl rfl (fun _ _ => rfl)
            obtain ⟨s', e2, hr2, hp⟩ := ih (kept ++ [.heap k]) _ f hr1
              (by intro m hm; simp only [set_other _ _ (hne m hm)]; exact hid' m hm) hf'
            have hfi : ∀ m ∈ rest, fires clk { s with tid := set s.tid (.heap k) (-1) } m = fires clk s m := by
              intro m hm; simp only [fires, set_other _ _ (hne m hm)]
            refine ⟨s', ?_, ?_, ?_⟩
            · rw [hnext, e2]
              simp only [Res.map_ok, List.flatMap_cons]
              have hw : woken clk s (.heap k) = [(s.client (.heap k), s.tid (.heap k))] := by simp [woken, hfire]
              rw [hw]
              have : rest.flatMap (woken clk { s with tid := set s.tid (.heap k) (-1) }) = rest.flatMap (woken clk s) := by
                refine flatMap_congr' (fun m hm => ?_)
                unfold woken
                rw [hfi m hm]
                cases m with
                | fd d => rfl
                | heap j => simp only [set_other _ _ (hne _ hm)]
              rw [this]
              rfl
            · rw [List.filter_cons_of_pos (by simp [gone, hdead, Node.isFd])]
              have : rest.filter (fun m => !gone clk { s with tid := set s.tid (.heap k) (-1) } m) = rest.filter (fun m => !gone clk s m) := by
                refine List.filter_congr (fun m hm => ?_)
                unfold gone
                rw [hfi m hm]
                simp only [set_other _ _ (hne m hm)]
              rw [this, List.append_assoc] at hr2
              exact hr2
            · refine ⟨?_, ?_, ?_, ?_, hp.client, hp.nextId, hp.nextHeap, hp.last⟩
              · intro m
                rw [hp.tid]
                by_cases hm : m = .heap k
                · subst hm; simp [hnr, hfire, Node.isFd]
                · by_cases hmr : m ∈ rest
                  · simp [hm, hfi m hmr]
                  · simp [hm, hmr]
              · intro m
                rw [hp.due]
                by_cases hm : m = .heap k
                · subst hm; simp [hnr, Node.isFd]
                · by_cases hmr : m ∈ rest
                  · simp [hm, hfi m hmr]
                  · simp [hm, hmr]
              · intro d
                rw [hp.mask]
                by_cases hmr : .fd d ∈ rest
                · simp [hfi _ hmr]
                · simp [hmr]
              · intro m
                rw [hp.freed]
                by_cases hm : m = .heap k
                · subst hm; simp [hnr, hdead]
                · simp [hm]
          | fd d =>
            simp only []
            obtain ⟨hd, nx, pv, e, hnx, hr⟩ := unlink_rep h
            rw [e]
            simp only [Res.bind_ok, hnx]
            have hr1 : Rep { s with head := hd, next := nx, prev := pv, due := set s.due (.fd d) ⟨0, 0⟩, mask := upd s.mask d .none }
                (kept ++ rest) := hr.congr rfl rfl rfl (fun _ _ => rfl)
            obtain ⟨s', e2, hr2, hp⟩ := ih kept _ f hr1 hid' hf'
            have hfi : ∀ m ∈ rest, fires clk { s with head := hd, next := nx, prev := pv, due := set s.due (.fd d) ⟨0, 0⟩, mask := upd s.mask d .none } m = fires clk s m := by
              intro m hm; simp only [fires, set_other _ _ (hne m hm)]
            refine ⟨s', ?_, ?_, ?_⟩
            · rw [e2]
              simp only [Res.map_ok, List.flatMap_cons]
              have hw : woken clk s (.fd d) = if (s.mask d).r || (s.mask d).w then [(s.client (.fd d), timedOut)] else [] := by simp [woken, hfire]
              rw [hw]
              have : rest.flatMap (woken clk { s with head := hd, next := nx, prev := pv, due := set s.due (.fd d) ⟨0, 0⟩, mask := upd s.mask d .none }) = rest.flatMap (woken clk s) := by
                refine flatMap_congr' (fun m hm => ?_)
                unfold woken
                rw [hfi m hm]
                cases m with
                | fd j =>
                  have : j ≠ d := fun e => hne _ hm (by rw [e])
                  simp only [upd_ne _ _ this]
                | heap j => rfl
              rw [this]
            · rw [List.filter_cons_of_neg (by simp [gone, hfire, Node.isFd])]
              have : rest.filter (fun m => !gone clk { s with head := hd, next := nx, prev := pv, due := set s.due (.fd d) ⟨0, 0⟩, mask := upd s.mask d .none } m) = rest.filter (fun m => !gone clk s m) := by
                refine List.filter_congr (fun m hm => ?_)
                unfold gone
                rw [hfi m hm]
              rw [this] at hr2
              exact hr2
            · refine ⟨?_, ?_, ?_, ?_, hp.client, hp.nextId, hp.nextHeap, hp.last⟩
              · intro m
                rw [hp.tid]
                by_cases hm : m = .fd d
                · subst hm; simp [hnr, Node.isFd]
                · by_cases hmr : m ∈ rest
                  · simp [hm, hfi m hmr]
                  · simp [hm, hmr]
              · intro m
                rw [hp.due]
                by_cases hm : m = .fd d
                · subst hm; simp [hnr, hfire, Node.isFd]
                · by_cases hmr : m ∈ rest
                  · simp [hm, hfi m hmr]
                  · simp [hm, hmr]
              · intro j
                rw [hp.mask]
                by_cases hj : j = d
                · subst hj; simp [hnr, hfire]
                · by_cases hmr : .fd j ∈ rest
                  · simp [hj, hfi _ hmr]
                  · simp [hj, hmr]
              · intro m
                rw [hp.freed]
                by_cases hm : m = .fd d
                · subst hm; simp [hnr, hdead]
                · simp [hm]
        · have hfire : fires clk s n = false := by simp [fires, hdue]
          rw [if_neg hdue, hnext]
          have hr1 : Rep s ((kept ++ [n]) ++ rest) := by rw [List.append_assoc]; exact h
          obtain ⟨s', e2, hr2, hp⟩ := ih (kept ++ [n]) s f hr1 hid' hf'
          refine ⟨s', ?_, ?_, ?_⟩
          · rw [e2, List.flatMap_cons]
            simp [woken, hfire]
          · rw [List.filter_cons_of_pos (by simp [gone, hdead, hfire])]
            rw [List.append_assoc] at hr2
            exact hr2
          · refine ⟨?_, ?_, ?_, ?_, hp.client, hp.nextId, hp.nextHeap, hp.last⟩
            · intro m
              rw [hp.tid]
              by_cases hm : m = n
              · subst hm; simp [hnr, hfire]
              · simp [hm]
            · intro m
              rw [hp.due]
              by_cases hm : m = n
              · subst hm; simp [hnr, hfire]
              · simp [hm]
            · intro d
              rw [hp.mask]
              by_cases hm : Node.fd d = n
              · subst hm; simp [hnr, hfire]
              · simp [hm]
            · intro m
              rw [hp.freed]
              by_cases hm : m = n
              · subst hm; simp [hnr, hdead]
              · simp [hm]

end Verif.EvLoop
