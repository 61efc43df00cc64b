import Verif.Lang.Unreach.Model
/-!
# What is dropped is never reached, and which functions give a result
-/
namespace Verif.Unreach

/-! ## What a program does

An execution is looked at up to any point of it, so that programs that do not end are covered. Conditions can be true or false and
loops can go round any number of times. -/

/-- How a statement ends; `cut` is an execution that is looked at no further. -/
inductive End where
  | next
  | brk
  | cont
  | ret (t : Nat)
  | raise (t : Nat)
  | cut
  deriving DecidableEq

mutual
/-- The numbers of the expressions a statement comes to, and how it ends. -/
inductive Runs : Stmt → List Nat → End → Prop where
  | cut (s : Stmt) : Runs s [] .cut
  | expr (n : Nat) : Runs (.expr n) [n] .next
  | decl (n : Nat) : Runs (.decl n) [n] .next
  | ret (t : Nat) : Runs (.ret t) [] (.ret t)
  | raise (t : Nat) : Runs (.raise t) [] (.raise t)
  | brk : Runs .brk [] .brk
  | cont : Runs .cont [] .cont
  | block {b : Block} {tr : List Nat} {o : End} (h : RunsB b tr o) : Runs (.block b) tr o
  | whenTrue {t : Block} {tr : List Nat} {o : End} (h : RunsB t tr o) : Runs (.when t) tr o
  | whenFalse (t : Block) : Runs (.when t) [] .next
  | iteTrue {t : Block} (e : Block) {tr : List Nat} {o : End} (h : RunsB t tr o) : Runs (.ite t e) tr o
  | iteFalse (t : Block) {e : Block} {tr : List Nat} {o : End} (h : RunsB e tr o) : Runs (.ite t e) tr o
  | loopEnd (b : Block) : Runs (.loop b) [] .next
  | loopBrk {b : Block} {tr : List Nat} (h : RunsB b tr .brk) : Runs (.loop b) tr .next
  | loopOut {b : Block} {tr : List Nat} {o : End} (h : RunsB b tr o) (ho : o ≠ .next ∧ o ≠ .brk ∧ o ≠ .cont) :
      Runs (.loop b) tr o
  | loopNext {b : Block} {tr tr' : List Nat} {o o' : End} (h : RunsB b tr o) (ho : o = .next ∨ o = .cont)
      (h' : Runs (.loop b) tr' o') : Runs (.loop b) (tr ++ tr') o'
  | switch (d : Bool) {cs : Cases} {tr : List Nat} {o : End} (h : RunsC cs tr o) : Runs (.switch d cs) tr o
  | switchNone (cs : Cases) : Runs (.switch false cs) [] .next
  | «match» (d : Bool) {cs : Cases} {tr : List Nat} {o : End} (h : RunsC cs tr o) : Runs (.match d cs) tr o
  | matchNone (cs : Cases) : Runs (.match false cs) [] .next

inductive RunsB : Block → List Nat → End → Prop where
  | nil : RunsB .nil [] .next
  | next {s : Stmt} {b : Block} {tr tr' : List Nat} {o : End} (h : Runs s tr .next) (h' : RunsB b tr' o) :
      RunsB (.cons s b) (tr ++ tr') o
  | out {s : Stmt} (b : Block) {tr : List Nat} {o : End} (h : Runs s tr o) (ho : o ≠ .next) : RunsB (.cons s b) tr o

/-- One of the cases. -/
inductive RunsC : Cases → List Nat → End → Prop where
  | here {b : Block} (cs : Cases) {tr : List Nat} {o : End} (h : RunsB b tr o) : RunsC (.cons b cs) tr o
  | there (b : Block) {cs : Cases} {tr : List Nat} {o : End} (h : RunsC cs tr o) : RunsC (.cons b cs) tr o
end

/-! ## `returnState` is right -/

theorem checkC_false : ∀ cs : Cases, (checkC cs false).2 = false
  | .nil => rfl
  | .cons b cs => by
    show (checkC cs (false && (checkB b false).2)).2 = false
    rw [Bool.false_and]
    exact checkC_false cs

mutual
theorem check_stops : ∀ (s : Stmt) (r : Bool), (check s r).2 = true → r = true ∨ ∀ tr, ¬ Runs s tr .next
  | .expr _, r, h => .inl h
  | .decl _, r, h => .inl h
  | .ret _, _, _ => .inr fun tr h => by cases h
  | .raise _, r, h => .inl h
  | .brk, r, h => .inl h
  | .cont, r, h => .inl h
  | .block b, r, h => by
    rcases checkB_stops b r h with h | h
    · exact .inl h
    · exact .inr fun tr hr => by cases hr with | block hb => exact h tr hb
  | .when t, r, h => by
    have h' : ((checkB t false).2 && r) = true := h
    exact .inl (by simp at h'; exact h'.2)
  | .ite t e, r, h => by
    have h' : ((checkB t false).2 && (checkB e false).2) = true := h
    simp only [Bool.and_eq_true] at h'
    refine .inr fun tr hr => ?_
    cases hr with
    | iteTrue _ ht => exact (checkB_stops t false h'.1).resolve_left (by simp) tr ht
    | iteFalse _ he => exact (checkB_stops e false h'.2).resolve_left (by simp) tr he
  | .loop b, r, h => .inl h
  | .switch d cs, r, h => by
    have h' : (checkC cs false).2 = true := h
    rw [checkC_false] at h'
    cases h'
  | .match d cs, r, h => by
    have h' : ((checkC cs false).2 || r) = true := h
    rw [checkC_false, Bool.false_or] at h'
    exact .inl h'

theorem checkB_stops : ∀ (b : Block) (r : Bool), (checkB b r).2 = true → r = true ∨ ∀ tr, ¬ RunsB b tr .next
  | .nil, r, h => .inl h
  | .cons s b, r, h => by
    rcases hs : (check s r).2 with _ | _
    · have h' : (checkB b false).2 = true := by
        simp only [checkB, hs, Bool.false_and] at h
        exact h
      refine .inr fun tr hr => ?_
      cases hr with
      | next h1 h2 => exact (checkB_stops b false h').resolve_left (by simp) _ h2
      | out _ _ ho => exact ho rfl
    · rcases check_stops s r hs with h1 | h1
      · exact .inl h1
      · refine .inr fun tr hr => ?_
        cases hr with
        | next h2 _ => exact h1 _ h2
        | out _ _ ho => exact ho rfl
end

/-! ## What is kept behaves like what is written -/

theorem loop_mono {b b' : Block} (hb : ∀ tr o, RunsB b tr o → RunsB b' tr o) {s : Stmt} {tr : List Nat} {o : End} (h : Runs s tr o) :
    s = .loop b → Runs (.loop b') tr o := by
  refine Runs.rec (motive_1 := fun s tr o _ => s = .loop b → Runs (.loop b') tr o) (motive_2 := fun _ _ _ _ => True)
    (motive_3 := fun _ _ _ _ => True) ?_ ?_ ?_ ?_ ?_ ?_ ?_ ?_ ?_ ?_ ?_ ?_ ?_ ?_ ?_ ?_ ?_ ?_ ?_ ?_ ?_ ?_ ?_ ?_ ?_ h
  case refine_1 => intro _ _; exact .cut _
  case refine_13 => intro _ _; exact .loopEnd _
  case refine_14 => intro b0 tr h _ e; cases e; exact .loopBrk (hb _ _ h)
  case refine_15 => intro b0 tr o h ho _ e; cases e; exact .loopOut (hb _ _ h) ho
  case refine_16 => intro b0 tr tr' o o' h ho _ _ ih e; cases e; exact .loopNext (hb _ _ h) ho (ih rfl)
  all_goals intros
  all_goals first | trivial | (simp at *)

mutual
theorem check_same : ∀ (s : Stmt) (tr : List Nat) (o : End), Runs (check s false).1 tr o ↔ Runs s tr o
  | .expr _, _, _ => Iff.rfl
  | .decl _, _, _ => Iff.rfl
  | .ret _, _, _ => Iff.rfl
  | .raise _, _, _ => Iff.rfl
  | .brk, _, _ => Iff.rfl
  | .cont, _, _ => Iff.rfl
  | .block b, tr, o => by
    show Runs (.block (checkB b false).1) tr o ↔ _
    have ih := checkB_same b
    constructor <;> intro h <;> cases h
    · exact .cut _
    · next h => exact .block ((ih _ _).1 h)
    · exact .cut _
    · next h => exact .block ((ih _ _).2 h)
  | .when t, tr, o => by
    show Runs (.when (checkB t false).1) tr o ↔ _
    have ih := checkB_same t
    constructor <;> intro h <;> cases h
    · exact .cut _
    · next h => exact .whenTrue ((ih _ _).1 h)
    · exact .whenFalse _
    · exact .cut _
    · next h => exact .whenTrue ((ih _ _).2 h)
    · exact .whenFalse _
  | .ite t e, tr, o => by
    show Runs (.ite (checkB t false).1 (checkB e false).1) tr o ↔ _
    have ih := checkB_same t
    have ih' := checkB_same e
    constructor <;> intro h <;> cases h
    · exact .cut _
    · next h => exact .iteTrue _ ((ih _ _).1 h)
    · next h => exact .iteFalse _ ((ih' _ _).1 h)
    · exact .cut _
    · next h => exact .iteTrue _ ((ih _ _).2 h)
    · next h => exact .iteFalse _ ((ih' _ _).2 h)
  | .loop b, tr, o => by
    show Runs (.loop (checkB b false).1) tr o ↔ _
    have ih := checkB_same b
    exact ⟨fun h => loop_mono (fun tr o => (ih tr o).1) h rfl, fun h => loop_mono (fun tr o => (ih tr o).2) h rfl⟩
  | .switch d cs, tr, o => by
    show Runs (.switch d (checkC cs false).1) tr o ↔ _
    have ih := checkC_same cs false
    constructor <;> intro h <;> cases h
    · exact .cut _
    · next h => exact .switch _ ((ih _ _).1 h)
    · exact .switchNone _
    · exact .cut _
    · next h => exact .switch _ ((ih _ _).2 h)
    · exact .switchNone _
  | .match d cs, tr, o => by
    show Runs (.match d (checkC cs false).1) tr o ↔ _
    have ih := checkC_same cs false
    constructor <;> intro h <;> cases h
    · exact .cut _
    · next h => exact .match _ ((ih _ _).1 h)
    · exact .matchNone _
    · exact .cut _
    · next h => exact .match _ ((ih _ _).2 h)
    · exact .matchNone _

theorem checkB_same : ∀ (b : Block) (tr : List Nat) (o : End), RunsB (checkB b false).1 tr o ↔ RunsB b tr o
  | .nil, _, _ => Iff.rfl
  | .cons s b, tr, o => by
    have ih := check_same s
    rcases hs : (check s false).2 with _ | _
    · have he : (checkB (.cons s b) false).1 = .cons (check s false).1 (checkB b false).1 := by
        simp only [checkB, hs, Bool.false_and]; rfl
      have ih' := checkB_same b
      rw [he]
      constructor <;> intro h <;> cases h
      · next h1 h2 => exact .next ((ih _ _).1 h1) ((ih' _ _).1 h2)
      · exact .out _ ((ih _ _).1 (by assumption)) (by assumption)
      · next h1 h2 => exact .next ((ih _ _).2 h1) ((ih' _ _).2 h2)
      · exact .out _ ((ih _ _).2 (by assumption)) (by assumption)
    · have hn := (check_stops s false hs).resolve_left (by simp)
      have he : ∃ b', (checkB (.cons s b) false).1 = .cons (check s false).1 b' := by
        simp only [checkB]; split <;> exact ⟨_, rfl⟩
      obtain ⟨b', he⟩ := he
      rw [he]
      constructor <;> intro h <;> cases h
      · next h1 _ => exact absurd ((ih _ _).1 h1) (hn _)
      · exact .out _ ((ih _ _).1 (by assumption)) (by assumption)
      · next h1 _ => exact absurd h1 (hn _)
      · exact .out _ ((ih _ _).2 (by assumption)) (by assumption)

theorem checkC_same : ∀ (cs : Cases) (acc : Bool) (tr : List Nat) (o : End), RunsC (checkC cs acc).1 tr o ↔ RunsC cs tr o
  | .nil, _, _, _ => Iff.rfl
  | .cons b cs, acc, tr, o => by
    show RunsC (.cons (checkB b false).1 (checkC cs (acc && (checkB b false).2)).1) tr o ↔ _
    have ih := checkB_same b
    have ih' := checkC_same cs (acc && (checkB b false).2)
    constructor <;> intro h <;> cases h
    · next h => exact .here _ ((ih _ _).1 h)
    · next h => exact .there _ ((ih' _ _).1 h)
    · next h => exact .here _ ((ih _ _).2 h)
    · next h => exact .there _ ((ih' _ _).2 h)
end

/-- **C239** Dropping code as unreachable changes nothing: in a function that returns nothing or a value, what the back end gets can do
exactly what was written, up to every point of every execution. -/
theorem dropped_never_runs (res : Result) (hr : ∀ e t, res ≠ .voidResult e t) (b : Block) (tr : List Nat) (o : End) :
    RunsB (body res b) tr o ↔ RunsB b tr o := by
  have : body res b = (checkB b false).1 := by
    unfold body
    rcases checkB b false with ⟨b', r⟩
    cases res with
    | void => rfl
    | value _ => rfl
    | voidResult e t => exact absurd rfl (hr e t)
  rw [this]
  exact checkB_same b tr o

theorem snoc_runs (s : Stmt) : ∀ (b : Block) (tr : List Nat) (o : End), RunsB (b.snoc s) tr o ↔
    (o ≠ .next ∧ RunsB b tr o) ∨ ∃ t1 t2, tr = t1 ++ t2 ∧ RunsB b t1 .next ∧ Runs s t2 o
  | .nil, tr, o => by
    constructor
    · intro h
      cases h with
      | next h1 h2 => cases h2; exact .inr ⟨[], _, by simp, .nil, h1⟩
      | out _ h ho => exact .inr ⟨[], tr, rfl, .nil, h⟩
    · rintro (⟨ho, h⟩ | ⟨t1, t2, rfl, h1, h2⟩)
      · cases h; exact absurd rfl ho
      · cases h1
        by_cases ho : o = .next
        · subst ho
          have := RunsB.next h2 .nil
          simpa [Block.snoc] using this
        · exact .out _ h2 ho
  | .cons a b, tr, o => by
    have ih := snoc_runs s b
    constructor
    · intro h
      cases h with
      | next h1 h2 =>
        rcases (ih _ _).1 h2 with ⟨ho, h⟩ | ⟨t1, t2, rfl, h3, h4⟩
        · exact .inl ⟨ho, .next h1 h⟩
        · exact .inr ⟨_ ++ t1, t2, by simp, .next h1 h3, h4⟩
      | out _ h ho => exact .inl ⟨ho, .out _ h ho⟩
    · rintro (⟨ho, h⟩ | ⟨t1, t2, rfl, h1, h2⟩)
      · cases h with
        | next h1 h2 => exact .next h1 ((ih _ _).2 (.inl ⟨ho, h2⟩))
        | out _ h ho => exact .out _ h ho
      · cases h1 with
        | next h3 h4 =>
          rw [List.append_assoc]
          exact .next h3 ((ih _ _).2 (.inr ⟨_, _, rfl, h4, h2⟩))
        | out _ _ ho => exact absurd rfl ho

/-- **C239** In a function that returns `!void` the end of the body becomes a return of nothing; every other end is as written. -/
theorem dropped_never_runs_void (e : Nat) (t : Nat → Bool) (b : Block) (tr : List Nat) (o : End) (ho : o ≠ .cut) :
    RunsB (body (.voidResult e t) b) tr o ↔ (o ≠ .next ∧ RunsB b tr o) ∨ (o = .ret e ∧ RunsB b tr .next) := by
  unfold body
  have hsame := checkB_same b
  have hst := checkB_stops b false
  rcases h : checkB b false with ⟨b', r⟩
  rw [h] at hsame hst
  simp only at hsame hst
  cases r with
  | true =>
    have hn := (hst rfl).resolve_left (by simp)
    show RunsB b' tr o ↔ _
    rw [hsame]
    constructor
    · intro hb
      exact .inl ⟨fun hc => hn tr (hc ▸ hb), hb⟩
    · rintro (⟨_, hb⟩ | ⟨_, hb⟩)
      · exact hb
      · exact absurd hb (hn _)
  | false =>
    show RunsB (b'.snoc (.ret e)) tr o ↔ _
    rw [snoc_runs]
    constructor
    · rintro (⟨hx, hb⟩ | ⟨t1, t2, rfl, h1, h2⟩)
      · exact .inl ⟨hx, (hsame _ _).1 hb⟩
      · cases h2 with
        | cut => exact absurd rfl ho
        | ret => exact .inr ⟨rfl, by simpa using (hsame _ _).1 h1⟩
    · rintro (⟨hx, hb⟩ | ⟨rfl, hb⟩)
      · exact .inl ⟨hx, (hsame _ _).2 hb⟩
      · exact .inr ⟨tr, [], by simp, (hsame _ _).2 hb, .ret e⟩

/-- `if (..) { return 1; f() } else { return 2 } g() h()`: `f()` and `h()` are dropped. -/
example :
    body (.value fun _ => true)
      (.cons (.ite (.cons (.ret 1) (.cons (.expr 7) .nil)) (.cons (.ret 2) .nil)) (.cons (.expr 8) (.cons (.expr 9) .nil)))
    = .cons (.ite (.cons (.ret 1) .nil) (.cons (.ret 2) .nil)) (.cons (.expr 8) .nil) := rfl

/-! ## Functions that have a result -/

/-- **C240** A function that returns `!void` never ends without a result. -/
theorem void_result_returns (e : Nat) (t : Nat → Bool) (b : Block) (tr : List Nat) : ¬ RunsB (body (.voidResult e t) b) tr .next := by
  rw [dropped_never_runs_void e t b tr .next (by simp)]
  simp

/-- Bodies that leave the function wherever they end, by returns and `if` alone. -/
inductive Leaves : Block → Prop where
  | ret (t : Nat) (b : Block) : Leaves (.cons (.ret t) b)
  | block {b : Block} (b' : Block) (h : Leaves b) : Leaves (.cons (.block b) b')
  | ite {t e : Block} (b : Block) (ht : Leaves t) (he : Leaves e) : Leaves (.cons (.ite t e) b)
  | skip (s : Stmt) {b : Block} (h : Leaves b) : Leaves (.cons s b)

/-- **C240** Nothing but the types of the returns decides whether a function is accepted: those that can be reached, or at least are
not dropped, must give a type the result takes. -/
theorem accepted_iff (takes : Nat → Bool) (b : Block) :
    accepted takes b = true ↔ ∀ t ∈ retsB (body (.value takes) b), takes t = true := by
  have : body (.value takes) b = (checkB b false).1 := rfl
  rw [this]
  simp [accepted, List.all_eq_true]

theorem leaves_not_next {b : Block} (h : Leaves b) : ∀ tr, ¬ RunsB b tr .next := by
  induction h with
  | ret t b =>
    intro tr hr
    cases hr with
    | next h _ => cases h
    | out _ _ ho => exact ho rfl
  | block b' _ ih =>
    intro tr hr
    cases hr with
    | next h _ => cases h with | block h => exact ih _ h
    | out _ _ ho => exact ho rfl
  | ite b _ _ iht ihe =>
    intro tr hr
    cases hr with
    | next h _ =>
      cases h with
      | iteTrue _ h => exact iht _ h
      | iteFalse _ h => exact ihe _ h
    | out _ _ ho => exact ho rfl
  | skip s _ ih =>
    intro tr hr
    cases hr with
    | next _ h => exact ih _ h
    | out _ _ ho => exact ho rfl

/-- **C240** A function whose body leaves on all ways by returns and `if` gives a result of a type it declares. -/
theorem gives_result_partial (takes : Nat → Bool) (b : Block) (hb : Leaves b) (ha : accepted takes b = true) :
    (∀ tr, ¬ RunsB (body (.value takes) b) tr .next) ∧
    ∀ t ∈ retsB (body (.value takes) b), takes t = true :=
  ⟨fun tr h => leaves_not_next hb tr ((dropped_never_runs _ (by simp) b tr .next).1 h), (accepted_iff takes b).1 ha⟩

mutual
theorem rets_check : ∀ (s : Stmt) (r : Bool), ∀ t ∈ rets (check s r).1, t ∈ rets s
  | .expr _, _ => by simp [check, rets]
  | .decl _, _ => by simp [check, rets]
  | .ret _, _ => by simp [check, rets]
  | .raise _, _ => by simp [check, rets]
  | .brk, _ => by simp [check, rets]
  | .cont, _ => by simp [check, rets]
  | .block b, r => retsB_check b r
  | .when t, _ => retsB_check t false
  | .ite t e, _ => by
    intro x hx
    have hx' : x ∈ retsB (checkB t false).1 ++ retsB (checkB e false).1 := hx
    show x ∈ retsB t ++ retsB e
    rw [List.mem_append] at hx' ⊢
    exact hx'.imp (retsB_check t false x) (retsB_check e false x)
  | .loop b, _ => retsB_check b false
  | .switch _ cs, _ => retsC_check cs false
  | .match _ cs, _ => retsC_check cs false

theorem retsB_check : ∀ (b : Block) (r : Bool), ∀ t ∈ retsB (checkB b r).1, t ∈ retsB b
  | .nil, _ => by simp [checkB, retsB]
  | .cons s b, r => by
    intro x hx
    simp only [checkB] at hx
    show x ∈ rets s ++ retsB b
    rw [List.mem_append]
    split at hx
    · have hx' : x ∈ rets (check s r).1 ++ [] := hx
      rw [List.append_nil] at hx'
      exact .inl (rets_check s r x hx')
    · have hx' : x ∈ rets (check s r).1 ++ retsB (checkB b (check s r).2).1 := hx
      rw [List.mem_append] at hx'
      exact hx'.imp (rets_check s r x) (retsB_check b _ x)

theorem retsC_check : ∀ (cs : Cases) (acc : Bool), ∀ t ∈ retsC (checkC cs acc).1, t ∈ retsC cs
  | .nil, _ => by simp [checkC, retsC]
  | .cons b cs, acc => by
    intro x hx
    have hx' : x ∈ retsB (checkB b false).1 ++ retsC (checkC cs (acc && (checkB b false).2)).1 := hx
    show x ∈ retsB b ++ retsC cs
    rw [List.mem_append] at hx' ⊢
    exact hx'.imp (retsB_check b false x) (retsC_check cs _ x)
end

/-- **C240** is false: every body that can come to its end is accepted as the body of a function with a result, if the returns in it
have the right types, and the function then ends without a result. -/
theorem falls_off_accepted (takes : Nat → Bool) (b : Block) (tr : List Nat) (h : RunsB b tr .next)
    (ht : ∀ t ∈ retsB b, takes t = true) : accepted takes b = true ∧ RunsB (body (.value takes) b) tr .next := by
  refine ⟨?_, (dropped_never_runs _ (by simp) b tr .next).2 h⟩
  rw [accepted_iff]
  exact fun t h => ht t (retsB_check b false t h)

/-- `if (..) { return 1 } g()` -/
example : accepted (· == 1) (.cons (.when (.cons (.ret 1) .nil)) (.cons (.expr 5) .nil)) = true ∧
    RunsB (.cons (.when (.cons (.ret 1) .nil)) (.cons (.expr 5) .nil)) ([] ++ ([5] ++ [])) .next :=
  ⟨rfl, .next (.whenFalse _) (.next (.expr 5) .nil)⟩

/-- **C240** A `return` behind a `return` is not looked at: whatever type it gives, the function is accepted. -/
theorem dropped_return_unchecked (takes : Nat → Bool) (t u : Nat) (ht : takes t = true) (b : Block) :
    accepted takes (.cons (.ret t) (.cons (.ret u) b)) = true := by
  show (retsB (.cons (.ret t) .nil)).all takes = true
  simp [retsB, rets, ht]

/-- A body that leaves on all ways: `if (..) { f() return 1 } else { { return 2 } }`. -/
example : Leaves (.cons (.ite (.cons (.expr 3) (.cons (.ret 1) .nil)) (.cons (.block (.cons (.ret 2) .nil)) .nil)) .nil) ∧
    accepted (fun t => t == 1 || t == 2)
      (.cons (.ite (.cons (.expr 3) (.cons (.ret 1) .nil)) (.cons (.block (.cons (.ret 2) .nil)) .nil)) .nil) = true :=
  ⟨.ite _ (.skip _ (.ret 1 _)) (.block _ (.ret 2 _)), rfl⟩

/-! ## Code that is not recognised -/

/-- Whether everything behind a statement is known to be out of reach, as far as the checker tells. -/
def known (s : Stmt) : Bool := (check s false).2

/-- **C239** A `switch` or `match` is never recognised, whatever its cases are. -/
theorem switch_never_known (d : Bool) (cs : Cases) : known (.switch d cs) = false ∧ known (.match d cs) = false := by
  constructor
  · show (checkC cs false).2 = false
    exact checkC_false cs
  · show ((checkC cs false).2 || false) = false
    rw [checkC_false]; rfl

end Verif.Unreach
