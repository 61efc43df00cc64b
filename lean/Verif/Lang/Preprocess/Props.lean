import Verif.Lang.Preprocess.Lemmas

/-! # What macro expansion computes -/
namespace Verif.Preprocess

variable {G : Table}

theorem find_of_outside {env : Env} (he : EnvOk G env) {n : Nat} (h : ¬ IsParam G n) : find G env n = G n := by
  unfold find
  cases hg : G n with
  | some e => rfl
  | none =>
    cases hl : env.lookup n with
    | none => rfl
    | some v => exact absurd (he n v hl).1 h

theorem expand_node_ok {f : Nat} {env : Env} {c : Nat} {ts : List Tm} {t' : Tm}
    (h : expand G (f + 1) env (.node c ts) = .ok t') :
    ∃ ts', visitAll (expand G f env) ts = .ok ts' ∧ t' = .node c ts' := by
  simp only [expand] at h
  cases hv : visitAll (expand G f env) ts with
  | ok ts' => rw [hv, Out.bind_ok] at h; cases h; exact ⟨ts', rfl, rfl⟩
  | _ => simp [hv] at h

theorem expand_call_ok {f : Nat} {env : Env} {n : Nat} {as : List Tm} {t' : Tm}
    (h : expand G (f + 1) env (.call n as) = .ok t') :
    ∃ as', visitAll (expand G f env) as = .ok as' := by
  simp only [expand] at h
  cases hv : visitAll (expand G f env) as with
  | ok as' => exact ⟨as', rfl⟩
  | _ => simp [hv] at h

/-- Expanding again what has nothing to expand changes nothing. -/
theorem expand_clean_eq {env : Env} (he : EnvOk G env) (f : Nat) (t t' : Tm) (hc : Clean G t)
    (h : expand G f env t = .ok t') : t' = t := by
  induction f generalizing t t' with
  | zero => cases h
  | succ f ih =>
    have hall : ∀ ts ts', UsesAll (fun m _ => ¬ IsParam G m ∧ G m = none) ts →
        visitAll (expand G f env) ts = .ok ts' → ts' = ts := by
      intro ts
      induction ts with
      | nil => intro ts' _ h; simp only [visitAll, Out.ok.injEq] at h; exact h.symm
      | cons t ts ih2 =>
        intro ts' hu h
        obtain ⟨u, us, rfl, h1, h2⟩ := visitAll_cons_ok h
        rw [ih t u hu.1 h1, ih2 us hu.2 h2]
    cases t with
    | node c ts =>
      obtain ⟨ts', h1, rfl⟩ := expand_node_ok h
      rw [hall ts ts' hc h1]
    | call n as =>
      obtain ⟨as', h1⟩ := expand_call_ok h
      simp only [Clean, Uses] at hc
      simp only [expand, h1, Out.bind_ok, find_of_outside he hc.1.1, hc.1.2, Out.ok.injEq] at h
      rw [← h, hall as as' hc.2 h1]

theorem bindArgs_clean_eq (f n : Nat) (ps0 : List Nat) (b : Option Tm)
    (hn : G n = some (.decl ps0 b)) :
    ∀ (ps own : List Nat) (as : List Tm) (env env' : Env), EnvOk G env → (∀ p ∈ ps, p ∈ ps0) →
      UsesAll (fun m _ => ¬ IsParam G m ∧ G m = none) as →
      bindArgs (expand G f) own ps as env = .ok env' → env' = push ps as env := by
  intro ps
  induction ps with
  | nil => intro own as env env' _ _ _ h; simp only [bindArgs, Out.ok.injEq] at h; rw [← h]; rfl
  | cons p ps ih =>
    intro own as env env' he hp hc h
    cases as with
    | nil => simp only [bindArgs, Out.ok.injEq] at h; rw [← h]; rfl
    | cons a as =>
      simp only [bindArgs] at h
      cases hv : expand G f env a with
      | ok a' =>
        rw [hv, Out.bind_ok] at h
        have := expand_clean_eq he f a a' hc.1 hv
        subst this
        split at h
        · cases h
        · refine ih _ as _ env' ?_ (fun q hq => hp q (by simp [hq])) hc.2 h
          intro q v hq
          rw [List.lookup_cons] at hq
          split at hq
          · cases hq
            rename_i hqp
            have : q = p := by simpa using hqp
            subst this
            exact ⟨⟨n, ps0, b, hn, hp q (by simp)⟩, hc.1⟩
          · exact he q v hq
      | _ => simp [hv] at h

/-- What the preprocessor makes of a list of terms is their meaning. -/
theorem expand_sound (hG : Hygienic G) (f : Nat) :
    ∀ (env : Env) (ts ts' : List Tm), EnvOk G env → UsesAll (Suits G env) ts →
      visitAll (expand G f env) ts = .ok ts' → Expands G (substs (fun m => env.lookup m) ts) ts' := by
  induction f with
  | zero =>
    intro env ts ts' _ _ h
    cases ts with
    | nil => simp only [visitAll, Out.ok.injEq] at h; subst h; exact .nil
    | cons t ts => simp [visitAll, expand] at h
  | succ f ih =>
    intro env ts
    induction ts with
    | nil => intro ts' _ _ h; simp only [visitAll, Out.ok.injEq] at h; subst h; exact .nil
    | cons t ts ih2 =>
      intro us' he hu h
      obtain ⟨t', ts', rfl, h1, h2⟩ := visitAll_cons_ok h
      have hrest := ih2 ts' he hu.2 h2
      simp only [substs]
      cases t with
      | node c xs =>
        obtain ⟨xs', h3, rfl⟩ := expand_node_ok h1
        have hxs : UsesAll (Suits G env) xs := hu.1
        simp only [subst]
        exact .node c _ _ _ _ (ih env xs xs' he hxs h3) hrest
      | call n as =>
        obtain ⟨as', h3⟩ := expand_call_ok h1
        obtain ⟨hn, has⟩ : Suits G env n as ∧ UsesAll (Suits G env) as := hu.1
        have hargs := ih env as as' he has h3
        simp only [expand, h3, Out.bind_ok] at h1
        simp only [subst]
        cases hl : env.lookup n with
        | some v =>
          obtain ⟨hp, hv⟩ := he n v hl
          simp only [find, hG.apart n hp, hl, Option.map_some] at h1
          rw [expand_clean_eq he f v t' hv h1]
          exact expands_clean_self v hv _ _ hrest
        | none =>
          have hnp : ¬ IsParam G n := by
            rcases hn with hn | hn
            · rw [hl] at hn; cases hn.1
            · exact hn
          rw [find_of_outside he hnp] at h1
          simp only [Option.getD_none]
          cases hg : G n with
          | none =>
            simp only [hg, Out.ok.injEq] at h1
            rw [← h1]
            exact .other n _ _ _ _ hg hargs hrest
          | some e =>
            cases e with
            | value v =>
              simp only [hg] at h1
              refine .value n v t' _ _ _ _ hg hargs ?_ hrest
              have hsv' : Uses (Suits G env) v := Uses.mono (fun _ _ h => .inr h) v (hG.values n v hg)
              have := ih env [v] [t'] he ⟨hsv', trivial⟩ (by simp [visitAll, h1])
              simp only [substs] at this
              rw [subst_congr (fun m => env.lookup m) (fun _ => none) v ?_] at this
              · rwa [subst_none] at this
              · refine Uses.mono (fun m _ hm => ?_) v (hG.values n v hg)
                cases hl : env.lookup m with
                | none => rfl
                | some w => exact absurd (he m w hl).1 hm
            | decl ps b =>
              cases b with
              | none =>
                simp only [hg, Out.ok.injEq] at h1
                rw [← h1]
                exact .empty n ps _ _ _ _ hg hargs hrest
              | some b =>
                simp only [hg] at h1
                split at h1
                · cases h1
                · rename_i hlen
                  have hlen : as'.length = ps.length := Decidable.not_not.1 hlen
                  have hlen2 : as.length = ps.length := by rw [← hlen]; exact (visitAll_length h3).symm
                  have hclean := expands_clean hG hargs (substs_outside he has)
                  cases hb : bindArgs (expand G f) [] ps as' env with
                  | ok env' =>
                    rw [hb, Out.bind_ok] at h1
                    have := bindArgs_clean_eq f n ps _ hg ps [] as' env env' he (fun _ h => h) hclean hb
                    subst this
                    have hbody := ih (push ps as' env) [b] [t'] (envOk_push hG hg hclean he)
                      ⟨body_suits hG hg hlen, trivial⟩ (by simp [visitAll, h1])
                    simp only [substs] at hbody
                    rw [body_subst hG hg hlen he] at hbody
                    exact .call n ps b t' _ _ _ _ hg hargs (by simpa [substs_eq] using hlen2) hbody hrest
                  | _ => simp [hb] at h1

/-! ## Every meaning is computed -/

/-- The same outcome for every fuel that is large enough. -/
def Ev {α : Type} (F : Nat → Out α) (v : Out α) : Prop := ∃ N, ∀ f, N ≤ f → F f = v

theorem ev_node {env : Env} {c : Nat} {ts ts' : List Tm}
    (h : Ev (fun f => visitAll (expand G f env) ts) (.ok ts')) :
    Ev (fun f => expand G f env (.node c ts)) (.ok (.node c ts')) := by
  obtain ⟨N, hN⟩ := h
  refine ⟨N + 1, fun f hf => ?_⟩
  obtain ⟨g, rfl⟩ : ∃ g, f = g + 1 := ⟨f - 1, by omega⟩
  have := hN g (by omega)
  simp only [expand, this, Out.bind_ok]

theorem ev_cons {env : Env} {t t' : Tm} {ts ts' : List Tm} (h1 : Ev (fun f => expand G f env t) (.ok t'))
    (h2 : Ev (fun f => visitAll (expand G f env) ts) (.ok ts')) :
    Ev (fun f => visitAll (expand G f env) (t :: ts)) (.ok (t' :: ts')) := by
  obtain ⟨N, hN⟩ := h1
  obtain ⟨M, hM⟩ := h2
  refine ⟨max N M, fun f hf => ?_⟩
  have a := hN f (by omega)
  have b := hM f (by omega)
  simp only [visitAll, a, b, Out.bind_ok]

theorem ev_clean {env : Env} (he : EnvOk G env) (t : Tm) :
    Clean G t → Ev (fun f => expand G f env t) (.ok t) := by
  have hall : ∀ ts : List Tm, (∀ t ∈ ts, Clean G t → Ev (fun f => expand G f env t) (.ok t)) →
      (∀ t ∈ ts, Clean G t) → Ev (fun f => visitAll (expand G f env) ts) (.ok ts) := by
    intro ts
    induction ts with
    | nil => exact fun _ _ => ⟨0, fun _ _ => rfl⟩
    | cons t ts ih =>
      intro h1 h2
      exact ev_cons (h1 t (by simp) (h2 t (by simp)))
        (ih (fun u hu => h1 u (by simp [hu])) (fun u hu => h2 u (by simp [hu])))
  induction t using Tm.ind with
  | hn c ts ih =>
    intro h
    exact ev_node (hall ts ih (usesAll_iff.1 h))
  | hc n ts ih =>
    intro h
    obtain ⟨h1, h2⟩ : (¬ IsParam G n ∧ G n = none) ∧ UsesAll _ ts := h
    obtain ⟨N, hN⟩ := hall ts ih (usesAll_iff.1 h2)
    refine ⟨N + 1, fun f hf => ?_⟩
    obtain ⟨g, rfl⟩ : ∃ g, f = g + 1 := ⟨f - 1, by omega⟩
    have := hN g (by omega)
    simp only [expand, this, Out.bind_ok, find_of_outside he h1.1, h1.2]

theorem ev_bindArgs {n : Nat} {ps0 : List Nat} {b : Option Tm} (hn : G n = some (.decl ps0 b)) :
    ∀ (ps own : List Nat) (as : List Tm) (env : Env), EnvOk G env → (∀ p ∈ ps, p ∈ ps0) → ps.Nodup →
      ignored ∉ ps → (∀ p ∈ ps, p ∉ own) → UsesAll (fun m _ => ¬ IsParam G m ∧ G m = none) as →
      Ev (fun f => bindArgs (expand G f) own ps as env) (.ok (push ps as env)) := by
  intro ps
  induction ps with
  | nil => intro own as env _ _ _ _ _ _; exact ⟨0, fun _ _ => by simp [bindArgs, push]⟩
  | cons p ps ih =>
    intro own as env he hp hd hi ho hc
    cases as with
    | nil => exact ⟨0, fun _ _ => by simp [bindArgs, push]⟩
    | cons a as =>
      obtain ⟨N, hN⟩ := ev_clean he a hc.1
      simp only [List.nodup_cons] at hd
      have he' : EnvOk G ((p, a) :: env) := by
        intro q v hq
        rw [List.lookup_cons] at hq
        split at hq
        · cases hq
          rename_i hqp
          have : q = p := by simpa using hqp
          subst this
          exact ⟨⟨n, ps0, b, hn, hp q (by simp)⟩, hc.1⟩
        · exact he q v hq
      obtain ⟨M, hM⟩ := ih (p :: own) as ((p, a) :: env) he' (fun q hq => hp q (by simp [hq])) hd.2
        (fun h => hi (by simp [h])) (fun q hq h => by
          rcases List.mem_cons.1 h with rfl | h
          · exact hd.1 hq
          · exact ho q (by simp [hq]) h) hc.2
      refine ⟨max N M, fun f hf => ?_⟩
      have a1 := hN f (by omega)
      have a2 := hM f (by omega)
      simp only [bindArgs, a1, Out.bind_ok]
      rw [if_neg]
      · exact a2
      · rintro (h | h)
        · exact hi (by simp [h])
        · exact ho p (by simp) h

theorem ev_param {env : Env} (hG : Hygienic G) (he : EnvOk G env) {n : Nat} {v : Tm}
    (hl : env.lookup n = some v) : Ev (fun f => expand G f env (.call n [])) (.ok v) := by
  obtain ⟨hp, hv⟩ := he n v hl
  obtain ⟨N, hN⟩ := ev_clean he v hv
  refine ⟨N + 1, fun f hf => ?_⟩
  obtain ⟨g, rfl⟩ : ∃ g, f = g + 1 := ⟨f - 1, by omega⟩
  have := hN g (by omega)
  simp only [expand, visitAll, Out.bind_ok, find, hG.apart n hp, hl, Option.map_some, this]

/-- What a term with replaced parameters looked like before. -/
theorem subst_cases {env : Env} (he : EnvOk G env) {t : Tm} (ht : Uses (Suits G env) t) :
    (∃ c ts, t = .node c ts ∧ UsesAll (Suits G env) ts) ∨
    (∃ n v, t = .call n [] ∧ env.lookup n = some v) ∨
    (∃ n as, t = .call n as ∧ env.lookup n = none ∧ ¬ IsParam G n ∧ UsesAll (Suits G env) as) := by
  cases t with
  | node c ts => exact .inl ⟨c, ts, rfl, ht⟩
  | call n as =>
    obtain ⟨h1, h2⟩ : Suits G env n as ∧ UsesAll _ as := ht
    cases hl : env.lookup n with
    | some v =>
      rcases h1 with ⟨_, rfl⟩ | h1
      · exact .inr (.inl ⟨n, v, rfl, hl⟩)
      · exact absurd (he n v hl).1 h1
    | none =>
      rcases h1 with ⟨h1, _⟩ | h1
      · rw [hl] at h1; cases h1
      · exact .inr (.inr ⟨n, as, rfl, hl, h1, h2⟩)

/-- A parameter in first place: its value has nothing to expand, so the meaning keeps it. -/
theorem ev_first {env : Env} (hG : Hygienic G) (he : EnvOk G env) {n : Nat} {v t' : Tm} {ts us' : List Tm}
    (hl : env.lookup n = some v) (h : Expands G [v] [t'])
    (h2 : Ev (fun f => visitAll (expand G f env) ts) (.ok us')) :
    Ev (fun f => visitAll (expand G f env) (.call n [] :: ts)) (.ok (t' :: us')) := by
  have := clean_expands h ⟨(he n v hl).2, trivial⟩
  simp only [List.cons.injEq, and_true] at this
  subst this
  exact ev_cons (ev_param hG he hl) h2

theorem ev_call {env : Env} (he : EnvOk G env) {n : Nat} {as as' : List Tm} {t' : Tm}
    (hnp : ¬ IsParam G n) (ha : Ev (fun f => visitAll (expand G f env) as) (.ok as'))
    (h : Ev (fun f => match G n with
      | none => Out.ok (Tm.call n as')
      | some (.value v) => expand G f env v
      | some (.decl _ none) => .ok noop
      | some (.decl ps (some b)) =>
        if as'.length ≠ ps.length then .abort
        else (bindArgs (expand G f) [] ps as' env).bind fun env' => expand G f env' b) (.ok t')) :
    Ev (fun f => expand G f env (.call n as)) (.ok t') := by
  obtain ⟨N, hN⟩ := ha
  obtain ⟨M, hM⟩ := h
  refine ⟨max N M + 1, fun f hf => ?_⟩
  obtain ⟨g, rfl⟩ : ∃ g, f = g + 1 := ⟨f - 1, by omega⟩
  have a1 := hN g (by omega)
  have a2 := hM g (by omega)
  simp only [expand, a1, Out.bind_ok, find_of_outside he hnp]
  exact a2

theorem ev_single {env : Env} {t t' : Tm} (h : Ev (fun f => visitAll (expand G f env) [t]) (.ok [t'])) :
    Ev (fun f => expand G f env t) (.ok t') := by
  obtain ⟨N, hN⟩ := h
  refine ⟨N, fun f hf => ?_⟩
  obtain ⟨u, us, h1, h2, _⟩ := visitAll_cons_ok (hN f hf)
  cases h1
  exact h2

/-- Every meaning of a list of terms is what the preprocessor makes of it. -/
theorem expand_complete (hG : Hygienic G) {us us' : List Tm} (h : Expands G us us') :
    ∀ (env : Env) (ts : List Tm), EnvOk G env → UsesAll (Suits G env) ts →
      substs (fun m => env.lookup m) ts = us → Ev (fun f => visitAll (expand G f env) ts) (.ok us') := by
  induction h with
  | nil =>
    intro env ts _ _ h
    cases ts with
    | nil => exact ⟨0, fun _ _ => rfl⟩
    | cons t ts => simp [substs] at h
  | node c xs xs' us us' hx _ ih1 ih2 =>
    intro env ts he hu h
    cases ts with
    | nil => simp [substs] at h
    | cons t ts =>
      simp only [substs, List.cons.injEq] at h
      have hrest := ih2 env ts he hu.2 h.2
      rcases subst_cases he hu.1 with ⟨c', ys, rfl, hys⟩ | ⟨n, v, rfl, hl⟩ | ⟨n, as, rfl, hl, _, _⟩
      · simp only [subst, Tm.node.injEq] at h
        obtain ⟨⟨rfl, hxs⟩, _⟩ := h
        exact ev_cons (ev_node (ih1 env ys he hys hxs)) hrest
      · simp only [subst, hl, Option.getD_some] at h
        obtain ⟨rfl, _⟩ := h
        exact ev_first hG he hl (.node c _ _ _ _ hx .nil) hrest
      · simp [subst, hl] at h
  | other n as as' us us' hn hx _ ih1 ih2 =>
    intro env ts he hu h
    cases ts with
    | nil => simp [substs] at h
    | cons t ts =>
      simp only [substs, List.cons.injEq] at h
      have hrest := ih2 env ts he hu.2 h.2
      rcases subst_cases he hu.1 with ⟨c', ys, rfl, hys⟩ | ⟨m, v, rfl, hl⟩ | ⟨m, ys, rfl, hl, hnp, hys⟩
      · simp [subst] at h
      · simp only [subst, hl, Option.getD_some] at h
        obtain ⟨rfl, _⟩ := h
        exact ev_first hG he hl (.other n _ _ _ _ hn hx .nil) hrest
      · simp only [subst, hl, Option.getD_none, Tm.call.injEq] at h
        obtain ⟨⟨rfl, hxs⟩, _⟩ := h
        refine ev_cons (ev_call he hnp (ih1 env ys he hys hxs) ?_) hrest
        simp only [hn]
        exact ⟨0, fun _ _ => rfl⟩
  | value n v v' as as' us us' hn hx hv _ ih1 ih2 ih3 =>
    intro env ts he hu h
    cases ts with
    | nil => simp [substs] at h
    | cons t ts =>
      simp only [substs, List.cons.injEq] at h
      have hrest := ih3 env ts he hu.2 h.2
      rcases subst_cases he hu.1 with ⟨c', ys, rfl, hys⟩ | ⟨m, w, rfl, hl⟩ | ⟨m, ys, rfl, hl, hnp, hys⟩
      · simp [subst] at h
      · simp only [subst, hl, Option.getD_some] at h
        obtain ⟨rfl, _⟩ := h
        exact ev_first hG he hl (.value n v v' _ _ _ _ hn hx hv .nil) hrest
      · simp only [subst, hl, Option.getD_none, Tm.call.injEq] at h
        obtain ⟨⟨rfl, hxs⟩, _⟩ := h
        refine ev_cons (ev_call he hnp (ih1 env ys he hys hxs) ?_) hrest
        simp only [hn]
        refine ev_single (ih2 env [v] he ⟨Uses.mono (fun _ _ h => .inr h) v (hG.values m v hn), trivial⟩ ?_)
        simp only [substs]
        rw [subst_congr (fun m => env.lookup m) (fun _ => none) v ?_, subst_none]
        refine Uses.mono (fun m _ hm => ?_) v (hG.values m v hn)
        cases hl : env.lookup m with
        | none => rfl
        | some w => exact absurd (he m w hl).1 hm
  | empty n ps as as' us us' hn hx _ ih1 ih2 =>
    intro env ts he hu h
    cases ts with
    | nil => simp [substs] at h
    | cons t ts =>
      simp only [substs, List.cons.injEq] at h
      have hrest := ih2 env ts he hu.2 h.2
      rcases subst_cases he hu.1 with ⟨c', ys, rfl, hys⟩ | ⟨m, v, rfl, hl⟩ | ⟨m, ys, rfl, hl, hnp, hys⟩
      · simp [subst] at h
      · simp only [subst, hl, Option.getD_some] at h
        obtain ⟨rfl, _⟩ := h
        exact ev_first hG he hl (.empty n ps _ _ _ _ hn hx .nil) hrest
      · simp only [subst, hl, Option.getD_none, Tm.call.injEq] at h
        obtain ⟨⟨rfl, hxs⟩, _⟩ := h
        refine ev_cons (ev_call he hnp (ih1 env ys he hys hxs) ?_) hrest
        simp only [hn]
        exact ⟨0, fun _ _ => rfl⟩
  | call n ps b t' as as' us us' hn hx hlen hb _ ih1 ih2 ih3 =>
    intro env ts he hu h
    cases ts with
    | nil => simp [substs] at h
    | cons t ts =>
      simp only [substs, List.cons.injEq] at h
      have hrest := ih3 env ts he hu.2 h.2
      rcases subst_cases he hu.1 with ⟨c', ys, rfl, hys⟩ | ⟨m, v, rfl, hl⟩ | ⟨m, ys, rfl, hl, hnp, hys⟩
      · simp [subst] at h
      · simp only [subst, hl, Option.getD_some] at h
        obtain ⟨rfl, _⟩ := h
        exact ev_first hG he hl (.call n ps b t' _ _ _ _ hn hx hlen hb .nil) hrest
      · simp only [subst, hl, Option.getD_none, Tm.call.injEq] at h
        obtain ⟨⟨rfl, hxs⟩, _⟩ := h
        have hl' : as'.length = ps.length := by rw [← hlen]; exact expands_length hx
        have hclean := expands_clean hG hx (by rw [← hxs]; exact substs_outside he hys)
        refine ev_cons (ev_call he hnp (ih1 env ys he hys hxs) ?_) hrest
        simp only [hn]
        obtain ⟨N, hN⟩ := ev_bindArgs hn ps [] as' env he (fun _ h => h) (hG.nodup m ps _ hn).1
          (hG.nodup m ps _ hn).2 (by simp) hclean
        obtain ⟨M, hM⟩ := ev_single (ih2 (push ps as' env) [b] (envOk_push hG hn hclean he)
          ⟨body_suits hG hn hl', trivial⟩ (by simp only [substs]; rw [body_subst hG hn hl' he]))
        refine ⟨max N M, fun f hf => ?_⟩
        have a1 := hN f (by omega)
        have a2 := hM f (by omega)
        simp only [hl', ne_eq, not_true_eq_false, if_false, a1, Out.bind_ok]
        exact a2

theorem envOk_nil : EnvOk G [] := by intro p v h; cases h

theorem outside_suits {t : Tm} (h : Outside G t) : Uses (Suits G []) t := Uses.mono (fun _ _ h => .inr h) t h

theorem substs_nil (ts : List Tm) : substs (fun m => ([] : Env).lookup m) ts = ts := by
  rw [substs_eq]
  conv => rhs; rw [← List.map_id ts]
  exact List.map_congr_left fun t _ => subst_none t

/-- What is missing of C125: tables where a parameter has the name of a macro, bodies that use a name
which is a parameter of another macro, and programs that use a name which is a parameter of some macro
(`global_captures_parameter`, `inner_macro_sees_parameter`, `argument_captured`); variadic macros.
**C125** for the others: the preprocessor turns a program into `t'` exactly when `t'` is what its macros
mean. -/
theorem expansion_is_substitution_partial (hG : Hygienic G) (t t' : Tm) (ht : Outside G t) :
    (∃ f, expand G f [] t = .ok t') ↔ Expands G [t] [t'] := by
  constructor
  · rintro ⟨f, h⟩
    have := expand_sound hG f [] [t] [t'] envOk_nil ⟨outside_suits ht, trivial⟩ (by simp [visitAll, h])
    rwa [substs_nil] at this
  · intro h
    obtain ⟨N, hN⟩ := ev_single (expand_complete hG h [] [t] envOk_nil ⟨outside_suits ht, trivial⟩ (substs_nil _))
    exact ⟨N, hN N (Nat.le_refl N)⟩

end Verif.Preprocess
