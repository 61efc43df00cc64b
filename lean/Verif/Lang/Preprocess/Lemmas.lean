import Verif.Lang.Preprocess.Spec

/-! # Scopes and replacement -/
namespace Verif.Preprocess

theorem Tm.ind {P : Tm → Prop} (hn : ∀ c ts, (∀ t ∈ ts, P t) → P (.node c ts))
    (hc : ∀ n ts, (∀ t ∈ ts, P t) → P (.call n ts)) (t : Tm) : P t :=
  Tm.rec (motive_1 := P) (motive_2 := fun ts => ∀ t ∈ ts, P t) (fun c ts ih => hn c ts ih)
    (fun n ts ih => hc n ts ih) (by simp) (fun t ts h1 h2 => by
      intro u hu; rcases List.mem_cons.1 hu with rfl | hu
      · exact h1
      · exact h2 u hu) t

theorem usesAll_iff {Q : Nat → List Tm → Prop} {ts : List Tm} : UsesAll Q ts ↔ ∀ t ∈ ts, Uses Q t := by
  induction ts with
  | nil => simp [UsesAll]
  | cons t ts ih => simp [UsesAll, ih]

theorem substs_eq (σ : Nat → Option Tm) (ts : List Tm) : substs σ ts = ts.map (subst σ) := by
  induction ts with
  | nil => rfl
  | cons t ts ih => simp [substs, ih]

theorem Uses.mono {Q R : Nat → List Tm → Prop} (h : ∀ n as, Q n as → R n as) (t : Tm) :
    Uses Q t → Uses R t := by
  induction t using Tm.ind with
  | hn c ts ih =>
    intro hu; simp only [Uses, usesAll_iff] at *
    exact fun t ht => ih t ht (hu t ht)
  | hc n ts ih =>
    intro hu; simp only [Uses, usesAll_iff] at *
    exact ⟨h _ _ hu.1, fun t ht => ih t ht (hu.2 t ht)⟩

theorem UsesAll.mono {Q R : Nat → List Tm → Prop} (h : ∀ n as, Q n as → R n as) {ts : List Tm}
    (hu : UsesAll Q ts) : UsesAll R ts :=
  usesAll_iff.2 fun t ht => Uses.mono h t (usesAll_iff.1 hu t ht)

theorem subst_congr (σ τ : Nat → Option Tm) (t : Tm) (h : Uses (fun m _ => σ m = τ m) t) :
    subst σ t = subst τ t := by
  induction t using Tm.ind with
  | hn c ts ih =>
    simp only [Uses, usesAll_iff] at h
    simp only [subst, substs_eq]
    congr 1
    exact List.map_congr_left fun t ht => ih t ht (h t ht)
  | hc n ts ih =>
    simp only [Uses, usesAll_iff] at h
    simp only [subst, substs_eq, h.1]
    congr 2
    exact List.map_congr_left fun t ht => ih t ht (h.2 t ht)

/-- No macro and no parameter is called: nothing is left to expand. -/
def Clean (G : Table) (t : Tm) : Prop := Uses (fun m _ => ¬ IsParam G m ∧ G m = none) t

theorem Clean.outside {G : Table} {t : Tm} (h : Clean G t) : Outside G t := Uses.mono (fun _ _ h => h.1) t h

/-- The scopes hold parameters with expanded arguments. -/
def EnvOk (G : Table) (env : Env) : Prop := ∀ p v, env.lookup p = some v → IsParam G p ∧ Clean G v

/-- The names used in a scope: parameters in scope, or no parameters at all. -/
def Suits (G : Table) (env : Env) : Nat → List Tm → Prop :=
  fun m as => ((env.lookup m).isSome ∧ as = []) ∨ ¬ IsParam G m

theorem visitAll_cons_ok {visit : Tm → Out Tm} {t : Tm} {ts us : List Tm}
    (h : visitAll visit (t :: ts) = .ok us) :
    ∃ u us', us = u :: us' ∧ visit t = .ok u ∧ visitAll visit ts = .ok us' := by
  simp only [visitAll] at h
  cases h1 : visit t with
  | ok u =>
    cases h2 : visitAll visit ts with
    | ok us' => simp only [h1, h2, Out.bind_ok, Out.ok.injEq] at h; exact ⟨u, us', h.symm, rfl, rfl⟩
    | _ => simp [h1, h2] at h
  | _ => simp [h1] at h

theorem visitAll_length {visit : Tm → Out Tm} {ts us : List Tm} (h : visitAll visit ts = .ok us) :
    us.length = ts.length := by
  induction ts generalizing us with
  | nil => simp only [visitAll, Out.ok.injEq] at h; subst h; rfl
  | cons t ts ih =>
    obtain ⟨u, us', rfl, _, h2⟩ := visitAll_cons_ok h
    simp [ih h2]

/-- The scope of a macro call. -/
def push : List Nat → List Tm → Env → Env
  | p :: ps, a :: as, env => push ps as ((p, a) :: env)
  | _, _, env => env

theorem lookup_push (ps : List Nat) (as : List Tm) (env : Env) (hd : ps.Nodup) (n : Nat) :
    (push ps as env).lookup n = (pairing ps as n).or (env.lookup n) := by
  induction ps generalizing as env with
  | nil => simp [push, pairing]
  | cons p ps ih =>
    cases as with
    | nil => simp [push, pairing]
    | cons a as =>
      rw [push, ih as _ hd.of_cons]
      simp only [pairing, List.zip_cons_cons, List.lookup_cons]
      by_cases h : n = p
      · subst h
        have : (ps.zip as).lookup n = none := by
          rw [List.lookup_eq_none_iff]
          rintro ⟨q, b⟩ hq
          have := (List.of_mem_zip hq).1
          simp only [List.nodup_cons] at hd
          simp only [bne_iff_ne, ne_eq]
          rintro rfl
          exact hd.1 this
        simp [this]
      · have : (n == p) = false := by simpa using h
        simp [this]

theorem pairing_some {ps : List Nat} {as : List Tm} {n : Nat} {v : Tm} (h : pairing ps as n = some v) :
    n ∈ ps ∧ v ∈ as := by
  have := List.lookup_eq_some_iff.1 h
  obtain ⟨l, l2, hl, _⟩ := this
  have hm : (n, v) ∈ ps.zip as := by rw [hl]; simp
  exact List.of_mem_zip hm

theorem pairing_of_mem {ps : List Nat} {as : List Tm} {n : Nat} (h : n ∈ ps) (hl : as.length = ps.length) :
    ∃ v, pairing ps as n = some v := by
  induction ps generalizing as with
  | nil => cases h
  | cons p ps ih =>
    cases as with
    | nil => cases hl
    | cons a as =>
      simp only [pairing, List.zip_cons_cons, List.lookup_cons]
      by_cases hp : n = p
      · subst hp; exact ⟨a, by simp⟩
      · have hb : (n == p) = false := by simpa using hp
        simp only [hb]
        exact ih (List.mem_of_ne_of_mem hp h) (by simpa using hl)

theorem pairing_of_not_mem {ps : List Nat} {as : List Tm} {n : Nat} (h : n ∉ ps) : pairing ps as n = none := by
  cases hp : pairing ps as n with
  | none => rfl
  | some v => exact absurd (pairing_some hp).1 h

variable {G : Table}

/-- The scope a macro body is expanded in. -/
theorem envOk_push {n : Nat} {ps : List Nat} {b : Option Tm} (hG : Hygienic G) (hn : G n = some (.decl ps b))
    {as : List Tm} (has : UsesAll (fun m _ => ¬ IsParam G m ∧ G m = none) as) {env : Env}
    (he : EnvOk G env) : EnvOk G (push ps as env) := by
  intro p v h
  rw [lookup_push ps as env (hG.nodup n ps b hn).1] at h
  cases hp : pairing ps as p with
  | none => rw [hp, Option.none_or] at h; exact he p v h
  | some w =>
    rw [hp, Option.some_or] at h
    cases h
    obtain ⟨h1, h2⟩ := pairing_some hp
    exact ⟨⟨n, ps, b, hn, h1⟩, usesAll_iff.1 has _ h2⟩

theorem body_suits {n : Nat} {ps : List Nat} {b : Tm} (hG : Hygienic G) (hn : G n = some (.decl ps (some b)))
    {as : List Tm} (hl : as.length = ps.length) {env : Env} : Uses (Suits G (push ps as env)) b := by
  refine Uses.mono (fun m xs h => ?_) b (hG.bodies n ps b hn)
  rcases h with ⟨h1, h2⟩ | h
  · refine .inl ⟨?_, h2⟩
    obtain ⟨v, hv⟩ := pairing_of_mem h1 hl
    rw [lookup_push ps as env (hG.nodup n ps _ hn).1, hv]; rfl
  · exact .inr h

/-- The dynamic scopes and the replacement of the parameters agree on a body. -/
theorem body_subst {n : Nat} {ps : List Nat} {b : Tm} (hG : Hygienic G) (hn : G n = some (.decl ps (some b)))
    {as : List Tm} (hl : as.length = ps.length) {env : Env} (he : EnvOk G env) :
    subst (fun m => (push ps as env).lookup m) b = subst (pairing ps as) b := by
  refine subst_congr _ _ b (Uses.mono (fun m xs h => ?_) b (hG.bodies n ps b hn))
  simp only [lookup_push ps as env (hG.nodup n ps _ hn).1]
  rcases h with ⟨h1, _⟩ | h
  · obtain ⟨v, hv⟩ := pairing_of_mem h1 hl
    rw [hv]; rfl
  · have h1 : m ∉ ps := fun hm => h ⟨n, ps, _, hn, hm⟩
    rw [pairing_of_not_mem h1, Option.none_or]
    cases hm : env.lookup m with
    | none => rfl
    | some v => exact absurd (he m v hm).1 h

theorem subst_outside {σ : Nat → Option Tm} (t : Tm)
    (hσ : ∀ m v, σ m = some v → Outside G v)
    (ht : Uses (fun m _ => (σ m).isSome ∨ ¬ IsParam G m) t) : Outside G (subst σ t) := by
  induction t using Tm.ind with
  | hn c ts ih =>
    simp only [Uses, usesAll_iff, subst, substs_eq, Outside] at *
    intro u hu
    obtain ⟨t, ht', rfl⟩ := List.mem_map.1 hu
    exact ih t ht' (ht t ht')
  | hc n ts ih =>
    simp only [Uses, usesAll_iff] at ht
    simp only [subst]
    cases hn : σ n with
    | some v => exact hσ n v hn
    | none =>
      simp only [Option.getD_none, Outside, Uses, substs_eq, usesAll_iff]
      refine ⟨?_, fun u hu => ?_⟩
      · rcases ht.1 with h | h
        · rw [hn] at h; cases h
        · exact h
      · obtain ⟨t, ht', rfl⟩ := List.mem_map.1 hu
        exact ih t ht' (ht.2 t ht')

theorem expands_length {us us' : List Tm} (h : Expands G us us') : us'.length = us.length := by
  induction h with
  | nil => rfl
  | _ => simp_all

theorem substs_outside {env : Env} (he : EnvOk G env) {ts : List Tm} (h : UsesAll (Suits G env) ts) :
    UsesAll (fun m _ => ¬ IsParam G m) (substs (fun m => env.lookup m) ts) := by
  rw [substs_eq, usesAll_iff]
  intro u hu
  obtain ⟨t, ht, rfl⟩ := List.mem_map.1 hu
  refine subst_outside t (fun m v hv => (he m v hv).2.outside) ?_
  refine Uses.mono (fun m _ hm => ?_) t (usesAll_iff.1 h t ht)
  rcases hm with hm | hm
  · exact .inl hm.1
  · exact .inr hm

theorem subst_none (t : Tm) : subst (fun _ => none) t = t := by
  induction t using Tm.ind with
  | hn c ts ih =>
    simp only [subst, substs_eq]
    congr 1
    conv => rhs; rw [← List.map_id ts]
    exact List.map_congr_left fun t ht => ih t ht
  | hc n ts ih =>
    simp only [subst, substs_eq, Option.getD_none]
    congr 1
    conv => rhs; rw [← List.map_id ts]
    exact List.map_congr_left fun t ht => ih t ht

/-- What the meaning of a term leaves has nothing to expand. -/
theorem expands_clean (hG : Hygienic G) {us us' : List Tm} (h : Expands G us us') :
    UsesAll (fun m _ => ¬ IsParam G m) us → UsesAll (fun m _ => ¬ IsParam G m ∧ G m = none) us' := by
  induction h with
  | nil => exact fun _ => trivial
  | node c ts ts' us us' _ _ ih1 ih2 =>
    intro h; simp only [UsesAll, Uses] at *
    exact ⟨ih1 h.1, ih2 h.2⟩
  | other n as as' us us' hn _ _ ih1 ih2 =>
    intro h; simp only [UsesAll, Uses] at *
    exact ⟨⟨⟨h.1.1, hn⟩, ih1 h.1.2⟩, ih2 h.2⟩
  | value n v v' as as' us us' hn _ _ _ _ ih2 ih3 =>
    intro h
    have h1 := ih2 ⟨hG.values n v hn, trivial⟩
    simp only [UsesAll] at *
    exact ⟨h1.1, ih3 h.2⟩
  | empty n ps as as' us us' hn _ _ _ ih2 =>
    intro h; simp only [UsesAll] at *
    exact ⟨by simp [noop, Uses, UsesAll], ih2 h.2⟩
  | call n ps b t' as as' us us' hn hv hl _ _ ih1 ih2 ih3 =>
    intro h; simp only [UsesAll, Uses] at h
    have hc := ih1 h.1.2
    have h1 := ih2 ⟨subst_outside b (fun m v hv => Clean.outside (usesAll_iff.1 hc v (pairing_some hv).2)) ?_, trivial⟩
    · simp only [UsesAll] at *
      exact ⟨h1.1, ih3 h.2⟩
    · refine Uses.mono (fun m xs hm => ?_) b (hG.bodies n ps b hn)
      rcases hm with ⟨hm, _⟩ | hm
      · left
        have hl' : as'.length = ps.length := by rw [← hl]; exact expands_length hv
        obtain ⟨v, hv⟩ := pairing_of_mem hm hl'
        rw [hv]; rfl
      · exact .inr hm

/-- A term with nothing to expand means itself. -/
theorem clean_expands {us us' : List Tm} (h : Expands G us us') :
    UsesAll (fun m _ => ¬ IsParam G m ∧ G m = none) us → us' = us := by
  induction h with
  | nil => exact fun _ => rfl
  | node c ts ts' us us' _ _ ih1 ih2 =>
    intro h; simp only [UsesAll, Uses] at h
    rw [ih1 h.1, ih2 h.2]
  | other n as as' us us' hn _ _ ih1 ih2 =>
    intro h; simp only [UsesAll, Uses] at h
    rw [ih1 h.1.2, ih2 h.2]
  | value n v v' as as' us us' hn => intro h; simp only [UsesAll, Uses, hn] at h; exact absurd h.1.1.2 (by simp)
  | empty n ps as as' us us' hn => intro h; simp only [UsesAll, Uses, hn] at h; exact absurd h.1.1.2 (by simp)
  | call n ps b t' as as' us us' hn => intro h; simp only [UsesAll, Uses, hn] at h; exact absurd h.1.1.2 (by simp)

theorem expands_clean_self (t : Tm) : Clean G t → ∀ us us', Expands G us us' → Expands G (t :: us) (t :: us') := by
  induction t using Tm.ind with
  | hn c ts ih =>
    intro h us us' hu
    simp only [Clean, Uses, usesAll_iff] at h
    refine .node c ts ts us us' ?_ hu
    induction ts with
    | nil => exact .nil
    | cons t ts ih2 =>
      exact ih t (by simp) (h t (by simp)) _ _ (ih2 (fun u hu => ih u (by simp [hu])) (fun u hu => h u (by simp [hu])))
  | hc n ts ih =>
    intro h us us' hu
    simp only [Clean, Uses, usesAll_iff] at h
    refine .other n ts ts us us' h.1.2 ?_ hu
    replace h := h.2
    induction ts with
    | nil => exact .nil
    | cons t ts ih2 =>
      exact ih t (by simp) (h t (by simp)) _ _ (ih2 (fun u hu => ih u (by simp [hu])) (fun u hu => h u (by simp [hu])))

end Verif.Preprocess
