import Verif.Lang.Consts.Sound
import Verif.Lang.Assign.Refs
/-!
# C142-C144: constants
-/
namespace Verif.Consts
open Verif.Assign (Ty assignable core isConst unwrap core_const core_ptr core_struct core_ptr_other isNull isPtr)
open Verif.Prim (Prim)

theorem pointee_fine {t : Ty} (h : Pointee t) : Fine t := by
  cases t with
  | ptr k t => exact (scalar_of_ptr h).1
  | prim _ => trivial
  | struct _ => trivial
  | _ => exact absurd h id

theorem sees_fine {d t : Ty} (hd : Fine d) (h : Sees d t) : Fine t := by
  rcases h with rfl | ⟨_, h⟩
  · exact hd
  · exact pointee_fine h

theorem core_unwrap {impl t} : ∀ u, core impl t u = true → core impl t (unwrap u) = true := by
  intro u
  induction u with
  | const u ih => intro h; exact ih (core_const h)
  | _ => intro h; exact h

theorem assignable_core {impl t u} (ht : Fine t) (h : assignable impl t u = true) : t = u ∨ core impl t u = true := by
  unfold Assign.assignable at h
  split at h
  · left; assumption
  · right; cases t <;> first | exact h | exact absurd ht id

theorem core_prim {impl p u} (h : core impl (.prim p) u = true) : (∃ q, unwrap u = .prim q) ∨ ∃ i q, unwrap u = .enum i q := by
  rw [core] at h
  simp only [unwrap, isPtr, Bool.and_false] at h
  by_cases he : Ty.prim p = unwrap u
  · left; exact ⟨p, he.symm⟩
  · cases hw : unwrap u with
    | prim q => left; exact ⟨q, rfl⟩
    | enum i q => right; exact ⟨i, q, rfl⟩
    | _ => rw [hw] at h; simp at h

theorem scalar_same {impl s x} (hs : Pointee s) (hp : ∀ k t, s ≠ .ptr k t) (hx : Fine x) (h : assignable impl s x = true) : same x s := by
  rcases assignable_core (pointee_fine hs) h with rfl | h
  · exact same_refl hs hp
  · cases s with
    | prim p =>
      rcases core_prim h with ⟨q, e⟩ | ⟨i, q, e⟩
      · rw [fine_unwrap hx] at e; subst e; trivial
      · rw [fine_unwrap hx] at e; subst e; exact absurd hx id
    | struct a =>
      rcases core_struct h with e | e
      · rw [fine_unwrap hx] at e; subst e; rfl
      · rw [fine_unwrap hx] at e
        cases x with
        | ptr k t => cases t <;> simp [isNull] at e; exact absurd hx id
        | _ => simp [isNull] at e
    | ptr k t => exact absurd rfl (hp k t)
    | _ => exact absurd hs id

theorem asg_below {impl u w} (hu : Pointee u) (hw : Fine w) (ha : ∀ n x, w ≠ .arr n x) (h : assignable impl u w = true) : below w u := by
  by_cases hp : ∃ k s, u = .ptr k s
  · obtain ⟨k, s, rfl⟩ := hp
    obtain ⟨hs, hsp⟩ := scalar_of_ptr hu
    rcases assignable_core (pointee_fine hu) h with rfl | h
    · exact below_refl hu
    · cases w with
      | ptr k' x =>
        obtain ⟨h1, h2⟩ := core_ptr h
        refine ⟨fun hk' => ?_, ?_⟩
        · cases k with
          | true => rfl
          | false => rw [h1 rfl] at hk'; exact hk'
        · rcases h2 with rfl | rfl | rfl | h2
          · exact same_refl hs hsp
          · exact absurd hs id
          · exact absurd hw id
          · exact scalar_same hs hsp (pointee_fine hw) h2
      | prim p =>
        have := (core_ptr_other rfl (by simp) (by simp) h).1
        subst this; exact absurd hs id
      | struct p =>
        have := (core_ptr_other rfl (by simp) (by simp) h).1
        subst this; exact absurd hs id
      | arr n x => exact absurd rfl (ha n x)
      | _ => exact absurd hw id
  · exact below_of_same (scalar_same hu (fun k t h => hp ⟨k, t, h⟩) hw h)

/-- A pointer accepted for a pointer type. -/
theorem ptr_from {impl k t R kR w} (ht : Pointee t) (hu : unwrap R = .ptr kR w) (h : assignable impl (.ptr k t) R = true) :
    (k = false → kR = false) ∧ (w = .null ∨ t = w ∨ assignable impl t w = true) := by
  rcases assignable_core (t := .ptr k t) ht h with rfl | h
  · simp [unwrap] at hu
    obtain ⟨rfl, rfl⟩ := hu
    exact ⟨id, Or.inr (Or.inl rfl)⟩
  · have := core_unwrap R h
    rw [hu] at this
    obtain ⟨h1, h2⟩ := core_ptr this
    refine ⟨h1, ?_⟩
    rcases h2 with h2 | rfl | h2 | h2
    · exact Or.inr (Or.inl h2)
    · exact absurd ht id
    · exact Or.inl h2
    · exact Or.inr (Or.inr h2)

theorem core_not_const {impl k t R} (h : core impl (.ptr k t) R = true) (hk : k = false) : isConst R = false := by
  rw [core] at h
  cases hc : isConst R with
  | false => rfl
  | true => rw [hc, hk] at h; simp [isConst, unwrap, isPtr] at h

/-- An accepted value fits the declared type of the place. -/
theorem stored {env : Env} (hw : FineEnv env) {impl} {d T R : Ty} {v : Val} (hd : Fine d) (hs : Sees d T)
    (hT : isConst T = false ∨ d = T) (ha : assignable impl T R = true) (hv : Holds env v (unwrap R)) : Holds env v d := by
  cases v with
  | num n => trivial
  | addr l =>
    obtain ⟨kR, w, d2, hR, hna, hl, hs2, hk⟩ := hv
    have hd2 := fine_loc hw hl
    have hfw := sees_fine hd2 hs2
    have hTf := sees_fine hd hs
    cases d with
    | prim p =>
      have hT' : ∃ q, T = .prim q := by
        rcases hs with rfl | ⟨hb, _⟩
        · exact ⟨p, rfl⟩
        · cases T <;> first | exact absurd hb id | exact ⟨_, rfl⟩
      obtain ⟨q, rfl⟩ := hT'
      rcases assignable_core hTf ha with rfl | h
      · simp [unwrap] at hR
      · rcases core_prim h with ⟨_, e⟩ | ⟨_, _, e⟩ <;> simp [hR] at e
    | struct s =>
      have hT' : T = .struct s := by
        rcases hs with rfl | ⟨hb, _⟩
        · rfl
        · cases T <;> first | exact absurd hb id | (simp [below, same] at hb; rw [hb])
      subst hT'
      rcases assignable_core hTf ha with rfl | h
      · simp [unwrap] at hR
      · rcases core_struct h with e | e
        · rw [hR] at e; simp at e
        · rw [hR] at e
          cases w <;> simp [isNull] at e
          exact absurd hfw id
    | arr n x =>
      have hT' : T = .arr n x := by
        rcases hs with rfl | ⟨hb, _⟩
        · rfl
        · cases T <;> exact absurd hb id
      subst hT'
      rcases assignable_core hTf ha with rfl | h
      · simp [unwrap] at hR
      · rw [core] at h
        simp only [unwrap, isPtr, Bool.and_false] at h
        rw [hR] at h
        simp at h
    | ptr k u =>
      have hu : Pointee u := hd
      have hs' : Ty.ptr k u = T ∨ below (.ptr k u) T ∧ Pointee T ∧ isConst T = false := by
        rcases hT with h | h
        · rcases hs with e | ⟨h1, h2⟩
          · exact Or.inl e
          · exact Or.inr ⟨h1, h2, h⟩
        · exact Or.inl h
      rcases hs' with rfl | ⟨hb, hpT, hcT⟩
      · obtain ⟨h1, h2⟩ := ptr_from hu hR ha
        refine ⟨k, u, d2, rfl, fun n x e => by subst e; exact hu, hl, Or.inr ⟨?_, hu⟩, fun h0 => hk (h1 h0)⟩
        rcases h2 with rfl | rfl | h2
        · exact absurd hfw id
        · exact sees_below hs2 hu
        · have hb := asg_below hu hfw hna h2
          rcases hs2 with rfl | ⟨hb2, _⟩
          · exact hb
          · exact below_trans hb2 hb
      · cases T with
        | ptr kT uT =>
          have hkT : kT = false := hcT
          obtain ⟨hsc, hnp⟩ := scalar_of_ptr hpT
          obtain ⟨h1, h2⟩ := ptr_from hsc hR ha
          refine ⟨k, u, d2, rfl, fun n x e => by subst e; exact hu, hl, Or.inr ⟨?_, hu⟩, fun _ => hk (h1 hkT)⟩
          have hw2 : same w uT := by
            rcases h2 with rfl | rfl | h2
            · exact absurd hfw id
            · exact same_refl hsc hnp
            · exact scalar_same hsc hnp hfw h2
          have hwp : Pointee w ∧ ∀ k t, w ≠ .ptr k t := by
            cases w <;> cases uT <;> first | exact absurd hw2 id | exact ⟨trivial, by simp⟩
          have hd2w : same d2 w := same_of_below (sees_below hs2 hwp.1) hwp.2
          exact below_of_same (same_trans hd2w (same_trans hw2 (same_symm hb.2)))
        | _ => exact absurd hb id
    | _ => exact absurd hd id

/-- The first element of an array accepted for a pointer. -/
theorem stored_array {env : Env} (hw : FineEnv env) {impl} {k : Bool} {u R x : Ty} {n : Option Nat} {l : Loc} (hu : Pointee u)
    (hR : unwrap R = .arr n x) (hna : ∀ n' x', x ≠ .arr n' x') (hl : locTy env l = some x)
    (hk : k = false → isConst R = false → (env.var l.1).const = false) (ha : assignable impl (.ptr k u) R = true) :
    Holds env (.addr l) (.ptr k u) := by
  rcases assignable_core (t := .ptr k u) hu ha with rfl | h
  · simp [unwrap] at hR
  · refine ⟨k, u, x, rfl, fun n x e => by subst e; exact hu, hl, Or.inr ⟨?_, hu⟩, fun h0 => hk h0 (core_not_const h h0)⟩
    have hc := core_unwrap R h
    rw [hR, core] at hc
    simp only [unwrap, isConst, Bool.false_and] at hc
    have hv : u ≠ .void := by intro e; subst e; exact hu
    simp [hv] at hc
    exact asg_below hu (fine_loc hw hl) hna hc

theorem store_set {env : Env} {m m' : Mem} {l : Loc} {v : Val} (h : store env m l v = some m') :
    m' = m.set l v ∧ ∀ d, locTy env l = some d → ∀ n u, d ≠ .arr n u := by
  unfold store at h
  split at h
  · simp at h
  · simp at h
  · rename_i hne _ heq
    simp at h
    refine ⟨h.symm, fun d hd n u e => ?_⟩
    subst e
    rw [heq] at hd
    exact hne n u (Option.some.inj hd)
  · simp at h

theorem good_set {env : Env} {m : Mem} (hg : Good env m) {l : Loc} {v : Val} (h : ∀ d, locTy env l = some d → Holds env v d) :
    Good env (m.set l v) := by
  intro x d hx
  unfold Mem.set
  split
  · rename_i e; subst e; exact h d hx
  · exact hg x d hx

/-- The place and the type of the left side of an assignment. -/
theorem left_typed {env : Env} {m : Mem} (hw : FineEnv env) (hg : Good env m) (l : Ex) {t : Ty} {k : Bool} {p : Loc}
    (hp : PlainEx env l) (hc : checkLeft env l = some (t, k)) (he : ev env m l = some (.at p)) :
    ∃ d, locTy env p = some d ∧ Sees d (unwrap t) ∧ (ro env l = false → (env.var p.1).const = false) := by
  cases l with
  | idx e i =>
    simp only [checkLeft] at hc
    cases hce : check env e with
    | none => rw [hce] at hc; simp at hc
    | some te =>
      obtain ⟨te, ke⟩ := te
      cases hci : check env i with
      | none => rw [hce, hci] at hc; simp at hc
      | some ti =>
        rw [hce, hci] at hc
        simp only [] at hc
        split at hc
        · rename_i hii
          rw [ev, hce] at he
          split at he
          · rename_i t' _ r0 ri heq1 heq2 heq3
            cases heq1
            have hty := ev_typed hw hg e te ke r0 hp.1 hce heq2
            split at he
            · rename_i n hn
              split at he
              · rename_i c u l hua
                rw [hua] at hc
                simp at hc
                obtain ⟨rfl, rfl⟩ := hc
                obtain ⟨d, hl, hsee, hkro⟩ := hty
                rw [hua] at hsee
                rw [sees_arr hsee] at hl
                cases hel : elem env l n with
                | none => rw [hel] at he; simp at he
                | some l' =>
                  rw [hel] at he
                  simp at he
                  subst he
                  obtain ⟨h1, h2⟩ := elem_typed hel hl
                  refine ⟨_, h1, Or.inl (fine_unwrap (fine_loc hw h1)).symm, fun h0 => ?_⟩
                  have : ro env (.idx e i) = ro env e := by rw [ro, hce]; simp only []; rw [hua]
                  rw [h2]
                  exact hkro (this ▸ h0)
              · rename_i r0 _ _ c u hua
                rw [hua] at hc
                simp at hc
                obtain ⟨rfl, rfl⟩ := hc
                split at he
                · rename_i l hload
                  have hh : Holds env (.addr l) (.ptr c u) := by
                    cases r0 with
                    | «at» p =>
                      obtain ⟨d, hl, hsee, _⟩ := hty
                      rw [hua] at hsee
                      exact load_at hg hl hsee (by simp) hload
                    | val v =>
                      simp [load] at hload
                      subst hload
                      obtain ⟨k2, u2, d, he2, hrest⟩ := hty
                      rw [he2] at hua
                      simp [unwrap] at hua
                      obtain ⟨rfl, rfl⟩ := hua
                      exact ⟨_, _, d, rfl, hrest⟩
                  obtain ⟨k2, u2, d, he2, _, hl, hsee, hkk⟩ := hh
                  cases he2
                  cases hsh : shift env l n with
                  | none => rw [hsh] at he; simp at he
                  | some l' =>
                    rw [hsh] at he
                    simp at he
                    subst he
                    obtain ⟨h1, h2⟩ := shift_typed hsh hl
                    refine ⟨d, h1, ?_, fun h0 => ?_⟩
                    · rw [sees_unwrap (fine_loc hw hl) hsee]; exact hsee
                    · have : ro env (.idx e i) = c := by rw [ro, hce]; simp only []; rw [hua]
                      rw [h2]
                      exact hkk (this ▸ h0)
                · simp at he
              · simp at he
            · simp at he
          · simp at he
        · simp at hc
  | num p n => simp [ev] at he
  | var v => exact ev_typed hw hg (.var v) t k (.at p) hp hc he
  | mem e f => exact ev_typed hw hg (.mem e f) t k (.at p) hp hc he
  | deref e => exact ev_typed hw hg (.deref e) t k (.at p) hp hc he
  | ptrof e => exact ev_typed hw hg (.ptrof e) t k (.at p) hp hc he

theorem wrapped_of_const {env : Env} {v : Nat} {n : Option Nat} {x : Ty} (hv : (env.var v).ty = .arr n x) :
    wrapped (declTy (env.var v)) = (env.var v).const := by
  unfold declTy
  rw [hv]
  cases (env.var v).const <;> simp [isConst, wrapped]

/-- The place written by an accepted assignment is not constant. -/
theorem left_not_const {env : Env} {m : Mem} (hw : FineEnv env) (hg : Good env m) (l : Ex) {t : Ty} {p : Loc}
    (hp : PlainEx env l) (hc : checkLeft env l = some (t, false)) (he : ev env m l = some (.at p))
    (ho : ro env l = false ∨ Own env l ∨ ViaPtr env l) : (env.var p.1).const = false := by
  obtain ⟨d, _, _, hro⟩ := left_typed hw hg l hp hc he
  rcases ho with h | h | h
  · exact hro h
  · cases l with
    | var v =>
      simp [ev] at he
      subst he
      simp [checkLeft, check] at hc
      exact hc.2
    | idx a i =>
      cases a with
      | var v =>
        obtain ⟨n, x, hvt⟩ := h
        apply hro
        rw [ro, check]
        simp only []
        rw [unwrap_declTy hw, hvt]
        simp only [ro]
        simp only [checkLeft] at hc
        cases hci : check env i with
        | none => rw [hci] at hc; simp [check] at hc
        | some ti =>
          rw [hci] at hc
          simp only [check] at hc
          split at hc
          · rw [unwrap_declTy hw, hvt] at hc
            simp at hc
            rw [← wrapped_of_const hvt]
            exact hc.2
          · simp at hc
      | _ => exact absurd h id
    | _ => exact absurd h id
  · cases l with
    | idx e i =>
      obtain ⟨te, ke, c, u, hce, hua⟩ := h
      apply hro
      rw [ro, hce]
      simp only []
      rw [hua]
      simp only [checkLeft] at hc
      rw [hce] at hc
      cases hci : check env i with
      | none => rw [hci] at hc; simp at hc
      | some ti =>
        rw [hci] at hc
        simp only [] at hc
        split at hc
        · rw [hua] at hc
          simp at hc
          exact hc.2.2
        · simp at hc
    | _ => exact absurd h id

theorem step_not_const {env : Env} {m : Mem} (hw : FineEnv env) (hg : Good env m) (l : Ex) {t : Ty} {p : Loc}
    (hp : PlainEx env l) (hc : check env l = some (t, false)) (he : ev env m l = some (.at p))
    (ho : ro env l = false ∨ Own env l) : (env.var p.1).const = false := by
  obtain ⟨d, _, _, hro⟩ := ev_typed hw hg l t false (.at p) hp hc he
  rcases ho with h | h
  · exact hro h
  · cases l with
    | var v =>
      simp [ev] at he
      subst he
      simp [check] at hc
      exact hc.2
    | idx a i =>
      cases a with
      | var v =>
        obtain ⟨n, x, hvt⟩ := h
        apply hro
        rw [ro, check]
        simp only []
        rw [unwrap_declTy hw, hvt]
        simp only [ro]
        rw [check] at hc
        cases hci : check env i with
        | none => rw [hci] at hc; simp [check] at hc
        | some ti =>
          rw [hci] at hc
          simp only [check] at hc
          split at hc
          · rw [unwrap_declTy hw, hvt] at hc
            simp at hc
            exact hc.2
          · simp at hc
      | _ => exact absurd h id
    | _ => exact absurd h id

/-- The value of a right side that is not an array. -/
theorem right_holds {env : Env} {m : Mem} (hw : FineEnv env) (hg : Good env m) (e : Ex) {t : Ty} {k : Bool} {r : Ref} {v : Val}
    (hp : PlainEx env e) (hc : check env e = some (t, k)) (he : ev env m e = some r) (hl : load env m r = some v)
    (ha : ∀ n x, unwrap t ≠ .arr n x) : Holds env v (unwrap t) := by
  have hty := ev_typed hw hg e t k r hp hc he
  cases r with
  | «at» p =>
    obtain ⟨d, hld, hsee, _⟩ := hty
    exact load_at hg hld hsee ha hl
  | val x =>
    simp [load] at hl
    subst hl
    cases x with
    | num n => trivial
    | addr l =>
      obtain ⟨k, u, d, rfl, hrest⟩ := hty
      exact ⟨k, u, d, rfl, hrest⟩

/-- The value of an array. -/
theorem right_array {env : Env} {m : Mem} (hw : FineEnv env) (hg : Good env m) (e : Ex) {t : Ty} {k : Bool} {r : Ref} {v : Val}
    {n : Option Nat} {x : Ty}
    (hp : PlainEx env e) (hc : check env e = some (t, k)) (he : ev env m e = some r) (hl : load env m r = some v)
    (ha : unwrap t = .arr n x) : (∃ i, v = .num i) ∨ ∃ l, v = .addr l ∧ locTy env l = some x ∧
      (ro env e = false → (env.var l.1).const = false) ∧ ∀ w, e = .var w → l.1 = w := by
  have hty := ev_typed hw hg e t k r hp hc he
  cases r with
  | «at» p =>
    obtain ⟨d, hld, hsee, hro⟩ := hty
    rw [ha] at hsee
    rw [sees_arr hsee] at hld
    simp only [load] at hl
    rw [hld] at hl
    simp only [] at hl
    cases hel : elem env p 0 with
    | none => rw [hel] at hl; simp at hl
    | some l =>
      rw [hel] at hl
      simp at hl
      obtain ⟨h1, h2⟩ := elem_typed hel hld
      refine Or.inr ⟨l, hl.symm, h1, fun h0 => ?_, fun w hwe => ?_⟩
      · rw [h2]; exact hro h0
      · subst hwe
        simp [ev] at he
        rw [h2, ← he]
  | val y =>
    simp [load] at hl
    subst hl
    cases y with
    | num i => exact Or.inl ⟨i, rfl⟩
    | addr l =>
      obtain ⟨k, u, d, rfl, _⟩ := hty
      simp [unwrap] at ha

theorem exec_keeps {env : Env} {m m' : Mem} (hw : FineEnv env) (hg : Good env m) (s : Stmt) (ha : accepts env s = true)
    (hp : Plain env s) (h : exec env m s = some m') :
    Good env m' ∧ ∀ v, (env.var v).const = true → (∀ e, s ≠ .init v e) → ∀ p, m' (v, p) = m (v, p) := by
  have keep : ∀ (l : Loc) (x : Val) (v : Nat), (l.1 = v → False) → ∀ p, m.set l x (v, p) = m (v, p) := by
    intro l x v hne p
    unfold Mem.set
    rw [if_neg (fun e => hne (by rw [← e]))]
  cases s with
  | assign l e =>
    obtain ⟨hpl, hpe, ho⟩ := hp
    simp only [accepts] at ha
    split at ha
    · rename_i t k u ku hcl hce
      simp at ha
      obtain ⟨⟨⟨rfl, hct⟩, harr⟩, has⟩ := ha
      simp only [exec] at h
      split at h
      · rename_i p r hel her
        split at h
        · rename_i v hv
          obtain ⟨rfl, hna⟩ := store_set h
          obtain ⟨d, hld, hsee, _⟩ := left_typed hw hg l hpl hcl hel
          have hd := fine_loc hw hld
          have hnc := left_not_const hw hg l hpl hcl hel ho
          have hut : unwrap t = t := by
            cases t <;> first | rfl | simp [isConst] at hct
          rw [hut] at hsee
          have hua : (∃ q, v = .addr q) → ∀ n x, unwrap u ≠ .arr n x := by
            intro hva n x hu
            have hTf := sees_fine hd hsee
            have hnt : ∀ n x, t ≠ .arr n x := by
              intro n x e
              subst e
              exact hna d hld n x (sees_arr hsee)
            rcases assignable_core hTf has with rfl | hco
            · rw [hut] at hu; exact hnt _ _ hu
            · cases t with
              | prim q => rcases core_prim hco with ⟨_, e⟩ | ⟨_, _, e⟩ <;> rw [hu] at e <;> simp at e
              | struct q =>
                rcases core_struct hco with e | e
                · rw [hu] at e; simp at e
                · rw [hu] at e; simp [isNull] at e
              | arr n x => exact absurd rfl (hnt n x)
              | ptr kt ut =>
                have hcu := core_not_const hco (by simpa [isConst] using hct)
                have : u = .arr n x := by
                  cases u <;> simp [unwrap] at hu <;> first | (simp [hu]; done) | (simp [isConst] at hcu)
                subst this
                cases n with
                | some n => simp [isArr] at harr
                | none =>
                  -- an array without a length is no type of a place
                  have hty := ev_typed hw hg e _ _ r hpe hce her
                  cases r with
                  | «at» q =>
                    obtain ⟨d', hld', hsee', _⟩ := hty
                    rw [unwrap] at hsee'
                    · exact absurd (fine_loc hw hld') (by rw [sees_arr hsee']; exact id)
                    · simp
                  | val y =>
                    simp [load] at hv
                    subst hv
                    obtain ⟨q, rfl⟩ := hva
                    obtain ⟨_, _, _, he2, _⟩ := hty
                    simp at he2
              | _ => exact absurd hTf id
          refine ⟨good_set hg fun d' hd' => ?_, fun w hcw _ => keep p v w (fun e => by rw [e, hcw] at hnc; simp at hnc)⟩
          rw [hld] at hd'
          cases hd'
          cases v with
          | num i => trivial
          | addr q => exact stored hw hd hsee (Or.inl hct) has (right_holds hw hg e hpe hce her hv (hua ⟨q, rfl⟩))
        · simp at h
      · simp at h
    · simp at ha
  | step l n =>
    obtain ⟨hpl, ho⟩ := hp
    simp only [accepts] at ha
    split at ha
    · rename_i t k hcl
      simp at ha
      obtain ⟨rfl, _⟩ := ha
      simp only [exec] at h
      split at h
      · rename_i p hel
        split at h
        · obtain ⟨rfl, _⟩ := store_set h
          have hnc := step_not_const hw hg l hpl hcl hel ho
          exact ⟨good_set hg fun _ _ => trivial, fun w hcw _ => keep p _ w (fun e => by rw [e, hcw] at hnc; simp at hnc)⟩
        · simp at h
      · simp at h
    · simp at ha
  | init v e =>
    obtain ⟨hpe, hpa⟩ := hp
    simp only [accepts] at ha
    split at ha
    · rename_i u ku hce
      simp only [exec] at h
      split at h
      · rename_i r her
        split at h
        · rename_i x hx
          obtain ⟨rfl, hna⟩ := store_set h
          have hlv : locTy env (v, []) = some (env.var v).ty := rfl
          have hd := hw.var v
          refine ⟨good_set hg fun d' hd' => ?_, fun w _ hi => keep (v, []) x w (fun hvw => by
            cases hvw; exact hi e rfl)⟩
          rw [hlv] at hd'
          cases hd'
          by_cases hua : ∃ n y, unwrap u = .arr n y
          · obtain ⟨n, y, hua⟩ := hua
            obtain ⟨hny, hro⟩ := hpa u ku n y hce hua
            rcases right_array hw hg e hpe hce her hx hua with ⟨i, rfl⟩ | ⟨l, rfl, hl, hl2, hl3⟩
            · trivial
            · have hnt := hna _ hlv
              cases hvt : (env.var v).ty with
              | ptr k t =>
                rw [hvt] at ha hd
                refine stored_array hw hd hua hny hl (fun h0 hcu => ?_) ha
                rcases hro with h1 | ⟨w, rfl⟩
                · exact hl2 h1
                · rw [hl3 w rfl]
                  simp [check] at hce
                  rw [← hce.1] at hcu
                  unfold declTy at hcu
                  cases hcw : (env.var w).const with
                  | false => rfl
                  | true =>
                    rw [hcw] at hcu
                    cases hiw : isConst (env.var w).ty with
                    | true => simp [hiw] at hcu
                    | false =>
                      rw [hiw] at hcu
                      exact absurd hcu (by simp [isConst])
              | prim p =>
                rw [hvt] at ha
                rcases assignable_core (t := .prim p) trivial ha with rfl | h1
                · simp [unwrap] at hua
                · rcases core_prim h1 with ⟨_, e⟩ | ⟨_, _, e⟩ <;> rw [hua] at e <;> simp at e
              | struct p =>
                rw [hvt] at ha
                rcases assignable_core (t := .struct p) trivial ha with rfl | h1
                · simp [unwrap] at hua
                · rcases core_struct h1 with e | e
                  · rw [hua] at e; simp at e
                  · rw [hua] at e; simp [isNull] at e
              | arr n t => exact absurd hvt (hnt n t)
              | _ => rw [hvt] at hd; exact absurd hd id
          · have hh := right_holds hw hg e hpe hce her hx (fun n y h => hua ⟨n, y, h⟩)
            exact stored hw hd (Or.inl rfl) (Or.inr rfl) ha hh
        · simp at h
      · simp at h
    · simp at ha

theorem run_keeps {env : Env} (hw : FineEnv env) : ∀ (ss : List Stmt) (m m' : Mem), Good env m →
    (∀ s ∈ ss, accepts env s = true ∧ Plain env s) → run env m ss = some m' →
    Good env m' ∧ ∀ v, (env.var v).const = true → (∀ e, Stmt.init v e ∉ ss) → ∀ p, m' (v, p) = m (v, p) := by
  intro ss
  induction ss with
  | nil => intro m m' hg _ h; simp [run] at h; subst h; exact ⟨hg, fun _ _ _ _ => rfl⟩
  | cons s ss ih =>
    intro m m' hg hs h
    rw [run] at h
    split at h
    · rename_i m1 he
      obtain ⟨h1, h2⟩ := hs s (by simp)
      obtain ⟨hg1, hk1⟩ := exec_keeps hw hg s h1 h2 he
      obtain ⟨hg2, hk2⟩ := ih m1 m' hg1 (fun x hx => hs x (by simp [hx])) h
      refine ⟨hg2, fun v hc hi p => ?_⟩
      rw [hk2 v hc (fun e he => hi e (by simp [he])) p]
      exact hk1 v hc (fun e he => hi e (by simp [he])) p
    · simp at h

/-- Memory at the start. -/
def zero : Mem := fun _ => .num 0

/-- **C142 (partial).** On any way through a program of accepted statements, a constant keeps the value it was initialised with:
in the variable itself, in its fields and in its elements, whatever is written directly or through pointers. Missing:
statements that write to, or take the address of, a member of a constant, an element of an element, or what a pointer to
constants points to (`Plain`); pointers of three levels (`FineEnv`): the theorems below. -/
theorem constants_keep_their_value_partial {env : Env} (hw : FineEnv env) (before after : List Stmt) (m m' : Mem)
    (hs : ∀ s ∈ before ++ after, accepts env s = true ∧ Plain env s)
    (h1 : run env zero before = some m) (h2 : run env m after = some m')
    (v : Nat) (hc : (env.var v).const = true) (hi : ∀ e, Stmt.init v e ∉ after) (p : List Nat) : m' (v, p) = m (v, p) := by
  have hg : Good env zero := fun _ _ _ => trivial
  obtain ⟨hg1, _⟩ := run_keeps hw before zero m hg (fun s hx => hs s (by simp [hx])) h1
  exact (run_keeps hw after m m' hg1 (fun s hx => hs s (by simp [hx])) h2).2 v hc hi p

end Verif.Consts
