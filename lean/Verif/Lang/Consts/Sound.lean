import Verif.Lang.Consts.Model
import Verif.Lang.Assign.Sound
/-!
# Constants keep their value
-/
namespace Verif.Consts
open Verif.Assign (Ty assignable core isConst unwrap)
open Verif.Prim (Prim)

/-! ## Specification -/

/-- The innermost pointer of a type: whether it is one to a constant. -/
def lastPtr : Ty → Option Bool
  | .ptr k t => some ((lastPtr t).getD k)
  | .const t => lastPtr t
  | _ => none

/-- What must not be written, as in C: a constant variable, any part of one, and what a pointer to constants points to. -/
def ro (env : Env) : Ex → Bool
  | .num _ _ => false
  | .var v => (env.var v).const
  | .mem e _ =>
    match check env e with
    | some (t, _) => (lastPtr t).getD (ro env e)
    | none => false
  | .idx e _ =>
    match check env e with
    | some (t, _) =>
      match unwrap t with
      | .ptr k _ => k
      | _ => ro env e
    | none => false
  | .deref e =>
    match check env e with
    | some (t, _) =>
      match unwrap t with
      | .ptr k _ => k
      | _ => false
    | none => false
  | .ptrof _ => false

/-- A variable, or an element of an array variable. -/
def Own (env : Env) : Ex → Prop
  | .var _ => True
  | .idx (.var v) _ => ∃ n t, (env.var v).ty = .arr n t
  | _ => False

/-- What a pointer may point to here: a number, a structure, or a pointer to one of these. -/
def Pointee : Ty → Prop
  | .prim _ | .struct _ => True
  | .ptr _ (.prim _) | .ptr _ (.struct _) => True
  | _ => False

/-- Types of variables and fields here: numbers, structures, pointers up to two levels, arrays of these. -/
def Fine : Ty → Prop
  | .prim _ | .struct _ => True
  | .ptr _ t => Pointee t
  | .arr (some _) t => Fine t
  | _ => False

structure FineEnv (env : Env) : Prop where
  var : ∀ v, Fine (env.var v).ty
  field : ∀ s f t, env.field s f = some t → Fine t

/-- Address taken only of places that are not constant or that the checker sees to be constant, and not of arrays; no
dereferencing of constant pointer variables. -/
def PlainEx (env : Env) : Ex → Prop
  | .num _ _ | .var _ => True
  | .mem e _ => PlainEx env e
  | .idx e i => PlainEx env e ∧ PlainEx env i
  | .deref e => PlainEx env e ∧ ∀ t k, check env e = some (t, k) → wrapped t = false
  | .ptrof e => PlainEx env e ∧ (ro env e = false ∨ Own env e) ∧
      ∀ t k n u, check env e = some (t, k) → unwrap t ≠ .arr n u

/-- Indexing through a pointer. -/
def ViaPtr (env : Env) : Ex → Prop
  | .idx e _ => ∃ t k c u, check env e = some (t, k) ∧ unwrap t = .ptr c u
  | _ => False

/-- The statements of the theorem below. -/
def Plain (env : Env) : Stmt → Prop
  | .assign l e => PlainEx env l ∧ PlainEx env e ∧ (ro env l = false ∨ Own env l ∨ ViaPtr env l)
  | .step l _ => PlainEx env l ∧ (ro env l = false ∨ Own env l)
  | .init _ e => PlainEx env e ∧ ∀ t k n u, check env e = some (t, k) → unwrap t = .arr n u →
      (∀ n' u', u ≠ .arr n' u') ∧ (ro env e = false ∨ ∃ v, e = .var v)

/-! ## Types of places -/

def same : Ty → Ty → Prop
  | .prim _, .prim _ => True
  | .struct a, .struct b => a = b
  | _, _ => False

/-- `d` may be seen as `t`: pointers to variables as pointers to constants. -/
def below : Ty → Ty → Prop
  | .ptr k' d, .ptr k t => (k' = true → k = true) ∧ same d t
  | d, t => same d t

def Sees (d t : Ty) : Prop := d = t ∨ below d t ∧ Pointee t

/-- A value that fits a type. -/
def Holds (env : Env) : Val → Ty → Prop
  | .num _, _ => True
  | .addr l, t => ∃ k u d, t = .ptr k u ∧ (∀ n x, u ≠ .arr n x) ∧ locTy env l = some d ∧ Sees d u ∧
      (k = false → (env.var l.1).const = false)

def Good (env : Env) (m : Mem) : Prop := ∀ l d, locTy env l = some d → Holds env (m l) d

theorem into_append (env : Env) : ∀ (p : List Nat) (t : Ty) (q : List Nat),
    into env t (p ++ q) = (into env t p).bind fun u => into env u q := by
  intro p
  induction p with
  | nil => intro t q; simp [into]
  | cons i p ih =>
    intro t q
    cases t with
    | struct s =>
      simp only [List.cons_append, into]
      cases env.field s i with
      | none => rfl
      | some u => exact ih u q
    | arr n u =>
      cases n with
      | none => simp [into]
      | some n =>
        simp only [List.cons_append, into]
        split
        · exact ih u q
        · rfl
    | _ => simp [into]

theorem fine_into {env : Env} (hw : FineEnv env) : ∀ (p : List Nat) (t u : Ty), Fine t → into env t p = some u → Fine u := by
  intro p
  induction p with
  | nil => intro t u ht h; simp [into] at h; exact h ▸ ht
  | cons i p ih =>
    intro t u ht h
    cases t with
    | struct s =>
      simp only [into] at h
      cases hf : env.field s i with
      | none => rw [hf] at h; simp at h
      | some x => rw [hf] at h; exact ih x u (hw.field s i x hf) h
    | arr n x =>
      cases n with
      | none => simp [into] at h
      | some n =>
        simp only [into] at h
        split at h
        · exact ih x u ht h
        · simp at h
    | _ => simp [into] at h

theorem fine_loc {env : Env} (hw : FineEnv env) {l : Loc} {d : Ty} (h : locTy env l = some d) : Fine d :=
  fine_into hw _ _ _ (hw.var _) h

theorem fine_unwrap {t : Ty} (h : Fine t) : unwrap t = t := by
  cases t <;> first | rfl | exact absurd h id

theorem pointee_unwrap {t : Ty} (h : Pointee t) : unwrap t = t := by
  cases t <;> first | rfl | exact absurd h id

theorem sees_unwrap {d t : Ty} (hd : Fine d) (h : Sees d t) : unwrap t = t := by
  rcases h with rfl | ⟨_, h⟩
  · exact fine_unwrap hd
  · exact pointee_unwrap h

theorem same_trans {a b c : Ty} (h1 : same a b) (h2 : same b c) : same a c := by
  cases a <;> cases b <;> first | exact absurd h1 id | skip
  all_goals cases c <;> first | exact absurd h2 id | skip
  · trivial
  · exact Eq.trans h1 h2

theorem same_symm {a b : Ty} (h : same a b) : same b a := by
  cases a <;> cases b <;> first | exact absurd h id | skip
  · trivial
  · exact Eq.symm h

theorem below_of_same {a b : Ty} (h : same a b) : below a b := by
  cases a <;> cases b <;> first | exact absurd h id | exact h

theorem same_of_below {a b : Ty} (h : below a b) (hb : ∀ k t, b ≠ .ptr k t) : same a b := by
  cases a <;> cases b <;> first | exact absurd h id | exact h | exact absurd rfl (hb _ _)

theorem below_trans {a b c : Ty} (h1 : below a b) (h2 : below b c) : below a c := by
  cases a <;> cases b <;> first | exact absurd h1 id | skip
  all_goals cases c <;> first | exact absurd h2 id | skip
  · trivial
  · exact Eq.trans h1 h2
  · exact ⟨fun h => h2.1 (h1.1 h), same_trans h1.2 h2.2⟩

theorem same_refl {a : Ty} (h : Pointee a) (hp : ∀ k t, a ≠ .ptr k t) : same a a := by
  cases a <;> first | exact absurd h id | trivial | rfl | exact absurd rfl (hp _ _)

theorem below_refl {a : Ty} (h : Pointee a) : below a a := by
  cases a with
  | ptr k t => cases t <;> first | exact absurd h id | exact ⟨id, trivial⟩ | exact ⟨id, rfl⟩
  | prim _ => trivial
  | struct _ => rfl
  | _ => exact absurd h id

theorem sees_below {d t : Ty} (h : Sees d t) (ht : Pointee t) : below d t := by
  rcases h with rfl | h
  · exact below_refl ht
  · exact h.1

theorem scalar_of_ptr {k : Bool} {t : Ty} (h : Pointee (.ptr k t)) : Pointee t ∧ ∀ k' t', t ≠ .ptr k' t' := by
  cases t <;> first | exact absurd h id | exact ⟨trivial, by simp⟩

/-- A value that fits the declared type fits the type the place is seen with. -/
theorem holds_seen {env : Env} {v : Val} {d t : Ty} (hs : Sees d t) (h : Holds env v d) : Holds env v t := by
  rcases hs with rfl | ⟨hb, hp⟩
  · exact h
  · cases v with
    | num n => trivial
    | addr l =>
      obtain ⟨k', u', e, rfl, ha, hl, hse, hk⟩ := h
      cases t with
      | ptr k u =>
        obtain ⟨hu, hnp⟩ := scalar_of_ptr hp
        refine ⟨k, u, e, rfl, fun n x hx => by subst hx; exact hu, hl, Or.inr ⟨?_, hu⟩, fun h0 => hk ?_⟩
        · have hsm := hb.2
          refine below_of_same (same_trans ?_ hsm)
          have hu' : Pointee u' ∧ ∀ k t, u' ≠ .ptr k t := by
            cases u' <;> cases u <;> first | exact absurd hsm id | exact ⟨trivial, by simp⟩
          exact same_of_below (sees_below hse hu'.1) hu'.2
        · cases k' with
          | false => rfl
          | true => exact absurd (hb.1 rfl) (by simp [h0])
      | _ => exact absurd hb id

theorem load_at {env : Env} {m : Mem} (hg : Good env m) {l : Loc} {d t : Ty} {v : Val}
    (hl : locTy env l = some d) (hs : Sees d t) (ha : ∀ n u, t ≠ .arr n u) (h : load env m (.at l) = some v) : Holds env v t := by
  have hd : ∀ n u, d ≠ .arr n u := by
    intro n u hd
    subst hd
    rcases hs with rfl | ⟨hb, _⟩
    · exact ha _ _ rfl
    · cases t <;> exact hb
  simp only [load] at h
  rw [hl] at h
  split at h
  · rename_i heq; cases heq; exact absurd rfl (hd _ _)
  · simp at h
  · simp at h
    subst h
    exact holds_seen hs (hg l d hl)
  · simp at h

theorem chase_typed {env : Env} {m : Mem} (hw : FineEnv env) (hg : Good env m) : ∀ (t d : Ty) (l l' : Loc),
    locTy env l = some d → Sees d (unwrap t) → chase m t l = some l' →
    (∃ d', locTy env l' = some d' ∧ Sees d' (stripAll t)) ∧
      (match lastPtr t with | some k => k = false → (env.var l'.1).const = false | none => l' = l) := by
  intro t
  induction t with
  | ptr k u ih =>
    intro d l l' hl hs h
    rw [chase] at h
    have hh := holds_seen hs (hg l d hl)
    cases hm : m l with
    | num n => rw [hm] at h; simp at h
    | addr l1 =>
      rw [hm] at h hh
      obtain ⟨k1, u1, d1, he, _, hl1, hs1, hk1⟩ := hh
      simp [unwrap] at he
      obtain ⟨rfl, rfl⟩ := he
      have hu := sees_unwrap (fine_loc hw hl1) hs1
      obtain ⟨h1, h2⟩ := ih d1 l1 l' hl1 (by rw [hu]; exact hs1) h
      refine ⟨h1, ?_⟩
      simp only [lastPtr]
      cases hp : lastPtr u with
      | none =>
        rw [hp] at h2
        simp only [] at h2
        subst h2
        exact hk1
      | some k2 =>
        rw [hp] at h2
        exact h2
  | const u ih =>
    intro d l l' hl hs h
    rw [chase] at h
    exact ih d l l' hl hs h
  | ref k u _ =>
    intro d l l' hl hs h
    have hd := fine_loc hw hl
    rcases hs with rfl | ⟨_, hs⟩
    · exact absurd hd id
    · exact absurd hs id
  | _ =>
    intro d l l' hl hs h
    simp [chase] at h
    subst h
    exact ⟨⟨d, hl, hs⟩, rfl⟩

theorem shift_typed {env : Env} {l l' : Loc} {n : Int} {d : Ty} (h : shift env l n = some l') (hl : locTy env l = some d) :
    locTy env l' = some d ∧ l'.1 = l.1 := by
  unfold shift at h
  split at h
  · simp at h; subst h; exact ⟨hl, rfl⟩
  · split at h
    · rename_i j hj
      split at h
      · rename_i k u hu
        split at h
        · rename_i hb
          simp at h
          subst h
          refine ⟨?_, rfl⟩
          have hp : l.2 = l.2.dropLast ++ [j] := by
            have hne : l.2 ≠ [] := by intro h0; rw [h0] at hj; simp at hj
            have := List.dropLast_concat_getLast hne
            rw [List.getLast?_eq_some_getLast hne] at hj
            simp at hj
            rw [hj] at this
            exact this.symm
          unfold locTy at hl hu ⊢
          rw [hp, into_append] at hl
          simp only [] at hu ⊢
          rw [into_append, hu]
          rw [hu] at hl
          simp only [Option.bind_some, into] at hl ⊢
          split at hl
          · rw [if_pos (by omega)]; exact hl
          · simp at hl
        · simp at h
      · simp at h
    · simp at h

theorem elem_typed {env : Env} {l l' : Loc} {n : Int} {c : Option Nat} {u : Ty} (h : elem env l n = some l')
    (hl : locTy env l = some (.arr c u)) : locTy env l' = some u ∧ l'.1 = l.1 := by
  unfold elem at h
  rw [hl] at h
  split at h
  · rename_i k x he
    simp at he
    obtain ⟨rfl, rfl⟩ := he
    split at h
    · rename_i hb
      simp at h
      subst h
      refine ⟨?_, rfl⟩
      unfold locTy at hl ⊢
      simp only []
      rw [into_append, hl]
      simp only [Option.bind_some, into]
      rw [if_pos (by omega)]
    · simp at h
  · simp at h

theorem field_typed {env : Env} {l : Loc} {s f : Nat} {u : Ty} (hl : locTy env l = some (.struct s)) (hf : env.field s f = some u) :
    locTy env (l.1, l.2 ++ [f]) = some u := by
  unfold locTy at hl ⊢
  simp only []
  rw [into_append, hl]
  simp [into, hf]

theorem sees_struct {d : Ty} {s : Nat} (h : Sees d (.struct s)) : d = .struct s := by
  rcases h with rfl | ⟨h, _⟩
  · rfl
  · cases d <;> first | exact absurd h id | (simp [below, same] at h; rw [h])

theorem sees_arr {d : Ty} {n : Option Nat} {u : Ty} (h : Sees d (.arr n u)) : d = .arr n u := by
  rcases h with rfl | ⟨_, h⟩
  · rfl
  · exact absurd h id

/-- What is known of an expression. -/
def Typed (env : Env) (e : Ex) (t : Ty) : Ref → Prop
  | .at l => ∃ d, locTy env l = some d ∧ Sees d (unwrap t) ∧ (ro env e = false → (env.var l.1).const = false)
  | .val v => Holds env v t

theorem unwrap_declTy {env : Env} (hw : FineEnv env) (v : Nat) : unwrap (declTy (env.var v)) = (env.var v).ty := by
  have := fine_unwrap (hw.var v)
  unfold declTy
  split
  · rw [unwrap]; exact this
  · exact this

theorem ev_typed {env : Env} {m : Mem} (hw : FineEnv env) (hg : Good env m) : ∀ (e : Ex) (t : Ty) (k : Bool) (r : Ref),
    PlainEx env e → check env e = some (t, k) → ev env m e = some r → Typed env e t r := by
  intro e
  induction e with
  | num p n =>
    intro t k r _ _ h
    simp [ev] at h
    subst h
    trivial
  | var v =>
    intro t k r _ hc h
    simp [ev] at h
    subst h
    simp [check] at hc
    obtain ⟨rfl, _⟩ := hc
    refine ⟨(env.var v).ty, rfl, Or.inl (unwrap_declTy hw v).symm, fun h => h⟩
  | mem e f ih =>
    intro t k r hp hc h
    rw [check] at hc
    cases hce : check env e with
    | none => rw [hce] at hc; simp at hc
    | some te =>
      obtain ⟨te, ke⟩ := te
      rw [hce] at hc
      simp only [] at hc
      split at hc
      · rename_i s hs
        simp at hc
        obtain ⟨_, hf, rfl, rfl⟩ := hc
        rw [ev, hce] at h
        have hro : ro env (.mem e f) = (lastPtr te).getD (ro env e) := by rw [ro, hce]
        have hft := hw.field s f _ hf
        split at h
        · rename_i t' _ l heq1 heq2
          cases heq1
          obtain ⟨d, hl, hsee, hkro⟩ := ih te ke (.at l) hp hce heq2
          split at h
          · rename_i l' hch
            simp at h
            subst h
            obtain ⟨⟨d', hl', hs'⟩, hlast⟩ := chase_typed hw hg te d l l' hl hsee hch
            rw [hs] at hs'
            rw [sees_struct hs'] at hl'
            refine ⟨_, field_typed hl' hf, Or.inl (fine_unwrap hft).symm, fun h0 => ?_⟩
            rw [hro] at h0
            cases hlp : lastPtr te with
            | none => rw [hlp] at hlast h0; simp at hlast h0; subst hlast; exact hkro h0
            | some k1 => rw [hlp] at hlast h0; exact hlast h0
          · simp at h
        · rename_i k1 t1 _ l heq1 heq2
          cases heq1
          obtain ⟨k2, u2, d, he2, _, hl, hsee, hkk⟩ := ih _ ke (.val (.addr l)) hp hce heq2
          cases he2
          split at h
          · rename_i l' hch
            simp at h
            subst h
            have hu2 := sees_unwrap (fine_loc hw hl) hsee
            obtain ⟨⟨d', hl', hs'⟩, hlast⟩ := chase_typed hw hg _ d l l' hl (by rw [hu2]; exact hsee) hch
            rw [show stripAll (.ptr k1 t1) = stripAll t1 from rfl] at hs
            rw [hs] at hs'
            rw [sees_struct hs'] at hl'
            refine ⟨_, field_typed hl' hf, Or.inl (fine_unwrap hft).symm, fun h0 => ?_⟩
            rw [hro] at h0
            simp only [lastPtr] at h0
            cases hlp : lastPtr t1 with
            | none => rw [hlp] at hlast h0; simp at hlast h0; subst hlast; exact hkk h0
            | some k3 => rw [hlp] at hlast h0; exact hlast h0
          · simp at h
        · simp at h
      · simp at hc
  | idx e i ih _ =>
    intro t k r hp hc h
    rw [check] at hc
    cases hce : check env e with
    | none => rw [hce] at hc; simp at hc
    | some te =>
      obtain ⟨te, ke⟩ := te
      cases hci : check env i with
      | none => rw [hce, hci] at hc; simp at hc
      | some ti =>
        rw [hce, hci] at hc
        simp only [] at hc
        rw [ev, hce] at h
        split at h
        · rename_i t' _ r0 ri heq1 heq2 heq3
          cases heq1
          have hty := ih te ke r0 hp.1 hce heq2
          split at h
          · rename_i n hn
            split at h
            · rename_i c u l hua
              rw [hua] at hc
              simp only [] at hc
              split at hc
              · simp at hc
                obtain ⟨rfl, rfl⟩ := hc
                obtain ⟨d, hl, hsee, hkro⟩ := hty
                rw [hua] at hsee
                rw [sees_arr hsee] at hl
                cases hel : elem env l n with
                | none => rw [hel] at h; simp at h
                | some l' =>
                  rw [hel] at h
                  simp at h
                  subst h
                  obtain ⟨h1, h2⟩ := elem_typed hel hl
                  refine ⟨u, h1, Or.inl (fine_unwrap (fine_loc hw h1)).symm, fun h0 => ?_⟩
                  have : ro env (.idx e i) = ro env e := by rw [ro, hce]; simp only []; rw [hua]
                  rw [h2]
                  exact hkro (this ▸ h0)
              · simp at hc
            · rename_i r0 _ _ c u hua
              have hty' : ∀ l, load env m r0 = some (.addr l) → Holds env (.addr l) (.ptr c u) := by
                intro l hload
                cases r0 with
                | «at» p =>
                  obtain ⟨d, hl, hsee, _⟩ := hty
                  rw [hua] at hsee
                  exact load_at hg hl hsee (by simp) hload
                | val v =>
                  simp [load] at hload
                  subst hload
                  obtain ⟨k2, u2, d, he2, hrest⟩ := hty
                  rw [he2] at hua
                  simp [unwrap] at hua
                  obtain ⟨rfl, rfl⟩ := hua
                  exact ⟨_, _, d, rfl, hrest⟩
              rw [hua] at hc
              simp only [] at hc
              split at hc
              · split at hc
                · simp at hc
                · simp at hc
                  obtain ⟨rfl, rfl⟩ := hc
                  split at h
                  · rename_i l hload
                    obtain ⟨k2, u2, d, he2, _, hl, hsee, hkk⟩ := hty' l hload
                    cases he2
                    cases hsh : shift env l n with
                    | none => rw [hsh] at h; simp at h
                    | some l' =>
                      rw [hsh] at h
                      simp at h
                      subst h
                      obtain ⟨h1, h2⟩ := shift_typed hsh hl
                      refine ⟨d, h1, ?_, fun h0 => ?_⟩
                      · rw [sees_unwrap (fine_loc hw hl) hsee]; exact hsee
                      · have : ro env (.idx e i) = c := by rw [ro, hce]; simp only []; rw [hua]
                        rw [h2]
                        exact hkk (this ▸ h0)
                  · simp at h
              · simp at hc
            · simp at h
          · simp at h
        · simp at h
  | deref e ih =>
    intro t k r hp hc h
    rw [check] at hc
    rw [ev] at h
    cases hev : ev env m e with
    | none => rw [hev] at h; simp at h
    | some r0 =>
      rw [hev] at h
      simp only [] at h
      split at h
      · rename_i l hload
        simp at h
        subst h
        split at hc
        · rename_i c u k0 hce
          simp at hc
          obtain ⟨rfl, rfl⟩ := hc
          have hty := ih _ _ r0 hp.1 hce hev
          have hh : Holds env (.addr l) (.ptr c u) := by
            cases r0 with
            | «at» p =>
              obtain ⟨d, hl, hsee, _⟩ := hty
              exact load_at hg hl hsee (by simp) hload
            | val v =>
              simp [load] at hload
              subst hload
              exact hty
          obtain ⟨k2, u2, d, he2, _, hl, hsee, hkk⟩ := hh
          cases he2
          refine ⟨d, hl, ?_, fun h0 => hkk ?_⟩
          · rw [sees_unwrap (fine_loc hw hl) hsee]; exact hsee
          · rw [ro, hce] at h0
            exact h0
        · rename_i c u k0 hce
          exact absurd (hp.2 _ _ hce) (by simp [wrapped])
        · simp at hc
      · simp at h
  | ptrof e ih =>
    intro t k r hp hc h
    rw [check] at hc
    cases hce : check env e with
    | none => rw [hce] at hc; simp at hc
    | some te =>
      obtain ⟨te, ke⟩ := te
      rw [hce] at hc
      simp at hc
      obtain ⟨rfl, rfl⟩ := hc
      rw [ev] at h
      split at h
      · rename_i l hev
        simp at h
        subst h
        obtain ⟨d, hl, hsee, hro⟩ := ih te ke (.at l) hp.1 hce hev
        refine ⟨_, _, d, rfl, fun n x => hp.2.2 te ke n x hce, hl, hsee, fun h0 => ?_⟩
        rcases hp.2.1 with h1 | h1
        · exact hro h1
        · have hke : ke = false := by
            cases ke with
            | false => rfl
            | true => simp at h0
          cases e with
          | var v =>
            simp [ev] at hev
            subst hev
            simp [check] at hce
            rw [← hke, ← hce.2]
          | idx a i =>
            cases a with
            | var v =>
              obtain ⟨n, x, hvt⟩ := h1
              have hro2 : ro env (.idx (.var v) i) = (env.var v).const := by
                rw [ro, check]
                simp only []
                rw [unwrap_declTy hw, hvt]
                rfl
              apply hro
              rw [hro2]
              rw [check] at hce
              cases hci : check env i with
              | none => rw [hci] at hce; simp [check] at hce
              | some ti =>
                rw [hci] at hce
                simp only [check] at hce
                split at hce
                · rw [unwrap_declTy hw, hvt] at hce
                  simp at hce
                  rw [hce.2, hke]
                · simp at hce
            | _ => exact absurd h1 id
          | _ => exact absurd h1 id
      · simp at h

end Verif.Consts
