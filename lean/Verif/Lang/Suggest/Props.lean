import Verif.Lang.Suggest.Model
/-! # C28, C84: edit distance and suggestions -/
namespace Verif.Suggest

/-- `a` becomes `b` by at most `n` insertions, deletions and replacements of characters: the specification. -/
inductive Within : List Nat → List Nat → Nat → Prop
  | done (n : Nat) : Within [] [] n
  | keep (c : Nat) {a b : List Nat} {n : Nat} : Within a b n → Within (c :: a) (c :: b) n
  | delete (c : Nat) {a b : List Nat} {n : Nat} : Within a b n → Within (c :: a) b (n + 1)
  | insert (c : Nat) {a b : List Nat} {n : Nat} : Within a b n → Within a (c :: b) (n + 1)
  | replace (c d : Nat) {a b : List Nat} {n : Nat} : Within a b n → Within (c :: a) (d :: b) (n + 1)

theorem Within.mono {a b : List Nat} {n : Nat} (h : Within a b n) : Within a b (n + 1) := by
  induction h with
  | done n => exact .done _
  | keep c _ ih => exact .keep c ih
  | delete c _ ih => exact .delete c ih
  | insert c _ ih => exact .insert c ih
  | replace c d _ ih => exact .replace c d ih

theorem Within.le {a b : List Nat} {n m : Nat} (h : Within a b n) (hm : n ≤ m) : Within a b m := by
  obtain ⟨k, rfl⟩ := Nat.exists_eq_add_of_le hm
  clear hm
  induction k with
  | zero => exact h
  | succ k ih => exact ih.mono

theorem within_nil_left {b : List Nat} {n : Nat} : Within [] b n ↔ b.length ≤ n := by
  constructor
  · intro h
    generalize ha : ([] : List Nat) = a at h
    induction h with
    | done => simp
    | keep => cases ha
    | delete => cases ha
    | insert c _ ih => have := ih ha; simp; omega
    | replace => cases ha
  · intro h
    induction b generalizing n with
    | nil => exact .done n
    | cons c b ih =>
      simp at h
      obtain ⟨m, rfl⟩ : ∃ m, n = m + 1 := ⟨n - 1, by omega⟩
      exact .insert c (ih (by omega))

theorem within_nil_right {a : List Nat} {n : Nat} : Within a [] n ↔ a.length ≤ n := by
  constructor
  · intro h
    generalize hb : ([] : List Nat) = b at h
    induction h with
    | done => simp
    | keep => cases hb
    | delete c _ ih => have := ih hb; simp; omega
    | insert => cases hb
    | replace => cases hb
  · intro h
    induction a generalizing n with
    | nil => exact .done n
    | cons c a ih =>
      simp at h
      obtain ⟨m, rfl⟩ : ∃ m, n = m + 1 := ⟨n - 1, by omega⟩
      exact .delete c (ih (by omega))

/-- Dropping a character on one side costs at most one edit. -/
theorem Within.drop_right {a b : List Nat} {n c : Nat} (h : Within a (c :: b) n) : Within a b (n + 1) := by
  generalize hb : c :: b = b' at h
  induction h with
  | done => cases hb
  | keep d h _ => cases hb; exact .delete _ h
  | delete d h ih => exact .delete _ (ih hb)
  | insert d h _ => cases hb; exact h.mono.mono
  | replace x y h _ => cases hb; exact (Within.delete _ h).mono

theorem Within.drop_left {a b : List Nat} {n c : Nat} (h : Within (c :: a) b n) : Within a b (n + 1) := by
  generalize ha : c :: a = a' at h
  induction h with
  | done => cases ha
  | keep d h _ => cases ha; exact .insert _ h
  | delete d h _ => cases ha; exact h.mono.mono
  | insert d h ih => exact .insert _ (ih ha)
  | replace x y h _ => cases ha; exact (Within.insert _ h).mono

/-- Keeping equal first characters is optimal. -/
theorem within_same {a b : List Nat} {n c : Nat} : Within (c :: a) (c :: b) n ↔ Within a b n := by
  constructor
  · intro h
    cases h with
    | keep _ h => exact h
    | delete _ h => exact h.drop_right
    | insert _ h => exact h.drop_left
    | replace _ _ h => exact h.mono
  · exact .keep c

theorem within_differ {a b : List Nat} {n c d : Nat} (hcd : c ≠ d) :
    Within (c :: a) (d :: b) n ↔ ∃ m, n = m + 1 ∧ (Within a (d :: b) m ∨ Within (c :: a) b m ∨ Within a b m) := by
  constructor
  · intro h
    cases h with
    | keep => exact absurd rfl hcd
    | delete _ h => exact ⟨_, rfl, .inl h⟩
    | insert _ h => exact ⟨_, rfl, .inr (.inl h)⟩
    | replace _ _ h => exact ⟨_, rfl, .inr (.inr h)⟩
  · rintro ⟨m, rfl, h | h | h⟩
    · exact .delete c h
    · exact .insert d h
    · exact .replace c d h

/-- **C28.** Up to the cut-off the result is the edit distance: it is at most `m` exactly if `m` edits suffice.  Beyond
the cut-off it is above the cut-off. -/
theorem distance_exact (a b : List Nat) (cut m : Nat) (h : m ≤ cut) : dist a b cut ≤ m ↔ Within a b m := by
  fun_induction dist a b cut generalizing m with
  | case1 rhs => exact within_nil_left.symm
  | case2 l ls => exact within_nil_right.symm
  | case3 ls cut l rs ih => rw [within_same]; exact ih m h
  | case4 l ls r rs hne =>
    have : m = 0 := by omega
    subst this
    rw [within_differ hne]
    simp
  | case5 l ls r rs cut hne h0 a b c iha ihb ihc =>
    rw [within_differ hne]
    constructor
    · intro hm
      refine ⟨m - 1, by omega, ?_⟩
      rw [← iha (m - 1) (by omega), ← ihb (m - 1) (by omega), ← ihc (m - 1) (by omega)]
      show a ≤ _ ∨ b ≤ _ ∨ c ≤ _
      omega
    · rintro ⟨m, rfl, hw⟩
      rw [← iha m (by omega), ← ihb m (by omega), ← ihc m (by omega)] at hw
      have hw : a ≤ m ∨ b ≤ m ∨ c ≤ m := hw
      omega

/-- The distance itself, when it is within the cut-off; otherwise the result exceeds the cut-off. -/
theorem distance_or_beyond (a b : List Nat) (cut d : Nat) (hd : Within a b d) (hmin : ∀ m, Within a b m → d ≤ m) :
    (d ≤ cut → dist a b cut = d) ∧ (cut < d → cut < dist a b cut) := by
  constructor
  · intro h
    have h1 := (distance_exact a b cut d h).2 hd
    have h2 := hmin _ ((distance_exact a b cut (dist a b cut) (by omega)).1 (Nat.le_refl _))
    omega
  · intro h
    apply Nat.lt_of_not_le
    intro hle
    have := hmin _ ((distance_exact a b cut cut (Nat.le_refl _)).1 hle)
    omega

/-- `sunday` and `saturday` are three edits apart; with cut-off 2 the answer is above 2. -/
example : dist [115, 117, 110] [115, 97, 116, 110] 2 = 2 ∧ 2 < dist [115, 117, 110, 100, 97, 121] [115, 97, 116, 117, 114, 100, 97, 121] 2 := by
  constructor
  · simp [dist]
  · simp [dist]

theorem pick_spec (name : List Nat) : ∀ (vis : List (List Nat)) (cut : Nat) (best : Option (List Nat)),
    (∀ s, best = some s → dist name s (cut + 1) = cut ∧ Within name s cut ∧ (∀ m, Within name s m → cut ≤ m)) →
    match pick name vis cut best with
    | none => best = none ∧ ∀ s ∈ vis, ∀ m < cut, ¬ Within name s m
    | some r => (r ∈ vis ∨ best = some r) ∧ ∃ d, Within name r d ∧ (∀ s ∈ r :: vis, ∀ m < d, ¬ Within name s m) ∧ (best = none → d < cut) ∧ d ≤ cut
  | [], cut, best, hb => by
    unfold pick
    cases best with
    | none => simp
    | some r =>
      obtain ⟨_, h1, h2⟩ := hb r rfl
      refine ⟨.inr rfl, cut, h1, fun s hs m hm hw => ?_, by simp, Nat.le_refl _⟩
      simp at hs; subst hs
      have := h2 m hw
      omega
  | s :: vis, cut, best, hb => by
    unfold pick
    simp only []
    by_cases hlt : dist name s cut < cut
    · rw [if_pos hlt]
      have hex := distance_exact name s cut
      have hw : Within name s (dist name s cut) := (hex _ (by omega)).1 (Nat.le_refl _)
      have hmin : ∀ m, Within name s m → dist name s cut ≤ m := by
        intro m hm
        by_cases hc : m ≤ cut
        · exact (hex m hc).2 hm
        · omega
      have ih := pick_spec name vis (dist name s cut) (some s) (fun s' hs' => by
        cases hs'
        exact ⟨(distance_or_beyond name s (dist name s cut + 1) (dist name s cut) hw hmin).1 (by omega), hw, hmin⟩)
      revert ih
      cases pick name vis (dist name s cut) (some s) with
      | none => intro ih; cases ih.1
      | some r =>
        rintro ⟨h1, d, h2, h3, h4, h5⟩
        refine ⟨.inl ?_, d, h2, fun s' hs' m hm hwm => ?_, fun _ => by omega, by omega⟩
        · rcases h1 with h1 | h1
          · simp [h1]
          · cases h1; simp
        · rcases List.mem_cons.1 hs' with e | e
          · subst e; exact h3 s' (by simp) m hm hwm
          · rcases List.mem_cons.1 e with e | e
            · subst e
              have := hmin m hwm
              omega
            · exact h3 s' (by simp [e]) m hm hwm
    · rw [if_neg hlt]
      have hno : ∀ m < cut, ¬ Within name s m := fun m hm hw => by
        have := (distance_exact name s cut m (by omega)).2 hw
        omega
      have ih := pick_spec name vis cut best hb
      revert ih
      cases pick name vis cut best with
      | none =>
        rintro ⟨h1, h2⟩
        refine ⟨h1, fun s' hs' => ?_⟩
        rcases List.mem_cons.1 hs' with e | e
        · subst e; exact hno
        · exact h2 s' e
      | some r =>
        rintro ⟨h1, d, h2, h3, h4, h5⟩
        refine ⟨?_, d, h2, fun s' hs' m hm => ?_, h4, h5⟩
        · rcases h1 with h1 | h1
          · exact .inl (by simp [h1])
          · exact .inr h1
        · rcases List.mem_cons.1 hs' with e | e
          · subst e; exact h3 s' (by simp) m hm
          · rcases List.mem_cons.1 e with e | e
            · subst e; exact hno m (by omega)
            · exact h3 s' (by simp [e]) m hm

/-- **C84.** For an undefined name of more than two characters, the suggestion is a visible name at most one edit away and
none is nearer; there is no suggestion only if no visible name is that near. -/
theorem suggestion_nearest (name : List Nat) (visible : List (List Nat)) (hl : 2 < name.length) :
    match suggest name visible with
    | none => ∀ s ∈ visible, ¬ Within name s 1
    | some r => r ∈ visible ∧ ∃ d ≤ 1, Within name r d ∧ ∀ s ∈ visible, ∀ m < d, ¬ Within name s m := by
  have h := pick_spec name visible 2 none (by simp)
  unfold suggest
  rw [if_neg (by omega)]
  revert h
  cases pick name visible 2 none with
  | none => rintro ⟨_, h⟩ s hs; exact h s hs 1 (by omega)
  | some r =>
    rintro ⟨h1, d, h2, h3, h4, _⟩
    exact ⟨by simpa using h1, d, by have := h4 rfl; omega, h2, fun s hs => h3 s (by simp [hs])⟩

/-- `cnt` with `c`, `cost` and `int` visible: `int` is suggested. -/
example : suggest [99, 110, 116] [[99], [99, 111, 115, 116], [105, 110, 116]] = some [105, 110, 116] := by
  simp [suggest, pick, dist]

end Verif.Suggest
