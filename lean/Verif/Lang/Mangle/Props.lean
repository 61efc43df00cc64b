import Verif.Lang.Mangle.Model
/-! # C25: mangled names of overloads -/
namespace Verif.Mangle
open Verif.Prim (Prim)

/-- The types a program uses, with respect to the three things the encoding does not keep apart: either no parameter
type involves `char` (`chars = false`) or none involves `const` (`chars = true`); the named types; and the unions of more
than three members. -/
structure Uses where
  chars : Bool
  names : List Nat → List Nat → Prop
  unions : List Ty → Prop

mutual
/-- The type is among them, and no nameless type occurs in it. -/
def Ok (P : Uses) : Ty → Prop
  | .prim p => P.chars = false → p ≠ .char
  | .string => True
  | .array _ t => Ok P t
  | .tuple ts => OkAll P ts
  | .union ts => OkAll P ts ∧ (3 < ts.length → P.unions ts)
  | .func ps ret => OkAll P ps ∧ Ok P ret
  | .ptr t => Ok P t
  | .ref t => Ok P t
  | .lit _ => True
  | .named ns name => P.names ns name
  | .result _ => False
  | .cnst t => P.chars = false ∧ Ok P t
def OkAll (P : Uses) : List Ty → Prop
  | [] => True
  | t :: ts => Ok P t ∧ OkAll P ts
end

/-- No qualified name, with the underscore that ends it, is the start of another one. -/
def NamesApart (P : Uses) : Prop :=
  ∀ ns n ns' n', P.names ns n → P.names ns' n' → (ns ++ n ++ [95]) <+: (ns' ++ n' ++ [95]) → ns = ns' ∧ n = n'

/-- Different unions have different serial numbers. -/
def UnionsApart (idx : List Ty → Nat) (P : Uses) : Prop :=
  ∀ ts us, P.unions ts → P.unions us → idx ts = idx us → ts = us

/-- The first symbol of a mangled type. -/
def head : Ty → Nat
  | .prim p => (mangleId p).headD 0
  | .string => 115
  | .array _ _ => 65
  | .tuple _ => 84
  | .union _ => 85
  | .func _ _ => 70
  | .ptr _ => 80
  | .ref _ => 82
  | .lit _ => 76
  | .named _ _ => 90
  | .result _ => 90
  | .cnst _ => 99

theorem mangle_head (idx : List Ty → Nat) (t : Ty) : ∃ s, mangle idx t = head t :: s := by
  cases t with
  | prim p => cases p <;> exact ⟨_, rfl⟩
  | union ts =>
    unfold mangle head
    split
    · exact ⟨_, rfl⟩
    · exact ⟨_, rfl⟩
  | lit l => rcases l with _ | ⟨_ | _⟩ | _ | _ | _ <;> exact ⟨_, rfl⟩
  | _ => unfold mangle head; exact ⟨_, rfl⟩

/-- Not a digit, an underscore or `E`. -/
theorem head_letter (t : Ty) : 57 < head t ∧ head t ≠ 95 ∧ head t ≠ 69 := by
  cases t with
  | prim p => cases p <;> decide
  | _ => simp [head]

/-- Does not go on with a digit. -/
def ND (r : List Nat) : Prop := ∀ c s, r = c :: s → 57 < c

theorem dec_digits (n : Nat) : ∀ c ∈ dec n, c ≤ 57 := by
  intro c hc
  unfold dec at hc
  obtain ⟨b, hb, rfl⟩ := List.mem_map.1 hc
  have := decimal_digits n b hb
  simp [isDigitByte] at this
  exact this.2

theorem dec_ne_nil (n : Nat) : dec n ≠ [] := by
  unfold dec
  simpa using decimal_ne_nil n

theorem dec_inj {n m : Nat} (h : dec n = dec m) : n = m := by
  unfold dec at h
  have hinj : ∀ (a b : List (BitVec 8)), a.map (·.toNat) = b.map (·.toNat) → a = b := by
    intro a
    induction a with
    | nil => intro b hb; cases b <;> simp_all
    | cons x a ih =>
      intro b hb
      cases b with
      | nil => simp at hb
      | cons y b =>
        simp only [List.map_cons, List.cons.injEq] at hb
        rw [BitVec.eq_of_toNat_eq hb.1, ih b hb.2]
  have := hinj _ _ h
  rw [← decimalValue_decimal n, this, decimalValue_decimal]

theorem split_digits : ∀ (a b r r' : List Nat), (∀ c ∈ a, c ≤ 57) → (∀ c ∈ b, c ≤ 57) → ND r → ND r' →
    a ++ r = b ++ r' → a = b ∧ r = r'
  | [], [], r, r', _, _, _, _, h => ⟨rfl, h⟩
  | [], c :: b, r, r', _, hb, hr, _, h => by
    have h1 := hr c (b ++ r') h
    have h2 := hb c (by simp)
    omega
  | c :: a, [], r, r', ha, _, _, hr', h => by
    have h1 := hr' c (a ++ r) h.symm
    have h2 := ha c (by simp)
    omega
  | c :: a, d :: b, r, r', ha, hb, hr, hr', h => by
    simp only [List.cons_append, List.cons.injEq] at h
    obtain ⟨rfl, h⟩ := h
    obtain ⟨h1, h2⟩ := split_digits a b r r' (fun x hx => ha x (by simp [hx])) (fun x hx => hb x (by simp [hx])) hr hr' h
    exact ⟨by rw [h1], h2⟩

theorem dec_split {n m : Nat} {r r' : List Nat} (hr : ND r) (hr' : ND r') (h : dec n ++ r = dec m ++ r') : n = m ∧ r = r' := by
  obtain ⟨h1, h2⟩ := split_digits _ _ _ _ (dec_digits n) (dec_digits m) hr hr' h
  exact ⟨dec_inj h1, h2⟩

theorem nd_cons {c : Nat} {r : List Nat} (h : 57 < c) : ND (c :: r) := by
  intro d s e
  cases e
  exact h

theorem nd_mangle (idx : List Ty → Nat) (t : Ty) (r : List Nat) : ND (mangle idx t ++ r) := by
  obtain ⟨s, hs⟩ := mangle_head idx t
  rw [hs]
  exact nd_cons (head_letter t).1

theorem nd_mangleAll (idx : List Ty → Nat) (ts : List Ty) (r : List Nat) (hr : ND r) : ND (mangleAll idx ts ++ r) := by
  cases ts with
  | nil => simpa [mangleAll] using hr
  | cons t ts => rw [mangleAll, List.append_assoc]; exact nd_mangle idx t _

theorem mangleAll_append (idx : List Ty → Nat) : ∀ ts us, mangleAll idx (ts ++ us) = mangleAll idx ts ++ mangleAll idx us
  | [], us => by simp [mangleAll]
  | t :: ts, us => by simp [mangleAll, mangleAll_append idx ts us]

theorem okAll_append (P : Uses) : ∀ ts us, OkAll P (ts ++ us) ↔ OkAll P ts ∧ OkAll P us
  | [], us => by simp [OkAll]
  | t :: ts, us => by simp [OkAll, okAll_append P ts us, and_assoc]

theorem prim_split {p q : Prim} {r r' : List Nat} (h : mangleId p ++ r = mangleId q ++ r') : p = q ∧ r = r' := by
  cases p <;> cases q <;> simp_all [mangleId]

theorem lit_split {p q : Lit} {r r' : List Nat} (hr : ND r) (hr' : ND r') (h : mangleLit p ++ r = mangleLit q ++ r') :
    p = q ∧ r = r' := by
  rcases p with _ | ⟨_ | _⟩ | c | n | n <;> rcases q with _ | ⟨_ | _⟩ | d | m | m <;>
    simp [mangleLit] at h ⊢
  all_goals first
    | exact h
    | exact dec_split hr hr' h

/-- Unique decoding of lists, from unique decoding of their elements. -/
theorem unmangleAll (idx : List Ty → Nat) (P : Uses) (n : Nat)
    (ih : ∀ t u r r', (mangle idx t).length ≤ n → Ok P t → Ok P u → ND r → ND r' →
      mangle idx t ++ r = mangle idx u ++ r' → t = u ∧ r = r') :
    ∀ (ts us r r' : List _) (x y : Nat), (mangleAll idx ts).length ≤ n → OkAll P ts → OkAll P us →
      (x = 95 ∨ x = 69) → (y = 95 ∨ y = 69) →
      mangleAll idx ts ++ x :: r = mangleAll idx us ++ y :: r' → ts = us ∧ x :: r = y :: r'
  | [], [], r, r', x, y, _, _, _, _, _, h => ⟨rfl, by simpa [mangleAll] using h⟩
  | [], u :: us, r, r', x, y, _, _, _, hx, _, h => by
    obtain ⟨s, hs⟩ := mangle_head idx u
    have := head_letter u
    simp [mangleAll, hs] at h
    omega
  | t :: ts, [], r, r', x, y, _, _, _, _, hy, h => by
    obtain ⟨s, hs⟩ := mangle_head idx t
    have := head_letter t
    simp [mangleAll, hs] at h
    omega
  | t :: ts, u :: us, r, r', x, y, hl, ht, hu, hx, hy, h => by
    rw [mangleAll, mangleAll, List.append_assoc, List.append_assoc] at h
    rw [mangleAll, List.length_append] at hl
    have hnx : ND (x :: r) := nd_cons (by omega)
    have hny : ND (y :: r') := nd_cons (by omega)
    obtain ⟨h1, h2⟩ := ih t u _ _ (by omega) ht.1 hu.1 (nd_mangleAll idx ts _ hnx) (nd_mangleAll idx us _ hny) h
    obtain ⟨h3, h4⟩ := unmangleAll idx P n ih ts us r r' x y (by omega) ht.2 hu.2 hx hy h2
    exact ⟨by rw [h1, h3], h4⟩

/-- Unique decoding. -/
theorem unmangle (idx : List Ty → Nat) (P : Uses) (hN : NamesApart P) (hU : UnionsApart idx P) : ∀ (n : Nat) (t u : Ty) (r r' : List Nat),
    (mangle idx t).length ≤ n → Ok P t → Ok P u → ND r → ND r' → mangle idx t ++ r = mangle idx u ++ r' → t = u ∧ r = r' := by
  intro n
  induction n with
  | zero =>
    intro t u r r' hl
    obtain ⟨s, hs⟩ := mangle_head idx t
    simp [hs] at hl
  | succ n ih =>
    have ihA := unmangleAll idx P n ih
    intro t u r r' hl ht hu hr hr' h
    have hhead : head t = head u := by
      obtain ⟨s, hs⟩ := mangle_head idx t
      obtain ⟨s', hs'⟩ := mangle_head idx u
      rw [hs, hs'] at h
      simp at h
      exact h.1
    cases t with
    | prim p =>
      cases u with
      | prim q => simpa [mangle] using prim_split (by simpa [mangle] using h)
      | cnst u =>
        cases p <;> simp [head, mangleId] at hhead
        exact absurd rfl (ht hu.1)
      | _ => cases p <;> simp [head, mangleId] at hhead
    | string =>
      cases u with
      | string => simpa [mangle] using h
      | prim q => cases q <;> simp [head, mangleId] at hhead
      | _ => simp [head] at hhead
    | array k t =>
      cases u with
      | array m u =>
        simp only [mangle, List.cons_append, List.append_assoc, List.cons.injEq, true_and] at h
        obtain ⟨rfl, h1⟩ := dec_split (nd_mangle idx t r) (nd_mangle idx u r') h
        obtain ⟨rfl, h2⟩ := ih t u r r' (by simp [mangle] at hl; omega) ht hu hr hr' h1
        exact ⟨rfl, h2⟩
      | prim q => cases q <;> simp [head, mangleId] at hhead
      | _ => simp [head] at hhead
    | tuple ts =>
      cases u with
      | tuple us =>
        simp only [mangle, List.cons_append, List.append_assoc, List.cons.injEq, true_and, List.nil_append] at h
        obtain ⟨rfl, h2⟩ := ihA ts us r r' 95 95 (by simp [mangle] at hl; omega) ht hu (.inl rfl) (.inl rfl) h
        exact ⟨rfl, by simpa using h2⟩
      | prim q => cases q <;> simp [head, mangleId] at hhead
      | _ => simp [head] at hhead
    | union ts =>
      cases u with
      | union us =>
        have hdec : ∀ m (s s' : List Nat), dec m ++ s ≠ 95 :: s' := by
          intro m s s' he
          have hd := dec_digits m
          cases hm : dec m with
          | nil => exact dec_ne_nil m hm
          | cons c cs =>
            rw [hm] at he hd
            simp at he
            have := hd c (by simp)
            omega
        unfold mangle at h
        by_cases h1 : 3 < ts.length
        · by_cases h2 : 3 < us.length
          · simp only [h1, h2, if_true, List.cons_append, List.append_assoc, List.cons.injEq, true_and, List.nil_append] at h
            obtain ⟨h3, h4⟩ := dec_split (nd_cons (by omega)) (nd_cons (by omega)) h
            rw [hU ts us (ht.2 h1) (hu.2 h2) h3]
            exact ⟨rfl, by simpa using h4⟩
          · simp only [h1, h2, if_true, if_false, List.cons_append, List.append_assoc, List.cons.injEq, true_and, List.nil_append] at h
            exact absurd h (hdec _ _ _)
        · by_cases h2 : 3 < us.length
          · simp only [h1, h2, if_true, if_false, List.cons_append, List.append_assoc, List.cons.injEq, true_and, List.nil_append] at h
            exact absurd h.symm (hdec _ _ _)
          · simp only [h1, h2, if_false, List.cons_append, List.append_assoc, List.cons.injEq, true_and, List.nil_append] at h
            obtain ⟨rfl, h4⟩ := ihA ts us r r' 95 95 (by simp [mangle, h1] at hl; omega) ht.1 hu.1 (.inl rfl) (.inl rfl) h
            exact ⟨rfl, by simpa using h4⟩
      | prim q => cases q <;> simp [head, mangleId] at hhead
      | _ => simp [head] at hhead
    | func ps ret =>
      cases u with
      | func qs ret' =>
        simp only [mangle, List.cons_append, List.append_assoc, List.cons.injEq, true_and, List.nil_append] at h
        have hw : ∀ (ps : List Ty) (ret : Ty) (r : List Nat),
            mangleAll idx ps ++ (mangle idx ret ++ 95 :: r) = mangleAll idx (ps ++ [ret]) ++ 95 :: r := by
          intro ps ret r
          rw [mangleAll_append]; simp [mangleAll]
        rw [hw, hw] at h
        obtain ⟨h1, h3⟩ := ihA _ _ r r' 95 95 (by rw [mangleAll_append]; simp [mangle, mangleAll] at hl ⊢; omega)
          ((okAll_append P _ _).2 ⟨ht.1, by simpa [OkAll] using ht.2⟩) ((okAll_append P _ _).2 ⟨hu.1, by simpa [OkAll] using hu.2⟩) (.inl rfl) (.inl rfl) h
        obtain ⟨rfl, h2⟩ := List.append_inj' h1 rfl
        simp at h2
        subst h2
        exact ⟨rfl, by simpa using h3⟩
      | prim q => cases q <;> simp [head, mangleId] at hhead
      | _ => simp [head] at hhead
    | ptr t =>
      cases u with
      | ptr u =>
        simp only [mangle, List.cons_append, List.cons.injEq, true_and] at h
        obtain ⟨rfl, h2⟩ := ih t u r r' (by simp [mangle] at hl; omega) ht hu hr hr' h
        exact ⟨rfl, h2⟩
      | prim q => cases q <;> simp [head, mangleId] at hhead
      | _ => simp [head] at hhead
    | ref t =>
      cases u with
      | ref u =>
        simp only [mangle, List.cons_append, List.cons.injEq, true_and] at h
        obtain ⟨rfl, h2⟩ := ih t u r r' (by simp [mangle] at hl; omega) ht hu hr hr' h
        exact ⟨rfl, h2⟩
      | prim q => cases q <;> simp [head, mangleId] at hhead
      | _ => simp [head] at hhead
    | lit l =>
      cases u with
      | lit m => simpa [mangle] using lit_split hr hr' (by simpa [mangle] using h)
      | prim q => cases q <;> simp [head, mangleId] at hhead
      | _ => simp [head] at hhead
    | named ns nm =>
      cases u with
      | named ns' nm' =>
        have h' : (ns ++ nm ++ [95]) ++ r = (ns' ++ nm' ++ [95]) ++ r' := by
          simpa [mangle] using h
        have hcase : (ns ++ nm ++ [95]) <+: (ns' ++ nm' ++ [95]) ∨ (ns' ++ nm' ++ [95]) <+: (ns ++ nm ++ [95]) :=
          List.prefix_or_prefix_of_prefix ⟨r, rfl⟩ ⟨r', h'.symm⟩
        have heq : ns = ns' ∧ nm = nm' := by
          rcases hcase with hp | hp
          · exact hN _ _ _ _ ht hu hp
          · obtain ⟨a, b⟩ := hN _ _ _ _ hu ht hp
            exact ⟨a.symm, b.symm⟩
        obtain ⟨rfl, rfl⟩ := heq
        exact ⟨rfl, List.append_cancel_left h'⟩
      | result u => exact absurd hu (by simp [Ok])
      | prim q => cases q <;> simp [head, mangleId] at hhead
      | _ => simp [head] at hhead
    | result t => exact absurd ht (by simp [Ok])
    | cnst t =>
      cases u with
      | cnst u =>
        simp only [mangle, List.cons_append, List.cons.injEq, true_and] at h
        obtain ⟨rfl, h2⟩ := ih t u r r' (by simp [mangle] at hl; omega) ht.2 hu.2 hr hr' h
        exact ⟨rfl, h2⟩
      | prim q =>
        cases q <;> simp [head, mangleId] at hhead
        exact absurd rfl (hu ht.1)
      | _ => simp [head] at hhead

/-- **C25, where it holds.**  Overloads of one function (with the same name) that differ in a parameter type or in being
`const` get different names, provided the types used do not mix `const` and `char`, no nameless type occurs in them, no
qualified type name ended by an underscore is the start of another, and interned unions have different numbers.  (The
full statement has no such provisos; see the three failures below.) -/
theorem overloads_apart_partial (idx : List Ty → Nat) (P : Uses) (hN : NamesApart P) (hU : UnionsApart idx P)
    (name : List Nat) (ts us : List Ty) (c c' : Bool) (ht : OkAll P ts) (hu : OkAll P us)
    (h : makeMangledName idx name ts c = makeMangledName idx name us c') : ts = us ∧ c = c' := by
  unfold makeMangledName at h
  rw [List.append_assoc, List.append_assoc, List.append_assoc, List.append_assoc] at h
  have h := List.append_cancel_left h
  have hall : ∀ h' : mangleAll idx ts ++ [69] = mangleAll idx us ++ [69], ts = us := fun h' =>
    (unmangleAll idx P _ (unmangle idx P hN hU _) ts us [] [] 69 69 (Nat.le_refl _) ht hu (.inr rfl) (.inr rfl) h').1
  cases c <;> cases c'
  · simp at h; exact ⟨hall (by rw [h]), rfl⟩
  · simp at h
  · simp at h
  · simp at h; exact ⟨hall (by rw [h]), rfl⟩

/-- Names without underscores and namespaces meet the condition on names. -/
theorem plain_names_apart (P : Uses) (h : ∀ ns n, P.names ns n → ns = [] ∧ ∀ c ∈ n, c ≠ 95) : NamesApart P := by
  intro ns n ns' n' h1 h2 hp
  obtain ⟨rfl, h3⟩ := h ns n h1
  obtain ⟨rfl, h4⟩ := h ns' n' h2
  refine ⟨rfl, ?_⟩
  obtain ⟨s, hs⟩ := hp
  simp only [List.nil_append, List.append_assoc] at hs
  clear h h1 h2
  induction n generalizing n' with
  | nil =>
    cases n' with
    | nil => rfl
    | cons c n' => simp at hs; exact absurd hs.1.symm (h4 c (by simp))
  | cons d n ih =>
    cases n' with
    | nil => simp at hs
    | cons c n' =>
      simp only [List.cons_append, List.cons.injEq] at hs
      obtain ⟨rfl, hs⟩ := hs
      rw [ih n' (fun x hx => h3 x (by simp [hx])) (fun x hx => h4 x (by simp [hx])) hs]

/-- `f(^const i32, Vec)` and `f(^i32, Vec)`, and the provisos of the theorem for them. -/
example :
    let P : Uses := ⟨false, fun ns n => ns = [] ∧ n = [86, 101, 99], fun _ => False⟩
    let ts := [Ty.ptr (.cnst (.prim .i32)), .named [] [86, 101, 99]]
    let us := [Ty.ptr (.prim .i32), .named [] [86, 101, 99]]
    NamesApart P ∧ UnionsApart (fun _ => 0) P ∧ OkAll P ts ∧ OkAll P us ∧
      makeMangledName (fun _ => 0) [102] ts false ≠ makeMangledName (fun _ => 0) [102] us false := by
  refine ⟨plain_names_apart _ (by rintro ns n ⟨rfl, rfl⟩; exact ⟨rfl, by decide⟩), fun _ _ h => h.elim, by simp [OkAll, Ok],
    by simp [OkAll, Ok], by decide⟩

/-- **C25 fails** for `const` next to `char`: for every type `t` and whatever other parameters, the overloads with one
parameter `const t` and with two parameters `char`, `t` have the same name. -/
theorem const_is_char (idx : List Ty → Nat) (name : List Nat) (pre post : List Ty) (t : Ty) (c : Bool) :
    makeMangledName idx name (pre ++ [.cnst t] ++ post) c = makeMangledName idx name (pre ++ [.prim .char, t] ++ post) c := by
  simp [makeMangledName, mangleAll_append, mangleAll, mangle, mangleId]

/-- **C25 fails** for result types: for all `t` and `u`, overloads that differ in `!t` and `!u` have the same name. -/
theorem results_collide (idx : List Ty → Nat) (name : List Nat) (pre post : List Ty) (t u : Ty) (c : Bool) :
    makeMangledName idx name (pre ++ [.result t] ++ post) c = makeMangledName idx name (pre ++ [.result u] ++ post) c := by
  simp [makeMangledName, mangleAll_append, mangleAll, mangle]

/-- **C25 fails** for names with underscores: for all names `a` and `b`, one parameter of type `a_Zb` and two parameters of types
`a` and `b` give the same name.  Likewise a namespace `a` with a type `b` is the type `ab`. -/
theorem underscore_collides (idx : List Ty → Nat) (name a b : List Nat) (c : Bool) :
    makeMangledName idx name [.named [] (a ++ [95, 90] ++ b)] c = makeMangledName idx name [.named [] a, .named [] b] c ∧
    makeMangledName idx name [.named a b] c = makeMangledName idx name [.named [] (a ++ b)] c := by
  simp [makeMangledName, mangleAll, mangle]

/-- `f(const i32)` and `f(char, i32)`: both are `fI_ci32E`. -/
example : makeMangledName (fun _ => 0) [102] [.cnst (.prim .i32)] false = [102, 73, 95, 99, 105, 51, 50, 69] := by decide

end Verif.Mangle
