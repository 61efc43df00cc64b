import Verif.Lang.Generics.Model
/-! # C194: type arguments are the types of the arguments -/
namespace Verif.Generics

/-! ## Specification -/

/-- The type that the arguments give to the type parameter `g`: that of the first argument whose parameter is written `g`, `&g` or `^g`. -/
def expected (g : Nat) : List (TE × Bool) → List Ty → Option Ty
  | (t, _) :: ps, a :: as =>
    if t = .name g then some a
    else if t = .ref (.name g) ∨ t = .ptr (.name g) then some (peel a)
    else expected g ps as
  | _, _ => none

/-- Whether a parameter is written so. -/
def Mentioned (g : Nat) (ps : List (TE × Bool)) : Prop := ∃ p ∈ ps, p.1 = .name g ∨ p.1 = .ref (.name g) ∨ p.1 = .ptr (.name g)

/-- No reference or pointer parameter stands before the one that is written `g`. -/
def Clean (g : Nat) : List (TE × Bool) → Prop
  | [] => True
  | (.name n, _) :: ps => n = g ∨ Clean g ps
  | (.ref t, _) :: _ => t = .name g
  | (.ptr t, _) :: _ => t = .name g
  | (.other, _) :: ps => Clean g ps

/-! ## Search -/

theorem search_ge (g : Nat) : ∀ (ps : List (TE × Bool)) (j : Nat) (inner : Bool), (search g ps j inner).1 = 0 ∨ j < (search g ps j inner).1
  | [], _, _ => .inl rfl
  | (t, b) :: ps, j, inner => by
    rw [search]
    split
    · rename_i h
      right
      unfold mention at h ⊢
      split at h <;> simp_all
    · rcases search_ge g ps (j + 1) (mention g t j inner).2 with h | h
      · exact .inl h
      · exact .inr (by omega)

/-- The search finds the argument that is expected. -/
theorem search_expected (g : Nat) : ∀ (ps : List (TE × Bool)) (as : List Ty) (j : Nat) (a : Ty), Clean g ps → expected g ps as = some a →
    ∃ k inn t, search g ps j false = (j + k + 1, inn) ∧ as[k]? = some t ∧ a = if inn then peel t else t
  | [], as, j, a, _, h => by simp [expected] at h
  | (t, b) :: ps, [], j, a, _, h => by simp [expected] at h
  | (t, b) :: ps, x :: as, j, a, hc, h => by
    rw [expected] at h
    rw [search]
    cases t with
    | name n =>
      by_cases hn : n = g
      · subst hn
        simp only [if_true, Option.some.injEq] at h
        subst h
        exact ⟨0, false, x, by simp [mention], rfl, rfl⟩
      · simp only [Clean, hn, false_or] at hc
        simp only [TE.name.injEq, hn, reduceCtorEq, or_self, if_false] at h
        obtain ⟨k, inn, t, h1, h2, h3⟩ := search_expected g ps as (j + 1) a hc h
        refine ⟨k + 1, inn, t, ?_, by simpa using h2, h3⟩
        have : g ≠ n := fun e => hn e.symm
        simp only [mention, this, if_false, ne_eq, not_true, h1]
        congr 1; omega
    | ref t =>
      simp only [Clean] at hc
      subst hc
      simp only [reduceCtorEq, if_false, true_or, if_true, Option.some.injEq] at h
      subst h
      exact ⟨0, true, x, by simp [mention], rfl, rfl⟩
    | ptr t =>
      simp only [Clean] at hc
      subst hc
      simp only [reduceCtorEq, if_false, or_true, if_true, Option.some.injEq] at h
      subst h
      exact ⟨0, true, x, by simp [mention], rfl, rfl⟩
    | other =>
      simp only [Clean] at hc
      simp only [reduceCtorEq, or_self, if_false] at h
      obtain ⟨k, inn, t, h1, h2, h3⟩ := search_expected g ps as (j + 1) a hc h
      refine ⟨k + 1, inn, t, ?_, by simpa using h2, h3⟩
      simp only [mention, ne_eq, not_true, if_false, h1]
      congr 1; omega

theorem search_unmentioned (g : Nat) : ∀ (ps : List (TE × Bool)) (j : Nat) (inner : Bool), ¬ Mentioned g ps → (search g ps j inner).1 = 0
  | [], _, _, _ => rfl
  | (t, b) :: ps, j, inner, h => by
    have h1 : ¬ Mentioned g ps := fun ⟨p, hp, hq⟩ => h ⟨p, List.mem_cons_of_mem _ hp, hq⟩
    have h2 : (mention g t j inner).1 = 0 := by
      have h3 : ¬ (t = .name g ∨ t = .ref (.name g) ∨ t = .ptr (.name g)) := fun e => h ⟨(t, b), List.mem_cons_self .., e⟩
      unfold mention
      split <;> simp_all
      all_goals exact fun e => h3 e.symm
    rw [search]
    simp only [h2, ne_eq, not_true, if_false]
    exact search_unmentioned g ps _ _ h1

/-! ## The first type parameter that can be inferred -/

theorem first_append : ∀ (a b : List Nat) (i : Nat) (x : Int), firstInferrable (a ++ b) i x = firstInferrable b (i + a.length) (firstInferrable a i x)
  | [], b, i, x => by simp [firstInferrable]
  | y :: a, b, i, x => by
    rw [List.cons_append, firstInferrable, firstInferrable, first_append a b, List.length_cons]
    congr 1; omega

theorem first_bound : ∀ (a : List Nat) (i : Nat) (x : Int), x = -1 ∨ 0 ≤ x ∧ x ≤ i → firstInferrable a i x = -1 ∨ 0 ≤ firstInferrable a i x ∧ firstInferrable a i x ≤ i + a.length
  | [], i, x, h => by simpa [firstInferrable] using h
  | y :: a, i, x, h => by
    rw [firstInferrable]
    have : (if y = 0 then (-1 : Int) else if x = -1 then (i : Int) else x) = -1 ∨ 0 ≤ (if y = 0 then (-1 : Int) else if x = -1 then (i : Int) else x) ∧
        (if y = 0 then (-1 : Int) else if x = -1 then (i : Int) else x) ≤ ((i + 1 : Nat) : Int) := by
      split
      · exact .inl rfl
      · split <;> omega
    have := first_bound a (i + 1) _ this
    simp only [List.length_cons]
    omega

theorem first_all : ∀ (a : List Nat) (i : Nat) (x : Int), (∀ y ∈ a, y ≠ 0) → a ≠ [] → firstInferrable a i x = if x = -1 then (i : Int) else x
  | [], _, _, _, h => absurd rfl h
  | [y], i, x, h, _ => by simp [firstInferrable, h y]
  | y :: z :: a, i, x, h, _ => by
    rw [firstInferrable, if_neg (h y (List.mem_cons_self ..)), first_all (z :: a) (i + 1) _ (fun w hw => h w (List.mem_cons_of_mem _ hw)) (by simp)]
    by_cases hx : x = -1
    · rw [if_pos hx]
      have : (i : Int) ≠ -1 := by omega
      rw [if_neg this]
    · rw [if_neg hx, if_neg hx]

theorem first_le (a : List Nat) (k : Nat) (hk : k < a.length) (h : ∀ y ∈ a.drop k, y ≠ 0) : 0 ≤ firstInferrable a 0 (-1) ∧ firstInferrable a 0 (-1) ≤ k := by
  have e := first_append (a.take k) (a.drop k) 0 (-1)
  rw [List.take_append_drop] at e
  have hl : (a.take k).length = k := by rw [List.length_take]; omega
  have hb := first_bound (a.take k) 0 (-1) (.inl rfl)
  rw [first_all _ _ _ h (by intro e; have := congrArg List.length e; rw [List.length_drop] at this; simp at this; omega)] at e
  rw [e, hl] at *
  split <;> omega

theorem first_low : ∀ (a : List Nat) (i : Nat) (x m : Int), x = -1 ∨ m ≤ x → m ≤ i → firstInferrable a i x = -1 ∨ m ≤ firstInferrable a i x
  | [], i, x, m, h, _ => by simpa [firstInferrable] using h
  | y :: a, i, x, m, h, hm => by
    rw [firstInferrable]
    refine first_low a (i + 1) _ m ?_ (by omega)
    split
    · exact .inl rfl
    · split <;> omega

theorem first_gt : ∀ (a : List Nat) (i : Nat) (x : Int) (k : Nat), a[k]? = some 0 → firstInferrable a i x = -1 ∨ (i + k : Int) < firstInferrable a i x
  | [], _, _, _, h => by simp at h
  | y :: a, i, x, 0, h => by
    simp only [List.getElem?_cons_zero, Option.some.injEq] at h
    subst h
    rw [firstInferrable, if_pos rfl]
    rcases first_low a (i + 1) (-1) (i + 1) (.inl rfl) (by omega) with h | h
    · exact .inl h
    · right; omega
  | y :: a, i, x, k + 1, h => by
    rw [firstInferrable]
    rcases first_gt a (i + 1) (if y = 0 then (-1 : Int) else if x = -1 then (i : Int) else x) k (by simpa using h) with h | h
    · exact .inl h
    · right; omega

/-! ## The loop -/

theorem flags_false : ∀ gs : List Nat, flags false gs = gs.map fun _ => false
  | [] => rfl
  | [_] => rfl
  | g :: h :: gs => by rw [flags, flags_false (h :: gs)]; rfl

theorem store_all (index : Int) (h0 : 0 ≤ index) : ∀ (l : List (Nat × Bool × Bool)) (i : Nat), index ≤ i → store index l i = l.map fun x => ⟨x.1, x.2.1, x.2.2⟩
  | [], _, _ => rfl
  | (a, b, c) :: l, i, h => by rw [store, if_pos ⟨h0, h⟩, store_all index h0 l (i + 1) (by omega)]; rfl

theorem store_drop (index : Int) : ∀ (l : List (Nat × Bool × Bool)) (i k : Nat), (store index l i).drop k = store index (l.drop k) (i + k)
  | l, i, 0 => rfl
  | [], i, k + 1 => rfl
  | (a, b, c) :: l, i, k + 1 => by
    rw [store, List.drop_succ_cons, List.drop_succ_cons, store_drop index l]
    congr 1; omega

theorem store_length (index : Int) : ∀ (l : List (Nat × Bool × Bool)) (i : Nat), (store index l i).length = l.length
  | [], _ => rfl
  | (a, b, c) :: l, i => by rw [store, List.length_cons, List.length_cons, store_length index l]

/-- The types the loop writes for type parameters that are found, in front of what it writes for a pack. -/
theorem loop_expected (ps : List (TE × Bool)) (args : List Ty) (tail : List GP) (tl : List Ty) (ht : inferLoop args tail = some tl) : ∀ gs : List Nat,
    (∀ g ∈ gs, Clean g ps ∧ (expected g ps args).isSome = true) →
    ∃ ts, inferLoop args ((gs.map fun g => ⟨(search g ps 0 false).1, (search g ps 0 false).2, false⟩) ++ tail) = some (ts ++ tl) ∧
      ts.map some = gs.map fun g => expected g ps args
  | [], _ => ⟨[], ht, rfl⟩
  | g :: gs, h => by
    obtain ⟨ts, h1, h2⟩ := loop_expected ps args tail tl ht gs fun g hg => h g (List.mem_cons_of_mem _ hg)
    obtain ⟨hc, he⟩ := h g (List.mem_cons_self ..)
    obtain ⟨a, ha⟩ := Option.isSome_iff_exists.1 he
    obtain ⟨k, inn, t, e1, e2, e3⟩ := search_expected g ps args 0 a hc ha
    refine ⟨a :: ts, ?_, by simp [h2, ha]⟩
    rw [List.map_cons, List.cons_append, inferLoop, e1]
    simp only [Bool.false_eq_true, if_false]
    rw [if_neg (by omega)]
    have : 0 + k + 1 - 1 = k := by omega
    simp only [this, e2, h1, Option.map_some]
    rw [← e3]; rfl

/-- What the types of a `rest` should be. -/
def restTypes (d : Decl) (args : List Ty) : List Ty :=
  if d.rest then (if args.drop d.params.length = [] then [.void] else args.drop d.params.length) else []

def index (d : Decl) : Int := firstInferrable ((d.tps.map fun g => search g d.params 0 false).map (·.1)) 0 (-1)
def triples (d : Decl) : List (Nat × Bool × Bool) := d.tps.map fun g => ((search g d.params 0 false).1, (search g d.params 0 false).2, false)
def gpOf (d : Decl) (g : Nat) : GP := ⟨(search g d.params 0 false).1, (search g d.params 0 false).2, false⟩

theorem found_list (d : Decl) :
    (((d.tps.map fun g => search g d.params 0 false).zip (flags false d.tps)).map fun x => (x.1.1, x.1.2, x.2)) = triples d := by
  rw [flags_false, List.zip_map', List.map_map]
  rfl

theorem process_rest (d : Decl) (hp : d.pack = false) (hrest : d.rest = true) :
    process d = ⟨store (index d) (triples d) 0 ++ [⟨d.params.length + 1, false, true⟩], if index d = -1 then 0 else index d,
      d.params.length + 1, required d.params, true⟩ := by
  simp only [process, hrest, if_true, hp, Bool.false_eq_true, if_false, found_list]
  rfl

theorem process_plain (d : Decl) (hp : d.pack = false) (hrest : d.rest = false) :
    process d = ⟨store (index d) (triples d) 0, index d, d.params.length, required d.params, false⟩ := by
  simp only [process, hrest, hp, Bool.false_eq_true, if_false, found_list]
  rfl

theorem triples_length (d : Decl) : (triples d).length = d.tps.length := by simp [triples]

theorem store_from (d : Decl) (k : Nat) (h : k < d.tps.length → 0 ≤ index d ∧ index d ≤ k) (hk : k ≤ d.tps.length) :
    (store (index d) (triples d) 0).drop k = (d.tps.drop k).map (gpOf d) := by
  rw [store_drop]
  by_cases hlt : k < d.tps.length
  · rw [store_all _ (h hlt).1 _ _ (by simpa using (h hlt).2), triples, ← List.map_drop, List.map_map]
    rfl
  · have : k = d.tps.length := by omega
    rw [this, triples, ← List.map_drop, List.drop_length]; rfl

/-- **C194 (partial).** A call of a generic function instantiates it with the type arguments that are written, then the types of the
arguments that its parameters assign to the remaining type parameters, then the types of the further arguments. Missing: type parameters that are
packs, parameters that are written `T` behind a reference or pointer, and arguments that are left to a default value. -/
theorem type_arguments_partial (d : Decl) (hp : d.pack = false) (explicit args : List Ty) (hk : explicit.length ≤ d.tps.length)
    (hr : required d.params ≤ args.length)
    (h : ∀ g ∈ d.tps.drop explicit.length, Clean g d.params ∧ (expected g d.params args).isSome = true) :
    ∃ ts, resolve d explicit args = .types (explicit ++ (ts ++ restTypes d args)) ∧
      ts.map some = (d.tps.drop explicit.length).map fun g => expected g d.params args := by
  have hnz : ∀ y ∈ ((d.tps.map fun g => search g d.params 0 false).map (·.1)).drop explicit.length, y ≠ 0 := by
    intro y hy
    rw [← List.map_drop, ← List.map_drop] at hy
    simp only [List.map_map, List.mem_map, Function.comp] at hy
    obtain ⟨g, hg, rfl⟩ := hy
    obtain ⟨hc, he⟩ := h g hg
    obtain ⟨a, ha⟩ := Option.isSome_iff_exists.1 he
    obtain ⟨k, inn, t, e1, _, _⟩ := search_expected g d.params args 0 a hc ha
    rw [e1]; simp
  have hidx : explicit.length < d.tps.length → 0 ≤ index d ∧ index d ≤ explicit.length :=
    fun hlt => first_le _ explicit.length (by simpa using hlt) hnz
  have hb : index d = -1 ∨ 0 ≤ index d ∧ index d ≤ d.tps.length := by
    have := first_bound ((d.tps.map fun g => search g d.params 0 false).map (·.1)) 0 (-1) (.inl rfl)
    simp only [List.length_map] at this
    rcases this with this | this
    · exact .inl this
    · exact .inr ⟨this.1, by have := this.2; simpa [index] using this⟩
  have hfrom := store_from d explicit.length hidx hk
  cases hrest : d.rest with
  | true =>
    have htail : inferLoop args [⟨d.params.length + 1, false, true⟩] = some (restTypes d args) := by
      simp [inferLoop, restTypes, hrest]
    obtain ⟨ts, h1, h2⟩ := loop_expected d.params args _ _ htail (d.tps.drop explicit.length) h
    refine ⟨ts, ?_, h2⟩
    have h1 : inferLoop args ((d.tps.drop explicit.length).map (gpOf d) ++ [⟨d.params.length + 1, false, true⟩]) = some (ts ++ restTypes d args) := h1
    have htsl : ts.length = d.tps.length - explicit.length := by
      have := congrArg List.length h2
      simpa using this
    have hrl : (restTypes d args).length = 1 + (if d.params.length + 1 ≤ args.length then args.length - (d.params.length + 1) else 0) := by
      unfold restTypes
      rw [if_pos hrest]
      split
      · rename_i e
        have := congrArg List.length e
        rw [List.length_drop] at this
        simp only [List.length_nil] at this
        rw [if_neg (by omega)]; rfl
      · rename_i e
        have : d.params.length < args.length := by
          rw [← Nat.not_le]
          exact fun e' => e (List.drop_eq_nil_of_le e')
        rw [if_pos (by omega), List.length_drop]; omega
    have hdrop : (store (index d) (triples d) 0 ++ [(⟨d.params.length + 1, false, true⟩ : GP)]).drop explicit.length =
        (d.tps.drop explicit.length).map (gpOf d) ++ [⟨d.params.length + 1, false, true⟩] := by
      rw [List.drop_append_of_le_length (by rw [store_length, triples_length]; exact hk), hfrom]
    unfold resolve
    rw [process_rest d hp hrest]
    simp only [hdrop, h1, List.length_append, store_length, triples_length, List.length_singleton, htsl, hrl]
    rw [if_neg (by omega)]
    simp only [true_and]
    rw [if_neg (by omega), if_neg (by omega), if_pos, if_neg (by simp), if_neg (by omega)]
    by_cases hlt : explicit.length < d.tps.length
    · have := hidx hlt
      split <;> omega
    · split <;> omega
  | false =>
    have hrt : restTypes d args = [] := by simp [restTypes, hrest]
    obtain ⟨ts, h1, h2⟩ := loop_expected d.params args [] [] rfl (d.tps.drop explicit.length) h
    refine ⟨ts, ?_, h2⟩
    rw [List.append_nil, List.append_nil] at h1
    have h1 : inferLoop args ((d.tps.drop explicit.length).map (gpOf d)) = some ts := h1
    have htsl : ts.length = d.tps.length - explicit.length := by
      have := congrArg List.length h2
      simpa using this
    unfold resolve
    rw [process_plain d hp hrest]
    simp only [hfrom, h1, store_length, triples_length, Bool.false_eq_true, false_and, if_false, Nat.add_zero, hrt, List.append_nil, List.length_append, htsl]
    rw [if_neg (by omega)]
    by_cases hlt : explicit.length < d.tps.length
    · have hi := hidx hlt
      rw [if_neg (by omega), if_pos hi, if_neg (by omega), if_neg (by omega)]
    · have : ts = [] := List.eq_nil_of_length_eq_zero (by omega)
      rw [if_pos (by omega), this, List.append_nil]

/-- **C194.** A type parameter that is neither written nor mentioned by a parameter is reported. -/
theorem unmentioned_refused (d : Decl) (hp : d.pack = false) (hr : d.rest = false) (explicit args : List Ty) (g : Nat)
    (hg : g ∈ d.tps.drop explicit.length) (h : ¬ Mentioned g d.params) : resolve d explicit args = .error := by
  obtain ⟨k, hk1, hk2⟩ := List.getElem_of_mem hg
  rw [List.length_drop] at hk1
  rw [List.getElem_drop] at hk2
  have hz : ((d.tps.map fun g => search g d.params 0 false).map (·.1))[explicit.length + k]? = some 0 := by
    rw [List.getElem?_eq_getElem (by simp; omega)]
    simp only [List.getElem_map, hk2, search_unmentioned g d.params 0 false h]
  have hgt := first_gt _ 0 (-1) _ hz
  have hgt : index d = -1 ∨ _ < index d := hgt
  unfold resolve
  rw [process_plain d hp hr]
  simp only [store_length, triples_length, Bool.false_eq_true, false_and, if_false, Nat.add_zero]
  rw [if_neg (by omega), if_neg (by omega), if_neg (by omega)]

/-- `func f[A, T, U](y: U, x: &T, z: i32 = 1, ...rest)`. -/
def exampleDecl : Decl := ⟨[100, 101, 102], false, [(.name 102, false), (.ref (.name 101), false), (.name 7, true)], true⟩
example : resolve exampleDecl [.base 9] [.ptr (.base 4), .ref (.base 3), .base 7, .base 5, .base 6] =
    .types [.base 9, .base 3, .ptr (.base 4), .base 5, .base 6] := by decide
example : ∀ g ∈ exampleDecl.tps.drop 1, Clean g exampleDecl.params ∧ (expected g exampleDecl.params [.ptr (.base 4), .ref (.base 3)]).isSome = true := by
  intro g hg
  simp only [exampleDecl, List.drop_succ_cons, List.drop_zero, List.mem_cons, List.not_mem_nil, or_false] at hg
  rcases hg with rfl | rfl
  · exact ⟨by simp [Clean, exampleDecl], by decide⟩
  · exact ⟨by simp [Clean, exampleDecl], by decide⟩

/-- **C194 (negated).** `func f[T](p: &X, x: T)`: if the second argument is a pointer, `T` is what it points to. The call is then refused, as
a pointer does not fit the parameter. -/
theorem inner_type_of_another_parameter (T X : Nat) (hx : T ≠ X) (a b : Ty) :
    let d : Decl := ⟨[T], false, [(.ref (.name X), false), (.name T, false)], false⟩
    resolve d [] [a, .ptr b] = .types [b] ∧ expected T d.params [a, .ptr b] = some (.ptr b) := by
  have hx' : X ≠ T := fun e => hx e.symm
  refine ⟨?_, by simp [expected, hx']⟩
  simp [resolve, process, search, mention, hx, firstInferrable, flags, store, required, inferLoop, peel]

/-- **C194 (negated).** `func f[T](p: X, x: T = e)` called with one argument: the compiler reads behind the types of the arguments. -/
theorem default_read_outside (T X : Nat) (hx : T ≠ X) (a : Ty) :
    resolve ⟨[T], false, [(.name X, false), (.name T, true)], false⟩ [] [a] = .undef := by
  simp [resolve, process, search, mention, hx, firstInferrable, flags, store, required, inferLoop]

/-- **C194 (negated).** `func f[T, ...Ts](x: T, ...args: Ts)` called without type arguments: the compiler reads in front of the types of the
arguments, for all arguments. -/
theorem pack_read_outside (T Ts : Nat) (h : T ≠ Ts) (a : Ty) (args : List Ty) :
    resolve ⟨[T, Ts], true, [(.name T, false)], true⟩ [] (a :: args) = .undef := by
  have h' : Ts ≠ T := fun e => h e.symm
  simp [resolve, process, search, mention, h', firstInferrable, flags, store, required, inferLoop]
  omega

/-- **C194 (negated).** `func f[...Ts](...args: Ts)` called with one type argument and more than one argument: the other types are never
written. -/
theorem pack_types_not_written (Ts : Nat) (t a b : Ty) (args : List Ty) :
    resolve ⟨[Ts], true, [], true⟩ [t] (a :: b :: args) = .undef := by
  simp [resolve, process, search, firstInferrable, flags, store, required, inferLoop]

end Verif.Generics
