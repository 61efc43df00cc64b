import Verif.Lang.Implements.Model
import Verif.Lang.Overload.Props

/-!
# C233: a class has the functions of the interfaces it implements

`implements_partial`: exactly right where no parameter type converts to another, no
function has default values or a variable number of parameters, and the functions are
written in the class itself.  `converted_accepted`: a function with other parameter types
is taken.  `inherited_refused`: functions of the base are not found.
-/

namespace Verif.Implements
open Verif.Overload
variable {T : Type} [DecidableEq T]

/-- Specification: one of the functions `fs` is what is asked for — those parameters, that
result, `const` if that is asked. -/
def Gives (fs : List (Fn T)) (a : Asked T) : Prop :=
  ∃ f ∈ fs, f.params = a.params ∧ f.ret = a.ret ∧ (a.isConst = true → f.isConst = true)

/-- Specification: the members of a class or of one it is derived from have the function. -/
def Has (c : Class T) (a : Asked T) : Prop :=
  ∃ ms ∈ c.own :: c.bases, ∃ fs, findMember ms a.name = some (.funcs fs) ∧ Gives fs a

/-- Specification: a list of names behind the colon is in order: interfaces only, all
different. -/
def InOrder (ns : List (Named T)) : Prop :=
  ∃ ks : List (Nat × List (Asked T)), ns = ks.map (fun k => Named.interface k.1 k.2) ∧
    (ks.map (·.1)).Nodup

/-- Plain functions: as many arguments as parameters. -/
def Fn.plain (f : Fn T) : Prop := f.variadic = false ∧ f.defaults = 0

/-- Overloads differ in their parameters or in being `const`, and then not in the result. -/
def Overloads (fs : List (Fn T)) : Prop :=
  ∀ f ∈ fs, ∀ g ∈ fs, f.params = g.params → f.ret = g.ret

omit [DecidableEq T] in
theorem zip_eq_of_all : ∀ (xs ys : List T), xs.length = ys.length →
    (∀ x ∈ xs.zip ys, x.1 = x.2) → xs = ys
  | [], [], _, _ => rfl
  | [], _ :: _, h, _ => by simp at h
  | _ :: _, [], h, _ => by simp at h
  | x :: xs, y :: ys, h, e => by
    have h1 := e (x, y) (by simp)
    simp only at h1
    rw [h1, zip_eq_of_all xs ys (by simpa using h) (fun p hp => e p (by simp [hp]))]

theorem takes_iff (conv : T → T → Bool) (hc : ∀ p a, conv p a = true → p = a) (w : Bool)
    (f : Fn T) (hp : f.plain) (args : List T) :
    Takes conv false (toDecl w f) args ↔ f.params = args ∧ (w = true → f.isConst = true) := by
  obtain ⟨h1, h2⟩ := hp
  simp only [Takes, TakesCount, toDecl, fixed, h1, h2, Bool.false_eq_true, if_false, Nat.sub_zero]
  constructor
  · rintro ⟨hs, hl, hz⟩
    refine ⟨zip_eq_of_all _ _ (by omega) ?_, ?_⟩
    · intro x hx
      rcases hz x hx with h | h
      · exact h
      · exact hc _ _ h.2
    · intro hw
      cases hcst : f.isConst with
      | true => rfl
      | false => simp [hw, hcst] at hs
  · rintro ⟨rfl, hw⟩
    refine ⟨?_, by omega, ?_⟩
    · cases w with
      | false => rfl
      | true => simp [hw rfl]
    · intro x hx
      left
      have : ∀ (l : List T), ∀ x ∈ l.zip l, x.1 = x.2 := by
        intro l
        induction l with
        | nil => simp
        | cons b l ih =>
          intro x hx
          simp only [List.zip_cons_cons, List.mem_cons] at hx
          rcases hx with rfl | hx
          · rfl
          · exact ih x hx
      exact this _ x hx

theorem origin_some (w : Bool) (fs : List (Fn T)) (f : Fn T) (hf : f ∈ fs) :
    ∃ g ∈ fs, origin w fs (toDecl w f) = some g ∧ g.params = f.params := by
  unfold origin
  cases h : fs.find? (fun g => (toDecl w f).skip = (w && !g.isConst) ∧ (toDecl w f).variadic = g.variadic ∧
    (toDecl w f).defaults = g.defaults ∧ (toDecl w f).params = g.params) with
  | none =>
    rw [List.find?_eq_none] at h
    exact absurd (h f hf) (by simp [toDecl])
  | some g =>
    refine ⟨g, List.mem_of_find?_eq_some h, rfl, ?_⟩
    have := List.find?_some h
    simp only [decide_eq_true_eq] at this
    exact this.2.2.2.symm

/-- One function that is asked for. -/
theorem hasOne_iff (conv : T → T → Bool) (hc : ∀ p a, conv p a = true → p = a) (c : Class T)
    (a : Asked T)
    (hp : ∀ fs, findMember c.own a.name = some (.funcs fs) → (∀ f ∈ fs, f.plain) ∧ Overloads fs) :
    hasOne conv c a = true ↔
      ∃ fs, findMember c.own a.name = some (.funcs fs) ∧ Gives fs a := by
  unfold hasOne
  cases hm : findMember c.own a.name with
  | none => simp
  | some m =>
    cases m with
    | field t => simp
    | funcs fs =>
      obtain ⟨hpl, hov⟩ := hp fs hm
      have hres := resolution_best_partial conv false (fs.map (toDecl a.isConst)) a.params
        (by
          intro d hd
          obtain ⟨f, hf, rfl⟩ := List.mem_map.mp hd
          intro hv
          simp [toDecl, (hpl f hf).1] at hv)
        (by
          intro d hd _ hv
          obtain ⟨f, hf, rfl⟩ := List.mem_map.mp (List.dropLast_subset _ hd)
          simp [toDecl, (hpl f hf).1] at hv)
      simp only
      cases hr : resolve conv false (fs.map (toDecl a.isConst)) a.params with
      | none =>
        rw [hr] at hres
        simp only [Bool.false_eq_true, false_iff]
        rintro ⟨fs', h, f, hf, h1, h2, h3⟩
        cases h
        exact hres _ (List.mem_map.mpr ⟨f, hf, rfl⟩)
          ((takes_iff conv hc _ f (hpl f hf) _).mpr ⟨h1, h3⟩)
      | some d =>
        rw [hr] at hres
        obtain ⟨hd, ht, _⟩ := hres
        obtain ⟨f, hf, rfl⟩ := List.mem_map.mp hd
        obtain ⟨h1, h2⟩ := (takes_iff conv hc _ f (hpl f hf) _).mp ht
        obtain ⟨g, hg, ho, hgp⟩ := origin_some a.isConst fs f hf
        simp only [ho, decide_eq_true_eq]
        have hfg := hov f hf g hg hgp.symm
        constructor
        · intro h
          exact ⟨fs, rfl, f, hf, h1, by rw [hfg, h], h2⟩
        · rintro ⟨fs', h, k, hk, k1, k2, _⟩
          cases h
          rw [← k2]
          exact hov g hg k hk (by rw [hgp, h1, k1])

omit [DecidableEq T] in
theorem checkImplements_iff : ∀ (ns : List (Named T)) (seen : List Nat),
    checkImplements seen ns = true ↔
      ∃ ks : List (Nat × List (Asked T)), ns = ks.map (fun k => Named.interface k.1 k.2) ∧
        (ks.map (·.1)).Nodup ∧ ∀ k ∈ ks.map (·.1), k ∉ seen
  | [], seen => by
    simp only [checkImplements, true_iff]
    exact ⟨[], rfl, List.nodup_nil, by simp⟩
  | .other :: ns, seen => by
    simp only [checkImplements, Bool.false_eq_true, false_iff]
    rintro ⟨ks, h, _⟩
    cases ks with
    | nil => simp at h
    | cons k ks => simp at h
  | .interface k fs :: ns, seen => by
    simp only [checkImplements, Bool.and_eq_true, checkImplements_iff ns (k :: seen)]
    constructor
    · rintro ⟨hk, ks, rfl, hn, hs⟩
      refine ⟨(k, fs) :: ks, rfl, ?_, ?_⟩
      · simp only [List.map_cons, List.nodup_cons]
        exact ⟨fun h => hs k h (by simp), hn⟩
      · intro x hx
        simp only [List.map_cons, List.mem_cons] at hx
        rcases hx with rfl | hx
        · simpa using hk
        · exact fun h => hs x hx (List.mem_cons_of_mem _ h)
    · rintro ⟨ks, h, hn, hs⟩
      cases ks with
      | nil => simp at h
      | cons q ks =>
        simp only [List.map_cons, List.cons.injEq, Named.interface.injEq] at h
        obtain ⟨⟨rfl, rfl⟩, rfl⟩ := h
        simp only [List.map_cons, List.nodup_cons] at hn
        refine ⟨by simpa using hs q.1 (by simp), ks, rfl, hn.2, ?_⟩
        intro x hx
        simp only [List.mem_cons, not_or]
        exact ⟨fun e => hn.1 (e ▸ hx), hs x (by simp only [List.map_cons, List.mem_cons]; exact .inr hx)⟩

theorem implementsAll_iff (conv : T → T → Bool) (c : Class T) : ∀ ns : List (Named T),
    implementsAll conv c ns = true ↔
      ∀ k fs, Named.interface k fs ∈ ns → ∀ a ∈ fs, hasOne conv c a = true
  | [] => by simp [implementsAll]
  | .other :: ns => by
    simp only [implementsAll, implementsAll_iff conv c ns]
    constructor
    · intro h k fs hm
      simp only [List.mem_cons, reduceCtorEq, false_or] at hm
      exact h k fs hm
    · intro h k fs hm
      exact h k fs (List.mem_cons_of_mem _ hm)
  | .interface k fs :: ns => by
    simp only [implementsAll, Bool.and_eq_true, implementsAll_iff conv c ns, List.all_eq_true]
    constructor
    · rintro ⟨h1, h2⟩ k' fs' hm
      simp only [List.mem_cons, Named.interface.injEq] at hm
      rcases hm with ⟨rfl, rfl⟩ | hm
      · exact h1
      · exact h2 k' fs' hm
    · intro h
      exact ⟨h k fs (by simp), fun k' fs' hm => h k' fs' (List.mem_cons_of_mem _ hm)⟩

/-- C233 where parameter types do not convert, functions are plain and nothing is
inherited: a class is accepted exactly if what stands behind the colon are different
interfaces and it has all their functions. -/
theorem implements_partial (conv : T → T → Bool) (hc : ∀ p a, conv p a = true → p = a)
    (c : Class T) (hb : c.bases = []) (ns : List (Named T))
    (hp : ∀ n fs, findMember c.own n = some (.funcs fs) → (∀ f ∈ fs, f.plain) ∧ Overloads fs) :
    accepted conv c ns = true ↔
      InOrder ns ∧ ∀ k fs, Named.interface k fs ∈ ns → ∀ a ∈ fs, Has c a := by
  simp only [accepted, Bool.and_eq_true, checkImplements_iff, implementsAll_iff]
  have h1 : ∀ a, hasOne conv c a = true ↔ Has c a := by
    intro a
    rw [hasOne_iff conv hc c a (fun fs h => hp _ fs h)]
    simp [Has, hb]
  simp only [h1, InOrder, List.not_mem_nil, not_false_eq_true, implies_true, and_true]

/-- C233 is false of the code: a function whose parameters are of other types is taken if
those asked for convert to them.  For any class with one function of that name. -/
theorem converted_accepted (conv : T → T → Bool) (p q r : T) (n : Nat) (hne : p ≠ q)
    (hconv : conv q p = true) :
    accepted conv ⟨[(n, .funcs [⟨false, false, 0, [q], r⟩])], []⟩
        [.interface 0 [⟨n, false, [p], r⟩]] = true
    ∧ ¬ Has (⟨[(n, .funcs [⟨false, false, 0, [q], r⟩])], []⟩ : Class T) ⟨n, false, [p], r⟩ := by
  constructor
  · simp [accepted, checkImplements, implementsAll, hasOne, findMember, resolve, search, score,
      toDecl, origin, hconv, Ne.symm hne]
  · rintro ⟨ms, hm, fs, hf, f, hff, h1, _⟩
    simp only [List.mem_cons, List.not_mem_nil, or_false] at hm
    subst hm
    simp only [findMember, List.find?_cons, beq_self_eq_true, Option.map_some, Option.some.injEq,
      Member.funcs.injEq] at hf
    subst hf
    simp only [List.mem_cons, List.not_mem_nil, or_false] at hff
    subst hff
    simp only [List.cons.injEq, and_true] at h1
    exact hne h1.symm

/-- More generally, default values make a longer function count as the shorter one. -/
theorem defaults_accepted (conv : T → T → Bool) (ps : List T) (q r : T) (n : Nat) :
    hasOne conv ⟨[(n, .funcs [⟨false, false, 1, ps ++ [q], r⟩])], []⟩ ⟨n, false, ps, r⟩ = true
    ∧ ¬ Gives [(⟨false, false, 1, ps ++ [q], r⟩ : Fn T)] ⟨n, false, ps, r⟩ := by
  constructor
  · have hs : ∀ xs : List T, score conv false (xs ++ [q]) xs = some 0 := by
      intro xs
      induction xs with
      | nil => rfl
      | cons x xs ih => simp [score, ih]
    have hl : ¬ (ps.length + 1 < ps.length) := by omega
    simp [hasOne, findMember, resolve, search, toDecl, origin, hs, hl]
  · rintro ⟨f, hf, h1, _⟩
    simp only [List.mem_cons, List.not_mem_nil, or_false] at hf
    subst hf
    have := congrArg List.length h1
    simp at this

/-- C233 is false of the code: a class that inherits a function an interface asks for, and
does not write it again, is refused. -/
theorem inherited_refused (conv : T → T → Bool) (c : Class T) (a : Asked T) (k : Nat)
    (fs : List (Asked T)) (ns : List (Named T)) (hm : Named.interface k fs ∈ ns) (ha : a ∈ fs)
    (hown : findMember c.own a.name = none) : accepted conv c ns = false := by
  cases h : accepted conv c ns with
  | false => rfl
  | true =>
    simp only [accepted, Bool.and_eq_true, implementsAll_iff] at h
    have := h.2 k fs hm a ha
    simp [hasOne, hown] at this

/-! ### Cases -/

/-- `class A : I { func f(x: 1): 9; const func f(x: 2): 9; func g(): 9 }`. -/
def sample : Class Nat :=
  ⟨[(0, .funcs [⟨false, false, 0, [1], 9⟩, ⟨true, false, 0, [2], 9⟩]), (1, .funcs [⟨false, false, 0, [], 9⟩]),
    (2, .field 5)], []⟩

example : accepted (fun p a => decide (p = a)) sample
    [.interface 0 [⟨0, true, [2], 9⟩], .interface 1 [⟨1, false, [], 9⟩, ⟨0, false, [1], 9⟩]] = true := by decide
example : accepted (fun p a => decide (p = a)) sample [.interface 0 [⟨0, true, [1], 9⟩]] = false := by decide
example : accepted (fun p a => decide (p = a)) sample [.interface 0 [], .interface 0 []] = false := by decide
example : ∀ n fs, findMember sample.own n = some (.funcs fs) →
    (∀ f ∈ fs, f.plain) ∧ Overloads fs := by
  intro n fs h
  match n with
  | 0 => simp [findMember, sample] at h; subst h; simp [Fn.plain, Overloads]
  | 1 => simp [findMember, sample] at h; subst h; simp [Fn.plain, Overloads]
  | 2 => simp [findMember, sample] at h
  | n + 3 => simp [findMember, sample] at h
/-- An object with `f` inherited: it has the function and is refused. -/
example : accepted (fun p a => decide (p = a)) ⟨[], [[(0, .funcs [⟨false, false, 0, [1], 9⟩])]]⟩
      [.interface 0 [⟨0, false, [1], 9⟩]] = false
    ∧ Has (⟨[], [[(0, .funcs [⟨false, false, 0, [1], 9⟩])]]⟩ : Class Nat) ⟨0, false, [1], 9⟩ := by
  refine ⟨by decide, [(0, .funcs [⟨false, false, 0, [1], 9⟩])], by simp, _, rfl, ⟨false, false, 0, [1], 9⟩, by simp, rfl, rfl, by simp⟩

end Verif.Implements
