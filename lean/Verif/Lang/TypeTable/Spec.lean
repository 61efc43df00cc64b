import Verif.Lang.TypeTable.Model
/-!
# What a type is, without addresses

A `Tree` is a type as the user thinks of it: a constructor, its qualifiers, sizes and names, and its
components. Two requests ask for the same type when their trees are equal.
-/
namespace Verif.TypeTable

/-- A type without addresses. `wrapped` adds qualifiers (`const`) to a type. -/
inductive Tree where
  | node (d : Data) (full many : List Tree)
  | wrapped (f : Flags) (t : Tree)

/-- The attributes that belong to a type of each kind: the id of a primitive type, the length of an
array, the name of a nominal or function type, the namespace of enums, classes and interfaces, the
scope of a named function, and the qualifiers that apply to types. -/
def clean (d : Data) : Data where
  tag := d.tag
  flags := d.flags &&& applicable
  num := if d.tag ∈ [.primitive, .array] then d.num else 0
  name := if d.tag ∈ [.untaggedUnion, .opaque, .enum, .class, .interface, .func] ∨ byName d = true then d.name else none
  ns := if d.tag ∈ [.enum, .class, .interface] then d.ns else none
  scope := if d.tag = .func ∧ d.name ≠ none then d.scope else none

/-- The qualifiers that tell types apart are exactly: const (8), closure (12), function type parameter (15),
extern (37), optional (41), reference members (43), slice (45) and anonymous (59). -/
theorem clean_qualifiers (d : Data) (i : Nat) :
    (clean d).flags.getLsbD i = (d.flags.getLsbD i && decide (i ∈ [8, 12, 15, 37, 41, 43, 45, 59])) := by
  have h : applicable.getLsbD i = decide (i ∈ [8, 12, 15, 37, 41, 43, 45, 59]) := by
    by_cases hi : i < 64
    · have : ∀ j : Fin 64, applicable.getLsbD j.val = decide (j.val ∈ [8, 12, 15, 37, 41, 43, 45, 59]) := by
        decide +kernel
      exact this ⟨i, hi⟩
    · rw [BitVec.getLsbD_of_ge _ _ (by omega)]
      simp
      omega
  simp only [clean, BitVec.getLsbD_and, h]

/-- For example `const` (8) is kept and `public` (2) is not. -/
example : (clean { tag := .pointer, flags := 0x104#64 }).flags = 0x100#64 := by decide

/-- An alias stands for its name exactly when it is extern (37). -/
theorem byName_iff (d : Data) : byName d = true ↔ d.tag = .alias ∧ d.flags.getLsbD 37 = true := by
  have h : (d.flags &&& flgExtern ≠ 0) ↔ d.flags.getLsbD 37 = true := by
    constructor
    · intro h
      refine Decidable.byContradiction fun hc => h ?_
      apply BitVec.eq_of_getLsbD_eq
      intro i hi
      have : ∀ j : Fin 64, flgExtern.getLsbD j.val = decide (j.val = 37) := by decide +kernel
      rw [BitVec.getLsbD_and, this ⟨i, hi⟩]
      by_cases hj : i = 37
      · subst hj; simp_all
      · simp [hj]
    · intro h hc
      have := congrArg (BitVec.getLsbD · 37) hc
      simp only [BitVec.getLsbD_and, h] at this
      revert this
      decide
  unfold byName
  rw [Bool.and_eq_true, decide_eq_true_iff, decide_eq_true_iff, h]

example : byName { tag := .alias, flags := flgExtern } = true ∧ byName { tag := .alias } = false := by decide

mutual
/-- The type a record stands for. An extern alias stands for its name. -/
def erase : Ty → Tree
  | .node _ d full many => .node (clean d) (if byName d then [] else eraseAll full) (eraseAll many)
  | .wrapped _ f t => .wrapped (f &&& applicable) (erase t)
def eraseAll : List Ty → List Tree
  | [] => []
  | t :: ts => erase t :: eraseAll ts
end

/-- `t` with the qualifiers `f` added. -/
def qualify (f : Flags) : Tree → Tree
  | .node d full many => .node { d with flags := f ||| d.flags } full many
  | .wrapped g t => .wrapped (f ||| g) t

mutual
/-- The type with every wrapper turned into qualifiers of the type it wraps: `const` wrapped around a
pointer type and a pointer type that is itself `const` become the same. -/
def norm : Tree → Tree
  | .node d full many => .node d (normAll full) (normAll many)
  | .wrapped f t => qualify f (norm t)
def normAll : List Tree → List Tree
  | [] => []
  | t :: ts => norm t :: normAll ts
end

/-- The type behind aliases and type-information types. -/
def strip : Tree → Tree
  | .node d [t] many => if d.tag = .alias ∨ d.tag = .info then strip t else .node d [t] many
  | t => t

/-- The qualifiers of the wrappers around a type and the type inside. -/
def open_ (acc : Flags) : Tree → Flags × Tree
  | .wrapped f t => open_ (acc ||| f) t
  | t => (acc, t)

def flagsOf : Tree → Flags
  | .node d _ _ => d.flags
  | .wrapped f _ => f

/-- What one request asks for, given what the earlier ones asked for. Pointers, references, optionals and
aliases take over the qualifiers of what they are built on, and see through aliases. -/
def asked (ms : List Tree) : Req → Option Tree
  | .leaf d => some (.node (clean d) [] [])
  | .flat tag i flags name =>
    ms[i]?.map fun t =>
      let (f, t') := open_ (flags &&& applicable) (strip t)
      .node (clean { tag, flags := f, name }) [t'] []
  | .plain d is => (is.mapM (ms[·]?)).map fun ts => .node (clean d) ts []
  | .members d is => (is.mapM (ms[·]?)).map fun ts => .node (clean d) [] ts
  | .func flags name scope r ps =>
    ms[r]?.bind fun t => (ps.mapM (ms[·]?)).map fun ts =>
      .node (clean { tag := .func, flags, name, scope }) [t] ts
  | .wrap i flags =>
    ms[i]?.map fun t =>
      if flagsOf t &&& flags = flags then t
      else
        let (f, t') := open_ flags (strip t)
        .wrapped f t'

/-- The meaning of a history of requests, oldest first: the trees asked for. `none` when a request
refers to an answer that does not exist yet. -/
def askedAll (ms : List Tree) : List Req → Option (List Tree)
  | [] => some ms
  | r :: rs => do
    let t ← asked ms r
    askedAll (ms ++ [t]) rs

end Verif.TypeTable
