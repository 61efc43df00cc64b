/-!
# Specification of a hash set

A set of elements up to an equality `cmp`, kept as a list.  Nothing here refers to buckets or
hashes.
-/
namespace Verif.HTable.Spec

variable {α : Type}

/-- The operations a client issues. -/
inductive Op (α : Type) where
  | insert (e : α)
  | find (e : α)
  | clear

/-- What a client observes. -/
inductive Out (α : Type) where
  | inserted (b : Bool)
  | found (r : Option α)
  | cleared
  deriving DecidableEq, Repr

/-- One operation on the abstract set. -/
def step (cmp : α → α → Bool) (s : List α) : Op α → Out α × List α
  | .insert e => if s.any (cmp · e) then (.inserted false, s) else (.inserted true, e :: s)
  | .find e => (.found (s.find? (cmp · e)), s)
  | .clear => (.cleared, [])

/-- A history: the outputs, oldest first, and the final set. -/
def run (cmp : α → α → Bool) : List α → List (Op α) → List (Out α) × List α
  | s, [] => ([], s)
  | s, o :: os =>
    let (x, s') := step cmp s o
    let (xs, s'') := run cmp s' os
    (x :: xs, s'')

end Verif.HTable.Spec
