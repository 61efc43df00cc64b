/-!
# Specification of a map of blobs identified by an equality
-/
namespace Verif.Hmap.Spec

variable {α : Type}

inductive Op (α : Type) where
  | put (e : α)
  | get (k : α)
  | remove (k : α)
  | size

inductive Out (α : Type) where
  /-- whether the element was new -/
  | put (new : Bool)
  | got (r : Option α)
  | removed
  | size (n : Nat)
  deriving DecidableEq, Repr

def step (eq : α → α → Bool) (s : List α) : Op α → Out α × List α
  | .put e =>
    if s.any (eq · e) then (.put false, s.map fun x => if eq x e then e else x) else (.put true, e :: s)
  | .get k => (.got (s.find? (eq · k)), s)
  | .remove k => (.removed, s.filter fun x => !eq x k)
  | .size => (.size s.length, s)

def run (eq : α → α → Bool) : List α → List (Op α) → List (Out α) × List α
  | s, [] => ([], s)
  | s, o :: os =>
    let (x, s') := step eq s o
    let (xs, s'') := run eq s' os
    (x :: xs, s'')

/-- Every `put` of the history is of an element that is absent at that moment. -/
def PutsFresh (eq : α → α → Bool) : List α → List (Op α) → Prop
  | _, [] => True
  | s, o :: os =>
    (match o with | .put e => s.any (eq · e) = false | _ => True) ∧ PutsFresh eq (step eq s o).2 os

end Verif.Hmap.Spec
