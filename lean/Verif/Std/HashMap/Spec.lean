/-!
# Specification of a finite map

An association list without duplicate keys (up to `eq`).
-/
namespace Verif.HashMap.Spec

variable {K V : Type}

inductive Op (K V : Type) where
  | insert (k : K) (v : V) (replace : Bool)
  | get (k : K)
  | contains (k : K)
  | size
  | clear

inductive Out (V : Type) where
  | inserted (new : Bool)
  | value (v : Option V)
  | contains (b : Bool)
  | size (n : Nat)
  | done
  deriving DecidableEq, Repr

/-- insertion: new keys are added; the entry of an existing key is overwritten only on request -/
def insert (eq : K → K → Bool) (s : List (K × V)) (k : K) (v : V) (replace : Bool) : Bool × List (K × V) :=
  if s.any (fun e => eq e.1 k) then
    (false, if replace then s.map (fun e => if eq e.1 k then (k, v) else e) else s)
  else (true, (k, v) :: s)

def lookup (eq : K → K → Bool) (s : List (K × V)) (k : K) : Option V :=
  (s.find? (fun e => eq e.1 k)).map (·.2)

def remove (eq : K → K → Bool) (s : List (K × V)) (k : K) : List (K × V) := s.filter (fun e => !eq e.1 k)

def step (eq : K → K → Bool) (s : List (K × V)) : Op K V → Out V × List (K × V)
  | .insert k v r => (.inserted (insert eq s k v r).1, (insert eq s k v r).2)
  | .get k => (.value (lookup eq s k), s)
  | .contains k => (.contains (s.any fun e => eq e.1 k), s)
  | .size => (.size s.length, s)
  | .clear => (.done, [])

def run (eq : K → K → Bool) : List (K × V) → List (Op K V) → List (Out V) × List (K × V)
  | s, [] => ([], s)
  | s, o :: os =>
    let (x, s') := step eq s o
    let (xs, s'') := run eq s' os
    (x :: xs, s'')

end Verif.HashMap.Spec
