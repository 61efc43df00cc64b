/-! # Model of the spelling suggestions, `src/cxy/lang/middle/bind/scope.c` 44-101 -/
namespace Verif.Suggest

/-- scope.c 44-64 `levenshteinDistance`, on the characters before the NUL. -/
def dist : List Nat → List Nat → Nat → Nat
  | [], rhs, _ => rhs.length
  | l :: ls, [], _ => (l :: ls).length
  | l :: ls, r :: rs, minDist =>
    if l = r then dist ls rs minDist
    else if minDist = 0 then 1
    else
      let a := dist ls (r :: rs) (minDist - 1)
      let b := dist (l :: ls) rs (minDist - 1)
      let c := dist ls rs (minDist - 1)
      1 + min c (min a b)
  termination_by l r => l.length + r.length

/-- scope.c 84-96: the loop of `suggestSimilarSymbol` over the visible names, in the order it meets
them: the cut-off and the best name so far. -/
def pick (name : List Nat) : List (List Nat) → Nat → Option (List Nat) → Option (List Nat)
  | [], _, best => best
  | s :: r, minDist, best =>
    let d := dist name s minDist
    if d < minDist then pick name r d (some s) else pick name r minDist best

/-- scope.c 77-101 `suggestSimilarSymbol`. -/
def suggest (name : List Nat) (visible : List (List Nat)) : Option (List Nat) :=
  if name.length ≤ 2 then none else pick name visible 2 none

end Verif.Suggest
