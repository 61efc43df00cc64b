import Verif.Lang.Preprocess.Model

/-!
# What a macro means

A call of a macro stands for its body with the parameters replaced by the arguments, and what comes
out is expanded in turn. Only the table of macros and this replacement are used, no scopes.
-/
namespace Verif.Preprocess

mutual
/-- The term with the names of `σ` replaced. -/
def subst (σ : Nat → Option Tm) : Tm → Tm
  | .node c ts => .node c (substs σ ts)
  | .call n args => (σ n).getD (.call n (substs σ args))

def substs (σ : Nat → Option Tm) : List Tm → List Tm
  | [] => []
  | t :: ts => subst σ t :: substs σ ts
end

/-- Parameters paired with arguments. -/
def pairing (ps : List Nat) (as : List Tm) : Nat → Option Tm := fun n => (ps.zip as).lookup n

/-- The meaning of a list of terms. -/
inductive Expands (G : Table) : List Tm → List Tm → Prop
  | nil : Expands G [] []
  | node (c : Nat) (ts ts' us us' : List Tm) : Expands G ts ts' → Expands G us us' →
      Expands G (.node c ts :: us) (.node c ts' :: us')
  | other (n : Nat) (as as' us us' : List Tm) : G n = none → Expands G as as' → Expands G us us' →
      Expands G (.call n as :: us) (.call n as' :: us')
  | value (n : Nat) (v v' : Tm) (as as' us us' : List Tm) : G n = some (.value v) → Expands G as as' →
      Expands G [v] [v'] → Expands G us us' → Expands G (.call n as :: us) (v' :: us')
  | empty (n : Nat) (ps : List Nat) (as as' us us' : List Tm) : G n = some (.decl ps none) →
      Expands G as as' → Expands G us us' → Expands G (.call n as :: us) (noop :: us')
  | call (n : Nat) (ps : List Nat) (b t' : Tm) (as as' us us' : List Tm) :
      G n = some (.decl ps (some b)) → Expands G as as' → as.length = ps.length →
      Expands G [subst (pairing ps as') b] [t'] → Expands G us us' →
      Expands G (.call n as :: us) (t' :: us')

mutual
/-- All calls of the term satisfy `Q`. -/
def Uses (Q : Nat → List Tm → Prop) : Tm → Prop
  | .node _ ts => UsesAll Q ts
  | .call n args => Q n args ∧ UsesAll Q args

def UsesAll (Q : Nat → List Tm → Prop) : List Tm → Prop
  | [] => True
  | t :: ts => Uses Q t ∧ UsesAll Q ts
end

/-- A name that is a parameter of some macro. -/
def IsParam (G : Table) (p : Nat) : Prop := ∃ n ps b, G n = some (.decl ps b) ∧ p ∈ ps

/-- The condition on a table: no name is both a parameter and a macro, the parameters of a macro are
different and none is `_`, and a body uses no parameters but those of its own macro, without
arguments. -/
structure Hygienic (G : Table) : Prop where
  apart : ∀ p, IsParam G p → G p = none
  nodup : ∀ n ps b, G n = some (.decl ps b) → ps.Nodup ∧ ignored ∉ ps
  bodies : ∀ n ps b, G n = some (.decl ps (some b)) →
    Uses (fun m as => (m ∈ ps ∧ as = []) ∨ ¬ IsParam G m) b
  values : ∀ n v, G n = some (.value v) → Uses (fun m _ => ¬ IsParam G m) v

/-- The term uses no name that is a parameter of a macro. -/
def Outside (G : Table) (t : Tm) : Prop := Uses (fun m _ => ¬ IsParam G m) t

/-- The term has a call of `m` somewhere. -/
inductive Mentions (m : Nat) : Tm → Prop
  | here (args : List Tm) : Mentions m (.call m args)
  | node (c : Nat) (ts : List Tm) (t : Tm) : t ∈ ts → Mentions m t → Mentions m (.node c ts)
  | arg (n : Nat) (ts : List Tm) (t : Tm) : t ∈ ts → Mentions m t → Mentions m (.call n ts)

end Verif.Preprocess
