import Verif.Lang.Classes.Model
/-!
# What inheritance should do
-/
namespace Verif.Classes

/-- `i` is the function that a call of `n` with signature `s` means for an object of class `c`: the nearest one with that
name and signature, going up from the class of the object. -/
inductive Means : Chain → Nat → Nat → Impl → Prop
  | here {d : Decl} {as : Chain} {m : Method} : m ∈ d.methods → Means (d :: as) m.name m.sig ⟨d.id, m⟩
  | above {d : Decl} {as : Chain} {n s : Nat} {i : Impl} : (∀ m ∈ d.methods, ¬ (m.name = n ∧ m.sig = s)) →
      Means as n s i → Means (d :: as) n s i

/-- `c` is `b` or derived from it. -/
def Derived (c b : Chain) : Prop := ∃ ds, c = ds ++ b

/-- Every declaration has at most one function of a name. -/
def Plain (c : Chain) : Prop := ∀ d ∈ c, d.methods.Pairwise fun a b => a.name ≠ b.name

/-- No two functions of the name differ in their signature. -/
def OneSignature (c : Chain) (n s : Nat) : Prop := ∀ d ∈ c, ∀ m ∈ d.methods, m.name = n → m.sig = s

/-- The fields of the base are found in an object of the class where code for the base looks for them. -/
def Keeps (c b : Chain) : Prop := ∀ (k : Nat) (x : Cell), (layout b)[k]? = some x → (layout c)[k]? = some x

/-- The declarations are different ones. -/
def Distinct (c : Chain) : Prop := c.Pairwise fun a b => a.id ≠ b.id

end Verif.Classes
