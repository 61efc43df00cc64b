/-! # Outcomes of modelled functions -/
namespace Verif

/-- A value, undefined behaviour, or a loop that never ends. -/
inductive Res (β : Type) where
  | ok (b : β)
  | ub
  | diverge
  deriving DecidableEq, Repr

namespace Res

variable {β γ : Type}

def bind : Res β → (β → Res γ) → Res γ
  | .ok b, f => f b
  | .ub, _ => .ub
  | .diverge, _ => .diverge

def map (f : β → γ) : Res β → Res γ
  | .ok b => .ok (f b)
  | .ub => .ub
  | .diverge => .diverge

@[simp] theorem bind_ok (b : β) (f : β → Res γ) : (Res.ok b).bind f = f b := rfl
@[simp] theorem map_ok (b : β) (f : β → γ) : (Res.ok b).map f = .ok (f b) := rfl
@[simp] theorem bind_ub (f : β → Res γ) : (Res.ub : Res β).bind f = .ub := rfl
@[simp] theorem bind_diverge (f : β → Res γ) : (Res.diverge : Res β).bind f = .diverge := rfl

/-- left fold that stops at the first outcome that is not a value -/
def foldl (f : β → γ → Res β) : β → List γ → Res β
  | b, [] => .ok b
  | b, x :: xs => (f b x).bind fun b' => foldl f b' xs

def isOk : Res β → Bool
  | .ok _ => true
  | _ => false

def getD (d : β) : Res β → β
  | .ok b => b
  | _ => d

theorem eq_ok (d : β) {r : Res β} (h : r.isOk = true) : r = .ok (r.getD d) := by
  cases r <;> simp_all [Res.isOk, Res.getD]

end Res
end Verif
