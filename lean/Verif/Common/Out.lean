/-! # Outcomes of modelled functions that may also fail an assertion -/
namespace Verif

/-- A value, a failed assertion, undefined behaviour, or a loop that never ends. -/
inductive Out (β : Type) where
  | ok (b : β)
  | abort
  | ub
  | diverge
  deriving DecidableEq, Repr

namespace Out

variable {β γ : Type}

def bind : Out β → (β → Out γ) → Out γ
  | .ok b, f => f b
  | .abort, _ => .abort
  | .ub, _ => .ub
  | .diverge, _ => .diverge

@[simp] theorem bind_ok (b : β) (f : β → Out γ) : (Out.ok b).bind f = f b := rfl
@[simp] theorem bind_abort (f : β → Out γ) : (Out.abort : Out β).bind f = .abort := rfl
@[simp] theorem bind_ub (f : β → Out γ) : (Out.ub : Out β).bind f = .ub := rfl
@[simp] theorem bind_diverge (f : β → Out γ) : (Out.diverge : Out β).bind f = .diverge := rfl

def isOk : Out β → Bool
  | .ok _ => true
  | _ => false

def getD (d : β) : Out β → β
  | .ok b => b
  | _ => d

theorem eq_ok (d : β) {r : Out β} (h : r.isOk = true) : r = .ok (r.getD d) := by
  cases r <;> simp_all [Out.isOk, Out.getD]

end Out
end Verif
