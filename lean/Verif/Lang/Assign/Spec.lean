import Verif.Lang.Assign.Model
/-!
# What it means that a value is of a type

A value is of a type when whatever the program can reach through it is what the type says: memory holds the values that
the pointers to it promise, objects are of the class or of one derived from it, and functions can be called with what
their type takes. The definition does not mention what the checker accepts.
-/
namespace Verif.Assign
open Verif.Prim (Prim)
open Ty

/-- Values. A number carries the type it is stored with. An object of a class is a reference to it. -/
inductive Val where
  | num (p : Prim) (x : Int)
  | nul
  | addr (a : Nat)
  | text
  | record (id : Nat)
  | obj (c : List Nat)
  | list (vs : List Val)
  | none
  | some (v : Val)
  | func (f : Nat)

/-- A state of the program: what the memory holds, which memory must not be written, the types that functions are
declared with, and the interfaces that classes and structures name. -/
structure World where
  mem : Nat → Option Val
  frozen : Nat → Prop
  code : Nat → Ty
  impl : Nat → Nat → Bool
  options : Nat → Int → Prop

/-- A function declared with type `d` can be used as one of type `t`. -/
def Callable (prev : Val → Ty → Prop) : Ty → Ty → Prop
  | arrow p d, arrow q t => (∀ v, prev v q → prev v p) ∧ Callable prev d t
  | ret d, ret t => ∀ v, prev v d → prev v t
  | _, _ => False

/-- One step: `prev` is asked of everything that a reference leads to. -/
def Step (w : World) (prev : Val → Ty → Prop) (v : Val) : Ty → Prop
  | prim p => ∃ x, v = .num p x
  | enum id p => ∃ x, v = .num p x ∧ w.options id x
  | void => True
  | null => False
  | str => v = .nul ∨ v = .text
  | struct id => v = .record id
  | cls c => v = .nul ∨ ∃ d, v = .obj d ∧ c <:+ d
  | iface i => v = .nul ∨ ∃ d, (v = .record d ∧ w.impl d i = true) ∨ ∃ c, v = .obj c ∧ d ∈ c ∧ w.impl d i = true
  | ptr _ void => v = .nul ∨ v = .text ∨ (∃ a, v = .addr a) ∨ ∃ c, v = .obj c
  | ptr k t => v = .nul ∨ ∃ a x, v = .addr a ∧ w.mem a = some x ∧ prev x t ∧ (k = false → ¬ w.frozen a)
  | ref k t => ∃ a x, v = .addr a ∧ w.mem a = some x ∧ prev x t ∧ (k = false → ¬ w.frozen a)
  | arr n t => ∃ vs, v = .list vs ∧ (∀ k, n = some k → vs.length = k) ∧ ∀ x ∈ vs, prev x t
  | opt t => v = .none ∨ ∃ x, v = .some x ∧ prev x t
  | const t => Step w prev v t
  | ret t => v = .nul ∨ ∃ f, v = .func f ∧ Callable prev (w.code f) (ret t)
  | arrow p t => v = .nul ∨ ∃ f, v = .func f ∧ Callable prev (w.code f) (arrow p t)

/-- The value is of the type as far as `n` steps can tell. -/
def Has (w : World) : Nat → Val → Ty → Prop
  | 0, _, _ => True
  | n + 1, v, t => Step w (Has w n) v t

/-- The value is of the type. -/
def Valid (w : World) (v : Val) (t : Ty) : Prop := ∀ n, Has w n v t

end Verif.Assign
