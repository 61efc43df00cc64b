import Verif.Lang.Comptime.Model
/-!
# What compile-time statements should mean

The reference reads a program with the `#` marks erased: a compile-time
variable is a variable, `#if` is an `if` and `#for (const x: lo..hi)` runs its
body for `lo`, `lo + 1`, …, `hi - 1` (docs/comptime.md: "the body of the
comptime loop is unrolled … sequentially").
-/
namespace Verif.Comptime

def evalRE (σ : CEnv) (ρ : REnv) : RE → Int
  | .lit v => v
  | .rv x => ρ x
  | .ct e => evalCE σ e
  | .bin f a b => f (evalRE σ ρ a) (evalRE σ ρ b)

/-- The numbers `lo`, …, `lo + n - 1`. -/
def ints (lo : Int) (n : Nat) : List Int := (List.range n).map (fun k : Nat => lo + (k : Int))

/-- Runs `body` for every number of a list, in order. -/
def each {α : Type} (body : Int → α → Option α) : List Int → α → Option α
  | [], a => some a
  | i :: is, a => (body i a).bind (each body is)

mutual
def run (n : Nat) : S → CEnv × St → Option (CEnv × St)
  | .out e, (σ, ρ, o) => some (σ, ρ, o ++ [evalRE σ ρ e])
  | .decl x e, (σ, ρ, o) => some (σ, upd ρ x (evalRE σ ρ e), o)
  | .set x e, (σ, ρ, o) => some (σ, upd ρ x (evalRE σ ρ e), o)
  | .ifR c t e, s =>
    if evalRE s.1 s.2.1 c ≠ 0 then runs n t s else runs n e s
  | .ifRC c t k a b, s =>
    if evalRE s.1 s.2.1 c ≠ 0 then runs n t s
    else if evalCE s.1 k ≠ 0 then runs n a s else runs n b s
  | .whileR c b, s => loop (fun s => evalRE s.1 s.2.1 c != 0) (runs n b) n s
  | .block b, s => runs n b s
  | .constC x e, (σ, s) => some (upd σ x (evalCE σ e), s)
  | .setC x e, (σ, s) => some (upd σ x (evalCE σ e), s)
  | .opC x f e, (σ, s) => some (upd σ x (f (σ x) (evalCE σ e)), s)
  | .ifC k a b, s => if evalCE s.1 k ≠ 0 then runs n a s else runs n b s
  | .forC _ x lo hi b, s =>
    each (fun i s => runs n b (upd s.1 x i, s.2))
      (ints (evalCE s.1 lo) (evalCE s.1 hi - evalCE s.1 lo).toNat) s
def runs (n : Nat) : Ss → CEnv × St → Option (CEnv × St)
  | .nil, s => some s
  | .cons t ts, s => (run n t s).bind (runs n ts)
end

/-! ## Programs whose compile-time variables follow the compile-time order

`Γ` are the compile-time variables in scope, `A` those that may be assigned:
the ones declared in the same run-time branch or loop body. -/

def usesC (Γ : List Nat) : CE → Prop
  | .lit _ => True
  | .var x => x ∈ Γ
  | .bin _ a b => usesC Γ a ∧ usesC Γ b

def usesR (Γ : List Nat) : RE → Prop
  | .lit _ => True
  | .rv _ => True
  | .ct e => usesC Γ e
  | .bin _ a b => usesR Γ a ∧ usesR Γ b

/-- Variables in scope behind a statement. -/
def ext (Γ : List Nat) : S → List Nat
  | .constC x _ => x :: Γ
  | _ => Γ

mutual
def wf (Γ A : List Nat) : S → Prop
  | .out e => usesR Γ e
  | .decl _ e => usesR Γ e
  | .set _ e => usesR Γ e
  | .ifR c t e => usesR Γ c ∧ wfs Γ [] t ∧ wfs Γ [] e
  | .ifRC _ _ _ _ _ => False
  | .whileR c b => usesR Γ c ∧ wfs Γ [] b
  | .block b => wfs Γ A b
  | .constC x e => usesC Γ e ∧ x ∉ Γ
  | .setC x e => usesC Γ e ∧ x ∈ A ∧ x ∈ Γ
  | .opC x _ e => usesC Γ e ∧ x ∈ A ∧ x ∈ Γ
  | .ifC k a b => usesC Γ k ∧ wfs Γ A a ∧ wfs Γ A b
  | .forC _ x lo hi b => usesC Γ lo ∧ usesC Γ hi ∧ x ∉ Γ ∧ wfs (x :: Γ) (x :: A) b
def wfs (Γ A : List Nat) : Ss → Prop
  | .nil => True
  | .cons s ss => wf Γ A s ∧ wfs (ext Γ s) (ext A s) ss
end

end Verif.Comptime
