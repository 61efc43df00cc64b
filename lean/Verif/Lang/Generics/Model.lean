/-! # Type arguments of generic functions

Models, for generic functions: src/cxy/lang/middle/shake/shake.c 52-107 (`transformVariadicFunction`), 191-212 (`inferGenericParamFromFuncParam`), 825-895
(`shakeGenericDecl`), and src/cxy/lang/middle/sema/generics.c 118-194 (`inferGenericFunctionTypes`), 196-232 (`transformVariadicFunctionCallArgs`), 289-347
(`resolveGenericDecl`, up to the list of type arguments).
Not modelled: closures as arguments (their type is changed, generics.c 58-116), type arguments that are literals, `This`, and errors in the
arguments. -/
namespace Verif.Generics

/-- Types of arguments and type arguments. `void` is what a pack without arguments is given. -/
inductive Ty where
  | base (n : Nat)
  | ptr (t : Ty)
  | ref (t : Ty)
  | void
deriving DecidableEq, Repr

/-- How the type of a parameter is written: a name (of a type parameter or another type), a reference, a pointer, or something else. -/
inductive TE where
  | name (n : Nat)
  | ref (t : TE)
  | ptr (t : TE)
  | other
deriving DecidableEq, Repr

/-- A declaration `func f[tps](params, ...rest)`. Each parameter has its type and whether it has a default value. `pack` says whether the last
type parameter is written `...Ts`; then the function has a `rest`. -/
structure Decl where
  tps : List Nat
  pack : Bool
  params : List (TE × Bool)
  rest : Bool

/-- shake.c 191-212: the position (from 1) at which the type parameter is mentioned, or 0; and `innerType`, which is set and never cleared. -/
def mention (g : Nat) (t : TE) (j : Nat) (inner : Bool) : Nat × Bool :=
  match t with
  | .ref (.name n) => (if g = n then j + 1 else 0, true)
  | .ptr (.name n) => (if g = n then j + 1 else 0, true)
  | .ref _ => (0, true)
  | .ptr _ => (0, true)
  | .name n => (if g = n then j + 1 else 0, inner)
  | .other => (0, inner)

/-- shake.c 857-870: the loop over the parameters; the same `innerType` is passed for all of them. -/
def search (g : Nat) : List (TE × Bool) → Nat → Bool → Nat × Bool
  | [], _, inner => (0, inner)
  | (t, _) :: ps, j, inner =>
    let r := mention g t j inner
    if r.1 ≠ 0 then r else search g ps (j + 1) r.2

/-- shake.c 848-873: `index`, the first of the last type parameters that are all mentioned, `-1` if the last is not. -/
def firstInferrable : List Nat → Nat → Int → Int
  | [], _, index => index
  | idx :: is, i, index => firstInferrable is (i + 1) (if idx = 0 then -1 else if index = -1 then (i : Int) else index)

/-- A type parameter after the declaration has been processed. -/
structure GP where
  inferIndex : Nat
  inner : Bool
  variadic : Bool
deriving DecidableEq, Repr

/-- shake.c 875-884: `inferIndex` and `innerType` are stored from `index` on, and not at all if it is `-1`. -/
def store (index : Int) : List (Nat × Bool × Bool) → Nat → List GP
  | [], _ => []
  | (idx, inner, v) :: is, i => (if 0 ≤ index ∧ index ≤ i then ⟨idx, inner, v⟩ else ⟨0, false, v⟩) :: store index is (i + 1)

/-- The flag of each type parameter: the last is a pack. -/
def flags (pack : Bool) : List Nat → List Bool
  | [] => []
  | [_] => [pack]
  | _ :: g :: gs => false :: flags pack (g :: gs)

/-- A processed declaration: type parameters, `inferrable`, number of parameters (with `rest`), number without defaults. -/
structure Gen where
  gps : List GP
  inferrable : Int
  total : Nat
  required : Nat
  variadic : Bool

/-- shake.c 563-621 `shakeFuncDecl`: the parameters before the first with a default value. -/
def required (ps : List (TE × Bool)) : Nat := (ps.takeWhile fun p => !p.2).length

/-- shake.c 825-895 and 52-107. -/
def process (d : Decl) : Gen :=
  let found := d.tps.map fun g => search g d.params 0 false
  let index := firstInferrable (found.map (·.1)) 0 (-1)
  let gps := store index ((found.zip (flags d.pack d.tps)).map fun x => (x.1.1, x.1.2, x.2)) 0
  let total := d.params.length + (if d.rest then 1 else 0)
  if d.rest then
    let gps := if d.pack then gps.dropLast ++ [{ gps.getLastD ⟨0, false, true⟩ with inferIndex := total }] else gps ++ [⟨total, false, true⟩]
    ⟨gps, if index = -1 then 0 else index, total, required d.params, true⟩
  else ⟨gps, index, total, required d.params, false⟩

/-- What comes of a use of the generic function: the type arguments, an error message, or a read of memory that is not one of the
arguments or has not been written (`undef`). -/
inductive Outcome where
  | types (ts : List Ty)
  | error
  | undef
deriving DecidableEq, Repr

def peel : Ty → Ty
  | .ref t => t
  | .ptr t => t
  | t => t

/-- generics.c 152-193: the loop over the remaining type parameters; `none` for the read outside the arguments. -/
def inferLoop (args : List Ty) : List GP → Option (List Ty)
  | [] => some []
  | gp :: gps =>
    if gp.variadic then
      let rest := args.drop (gp.inferIndex - 1)
      some (if rest = [] then [.void] else rest)
    else if gp.inferIndex = 0 then none
    else match args[gp.inferIndex - 1]? with
      | none => none
      | some t => (inferLoop args gps).map fun ts => (if gp.inner then peel t else t) :: ts

/-- generics.c 279-347: `explicit` are the type arguments that are written. -/
def resolve (d : Decl) (explicit args : List Ty) : Outcome :=
  let g := process d
  if g.variadic = true ∧ args.length < g.required then .error
  else
    let extra := if g.variadic = true ∧ g.total ≤ args.length then args.length - g.total else 0
    let count := g.gps.length + extra
    if count < explicit.length then .error
    else if explicit.length = count then .types explicit
    else if 0 ≤ g.inferrable ∧ g.inferrable ≤ explicit.length then
      if args.length < g.required ∧ g.variadic = false then .error
      else match inferLoop args (g.gps.drop explicit.length) with
        | none => .undef
        | some ts => if (explicit ++ ts).length < count then .undef else .types (explicit ++ ts)
    else .error

end Verif.Generics
