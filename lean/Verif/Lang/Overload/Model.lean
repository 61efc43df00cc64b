/-! # Model of overload resolution, `src/cxy/lang/middle/sema/function.c` 70-136

Types are any type with decidable equality (the compiler compares interned handles after `resolveAndUnThisType`).
`isTypeAssignableFrom` and `isExplicitConstructableFrom` are one arbitrary predicate `conv`, since the code treats
both alike.  The error report at the end is the result `none`. -/
namespace Verif.Overload

/-- What the loop reads of a declaration: whether it is skipped (no type yet, or a member function without the wanted
flags, function.c 87-92), whether it is variadic, its number of default values and its parameter types.  The last
parameter of a variadic function stands for the variable part. -/
structure Decl (T : Type) where
  skip : Bool
  variadic : Bool
  defaults : Nat
  params : List T

/-- function.c 107-129: the loop over the arguments, which gives the number of parameters that are not identical to
their arguments (the code subtracts it from the score), or nothing if one is incompatible. -/
def score {T : Type} [DecidableEq T] (conv : T → T → Bool) (perfect : Bool) : List T → List T → Option Nat
  | p :: ps, a :: as =>
    if p = a then score conv perfect ps as
    else if perfect then none
    else if conv p a then (score conv perfect ps as).map (· + 1)
    else none
  | _, _ => some 0

/-- function.c 86-145: the loop over the declarations.  `argsCount`, `maxScore` and `matchScore` are the variables of that
name; `argsCount` is not restored after a variadic declaration. -/
def search {T : Type} [DecidableEq T] (conv : T → T → Bool) (perfect : Bool) (args : List T) (maxScore : Nat) :
    List (Decl T) → Nat → Nat → Option (Decl T) → Option (Decl T)
  | [], _, _, found => found
  | d :: ds, argsCount, matchScore, found =>
    if d.skip then search conv perfect args maxScore ds argsCount matchScore found
    else
      let required := d.params.length - d.defaults - (if d.variadic then 1 else 0)
      let argsCount := if d.variadic then min argsCount (d.params.length - 1) else argsCount
      if argsCount < required ∨ d.params.length < argsCount then
        search conv perfect args maxScore ds argsCount matchScore found
      else
        match score conv perfect d.params (args.take argsCount) with
        | none => search conv perfect args maxScore ds argsCount matchScore found
        | some k =>
          if k = 0 then some d
          else if matchScore ≤ maxScore - k then search conv perfect args maxScore ds argsCount (maxScore - k) (some d)
          else search conv perfect args maxScore ds argsCount matchScore found

/-- function.c 70-184 `matchOverloadedFunctionPerfectMatch`. -/
def resolve {T : Type} [DecidableEq T] (conv : T → T → Bool) (perfect : Bool) (decls : List (Decl T)) (args : List T) :
    Option (Decl T) :=
  search conv perfect args (args.length * 2) decls args.length 0 none

end Verif.Overload
