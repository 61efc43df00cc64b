/-!
# Constructors that are called without being written

`src/cxy/lang/middle/sema/struct.c` 215-243 (`isExplicitConstructableFrom`) and 245-292 (`evalExplicitConstruction`), and the part of
`sema/function.c` 70-141 (`matchOverloadedFunctionPerfectMatch`) that is used by them: one argument, no flags asked for.

A call `f(v)` where the parameter is a class or struct `T` and `v` is something else is accepted if `T` has a constructor that takes
`v`, and the call becomes `f(T(v))`.

Types are numbers. Left out: `This`, references and pointers that are unwrapped first (a type is what is left after that),
constructors with `...`, constructors whose type is not known yet, and what `transformToConstructCallExpr` does with a construction that
was inserted. The C functions call each other without a bound: the first argument `n` of the functions here is the depth allowed, `none`
means that it was not enough.
-/
namespace Verif.Implicit

/-- A constructor: the types of its parameters, how many of them have default values, and whether it is `@explicit`. -/
structure Ctor where
  params : List Nat
  defaults : Nat
  explicit : Bool

/-- What is known about types. -/
structure World where
  /-- `isClassOrStructType` -/
  isObj : Nat → Bool
  /-- the constructors in the order of the declarations; `none` if there is no member `init` (struct.c 221) -/
  ctors : Nat → Option (List Ctor)
  /-- `isTypeAssignableFrom to from` (`Verif.Lang.Assign`) -/
  asg : Nat → Nat → Bool

/-- function.c 80-141 for one argument of type `src`. `ask` is line 117. The result is the constructor that was found, if any. -/
def pick (w : World) (ask : Nat → Option Bool) (src : Nat) : List Ctor → Option Ctor → Option (Option Ctor)
  | [], found => some found
  | c :: cs, found =>
    match c.params with
    /- 96: more arguments than parameters -/
    | [] => pick w ask src cs found
    | p :: _ =>
      /- 91-97: fewer arguments than needed -/
      if c.params.length - c.defaults > 1 then pick w ask src cs found
      /- 105-107, 132: the score is full -/
      else if p = src then some (some c)
      /- 109-113, 135: the last one with the best score -/
      else if w.asg p src then pick w ask src cs (some c)
      /- 114-119 -/
      else match ask p with
        | none => none
        | some true => pick w ask src cs (some c)
        | some false => pick w ask src cs found

/-- struct.c 215-243, with the depth of calls that is allowed. -/
def canBuild (w : World) (src : Nat) : Nat → Nat → Option Bool
  | 0, _ => none
  | n + 1, t =>
    if w.isObj t = false then some (w.asg t src)
    else match w.ctors t with
      | none => some false
      | some cs =>
        match pick w (canBuild w src n) src cs none with
        | none => none
        | some none => some false
        | some (some c) =>
          if c.explicit then some false
          else match c.params with
            | [p] => canBuild w src n p
            | _ => some false

/-- function.c 100-123: whether an argument of type `src` goes with a parameter of type `t`. -/
def argOk (w : World) (src n t : Nat) : Option Bool :=
  if t = src then some true else if w.asg t src then some true else canBuild w src n t

/-- What an argument becomes. -/
inductive Expr where
  /-- the argument as it was written -/
  | arg
  /-- `T(e)` -/
  | build (t : Nat) (e : Expr)

/-- struct.c 245-292: what becomes of the argument; `some none` is `false`. -/
def construct (w : World) (src : Nat) : Nat → Nat → Option (Option Expr)
  | 0, _ => none
  | n + 1, t =>
    if w.asg t src then some (some .arg)
    else if w.isObj t = false then some none
    else match w.ctors t with
      | none => some none
      | some cs =>
        match pick w (canBuild w src n) src cs none with
        | none => none
        | some none => some none
        | some (some c) =>
          if c.explicit then some none
          else match c.params with
            | [p] =>
              match construct w src n p with
              | none => none
              | some none => some none
              | some (some e) => some (some (.build t e))
            | _ => some none

end Verif.Implicit
