import Verif.Lang.Prim.Model
/-!
# Array literals and conditional expressions of primitive types

Code modelled: /repo/src/cxy/lang/middle/sema/array.c, `checkArrayExpr` (150–185);
/repo/src/cxy/lang/middle/sema/check.c, `checkTernaryExpr` (766–800);
/repo/src/cxy/lang/middle/sema/variables.c, `checkVarDecl` (48–85), the part on arrays;
/repo/src/cxy/lang/backend/c/generate.c, `generateArrayType` (123–136), `visitArrayExpr`
(859–869) and `visitVariableDecl` (1639–1670).

Simplifications: elements are expressions of primitive types, of which only the type
counts (the type of an integer literal is `Prim.literalType`, see C21).  Of the C compiler we
say only when it takes `T1 a = (T2){…}` for two array types: exactly if they are the
same type, which is the extension of GCC and Clang.
-/
namespace Verif.ArrayLit
open Verif.Prim

/-- array.c 153–174: the first element gives the type, each later one must be
assignable to it.  `none` is the report of inconsistent types. -/
def elementType : List Prim → Option (Option Prim)
  | [] => some none
  | t :: ts => if ts.all (fun u => assignable t u) then some (some t) else none

/-- check.c 791–800: the type of `c ? a : b` is that of `a`, to which `b` must be
assignable. -/
def ternaryType (body otherwise : Prim) : Option Prim :=
  if assignable body otherwise then some body else none

/-- The array types: element type, none if not known, and length (array.c 176–184). -/
structure ArrTy where
  elem : Option Prim
  len : Nat
  deriving DecidableEq, Repr

/-- The type of the literal. -/
def literalTy (ts : List Prim) : Option ArrTy :=
  (elementType ts).map fun e => ⟨e, ts.length⟩

/-- variables.c 58–72: both sides of the comparison are the element type of the
initialiser (`init_`), so nothing is compared with the declared type. -/
def varAccepts (init : ArrTy) : Bool :=
  match init.elem with
  | none => true
  | some e => assignable e e

/-- What is written for `var a: [T, n] = […]`: a declaration with the declared type, and
an initialiser with (generate.c 863) or without the type of the literal. -/
structure CDecl where
  declared : ArrTy
  initialiser : Option ArrTy
  deriving DecidableEq, Repr

/-- Checking and writing the declaration; `none` if an error is reported. -/
def declare (declared : ArrTy) (ts : List Prim) : Option CDecl :=
  match literalTy ts with
  | none => none
  | some init =>
    if varAccepts init then
      some ⟨declared, if init.elem.isSome then some init else none⟩
    else none

/-- The C compiler: an initialiser without type is a list of elements (at most as many as
there is room for, here none), one with a type must have that of the variable. -/
def cAccepts (d : CDecl) : Bool :=
  match d.initialiser with
  | none => true
  | some t => t = d.declared

end Verif.ArrayLit
