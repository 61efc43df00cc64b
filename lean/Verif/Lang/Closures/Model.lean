/-!
# Closures and the variables of the function around them

Sources: `src/cxy/lang/middle/bind/resolve.c` 51–105 (`shouldCaptureSymbol`, `captureSymbol`),
178–226 (`bindPath`), 584–606 (`bindClosureExpr`); `src/cxy/lang/frontend/capture.c`
(`addClosureCapture`, `getOrderedCapture`); `src/cxy/lang/middle/sema/closure.c` 12–90
(`createStructForClosure`), 92–172 (`transformClosureToStructExpr`);
`src/cxy/lang/middle/sema/path.c` 136–168 (`checkBasePathElement`);
`src/cxy/lang/middle/simplify/simplify.c` 891–931 (`visitPathExpr`).

A closure becomes a class with one field for each variable it takes from the functions around it,
and a member function `op__call` holding its body.  That function is a function of its own in the C
that is written: inside it only its own parameters and variables, and the fields of `this`, can be
named.

Modelled: local variables and parameters of functions and of closures.  Not modelled: `this` and the
fields of an enclosing class, the types of the fields (numbers are copied, aggregates are taken by
reference), blocks (they play no part in the walk over the scopes), default values of parameters.
-/

namespace Verif.Closures

/-- A variable: how many closures enclose the place where it is declared (0 for the function itself)
and its name.  Variables are compared by their declaration, as `addClosureCapture` asserts. -/
structure Var where
  home : Nat
  name : Nat
  deriving DecidableEq, Repr

/-- The body of a function or closure, as the sequence of what is bound in it, in the order in which
the binder visits it: uses of variables and closures written there.  Calls, operators and statements
are passed over. -/
inductive Body where
  | done
  | use (v : Var) (rest : Body)
  | clo (inner rest : Body)
  deriving Repr

/-- The body of one function of the C that is written.  `plain v` is the bare name of a variable,
`field v` is `this->v`, `make vs inner rest` allocates the object of a closure, stores the variables
`vs` in its fields, each named bare, and goes on with `rest`; `inner` is the body of the closure's
own `op__call`. -/
inductive Code where
  | done
  | plain (v : Var) (rest : Code)
  | field (v : Var) (rest : Code)
  | make (vs : List Var) (inner : Code) (rest : Code)
  deriving Repr

/-- capture.c 24–47 (`addClosureCapture`): a variable is added once, at the end. -/
def addCapture (vs : List Var) (v : Var) : List Var :=
  if v ∈ vs then vs else vs ++ [v]

/-- resolve.c 59–105: the walk from the use up to the scope of the variable reaches the closure at
depth `d` only for variables declared further out. -/
def passOn (d : Nat) (vs : List Var) (inner : List Var) : List Var :=
  inner.foldl (fun acc v => if v.home < d then addCapture acc v else acc) vs

/-- What binding a body gives: the captures of the closure it belongs to, the code, and whether
`currentClosure` is set at its end. -/
structure Bound where
  caps : List Var
  code : Code
  cur : Bool

/-- resolve.c 218–225 and 584–606 over a body `d` closures deep.  `vs` are the captures so far, `cur`
says whether `ctx->currentClosure` is set.  A use is captured if it is (55) and the variable is not of
this closure (68–71, 76); then the path is given the field (222–224) and, since that is a
`FieldDecl`, `this.` in front (path.c 163–164, simplify.c 895–899).  Around a closure
`currentClosure` is set to it and then to `NULL` (592–594).  The stores into the fields
(closure.c 100–146) name the captured declaration itself, and get `this.` only if that is a
`FieldDecl` (109), which the declarations modelled here are not; the `flgMember` that
`captureSymbol` puts on a capture passed on by another closure (81) is read nowhere after. -/
def bind (d : Nat) (vs : List Var) (cur : Bool) : Body → Bound
  | .done => ⟨vs, .done, cur⟩
  | .use v rest =>
      if cur = true ∧ v.home < d then
        let r := bind d (addCapture vs v) cur rest
        ⟨r.caps, .field v r.code, r.cur⟩
      else
        let r := bind d vs cur rest
        ⟨r.caps, .plain v r.code, r.cur⟩
  | .clo inner rest =>
      let i := bind (d + 1) [] true inner
      let r := bind d (passOn d vs i.caps) false rest
      ⟨r.caps, .make i.caps i.code r.code, r.cur⟩

/-- A function body: no closure around it, `currentClosure` is not set. -/
def compile (b : Body) : Code := (bind 0 [] false b).code

end Verif.Closures
