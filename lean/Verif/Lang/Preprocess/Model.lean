import Verif.Common.Out

/-!
# Macro expansion

`src/cxy/lang/middle/preprocess/preprocessor.c` (15-36, 87-167, 230-246, 291-324),
`src/cxy/lang/frontend/defines.c` (24-69), `src/cxy/lang/middle/bind/scope.c` (103-131, 218-243),
`src/cxy/lang/middle/scope.h` 61. Macros are written `macro name(params) body` and used as `name!` or
`name!(args)` (parser.c 606-618, 1290-1316, 2022-2069).

Simplified: variadic parameters are left out; a body of several statements, which takes the place of
the call as a list, is one node; the evaluation of operators on literals (see `Eval.Literals`),
ternaries and `#if` on the way is left out; the table of macros is the one at the time of the
expansion (declarations of macros in the expanded code are not modelled); the last resort of the search
for a name, the public declarations of the builtin module (scope.c 234-238), is left out.
-/
namespace Verif.Preprocess

/-- ast.h: an expression or statement, as far as macros are concerned: `call` is `n!(args)`
(`astMacroCallExpr`), `node` is every other node with its children. -/
inductive Tm where
  | node (c : Nat) (ts : List Tm)
  | call (n : Nat) (args : List Tm)

/-- What the driver-wide table holds for a name (defines.c 13-16): a declared macro (whose body may be
missing), or the value of a definition given on the command line (defines.c 88-107). -/
inductive Entry where
  | value (v : Tm)
  | decl (params : List Nat) (body : Option Tm)

/-- defines.h 32 `preprocessorFindMacro` -/
abbrev Table := Nat → Option Entry

/-- The parameters in scope, the latest first: the chain of scopes of `ctx->env`. -/
abbrev Env := List (Nat × Tm)

/-- The name `_`, which no symbol may have (scope.c 106 `isIgnoreVar`). -/
def ignored : Nat := 0

/-- `astNoop` -/
def noop : Tm := .node 0 []

/-- Visits a list of nodes in order (visitor.c 296-304). -/
def visitAll (visit : Tm → Out Tm) : List Tm → Out (List Tm)
  | [] => .ok []
  | t :: ts => (visit t).bind fun t' => (visitAll visit ts).bind fun ts' => .ok (t' :: ts')

/-- preprocessor.c 136-152: visits each argument once more, in the scope that has the parameters
before it, and defines it as the parameter; `own` are the names already in the new scope. scope.c
103-131: a name that is there already is reported, and `_` is not defined, so that the call is left
as it is and reported later. -/
def bindArgs (visit : Env → Tm → Out Tm) : List Nat → List Nat → List Tm → Env → Out Env
  | own, p :: ps, a :: as, env =>
    (visit env a).bind fun a' =>
      if p = ignored ∨ p ∈ own then .abort else bindArgs visit (p :: own) ps as ((p, a') :: env)
  | _, _, _, env => .ok env

/-- preprocessor.c 91-93: the table first, then the scopes. -/
def find (G : Table) (env : Env) (n : Nat) : Option Entry :=
  match G n with
  | some e => some e
  | none => (env.lookup n).map .value

/-- preprocessor.c 87-167 `visitMacroCall`, visitor.c 314 and 363 for other nodes. `fuel` bounds the
depth of the recursion, `.abort` is an error that is reported. -/
def expand (G : Table) : Nat → Env → Tm → Out Tm
  | 0, _, _ => .diverge
  | fuel + 1, env, .node c ts => (visitAll (expand G fuel env) ts).bind fun ts' => .ok (.node c ts')
  | fuel + 1, env, .call n args =>
    (visitAll (expand G fuel env) args).bind fun args' =>
      match find G env n with
      | none => .ok (.call n args')
      | some (.value v) => expand G fuel env v
      | some (.decl _ none) => .ok noop
      | some (.decl ps (some b)) =>
        if args'.length ≠ ps.length then .abort
        else (bindArgs (expand G fuel) [] ps args' env).bind fun env' => expand G fuel env' b

end Verif.Preprocess
