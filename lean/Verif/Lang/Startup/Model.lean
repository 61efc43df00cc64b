/-! # The values of module-level variables when `main` starts

Models `/repo/src/cxy/lang/frontend/ast.c` 1748-1796 (`isStaticExpr`),
`/repo/src/cxy/lang/middle/simplify/simplify.c` 1239-1282 (`visitVarDecl`), 514-552 (`createModuleInit`) and 554-604
(`visitProgram`), and `/repo/src/cxy/lang/backend/c/generate.c` 1639-1670 (`visitVariableDecl`) and 1714-1722
(`visitFuncDecl`: the initialising function of a module is a C constructor).

Modelled: a module is the list of its variables with their initialisers, in order; a program is the list of its modules in
the order their code is written (C218).  An initialiser that counts as static is printed as the C initialiser of the
variable; the others become assignments in the constructor of the module.  Before `main`, the variables hold their C
initialisers or zero, and then the constructors run in the order in which they stand in the one C file.  A C initialiser
at file scope must be a constant expression; otherwise the C compiler rejects the file.

Simplified: what operators, conversions and functions compute is a parameter; functions called by initialisers read
variables but assign none; a member of a constant is not counted among the C constants, and neither is anything the C
compiler may fold as an extension, except a constant compound literal.  The order of constructors of the same priority
within one file is the one the compilers in use give, not one the C standard fixes. -/

namespace Verif.Startup

/-- The value of a variable: a number, the address of a function, or an aggregate. -/
inductive Val where
  | num (n : Int)
  | fn (f : Nat)
  | agg (vs : List Val)

/-- Expressions as they are after type checking. `fieldExpr` and `fieldDecl` are the nodes found among the fields of a
struct expression (a `fieldExpr` for `name: value`) and of a struct declaration. -/
inductive Expr where
  | lit (n : Int)
  | func (f : Nat)
  | var (x : Nat)
  | member (e : Expr) (i : Nat)
  | tuple (es : List Expr)
  | strct (fs : List Expr)
  | fieldExpr (e : Expr)
  | fieldDecl (e : Expr)
  | array (es : List Expr)
  | cast (e : Expr)
  | group (e : Expr)
  | unary (op : Nat) (e : Expr)
  | binary (op : Nat) (a b : Expr)
  | call (f : Nat) (es : List Expr)

mutual
/-- `isStaticExpr` (ast.c 1748-1796). -/
def isStatic : Expr → Bool
  | .lit _ => true
  | .func _ => true
  | .var _ => false
  | .member e _ => isStatic e
  | .tuple es => allStatic es
  | .strct fs => fieldsStatic fs
  | .array es => allStatic es
  | .cast e => isStatic e
  | .group e => isStatic e
  | .unary _ e => isStatic e
  | .fieldExpr _ => false
  | .fieldDecl _ => false
  | .binary _ _ _ => false
  | .call _ _ => false

/-- The loops of ast.c 1765-1770 and 1780-1785. -/
def allStatic : List Expr → Bool
  | [] => true
  | e :: es => isStatic e && allStatic es

/-- The loop of ast.c 1772-1778: nodes that are not field declarations are passed over. -/
def fieldsStatic : List Expr → Bool
  | [] => true
  | .fieldDecl e :: fs => isStatic e && fieldsStatic fs
  | _ :: fs => fieldsStatic fs
end

/-- What operators, conversions, members and functions compute. A function may read variables. -/
structure Sem where
  una : Nat → Val → Val
  bin : Nat → Val → Val → Val
  conv : Val → Val
  mem : Val → Nat → Val
  fn : Nat → (Nat → Val) → List Val → Val

mutual
/-- The value of an expression, with the variables as they are. -/
def eval (S : Sem) (env : Nat → Val) : Expr → Val
  | .lit n => .num n
  | .func f => .fn f
  | .var x => env x
  | .member e i => S.mem (eval S env e) i
  | .tuple es => .agg (evals S env es)
  | .strct fs => .agg (evals S env fs)
  | .fieldExpr e => eval S env e
  | .fieldDecl e => eval S env e
  | .array es => .agg (evals S env es)
  | .cast e => S.conv (eval S env e)
  | .group e => eval S env e
  | .unary op e => S.una op (eval S env e)
  | .binary op a b => S.bin op (eval S env a) (eval S env b)
  | .call f es => S.fn f env (evals S env es)

def evals (S : Sem) (env : Nat → Val) : List Expr → List Val
  | [] => []
  | e :: es => eval S env e :: evals S env es
end

mutual
/-- What the C compiler takes as the initialiser of a variable at file scope (C11 6.6 and 6.7.9, with constant compound
literals). -/
def cConst : Expr → Bool
  | .lit _ => true
  | .func _ => true
  | .var _ => false
  | .member _ _ => false
  | .tuple es => cConsts es
  | .strct fs => cConsts fs
  | .fieldExpr e => cConst e
  | .fieldDecl e => cConst e
  | .array es => cConsts es
  | .cast e => cConst e
  | .group e => cConst e
  | .unary _ e => cConst e
  | .binary _ a b => cConst a && cConst b
  | .call _ _ => false

def cConsts : List Expr → Bool
  | [] => true
  | e :: es => cConst e && cConsts es
end

/-- A declaration `var x = init`; the initialiser may be absent. -/
structure Decl where
  name : Nat
  init : Option Expr

/-- What becomes of a declaration (`visitVarDecl`, simplify.c 1239-1282). -/
inductive Placed where
  /-- printed with its initialiser -/
  | inPlace (x : Nat) (e : Expr)
  /-- printed as zero (or null), with an assignment added to `ctx->init` -/
  | assigned (x : Nat) (e : Expr)

/-- `visitVarDecl` for a module-level variable: `isStaticExpr(NULL)` is false, and then `init->type` is read with `init`
null (1249-1250). `none` is this crash. -/
def place (d : Decl) : Option Placed :=
  match d.init with
  | none => none
  | some e => if isStatic e then some (.inPlace d.name e) else some (.assigned d.name e)

/-- All the variables of a module. -/
def placeAll : List Decl → Option (List Placed)
  | [] => some []
  | d :: ds =>
    match place d, placeAll ds with
    | some p, some ps => some (p :: ps)
    | _, _ => none

inductive R where
  | ok (env : Nat → Val)
  /-- the cxy compiler dereferences a null pointer -/
  | crash
  /-- the C compiler rejects the file: an initialiser is not constant -/
  | rejected

/-- The C initialisers of the variables of a module, or `none` when one is not constant. -/
def cImage (S : Sem) : (Nat → Val) → List Placed → Option (Nat → Val)
  | env, [] => some env
  | env, .inPlace x e :: ps =>
    if cConst e then cImage S (fun y => if y = x then eval S (fun _ => .num 0) e else env y) ps else none
  | env, .assigned _ _ :: ps => cImage S env ps

/-- The constructor of a module: the assignments, in order (`createModuleInit`, simplify.c 514-552). -/
def construct (S : Sem) : (Nat → Val) → List Placed → (Nat → Val)
  | env, [] => env
  | env, .inPlace _ _ :: ps => construct S env ps
  | env, .assigned x e :: ps => construct S (fun y => if y = x then eval S env e else env y) ps

/-- The modules of a program, placed one after the other. -/
def placeProgram : List (List Decl) → Option (List (List Placed))
  | [] => some []
  | m :: ms =>
    match placeAll m, placeProgram ms with
    | some p, some ps => some (p :: ps)
    | _, _ => none

def imageProgram (S : Sem) : (Nat → Val) → List (List Placed) → Option (Nat → Val)
  | env, [] => some env
  | env, m :: ms =>
    match cImage S env m with
    | some env' => imageProgram S env' ms
    | none => none

def constructProgram (S : Sem) : (Nat → Val) → List (List Placed) → (Nat → Val)
  | env, [] => env
  | env, m :: ms => constructProgram S (construct S env m) ms

/-- Compiling a program and running it up to `main`. -/
def start (S : Sem) (prog : List (List Decl)) : R :=
  match placeProgram prog with
  | none => .crash
  | some ps =>
    match imageProgram S (fun _ => .num 0) ps with
    | none => .rejected
    | some env => .ok (constructProgram S env ps)

end Verif.Startup
