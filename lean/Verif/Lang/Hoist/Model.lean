/-!
# Model of temporaries moved out of statements

`src/cxy/lang/middle/simplify/simplify.c` 48–67 (`nodeNeedsTemporaryVar`), 725–767 (`visitCallExpr`), 833–878 (`visitBinaryExpr`),
1061–1113 (`visitBlockStmt`, `visitIfStmt`); `src/cxy/lang/middle/shake/shake.c` 447–499 (`shakeIfStmt`), 1061–1074
(`shakeBlockStmt`); `src/cxy/lang/frontend/visitor.c` 381–430 (`astModifierAdd`).

An argument of a call that is not a variable, a literal or a unary expression becomes a variable that is declared in front of the
statement, in the nearest block. So does the variable declared in the condition of an `if`.

Simplified: values are opaque; unary and binary operators may fail (a division by zero) but have no effects; calls do with the state
what they like and may not come back (`none`). A method's object is its first argument. Left out: members of a call's result and
references to one (`visitMemberExpr`, `visitReferenceOfExpr`, treated in the same way), string expressions (moved by
`shakeStringExpr`), parameters that are variadic or of unknown type (whose arguments stay).
-/
namespace Verif.Hoist

mutual
/-- Expressions; `tmp` is a variable made by the compiler. -/
inductive Expr (V : Type) where
  | lit (v : V)
  | var (x : Nat)
  | tmp (k : Nat)
  | un (op : Nat) (e : Expr V)
  | bin (op : Nat) (l r : Expr V)
  | and (l r : Expr V)
  | or (l r : Expr V)
  | tern (c a b : Expr V)
  | call (f : Nat) (args : Args V)

/-- The arguments of a call. -/
inductive Args (V : Type) where
  | nil
  | cons (e : Expr V) (rest : Args V)
end

/-- What the expressions are made of. -/
structure Prims (V σ : Type) where
  get : Nat → σ → V
  un : Nat → V → Option V
  bin : Nat → V → V → Option V
  call : Nat → List V → σ → Option (V × σ)
  truth : V → Bool

variable {V σ : Type} (P : Prims V σ)

mutual
/-- The language: operands and arguments from left to right, `&&`, `||` and `?:` only what is needed. `ts` are the variables made by
the compiler. -/
def eval : Expr V → List V → σ → Option (V × σ)
  | .lit v, _, s => some (v, s)
  | .var x, _, s => some (P.get x s, s)
  | .tmp k, ts, s => (ts[k]?).map (·, s)
  | .un op e, ts, s => (eval e ts s).bind fun r => (P.un op r.1).map (·, r.2)
  | .bin op a b, ts, s => (eval a ts s).bind fun r => (eval b ts r.2).bind fun q => (P.bin op r.1 q.1).map (·, q.2)
  | .and a b, ts, s => (eval a ts s).bind fun r => if P.truth r.1 then eval b ts r.2 else some r
  | .or a b, ts, s => (eval a ts s).bind fun r => if P.truth r.1 then some r else eval b ts r.2
  | .tern c a b, ts, s => (eval c ts s).bind fun r => if P.truth r.1 then eval a ts r.2 else eval b ts r.2
  | .call f as, ts, s => (evalArgs as ts s).bind fun r => P.call f r.1 r.2

/-- Arguments, from left to right. -/
def evalArgs : Args V → List V → σ → Option (List V × σ)
  | .nil, _, s => some ([], s)
  | .cons e es, ts, s => (eval e ts s).bind fun r => (evalArgs es ts r.2).map fun q => (r.1 :: q.1, q.2)
end

/-- simplify.c 54–67 `nodeNeedsTemporaryVar`. -/
def needs : Expr V → Bool
  | .lit _ => false
  | .var _ => false
  | .tmp _ => false
  | .un _ _ => false
  | .bin _ _ _ => true
  | .and _ _ => true
  | .or _ _ => true
  | .tern _ _ _ => true
  | .call _ _ => true

mutual
/-- simplify.c 725–767, 833–835 and the visitor's default for other expressions: what is declared in front of the statement, in order,
and what is left. `n` variables have been declared before. -/
def hoist (n : Nat) : Expr V → List (Expr V) × Expr V
  | .lit v => ([], .lit v)
  | .var x => ([], .var x)
  | .tmp k => ([], .tmp k)
  | .un op e => ((hoist n e).1, .un op (hoist n e).2)
  | .bin op a b =>
    let x := hoist n a
    let y := hoist (n + x.1.length) b
    (x.1 ++ y.1, .bin op x.2 y.2)
  | .and a b =>
    let x := hoist n a
    let y := hoist (n + x.1.length) b
    (x.1 ++ y.1, .and x.2 y.2)
  | .or a b =>
    let x := hoist n a
    let y := hoist (n + x.1.length) b
    (x.1 ++ y.1, .or x.2 y.2)
  | .tern c a b =>
    let x := hoist n c
    let y := hoist (n + x.1.length) a
    let z := hoist (n + x.1.length + y.1.length) b
    (x.1 ++ y.1 ++ z.1, .tern x.2 y.2 z.2)
  | .call f as =>
    let x := temps n as
    let y := rest (n + x.1.length) as x.2
    (x.1 ++ y.1, .call f y.2)

/-- simplify.c 737–759: the loop over the arguments that moves those which need a variable; also the numbers of the variables. -/
def temps (n : Nat) : Args V → List (Expr V) × List Nat
  | .nil => ([], [])
  | .cons e es =>
    if needs e then
      let x := hoist n e
      let y := temps (n + x.1.length + 1) es
      (x.1 ++ x.2 :: y.1, (n + x.1.length) :: y.2)
    else temps n es

/-- simplify.c 767 `astVisitManyNodes(visitor, args)`: then the others are visited. -/
def rest (n : Nat) : Args V → List Nat → List (Expr V) × Args V
  | .nil, _ => ([], .nil)
  | .cons e es, ks =>
    if needs e then
      match ks with
      | k :: ks =>
        let y := rest n es ks
        (y.1, .cons (.tmp k) y.2)
      | [] => ([], .nil)
    else
      let x := hoist n e
      let y := rest (n + x.1.length) es ks
      (x.1 ++ y.1, .cons x.2 y.2)
end

/-- The declarations in front of a statement. -/
def runBinds : List (Expr V) → List V → σ → Option (List V × σ)
  | [], ts, s => some (ts, s)
  | b :: bs, ts, s => (eval P b ts s).bind fun r => runBinds bs (ts ++ [r.1]) r.2

/-- A statement with one expression, compiled. -/
def compiled (e : Expr V) (s : σ) : Option (V × σ) :=
  (runBinds P (hoist 0 e).1 [] s).bind fun r => eval P (hoist 0 e).2 r.1 r.2

/-! ## Chains of `if` … `else if` … `else` -/

/-- A condition: an expression, or a declaration of a variable, `if (const x = e)`. -/
inductive Cond (V : Type) where
  | test (e : Expr V)
  | decl (e : Expr V)

/-- The branches in order; a body gets the value of its condition. -/
abbrev Chain (V σ : Type) := List (Cond V × (V → σ → Option σ))

/-- The language: a condition is computed when the ones in front of it are false. -/
def chain (other : σ → Option σ) : Chain V σ → List V → σ → Option σ
  | [], _, s => other s
  | (c, body) :: bs, ts, s =>
    (eval P (match c with | .test e => e | .decl e => e) ts s).bind fun r =>
      if P.truth r.1 then body r.1 r.2 else chain other bs ts r.2

/-- shake.c 451–463: the variables declared in conditions become declarations in front of the whole statement (an `else if` is not put
in a block of its own, shake.c 491). -/
def decls (n : Nat) : Chain V σ → List (Expr V) × List Nat
  | [] => ([], [])
  | (.test _, _) :: bs => decls n bs
  | (.decl e, _) :: bs =>
    let x := hoist n e
    let y := decls (n + x.1.length + 1) bs
    (x.1 ++ x.2 :: y.1, (n + x.1.length) :: y.2)

/-- simplify.c 1105–1113 `visitIfStmt`: then what the conditions leave behind is moved there as well. -/
def tests (n : Nat) : Chain V σ → List Nat → List (Expr V) × Chain V σ
  | [], _ => ([], [])
  | (.test e, body) :: bs, ks =>
    let x := hoist n e
    let y := tests (n + x.1.length) bs ks
    (x.1 ++ y.1, (.test x.2, body) :: y.2)
  | (.decl _, body) :: bs, k :: ks =>
    let y := tests n bs ks
    (y.1, (.test (.tmp k), body) :: y.2)
  | (.decl _, _) :: _, [] => ([], [])

/-- A chain, compiled. -/
def compiledChain (other : σ → Option σ) (bs : Chain V σ) (s : σ) : Option σ :=
  let x := decls 0 bs
  let y := tests x.1.length bs x.2
  (runBinds P (x.1 ++ y.1) [] s).bind fun r => chain P other y.2 r.1 r.2

end Verif.Hoist
