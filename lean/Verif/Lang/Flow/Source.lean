/-!
# Programs with control flow, and what they mean

The statements and expressions that the LLVM backend (`src/cxy/lang/backend/llvm/generate.cpp`) turns into blocks. What a
program computes with is left open: a *primitive* takes the values of its arguments and the state of the program, and gives
a value and a new state, or does not come back (`none`: an abort, a trap, an endless callee). Reading and storing variables,
calls, casts, unary operators and literals are primitives.

The meaning of programs (`evalE`, `exec`) is the specification; it does not mention blocks. Only the order in which the two
operands of a binary operator are evaluated is a parameter (`leftFirst`).
-/
namespace Verif.Flow

/-- How the types of the two operands of a binary operator relate (binary.cpp 93-115): the same type (or a pointer on the
left), the left type is bigger, or the types differ in another way. -/
inductive Mix where
  | same | leftBigger | other
  deriving DecidableEq, Repr

mutual
/-- Expressions. -/
inductive Expr (Prim : Type) where
  | const (v : Int)
  | call (p : Prim) (args : Args Prim)
  | bin (m : Mix) (p : Prim) (a b : Expr Prim)
  | and (a b : Expr Prim)
  | or (a b : Expr Prim)
  | tern (c a b : Expr Prim)
/-- Arguments of a call. -/
inductive Args (Prim : Type) where
  | nil
  | cons (e : Expr Prim) (rest : Args Prim)
end

mutual
/-- Statements. A block is a sequence; a conditional without `else` has an empty one. -/
inductive Stmt (Prim : Type) where
  | skip
  | seq (a b : Stmt Prim)
  | expr (e : Expr Prim)
  | ite (c : Expr Prim) (a b : Stmt Prim)
  | while (c : Expr Prim) (body : Stmt Prim) (update : Option (Expr Prim))
  | switch (c : Expr Prim) (cases : Cases Prim)
  | brk
  | cont
  | ret (e : Option (Expr Prim))
/-- The cases of a `switch`: `none` is the default. -/
inductive Cases (Prim : Type) where
  | nil
  | cons (v : Option Int) (body : Stmt Prim) (rest : Cases Prim)
end

variable {Prim State : Type}

/-- What evaluating an expression gives. -/
inductive ER (State : Type) where
  | ok (v : Int) (s : State)
  | stuck (s : State)

def ER.bind (r : ER State) (f : Int → State → ER State) : ER State :=
  match r with
  | .ok v s => f v s
  | .stuck s => .stuck s

/-- What evaluating arguments gives. -/
inductive AR (State : Type) where
  | ok (vs : List Int) (s : State)
  | stuck (s : State)

/-- The meaning of primitives. -/
abbrev Sem (Prim State : Type) := Prim → List Int → State → Option (Int × State)

/-- A call of a primitive. -/
def callPrim (sem : Sem Prim State) (p : Prim) (vs : List Int) (s : State) : ER State :=
  match sem p vs s with
  | some (v, s') => .ok v s'
  | none => .stuck s

/-- Truth values as numbers. -/
def ofBool (b : Bool) : Int := if b then 1 else 0

mutual
/-- The value of an expression: arguments from left to right, `&&`, `||` and `?:` evaluate only what they need, and the
operands of other binary operators are evaluated in the order that `leftFirst` gives. -/
def evalE (leftFirst : Mix → Bool) (sem : Sem Prim State) : Expr Prim → State → ER State
  | .const v, s => .ok v s
  | .call p args, s =>
    match evalA leftFirst sem args s with
    | .ok vs s' => callPrim sem p vs s'
    | .stuck s' => .stuck s'
  | .bin m p a b, s =>
    if leftFirst m then
      (evalE leftFirst sem a s).bind fun x s1 => (evalE leftFirst sem b s1).bind fun y s2 => callPrim sem p [x, y] s2
    else
      (evalE leftFirst sem b s).bind fun y s1 => (evalE leftFirst sem a s1).bind fun x s2 => callPrim sem p [x, y] s2
  | .and a b, s => (evalE leftFirst sem a s).bind fun x s1 => if x = 0 then .ok 0 s1 else evalE leftFirst sem b s1
  | .or a b, s => (evalE leftFirst sem a s).bind fun x s1 => if x = 0 then evalE leftFirst sem b s1 else .ok 1 s1
  | .tern c a b, s => (evalE leftFirst sem c s).bind fun x s1 => if x = 0 then evalE leftFirst sem b s1 else evalE leftFirst sem a s1
def evalA (leftFirst : Mix → Bool) (sem : Sem Prim State) : Args Prim → State → AR State
  | .nil, s => .ok [] s
  | .cons e rest, s =>
    match evalE leftFirst sem e s with
    | .stuck s' => .stuck s'
    | .ok v s1 =>
      match evalA leftFirst sem rest s1 with
      | .ok vs s2 => .ok (v :: vs) s2
      | .stuck s' => .stuck s'
end

/-- How a statement ends. -/
inductive Outcome where
  | normal | brk | cont | ret (v : Option Int)
  deriving DecidableEq, Repr

/-- What running a statement gives; `out` says that a loop took all the iterations it was allowed. -/
inductive R (State : Type) where
  | done (o : Outcome) (s : State)
  | stuck (s : State)
  | out

/-- The rounds of a loop. -/
def rounds (cond : State → ER State) (body : State → R State) (update : State → ER State) : Nat → State → R State
  | 0, _ => .out
  | n + 1, s =>
    match cond s with
    | .stuck s' => .stuck s'
    | .ok v s1 =>
      if v = 0 then .done .normal s1
      else
        match body s1 with
        | .out => .out
        | .stuck s' => .stuck s'
        | .done .brk s2 => .done .normal s2
        | .done (.ret v) s2 => .done (.ret v) s2
        | .done _ s2 =>
          match update s2 with
          | .stuck s' => .stuck s'
          | .ok _ s3 => rounds cond body update n s3

mutual
/-- Running a statement; every loop is allowed `N` rounds. -/
def exec (leftFirst : Mix → Bool) (sem : Sem Prim State) (N : Nat) : Stmt Prim → State → R State
  | .skip, s => .done .normal s
  | .seq a b, s =>
    match exec leftFirst sem N a s with
    | .done .normal s1 => exec leftFirst sem N b s1
    | r => r
  | .expr e, s =>
    match evalE leftFirst sem e s with
    | .ok _ s1 => .done .normal s1
    | .stuck s1 => .stuck s1
  | .ite c a b, s =>
    match evalE leftFirst sem c s with
    | .ok v s1 => if v = 0 then exec leftFirst sem N b s1 else exec leftFirst sem N a s1
    | .stuck s1 => .stuck s1
  | .while c body update, s =>
    rounds (evalE leftFirst sem c) (exec leftFirst sem N body)
      (fun s => match update with | some e => evalE leftFirst sem e s | none => .ok 0 s) N s
  | .switch c cases, s =>
    match evalE leftFirst sem c s with
    | .ok v s1 =>
      match execCases leftFirst sem N cases (fun x => x = some v) s1 with
      | some r => r
      | none =>
        match execCases leftFirst sem N cases (fun x => x = none) s1 with
        | some r => r
        | none => .done .normal s1
    | .stuck s1 => .stuck s1
  | .brk, s => .done .brk s
  | .cont, s => .done .cont s
  | .ret none, s => .done (.ret none) s
  | .ret (some e), s =>
    match evalE leftFirst sem e s with
    | .ok v s1 => .done (.ret (some v)) s1
    | .stuck s1 => .stuck s1
/-- Running the first case of a kind, if there is one. -/
def execCases (leftFirst : Mix → Bool) (sem : Sem Prim State) (N : Nat) : Cases Prim → (Option Int → Bool) → State → Option (R State)
  | .nil, _, _ => none
  | .cons v body rest, sel, s => if sel v then some (exec leftFirst sem N body s) else execCases leftFirst sem N rest sel s
end

end Verif.Flow
