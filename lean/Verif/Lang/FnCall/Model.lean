/-!
# Calling a function value

Code modelled: /repo/src/cxy/lang/middle/sema/call.c, function `checkCallExpr`
(lines 161–336), in particular the branch for function values (235–264);
/repo/src/cxy/lang/middle/sema/function.c, `checkFunctionParam` (227–277), which
turns the type of a parameter that is a function into a pair of a pointer to what
is captured and a function that takes this pointer as its first argument; and the
order in which /repo/src/cxy/lang/middle/simplify/simplify.c, `visitMemberExpr`
(962–988), evaluates the two members.

A function value is a pair `(captured, code)`.  A call `c(a, …)` of such a value is
rewritten to `c.1(c.0, a, …)`, where the first `c` is a copy of the whole expression.

Simplifications: expressions are literals, variables, calls of named functions,
calls of function values and selections of a function value by a named function
(any indexing of containers is a call of `op__idx`).  What named functions and
pieces of code do is arbitrary: they are functions from a state of any type and
their arguments to a state and a result.  An expression whose parts do not have
the types they need has no value (`none`); the checker rejects it.  Arguments are
evaluated from left to right (see C117 and C160 for what is wrong there).
-/

namespace Verif.FnCall

/-- Values: numbers (among them pointers to captured variables), function values
(`(void *, func(void *, …))`, function.c 263–273) and plain pieces of code. -/
inductive V where
  | int (n : Nat)
  | fn (captured : Nat) (code : Nat)
  | code (k : Nat)
  deriving DecidableEq, Repr

mutual
/-- Expressions, as the parser builds them and as `checkCallExpr` leaves them.
`apply` is a call whose callee has the type of a function value; `sel0`, `sel1` and
`callCode` occur only after the rewriting. -/
inductive E where
  | lit (n : Nat)
  | var (x : Nat)
  | named (f : Nat) (args : Es)
  | apply (callee : E) (args : Es)
  | sel0 (e : E)
  | sel1 (e : E)
  | callCode (callee : E) (args : Es)
inductive Es where
  | nil
  | cons (e : E) (es : Es)
end

/-- What a program is run with: the named functions, the pieces of code and the
variables. -/
structure World (S : Type) where
  named : Nat → List V → S → S × V
  code : Nat → Nat → List V → S → S × V
  vars : Nat → V

/-- What can be observed of the calls: which named function or which piece of code
is called, with what. -/
inductive Ev where
  | named (f : Nat) (args : List V)
  | code (k : Nat) (captured : Nat) (args : List V)
  deriving DecidableEq, Repr

mutual
/-- Running an expression: the state, the calls made in order, the value.  For
`apply` this is what the source says: the callee is evaluated, then the arguments,
then the code is called with what the function value has captured. -/
def E.run {S : Type} (w : World S) : E → S → Option (S × List Ev × V)
  | .lit n, s => some (s, [], .int n)
  | .var x, s => some (s, [], w.vars x)
  | .named f args, s =>
    match args.run w s with
    | some (s, t, vs) =>
      let r := w.named f vs s
      some (r.1, t ++ [.named f vs], r.2)
    | none => none
  | .apply c args, s =>
    match c.run w s with
    | some (s, t, .fn cap k) =>
      match args.run w s with
      | some (s, t', vs) =>
        let r := w.code k cap vs s
        some (r.1, t ++ t' ++ [.code k cap vs], r.2)
      | none => none
    | _ => none
  | .sel0 e, s =>
    match e.run w s with
    | some (s, t, .fn cap _) => some (s, t, .int cap)
    | _ => none
  | .sel1 e, s =>
    match e.run w s with
    | some (s, t, .fn _ k) => some (s, t, .code k)
    | _ => none
  | .callCode c args, s =>
    match c.run w s with
    | some (s, t, .code k) =>
      match args.run w s with
      | some (s, t', .int cap :: vs) =>
        let r := w.code k cap vs s
        some (r.1, t ++ t' ++ [.code k cap vs], r.2)
      | _ => none
    | _ => none
/-- Running arguments from left to right. -/
def Es.run {S : Type} (w : World S) : Es → S → Option (S × List Ev × List V)
  | .nil, s => some (s, [], [])
  | .cons e es, s =>
    match e.run w s with
    | some (s, t, v) =>
      match es.run w s with
      | some (s, t', vs) => some (s, t ++ t', v :: vs)
      | none => none
    | none => none
end

mutual
/-- call.c 161–264: the callee is checked first (line 171), and so already
rewritten when it is copied with `deepCloneAstNode` (line 240); the copy becomes the
target of member 1, the original that of member 0 in front of the arguments. -/
def E.lower : E → E
  | .lit n => .lit n
  | .var x => .var x
  | .named f args => .named f args.lower
  | .apply c args => .callCode (.sel1 c.lower) (.cons (.sel0 c.lower) args.lower)
  | .sel0 e => .sel0 e.lower
  | .sel1 e => .sel1 e.lower
  | .callCode c args => .callCode c.lower args.lower
/-- The rewriting of the arguments (call.c 72, through `checkType`). -/
def Es.lower : Es → Es
  | .nil => .nil
  | .cons e es => .cons e.lower es.lower
end

mutual
/-- The expressions that can be written: no selections of the two halves. -/
def E.source : E → Bool
  | .lit _ | .var _ => true
  | .named _ args => args.source
  | .apply c args => c.source && args.source
  | .sel0 _ | .sel1 _ | .callCode _ _ => false
/-- The same for arguments. -/
def Es.source : Es → Bool
  | .nil => true
  | .cons e es => e.source && es.source
end

mutual
/-- The number of nodes of an expression, the memory the compiler needs for it. -/
def E.size : E → Nat
  | .lit _ | .var _ => 1
  | .named _ args => 1 + args.size
  | .apply c args => 1 + c.size + args.size
  | .sel0 e => 1 + e.size
  | .sel1 e => 1 + e.size
  | .callCode c args => 1 + c.size + args.size
/-- The same for arguments. -/
def Es.size : Es → Nat
  | .nil => 0
  | .cons e es => e.size + es.size
end

end Verif.FnCall
