/-!
# Tuples and indexes at compile time

`src/cxy/lang/middle/eval/xform.c` 12-84 (`evalXformType`), `middle/eval/index.c` 8-24 (`evalAstNodeAtIndex`), 74-138
(`evalIntegerIndexExpr`), `frontend/ast.c` 1943-1953 (`getNodeAtIndex`), and for the arguments of calls `middle/sema/call.c` 67-89 with
`frontend/ast.c` 2452-2465 (`insertAstNode`).

Types and nodes are numbers. How conditions and transforms are evaluated is a parameter. Left out: the way of an index through a
floating-point number (index.c 79), which is exact below 2^53; messages; types of nodes.
-/
namespace Verif.CompIndex

/-! ## Transforms of tuples -/

/-- What a condition evaluates to. -/
inductive Cond where
  | bool (b : Bool)
  | other
  | error

/-- A transform. The second variable is optional, so the index may be missing (xform.c 39-47). -/
structure Form where
  index : Bool
  cond : Option (Nat → Option Nat → Cond)
  form : Nat → Option Nat → Option Nat

inductive Res where
  | ok (ts : List Nat)
  | error
  /-- a write behind the end of the array -/
  | oob
deriving DecidableEq, Repr

/-- xform.c 69-76 -/
def store (f : Form) (m : Nat) (ix : Option Nat) (cap : Nat) (acc : List Nat) (k : List Nat → Res) : Res :=
  match f.form m ix with
  | none => .error
  | some t => if acc.length < cap then k (acc ++ [t]) else .oob

/-- xform.c 34-77: `i` is the index of the next member, `acc` what is in the array. -/
def loop (f : Form) (cap : Nat) : List Nat → Nat → List Nat → Res
  | [], _, acc => .ok acc
  | m :: ms, i, acc =>
    let ix := if f.index then some i else none
    match f.cond with
    | none => store f m ix cap acc (loop f cap ms (i + 1))
    | some c =>
      match c m ix with
      | .error => .error
      | .other => .error
      | .bool false => loop f cap ms (i + 1) acc
      | .bool true => store f m ix cap acc (loop f cap ms (i + 1))

/-- xform.c 12-84: `none` is a type that is not a tuple. -/
def xform (f : Form) : Option (List Nat) → Res
  | none => .error
  | some ms => loop f ms.length ms 0 []

/-! ## Indexes -/

/-- What an index is applied to. -/
inductive Target where
  /-- the bytes of a string literal up to its end -/
  | str (bs : List Nat)
  /-- An array. The parser does not set its length (`frontend/parser.c` 1543-1554, `array`), nor does `middle/eval/eval.c` 292-301
  (`evalArrayExpr`); only arrays made by the compiler have one (`frontend/ast.c` 741-757, `makeArrayExpr`). -/
  | arr (xs : List Nat) (counted : Bool)
  /-- a tuple; its length is set by `middle/eval/eval.c` 212-223 (`evalTupleExpr`) -/
  | tup (xs : List Nat)
  /-- an attribute whose name is stored at `addr` -/
  | attr (addr : Nat) (kvp : Bool) (xs : List Nat)
  /-- members of a declaration and the like (`middle/eval/comptime.c` 56-65, `comptimeWrapped`) -/
  | iter (xs : List Nat)
  /-- anything else, with the first word of its body -/
  | other (w : Nat)

inductive Ix where
  /-- a character literal -/
  | char (w : Nat)
  /-- the node, with the nodes that follow it -/
  | node (x : Nat) (rest : List Nat)
  | error
deriving DecidableEq, Repr

/-- ast.c 1943-1953: the list that begins with the node. -/
def nodeAt : List Nat → Nat → Nat → Option (Nat × List Nat)
  | [], _, _ => none
  | x :: xs, i, j => if i = j then some (x, xs) else nodeAt xs (i + 1) j

/-- index.c 8-24: the node is copied together with its link to the next one. -/
def atIndex (xs : List Nat) (i : Nat) : Ix :=
  match nodeAt xs 0 i with
  | none => .error
  | some (x, rest) => .node x rest

/-- index.c 80-81: for everything but strings this is the first word of the body, as if it were an array
(`frontend/ast.h` 396-401, 408-412 and 449-453). -/
def lenOf : Target → Nat
  | .str bs => bs.length
  | .arr xs counted => if counted then xs.length else 0
  | .tup xs => xs.length
  | .attr addr _ _ => addr
  | .iter _ => 0
  | .other w => w

/-- A `char` turned into a `wchar`: signed eight bits to unsigned thirty-two. -/
def widen (b : Nat) : Nat := if b < 128 then b else 2 ^ 32 - 256 + b

/-- index.c 74-138 -/
def index (t : Target) (i : Int) : Ix :=
  if i < 0 ∨ i.toNat ≥ lenOf t then .error
  else match t with
    | .str bs => match bs[i.toNat]? with
      | none => .error
      | some b => .char (widen b)
    | .arr xs _ => atIndex xs i.toNat
    | .tup xs => atIndex xs i.toNat
    | .attr _ kvp xs => if kvp then .error else atIndex xs i.toNat
    | .iter xs => atIndex xs i.toNat
    | .other _ => .error

/-! ## Arguments of calls -/

/-- An argument of a call: a node, or an index that is evaluated at compile time. -/
inductive Arg where
  | plain (x : Nat)
  | index (t : Target) (i : Int)

/-- What is at the place of an argument once it was checked: it was taken out of its list before (call.c 70-73). -/
def Arg.chain : Arg → Option (List Nat)
  | .plain x => some [x]
  | .index t i => match CompIndex.index t i with
    | .char w => some [w]
    | .node x rest => some (x :: rest)
    | .error => none

/-- call.c 67-89 with ast.c 2452-2465: whole lists are inserted. Simplified: an error in an argument makes the call an error at once;
the list of the index is not changed by the insertion. -/
def callArgs : List Arg → List Nat → Option (List Nat)
  | [], acc => some acc
  | a :: as, acc => match a.chain with
    | none => none
    | some c => callArgs as (acc ++ c)

end Verif.CompIndex
