import Verif.Core.HTable.Modify
import Verif.Common.Out
/-!
# Model of `src/cxy/lang/middle/bind/scope.c`

Names are interned strings, so they are numbers here and equality of names is equality of pointers
(`compareSymbols`, scope.c 15-18).  Declarations are numbers too.  The chain `first → next → …` of
`Scope` objects is a list; `prev` and `next` of the object at position `k` are positions `k - 1` and
`k + 1`.  The hash of a name (`hashPtr`) is a parameter: the theorems hold for every hash.
The log is always present, as in every call site.  `releaseScope` and `updateSymbol` have no callers and are left out.
-/
namespace Verif.Scope

open HTable (Table)

/-- scope.h 15-20 `Symbol`. -/
structure Sym where
  index : Nat
  name : Nat
  node : Nat
  last : Option Nat
  deriving DecidableEq, Repr

/-- scope.c 15-18 `compareSymbols`. -/
def same (a b : Sym) : Bool := decide (a.name = b.name)

/-- What the code reads of names and declarations and never changes: the ignored name `_`
(utils.h 290-293), whether a declaration is a function or a forward declaration, and the public
builtins (scope.c 236-240). -/
structure Info where
  hash : Nat → BitVec 32
  ignored : Nat → Bool
  isFunc : Nat → Bool
  isFwd : Nat → Bool
  builtin : Nat → Option Nat

/-- The fields of declarations that scope.c writes: `list.link`, `list.first`, `funcDecl.index`. -/
structure Heap where
  link : Nat → Option Nat
  first : Nat → Option Nat
  fidx : Nat → Nat

/-- scope.h 29-32 `Env`. -/
structure Env where
  scopes : List (Table Sym)
  cur : Option Nat
  heap : Heap

/-- How a declaration was received. -/
inductive Defd where
  | accepted
  /-- an error was logged -/
  | rejected
  /-- the name is `_` -/
  | ignored
  deriving DecidableEq, Repr

/-- Results of the table functions. -/
def ofH {β : Type} : HTable.Res β → Out β
  | .ok b => .ok b
  | .diverge => .diverge
  | .ub => .ub

/-- scope.c 408-417 `pushScope` (and 20-31 `newScope`). -/
def pushScope (E : Env) : Env :=
  match E.cur with
  | none => { E with cur := some 0 }
  | some k => if k + 1 < E.scopes.length then { E with cur := some (k + 1) }
    else { E with scopes := E.scopes ++ [HTable.new Sym], cur := some (k + 1) }

/-- scope.c 445-450 `environmentInit`. -/
def environmentInit (h : Heap) : Env := pushScope ⟨[HTable.new Sym], none, h⟩

/-- scope.c 438-443 `popScope`. -/
def popScope (E : Env) : Out Env :=
  match E.cur with
  | none => .abort
  | some k =>
    match E.scopes[k]? with
    | none => .ub
    | some t => .ok { E with scopes := E.scopes.set k (HTable.clear t), cur := if k = 0 then none else some (k - 1) }

/-- The table of the current scope; `csAssert0(env->scope)`. -/
def current (E : Env) : Out (Nat × Table Sym) :=
  match E.cur with
  | none => .abort
  | some k =>
    match E.scopes[k]? with
    | none => .ub
    | some t => .ok (k, t)

/-- scope.c 103-128 `defineSymbol`. -/
def defineSymbol (I : Info) (E : Env) (n x : Nat) : Out (Defd × Env) :=
  (current E).bind fun (k, t) =>
  if I.ignored n then .ok (.ignored, E) else
  let s : Sym := ⟨0, n, x, none⟩
  (ofH (HTable.insert same t s (I.hash n))).bind fun (b, t') =>
  if b then .ok (.accepted, { E with scopes := E.scopes.set k t' }) else
  (ofH (HTable.find same t' s (I.hash n))).bind fun p =>
  if p = none then .abort else .ok (.rejected, { E with scopes := E.scopes.set k t' })

/-- scope.c 130-162 `defineForwardDeclarable`.  The definition recorded in the forward declaration
(line 157) is left out. -/
def defineForwardDeclarable (I : Info) (E : Env) (n x : Nat) : Out (Defd × Env) :=
  (current E).bind fun (k, t) =>
  if I.ignored n then .ok (.ignored, E) else
  let s : Sym := ⟨0, n, x, none⟩
  (ofH (HTable.insert same t s (I.hash n))).bind fun (b, t') =>
  if b then .ok (.accepted, { E with scopes := E.scopes.set k t' }) else
  (ofH (HTable.findIdx same t' s (I.hash n))).bind fun i =>
  match i with
  | none => .ub
  | some i =>
    match t'.elems i with
    | none => .ub
    | some p =>
      if I.isFwd p.node then
        .ok (.accepted, { E with scopes := E.scopes.set k (HTable.store t' i { p with node := x }) })
      else .ok (.rejected, { E with scopes := E.scopes.set k t' })

/-- scope.c 184-218 `defineFunctionDecl`.  `sym->last` is `NULL` for symbols that other functions
entered; following it is undefined. -/
def defineFunctionDecl (I : Info) (E : Env) (n x : Nat) : Out (Defd × Env) :=
  (current E).bind fun (k, t) =>
  if I.ignored n then .ok (.ignored, E) else
  let s : Sym := ⟨0, n, x, none⟩
  (ofH (HTable.insert same t s (I.hash n))).bind fun (b, t') =>
  (ofH (HTable.findIdx same t' s (I.hash n))).bind fun i =>
  match i with
  | none => .abort
  | some i =>
    match t'.elems i with
    | none => .ub
    | some p =>
      let fin (d : Defd) (p : Sym) (h : Heap) : Out (Defd × Env) :=
        .ok (d, { E with
          scopes := E.scopes.set k (HTable.store t' i { p with index := (p.index + 1) % 65536 })
          heap := { h with first := upd h.first x (some p.node) } })
      if !b && !I.isFunc p.node then fin .rejected p E.heap
      else if !b then
        match p.last with
        | none => .ub
        | some l => fin .accepted { p with last := some x }
            { E.heap with fidx := upd E.heap.fidx x p.index, link := upd E.heap.link l (some x) }
      else fin .accepted { p with last := some x } E.heap

/-- scope.c 225-234: the loop of `findSymbol`, outwards over the innermost `m` scopes. -/
def findLoop (I : Info) (scopes : List (Table Sym)) (n : Nat) : Nat → Out (Option Nat)
  | 0 => .ok none
  | m + 1 =>
    match scopes[m]? with
    | none => .ub
    | some t =>
      (ofH (HTable.find same t ⟨0, n, 0, none⟩ (I.hash n))).bind fun r =>
      match r with
      | some s => .ok (some s.node)
      | none => findLoop I scopes n m

/-- The number of scopes from the current one outwards. -/
def depth (E : Env) : Nat :=
  match E.cur with
  | none => 0
  | some k => k + 1

/-- scope.c 220-248 `findSymbol`; `none` is an undefined symbol. -/
def findSymbol (I : Info) (E : Env) (n : Nat) : Out (Option Nat) :=
  (findLoop I E.scopes n (depth E)).bind fun r =>
  match r with
  | some x => .ok (some x)
  | none => .ok (I.builtin n)

/-- What a client does. -/
inductive Op where
  | push
  | pop
  /-- `defineSymbol` -/
  | define (n x : Nat)
  /-- `defineForwardDeclarable` -/
  | forward (n x : Nat)
  /-- `defineFunctionDecl` -/
  | func (n x : Nat)
  | find (n : Nat)

/-- What a client sees. -/
inductive Seen where
  | done
  | defd (d : Defd)
  | found (x : Option Nat)
  deriving DecidableEq, Repr

def step (I : Info) (E : Env) : Op → Out (Seen × Env)
  | .push => .ok (.done, pushScope E)
  | .pop => (popScope E).bind fun E => .ok (.done, E)
  | .define n x => (defineSymbol I E n x).bind fun (d, E) => .ok (.defd d, E)
  | .forward n x => (defineForwardDeclarable I E n x).bind fun (d, E) => .ok (.defd d, E)
  | .func n x => (defineFunctionDecl I E n x).bind fun (d, E) => .ok (.defd d, E)
  | .find n => (findSymbol I E n).bind fun x => .ok (.found x, E)

def run (I : Info) (E : Env) : List Op → Out (List Seen × Env)
  | [] => .ok ([], E)
  | o :: os => (step I E o).bind fun (s, E) => (run I E os).bind fun (ss, E) => .ok (s :: ss, E)

/-- sema/function.c 78-83: the loop over the overloads of a function, from `list.first` along
`list.link`.  `none` when it does not end within the fuel. -/
def walk (h : Heap) : Nat → Option Nat → Option (List Nat)
  | _, none => some []
  | 0, some _ => none
  | f + 1, some x => (walk h f (h.link x)).map (x :: ·)

/-- sema/function.c 78: `decl->list.first ?: decl`. -/
def overloads (h : Heap) (fuel x : Nat) : Option (List Nat) := walk h fuel (some ((h.first x).getD x))

/-- The kinds of nodes that open scopes. -/
inductive Kind where
  | loop
  | func
  | closure
  | other
  deriving DecidableEq, Repr

/-- scope.c 268-304: `findEnclosingLoop` over the kinds of the open scopes, innermost first; the
position of the scope found. -/
def findEnclosingLoop : List Kind → Option Nat
  | [] => none
  | .loop :: _ => some 0
  | _ :: r => (findEnclosingLoop r).map (· + 1)

end Verif.Scope
