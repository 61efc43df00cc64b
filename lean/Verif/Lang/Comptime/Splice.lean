/-!
# `#for` over an array literal: the loop variable as an argument

Sources: `src/cxy/lang/middle/eval/for.c` 53–86 (`evalExprForStmtArray`: the
variable's initialiser is the element node itself, which is still linked to
the elements behind it); `src/cxy/lang/middle/eval/path.c` 146–152 and
`src/cxy/lang/frontend/ast.c` 2059–2068 (`replaceAstNodeWith` copies the node
with its `next` link and hangs the old `next` behind the *last* node of that
chain); `src/cxy/lang/frontend/ast.c` 1936–1941 (`getLastAstNode`), 2452–2465
(`insertAstNode`); `src/cxy/lang/middle/sema/call.c` 67–95 (arguments are taken
off their list, checked one by one and put on a new list).

The model is the body `f(a₁, …, aₘ, #{x}, b₁, …, bₖ)` with literals `aᵢ` and
`bᵢ`.  Nodes are numbers; the memory holds their `next` links and values.
Simplifications: types, overload resolution and everything else a node holds
are left out; a clone of the body gets fresh nodes.
-/
namespace Verif.Comptime.Splice

/-- AST nodes: `next` link, value, and the first unused number. -/
structure H where
  nx : Nat → Option Nat
  val : Nat → Int
  fresh : Nat

def upd {β : Type} (f : Nat → β) (p : Nat) (b : β) : Nat → β :=
  fun q => if q = p then b else f q

/-- `getLastAstNode` (ast.c 1936–1941), at most `F` links. -/
def getLast (nx : Nat → Option Nat) : Nat → Nat → Option Nat
  | 0, _ => none
  | F + 1, p =>
    match nx p with
    | none => some p
    | some q => getLast nx F q

/-- A list under construction: first and last node. -/
abbrev L := Option (Nat × Nat)

/-- `insertAstNode` (ast.c 2452–2465). -/
def insertNode (F : Nat) (h : H) (l : L) (p : Nat) : Option (H × L) :=
  match l with
  | none => (getLast h.nx F p).map (fun z => (h, some (p, z)))
  | some (f, z) =>
    let nx' := upd h.nx z (some p)
    (getLast nx' F p).map (fun z' => ({ h with nx := nx' }, some (f, z')))

/-- One literal argument (call.c 69–88). -/
def addLit (F : Nat) (v : Int) (s : H × L) : Option (H × L) :=
  let p := s.1.fresh
  insertNode F { nx := upd s.1.nx p none, val := upd s.1.val p v, fresh := p + 1 } s.2 p

/-- Literal arguments in order. -/
def addLits (F : Nat) : List Int → H × L → Option (H × L)
  | [], s => some s
  | v :: vs, s => (addLit F v s).bind (addLits F vs)

/-- The argument `#{x}`: the node was taken off the list, so its old `next` is
null (call.c 70–73); it becomes a copy of the element, link included, and the
last node of the chain gets the old `next` (ast.c 2059–2064). -/
def addUse (F : Nat) (elem : Nat) (s : H × L) : Option (H × L) :=
  let p := s.1.fresh
  let nx' := upd s.1.nx p (s.1.nx elem)
  (getLast nx' F p).bind fun z =>
    insertNode F { nx := upd nx' z none, val := upd s.1.val p (s.1.val elem), fresh := p + 1 }
      s.2 p

/-- The arguments of the call of one round. -/
def call (F : Nat) (as bs : List Int) (elem : Nat) (h : H) : Option (H × L) :=
  ((addLits F as (h, none)).bind (addUse F elem)).bind (addLits F bs)

/-- The values on a list. -/
def values (h : H) : Nat → Nat → Option (List Int)
  | 0, _ => none
  | F + 1, p =>
    match h.nx p with
    | none => some [h.val p]
    | some q => (values h F q).map (h.val p :: ·)

/-- `evalExprForStmtArray` (for.c 61–83): the argument lists of the calls that
are generated, one per round; `none` when the loop is not done after `n`
rounds.  `elem = elem->next` is read after the round. -/
def unroll (F : Nat) (as bs : List Int) : Nat → Option Nat → H → Option (List (List Int))
  | _, none, _ => some []
  | 0, some _, _ => none
  | n + 1, some e, h =>
    (call F as bs e h).bind fun r =>
      match r.2 with
      | none => none
      | some (f, _) =>
        (values r.1 F f).bind fun vs =>
          (unroll F as bs n (r.1.nx e) r.1).map (vs :: ·)

/-- The elements of an array literal as the parser links them: node `i` holds
element `i`. -/
def arr (els : List Int) : H where
  nx i := if i + 1 < els.length then some (i + 1) else none
  val i := els.getD i 0
  fresh := els.length

/-- The code generated for
`#for (const x: [e₀, …]) f(a₁, …, #{x}, b₁, …)`. -/
def generate (F n : Nat) (as bs els : List Int) : Option (List (List Int)) :=
  unroll F as bs n (if els = [] then none else some 0) (arr els)

end Verif.Comptime.Splice
