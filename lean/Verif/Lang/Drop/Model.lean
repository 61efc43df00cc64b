/-!
# Model of the memory manager, `src/cxy/lang/middle/mem/manage.c` and `finalize.c`

With `--with-mm` the compiler inserts the calls that destroy the values of local variables. The program
is the one left by simplification: bodies of conditionals, loops and cases are blocks. Only local variables
of class type are modelled (the ones that have to be managed); a value is an owning reference, so a copy of
a reference is a new value. Calls take over their arguments: passing a variable by name passes a copy, which is
the callee's affair, and passing `&&x` gives the value away.

Left out: `delete` (`visitUnaryExpr` looks at the type of the `delete` expression, which is void, and leaves it
as it is), members, tuples, unions, temporaries, top-level variables, the update part of a `for` loop, moves inside
conditions, and the unused-variable warning. The hash map of traces is a function (see `Core/Hmap`).
-/
namespace Verif.Drop

abbrev Var := Nat

/-- ast.h 153-159 `VariableState` -/
inductive VS where
  | uninit | assigned | maybe | moved | dropped
  deriving DecidableEq, Repr

/-- A value: a call reading some variables, `null`, a variable by name, or `&&y`. -/
inductive Rhs where
  | fresh (us : List Var)
  | null
  | var (y : Var)
  | move (y : Var)
  deriving DecidableEq, Repr

mutual
/-- Statements. Every block carries the address of its node. A conditional without `else` is one with an empty
`else` block: `visitIfStmt` (manage.c 736-753) then merges with the state before, which is what an empty block gives. -/
inductive Stmt where
  | skip
  | seq (a b : Stmt)
  | decl (x : Var) (e : Option Rhs)
  | assign (x : Var) (e : Rhs)
  | use (us : List Var)
  | give (x : Var)
  | ret (e : Option Rhs)
  | brk
  | cont
  | block (b : Nat) (s : Stmt)
  | ite (us : List Var) (b : Nat) (s : Stmt) (b' : Nat) (s' : Stmt)
  | loop (us : List Var) (b : Nat) (s : Stmt)
  | switch (us : List Var) (cs : Cases)
inductive Cases where
  | nil
  | cons (b : Nat) (s : Stmt) (cs : Cases)
end

/-! ## The program with destructions -/

/-- Where a stored value comes from: as written, or copied (`bfiCopy`). -/
inductive Src where
  | fresh (us : List Var)
  | null
  | copy (y : Var)
  | alias (y : Var)
  | move (y : Var)
  deriving DecidableEq, Repr

/-- Statements without control flow. `save` assigns the variable `_rt` that holds the result; `dropIf` is a drop
guarded by the drop flag (backend/c/generate.c 1243-1248, 1933), `flag` assigns the drop flag. `exit true` (below) returns what
`_rt` holds, `exit false` nothing or `null`. -/
inductive Act where
  | decl (x : Var) (e : Option Src)
  | assign (x : Var) (e : Src)
  | use (us : List Var)
  | give (x : Var)
  | save (e : Src)
  | drop (x : Var)
  | dropIf (x : Var)
  | flag (x : Var) (b : Bool)
  deriving DecidableEq, Repr

mutual
inductive Code where
  | skip
  | seq (a b : Code)
  | act (a : Act)
  | exit (value : Bool)
  | brk
  | cont
  | block (b : Nat) (s : Code)
  | ite (us : List Var) (b : Nat) (s : Code) (b' : Nat) (s' : Code)
  | loop (us : List Var) (b : Nat) (s : Code)
  | switch (us : List Var) (cs : CCases)
inductive CCases where
  | nil
  | cons (b : Nat) (s : Code) (cs : CCases)
end

/-! ## First pass: `manage.c` -/

/-- manage.c 12-20 `VariableTrace`; `flags` says that drop flags have been declared. -/
structure Trace where
  st : VS := .uninit
  scope : Option Nat := none
  lastDrop : Option Nat := none
  flags : Bool := false
  deriving Repr

/-- manage.c 42-62 `MemContext`, the part that changes. `scopes` (22-25, innermost first) holds the locals of each block and
whether it is the body of a loop; `sealed` belongs to the current block; `diag` says that `reportUseUnassigned` has
reported something. `sure` and `relied` are ghosts, not looked at by the pass: `sure` is cleared where the states at a jump, at the end
of a loop body or of a case are not covered by the states the pass continues with, and `relied` lists the variables that are
dropped, or merged, although their state is not known. -/
structure Pass where
  tr : Var → Trace
  scopes : List (List Var × Bool)
  isSealed : Bool
  diag : Bool
  sure : Bool
  relied : List Var

/-- The part saved around every node (manage.c 33-38, 823-832): `current`, `inLoop`. `head` is a ghost: the states
before the innermost loop. -/
structure Ctx where
  inLoop : Bool
  cur : Option Nat
  head : Var → VS

/-- The variables in the hash map. -/
def Pass.vis (p : Pass) : List Var := p.scopes.flatMap (·.1)

def Pass.setSt (p : Pass) (x : Var) (s : VS) : Pass :=
  { p with tr := fun y => if y = x then { p.tr y with st := s } else p.tr y }

/-- manage.c 363-394 `reportUseUnassigned`, by `visitIdentifier` (420-431). -/
def report (p : Pass) (us : List Var) : Pass :=
  { p with diag := p.diag || us.any fun u => decide ((p.tr u).st ≠ .assigned) }

/-- Visiting a value (433-448 for `&&y`). -/
def visit (p : Pass) : Rhs → Pass
  | .fresh us => report p us
  | .null => p
  | .var y => report p [y]
  | .move y => (report p [y]).setSt y .moved

/-- manage.c 166-179 `vtIsUpdatedInChildScopeLoop`, `vtNeedsMemMgmt` -/
def needs (c : Ctx) (t : Trace) : Bool :=
  decide (t.st = .maybe ∨ t.st = .assigned) ||
    (c.inLoop && decide (t.scope ≠ c.cur) && decide (t.lastDrop ≠ c.cur))

/-- manage.c 246-264 `makeDropVariable` -/
def dropVar (c : Ctx) (p : Pass) (x : Var) : Pass :=
  { p with
    tr := fun y => if y = x then { p.tr y with lastDrop := c.cur } else p.tr y
    relied := if (p.tr x).st = .maybe ∨ (p.tr x).st = .assigned then p.relied else x :: p.relied }

/-- The loops of manage.c 325-333 and 342-350. -/
def dropAll (c : Ctx) : Pass → List Var → Pass × Code
  | p, [] => (p, .skip)
  | p, x :: xs =>
    if needs c (p.tr x) then
      let (p', k) := dropAll c (dropVar c p x) xs
      (p', .seq (.act (.drop x)) k)
    else dropAll c p xs

/-- The variables of manage.c 319-338 `sealCurrentJumpPoint`: all of them for a return, otherwise those up to
the body of the innermost loop. -/
def jumpVars (isReturn : Bool) : List (List Var × Bool) → List Var
  | [] => []
  | (xs, l) :: rest => if !isReturn && l then xs else xs ++ jumpVars isReturn rest

/-- The variables declared outside the innermost loop. -/
def outside : List (List Var × Bool) → List Var
  | [] => []
  | (_, l) :: rest => if l then rest.flatMap (·.1) else outside rest

/-- Ghost: what is known about a variable in state `s` is also what state `h` says; `maybe` says nothing. -/
def covers (h s : VS) : Bool :=
  decide (h = .maybe) || decide (s = h) ||
    (decide (s ≠ .maybe ∧ s ≠ .assigned) && decide (h ≠ .maybe ∧ h ≠ .assigned))

/-- manage.c 641-651 `visitBreakStmt`, `visitContinueStmt` -/
def jump (c : Ctx) (p : Pass) : Pass × Code :=
  let (p', k) := dropAll c p (jumpVars false p.scopes)
  ({ p' with
     isSealed := true
     sure := p'.sure && (outside p.scopes).all fun x => covers (c.head x) (p.tr x).st }, k)

/-- manage.c 228-235 and 142-147: the state after two branches. -/
def join (a b : VS) : VS :=
  if a = b then a
  else if a = .assigned ∨ b = .assigned ∨ a = .maybe ∨ b = .maybe then .maybe
  else .uninit

def joinCase (a b : VS) : VS :=
  if a = b then a
  else if a = .assigned ∨ b = .assigned then .maybe
  else .uninit

/-- manage.c 219-244 `mergeUpdateVariableStates`: the states of `p` are merged with `other`, and drop flags are inserted
(181-217). -/
def mergeUpdate (vs : List Var) (other : Var → VS) (p : Pass) : Pass :=
  { p with tr := fun x =>
      if x ∈ vs then
        let s := join (other x) (p.tr x).st
        { p.tr x with st := s, flags := (p.tr x).flags || decide (s = .maybe) }
      else p.tr x }

/-- manage.c 122-132 `restoreVariableState` -/
def restore (old : Var → VS) (p : Pass) : Pass :=
  { p with tr := fun x => { p.tr x with st := old x } }

def Pass.states (p : Pass) : Var → VS := fun x => (p.tr x).st

/-- manage.c 94-103 `insertVariableTrace`, and 414. (`flags` belongs to the declaration, not to the trace; each declaration
is visited once.) -/
def declare (c : Ctx) (p : Pass) (x : Var) (init : Bool) : Pass :=
  { p with
    tr := fun y =>
      if y = x then { st := if init then .assigned else .uninit, scope := c.cur, flags := (p.tr y).flags } else p.tr y
    scopes := match p.scopes with
      | [] => []
      | (xs, l) :: rest => (xs ++ [x], l) :: rest }

/-- manage.c 402-418 `visitVariableDecl`: a variable as initial value is copied. -/
def passDecl (c : Ctx) (p : Pass) (x : Var) : Option Rhs → Pass × Code
  | none => (declare c p x false, .act (.decl x none))
  | some e => (visit (declare c p x true) e, .act (.decl x (some (match e with
    | .fresh us => .fresh us
    | .null => .null
    | .var y => .copy y
    | .move y => .move y))))

/-- manage.c 472-494 `visitAssignExpr` for a local variable: the value is not copied, the drop comes before the
statement, and an assignment of `null` disappears. -/
def passAssign (c : Ctx) (p : Pass) (x : Var) (e : Rhs) : Pass × Code :=
  let p1 := visit p e
  let n := needs c (p1.tr x)
  let p2 := if n then dropVar c p1 x else p1
  let d : Code := if n then .act (.drop x) else .skip
  match e with
  | .null => (p2.setSt x .dropped, d)
  | .fresh us => (p2.setSt x .assigned, .seq d (.act (.assign x (.fresh us))))
  | .var y => (p2.setSt x .assigned, .seq d (.act (.assign x (.alias y))))
  | .move y => (p2.setSt x .assigned, .seq d (.act (.assign x (.move y))))

/-- manage.c 590-639 `visitReturnStmt`. The ghost `sure` is cleared when the variable that is returned would also be dropped. -/
def passRet (c : Ctx) (p : Pass) (e : Option Rhs) : Pass × Code :=
  let (p1, s) : Pass × Code := match e with
    | none => (p, .skip)
    | some .null => (p, .skip)
    | some (.fresh us) => (report p us, .act (.save (.fresh us)))
    | some (.var y) =>
      let q := (report p [y]).setSt y .moved
      ({ q with sure := q.sure && !needs c (q.tr y) }, .act (.save (.alias y)))
    | some (.move y) => ((report p [y]).setSt y .moved, .act (.save (.move y)))
  let (p2, k) := dropAll c p1 (jumpVars true p1.scopes)
  ({ p2 with isSealed := true }, .seq s (.seq k (.exit (match e with
    | none => false
    | some .null => false
    | _ => true))))

/-- manage.c 663-683: entering a block. -/
def enter (p : Pass) (isLoop : Bool) : Pass :=
  { p with scopes := ([], isLoop) :: p.scopes, isSealed := false }

/-- manage.c 708-733: the end of a block. `astModifierAddAsNext` puts each drop right behind the last statement, so the
variables are dropped in reverse order. -/
def leave (c : Ctx) (p0 p : Pass) (b : Nat) (k : Code) : Pass × Code :=
  let locals := match p.scopes with
    | [] => []
    | (xs, _) :: _ => xs
  let (p', d) := if p.isSealed then (p, .skip) else dropAll c p locals.reverse
  ({ p' with scopes := p0.scopes, isSealed := p0.isSealed }, .block b (.seq k d))

mutual
def pass (c : Ctx) (p : Pass) : Stmt → Pass × Code
  | .skip => (p, .skip)
  | .seq a b =>
    let (p1, k1) := pass c p a
    let (p2, k2) := pass c p1 b
    (p2, .seq k1 k2)
  | .decl x e => passDecl c p x e
  | .assign x e => passAssign c p x e
  | .use us => (report p us, .act (.use us))
  | .give x => ((report p [x]).setSt x .moved, .act (.give x))
  | .ret e => passRet c p e
  | .brk => let (p', k) := jump c p; (p', .seq k .brk)
  | .cont => let (p', k) := jump c p; (p', .seq k .cont)
  -- 687-697: a block among the statements of a block
  | .block b s =>
    let c' := { c with cur := some b }
    let (p1, k) := pass c' (enter p false) s
    let (p2, k') := leave c' p p1 b k
    (mergeUpdate p.vis p2.states p2, k')
  -- 736-753 `visitIfStmt`
  | .ite us b s b' s' =>
    let p0 := report p us
    let c1 := { c with cur := some b }
    let (p1, k1) := pass c1 (enter p0 false) s
    let (p2, k1') := leave c1 p0 p1 b k1
    let p3 := restore p0.states p2
    let c2 := { c with cur := some b' }
    let (p4, k2) := pass c2 (enter p3 false) s'
    let (p5, k2') := leave c2 p3 p4 b' k2
    (mergeUpdate p.vis p2.states p5, .ite us b k1' b' k2')
  -- 755-769 `visitWhileStmt`
  | .loop us b s =>
    let p0 := report p us
    let c' := { c with cur := some b, inLoop := true, head := p0.states }
    let (p1, k) := pass c' (enter p0 true) s
    let (p2, k') := leave c' p0 p1 b k
    let p3 := { p2 with sure := p2.sure && p.vis.all fun x => covers (p0.states x) (p2.states x) }
    (mergeUpdate p.vis p3.states (restore p0.states p3), .loop us b k')
  -- 771-785 `visitSwitch`
  | .switch us cs =>
    let p0 := report p us
    let (p1, acc, ks) := passCases c p0.vis p0.states p0 p0.states cs
    ({ p1 with tr := fun x => if x ∈ p0.vis then { p1.tr x with st := acc x } else p1.tr x
               sure := p1.sure && p0.vis.all fun x => covers (acc x) (p0.states x)
               relied := (p0.vis.filter fun x => decide (acc x = .maybe)) ++ p1.relied },
     .switch us ks)

/-- 776-782: the cases; `old` is the state before the switch and `acc` what the cases so far have been merged to. -/
def passCases (c : Ctx) (vs : List Var) (old : Var → VS) (p : Pass) (acc : Var → VS) :
    Cases → Pass × (Var → VS) × CCases
  | .nil => (p, acc, .nil)
  | .cons b s cs =>
    let c' := { c with cur := some b }
    let (p1, k) := pass c' (enter p false) s
    let (p2, k') := leave c' p p1 b k
    let acc' := fun x => joinCase (acc x) (p2.states x)
    let (p3, r, ks) := passCases c vs old (restore old p2) acc' cs
    ({ p3 with sure := p3.sure && vs.all fun x => covers (r x) (p2.states x) }, r, .cons b k' ks)
end

/-- manage.c 675-681: the parameters are locals of the body and count as assigned; `currentBlock` is not set yet. -/
def start (params : List Var) : Pass where
  tr x := if x ∈ params then { st := .assigned } else {}
  scopes := []
  isSealed := false
  diag := false
  sure := true
  relied := []

/-- The body of a function (787-821 `visitFuncDecl`), block `b`. -/
def passBody (params : List Var) (b : Nat) (s : Stmt) : Pass × Code :=
  let p0 := start params
  let c : Ctx := { inLoop := false, cur := some b, head := fun _ => .uninit }
  let (p1, k) := pass c { p0 with scopes := [(params, false)] } s
  leave c p0 p1 b k

/-! ## Second pass: `finalize.c` -/

/-- finalize.c 60-86: an assignment to the drop flag of `y`, if it has one. -/
def setFlag (F : Var → Bool) (y : Var) (b : Bool) : Code := if F y then .act (.flag y b) else .skip

/-- finalize.c 210-222: what a move adds behind the statement. -/
def unflag (F : Var → Bool) : Src → Code
  | .move y => setFlag F y false
  | _ => .skip

/-- finalize.c 111-144 (drops), 198-208 (assignments), 210-222 (moves); manage.c 189-209: the declaration of the flag is put
behind that of its variable. -/
def finAct (F : Var → Bool) : Act → Code
  | .decl x none => .seq (.act (.decl x none)) (setFlag F x false)
  | .decl x (some e) => .seq (.act (.decl x (some e))) (.seq (unflag F e) (setFlag F x true))
  | .assign x e => .seq (.act (.assign x e)) (.seq (unflag F e) (setFlag F x true))
  | .give x => .seq (.act (.give x)) (setFlag F x false)
  | .save e => .seq (.act (.save e)) (unflag F e)
  | .drop x => if F x then .seq (.act (.dropIf x)) (.act (.flag x false)) else .act (.drop x)
  | a => .act a

mutual
def fin (F : Var → Bool) : Code → Code
  | .skip => .skip
  | .seq a b => .seq (fin F a) (fin F b)
  | .act a => finAct F a
  | .exit v => .exit v
  | .brk => .brk
  | .cont => .cont
  | .block b s => .block b (fin F s)
  | .ite us b s b' s' => .ite us b (fin F s) b' (fin F s')
  | .loop us b s => .loop us b (fin F s)
  | .switch us cs => .switch us (finCases F cs)
def finCases (F : Var → Bool) : CCases → CCases
  | .nil => .nil
  | .cons b s cs => .cons b (fin F s) (finCases F cs)
end

/-- manage.c 189-215: the flags of parameters are declared at the beginning of the body, as false. -/
def paramFlags (F : Var → Bool) : List Var → Code
  | [] => .skip
  | x :: xs => .seq (setFlag F x false) (paramFlags F xs)

/-- mem.c 4-17 `memoryManageAst` on one function. -/
def manage (params : List Var) (b : Nat) (s : Stmt) : Code :=
  let (p, k) := passBody params b s
  let F := fun x => (p.tr x).flags
  .seq (paramFlags F params) (fin F k)

/-! ## What the program does

A value is a number. It is `live` until it is destroyed (`dropped`) or handed over to a callee or the caller
(`given`). Variables keep pointing to a value after it has gone. Reading, destroying or handing over a value
that is not live is an error. -/

inductive Life where
  | unborn | live | dropped | given
  deriving DecidableEq, Repr

structure Mem where
  slot : Var → Option Nat
  life : Nat → Life
  next : Nat
  flag : Var → Bool
  ret : Option Nat

/-- A variable may be read: it is null or its value is live. -/
def readable (m : Mem) (x : Var) : Bool :=
  match m.slot x with
  | none => true
  | some t => decide (m.life t = .live)

def fresh (m : Mem) : Option Nat × Mem :=
  (some m.next, { m with life := fun t => if t = m.next then .live else m.life t, next := m.next + 1 })

/-- The value of a source. -/
def eval (m : Mem) : Src → Option (Option Nat × Mem)
  | .fresh us => if us.all (readable m) then some (fresh m) else none
  | .null => some (none, m)
  | .copy y => if readable m y then some (if (m.slot y).isSome then fresh m else (none, m)) else none
  | .alias y => if readable m y then some (m.slot y, m) else none
  | .move y => if readable m y then some (m.slot y, m) else none

/-- The value `v`, if there is one, goes from live to `l`. -/
def retire (l : Life) (m : Mem) : Option Nat → Option Mem
  | none => some m
  | some t => if m.life t = .live then some { m with life := fun u => if u = t then l else m.life u } else none

def store (m : Mem) (x : Var) (v : Option Nat) : Mem :=
  { m with slot := fun y => if y = x then v else m.slot y }

/-- One action; `none` is an error. Variables without value are null (backend/c/generate.c 1656-1667), and destroying null does
nothing (builtins.cxy 149-151). -/
def act (m : Mem) : Act → Option Mem
  | .decl x none => some (store m x none)
  | .decl x (some e) => (eval m e).map fun (v, m') => store m' x v
  | .assign x e => (eval m e).map fun (v, m') => store m' x v
  | .use us => if us.all (readable m) then some m else none
  | .give x => retire .given m (m.slot x)
  | .save e => (eval m e).map fun (v, m') => { m' with ret := v }
  | .drop x => retire .dropped m (m.slot x)
  | .dropIf x => if m.flag x then retire .dropped m (m.slot x) else some m
  | .flag x b => some { m with flag := fun y => if y = x then b else m.flag y }

inductive Outcome where
  | norm | brk | cont | ret | bad
  deriving DecidableEq, Repr

def CCases.bodies : CCases → List Code
  | .nil => []
  | .cons _ s cs => s :: cs.bodies

/-- The executions of a program. Conditions read variables and may turn out either way; a switch may take any case
or none. -/
inductive Exec : Code → Mem → Outcome → Mem → Prop where
  | skip {m} : Exec .skip m .norm m
  | seq {a b m m' m'' o} : Exec a m .norm m' → Exec b m' o m'' → Exec (.seq a b) m o m''
  | seqStop {a b m m' o} : Exec a m o m' → o ≠ .norm → Exec (.seq a b) m o m'
  | act {a m m'} : act m a = some m' → Exec (.act a) m .norm m'
  | actBad {a m} : act m a = none → Exec (.act a) m .bad m
  | done {m} : Exec (.exit false) m .ret m
  | exit {m m'} : retire .given m m.ret = some m' → Exec (.exit true) m .ret m'
  | exitBad {m} : retire .given m m.ret = none → Exec (.exit true) m .bad m
  | brk {m} : Exec .brk m .brk m
  | cont {m} : Exec .cont m .cont m
  | block {b s m o m'} : Exec s m o m' → Exec (.block b s) m o m'
  | iteThen {us b s b' s' m o m'} : us.all (readable m) = true → Exec s m o m' → Exec (.ite us b s b' s') m o m'
  | iteElse {us b s b' s' m o m'} : us.all (readable m) = true → Exec s' m o m' → Exec (.ite us b s b' s') m o m'
  | iteBad {us b s b' s' m} : us.all (readable m) = false → Exec (.ite us b s b' s') m .bad m
  | loopEnd {us b s m} : us.all (readable m) = true → Exec (.loop us b s) m .norm m
  | loopBad {us b s m} : us.all (readable m) = false → Exec (.loop us b s) m .bad m
  | loopNext {us b s m m' m'' o o'} : us.all (readable m) = true → Exec s m o m' → o = .norm ∨ o = .cont →
      Exec (.loop us b s) m' o' m'' → Exec (.loop us b s) m o' m''
  | loopBreak {us b s m m'} : us.all (readable m) = true → Exec s m .brk m' → Exec (.loop us b s) m .norm m'
  | loopStop {us b s m m' o} : us.all (readable m) = true → Exec s m o m' → o = .ret ∨ o = .bad →
      Exec (.loop us b s) m o m'
  | switchNone {us cs m} : us.all (readable m) = true → Exec (.switch us cs) m .norm m
  | switchBad {us cs m} : us.all (readable m) = false → Exec (.switch us cs) m .bad m
  | switchCase {us cs k m o m'} : us.all (readable m) = true → k ∈ cs.bodies → Exec k m o m' →
      Exec (.switch us cs) m o m'

end Verif.Drop
