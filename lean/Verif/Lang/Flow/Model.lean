import Verif.Lang.Flow.Source
import Verif.Common.Mem
/-!
# Model of the blocks that the LLVM backend generates for control flow

`src/cxy/lang/backend/llvm/generate.cpp` (`visitIfStmt`, `visitTernaryExpr`, `visitWhileStmt`, `visitSwitchStmt`,
`visitBreakStmt`, `visitContinueStmt`, `visitReturnStmt`, `visitFuncDecl`), `binary.cpp` (`generateLogicAndOr`, order of operands in
`generateBinaryExpr`), `context.h` (`Stack`, `LLVMContext`) and `llvm.cpp` (`addModule`).

The builder of LLVM is a map from blocks to lists of instructions with an insertion point; blocks are created first and
inserted into the function later. Instructions are appended wherever the builder stands, also behind a branch, as LLVM does.
`verifyModule` is modelled by what it says about the ends of blocks: a module with a block that does not end in its only
terminator is rejected.

Left out: types, debug locations, stack slots, the other checks of the verifier (they only reject more programs), `match`
(the same code as `switch`, with the tag of a union as the condition), range cases of `switch`.
-/
namespace Verif.Flow

variable {Prim State : Type}

/-- Operands: registers and constants. -/
inductive Op where
  | reg (r : Nat)
  | const (v : Int)
  deriving DecidableEq, Repr

/-- Instructions. `setres` stores into the slot of the result, `ret` returns what is in it. -/
inductive Instr (Prim : Type) where
  | call (r : Nat) (p : Prim) (args : List Op)
  | phi (r : Nat) (incoming : List (Op × Nat))
  | setres (v : Op)
  | br (to : Nat)
  | cbr (c : Op) (yes no : Nat)
  | switch (c : Op) (cases : List (Int × Nat)) (default : Nat)
  | ret

/-- `Instruction::isTerminator` -/
def Instr.isTerm : Instr Prim → Bool
  | .br _ | .cbr .. | .switch .. | .ret => true
  | _ => false

/-- context.h 36-46: the builder, the blocks of the function and `unreachable` (here `dead`). `failed`: an assertion failed. -/
structure Bld (Prim : Type) where
  code : Nat → List (Instr Prim)
  order : List Nat
  cur : Nat
  nblk : Nat
  nreg : Nat
  dead : Bool
  failed : Bool

namespace Bld

/-- `builder.Create...` -/
def emit (b : Bld Prim) (i : Instr Prim) : Bld Prim := { b with code := upd b.code b.cur (b.code b.cur ++ [i]) }

/-- `BasicBlock::Create(ctx, name)`: the new block is `b.nblk`. -/
def create (b : Bld Prim) : Bld Prim := { b with nblk := b.nblk + 1 }

/-- `func->insert(func->end(), bb)` -/
def insert (b : Bld Prim) (k : Nat) : Bld Prim := { b with order := b.order ++ [k] }

/-- `builder.SetInsertPoint(bb)` -/
def setCur (b : Bld Prim) (k : Nat) : Bld Prim := { b with cur := k }

/-- `ctx.unreachable = v` -/
def setDead (b : Bld Prim) (v : Bool) : Bld Prim := { b with dead := v }

/-- An instruction with a new register. -/
def define (b : Bld Prim) (f : Nat → Instr Prim) : Op × Bld Prim := (.reg b.nreg, { b with nreg := b.nreg + 1 }.emit (f b.nreg))

/-- `csAssert0(false)` -/
def fail (b : Bld Prim) : Bld Prim := { b with failed := true }

/-- `func->back()`: the last block that was inserted ends with a terminator. -/
def backTerminated (b : Bld Prim) : Bool :=
  match b.order.getLast? with
  | some k => match (b.code k).getLast? with | some i => i.isTerm | none => false
  | none => false

end Bld

/-- binary.cpp 93-115: the order in which the operands are generated. For operands of one type (and pointers) and for a bigger
left type the right operand comes first. -/
def codeOrder : Mix → Bool
  | .same => false
  | .leftBigger => false
  | .other => true

mutual
/-- Expressions: binary.cpp 16-65 `generateLogicAndOr`, 77-115; generate.cpp 487-494 and 637-693 for `?:`; 520-548 `visitCallExpr`. -/
def genE : Expr Prim → Bld Prim → Op × Bld Prim
  | .const v, b => (.const v, b)
  | .call p args, b =>
    let r := genA args b
    r.2.define (fun n => .call n p r.1)
  | .bin m p x y, b =>
    if codeOrder m then
      let l := genE x b
      let r := genE y l.2
      r.2.define (fun n => .call n p [l.1, r.1])
    else
      let r := genE y b
      let l := genE x r.2
      l.2.define (fun n => .call n p [l.1, r.1])
  | .and x y, b =>
    let lhsB := b.nblk
    let rhsB := b.nblk + 1
    let phiB := b.nblk + 2
    let b1 := ((b.create.create.create.emit (.br lhsB)).insert lhsB).setCur lhsB
    let l := genE x b1
    let b2 := l.2.emit (.cbr l.1 rhsB phiB)
    let lEnd := b2.cur
    let b3 := (b2.insert rhsB).setCur rhsB
    let r := genE y b3
    let b4 := r.2.emit (.br phiB)
    let rEnd := b4.cur
    ((b4.insert phiB).setCur phiB).define (fun n => .phi n [(.const 0, lEnd), (r.1, rEnd)])
  | .or x y, b =>
    let lhsB := b.nblk
    let rhsB := b.nblk + 1
    let phiB := b.nblk + 2
    let b1 := ((b.create.create.create.emit (.br lhsB)).insert lhsB).setCur lhsB
    let l := genE x b1
    let b2 := l.2.emit (.cbr l.1 phiB rhsB)
    let lEnd := b2.cur
    let b3 := (b2.insert rhsB).setCur rhsB
    let r := genE y b3
    let b4 := r.2.emit (.br phiB)
    let rEnd := b4.cur
    ((b4.insert phiB).setCur phiB).define (fun n => .phi n [(.const 1, lEnd), (r.1, rEnd)])
  | .tern c x y, b =>
    let q := genE c b
    let b0 := q.2.setDead false
    let thenB := b0.nblk
    let elseB := b0.nblk + 1
    let mergeB := b0.nblk + 2
    let b1 := (((b0.create.insert thenB).create.create).emit (.cbr q.1 thenB elseB)).setCur thenB
    let t := genE x b1
    let b2 := (if t.2.dead then t.2 else t.2.emit (.br mergeB)).setDead false
    let tEnd := b2.cur
    let b3 := (b2.insert elseB).setCur elseB
    let e := genE y b3
    let b4 := (if e.2.dead then e.2 else e.2.emit (.br mergeB)).setDead false
    let eEnd := b4.cur
    ((b4.insert mergeB).setCur mergeB).define (fun n => .phi n [(t.1, tEnd), (e.1, eEnd)])
/-- generate.cpp 539-545: the arguments of a call. -/
def genA : Args Prim → Bld Prim → List Op × Bld Prim
  | .nil, b => ([], b)
  | .cons e rest, b =>
    let v := genE e b
    let vs := genA rest v.2
    (v.1 :: vs.1, vs.2)
end

/-- context.h 23-34 `Stack`: the targets of jumps. -/
structure Ctx where
  loopUpdate : Option Nat
  loopCondition : Option Nat
  loopEnd : Option Nat
  funcEnd : Nat

mutual
/-- Statements: generate.cpp 619-635 `visitReturnStmt`, 637-693 `visitIfStmt`, 695-705 `visitBreakStmt`, 707-723 `visitContinueStmt`,
725-775 `visitWhileStmt`, 777-824 `visitSwitchStmt`. -/
def genS (ctx : Ctx) : Stmt Prim → Bld Prim → Bld Prim
  | .skip, b => b
  | .seq x y, b => genS ctx y (genS ctx x b)
  | .expr e, b => (genE e b).2
  | .ret e, b =>
    let b1 := match e with
      | some e => let v := genE e b; v.2.emit (.setres v.1)
      | none => b
    (b1.emit (.br ctx.funcEnd)).setDead true
  | .ite c x y, b =>
    let q := genE c b
    let b0 := q.2.setDead false
    let thenB := b0.nblk
    let elseB := b0.nblk + 1
    let mergeB := b0.nblk + 2
    let b1 := (((b0.create.insert thenB).create.create).emit (.cbr q.1 thenB elseB)).setCur thenB
    let t := genS ctx x b1
    let b2 := (if t.dead then t else t.emit (.br mergeB)).setDead false
    let b3 := (b2.insert elseB).setCur elseB
    let e := genS ctx y b3
    let b4 := (if e.dead then e else e.emit (.br mergeB)).setDead false
    (b4.insert mergeB).setCur mergeB
  | .brk, b =>
    match ctx.loopEnd with
    | some k => (b.emit (.br k)).setDead true
    | none => b.fail
  | .cont, b =>
    match ctx.loopCondition, ctx.loopUpdate with
    | some _, some k => (b.emit (.br k)).setDead true
    | some k, none => (b.emit (.br k)).setDead true
    | none, _ => b.fail
  | .while c body update, b =>
    let condB := b.nblk
    let bodyB := b.nblk + 1
    let endB := b.nblk + 2
    let updB := b.nblk + 3
    let b0 := (b.create.insert condB).create.create
    let b1 := match update with | some _ => b0.create | none => b0
    let ctx' : Ctx := ⟨match update with | some _ => some updB | none => none, some condB, some endB, ctx.funcEnd⟩
    let b2 := (b1.emit (.br condB)).setCur condB
    let q := genE c b2
    let b3 := q.2.emit (.cbr q.1 bodyB endB)
    let b4 := (b3.insert bodyB).setCur bodyB
    let b5 := genS ctx' body b4
    let b6 := match update with
      | some e => (genE e (((b5.emit (.br updB)).insert updB).setCur updB)).2
      | none => b5
    let b7 := b6.emit (.br condB)
    (b7.insert endB).setCur endB
  | .switch c cases, b =>
    let current := b.cur
    let q := genE c b
    let endB := q.2.nblk
    let r := genCases ctx endB cases q.2.create
    let b1 := (r.2.2.setCur current).emit (.switch q.1 r.1 (r.2.1.getD endB))
    (b1.insert endB).setCur endB
/-- generate.cpp 789-814: the cases of a `switch`, with the blocks of the cases and of the default. -/
def genCases (ctx : Ctx) (endB : Nat) : Cases Prim → Bld Prim → List (Int × Nat) × Option Nat × Bld Prim
  | .nil, b => ([], none, b)
  | .cons v body rest, b =>
    let bb := b.nblk
    let b1 := (b.create.insert bb).setCur bb
    let b2 := genS ctx body b1
    let b3 := if b2.backTerminated then b2 else b2.emit (.br endB)
    let r := genCases ctx endB rest b3
    match v with
    | some v => ((v, bb) :: r.1, r.2.1, r.2.2)
    | none => (r.1, some bb, if r.2.1.isSome then r.2.2.fail else r.2.2)
end

/-- generate.cpp 1041-1129 `visitFuncDecl`, for a body that is a block: entry is block 0, the end block 1. -/
def genFunc (body : Stmt Prim) : Bld Prim :=
  let b0 : Bld Prim := ⟨fun _ => [], [0], 0, 2, 0, false, false⟩
  let b1 := genS ⟨none, none, none, 1⟩ body b0
  let b2 := (if b1.dead then b1 else b1.emit (.br 1)).setDead false
  let b3 := if b2.backTerminated then b2 else b2.emit (.br 1)
  ((b3.insert 1).setCur 1).emit .ret

/-- A block ends with its only terminator. -/
def endsOnce : List (Instr Prim) → Bool
  | [] => false
  | [i] => i.isTerm
  | i :: rest => !i.isTerm && endsOnce rest

/-- llvm.cpp 257-266 `addModule`: `verifyModule`, as far as the ends of blocks go. -/
def verify (b : Bld Prim) : Bool := b.order.all fun k => endsOnce (b.code k)

/-- The code of a function, if it is accepted. -/
def compile (body : Stmt Prim) : Option (Nat → List (Instr Prim)) :=
  if !(genFunc body).failed && verify (genFunc body) then some (genFunc body).code else none

/-! ## Running blocks -/

/-- A state of the running function: the block, the block before, the instructions left, registers, the state of the program
and the slot of the result. -/
structure Cfg (Prim State : Type) where
  blk : Nat
  prev : Nat
  rest : List (Instr Prim)
  regs : Nat → Int
  st : State
  res : Option Int

/-- What a step gives. -/
inductive Next (Prim State : Type) where
  | go (c : Cfg Prim State)
  | returned (v : Option Int) (s : State)
  | stuck (s : State)
  | ub

def Op.val (regs : Nat → Int) : Op → Int
  | .reg r => regs r
  | .const v => v

/-- A jump. -/
def jump (P : Nat → List (Instr Prim)) (c : Cfg Prim State) (k : Nat) : Next Prim State := .go ⟨k, c.blk, P k, c.regs, c.st, c.res⟩

/-- The meaning of an instruction of LLVM. -/
def step (sem : Sem Prim State) (P : Nat → List (Instr Prim)) (c : Cfg Prim State) : Next Prim State :=
  match c.rest with
  | [] => .ub
  | .call r p args :: rest =>
    match sem p (args.map (Op.val c.regs)) c.st with
    | some (v, s) => .go { c with rest := rest, regs := upd c.regs r v, st := s }
    | none => .stuck c.st
  | .phi r incoming :: rest =>
    match incoming.find? fun e => decide (e.2 = c.prev) with
    | some e => .go { c with rest := rest, regs := upd c.regs r (e.1.val c.regs) }
    | none => .ub
  | .setres v :: rest => .go { c with rest := rest, res := some (v.val c.regs) }
  | .br k :: _ => jump P c k
  | .cbr v yes no :: _ => jump P c (if v.val c.regs = 0 then no else yes)
  | .switch v cases default :: _ =>
    jump P c (match cases.find? fun e => decide (e.1 = v.val c.regs) with | some e => e.2 | none => default)
  | .ret :: _ => .returned c.res c.st

/-- Running for a number of steps. -/
def run (sem : Sem Prim State) (P : Nat → List (Instr Prim)) : Nat → Cfg Prim State → Next Prim State
  | 0, c => .go c
  | n + 1, c =>
    match step sem P c with
    | .go c' => run sem P n c'
    | r => r

/-- The call of a function. -/
def start (P : Nat → List (Instr Prim)) (s : State) : Cfg Prim State := ⟨0, 0, P 0, fun _ => 0, s, none⟩

end Verif.Flow
