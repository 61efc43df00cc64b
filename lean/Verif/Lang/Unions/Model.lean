/-!
# Model of unions: `is`, `as` and `match`

`src/cxy/lang/middle/sema/type.c` 15–32 and 156–190 (`addUnionDecl`, `checkUnionDecl`), `src/cxy/lang/frontend/types.c` 1292–1302
(`findUnionTypeIndex`), `src/cxy/lang/middle/sema/match.c`, `src/cxy/lang/frontend/parser.c` 2473–2540 (`matchCaseStatement`),
`src/cxy/lang/middle/simplify/simplify.c` 604–700 (`visitCastExpr`), 833–859 (`visitBinaryExpr`, `is`), 1105–1113 (`visitIfStmt`),
1152–1210 (`visitMatchStmt`), `src/cxy/lang/middle/shake/shake.c` 447–561 (`shakeIfStmt`, `shakeWhileStmt`) and
`src/cxy/lang/backend/c/generate.c` 292–330, 954–968, 1031–1036, 1114–1125, 1546–1625 (unions in the C that is written).

A union is a number, the place of the type it holds among the members, and the value. `as` becomes a call of `__cxy_assert`, put in
front of the statement in the nearest block, and an unchecked access.

Simplified: there is one union type; what it holds is an integer, whatever the type; functions that return a union change variables
of numbers only; indices of arrays are in range. An index is a literal, a variable or `x++` (others are first stored in a variable,
`visitIndexExpr` 702–723), what a `match` looks at is a variable or an element (others are first stored, `shakeMatchStmt` 721–741),
and the variable of a case is a copy (types that are no numbers get a reference). Left out: `!as`, which is not checked, `break`,
`return`, and unions behind references.
-/
namespace Verif.Unions

/-- A type: its number, and whether it is wrapped in `const`. -/
structure Ty where
  base : Nat
  const : Bool
  deriving DecidableEq, Repr

/-- type.c 15–32 `addUnionDecl` -/
def addMember (ms : List Ty) (t : Ty) : List Ty := if t ∈ ms then ms else ms ++ [t]

/-- type.c 156–190 `checkUnionDecl` -/
def unionOf (ts : List Ty) : List Ty := ts.foldl addMember []

/-- types.c 1292–1302 `findUnionTypeIndex`: the type that is looked for is unwrapped, the members are not -/
def indexOf (ms : List Ty) (t : Ty) : Option Nat := ms.findIdx? (fun m => decide (m = ⟨t.base, false⟩))

/-! ## Programs

`κ` is how a type is written: as a type in the source, as a place among the members in the C that is written. -/

/-- An index. -/
inductive Idx where
  | lit (n : Int)
  | var (x : Nat)
  | next (x : Nat)
  deriving DecidableEq, Repr

/-- Expressions whose value is a union. -/
inductive UE where
  | var (u : Nat)
  | at (a : Nat) (i : Idx)
  | call (f : Nat)
  deriving DecidableEq, Repr

/-- Expressions whose value is a number; `next x` is `x++`. -/
inductive E (κ : Type) where
  | lit (n : Int)
  | var (x : Nat)
  | next (x : Nat)
  | bin (op : Nat) (a b : E κ)
  | and (a b : E κ)
  | or (a b : E κ)
  | is (u : UE) (t : κ)
  | as (u : UE) (t : κ)
  deriving Repr

mutual
/-- Statements. `check` is made by the compiler only, and so is the first part of a loop, which it puts in front of the condition. -/
inductive Stmt (κ : Type) where
  | check (u : UE) (t : κ)
  | set (x : Nat) (e : E κ)
  | store (u : Nat) (t : κ) (e : E κ)
  | emit (e : E κ)
  | ite (c : E κ) (b : Block κ) (o : Else κ)
  | loop (pre : Block κ) (c : E κ) (b : Block κ)
  | mat (u : UE) (cs : Cases κ)
inductive Block (κ : Type) where
  | nil
  | cons (s : Stmt κ) (b : Block κ)
inductive Else (κ : Type) where
  | none
  | block (b : Block κ)
  | elif (c : E κ) (b : Block κ) (o : Else κ)
/-- The body of a case, in braces or not. -/
inductive Body (κ : Type) where
  | block (b : Block κ)
  | one (s : Stmt κ)
/-- The cases of a `match`: the types, none for `else`, and the variable. -/
inductive Cases (κ : Type) where
  | nil
  | cons (ts : List κ) (v : Option Nat) (b : Body κ) (cs : Cases κ)
end

def Block.append : Block κ → Block κ → Block κ
  | .nil, c => c
  | .cons s b, c => .cons s (b.append c)

/-! ## Translation -/

variable (ms : List Ty)

/-- `is` becomes a comparison of the number (simplify.c 838–859), `as` the access (generate.c 954–968). `none`: the type is no member; the
compiler reports it for `as` and aborts for `is`. -/
def E.lower : E Ty → Option (E Nat)
  | .lit n => some (.lit n)
  | .var x => some (.var x)
  | .next x => some (.next x)
  | .bin op a b => a.lower.bind fun a => b.lower.bind fun b => some (.bin op a b)
  | .and a b => a.lower.bind fun a => b.lower.bind fun b => some (.and a b)
  | .or a b => a.lower.bind fun a => b.lower.bind fun b => some (.or a b)
  | .is u t => (indexOf ms t).bind fun i => some (.is u i)
  | .as u t => (indexOf ms t).bind fun i => some (.as u i)

/-- The assertions an expression adds in front of its statement (simplify.c 625–699), in the order in which it is visited. -/
def E.asserts : E Ty → Block Nat
  | .lit _ | .var _ | .next _ | .is .. => .nil
  | .bin _ a b | .and a b | .or a b => a.asserts.append b.asserts
  | .as u t => match indexOf ms t with
    | some i => .cons (.check u i) .nil
    | none => .nil

/-- The labels of a case that are followed by a comma: cases without a body (parser.c 2507–2514). -/
def emptyCases (is : List Nat) (cs : Cases Nat) : Cases Nat := is.foldr (fun i cs => .cons [i] none (.block .nil) cs) cs

def indices : List Ty → Option (List Nat)
  | [] => some []
  | t :: ts => (indexOf ms t).bind fun i => (indices ts).bind fun is => some (i :: is)

mutual
/-- A statement: what is put in front of it, and what becomes of it. -/
def Stmt.lower : Stmt Ty → Option (Block Nat × Stmt Nat)
  | .check _ _ => none
  | .set x e => (e.lower ms).bind fun e' => some (e.asserts ms, .set x e')
  | .store u t e => (indexOf ms t).bind fun i => (e.lower ms).bind fun e' => some (e.asserts ms, .store u i e')
  | .emit e => (e.lower ms).bind fun e' => some (e.asserts ms, .emit e')
  -- simplify.c 1105–1113; shake.c 480–499: the bodies are blocks, an `if` behind `else` is not
  | .ite c b o => (c.lower ms).bind fun c' => b.lower.bind fun b' => o.lower.bind fun o' => some ((c.asserts ms).append o'.1, .ite c' b' o'.2)
  -- shake.c 541–561: `while (true) { if (c) { b } else break }`
  | .loop _ c b => (c.lower ms).bind fun c' => b.lower.bind fun b' => some (.nil, .loop (c.asserts ms) c' b')
  -- simplify.c 1152–1210
  | .mat u cs => (cs.lower u).bind fun cs' => some (cs'.1, .mat u cs'.2)
def Block.lower : Block Ty → Option (Block Nat)
  | .nil => some .nil
  | .cons s b => s.lower.bind fun s' => b.lower.bind fun b' => some (s'.1.append (.cons s'.2 b'))
def Else.lower : Else Ty → Option (Block Nat × Else Nat)
  | .none => some (.nil, .none)
  | .block b => b.lower.bind fun b' => some (.nil, .block b')
  | .elif c b o => (c.lower ms).bind fun c' => b.lower.bind fun b' => o.lower.bind fun o' => some ((c.asserts ms).append o'.1, .elif c' b' o'.2)
/-- `blk`: a block is made of a body that is none. Otherwise what belongs in front of it is put in front of the `match`. -/
def Body.lower : Body Ty → Bool → Option (Block Nat × Block Nat)
  | .block b, _ => b.lower.bind fun b' => some (.nil, b')
  | .one s, true => s.lower.bind fun s' => some (.nil, s'.1.append (.cons s'.2 .nil))
  | .one s, false => s.lower.bind fun s' => some (s'.1, .cons s'.2 .nil)
def Cases.lower : Cases Ty → UE → Option (Block Nat × Cases Nat)
  | .nil, _ => some (.nil, .nil)
  -- simplify.c 1201–1205: `else`
  | .cons [] _ b cs, u => (b.lower true).bind fun b' => (cs.lower u).bind fun cs' => some (b'.1.append cs'.1, .cons [] none (.block b'.2) cs'.2)
  | .cons (t :: ts) v b cs, u =>
    (indices ms (t :: ts)).bind fun is => (b.lower v.isSome).bind fun b' => (cs.lower u).bind fun cs' =>
      let i := is.getLastD 0
      -- simplify.c 1174–1199: the variable is the first statement, and is made from what the `match` looks at
      let body := match v with
        | some x => .cons (.set x (.as u i)) b'.2
        | none => b'.2
      some (b'.1.append cs'.1, emptyCases is.dropLast (.cons [i] none (.block body) cs'.2))
end

/-! ## Checking -/

/-- The types of the cases, in their order; `none` is `else`. -/
def Cases.labels : Cases κ → List (Option κ)
  | .nil => []
  | .cons [] _ _ cs => none :: cs.labels
  | .cons ts _ _ cs => ts.map some ++ cs.labels

/-- match.c 13–20 and 122–145: no two cases of one type; `const` makes another type. -/
def Cases.accepted (cs : Cases Ty) : Bool := decide cs.labels.Nodup

/-- What C asks for: no two cases with one constant. -/
def Cases.validC (cs : Cases Nat) : Bool := decide cs.labels.Nodup

/-! ## Running -/

/-- `τ`: how the type that is held is stored. -/
structure St where
  num : Nat → Int
  uni : Nat → Nat × Int
  arr : Nat → Int → Nat × Int
  out : List Int

/-- How a run ends. `confused`: a member is read that is not the one held. -/
inductive R (α : Type) where
  | ok (a : α)
  | abort
  | confused
  | more

def R.bind (x : R α) (f : α → R β) : R β :=
  match x with
  | .ok a => f a
  | .abort => .abort
  | .confused => .confused
  | .more => .more

/-- What programs are made of: the operators, and functions that return a union. -/
structure Prims where
  op : Nat → Int → Int → Int
  fn : Nat → (Nat → Int) → (Nat × Int) × (Nat → Int)

/-- A language: how a written type fits the stored one, how a type is stored, and what a wrong `as` does. -/
structure Lang (κ : Type) where
  fits : Nat → κ → Bool
  put : κ → Nat
  fn : Nat → (Nat → Int) → (Nat × Int) × (Nat → Int)
  bad : R (Int × St)

def upd (f : Nat → β) (x : Nat) (v : β) : Nat → β := fun y => if y = x then v else f y

def Idx.eval : Idx → (Nat → Int) → Int × (Nat → Int)
  | .lit n, s => (n, s)
  | .var x, s => (s x, s)
  | .next x, s => (s x, upd s x (s x + 1))

variable (op : Nat → Int → Int → Int) (L : Lang κ)

def UE.eval : UE → St → (Nat × Int) × St
  | .var u, s => (s.uni u, s)
  | .at a i, s => (s.arr a (i.eval s.num).1, { s with num := (i.eval s.num).2 })
  | .call f, s => ((L.fn f s.num).1, { s with num := (L.fn f s.num).2 })

def b2i (b : Bool) : Int := if b then 1 else 0

def E.eval : E κ → St → R (Int × St)
  | .lit n, s => .ok (n, s)
  | .var x, s => .ok (s.num x, s)
  | .next x, s => .ok (s.num x, { s with num := upd s.num x (s.num x + 1) })
  | .bin o a b, s => (a.eval s).bind fun r => (b.eval r.2).bind fun q => .ok (op o r.1 q.1, q.2)
  | .and a b, s => (a.eval s).bind fun r => if r.1 = 0 then .ok r else b.eval r.2
  | .or a b, s => (a.eval s).bind fun r => if r.1 = 0 then b.eval r.2 else .ok r
  | .is u t, s => .ok (b2i (L.fits (u.eval L s).1.1 t), (u.eval L s).2)
  | .as u t, s => if L.fits (u.eval L s).1.1 t then .ok ((u.eval L s).1.2, (u.eval L s).2) else L.bad

/-- A loop of at most `n` rounds. -/
def iter (c : St → R (Int × St)) (b : St → R St) : Nat → St → R St
  | 0, _ => .more
  | n + 1, s => (c s).bind fun r => if r.1 = 0 then .ok r.2 else (b r.2).bind (iter c b n)

mutual
/-- A `match` runs the case whose type is held, otherwise `else`; without one the program is stopped (generate.c 1552–1557). -/
def Stmt.run : Stmt κ → Nat → St → R St
  | .check u t, _, s => if L.fits (u.eval L s).1.1 t then .ok (u.eval L s).2 else .abort
  | .set x e, _, s => (e.eval op L s).bind fun r => .ok { r.2 with num := upd r.2.num x r.1 }
  | .store u t e, _, s => (e.eval op L s).bind fun r => .ok { r.2 with uni := upd r.2.uni u (L.put t, r.1) }
  | .emit e, _, s => (e.eval op L s).bind fun r => .ok { r.2 with out := r.2.out ++ [r.1] }
  | .ite c b o, n, s => (c.eval op L s).bind fun r => if r.1 = 0 then o.run n r.2 else b.run n r.2
  | .loop p c b, n, s => iter (fun s => (p.run n s).bind fun s => c.eval op L s) (fun s => b.run n s) n s
  | .mat u cs, n, s =>
    match cs.find (u.eval L s).1 n (u.eval L s).2 with
    | some r => r
    | none => cs.other n (u.eval L s).2
def Block.run : Block κ → Nat → St → R St
  | .nil, _, s => .ok s
  | .cons t b, n, s => (t.run n s).bind fun s => b.run n s
def Else.run : Else κ → Nat → St → R St
  | .none, _, s => .ok s
  | .block b, n, s => b.run n s
  | .elif c b o, n, s => (c.eval op L s).bind fun r => if r.1 = 0 then o.run n r.2 else b.run n r.2
def Body.run : Body κ → Nat → St → R St
  | .block b, n, s => b.run n s
  | .one t, n, s => t.run n s
/-- The case for a value. -/
def Cases.find : Cases κ → Nat × Int → Nat → St → Option (R St)
  | .nil, _, _, _ => none
  | .cons ts v b cs, w, n, s =>
    if ts.any (L.fits w.1) then
      some (b.run n (match v with
        | some x => { s with num := upd s.num x w.2 }
        | none => s))
    else cs.find w n s
/-- `else`. -/
def Cases.other : Cases κ → Nat → St → R St
  | .nil, _, _ => .abort
  | .cons [] _ b _, n, s => b.run n s
  | .cons _ _ _ cs, n, s => cs.other n s
end

variable (P : Prims)

/-- The source: a union holds a type, and a wrong `as` stops the program. -/
def source : Lang Ty := ⟨fun h t => decide (h = t.base), fun t => t.base, P.fn, .abort⟩

/-- The C that is written: a union holds a number, and `as` is not checked. -/
def target : Lang Nat :=
  ⟨fun h i => decide (h = i), fun i => i, fun f s => (((indexOf ms ⟨(P.fn f s).1.1, false⟩).getD 0, (P.fn f s).1.2), (P.fn f s).2), .confused⟩

end Verif.Unions
