import Verif.Common.Mem
import Verif.Common.Res
/-!
# Objects that hold references to each other

`src/cxy/runtime/builtins.cxy` 112-170 (`__mem`, `__smart_ptr_get`, `__smart_ptr_drop`), the destructors the compiler makes for
classes (`src/cxy/lang/middle/sema/builtins.c` 352-430 `implementDestructorFunction`) and assignments to members under memory
management (`src/cxy/lang/middle/mem/manage.c` 496-510, `visitAssignExpr` for a target that is not a local variable).

Only fields of class type are kept; a field is `none` for null. Counts are natural numbers (their wrapping and the orders of
concurrent drops are with `Verif.Std.SmartPtr`). Classes have no `deinit` and no destructor of their own.
-/
namespace Verif.ObjGraph

/-- The objects: how often each is referred to (`__mem.refs`), whether it is allocated (`__mem.magic`), its fields of class type. -/
structure Heap where
  refs : Nat → Nat
  live : Nat → Bool
  flds : Nat → List (Option Nat)

/-- builtins.c 206-235 `implementZeroMemory`: field `i` of the object at `a` becomes null. -/
def zero (a i : Nat) (h : Heap) : Heap := { h with flds := upd h.flds a ((h.flds a).set i none) }

/-- builtins.cxy 165-166 `mem.magic = 0; free(mem)` -/
def free (a : Nat) (h : Heap) : Heap := { h with live := upd h.live a false }

/-- builtins.c 384-417: the destructor of an object drops the fields one after the other and sets each to null behind that. -/
def dropFields (d : Heap → Option Nat → Res Heap) (a : Nat) : List Nat → Heap → Res Heap
  | [], h => .ok h
  | i :: is, h => (d h ((h.flds a).getD i none)).bind fun h' => dropFields d a is (zero a i h')

/-- builtins.cxy 149-170 `__smart_ptr_drop`. An address that is not allocated, or a count below zero, is an error. -/
def dropRef : Nat → Heap → Option Nat → Res Heap
  | _, h, none => .ok h
  | 0, _, some _ => .diverge
  | n + 1, h, some a =>
    if h.live a then
      match h.refs a with
      | 0 => .ub
      | r + 1 =>
        let h1 : Heap := { h with refs := upd h.refs a r }
        if r = 0 then (dropFields (dropRef n) a (List.range (h.flds a).length) h1).map (free a)
        else .ok h1
    else .ub

/-- builtins.cxy 136-146 `__smart_ptr_get` -/
def getRef (h : Heap) : Option Nat → Res Heap
  | none => .ok h
  | some a => if h.live a then .ok { h with refs := upd h.refs a (h.refs a + 1) } else .ub

/-- Reading field `f` of an object. -/
def load (h : Heap) (v : Option Nat) (f : Nat) : Res (Option Nat) :=
  match v with
  | none => .ub
  | some a => if h.live a then (match (h.flds a)[f]? with | some w => .ok w | none => .ub) else .ub

/-- The value of `x.i.j.k`. -/
def follow (h : Heap) : Option Nat → List Nat → Res (Option Nat)
  | v, [] => .ok v
  | v, i :: is => (load h v i).bind fun w => follow h w is

/-- `p.f = v` in the generated code. -/
def store (h : Heap) (p : Option Nat) (f : Nat) (v : Option Nat) : Res Heap :=
  match p with
  | none => .ub
  | some a => if h.live a then .ok { h with flds := upd h.flds a ((h.flds a).set f v) } else .ub

/-- What is assigned: a new value that nobody else holds (made without looking at these objects), or the value of a variable or
member. -/
inductive Rhs where
  | fresh (v : Option Nat)
  | path (y : Option Nat) (qs : List Nat)

/-- manage.c 496-510: `x.ps.f = rhs` becomes `drop(x.ps.f); x.ps.f = copy(rhs)`; `x` and `y` are what the variables hold. The
target is evaluated once for the drop and once for the store. -/
def assign (n : Nat) (h : Heap) (x : Option Nat) (ps : List Nat) (f : Nat) (rhs : Rhs) : Res Heap :=
  (follow h x (ps ++ [f])).bind fun old =>
  (dropRef n h old).bind fun h1 =>
  match rhs with
  | .fresh v => (follow h1 x ps).bind fun p => store h1 p f v
  | .path y qs =>
    (follow h1 y qs).bind fun v =>
    (getRef h1 v).bind fun h2 =>
    (follow h2 x ps).bind fun p => store h2 p f v

end Verif.ObjGraph
