import Verif.Common.Out
/-!
# Reference-counted objects (`src/cxy/runtime/builtins.cxy` 110-168)

One object.  `refs` is an atomic `u32`; touching the header after `free` is undefined.
-/
namespace Verif.SmartPtr

/-- builtins.cxy 112-117 `__mem`, with ghost fields: whether the block was freed and how often the destructor ran. -/
structure Obj where
  refs : Nat
  magic : Bool
  freed : Bool
  destroyed : Nat
  deriving DecidableEq, Repr

/-- builtins.cxy 121-134 `__smart_ptr_alloc` (successful). -/
def alloc : Obj := ⟨1, true, false, 0⟩

/-- builtins.cxy 136-147 `__smart_ptr_get` -/
def get (o : Obj) : Out Obj :=
  if o.freed then .ub
  else if !o.magic then .abort
  else .ok { o with refs := (o.refs + 1) % 2 ^ 32 }

/-- builtins.cxy 149-158: the magic check and the atomic decrement of `__smart_ptr_drop`. -/
def dropFirst (o : Obj) : Out Obj :=
  if o.freed then .ub
  else if !o.magic then .abort
  else .ok { o with refs := (o.refs + (2 ^ 32 - 1)) % 2 ^ 32 }

/-- builtins.cxy 159-170: the separate load of the count, destructor and `free`. -/
def dropSecond (o : Obj) : Out Obj :=
  if o.freed then .ub
  else if o.refs = 0 then .ok { o with destroyed := o.destroyed + 1, magic := false, freed := true }
  else .ok o

/-- A drop that is not interrupted. -/
def drop (o : Obj) : Out Obj := (dropFirst o).bind dropSecond

inductive Op where
  | get
  | drop
  deriving DecidableEq, Repr

def step (o : Obj) : Op → Out Obj
  | .get => get o
  | .drop => drop o

def run (o : Obj) : List Op → Out Obj
  | [] => .ok o
  | op :: ops => (step o op).bind fun o => run o ops

/-! ## Sequential histories -/

/-- The references held after a history, starting with `n`: `none` when something is done without holding one, or when
more than a `u32` can count are held. -/
def held (n : Nat) : List Op → Option Nat
  | [] => some n
  | .get :: ops => if 0 < n ∧ n + 1 < 2 ^ 32 then held (n + 1) ops else none
  | .drop :: ops => if 0 < n then held (n - 1) ops else none

/-- The object while `n` references are held. -/
def Alive (n : Nat) (o : Obj) : Prop := o.refs = n ∧ o.magic = true ∧ o.freed = false ∧ o.destroyed = 0

theorem dropFirst_ok (o : Obj) (n : Nat) (h1 : o.refs = n + 1) (hn : n + 1 < 2 ^ 32) (h2 : o.magic = true) (h3 : o.freed = false) :
    dropFirst o = .ok { o with refs := n } := by
  simp only [dropFirst, h2, h3]
  rw [h1, show n + 1 + (2 ^ 32 - 1) = n + 2 ^ 32 by omega, Nat.add_mod_right, Nat.mod_eq_of_lt (by omega)]
  rfl

theorem run_held : ∀ (ops : List Op) (n m : Nat) (o : Obj), n < 2 ^ 32 → 0 < n → Alive n o → held n ops = some m →
    ∃ o', run o ops = .ok o' ∧ (0 < m → Alive m o') ∧ (m = 0 → o'.freed = true ∧ o'.destroyed = 1)
  | [], n, m, o, _, hp, ha, hh => by
    simp only [held, Option.some.injEq] at hh
    subst hh
    exact ⟨o, rfl, fun _ => ha, fun h => by omega⟩
  | .get :: ops, n, m, o, hn, hp, ⟨h1, h2, h3, h4⟩, hh => by
    simp only [held] at hh
    split at hh
    · rename_i hc
      have hg : get o = .ok { o with refs := n + 1 } := by
        simp only [get, h2, h3]
        rw [h1, Nat.mod_eq_of_lt hc.2]
        rfl
      simp only [run, step, hg, Out.bind_ok]
      exact run_held ops (n + 1) m _ hc.2 (by omega) ⟨rfl, h2, h3, h4⟩ hh
    · cases hh
  | .drop :: ops, n, m, o, hn, hp, ⟨h1, h2, h3, h4⟩, hh => by
    simp only [held] at hh
    rw [if_pos hp] at hh
    have hd : dropFirst o = .ok { o with refs := n - 1 } := by
      simp only [dropFirst, h2, h3]
      rw [h1, show n + (2 ^ 32 - 1) = (n - 1) + 2 ^ 32 by omega, Nat.add_mod_right, Nat.mod_eq_of_lt (by omega)]
      rfl
    simp only [run, step, drop, hd, Out.bind_ok]
    by_cases hz : n - 1 = 0
    · have : dropSecond { o with refs := n - 1 } = .ok { o with refs := n - 1, destroyed := 1, magic := false, freed := true } := by
        simp [dropSecond, h3, hz, h4]
      rw [this, Out.bind_ok]
      rw [hz] at hh
      cases ops with
      | nil =>
        simp only [held, Option.some.injEq] at hh
        subst hh
        exact ⟨_, rfl, fun h => by omega, fun _ => ⟨rfl, rfl⟩⟩
      | cons op ops => cases op <;> simp [held] at hh
    · have : dropSecond { o with refs := n - 1 } = .ok { o with refs := n - 1 } := by
        simp only [dropSecond, h3]
        rw [if_neg (by simp), if_neg hz]
      rw [this, Out.bind_ok]
      exact run_held ops (n - 1) m _ (by omega) (by omega) ⟨rfl, h2, h3, h4⟩ hh

/-- **C41 (partial).** For every sequential history in which references are taken and dropped only by their holders and fewer
than 2^32 exist at a time: nothing touches freed memory, the object is destroyed exactly once when the last reference is
dropped, and not before.  Missing: drops that run concurrently (`concurrent_double_free`) and 2^32 references
(`count_wraps`). -/
theorem freed_once_partial (ops : List Op) (m : Nat) (h : held 1 ops = some m) :
    ∃ o, run alloc ops = .ok o ∧ (0 < m → o.freed = false ∧ o.destroyed = 0) ∧ (m = 0 → o.freed = true ∧ o.destroyed = 1) := by
  obtain ⟨o, h1, h2, h3⟩ := run_held ops 1 m alloc (by decide) (by decide) ⟨rfl, rfl, rfl, rfl⟩ h
  exact ⟨o, h1, fun hm => ⟨(h2 hm).2.2.1, (h2 hm).2.2.2⟩, h3⟩

example : held 1 [.get, .get, .drop, .drop] = some 1 ∧ held 1 [.get, .drop, .drop] = some 0 ∧
    run alloc [.get, .drop, .drop] = .ok ⟨0, false, true, 1⟩ := by decide

/-! ## Two threads -/

/-- **C41 fails** under concurrency: whenever exactly two references are left and two threads drop them, the schedule in which both
decrements come before both checks destroys the object in the first check and then reads the freed header in the
second. -/
theorem concurrent_double_free (o : Obj) (h : Alive 2 o) :
    ∃ o1 o2 o3, dropFirst o = .ok o1 ∧ dropFirst o1 = .ok o2 ∧ dropSecond o2 = .ok o3 ∧
      o3.freed = true ∧ o3.destroyed = 1 ∧ dropSecond o3 = .ub := by
  obtain ⟨h1, h2, h3, h4⟩ := h
  refine ⟨{ o with refs := 1 }, { o with refs := 0 }, { o with refs := 0, destroyed := 1, magic := false, freed := true }, ?_, ?_, ?_, rfl, rfl, ?_⟩
  · exact dropFirst_ok o 1 h1 (by omega) h2 h3
  · exact dropFirst_ok { o with refs := 1 } 0 rfl (by omega) h2 h3
  · simp [dropSecond, h3, h4]
  · simp [dropSecond]

theorem run_append : ∀ (a b : List Op) (o : Obj), run o (a ++ b) = (run o a).bind fun o => run o b
  | [], _, _ => rfl
  | x :: a, b, o => by
    simp only [List.cons_append, run]
    cases step o x <;> simp [run_append a b]

theorem gets_wrap (o : Obj) (h : Alive 1 o) : ∀ k, run o (List.replicate k Op.get) = .ok { o with refs := (k + 1) % 2 ^ 32 }
  | 0 => by
    obtain ⟨r, m, f, d⟩ := o
    have : r = 1 := h.1
    subst this
    rfl
  | k + 1 => by
    have hk := gets_wrap o h k
    rw [List.replicate_succ', run_append, hk, Out.bind_ok]
    simp [run, step, get, h.2.1, h.2.2.1]

/-- **C41 fails** when references are taken until the count wraps: with `k` references besides the first, `k` any positive
multiple of 2^32, one drop destroys the object although `k` references are still held. -/
theorem count_wraps (o : Obj) (h : Alive 1 o) (k : Nat) (hk : k % 2 ^ 32 = 0) :
    ∃ o', run o (List.replicate k Op.get ++ [Op.drop]) = .ok o' ∧ o'.freed = true ∧ o'.destroyed = 1 := by
  rw [run_append, gets_wrap o h, Out.bind_ok]
  have e : (k + 1) % 2 ^ 32 = 1 := by omega
  rw [e]
  refine ⟨{ o with refs := 0, destroyed := 1, magic := false, freed := true }, ?_, rfl, rfl⟩
  have hd := dropFirst_ok { o with refs := 1 } 0 rfl (by omega) h.2.1 h.2.2.1
  simp only [run, step, drop, hd, Out.bind_ok]
  simp [dropSecond, h.2.2.1, h.2.2.2]

end Verif.SmartPtr
