/-!
# Coroutine mutex and stack cache (`src/cxy/stdlib/coro.cxy`)

Coroutines are cooperative: each operation below runs without interruption.  The intrusive `List` is the queue proved
FIFO in `Std/ListQ` and is a list here.
-/
namespace Verif.Coro

/-! ## The mutex (coro.cxy 356-387) -/

/-- coro.cxy 356-358, with ghost fields: who is inside (has acquired and not released), who acquired so far, and who called
`lock` or a successful `tryLock` so far. -/
structure Mutex where
  holder : Option Nat
  waiting : List Nat
  inside : List Nat
  acquired : List Nat
  asked : List Nat
  deriving DecidableEq, Repr

def Mutex.new : Mutex := ⟨none, [], [], [], []⟩

inductive Op where
  | lock (c : Nat)
  | tryLock (c : Nat)
  | unlock (c : Nat)
  deriving DecidableEq, Repr

/-- coro.cxy 362-386 `lock`, `tryLock`, `unlock`; a waiter that is resumed has acquired the mutex. -/
def step (m : Mutex) : Op → Mutex
  | .lock c =>
    if m.holder = none then
      { m with holder := some c, inside := m.inside ++ [c], acquired := m.acquired ++ [c], asked := m.asked ++ [c] }
    else { m with waiting := m.waiting ++ [c], asked := m.asked ++ [c] }
  | .tryLock c =>
    if m.holder = none then
      { m with holder := some c, inside := m.inside ++ [c], acquired := m.acquired ++ [c], asked := m.asked ++ [c] }
    else m
  | .unlock c =>
    match m.waiting with
    | [] => { m with inside := m.inside.erase c }
    | n :: rest =>
      { m with waiting := rest, holder := some n, inside := m.inside.erase c ++ [n], acquired := m.acquired ++ [n] }

def run (m : Mutex) (ops : List Op) : Mutex := ops.foldl step m

/-- Proper use: only a coroutine inside unlocks (one that waits or is inside does not run `lock` again). -/
def Proper (m : Mutex) : List Op → Prop
  | [] => True
  | op :: ops => (match op with | .unlock c => c ∈ m.inside | _ => True) ∧ Proper (step m op) ops

/-- At most one coroutine is inside, it is the holder, and without a holder nobody is inside or waiting. -/
def Good (m : Mutex) : Prop :=
  m.acquired ++ m.waiting = m.asked ∧ m.inside.length ≤ 1 ∧ (∀ c ∈ m.inside, m.holder = some c) ∧
  (m.holder = none → m.inside = [] ∧ m.waiting = [])

theorem single {c : Nat} : ∀ {l : List Nat}, l.length ≤ 1 → c ∈ l → l = [c]
  | [], _, h => by simp at h
  | [x], _, h => by simp at h; rw [h]
  | _ :: _ :: _, h, _ => by simp at h

theorem step_good (m : Mutex) (op : Op) (h : Good m) (hp : match op with | .unlock c => c ∈ m.inside | _ => True) : Good (step m op) := by
  obtain ⟨h1, h2, h3, h4⟩ := h
  cases op with
  | lock c =>
    simp only [step]
    split
    · rename_i hn
      obtain ⟨a, b⟩ := h4 hn
      rw [b, List.append_nil] at h1
      refine ⟨by simp [b, h1], by simp [a], by simp [a], fun h => by cases h⟩
    · rename_i hn
      refine ⟨by rw [← h1]; simp, h2, h3, fun h => absurd h hn⟩
  | tryLock c =>
    simp only [step]
    split
    · rename_i hn
      obtain ⟨a, b⟩ := h4 hn
      rw [b, List.append_nil] at h1
      refine ⟨by simp [b, h1], by simp [a], by simp [a], fun h => by cases h⟩
    · exact ⟨h1, h2, h3, h4⟩
  | unlock c =>
    simp only at hp
    have hin : m.inside = [c] := single h2 hp
    simp only [step]
    cases hw : m.waiting with
    | nil =>
      refine ⟨by rw [hw] at h1; simpa [hw] using h1, by simp [hin], by simp [hin], fun h => ⟨by simp [hin], by simp [hw]⟩⟩
    | cons n rest =>
      rw [hw] at h1
      refine ⟨by simpa using h1, by simp [hin], by simp [hin], fun h => by cases h⟩

theorem run_good : ∀ (ops : List Op) (m : Mutex), Good m → Proper m ops → Good (run m ops)
  | [], m, h, _ => h
  | op :: ops, m, h, hp => run_good ops (step m op) (step_good m op h hp.1) hp.2

/-- **C42 (partial).** For every schedule in which only the coroutine inside unlocks: at most one coroutine is inside, and the
coroutines acquire the mutex in the order in which they asked for it.  Missing: a mutex that was released with nobody
waiting cannot be locked again (`released_stays_locked`). -/
theorem mutex_partial (ops : List Op) (hp : Proper Mutex.new ops) :
    (run Mutex.new ops).inside.length ≤ 1 ∧
    (run Mutex.new ops).acquired ++ (run Mutex.new ops).waiting = (run Mutex.new ops).asked := by
  have := run_good ops Mutex.new ⟨rfl, by simp [Mutex.new], by simp [Mutex.new], fun _ => ⟨rfl, rfl⟩⟩ hp
  exact ⟨this.2.1, this.1⟩

/-- When a holder releases and somebody waits, the one waiting longest is inside. -/
theorem handover (ops : List Op) (hp : Proper Mutex.new ops) (c n : Nat) (rest : List Nat)
    (hc : c ∈ (run Mutex.new ops).inside) (hw : (run Mutex.new ops).waiting = n :: rest) :
    (step (run Mutex.new ops) (.unlock c)).inside = [n] := by
  have hg := run_good ops Mutex.new ⟨rfl, by simp [Mutex.new], by simp [Mutex.new], fun _ => ⟨rfl, rfl⟩⟩ hp
  have hin : (run Mutex.new ops).inside = [c] := single hg.2.1 hc
  simp [step, hw, hin]

/-- **C42 fails**: after the holder releases with nobody waiting, nobody ever gets inside again, whatever happens. -/
theorem released_stays_locked (m : Mutex) (hg : Good m) (c : Nat) (hc : c ∈ m.inside) (hw : m.waiting = []) :
    ∀ ops : List Op, Proper (step m (.unlock c)) ops →
      (run (step m (.unlock c)) ops).inside = [] ∧ (run (step m (.unlock c)) ops).acquired = m.acquired := by
  have key : ∀ (ops : List Op) (m : Mutex), m.holder ≠ none → m.inside = [] → Proper m ops →
      (run m ops).inside = [] ∧ (run m ops).acquired = m.acquired := by
    intro ops
    induction ops with
    | nil => intro m _ hi _; exact ⟨hi, rfl⟩
    | cons op ops ih =>
      intro m hh hi hp
      cases op with
      | lock d =>
        have : step m (.lock d) = { m with waiting := m.waiting ++ [d], asked := m.asked ++ [d] } := by simp [step, hh]
        have h2 := ih (step m (.lock d)) (by rw [this]; exact hh) (by rw [this]; exact hi) hp.2
        refine ⟨h2.1, ?_⟩
        rw [show run m (.lock d :: ops) = run (step m (.lock d)) ops from rfl, h2.2, this]
      | tryLock d =>
        have : step m (.tryLock d) = m := by simp [step, hh]
        have h2 := ih (step m (.tryLock d)) (by rw [this]; exact hh) (by rw [this]; exact hi) hp.2
        refine ⟨h2.1, ?_⟩
        rw [show run m (.tryLock d :: ops) = run (step m (.tryLock d)) ops from rfl, h2.2, this]
      | unlock d =>
        have := hp.1
        simp [hi] at this
  intro ops hp
  have hin : m.inside = [c] := single hg.2.1 hc
  have hs : step m (.unlock c) = { m with inside := [] } := by simp [step, hw, hin]
  rw [hs] at hp ⊢
  have hh : m.holder ≠ none := by rw [hg.2.2.1 c hc]; simp
  exact key ops { m with inside := [] } hh rfl hp

example : run Mutex.new [.lock 1, .lock 2, .lock 3, .unlock 1] = ⟨some 2, [3], [2], [1, 2], [1, 2, 3]⟩ ∧
    run Mutex.new [.lock 1, .unlock 1, .lock 1] = ⟨some 1, [1], [], [1], [1, 1]⟩ := by decide

/-! ## The stack cache (coro.cxy 141-172, 254-275) -/

/-- The stacks in use, the cached ones, and (ghost) everything mapped and not unmapped; `lost` are mapped stacks that are
neither in use nor cached. -/
structure Stacks where
  inUse : List Nat
  cache : List Nat
  lost : List Nat
  deriving DecidableEq, Repr

/-- Everything that is mapped. -/
def Stacks.mapped (s : Stacks) : List Nat := s.inUse ++ s.cache ++ s.lost

inductive SOp where
  /-- A coroutine starts; `fresh` is the address `mmap` would give. -/
  | start (fresh : Nat)
  | finish (stack : Nat)
  deriving DecidableEq, Repr

/-- coro.cxy 115 `MAX_CACHED_STACKS` -/
def maxCached : Nat := 32

/-- coro.cxy 141-159 `allocStack` and 161-172 `freeStack` -/
def sstep (s : Stacks) : SOp → Stacks
  | .start fresh =>
    match s.cache with
    | b :: rest => { s with inUse := b :: s.inUse, cache := rest }
    | [] => { s with inUse := fresh :: s.inUse }
  | .finish b =>
    if s.cache.length ≥ maxCached then
      -- the oldest cached stack is unmapped; the returned one is neither cached nor unmapped
      { s with inUse := s.inUse.erase b, cache := s.cache.tail, lost := b :: s.lost }
    else { s with inUse := s.inUse.erase b, cache := s.cache ++ [b] }

def srun (s : Stacks) (ops : List SOp) : Stacks := ops.foldl sstep s

/-- Coroutines finish once, and `mmap` gives addresses that are not mapped. -/
def SProper (s : Stacks) : List SOp → Prop
  | [] => True
  | op :: ops => (match op with | .start f => f ∉ s.mapped | .finish b => b ∈ s.inUse) ∧ SProper (sstep s op) ops

/-- How many finishing coroutines found a full cache. -/
def overflows (s : Stacks) : List SOp → Nat
  | [] => 0
  | op :: ops => (match op with | .finish _ => if s.cache.length ≥ maxCached then 1 else 0 | _ => 0) + overflows (sstep s op) ops

theorem sstep_nodup (s : Stacks) (op : SOp) (h : s.mapped.Nodup) (hp : match op with | .start f => f ∉ s.mapped | .finish b => b ∈ s.inUse) :
    (sstep s op).mapped.Nodup := by
  have perm_erase : ∀ b ∈ s.inUse, s.inUse.Perm (b :: s.inUse.erase b) := fun b hb => List.perm_cons_erase hb
  cases op with
  | start f =>
    cases hc : s.cache with
    | nil =>
      simp only [sstep, hc, Stacks.mapped, List.append_nil] at h hp ⊢
      rw [List.cons_append]
      exact List.nodup_cons.mpr ⟨hp, h⟩
    | cons b rest =>
      simp only [sstep, hc, Stacks.mapped] at h ⊢
      refine (List.Perm.nodup_iff ?_).mp h
      rw [List.cons_append, List.cons_append]
      have : (s.inUse ++ b :: rest).Perm (b :: (s.inUse ++ rest)) := List.perm_middle
      exact (this.append_right s.lost)
  | finish b =>
    simp only at hp
    have hpe := perm_erase b hp
    simp only [sstep]
    split
    · simp only [Stacks.mapped] at h ⊢
      have h1 : (s.inUse ++ s.cache ++ s.lost).Perm ((b :: s.inUse.erase b) ++ s.cache ++ s.lost) := (hpe.append_right _).append_right _
      have h2 := (List.Perm.nodup_iff h1).mp h
      have h3 : ((b :: s.inUse.erase b) ++ s.cache ++ s.lost).Perm (s.inUse.erase b ++ s.cache ++ b :: s.lost) := by
        rw [List.cons_append, List.cons_append]
        exact List.perm_middle.symm
      have h4 := (List.Perm.nodup_iff h3).mp h2
      refine h4.sublist ?_
      exact (((List.Sublist.refl _).append (List.tail_sublist _)).append (List.Sublist.refl _))
    · simp only [Stacks.mapped] at h ⊢
      have h1 : (s.inUse ++ s.cache ++ s.lost).Perm ((b :: s.inUse.erase b) ++ s.cache ++ s.lost) := (hpe.append_right _).append_right _
      refine (List.Perm.nodup_iff ?_).mp h
      refine h1.trans ?_
      rw [List.cons_append]
      refine List.Perm.append_right _ ?_
      rw [← List.append_assoc]
      exact (List.perm_append_singleton _ _).symm

theorem srun_nodup : ∀ (ops : List SOp) (s : Stacks), s.mapped.Nodup → SProper s ops → (srun s ops).mapped.Nodup
  | [], s, h, _ => h
  | op :: ops, s, h, hp => srun_nodup ops (sstep s op) (sstep_nodup s op h hp.1) hp.2

theorem srun_lost : ∀ (ops : List SOp) (s : Stacks), (srun s ops).lost.length = s.lost.length + overflows s ops
  | [], s => by simp [srun, overflows]
  | op :: ops, s => by
    have ih := srun_lost ops (sstep s op)
    rw [show srun s (op :: ops) = srun (sstep s op) ops from rfl, ih]
    cases op with
    | start f =>
      have : (sstep s (.start f)).lost = s.lost := by simp only [sstep]; split <;> rfl
      simp only [overflows, this]; omega
    | finish b =>
      by_cases hc : s.cache.length ≥ maxCached
      · have : (sstep s (.finish b)).lost = b :: s.lost := by simp [sstep, hc]
        simp only [overflows, this, if_pos hc, List.length_cons]; omega
      · have : (sstep s (.finish b)).lost = s.lost := by simp [sstep, hc]
        simp only [overflows, this, if_neg hc]; omega

theorem srun_cache : ∀ (ops : List SOp) (s : Stacks), s.cache.length ≤ maxCached → (srun s ops).cache.length ≤ maxCached
  | [], s, h => h
  | op :: ops, s, h => by
    refine srun_cache ops (sstep s op) ?_
    cases op with
    | start f =>
      simp only [sstep]
      split
      · rename_i b rest hc; rw [hc] at h; simp at h ⊢; omega
      · rename_i hc; simp [hc]
    | finish b =>
      simp only [sstep]
      split
      · simp; omega
      · simp; omega

/-- **C43 (partial).** For every history of starts and finishes: no stack is both in use and in the cache or in either twice, the
cache never exceeds its limit, and the stacks that are mapped but neither in use nor cached are exactly as many as
coroutines that finished while the cache was full.  Missing: there should be none of them (`full_cache_leaks`). -/
theorem stack_cache_partial (ops : List SOp) (hp : SProper ⟨[], [], []⟩ ops) :
    let s := srun ⟨[], [], []⟩ ops
    s.mapped.Nodup ∧ s.cache.length ≤ maxCached ∧ s.lost.length = overflows ⟨[], [], []⟩ ops := by
  refine ⟨srun_nodup ops _ (by simp [Stacks.mapped]) hp, srun_cache ops _ (by simp), ?_⟩
  have := srun_lost ops ⟨[], [], []⟩
  simpa using this

/-- **C43 fails**: whenever a coroutine finishes while the cache is full, its stack is lost - neither cached nor unmapped -
and stays so for ever. -/
theorem full_cache_leaks (s : Stacks) (b : Nat) (hf : s.cache.length = maxCached) :
    b ∈ (sstep s (.finish b)).lost ∧ ∀ ops, b ∈ (srun (sstep s (.finish b)) ops).lost := by
  have h1 : b ∈ (sstep s (.finish b)).lost := by simp [sstep, hf]
  refine ⟨h1, ?_⟩
  intro ops
  generalize sstep s (.finish b) = t at h1
  induction ops generalizing t with
  | nil => exact h1
  | cons op ops ih =>
    refine ih (sstep t op) ?_
    cases op with
    | start f => simp only [sstep]; split <;> exact h1
    | finish c => simp only [sstep]; split <;> simp [h1]

/-- Starting 33 coroutines and finishing them all loses one stack. -/
example : (srun ⟨[], [], []⟩ ((List.range 33).map SOp.start ++ (List.range 33).map SOp.finish)).lost = [32] := by decide +kernel

end Verif.Coro
