import Verif.Std.EvLoop.Props
/-!
# What the scheduler does outside of `Proper`

All programs here have the main coroutine 1 and a second one, 2.
-/
namespace Verif.EvLoop

def input : Ev := ⟨true, false, false, false⟩
def output : Ev := ⟨false, true, false, false⟩
def hangUp : Ev := ⟨false, false, false, true⟩

/-- Both coroutines take turns: the second starts, and sleeps for `ms`; the first waits for `fd`. -/
abbrev sleeperAndReader (fd ms : Nat) (t1 t2 : Int) : List Event :=
  [.act (.spawn 2) t1, .act (.sleep ms) t1, .switch, .act (.wait fd false 0) t2]

/-- With no timers and no events a poll finds nothing. -/
theorem quiet_poll {f : Nat} {s : Sys} (hh : s.loop.head = none) {p : Poll} (hp : p.fired = []) :
    ∃ s', step f s (.poll p) = .ok s' ∧ s'.loop.head = none ∧ s'.ready = s.ready ∧ s'.log = s.log := by
  obtain ⟨⟨head, prev, next, due, tid, client, mask, freed, nextId, nextHeap, last⟩, ready, running, counter, phase, flag, result, pending, log⟩ := s
  simp only at hh
  subst hh
  simp only [step, poll, process, hp, fireAll, Res.bind_ok, timers]
  split <;> simp [hurry, pass, lift, resumeAll]

theorem quiet_polls {f : Nat} : ∀ (ps : List Poll) {s : Sys}, s.loop.head = none → s.ready.head = 0 → (∀ p ∈ ps, p.fired = []) →
    ∃ s', run f s (ps.map .poll) = .ok s' ∧ s'.ready.head = 0 ∧ s'.log = s.log
  | [], s, _, hr, _ => ⟨s, rfl, hr, rfl⟩
  | p :: ps, s, hh, hr, hp => by
    obtain ⟨s1, e1, h1, h2, h3⟩ := quiet_poll (f := f) hh (hp p (by simp))
    obtain ⟨s2, e2, h4, h5⟩ := quiet_polls ps h1 (by rw [h2]; exact hr) (fun x hx => hp x (by simp [hx]))
    exact ⟨s2, by rw [List.map_cons, run, e1]; exact e2, h4, h5.trans h3⟩

/-- Runs a program on paper. -/
syntax "simulate" "[" Lean.Parser.Tactic.simpLemma,* "]" : tactic
macro_rules
  | `(tactic| simulate [$ls,*]) => `(tactic|
      simp [run, step, act, poll, switch, start, create, resume, resumeAll, Verif.ListQ.push, Verif.ListQ.pop, Verif.ListQ.empty,
        setsize, createTimer, createFile, deleteFile, add, lift, process, fireAll, fireOne, unlink, timers, hurry, pass, upd, input,
        output, hangUp, Ev.mask, Mask.val, Mask.none, $ls,*])

/-- The records of descriptors are not cleared: if the one of `fd` holds a time, the first event of `fd` empties the list of
timers, and the sleeper is never woken, whatever the later polls see on the clock. -/
theorem junk_loses_sleeper {fd ms : Nat} (hfd : fd < 1024) (hms : ms > 0) (t0 t1 t2 : Int) (due : Node → Tm)
    (hd : (due (.fd fd)).sec > 0 ∨ (due (.fd fd)).ms > 0) (prev next : Node → Option Node)
    (hp : prev (.fd fd) = none) (hn : next (.fd fd) = none) (p : Poll) (hf : p.fired = [(fd, input)]) (f : Nat) :
    ∃ s, run f (start 1 t0 due prev next) (sleeperAndReader fd ms t1 t2 ++ [.poll p, .switch, .act .park t2]) = .ok s ∧
      ∀ ps : List Poll, (∀ p ∈ ps, p.fired = []) →
        ∃ s', run f s (ps.map .poll) = .ok s' ∧ s'.ready.head = 0 ∧ s'.log = [(1, none), (1, some 1)] := by
  have key : ∃ s, run f (start 1 t0 due prev next) (sleeperAndReader fd ms t1 t2 ++ [.poll p, .switch, .act .park t2]) = .ok s ∧
      s.loop.head = none ∧ s.ready.head = 0 ∧ s.log = [(1, none), (1, some 1)] := by
    by_cases hb : p.now / 1000 < t0 / 1000 <;> simulate [hms, hfd, hf, hp, hn, hd, hb]
  obtain ⟨s, e, h1, h2, h3⟩ := key
  refine ⟨s, e, fun ps hps => ?_⟩
  obtain ⟨s', e', h4, h5⟩ := quiet_polls (f := f) ps h1 h2 hps
  exact ⟨s', e', h4, h5.trans h3⟩

/-- The same without help of the memory: a wait with a timeout that an event ends leaves its time in the record. The next wait
for `fd`, without a timeout, then empties the list of timers, and the sleeper is never woken. -/
theorem ended_timeout_loses_sleeper {fd ms T : Nat} (hfd : fd < 1024) (hms : ms > 0) (hT : T > 0) (t0 t t1 t2 : Int) (ht : 0 ≤ t)
    (due : Node → Tm) (prev next : Node → Option Node)
    (p1 p2 : Poll) (hf1 : p1.fired = [(fd, input)]) (hf2 : p2.fired = [(fd, input)]) (f : Nat) :
    ∃ s, run f (start 1 t0 due prev next)
        ([.act (.wait fd false T) t, .poll p1, .switch] ++ sleeperAndReader fd ms t1 t2 ++ [.poll p2, .switch, .act .park t2]) = .ok s ∧
      ∀ ps : List Poll, (∀ p ∈ ps, p.fired = []) →
        ∃ s', run f s (ps.map .poll) = .ok s' ∧ s'.ready.head = 0 ∧ s'.log = [(1, some 1), (1, none), (1, some 1)] := by
  have hd : (after t T).sec > 0 ∨ (after t T).ms > 0 := after_pos ht hT
  have key : ∃ s, run f (start 1 t0 due prev next)
        ([.act (.wait fd false T) t, .poll p1, .switch] ++ sleeperAndReader fd ms t1 t2 ++ [.poll p2, .switch, .act .park t2]) = .ok s ∧
      s.loop.head = none ∧ s.ready.head = 0 ∧ s.log = [(1, some 1), (1, none), (1, some 1)] := by
    by_cases hb : p1.now / 1000 < t0 / 1000 <;> by_cases hb2 : p2.now / 1000 < p1.now / 1000 <;>
      simulate [hms, hfd, hT, hf1, hf2, hd, hb, hb2]
  obtain ⟨s, e, h1, h2, h3⟩ := key
  refine ⟨s, e, fun ps hps => ?_⟩
  obtain ⟨s', e', h4, h5⟩ := quiet_polls (f := f) ps h1 h2 hps
  exact ⟨s', e', h4, h5.trans h3⟩

/-- A record that is registered for reading and is in no list. -/
structure Hung (fd : Nat) (s : Sys) : Prop where
  head : s.loop.head = none
  prev : s.loop.prev (.fd fd) = none
  next : s.loop.next (.fd fd) = none
  mask : s.loop.mask fd = ⟨true, false⟩
  ready : s.ready.head = 0
  log : s.log = []

theorem hung_poll {fd f : Nat} {s : Sys} (h : Hung fd s) {p : Poll} (hp : p.fired = [] ∨ p.fired = [(fd, hangUp)]) :
    ∃ s', step f s (.poll p) = .ok s' ∧ Hung fd s' := by
  obtain ⟨⟨head, prev, next, due, tid, client, mask, freed, nextId, nextHeap, last⟩, ready, running, counter, phase, flag, result, pending, log⟩ := s
  obtain ⟨h1, h2, h3, h4, h5, h6⟩ := h
  simp only at h1 h2 h3 h4 h5 h6
  subst h1 h6
  rcases hp with hp | hp
  · by_cases hb : p.now / 1000 < last
    · simulate [hp, hb]; exact ⟨rfl, h2, h3, h4, h5, rfl⟩
    · simulate [hp, hb]; exact ⟨rfl, h2, h3, h4, h5, rfl⟩
  · by_cases hd : (due (.fd fd)).sec > 0 ∨ (due (.fd fd)).ms > 0
    · by_cases hb : p.now / 1000 < last
      · simulate [hp, hb, hd, h2, h3, h4]; exact ⟨rfl, h2, h3, h4, h5, rfl⟩
      · simulate [hp, hb, hd, h2, h3, h4]; exact ⟨rfl, h2, h3, h4, h5, rfl⟩
    · by_cases hb : p.now / 1000 < last
      · simulate [hp, hb, hd, h2, h3, h4]; exact ⟨rfl, h2, h3, h4, h5, rfl⟩
      · simulate [hp, hb, hd, h2, h3, h4]; exact ⟨rfl, h2, h3, h4, h5, rfl⟩

theorem hung_polls {fd f : Nat} : ∀ (ps : List Poll) {s : Sys}, Hung fd s → (∀ p ∈ ps, p.fired = [] ∨ p.fired = [(fd, hangUp)]) →
    ∃ s', run f s (ps.map .poll) = .ok s' ∧ Hung fd s'
  | [], s, h, _ => ⟨s, rfl, h⟩
  | p :: ps, s, h, hp => by
    obtain ⟨s1, e1, h1⟩ := hung_poll (f := f) h (hp p (by simp))
    obtain ⟨s2, e2, h2⟩ := hung_polls ps h1 (fun x hx => hp x (by simp [hx]))
    exact ⟨s2, by rw [List.map_cons, run, e1]; exact e2, h2⟩

/-- The other end hangs up: the event is none that a reader waits for, so it is not resumed, but its timeout is taken away. It
waits for ever, however late it gets and however often the event is reported. -/
theorem hang_up_loses_timeout {fd T : Nat} (hfd : fd < 1024) (hT : T > 0) (t0 t : Int) (ht : 0 ≤ t)
    (due : Node → Tm) (prev next : Node → Option Node) (p : Poll) (hf : p.fired = [(fd, hangUp)]) (ps : List Poll)
    (hps : ∀ p ∈ ps, p.fired = [] ∨ p.fired = [(fd, hangUp)]) (f : Nat) :
    ∃ s, run f (start 1 t0 due prev next) ([.act (.wait fd false T) t, .poll p] ++ ps.map .poll) = .ok s ∧ s.ready.head = 0 ∧ s.log = [] := by
  have hd : (after t T).sec > 0 ∨ (after t T).ms > 0 := after_pos ht hT
  have key : ∃ s, run f (start 1 t0 due prev next) [.act (.wait fd false T) t, .poll p] = .ok s ∧ Hung fd s := by
    by_cases hb : p.now / 1000 < t0 / 1000
    · simulate [hfd, hT, hf, hd, hb]; exact ⟨rfl, by simp, by simp, by simp [upd], rfl, rfl⟩
    · simulate [hfd, hT, hf, hd, hb]; exact ⟨rfl, by simp, by simp, by simp [upd], rfl, rfl⟩
  obtain ⟨s, e, h⟩ := key
  obtain ⟨s', e', h'⟩ := hung_polls (f := f) ps h hps
  exact ⟨s', by rw [run_append, e]; exact e', h'.ready, h'.log⟩

/-- One coroutine reads from a descriptor and another writes to it: the record keeps the latest of them only, so the input of the
reader cuts short a sleep of the writer, and the reader goes on waiting. -/
theorem second_waiter_takes_events {fd ms : Nat} (hfd : fd < 1024) (hms : ms > 0) (t0 t1 t2 t3 : Int) (due : Node → Tm)
    (hd : due (.fd fd) = ⟨0, 0⟩) (prev next : Node → Option Node) (p1 p2 : Poll)
    (hf1 : p1.fired = [(fd, output)]) (hf2 : p2.fired = [(fd, input)]) (hc : p2.clk 1 < t3 + ms) (h1 : t0 ≤ p1.now) (h2 : p1.now ≤ p2.now)
    (f : Nat) :
    ∃ s, run (f + 1) (start 1 t0 due prev next)
        [.act (.spawn 2) t1, .act (.wait fd false 0) t1, .switch, .act (.wait fd true 0) t2, .poll p1, .switch,
         .act (.sleep ms) t3, .poll p2, .switch] = .ok s ∧
      s.log = [(1, none), (1, some 2), (1, none)] ∧ s.pending 2 = some (fd, false) ∧ s.running = 1 := by
  have hdue : isDue (p2.clk 1) (after t3 ms) = false := by
    rw [isDue_iff (after_small t3 ms), after_val]
    simp; omega
  have hb1 : ¬ p1.now / 1000 < t0 / 1000 := by omega
  have hb2 : ¬ p2.now / 1000 < p1.now / 1000 := by omega
  simulate [hms, hfd, hf1, hf2, hd, hb1, hb2, hdue]

/-- The clock is set back by a second or more: every sleep is over at once. -/
theorem clock_set_back_ends_sleep {ms : Nat} (hms : ms > 0) (t : Int) (due : Node → Tm) (prev next : Node → Option Node) (p : Poll)
    (hf : p.fired = []) (hb : p.now / 1000 < t / 1000) (hc : 1000 ≤ p.clk 1) (f : Nat) :
    ∃ s, run (f + 1) (start 1 t due prev next) [.act (.sleep ms) t, .poll p, .switch] = .ok s ∧ s.log = [(1, none)] := by
  have hdue : ∀ m, isDue (p.clk 1) ⟨0, m⟩ = true := by
    intro m; simp [isDue]; omega
  simulate [hms, hf, hb, hdue]

/-! ## Reported again -/

/-- The kernel reports a descriptor for as long as it is watched, and it is watched until the coroutine that waited for it runs.
If it is reported while that coroutine is in the list of the ready ones, and not the last there, the poll fails: the assertion in `push` aborts the program. -/
theorem reported_again_fails {s : Sys} {q : List Nat} (hq : Verif.ListQ.Holds s.ready q) {fd : Nat} {w : Bool} {e : Ev} {rest : List (Nat × Ev)}
    (hm : s.loop.mask fd = ⟨!w, w⟩) (hc : s.loop.client (.fd fd) ∈ q.dropLast) (he : (if w then e.mask.w else e.mask.r) = true)
    (hd : s.loop.due (.fd fd) = ⟨0, 0⟩) (p : Poll) (hf : p.fired = (fd, e) :: rest) (f : Nat) :
    (∃ s', poll f s p = .ok s') → False := by
  rintro ⟨s', h⟩
  have hpush : Verif.ListQ.push s.ready (s.loop.client (.fd fd)) = none := by
    exact Verif.ListQ.pushing_member_fails_partial s.ready q hq _ hc
  have hhit : (((s.loop.mask fd).r && e.mask.r) || ((s.loop.mask fd).w && e.mask.w)) = true := by
    rw [hm]; cases w <;> simp at he ⊢ <;> exact he
  unfold poll process at h
  rw [hf, fireAll] at h
  simp only [fireOne, hd] at h
  simp only [gt_iff_lt, Int.lt_irrefl, or_self, if_false, Res.map_ok, Res.bind_ok, hhit, if_true] at h
  cases e1 : fireAll s.loop rest with
  | ok y =>
    rw [e1] at h
    simp only [Res.map_ok, Res.bind_ok] at h
    cases e2 : timers f y.1 p with
    | ok z =>
      rw [e2] at h
      simp [lift, resumeAll, resume, hpush] at h
    | ub => rw [e2] at h; cases h
    | diverge => rw [e2] at h; cases h
  | ub => rw [e1] at h; cases h
  | diverge => rw [e1] at h; cases h

instance (s : Sys) (e : Event) : Decidable (Turn s e) := by
  cases e <;> unfold Turn <;> infer_instance

/-- Is it always the turn of the event? -/
def obeys (f : Nat) (s : Sys) : List Event → Bool
  | [] => true
  | e :: es => decide (Turn s e) && (match step f s e with | .ok s' => obeys f s' es | _ => true)

def idlePoll (fired : List (Nat × Ev)) : Event := .poll ⟨fired, 0, fun _ => 0⟩

/-- Coroutine 2 waits for descriptor 5; 1 and 3 to 210 are always ready. There is input after 102 switches, and it is still there
103 switches later. -/
def busy : List Event :=
  [.act (.spawn 2) 0, .act (.wait 5 false 0) 0, .switch] ++ (List.range 208).map (fun k => .act (.spawn (k + 3)) 0) ++
  (List.replicate 102 [.act .yield 0, .switch]).flatten ++ [.act .yield 0, idlePoll [(5, input)], .switch] ++
  (List.replicate 102 [.act .yield 0, .switch]).flatten ++ [.act .yield 0]

def Out.isAbort {α : Type} : Out α → Bool
  | .abort => true
  | _ => false

/-- A busy program aborts, though all it does is to wait for input and to yield. -/
theorem busy_program_aborts :
    obeys 1 (start 1 0 (fun _ => ⟨0, 0⟩) (fun _ => none) (fun _ => none)) (busy ++ [idlePoll [(5, input)]]) = true ∧
    Out.isAbort (run 1 (start 1 0 (fun _ => ⟨0, 0⟩) (fun _ => none) (fun _ => none)) (busy ++ [idlePoll [(5, input)]])) = true := by
  constructor <;> decide +kernel

/-! ## An execution that the theorems are about -/

/-- Coroutine 2 sleeps for 5 ms, the main one waits for descriptor 3 with a timeout and gets input; the sleeper wakes; the main
one waits again and its timeout passes. -/
def demo : List Event :=
  [.act (.spawn 2) 1000, .act (.sleep 5) 1000, .switch, .act (.wait 3 false 100) 1001, .poll ⟨[(3, input)], 1002, fun _ => 1002⟩,
   .switch, .act (.wait 3 false 50) 1003, .poll ⟨[], 1006, fun _ => 1006⟩, .switch, .act .park 1006, .poll ⟨[], 1060, fun _ => 1060⟩,
   .switch, .act (.wake 2) 1060, .act .yield 1060, .switch]

theorem demo_allowed : Allowed 20 (start 1 1000 (fun _ => ⟨0, 0⟩) (fun _ => none) (fun _ => none)) (Spec.start 1 1000) demo := by
  simp [Allowed, demo, Turn, Proper, Spec.start, Spec.step, Spec.act, Spec.poll, Spec.fireAll, Spec.fire, Spec.expire, Spec.switch, late,
    Status.deadline, Status.expired, step, act, poll, switch, start, create, resume, resumeAll, Verif.ListQ.push, Verif.ListQ.pop,
    Verif.ListQ.empty, setsize, createTimer, createFile, deleteFile, add, lift, process, fireAll, fireOne, unlink, timers, pass, upd,
    input, Ev.mask, Mask.val, Mask.none, after, isDue, timedOut, set]

example : ((Spec.start 1 1000).run demo).log = [(1, none), (1, some 1), (2, none), (1, some 4), (2, none)] := by decide

example : ∃ s, run 20 (start 1 1000 (fun _ => ⟨0, 0⟩) (fun _ => none) (fun _ => none)) demo = .ok s ∧
    s.log = [(1, none), (1, some 1), (2, none), (1, some 4), (2, none)] := by
  obtain ⟨s, e, h, _⟩ := scheduler_refines_partial (main := 1) (by decide) 1000 (fun _ => rfl) (fun _ => none) (fun _ => none)
    (es := demo) (f := 20) (by decide) demo_allowed
  exact ⟨s, e, h.trans (by decide)⟩

end Verif.EvLoop
