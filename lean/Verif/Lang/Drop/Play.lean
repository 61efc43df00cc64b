import Verif.Lang.Drop.Model
/-! Following one execution: an interpreter that is told how conditions turn out. -/
namespace Verif.Drop

/-- Runs `k`; the list says which way conditions go (0: not taken or no case, n+1: taken or case n). -/
def play : Nat → List Nat → Code → Mem → Option (Outcome × Mem × List Nat)
  | 0, _, _, _ => none
  | _ + 1, cs, .skip, m => some (.norm, m, cs)
  | n + 1, cs, .seq a b, m =>
    match play n cs a m with
    | some (.norm, m', cs') => play n cs' b m'
    | r => r
  | _ + 1, cs, .act a, m =>
    match act m a with
    | some m' => some (.norm, m', cs)
    | none => some (.bad, m, cs)
  | _ + 1, cs, .exit false, m => some (.ret, m, cs)
  | _ + 1, cs, .exit true, m =>
    match retire .given m m.ret with
    | some m' => some (.ret, m', cs)
    | none => some (.bad, m, cs)
  | _ + 1, cs, .brk, m => some (.brk, m, cs)
  | _ + 1, cs, .cont, m => some (.cont, m, cs)
  | n + 1, cs, .block _ s, m => play n cs s m
  | n + 1, cs, .ite us _ s _ s', m =>
    match us.all (readable m), cs with
    | false, cs => some (.bad, m, cs)
    | true, [] => none
    | true, 0 :: cs => play n cs s' m
    | true, (_ + 1) :: cs => play n cs s m
  | n + 1, cs, .loop us b s, m =>
    match us.all (readable m), cs with
    | false, cs => some (.bad, m, cs)
    | true, [] => none
    | true, 0 :: cs => some (.norm, m, cs)
    | true, (_ + 1) :: cs =>
      match play n cs s m with
      | some (.norm, m', cs') => play n cs' (.loop us b s) m'
      | some (.cont, m', cs') => play n cs' (.loop us b s) m'
      | some (.brk, m', cs') => some (.norm, m', cs')
      | r => r
  | n + 1, cs, .switch us ks, m =>
    match us.all (readable m), cs with
    | false, cs => some (.bad, m, cs)
    | true, [] => none
    | true, 0 :: cs => some (.norm, m, cs)
    | true, (i + 1) :: cs =>
      match ks.bodies[i]? with
      | some k => play n cs k m
      | none => none

/-- What is played is an execution. -/
theorem play_exec : ∀ (n : Nat) (cs : List Nat) (k : Code) (m : Mem) (o : Outcome) (m' : Mem) (cs' : List Nat),
    play n cs k m = some (o, m', cs') → Exec k m o m'
  | 0, cs, k, m, o, m', cs', h => by simp [play] at h
  | n + 1, cs, k, m, o, m', cs', h => by
    cases k with
    | skip => simp only [play, Option.some.injEq, Prod.mk.injEq] at h; obtain ⟨rfl, rfl, -⟩ := h; exact .skip
    | seq a b =>
      simp only [play] at h
      cases hr : play n cs a m with
      | none => rw [hr] at h; cases h
      | some r =>
        obtain ⟨o1, m1, cs1⟩ := r
        have h1 := play_exec n cs a m o1 m1 cs1 hr
        rw [hr] at h
        cases o1 with
        | norm => exact .seq h1 (play_exec n cs1 b m1 o m' cs' h)
        | brk => simp only [Option.some.injEq, Prod.mk.injEq] at h; obtain ⟨rfl, rfl, -⟩ := h; exact .seqStop h1 (by decide)
        | cont => simp only [Option.some.injEq, Prod.mk.injEq] at h; obtain ⟨rfl, rfl, -⟩ := h; exact .seqStop h1 (by decide)
        | ret => simp only [Option.some.injEq, Prod.mk.injEq] at h; obtain ⟨rfl, rfl, -⟩ := h; exact .seqStop h1 (by decide)
        | bad => simp only [Option.some.injEq, Prod.mk.injEq] at h; obtain ⟨rfl, rfl, -⟩ := h; exact .seqStop h1 (by decide)
    | act a =>
      simp only [play] at h
      cases hr : act m a with
      | none => rw [hr] at h; simp only [Option.some.injEq, Prod.mk.injEq] at h; obtain ⟨rfl, rfl, -⟩ := h; exact .actBad hr
      | some m1 => rw [hr] at h; simp only [Option.some.injEq, Prod.mk.injEq] at h; obtain ⟨rfl, rfl, -⟩ := h; exact .act hr
    | exit v =>
      cases v with
      | false => simp only [play, Option.some.injEq, Prod.mk.injEq] at h; obtain ⟨rfl, rfl, -⟩ := h; exact .done
      | true =>
        simp only [play] at h
        cases hr : retire .given m m.ret with
        | none => rw [hr] at h; simp only [Option.some.injEq, Prod.mk.injEq] at h; obtain ⟨rfl, rfl, -⟩ := h; exact .exitBad hr
        | some m1 => rw [hr] at h; simp only [Option.some.injEq, Prod.mk.injEq] at h; obtain ⟨rfl, rfl, -⟩ := h; exact .exit hr
    | brk => simp only [play, Option.some.injEq, Prod.mk.injEq] at h; obtain ⟨rfl, rfl, -⟩ := h; exact .brk
    | cont => simp only [play, Option.some.injEq, Prod.mk.injEq] at h; obtain ⟨rfl, rfl, -⟩ := h; exact .cont
    | block b s => exact .block (play_exec n cs s m o m' cs' h)
    | ite us b s b' s' =>
      simp only [play] at h
      cases hu : us.all (readable m) with
      | false =>
        rw [hu] at h
        simp only [Option.some.injEq, Prod.mk.injEq] at h
        obtain ⟨rfl, rfl, -⟩ := h; exact .iteBad hu
      | true =>
        rw [hu] at h
        match cs, h with
        | 0 :: cs, h => exact .iteElse hu (play_exec n cs s' m o m' cs' h)
        | (_ + 1) :: cs, h => exact .iteThen hu (play_exec n cs s m o m' cs' h)
    | loop us b s =>
      simp only [play] at h
      cases hu : us.all (readable m) with
      | false =>
        rw [hu] at h
        simp only [Option.some.injEq, Prod.mk.injEq] at h
        obtain ⟨rfl, rfl, -⟩ := h; exact .loopBad hu
      | true =>
        rw [hu] at h
        match cs, h with
        | 0 :: cs, h =>
          simp only [Option.some.injEq, Prod.mk.injEq] at h
          obtain ⟨rfl, rfl, -⟩ := h; exact .loopEnd hu
        | (_ + 1) :: cs, h =>
          dsimp only at h
          cases hr : play n cs s m with
          | none => rw [hr] at h; cases h
          | some r =>
            obtain ⟨o1, m1, cs1⟩ := r
            have h1 := play_exec n cs s m o1 m1 cs1 hr
            rw [hr] at h
            cases o1 with
            | norm => exact .loopNext hu h1 (.inl rfl) (play_exec n cs1 _ m1 o m' cs' h)
            | cont => exact .loopNext hu h1 (.inr rfl) (play_exec n cs1 _ m1 o m' cs' h)
            | brk =>
              simp only [Option.some.injEq, Prod.mk.injEq] at h
              obtain ⟨rfl, rfl, -⟩ := h; exact .loopBreak hu h1
            | ret =>
              simp only [Option.some.injEq, Prod.mk.injEq] at h
              obtain ⟨rfl, rfl, -⟩ := h; exact .loopStop hu h1 (.inl rfl)
            | bad =>
              simp only [Option.some.injEq, Prod.mk.injEq] at h
              obtain ⟨rfl, rfl, -⟩ := h; exact .loopStop hu h1 (.inr rfl)
    | switch us ks =>
      simp only [play] at h
      cases hu : us.all (readable m) with
      | false =>
        rw [hu] at h
        simp only [Option.some.injEq, Prod.mk.injEq] at h
        obtain ⟨rfl, rfl, -⟩ := h; exact .switchBad hu
      | true =>
        rw [hu] at h
        match cs, h with
        | 0 :: cs, h =>
          simp only [Option.some.injEq, Prod.mk.injEq] at h
          obtain ⟨rfl, rfl, -⟩ := h; exact .switchNone hu
        | (i + 1) :: cs, h =>
          dsimp only at h
          cases hr : ks.bodies[i]? with
          | none => rw [hr] at h; cases h
          | some k =>
            rw [hr] at h
            exact .switchCase hu (List.mem_of_getElem? hr) (play_exec n cs k m o m' cs' h)

/-- If the play ends in an error, there is an execution that does. -/
theorem play_bad {n : Nat} {cs : List Nat} {k : Code} {m : Mem} (h : (play n cs k m).map (·.1) = some .bad) :
    ∃ m', Exec k m .bad m' := by
  cases hr : play n cs k m with
  | none => rw [hr] at h; cases h
  | some r =>
    rw [hr] at h
    obtain ⟨o, m', cs'⟩ := r
    simp only [Option.map_some, Option.some.injEq] at h
    subst h
    exact ⟨m', play_exec _ _ _ _ _ _ _ hr⟩

/-- If value `t` is alive when the play ends, there is an execution after which it is. -/
theorem play_leak {n : Nat} {cs : List Nat} {k : Code} {m : Mem} {o : Outcome} {t : Nat}
    (h : (play n cs k m).map (fun r => (r.1, r.2.1.life t)) = some (o, .live)) :
    ∃ m', Exec k m o m' ∧ m'.life t = .live := by
  cases hr : play n cs k m with
  | none => rw [hr] at h; cases h
  | some r =>
    rw [hr] at h
    obtain ⟨o', m', cs'⟩ := r
    simp only [Option.map_some, Option.some.injEq, Prod.mk.injEq] at h
    obtain ⟨rfl, h2⟩ := h
    exact ⟨m', play_exec _ _ _ _ _ _ _ hr, h2⟩

end Verif.Drop
