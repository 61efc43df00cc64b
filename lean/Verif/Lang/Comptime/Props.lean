import Verif.Lang.Comptime.Spec
/-!
# Unrolled code does what the source says
-/
namespace Verif.Comptime

def EqOn (Γ : List Nat) (σ τ : CEnv) : Prop := ∀ x, x ∈ Γ → σ x = τ x

theorem EqOn.upd {Γ : List Nat} {σ τ : CEnv} (h : EqOn Γ σ τ) (x : Nat) (v : Int) :
    EqOn (x :: Γ) (upd σ x v) (Comptime.upd τ x v) := by
  intro y hy
  simp only [Comptime.upd]
  by_cases hyx : y = x
  · simp [hyx]
  · simp only [hyx, if_false]
    exact h y (by simpa [hyx] using hy)

theorem EqOn.mono {Γ Δ : List Nat} {σ τ : CEnv} (h : EqOn Δ σ τ) (hs : ∀ x, x ∈ Γ → x ∈ Δ) :
    EqOn Γ σ τ := fun x hx => h x (hs x hx)

theorem EqOn.symm {Γ : List Nat} {σ τ : CEnv} (h : EqOn Γ σ τ) : EqOn Γ τ σ :=
  fun x hx => (h x hx).symm

theorem EqOn.trans {Γ : List Nat} {σ τ υ : CEnv} (h : EqOn Γ σ τ) (k : EqOn Γ τ υ) :
    EqOn Γ σ υ := fun x hx => (h x hx).trans (k x hx)

theorem evalCE_eq {Γ : List Nat} {σ τ : CEnv} (h : EqOn Γ σ τ) :
    ∀ e : CE, usesC Γ e → evalCE σ e = evalCE τ e
  | .lit _, _ => rfl
  | .var x, hu => h x hu
  | .bin f a b, hu => by
    simp only [evalCE, evalCE_eq h a hu.1, evalCE_eq h b hu.2]

theorem stageE_eval {Γ : List Nat} {σ τ : CEnv} (h : EqOn Γ σ τ) (ρ : REnv) :
    ∀ e : RE, usesR Γ e → evalTE ρ (stageE σ e) = evalRE τ ρ e
  | .lit _, _ => rfl
  | .rv _, _ => rfl
  | .ct e, hu => by simp only [stageE, evalTE, evalRE]; exact evalCE_eq h e hu
  | .bin f a b, hu => by
    simp only [stageE, evalTE, evalRE, stageE_eval h ρ a hu.1, stageE_eval h ρ b hu.2]

theorem mem_ext {Γ : List Nat} {x : Nat} (s : S) (h : x ∈ Γ) : x ∈ ext Γ s := by
  cases s <;> simp [ext, h]

/-! ## What a run-time branch leaves alone -/

theorem unroll_keeps {Γ A : List Nat} (keep : Bool) (x : Nat) (hx : x ∉ Γ)
    (body : CEnv → CEnv × Ts)
    (hb : ∀ σ y, y ∈ Γ → y ∉ A → (body σ).1 y = σ y) :
    ∀ (n : Nat) (i : Int) (σ : CEnv) (y : Nat), y ∈ Γ → y ∉ A →
      (unroll keep x body n i σ).1 y = σ y
  | 0, _, _, _, _, _ => rfl
  | n + 1, i, σ, y, hy, hya => by
    simp only [unroll]
    rw [unroll_keeps keep x hx body hb n (i + 1) _ y hy hya, hb _ y hy hya]
    have : y ≠ x := fun e => hx (e ▸ hy)
    simp [upd, this]

mutual
theorem stage_keeps {Γ A : List Nat} : ∀ (s : S) (σ : CEnv) (y : Nat), wf Γ A s →
    y ∈ Γ → y ∉ A → (stage σ s).1 y = σ y
  | .out _, _, _, _, _, _ => rfl
  | .decl _ _, _, _, _, _, _ => rfl
  | .set _ _, _, _, _, _, _ => rfl
  | .ifR c t e, σ, y, h, hy, ha => by
    simp only [wf] at h
    simp only [stage]
    rw [stages_keeps e _ y h.2.2 hy (by simp), stages_keeps t _ y h.2.1 hy (by simp)]
  | .ifRC _ _ _ _ _, _, _, h, _, _ => by simp [wf] at h
  | .whileR c b, σ, y, h, hy, ha => by
    simp only [wf] at h
    simp only [stage]
    exact stages_keeps b _ y h.2 hy (by simp)
  | .block b, σ, y, h, hy, ha => by
    simp only [wf] at h
    simp only [stage]
    exact stages_keeps b _ y h hy ha
  | .constC x e, σ, y, h, hy, ha => by
    simp only [wf] at h
    have : y ≠ x := fun e => h.2 (e ▸ hy)
    simp [stage, upd, this]
  | .setC x e, σ, y, h, hy, ha => by
    simp only [wf] at h
    have : y ≠ x := fun e => ha (e ▸ h.2.1)
    simp [stage, upd, this]
  | .opC x f e, σ, y, h, hy, ha => by
    simp only [wf] at h
    have : y ≠ x := fun e => ha (e ▸ h.2.1)
    simp [stage, upd, this]
  | .ifC k a b, σ, y, h, hy, ha => by
    simp only [wf] at h
    simp only [stage]
    split
    · exact stages_keeps a σ y h.2.1 hy ha
    · exact stages_keeps b σ y h.2.2 hy ha
  | .forC keep x lo hi b, σ, y, h, hy, ha => by
    simp only [wf] at h
    simp only [stage]
    refine unroll_keeps (A := A) keep x h.2.2.1 _ ?_ _ _ σ y hy ha
    intro τ z hz hza
    refine stages_keeps b τ z h.2.2.2 (List.mem_cons_of_mem _ hz) ?_
    intro hm
    rcases List.mem_cons.1 hm with he | hm
    · exact h.2.2.1 (he ▸ hz)
    · exact hza hm
theorem stages_keeps {Γ A : List Nat} : ∀ (ss : Ss) (σ : CEnv) (y : Nat), wfs Γ A ss →
    y ∈ Γ → y ∉ A → (stages σ ss).1 y = σ y
  | .nil, _, _, _, _, _ => rfl
  | .cons s ss, σ, y, h, hy, ha => by
    simp only [wfs] at h
    simp only [stages]
    have hna : y ∉ ext A s := by
      cases s <;> try exact ha
      case constC x e =>
        have h1 := h.1
        simp only [wf] at h1
        intro hm
        rcases List.mem_cons.1 hm with he | hm
        · exact h1.2 (he ▸ hy)
        · exact ha hm
    rw [stages_keeps ss _ y h.2 (mem_ext s hy) hna, stage_keeps s σ y h.1 hy ha]
end

/-! ## No open `else` in the emitted code -/

def T.plain : T → Prop
  | .dangling _ _ => False
  | _ => True

def Ts.plain : Ts → Prop
  | .nil => True
  | .cons t ts => t.plain ∧ ts.plain

theorem Ts.plain_app : ∀ {a b : Ts}, a.plain → b.plain → (a.app b).plain
  | .nil, _, _, hb => hb
  | .cons _ _, _, ha, hb => ⟨ha.1, Ts.plain_app ha.2 hb⟩

theorem Ts.app_nil : ∀ a : Ts, a.app .nil = a
  | .nil => rfl
  | .cons _ a => by simp [Ts.app, Ts.app_nil a]

theorem unroll_plain (keep : Bool) (x : Nat) (body : CEnv → CEnv × Ts)
    (hb : ∀ σ, (body σ).2.plain) :
    ∀ (n : Nat) (i : Int) (σ : CEnv), (unroll keep x body n i σ).2.plain
  | 0, _, _ => trivial
  | n + 1, i, σ => by
    simp only [unroll]
    refine Ts.plain_app ?_ (unroll_plain keep x body hb n _ _)
    cases keep
    · exact hb _
    · exact ⟨trivial, trivial⟩

mutual
theorem stage_plain {Γ A : List Nat} : ∀ (s : S) (σ : CEnv), wf Γ A s → (stage σ s).2.plain
  | .out _, _, _ => ⟨trivial, trivial⟩
  | .decl _ _, _, _ => ⟨trivial, trivial⟩
  | .set _ _, _, _ => ⟨trivial, trivial⟩
  | .ifR _ _ _, _, _ => ⟨trivial, trivial⟩
  | .ifRC _ _ _ _ _, _, h => by simp [wf] at h
  | .whileR _ _, _, _ => ⟨trivial, trivial⟩
  | .block _, _, _ => ⟨trivial, trivial⟩
  | .constC _ _, _, _ => trivial
  | .setC _ _, _, _ => trivial
  | .opC _ _ _, _, _ => trivial
  | .ifC k a b, σ, h => by
    simp only [wf] at h
    simp only [stage]
    split
    · exact stages_plain a σ h.2.1
    · exact stages_plain b σ h.2.2
  | .forC keep x lo hi b, σ, h => by
    simp only [wf] at h
    simp only [stage]
    exact unroll_plain keep x _ (fun τ => stages_plain b τ h.2.2.2) _ _ _
theorem stages_plain {Γ A : List Nat} : ∀ (ss : Ss) (σ : CEnv), wfs Γ A ss →
    (stages σ ss).2.plain
  | .nil, _, _ => trivial
  | .cons s ss, σ, h => by
    simp only [wfs] at h
    simp only [stages]
    exact Ts.plain_app (stage_plain s σ h.1) (stages_plain ss _ h.2)
end

theorem runTs_cons (n : Nat) (t : T) (ts : Ts) (s : St) (h : t.plain) :
    runTs n false (.cons t ts) s = (runT n t s).bind (runTs n false ts) := by
  cases t <;> first | exact h.elim | simp [runTs]

theorem runTs_one (n : Nat) (t : T) (s : St) (h : t.plain) :
    runTs n false (.cons t .nil) s = runT n t s := by
  rw [runTs_cons n t .nil s h]
  cases runT n t s <;> simp [runTs]

theorem runTs_app (n : Nat) : ∀ (a b : Ts) (s : St), a.plain →
    runTs n false (a.app b) s = (runTs n false a s).bind (runTs n false b)
  | .nil, b, s, _ => by simp [Ts.app, runTs]
  | .cons t a, b, s, h => by
    rw [Ts.app, runTs_cons n t _ s h.1, runTs_cons n t _ s h.1]
    cases hr : runT n t s with
    | none => simp
    | some s' => simp [runTs_app n a b s' h.2]

/-! ## The main induction -/

/-- The emitted code and the source agree: same observable result, and the
compile-time variables in scope have the values they have in the source. -/
def Agree (Γ : List Nat) (σ : CEnv) (emitted : Option St) (source : Option (CEnv × St)) : Prop :=
  emitted = source.map Prod.snd ∧ ∀ r, source = some r → EqOn Γ σ r.1

theorem ints_succ (lo : Int) (n : Nat) : ints lo (n + 1) = lo :: ints (lo + 1) n := by
  simp only [ints, List.range_succ_eq_map, List.map_cons, List.map_map]
  congr 1
  · simp
  · apply List.map_congr_left
    intro k _
    simp only [Function.comp]
    omega

theorem Agree.seq {Γ Δ : List Nat} {σ τ : CEnv} {r : Option St} {q : Option (CEnv × St)}
    {f : St → Option St} {g : CEnv × St → Option (CEnv × St)}
    (h : Agree Γ σ r q) (hf : ∀ υ s, EqOn Γ σ υ → Agree Δ τ (f s) (g (υ, s))) :
    Agree Δ τ (r.bind f) (q.bind g) := by
  obtain ⟨h1, h2⟩ := h
  subst h1
  cases q with
  | none => exact ⟨rfl, fun r hr => by simp at hr⟩
  | some p =>
    obtain ⟨υ, s⟩ := p
    exact hf υ s (h2 _ rfl)

theorem loop_agree {Γ : List Nat} {σ : CEnv} {c : TE} {d : RE} (hc : usesR Γ d)
    (hcd : c = stageE σ d) (f : St → Option St) (g : CEnv × St → Option (CEnv × St))
    (hf : ∀ υ s, EqOn Γ σ υ → Agree Γ σ (f s) (g (υ, s))) :
    ∀ (m : Nat) (υ : CEnv) (s : St), EqOn Γ σ υ →
      Agree Γ σ (loop (fun s => evalTE s.1 c != 0) f m s)
        (loop (fun s => evalRE s.1 s.2.1 d != 0) g m (υ, s))
  | 0, υ, s, hu => by
    have he : evalTE s.1 c = evalRE υ s.1 d := by rw [hcd]; exact stageE_eval hu _ d hc
    simp only [loop, he]
    by_cases h0 : evalRE υ s.1 d = 0
    · simp only [h0, bne_self_eq_false, Bool.false_eq_true, if_false]
      exact ⟨rfl, fun r hr => by cases hr; exact hu⟩
    · simp only [bne_iff_ne, ne_eq, h0, not_false_eq_true, if_true]
      exact ⟨rfl, fun r hr => by simp at hr⟩
  | m + 1, υ, s, hu => by
    have he : evalTE s.1 c = evalRE υ s.1 d := by rw [hcd]; exact stageE_eval hu _ d hc
    simp only [loop, he]
    by_cases h0 : evalRE υ s.1 d = 0
    · simp only [h0, bne_self_eq_false, Bool.false_eq_true, if_false]
      exact ⟨rfl, fun r hr => by cases hr; exact hu⟩
    · simp only [bne_iff_ne, ne_eq, h0, not_false_eq_true, if_true]
      exact (hf υ s hu).seq (fun υ' s' hu' => loop_agree hc hcd f g hf m υ' s' hu')

theorem unroll_agree {Γ : List Nat} (n : Nat) (keep : Bool) (x : Nat) (hx : x ∉ Γ)
    (body : CEnv → CEnv × Ts) (g : CEnv × St → Option (CEnv × St))
    (hp : ∀ σ, (body σ).2.plain)
    (hb : ∀ σ υ s, EqOn (x :: Γ) σ υ →
      Agree Γ (body σ).1 (runTs n false (body σ).2 s) (g (υ, s))) :
    ∀ (m : Nat) (i : Int) (σ υ : CEnv) (s : St), EqOn Γ σ υ →
      Agree Γ (unroll keep x body m i σ).1 (runTs n false (unroll keep x body m i σ).2 s)
        (each (fun i s => g (Comptime.upd s.1 x i, s.2)) (ints i m) (υ, s))
  | 0, i, σ, υ, s, hu => by
    simp only [unroll, runTs, ints, List.range_zero, List.map_nil, each]
    exact ⟨rfl, fun r hr => by cases hr; exact hu⟩
  | m + 1, i, σ, υ, s, hu => by
    rw [ints_succ]
    simp only [unroll, each]
    have hpl : (if keep then Ts.cons (.block (body (upd σ x i)).2) .nil
        else (body (upd σ x i)).2).plain := by
      cases keep
      · exact hp _
      · exact ⟨trivial, trivial⟩
    have hrun : runTs n false (if keep then Ts.cons (.block (body (upd σ x i)).2) .nil
        else (body (upd σ x i)).2) s = runTs n false (body (upd σ x i)).2 s := by
      cases keep
      · rfl
      · simp only [if_true]
        rw [runTs_one, runT]
        case h => trivial
    rw [runTs_app n _ _ s hpl, hrun]
    exact (hb (upd σ x i) (upd υ x i) s (hu.upd x i)).seq
      (fun υ' s' hu' => unroll_agree n keep x hx body g hp hb m (i + 1) _ υ' s' hu')

mutual
theorem stage_agree {Γ A : List Nat} (n : Nat) : ∀ (t : S) (σ υ : CEnv) (s : St), wf Γ A t →
    EqOn Γ σ υ →
    Agree (ext Γ t) (stage σ t).1 (runTs n false (stage σ t).2 s) (run n t (υ, s))
  | .out e, σ, υ, (ρ, o), h, hu => by
    simp only [wf] at h
    simp only [stage, run, ext]
    rw [runTs_one, runT, stageE_eval hu ρ e h]
    case h => trivial
    exact ⟨rfl, fun r hr => by cases hr; exact hu⟩
  | .decl x e, σ, υ, (ρ, o), h, hu => by
    simp only [wf] at h
    simp only [stage, run, ext]
    rw [runTs_one, runT, stageE_eval hu ρ e h]
    case h => trivial
    exact ⟨rfl, fun r hr => by cases hr; exact hu⟩
  | .set x e, σ, υ, (ρ, o), h, hu => by
    simp only [wf] at h
    simp only [stage, run, ext]
    rw [runTs_one, runT, stageE_eval hu ρ e h]
    case h => trivial
    exact ⟨rfl, fun r hr => by cases hr; exact hu⟩
  | .ifR c t e, σ, υ, s, h, hu => by
    simp only [wf] at h
    simp only [stage, run, ext]
    rw [runTs_one, runT, stageE_eval hu s.1 c h.1]
    case h => trivial
    have k1 : EqOn Γ (stages σ t).1 σ := fun y hy => stages_keeps t σ y h.2.1 hy (by simp)
    have k2 : EqOn Γ (stages (stages σ t).1 e).1 (stages σ t).1 :=
      fun y hy => stages_keeps e _ y h.2.2 hy (by simp)
    by_cases h0 : evalRE υ s.1 c ≠ 0
    · rw [if_pos h0, if_pos h0]
      obtain ⟨a1, a2⟩ := stages_agree n t σ υ s h.2.1 hu
      exact ⟨a1, fun r hr => k2.trans (a2 r hr)⟩
    · rw [if_neg h0, if_neg h0]
      exact stages_agree n e _ υ s h.2.2 (k1.trans hu)
  | .ifRC _ _ _ _ _, _, _, _, h, _ => by simp [wf] at h
  | .whileR c b, σ, υ, s, h, hu => by
    simp only [wf] at h
    simp only [stage, run, ext]
    rw [runTs_one, runT]
    case h => trivial
    have k1 : EqOn Γ (stages σ b).1 σ := fun y hy => stages_keeps b σ y h.2 hy (by simp)
    obtain ⟨a1, a2⟩ := loop_agree h.1 rfl (runTs n false (stages σ b).2) (runs n b)
      (fun υ' s' hu' => by
        obtain ⟨b1, b2⟩ := stages_agree n b σ υ' s' h.2 hu'
        exact ⟨b1, fun r hr => k1.symm.trans (b2 r hr)⟩) n υ s hu
    exact ⟨a1, fun r hr => k1.trans (a2 r hr)⟩
  | .block b, σ, υ, s, h, hu => by
    simp only [wf] at h
    simp only [stage, run, ext]
    rw [runTs_one, runT]
    case h => trivial
    exact stages_agree n b σ υ s h hu
  | .constC x e, σ, υ, s, h, hu => by
    simp only [wf] at h
    simp only [stage, run, ext, runTs]
    refine ⟨rfl, fun r hr => ?_⟩
    cases hr
    rw [evalCE_eq hu e h.1]
    exact hu.upd x _
  | .setC x e, σ, υ, s, h, hu => by
    simp only [wf] at h
    simp only [stage, run, ext, runTs]
    refine ⟨rfl, fun r hr => ?_⟩
    cases hr
    rw [evalCE_eq hu e h.1]
    exact (hu.upd x _).mono (fun y hy => List.mem_cons_of_mem _ hy)
  | .opC x f e, σ, υ, s, h, hu => by
    simp only [wf] at h
    simp only [stage, run, ext, runTs]
    refine ⟨rfl, fun r hr => ?_⟩
    cases hr
    rw [evalCE_eq hu e h.1, hu x h.2.2]
    exact (hu.upd x _).mono (fun y hy => List.mem_cons_of_mem _ hy)
  | .ifC k a b, σ, υ, s, h, hu => by
    simp only [wf] at h
    simp only [stage, run, ext]
    rw [evalCE_eq hu k h.1]
    by_cases h0 : evalCE υ k ≠ 0
    · rw [if_pos h0, if_pos h0]
      exact stages_agree n a σ υ s h.2.1 hu
    · rw [if_neg h0, if_neg h0]
      exact stages_agree n b σ υ s h.2.2 hu
  | .forC keep x lo hi b, σ, υ, s, h, hu => by
    simp only [wf] at h
    simp only [stage, run, ext]
    rw [evalCE_eq hu lo h.1, evalCE_eq hu hi h.2.1]
    exact unroll_agree n keep x h.2.2.1 (fun τ => stages τ b) (runs n b)
      (fun τ => stages_plain b τ h.2.2.2)
      (fun τ υ' s' hu' => by
        obtain ⟨a1, a2⟩ := stages_agree n b τ υ' s' h.2.2.2 hu'
        exact ⟨a1, fun r hr => (a2 r hr).mono (fun y hy => List.mem_cons_of_mem _ hy)⟩)
      _ _ σ υ s hu
theorem stages_agree {Γ A : List Nat} (n : Nat) : ∀ (ts : Ss) (σ υ : CEnv) (s : St), wfs Γ A ts →
    EqOn Γ σ υ →
    Agree Γ (stages σ ts).1 (runTs n false (stages σ ts).2 s) (runs n ts (υ, s))
  | .nil, σ, υ, s, _, hu => by
    simp only [stages, runs, runTs]
    exact ⟨rfl, fun r hr => by cases hr; exact hu⟩
  | .cons t ts, σ, υ, s, h, hu => by
    simp only [wfs] at h
    simp only [stages, runs]
    rw [runTs_app n _ _ s (stage_plain t σ h.1)]
    refine (stage_agree n t σ υ s h.1 hu).seq (fun υ' s' hu' => ?_)
    obtain ⟨a1, a2⟩ := stages_agree n ts _ υ' s' h.2 hu'
    exact ⟨a1, fun r hr => (a2 r hr).mono (fun y hy => mem_ext t hy)⟩
end

/-! ## The theorems -/

/-- Several statements as a list. -/
def Ss.of : List S → Ss
  | [] => .nil
  | s :: ss => .cons s (Ss.of ss)

/-- For every program in which compile-time variables are assigned only in the
run-time branch or loop body that declares them, and in which no run-time `if`
is followed by `else #if`: running the emitted code gives what running the
source with the `#` erased gives, from every state and for every bound on the
loops. -/
theorem comptime_code_means_source_partial (ss : Ss) (h : wfs [] [] ss) (n : Nat) (σ : CEnv)
    (s : St) :
    runTs n false (stages σ ss).2 s = (runs n ss (σ, s)).map Prod.snd :=
  (stages_agree n ss σ σ s h (fun _ _ => rfl)).1

/-- `#const k = 1; #for (const i: 0..3) { out(#{i}); #{k = k + i} } if (r0) { out(#{k}) }` -/
def sample : Ss := .of [
  .constC 0 (.lit 1),
  .forC false 1 (.lit 0) (.lit 3)
    (.of [.out (.ct (.var 1)), .setC 0 (.bin (· + ·) (.var 0) (.var 1))]),
  .ifR (.rv 0) (.of [.out (.ct (.var 0))]) .nil]

example : wfs [] [] sample := by
  simp [sample, Ss.of, wfs, wf, ext, usesC, usesR]

example : (runTs 5 false (stages (fun _ => 0) sample).2 (fun _ => 1, [])).map Prod.snd =
    some [0, 1, 2, 4] := by
  simp [sample, Ss.of, stages, stage, unroll, evalCE, upd, Ts.app, runTs, runT, stageE, evalTE]

/-- `#const x = v; if (c) { #{x = w} } out(#{x})`. -/
def branchy (c : RE) (v w : Int) : Ss := .of [
  .constC 0 (.lit v),
  .ifR c (.of [.setC 0 (.lit w)]) .nil,
  .out (.ct (.var 0))]

/-- An assignment to a compile-time variable below a run-time condition takes
place whatever the condition: the emitted code does what the source says
exactly when the condition holds or the assignment changes nothing. -/
theorem branch_assignment_right_iff (c : RE) (hc : usesR [] c) (v w : Int) (n : Nat) (σ : CEnv)
    (ρ : REnv) (o : List Int) :
    runTs n false (stages σ (branchy c v w)).2 (ρ, o) = some (ρ, o ++ [w]) ∧
    (runTs n false (stages σ (branchy c v w)).2 (ρ, o) =
        (runs n (branchy c v w) (σ, ρ, o)).map Prod.snd ↔
      evalRE σ ρ c ≠ 0 ∨ v = w) := by
  have h1 : runTs n false (stages σ (branchy c v w)).2 (ρ, o) = some (ρ, o ++ [w]) := by
    simp [branchy, Ss.of, stages, stage, Ts.app, runTs, runT, stageE, evalCE, evalTE, upd]
  have hce : ∀ τ : CEnv, evalRE τ ρ c = evalRE σ ρ c := by
    intro τ
    rw [← stageE_eval (Γ := []) (σ := σ) (τ := τ) (fun _ h => by simp at h) ρ c hc,
      stageE_eval (Γ := []) (σ := σ) (τ := σ) (fun _ _ => rfl) ρ c hc]
  refine ⟨h1, ?_⟩
  rw [h1]
  by_cases h0 : evalRE σ ρ c = 0
  · have h2 : (runs n (branchy c v w) (σ, ρ, o)).map Prod.snd = some (ρ, o ++ [v]) := by
      simp [branchy, Ss.of, runs, run, evalCE, hce, h0, evalRE, upd]
    rw [h2]
    simp only [h0, ne_eq, not_true, false_or, Option.some.injEq, Prod.mk.injEq, true_and,
      List.append_cancel_left_eq, List.cons.injEq, and_true]
    exact eq_comm
  · have h2 : (runs n (branchy c v w) (σ, ρ, o)).map Prod.snd = some (ρ, o ++ [w]) := by
      simp [branchy, Ss.of, runs, run, evalCE, hce, h0, evalRE, upd]
    rw [h2]
    simp [h0]

example : runTs 5 false (stages (fun _ => 0) (branchy (.rv 0) 1 2)).2 (fun _ => 0, []) ≠
    (runs 5 (branchy (.rv 0) 1 2) (fun _ => 0, fun _ => 0, [])).map Prod.snd := by
  intro h
  have := (branch_assignment_right_iff (.rv 0) trivial 1 2 5 (fun _ => 0) (fun _ => 0) []).2.1 h
  simp [evalRE] at this

/-- `#const x = 0; while (r) { r = r - 1; #{x += 1} } out(#{x})`. -/
def counting : Ss := .of [
  .constC 0 (.lit 0),
  .whileR (.rv 0) (.of [.set 0 (.bin (· - ·) (.rv 0) (.lit 1)), .opC 0 (· + ·) (.lit 1)]),
  .out (.ct (.var 0))]

theorem loop_down_emitted (n : Nat) : ∀ (m k : Nat) (ρ : REnv) (o : List Int), k ≤ m →
    ρ 0 = (k : Int) →
    ∃ ρ', loop (fun s : St => evalTE s.1 (.rv 0) != 0)
      (runTs n false (.cons (.set 0 (.bin (· - ·) (.rv 0) (.lit 1))) .nil)) m (ρ, o) =
        some (ρ', o) ∧ ρ' 0 = 0
  | 0, k, ρ, o, hk, hr => by
    have : ρ 0 = 0 := by rw [hr]; omega
    exact ⟨ρ, by simp [loop, evalTE, this], this⟩
  | m + 1, 0, ρ, o, _, hr => by
    have : ρ 0 = 0 := by rw [hr]; rfl
    exact ⟨ρ, by simp [loop, evalTE, this], this⟩
  | m + 1, k + 1, ρ, o, hk, hr => by
    have hne : ρ 0 ≠ 0 := by rw [hr]; omega
    obtain ⟨ρ', h1, h2⟩ := loop_down_emitted n m k (upd ρ 0 (ρ 0 - 1)) o (by omega)
      (by simp [upd, hr])
    refine ⟨ρ', ?_, h2⟩
    rw [loop]
    simp only [evalTE, bne_iff_ne, ne_eq, hne, not_false_eq_true, if_true]
    rw [runTs_one]
    case h => trivial
    simp only [runT, evalTE, Option.bind_some]
    simpa [evalTE] using h1

theorem loop_down_source (n : Nat) : ∀ (m k : Nat) (σ : CEnv) (ρ : REnv) (o : List Int), k ≤ m →
    ρ 0 = (k : Int) →
    ∃ σ' ρ', loop (fun s : CEnv × St => evalRE s.1 s.2.1 (.rv 0) != 0)
      (runs n (.of [.set 0 (.bin (· - ·) (.rv 0) (.lit 1)), .opC 0 (· + ·) (.lit 1)])) m (σ, ρ, o) =
        some (σ', ρ', o) ∧ σ' 0 = σ 0 + k
  | 0, k, σ, ρ, o, hk, hr => by
    have : ρ 0 = 0 := by rw [hr]; omega
    exact ⟨σ, ρ, by simp [loop, evalRE, this], by omega⟩
  | m + 1, 0, σ, ρ, o, _, hr => by
    have : ρ 0 = 0 := by rw [hr]; rfl
    exact ⟨σ, ρ, by simp [loop, evalRE, this], by simp⟩
  | m + 1, k + 1, σ, ρ, o, hk, hr => by
    have hne : ρ 0 ≠ 0 := by rw [hr]; omega
    obtain ⟨σ', ρ', h1, h2⟩ := loop_down_source n m k (upd σ 0 (σ 0 + 1)) (upd ρ 0 (ρ 0 - 1)) o
      (by omega) (by simp [upd, hr])
    refine ⟨σ', ρ', ?_, ?_⟩
    · rw [loop]
      simp only [evalRE, bne_iff_ne, ne_eq, hne, not_false_eq_true, if_true]
      have hb : runs n (.of [.set 0 (.bin (· - ·) (.rv 0) (.lit 1)), .opC 0 (· + ·) (.lit 1)])
          (σ, ρ, o) = some (upd σ 0 (σ 0 + 1), upd ρ 0 (ρ 0 - 1), o) := by
        simp [Ss.of, runs, run, evalRE, evalCE]
      rw [hb, Option.bind_some]
      simpa [evalRE] using h1
    · rw [h2]; simp [upd]; omega

/-- An assignment to a compile-time variable in a run-time loop takes place
once, however many rounds the loop makes: the program above prints 1 where the
source counts the `k` rounds. -/
theorem loop_assignment_happens_once (k n : Nat) (hk : k ≤ n) (σ : CEnv) (ρ : REnv)
    (hr : ρ 0 = (k : Int)) :
    (runTs n false (stages σ counting).2 (ρ, [])).map Prod.snd = some [1] ∧
    (runs n counting (σ, ρ, [])).map (fun r => r.2.2) = some [(k : Int)] := by
  constructor
  · obtain ⟨ρ', h1, -⟩ := loop_down_emitted n n k ρ [] hk hr
    simp only [counting, Ss.of, stages, stage, Ts.app, evalCE, stageE]
    rw [runTs_cons]
    case h => trivial
    rw [runT, h1, Option.bind_some, runTs_one]
    case h => trivial
    simp [runT, evalTE, upd]
  · obtain ⟨σ', ρ', h1, h2⟩ := loop_down_source n n k (upd σ 0 0) ρ [] hk hr
    have hs : runs n counting (σ, ρ, []) =
        (loop (fun s : CEnv × St => evalRE s.1 s.2.1 (.rv 0) != 0)
          (runs n (.of [.set 0 (.bin (· - ·) (.rv 0) (.lit 1)), .opC 0 (· + ·) (.lit 1)])) n
          (upd σ 0 0, ρ, [])).bind (runs n (.of [.out (.ct (.var 0))])) := by
      simp [counting, Ss.of, runs, run, evalCE]
    rw [hs, h1, Option.bind_some]
    simp [Ss.of, runs, run, evalRE, evalCE, h2, upd]

example : (runTs 9 false (stages (fun _ => 0) counting).2 (fun _ => 4, [])).map Prod.snd = some [1] :=
  (loop_assignment_happens_once 4 9 (by decide) _ _ rfl).1

/-- `if (c) { t } else #if (k) { a } else { b }` followed by a statement: the
emitted code is that of `if (c) { t } else { statement }`.  The code of the
`#if` is never run, and the statement that follows is run only when the
condition is false. -/
theorem else_comptime_if_swallows_next (Γ : List Nat) (c : RE) (t : Ss) (k : CE) (a b : Ss) (e : RE)
    (rest : Ss) (hc : usesR Γ c) (ht : wfs Γ [] t) (he : usesR Γ e) (hrest : wfs Γ [] rest) (n : Nat)
    (σ : CEnv) (s : St) :
    runTs n false (stages σ (.cons (.ifRC c t k a b) (.cons (.out e) rest))).2 s =
      (runs n (.cons (.ifR c t (.cons (.out e) .nil)) rest) (σ, s)).map Prod.snd := by
  have hw : wfs Γ [] (.cons (.ifR c t (.cons (.out e) .nil)) rest) := by
    simp only [wfs, wf, ext]
    exact ⟨⟨hc, ht, he, trivial⟩, hrest⟩
  rw [← (stages_agree n _ σ σ s hw (fun _ _ => rfl)).1]
  have hk : EqOn Γ (stages σ t).1 σ := fun y hy => stages_keeps t σ y ht hy (by simp)
  simp only [stages, stage, Ts.app]
  rw [runTs_cons n (.ifT _ _ _) _ _ trivial, runT, runTs]
  simp only [Bool.false_eq_true, if_false]
  by_cases h0 : evalTE s.1 (stageE σ c) ≠ 0
  · rw [if_pos h0, if_pos h0]
    congr 1
  · rw [if_neg h0, if_neg h0]
    rw [runTs_cons]
    case h => trivial
    rw [runTs_one]
    case h => trivial

/-- In particular: with the condition true, what should follow the statement is
not run. -/
theorem else_comptime_if_wrong (v w : Int) (hv : v ≠ 0) (n : Nat) (σ : CEnv) (ρ : REnv) :
    runTs n false (stages σ (.of [.ifRC (.lit v) .nil (.lit 0) .nil .nil, .out (.lit w)])).2 (ρ, []) =
      some (ρ, []) ∧
    (runs n (.of [.ifRC (.lit v) .nil (.lit 0) .nil .nil, .out (.lit w)]) (σ, ρ, [])).map Prod.snd =
      some (ρ, [w]) := by
  constructor
  · have := else_comptime_if_swallows_next [] (.lit v) .nil (.lit 0) .nil .nil (.lit w) .nil
      trivial trivial trivial trivial n σ (ρ, [])
    simp only [Ss.of]
    rw [this]
    simp [runs, run, evalRE, hv]
  · simp [Ss.of, runs, run, evalRE, hv]

example : usesR [] (.lit 1) ∧ wfs [] [] (.of [.out (.rv 3)]) := by
  simp [usesR, wfs, wf, Ss.of]

/-! ## Declarations in an unrolled body -/

theorem decls_app : ∀ a b : Ts, (a.app b).decls = a.decls ++ b.decls
  | .nil, _ => rfl
  | .cons t a, b => by
    cases t <;> simp [Ts.app, Ts.decls, decls_app a b]

theorem decls_unroll_keep (x : Nat) (body : CEnv → CEnv × Ts) : ∀ (n : Nat) (i : Int) (σ : CEnv),
    (unroll true x body n i σ).2.decls = []
  | 0, _, _ => rfl
  | n + 1, i, σ => by
    simp [unroll, decls_app, Ts.decls, decls_unroll_keep x body n]

theorem decls_unroll (x y : Nat) (body : CEnv → CEnv × Ts) (hb : ∀ σ, (body σ).2.decls = [y]) :
    ∀ (n : Nat) (i : Int) (σ : CEnv), (unroll false x body n i σ).2.decls = List.replicate n y
  | 0, _, _ => rfl
  | n + 1, i, σ => by
    simp [unroll, decls_app, hb, decls_unroll x y body hb n, List.replicate_succ]

/-- A variable declared in the body of `#for` is declared once per round in one
and the same C block.  The emitted block is valid C exactly when there is at
most one round or the loop is marked `@consistent`. -/
theorem unrolled_declaration_valid_iff (keep : Bool) (x y : Nat) (lo hi : Int) (e : RE) (rest : Ss)
    (hrest : ∀ σ, (stages σ rest).2.decls = []) (σ : CEnv) :
    (stage σ (.forC keep x (.lit lo) (.lit hi) (.cons (.decl y e) rest))).2.declOk ↔
      keep = true ∨ hi - lo ≤ 1 := by
  simp only [Ts.declOk, stage, evalCE]
  cases keep with
  | true =>
    rw [decls_unroll_keep]
    simp
  | false =>
    rw [decls_unroll x y _ (fun τ => by
      simp only [stages, stage, Ts.app, Ts.decls, hrest])]
    simp only [Bool.false_eq_true, false_or]
    rw [List.nodup_replicate]
    omega

example : ¬ (stage (fun _ => 0) (.forC false 0 (.lit 0) (.lit 2)
    (.of [.decl 1 (.ct (.var 0)), .out (.rv 1)]))).2.declOk := by
  have := unrolled_declaration_valid_iff false 0 1 0 2 (.ct (.var 0)) (.of [.out (.rv 1)])
    (fun σ => rfl) (fun _ => 0)
  simpa [Ss.of] using this

/-! ## Ranges with a step -/

namespace Step

theorem visit_none (hi step : Int) (hs : step ≤ 0) : ∀ (n : Nat) (i : Int), i < hi →
    visit hi step n i = none
  | 0, i, h => by simp [visit, h]
  | n + 1, i, h => by
    simp [visit, h, visit_none hi step hs n (i + step) (by omega)]

theorem visit_some (hi step : Int) (hs : 0 < step) : ∀ (n : Nat) (i : Int), hi - i ≤ n →
    ∃ m, visit hi step n i = some ((List.range m).map (fun k : Nat => i + step * k)) ∧
      (∀ k : Nat, k < m ↔ i + step * k < hi)
  | 0, i, h => by
    refine ⟨0, by simp [visit]; omega, fun k => ?_⟩
    have : (0 : Int) ≤ step * k := Int.mul_nonneg (by omega) (by omega)
    omega
  | n + 1, i, h => by
    by_cases hlt : i < hi
    · obtain ⟨m, h1, h2⟩ := visit_some hi step hs n (i + step) (by omega)
      refine ⟨m + 1, ?_, ?_⟩
      · simp only [visit, hlt, if_true, h1, Option.map_some]
        rw [List.range_succ_eq_map, List.map_cons, List.map_map]
        congr 2
        · simp
        · apply List.map_congr_left
          intro k _
          simp only [Function.comp, Nat.succ_eq_add_one, Int.natCast_add, Int.mul_add]
          omega
      · intro k
        cases k with
        | zero => simp; exact hlt
        | succ k =>
          have := h2 k
          simp only [Int.natCast_add, Int.mul_add]
          omega
    · refine ⟨0, by simp [visit, hlt], fun k => ?_⟩
      have : (0 : Int) ≤ step * k := Int.mul_nonneg (by omega) (by omega)
      omega

/-- `#for (const i: range(lo, hi, step))`: an error is reported for every step
that is given, and the compiler comes to an end exactly when the range is empty
or the step is positive. -/
theorem step_ends_iff (lo hi step : Int) :
    errors true ≠ 0 ∧ ((∃ n, visit hi step n lo ≠ none) ↔ hi ≤ lo ∨ 0 < step) := by
  refine ⟨by decide, ?_, ?_⟩
  · rintro ⟨n, hn⟩
    by_cases h : lo < hi
    · right
      by_cases hs : step ≤ 0
      · exact absurd (visit_none hi step hs n lo h) hn
      · omega
    · left; omega
  · rintro (h | h)
    · exact ⟨0, by simp [visit]; omega⟩
    · obtain ⟨m, h1, -⟩ := visit_some hi step h (hi - lo).toNat lo (by omega)
      exact ⟨_, by rw [h1]; simp⟩

example : ∀ n, visit 10 0 n 0 = none := fun n => visit_none 10 0 (by decide) n 0 (by decide)

end Step

end Verif.Comptime
