import Verif.Lang.Flow.Exact
/-! # Functions that are accepted and functions that are not

Source: /repo/src/cxy/lang/backend/llvm/generate.cpp 619-824 and 1041-1129, llvm.cpp 257-266; sema/check.c 53-70 (only code after
`return` is dropped before the backend). -/
namespace Verif.Flow

variable {Prim State : Type}

/-! ## Accepted -/

mutual
/-- Statements that can be left at the end only: jumps are the last statements of branches of `if`, bodies of loops and cases end
without a jump, and the condition of a `switch` has no `&&`, `||` and `?:`. -/
def Stmt.plain (inLoop : Bool) : Stmt Prim → Bool
  | .skip => true
  | .seq a b => a.plain inLoop && b.plain inLoop
  | .expr _ => true
  | .ite _ a b => a.branch inLoop && b.branch inLoop
  | .while _ body _ => body.plain true
  | .switch c cases => c.flat && cases.plain inLoop
  | _ => false
/-- The same with an optional jump at the end. -/
def Stmt.branch (inLoop : Bool) : Stmt Prim → Bool
  | .skip => true
  | .seq a b => a.plain inLoop && b.branch inLoop
  | .expr _ => true
  | .ite _ a b => a.branch inLoop && b.branch inLoop
  | .while _ body _ => body.plain true
  | .switch c cases => c.flat && cases.plain inLoop
  | .brk => inLoop
  | .cont => inLoop
  | .ret _ => true
/-- One default at most. -/
def Cases.plain (inLoop : Bool) : Cases Prim → Bool
  | .nil => true
  | .cons v body rest => body.plain inLoop && (v.isSome || rest.noDefault) && rest.plain inLoop
end

theorem flowE_on (e : Expr Prim) : flowE e .on = some .on := by
  unfold flowE
  cases e.isConst <;> cases e.resets <;> rfl

mutual
theorem plain_flow (inLoop : Bool) : ∀ (s : Stmt Prim), s.plain inLoop = true → flow inLoop s .on = some .on
  | .skip, _ => by rw [flow]
  | .seq a b, h => by
    rw [Stmt.plain, Bool.and_eq_true] at h
    rw [flow, plain_flow inLoop a h.1]
    exact plain_flow inLoop b h.2
  | .expr e, _ => by rw [flow, flowE_on]
  | .ite c a b, h => by
    rw [Stmt.plain, Bool.and_eq_true] at h
    have ha := branch_flow inLoop a h.1
    have hb := branch_flow inLoop b h.2
    rw [flow, flowE_on]
    rcases ha with ha | ha <;> rcases hb with hb | hb <;> rw [ha, hb] <;> rfl
  | .while c body u, h => by
    rw [Stmt.plain] at h
    rw [flow, flowE_on]
    simp only [Kind.opens, if_true, Option.bind_some, plain_flow true body h]
    cases u with
    | none => rfl
    | some e => exact flowE_on e
  | .switch c cases, h => by
    rw [Stmt.plain, Bool.and_eq_true] at h
    rw [flow, h.1]
    simp only [Kind.opens, Bool.and_self, if_true]
    exact plainCases_flow inLoop cases h.2
  | .brk, h => by cases h
  | .cont, h => by cases h
  | .ret e, h => by cases h
theorem branch_flow (inLoop : Bool) : ∀ (s : Stmt Prim), s.branch inLoop = true → flow inLoop s .on = some .on ∨ flow inLoop s .on = some .off
  | .skip, _ => by rw [flow]; exact Or.inl rfl
  | .seq a b, h => by
    rw [Stmt.branch, Bool.and_eq_true] at h
    rw [flow, plain_flow inLoop a h.1]
    exact branch_flow inLoop b h.2
  | .expr e, _ => by rw [flow, flowE_on]; exact Or.inl rfl
  | .ite c a b, h => by
    rw [Stmt.branch, Bool.and_eq_true] at h
    have ha := branch_flow inLoop a h.1
    have hb := branch_flow inLoop b h.2
    rw [flow, flowE_on]
    rcases ha with ha | ha <;> rcases hb with hb | hb <;> rw [ha, hb] <;> exact Or.inl rfl
  | .while c body u, h => by
    rw [Stmt.branch] at h
    rw [flow, flowE_on]
    simp only [Kind.opens, if_true, Option.bind_some, plain_flow true body h]
    cases u with
    | none => exact Or.inl rfl
    | some e => exact Or.inl (flowE_on e)
  | .switch c cases, h => by
    rw [Stmt.branch, Bool.and_eq_true] at h
    rw [flow, h.1]
    simp only [Kind.opens, Bool.and_self, if_true]
    exact Or.inl (plainCases_flow inLoop cases h.2)
  | .brk, h => by rw [Stmt.branch] at h; subst h; rw [flow]; exact Or.inr rfl
  | .cont, h => by rw [Stmt.branch] at h; subst h; rw [flow]; exact Or.inr rfl
  | .ret none, _ => by rw [flow]; exact Or.inr rfl
  | .ret (some e), _ => by rw [flow, flowE_on]; exact Or.inr rfl
theorem plainCases_flow (inLoop : Bool) : ∀ (cs : Cases Prim), cs.plain inLoop = true → flowCases inLoop cs .on = some .on
  | .nil, _ => by rw [flowCases]
  | .cons v body rest, h => by
    rw [Cases.plain, Bool.and_eq_true, Bool.and_eq_true] at h
    rw [flowCases, plain_flow inLoop body h.1.1]
    simp only [Option.bind_some]
    rw [if_neg]
    · exact plainCases_flow inLoop rest h.2
    · have := h.1.2
      cases v <;> simp_all
end

/-- Functions in which jumps are only the last statements of branches of `if` and of the function are accepted. -/
theorem plain_functions_are_accepted_partial {body : Stmt Prim} (h : body.branch false = true) : ∃ P, compile body = some P := by
  have hi := accepted_iff body
  rcases branch_flow false body h with e | e <;> rw [e] at hi <;> exact Option.isSome_iff_exists.1 hi

/-! ## Rejected -/

def Cases.toList : Cases Prim → List (Option Int × Stmt Prim)
  | .nil => []
  | .cons v body rest => (v, body) :: rest.toList

/-- `Part t s` says that `t` is `s` or a part of it. -/
inductive Part (t : Stmt Prim) : Stmt Prim → Prop where
  | self : Part t t
  | seqL {a b} : Part t a → Part t (.seq a b)
  | seqR {a b} : Part t b → Part t (.seq a b)
  | thenB {c a b} : Part t a → Part t (.ite c a b)
  | elseB {c a b} : Part t b → Part t (.ite c a b)
  | body {c a u} : Part t a → Part t (.while c a u)
  | case {c v a} {cs : Cases Prim} : Part t a → (v, a) ∈ cs.toList → Part t (.switch c cs)

theorem bind_none {α β : Type} : ∀ {x : Option α} {f : α → Option β}, (∀ a, f a = none) → x.bind f = none
  | none, _, _ => rfl
  | some a, _, h => h a

theorem cases_none {a : Stmt Prim} (h : ∀ inLoop k, flow inLoop a k = none) {v : Option Int} :
    ∀ {cs : Cases Prim}, (v, a) ∈ cs.toList → ∀ inLoop k, flowCases inLoop cs k = none
  | .cons w body rest, hm, inLoop, k => by
    rw [flowCases]
    rw [Cases.toList] at hm
    rcases List.mem_cons.1 hm with e | hm
    · cases e
      rw [h]
      rfl
    · refine bind_none fun k1 => ?_
      split
      · rfl
      · exact cases_none h hm inLoop _

/-- A part that is always rejected makes the function rejected. -/
theorem part_none {t s : Stmt Prim} (hp : Part t s) (h : ∀ inLoop k, flow inLoop t k = none) : ∀ inLoop k, flow inLoop s k = none := by
  induction hp with
  | self => exact h
  | seqL _ ih => intro inLoop k; rw [flow, ih]; rfl
  | seqR _ ih => intro inLoop k; rw [flow]; exact bind_none (ih inLoop)
  | thenB _ ih =>
    intro inLoop k
    rw [flow]
    refine bind_none fun k1 => ?_
    split
    · rw [ih]; rfl
    · rfl
  | elseB _ ih =>
    intro inLoop k
    rw [flow]
    refine bind_none fun k1 => ?_
    split
    · refine bind_none fun k2 => ?_
      rw [ih]; rfl
    · rfl
  | body _ ih =>
    intro inLoop k
    rw [flow]
    split
    · refine bind_none fun k1 => ?_
      rw [ih]; rfl
    · rfl
  | case _ hm ih =>
    intro inLoop k
    rw [flow]
    split
    · exact cases_none ih hm inLoop k
    · rfl

theorem rejected {t body : Stmt Prim} (hp : Part t body) (h : ∀ inLoop k, flow inLoop t k = none) : compile body = none := by
  have := accepted_iff body
  rw [part_none hp h] at this
  exact Option.isNone_iff_eq_none.1 (by rw [← Option.not_isSome, this]; rfl)

/-- The statement ends with `break`, `continue` or `return`. -/
def Stmt.jumps : Stmt Prim → Bool
  | .brk => true
  | .cont => true
  | .ret _ => true
  | .seq _ b => b.jumps
  | _ => false

theorem jumps_flow (inLoop : Bool) : ∀ (s : Stmt Prim), s.jumps = true → ∀ k, flow inLoop s k = none ∨ flow inLoop s k = some .off
  | .brk, _, k => by rw [flow]; split <;> simp
  | .cont, _, k => by rw [flow]; split <;> simp
  | .ret none, _, k => by rw [flow]; split <;> simp
  | .ret (some e), _, k => by
    rw [flow]
    cases flowE e k with
    | none => exact Or.inl rfl
    | some k1 => simp only [Option.bind_some]; split <;> simp
  | .seq a b, h, k => by
    rw [flow]
    cases flow inLoop a k with
    | none => exact Or.inl rfl
    | some k1 => exact jumps_flow inLoop b h k1

/-- A function with a loop whose body ends with a jump is rejected. -/
theorem loop_body_ending_in_jump_is_rejected {c : Expr Prim} {a body : Stmt Prim} {u : Option (Expr Prim)} (ha : a.jumps = true)
    (hp : Part (.while c a u) body) : compile body = none := by
  refine rejected hp fun inLoop k => ?_
  rw [flow]
  split
  · refine bind_none fun k1 => ?_
    rcases jumps_flow true a ha k1 with e | e <;> rw [e] <;> rfl
  · rfl

/-- A function in which the condition of a `switch` has `&&`, `||` or `?:` is rejected. -/
theorem switch_on_logic_is_rejected {c : Expr Prim} {cs : Cases Prim} {body : Stmt Prim} (hc : c.flat = false)
    (hp : Part (.switch c cs) body) : compile body = none := by
  refine rejected hp fun inLoop k => ?_
  rw [flow, hc, Bool.and_false]
  rfl

/-- The statement gives no code. -/
def Stmt.silent : Stmt Prim → Bool
  | .skip => true
  | .expr e => e.isConst
  | .seq a b => a.silent && b.silent
  | _ => false

theorem silent_flow (inLoop : Bool) : ∀ (s : Stmt Prim), flow inLoop s .off = if s.silent then some .off else none
  | .skip => by rw [flow]; rfl
  | .expr e => by rw [flow, flowE, Stmt.silent]; split <;> rfl
  | .seq a b => by
    rw [flow, silent_flow inLoop a, Stmt.silent]
    cases a.silent
    · rfl
    · simp only [if_true, Option.bind_some, silent_flow inLoop b, Bool.true_and]
  | .brk => by rw [flow]; cases inLoop <;> rfl
  | .cont => by rw [flow]; cases inLoop <;> rfl
  | .ret none => by rw [flow]; rfl
  | .ret (some e) => by
    rw [flow, flowE]
    cases e.isConst <;> rfl
  | .ite c a b => by
    rw [flow, flowE]
    cases c.isConst <;> rfl
  | .while c a u => by rw [flow]; rfl
  | .switch c cs => by rw [flow]; rfl

/-- A function with code behind a jump is rejected. -/
theorem code_after_jump_is_rejected {a b body : Stmt Prim} (ha : a.jumps = true) (hb : b.silent = false) (hp : Part (.seq a b) body) :
    compile body = none := by
  refine rejected hp fun inLoop k => ?_
  rw [flow]
  rcases jumps_flow inLoop a ha k with e | e <;> rw [e]
  · rfl
  · simp only [Option.bind_some, silent_flow, hb]
    rfl

/-- The last case ends with a jump. -/
def Cases.lastJumps : Cases Prim → Bool
  | .nil => false
  | .cons _ body .nil => body.jumps
  | .cons _ _ rest => rest.lastJumps

theorem lastJumps_flow (inLoop : Bool) : ∀ (cs : Cases Prim), cs.lastJumps = true → ∀ k, flowCases inLoop cs k = none ∨ flowCases inLoop cs k = some .stale
  | .cons v body .nil, h, k => by
    rw [flowCases]
    rcases jumps_flow inLoop body h k with e | e <;> rw [e]
    · exact Or.inl rfl
    · simp only [Option.bind_some]
      split
      · exact Or.inl rfl
      · rw [flowCases]; exact Or.inr rfl
  | .cons v body (.cons w b rest), h, k => by
    rw [flowCases]
    cases flow inLoop body k with
    | none => exact Or.inl rfl
    | some k1 =>
      simp only [Option.bind_some]
      split
      · exact Or.inl rfl
      · exact lastJumps_flow inLoop (.cons w b rest) h _

/-- The statement ends with a `switch` whose last case ends with a jump. -/
def Stmt.endsInSwitch : Stmt Prim → Bool
  | .switch _ cs => cs.lastJumps
  | .seq _ b => b.endsInSwitch
  | _ => false

theorem endsInSwitch_flow (inLoop : Bool) : ∀ (s : Stmt Prim), s.endsInSwitch = true → ∀ k, flow inLoop s k = none ∨ flow inLoop s k = some .stale
  | .switch c cs, h, k => by
    rw [flow]
    split
    · exact lastJumps_flow inLoop cs h k
    · exact Or.inl rfl
  | .seq a b, h, k => by
    rw [flow]
    cases flow inLoop a k with
    | none => exact Or.inl rfl
    | some k1 => exact endsInSwitch_flow inLoop b h k1

/-- A function with an `if` that ends, in one of its branches, with a `switch` whose last case ends with a jump is rejected. -/
theorem branch_ending_in_switch_is_rejected {c : Expr Prim} {x y body : Stmt Prim} (hx : x.endsInSwitch = true ∨ y.endsInSwitch = true)
    (hp : Part (.ite c x y) body) : compile body = none := by
  refine rejected hp fun inLoop k => ?_
  rw [flow]
  refine bind_none fun k1 => ?_
  split
  · rcases hx with hx | hx
    · rcases endsInSwitch_flow inLoop x hx .on with e | e <;> rw [e]
      · rfl
      · simp only [Option.bind_some]
        exact bind_none fun k3 => if_pos (Or.inl trivial)
    · refine bind_none fun k2 => ?_
      rcases endsInSwitch_flow inLoop y hx .on with e | e <;> rw [e]
      · rfl
      · simp only [Option.bind_some]
        exact if_pos (Or.inr trivial)
  · rfl

/-! ## Functions that make sense -/

mutual
/-- `break` and `continue` only in loops, one default at most. -/
def Stmt.formed (inLoop : Bool) : Stmt Prim → Bool
  | .seq a b => a.formed inLoop && b.formed inLoop
  | .ite _ a b => a.formed inLoop && b.formed inLoop
  | .while _ body _ => body.formed true
  | .switch _ cases => cases.formed inLoop
  | .brk => inLoop
  | .cont => inLoop
  | _ => true
def Cases.formed (inLoop : Bool) : Cases Prim → Bool
  | .nil => true
  | .cons v body rest => body.formed inLoop && (v.isSome || rest.noDefault) && rest.formed inLoop
end

/-- Not all functions that make sense are accepted: "look at one element and leave" is not, whatever the condition and the
operation are. -/
theorem formed_functions_are_not_all_accepted (c e : Expr Prim) :
    let body : Stmt Prim := .seq (.while c (.seq (.expr e) (.ret (some (.const 1)))) none) (.ret (some (.const 0)))
    body.formed false = true ∧ compile body = none :=
  ⟨rfl, loop_body_ending_in_jump_is_rejected rfl (Part.seqL Part.self)⟩

/-! ## Examples -/

/-- `while (a) { if (b) break; if (c) continue; d; } return e` -/
def sampleLoop : Stmt Nat :=
  .seq (.while (.call 0 .nil) (.seq (.ite (.call 1 .nil) .brk .skip) (.seq (.ite (.call 2 .nil) (.seq (.expr (.call 5 .nil)) .cont) .skip)
    (.expr (.and (.call 3 .nil) (.call 6 .nil))))) none) (.ret (some (.call 4 .nil)))

example : ∃ P, compile sampleLoop = some P := plain_functions_are_accepted_partial rfl

example : compile (Stmt.while (.call 0 .nil) (.ite (.call 1 .nil)
    (.switch (.call 2 .nil) (.cons (some 1) (.expr (.call 3 .nil)) (.cons none (.ret none) .nil))) .skip) none : Stmt Nat) = none :=
  branch_ending_in_switch_is_rejected (Or.inl rfl) (Part.body Part.self)

example : compile (Stmt.switch (.and (.call 0 .nil) (.call 1 .nil)) .nil : Stmt Nat) = none := switch_on_logic_is_rejected rfl Part.self

example : compile (Stmt.while (.call 0 .nil) (.ite (.call 1 .nil) (.seq .brk (.expr (.call 2 .nil))) .skip) none : Stmt Nat) = none :=
  code_after_jump_is_rejected rfl rfl (Part.body (Part.thenB Part.self))

end Verif.Flow
