import Verif.Lang.Redundant.Model

/-! # Statements reported as redundant

C223: the compiler keeps every statement it says it removes, so the behaviour of the program does not change; but the
report itself is wrong for whole families of statements that do something, namely all those with a harmless operand. -/

namespace Verif.Redundant

/-! ## Specification -/

mutual
/-- Evaluating the expression can do something other than give a value. -/
inductive Acts : Expr → Prop
  | effect (n) : Acts (.effect n)
  | step (e) : Acts (.step e)
  | member {e} : Acts e → Acts (.member e)
  | indexL {e i} : Acts e → Acts (.index e i)
  | indexR {e i} : Acts i → Acts (.index e i)
  | array {es} : ActsIn es → Acts (.array es)
  | tuple {es} : ActsIn es → Acts (.tuple es)
  | strct {es} : ActsIn es → Acts (.strct es)
  | group {e} : Acts e → Acts (.group e)
  | unary {e} : Acts e → Acts (.unary e)
  | binaryL {a b} : Acts a → Acts (.binary a b)
  | binaryR {a b} : Acts b → Acts (.binary a b)
  | cond {c a b} : Acts c → Acts (.ternary c a b)
  | thn {c a b} : Acts a → Acts (.ternary c a b)
  | els {c a b} : Acts b → Acts (.ternary c a b)

inductive ActsIn : List Expr → Prop
  | head {e es} : Acts e → ActsIn (e :: es)
  | tail {e es} : ActsIn es → ActsIn (e :: es)
end

/-- Built from leaves, effects, members, parentheses and operators with one operand. -/
inductive Chain : Expr → Prop
  | leaf (n) : Chain (.leaf n)
  | effect (n) : Chain (.effect n)
  | step (e) : Chain (.step e)
  | member {e} : Chain e → Chain (.member e)
  | group {e} : Chain e → Chain (.group e)
  | unary {e} : Chain e → Chain (.unary e)

mutual
/-- No empty array, tuple or struct expression in it. -/
def full : Expr → Bool
  | .leaf _ => true
  | .effect _ => true
  | .step _ => true
  | .member e => full e
  | .index e i => full e && full i
  | .array es => !es.isEmpty && fulls es
  | .tuple es => !es.isEmpty && fulls es
  | .strct es => !es.isEmpty && fulls es
  | .group e => full e
  | .unary e => full e
  | .binary a b => full a && full b
  | .ternary c a b => full c && full a && full b

def fulls : List Expr → Bool
  | [] => true
  | e :: es => full e && fulls es
end

/-! ## Theorems -/

/-- **C223**: no statement is removed, reported or not: what stays is the block without the remains of compile-time
statements. -/
theorem nothing_removed (returns : Bool) (ss : List Stmt) :
    (visitBlock returns ss).1 = ss.filter (fun s => match s with | .noop => false | _ => true) := by
  induction ss with
  | nil => rfl
  | cons s ss ih =>
    cases s with
    | noop => simp only [visitBlock]; rw [ih]; rfl
    | expr e => simp only [visitBlock]; split <;> simp [ih]
    | block b => simp only [visitBlock]; split <;> simp [ih]
    | other n => simp only [visitBlock]; split <;> simp [ih]

/-- **C223**: for a chain of members, parentheses and operators with one operand, the report is right: it is made exactly
when evaluating the expression does nothing. -/
theorem chain_report_partial {e : Expr} (h : Chain e) : redundant e = true ↔ ¬ Acts e := by
  induction h with
  | leaf n => exact ⟨fun _ h => (by cases h), fun _ => rfl⟩
  | effect n => exact ⟨fun h => (by cases h), fun h => absurd (Acts.effect n) h⟩
  | step e => exact ⟨fun h => (by cases h), fun h => absurd (Acts.step e) h⟩
  | member _ ih =>
    rw [redundant, ih]
    exact ⟨fun h h' => (by cases h' with | member h' => exact h h'), fun h h' => h (.member h')⟩
  | group _ ih =>
    rw [redundant, ih]
    exact ⟨fun h h' => (by cases h' with | group h' => exact h h'), fun h h' => h (.group h')⟩
  | unary _ ih =>
    rw [redundant, ih]
    exact ⟨fun h h' => (by cases h' with | unary h' => exact h h'), fun h h' => h (.unary h')⟩

mutual
/-- **C223**: a statement that does nothing is always reported, if it has no empty aggregates. -/
theorem idle_reported : ∀ e, full e = true → ¬ Acts e → redundant e = true
  | .leaf _, _, _ => rfl
  | .effect n, _, h => absurd (.effect n) h
  | .step e, _, h => absurd (.step e) h
  | .member e, hf, h => by rw [redundant]; exact idle_reported e hf (fun h' => h (.member h'))
  | .index e i, hf, h => by
      simp only [full, Bool.and_eq_true] at hf
      rw [redundant]; exact idle_reported e hf.1 (fun h' => h (.indexL h'))
  | .array es, hf, h => by
      simp only [full, Bool.and_eq_true] at hf
      rw [redundant]; exact idle_many es hf.1 hf.2 (fun h' => h (.array h'))
  | .tuple es, hf, h => by
      simp only [full, Bool.and_eq_true] at hf
      rw [redundant]; exact idle_many es hf.1 hf.2 (fun h' => h (.tuple h'))
  | .strct es, hf, h => by
      simp only [full, Bool.and_eq_true] at hf
      rw [redundant]; exact idle_many es hf.1 hf.2 (fun h' => h (.strct h'))
  | .group e, hf, h => by rw [redundant]; exact idle_reported e hf (fun h' => h (.group h'))
  | .unary e, hf, h => by rw [redundant]; exact idle_reported e hf (fun h' => h (.unary h'))
  | .binary a b, hf, h => by
      simp only [full, Bool.and_eq_true] at hf
      rw [redundant, idle_reported a hf.1 (fun h' => h (.binaryL h'))]; rfl
  | .ternary c a b, hf, h => by
      simp only [full, Bool.and_eq_true] at hf
      rw [redundant, idle_reported c hf.1.1 (fun h' => h (.cond h'))]; rfl

theorem idle_many : ∀ es, (!es.isEmpty) = true → fulls es = true → ¬ ActsIn es → redundantMany es = true
  | [], h, _, _ => by simp at h
  | e :: es, _, hf, h => by
      simp only [fulls, Bool.and_eq_true] at hf
      rw [redundantMany, idle_reported e hf.1 (fun h' => h (.head h')), if_pos rfl]
end

theorem redundantMany_iff : ∀ es, redundantMany es = true ↔ ∃ e ∈ es, redundant e = true
  | [] => by simp [redundantMany]
  | e :: es => by
    rw [redundantMany]
    by_cases h : redundant e = true
    · rw [if_pos h]; simp [h]
    · rw [if_neg h, redundantMany_iff es]; simp [h]

/-- **C223**: one operand that does nothing is enough: an operator with such an operand on either side, a conditional with
such a condition or branch, an element of such a variable, an aggregate with such a part are reported whatever the rest
does. -/
theorem one_idle_part (a b c : Expr) (es : List Expr) (ha : redundant a = true) :
    redundant (.binary a b) = true ∧ redundant (.binary b a) = true ∧ redundant (.ternary a b c) = true ∧
    redundant (.ternary b a c) = true ∧ redundant (.ternary b c a) = true ∧ redundant (.index a b) = true ∧
    (a ∈ es → redundant (.tuple es) = true ∧ redundant (.array es) = true ∧ redundant (.strct es) = true) := by
  refine ⟨by simp [redundant, ha], by simp [redundant, ha], by simp [redundant, ha], by simp [redundant, ha],
    by simp [redundant, ha], by simp [redundant, ha], ?_⟩
  intro h
  have := (redundantMany_iff es).2 ⟨a, h, ha⟩
  simp [redundant, this]

/-- **C223**: so for every statement that does something there are ones built from it that do the same and are reported,
for instance `x && e` for a variable `x`. -/
theorem acting_reported (e : Expr) (h : Acts e) (n : Nat) (returns : Bool) (s : Stmt) :
    Acts (.binary (.leaf n) e) ∧
      Stmt.expr (.binary (.leaf n) e) ∈ (visitBlock returns [.expr (.binary (.leaf n) e), s]).2 := by
  refine ⟨.binaryR h, ?_⟩
  have hr : redundantStmt (.expr (.binary (.leaf n) e)) = true := by simp [redundantStmt, redundant]
  rw [visitBlock]
  · simp only [List.isEmpty_cons, Bool.not_false, Bool.or_true, Bool.true_and, hr, if_true]
    simp
  · intro h; cases h

/-- `ready && launch()` with a further statement. -/
example : Stmt.expr (.binary (.leaf 0) (.effect 1)) ∈ (visitBlock false [.expr (.binary (.leaf 0) (.effect 1)), .other 0]).2 :=
  (acting_reported (.effect 1) (.effect 1) 0 false (.other 0)).2

example : redundant (.member (.group (.effect 1))) = false ∧ redundant (.member (.group (.leaf 1))) = true := by decide

end Verif.Redundant
