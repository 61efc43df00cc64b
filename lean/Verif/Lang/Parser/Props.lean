import Verif.Lang.Parser.RoundTrip
import Verif.Lang.Parser.Sound
/-!
# C20, C71-C73: parsing of expressions

The specification is in `Spec.lean` (`tiers`, `print`, `Wf`, `paren`, `strip`) and `Spells` in `Sound.lean`.
-/
namespace Verif.Parser
open Lexer (Sym)

/-- The parse of a token list: with enough fuel, more fuel changes nothing (`expression_ends`). -/
def Parses (ts : List Tok) (e : Expr) (rest : List Tok) : Prop :=
  ∃ N, ∀ f, N ≤ f → expression f ts = .ok (e, rest)

/-- **C20.** Any expression tree, of any depth, written down with parentheses where the operator tiers demand
them, is read back as the same tree.  Trees that need no parentheses (`Wf`) get none. -/
theorem printed_expression_is_read_back (e : Expr) :
    Parses (print (paren e)) (paren e) [] ∧ strip (paren e) = strip e ∧ (Wf e → paren e = e) := by
  refine ⟨?_, strip_paren e, paren_wf e⟩
  have h := (full _ (paren e) (Nat.lt_succ_self _) (wf_paren e)).t
  have := expression_ev (rest := []) h (by intro t ht; simp at ht) (by intro t ht; simp at ht) (by intro t ht; simp at ht)
    (by simp [StopT])
  rw [List.append_nil] at this
  exact this

/-- `1 + 2 * 3 .. 4 - 5 - 6` has the tree it should have. -/
example : Wf (.bin .Range (.bin .Add (.int 1) (.bin .Mul (.int 2) (.int 3)))
    (.bin .Sub (.bin .Sub (.int 4) (.int 5)) (.int 6))) := by
  simp [Wf, level]; decide

/-- The other grouping needs parentheses and gets them. -/
example : paren (.bin .Mul (.bin .Add (.int 1) (.int 2)) (.int 3)) =
    .bin .Mul (.group (.bin .Add (.int 1) (.int 2))) (.int 3) := rfl

/-- **C20, for two operators.** `a o1 b o2 c` groups to the left exactly if `o1` is in the same tier as `o2` or
a tighter one. -/
theorem two_operators (o1 o2 : BinOp) (a b c : Nat) :
    Parses [.ident a, binTok o1, .ident b, binTok o2, .ident c]
      (if tier o1 ≤ tier o2 then .bin o2 (.bin o1 (.path a []) (.path b [])) (.path c [])
       else .bin o1 (.path a []) (.bin o2 (.path b []) (.path c []))) [] := by
  have key : ∀ e, Wf e → Parses (print e) e [] := fun e h => by
    have := (printed_expression_is_read_back e).1
    rwa [paren_wf e h] at this
  have h1 := tier_pos o1
  have h2 := tier_pos o2
  split
  · exact key (.bin o2 (.bin o1 (.path a []) (.path b [])) (.path c []))
      (by simp only [Wf, level, true_and]; omega)
  · exact key (.bin o1 (.path a []) (.bin o2 (.path b []) (.path c [])))
      (by simp only [Wf, level, true_and]; omega)

/-- **C71.** The expression parser ends on every token list, with a tree, an error or something not modelled. -/
theorem expression_ends (ts : List Tok) (f : Nat) (h : 8 * ts.length + 5 ≤ f) :
    expression f ts ≠ .fuel ∧ ∀ e r, expression f ts = .ok (e, r) → r.length < ts.length :=
  (ends f).expression ts h

example : 8 * [Tok.sym .LParen, .sym .LParen].length + 5 ≤ 21 := by decide

/-- **C72.** A tree returned by the expression parser is spelled by exactly the tokens that were read, in
order: nothing is dropped, added or moved. -/
theorem tree_has_the_tokens_read (f : Nat) (ts : List Tok) (e : Expr) (r : List Tok)
    (h : expression f ts = .ok (e, r)) : ∃ c, ts = c ++ r ∧ Spells e c := by
  obtain ⟨c, h1, h2⟩ := (sounds f).expression ts e r h
  exact ⟨c, h1, h2⟩

example : ∃ e, expression 50 [.sym .Minus, .ident 1, .sym .Plus, .int 2, .sym .Semicolon] = .ok (e, [.sym .Semicolon]) :=
  ⟨.bin .Add (.pre .Minus (.path 1 [])) (.int 2), rfl⟩

/-- **C73 is false of the code.** A conditional on the right of an assignment is not assigned: `l = c ? b : o`
is read as `(l = c) ? b : o`, whatever `l`, `c`, `b` and `o` are. -/
theorem conditional_not_assigned (op : AsgOp) (l c b o : Expr) (hl : Wf l ∧ level l = 0) (hc : Wf c ∧ level c ≤ 12)
    (hb : Wf b) (ho : Wf o) :
    Parses (print l ++ asgTok op :: (print c ++ .sym .Question :: (print b ++ .sym .Colon :: print o)))
      (.ternary (.assign op l c) b o) [] := by
  have hw : Wf (.ternary (.assign op l c) b o) := ⟨⟨hl.1, hc.1, hl.2, by omega⟩, hb, ho, by simp [level]⟩
  have := (printed_expression_is_read_back (.ternary (.assign op l c) b o)).1
  rw [paren_wf _ hw] at this
  simpa [print] using this

/-- **C73, the part that holds.** An assignment of a binary expression or a further assignment assigns all of it. -/
theorem assignment_takes_operators_partial (op : AsgOp) (l r : Expr) (hl : Wf l ∧ level l = 0) (hr : Wf r ∧ level r ≤ 13) :
    Parses (print l ++ asgTok op :: print r) (.assign op l r) [] := by
  have hw : Wf (.assign op l r) := ⟨hl.1, hr.1, hl.2, hr.2⟩
  have := (printed_expression_is_read_back (.assign op l r)).1
  rw [paren_wf _ hw] at this
  simpa [print] using this

example : Wf (.path 1 [2]) ∧ level (.path 1 [2]) = 0 ∧
    Wf (.bin .Gt (.path 3 []) (.int 0)) ∧ level (.bin .Gt (.path 3 []) (.int 0)) ≤ 12 := by
  simp [Wf, level]; decide

end Verif.Parser
