import Verif.Std.Http.Model
/-! # Lines of a message -/
namespace Verif.Http

/-- Lines, each ended by CR LF. -/
def unlines (ls : List (List Nat)) : List Nat := ls.flatMap (· ++ [13, 10])

theorem unlines_append (a b : List (List Nat)) : unlines (a ++ b) = unlines a ++ unlines b := by simp [unlines]

theorem unlines_if (c : Prop) [Decidable c] (a : List (List Nat)) : unlines (if c then a else []) = if c then unlines a else [] := by
  split <;> rfl

theorem unlines_headers (hs : List (List Nat × List Nat)) : unlines (hs.map fun h => h.1 ++ str ": " ++ h.2) = encodeHeaders hs := by
  induction hs with
  | nil => rfl
  | cons h t ih =>
    simp only [unlines, encodeHeaders, List.map_cons, List.flatMap_cons] at ih ⊢
    rw [ih]; rfl

theorem digit_not_cr (n : Nat) : 13 ∉ number n := by
  unfold number
  intro h
  obtain ⟨b, hb, e⟩ := List.mem_map.1 h
  have := decimal_digits n b hb
  simp [isDigitByte] at this
  omega

end Verif.Http
