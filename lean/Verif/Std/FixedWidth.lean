import Verif.Std.Str.View
import Verif.Lang.RangeLoop.Props
/-!
# Fixed-width log fields (`src/cxy/stdlib/log.cxy` 18-32) and repeated characters (`builtins.cxy` 1425-1435)

A stream is the list of bytes written to it.  Characters here are bytes; the padding is a space.
-/
namespace Verif.FixedWidth

open Verif.Str Verif.RangeLoop

/-- builtins.cxy 1431-1434: `for (const i: 0..count) os << c`, a loop over a 64-bit range; `c` is below 0x80.  `none`: the
loop has not ended within `fuel` rounds. -/
def repeatChar (fuel : Nat) (c : Nat) (count : Nat) : Option (List Nat) :=
  match loop (BitVec.ofNat 64 count) 1#64 fuel 0#64 with
  | (xs, true) => some (xs.map fun _ => c)
  | (_, false) => none

/-- log.cxy 27-31 `FixedWidth.str`; `fuel` bounds the padding loop. -/
def fixedWidth (fuel : Nat) (s : List Nat) (count : Nat) : Option (Out (List Nat)) :=
  match substr s 0 ((min count s.length : Nat) : Int) with
  | .ok t => if s.length < count then (repeatChar fuel 32 (count - s.length)).map fun p => .ok (t ++ p) else some (.ok t)
  | .abort => some .abort
  | .ub => some .ub
  | .diverge => some .diverge

theorem repeatChar_eq (fuel c count : Nat) (h : count < 2 ^ 63) (hf : count < fuel) :
    repeatChar fuel c count = some (List.replicate count c) := by
  have := range_loop_partial 64 (by omega) 0 (count : Int) 1 ⟨by decide, by decide⟩ ⟨by omega, by omega⟩ (by decide) count
    (by omega) fuel hf
  unfold repeatChar
  have e1 : BitVec.ofInt 64 (count : Int) = BitVec.ofNat 64 count := by simp
  have e2 : BitVec.ofInt 64 (1 : Int) = 1#64 := by decide
  have e3 : BitVec.ofInt 64 (0 : Int) = 0#64 := by decide
  rw [e1, e2, e3] at this
  rw [this]
  simp only [List.map_map]
  congr 1
  rw [List.eq_replicate_iff]
  refine ⟨by simp [values_length], ?_⟩
  intro x hx
  simp only [List.mem_map] at hx
  obtain ⟨_, _, rfl⟩ := hx
  rfl

/-- **C48.** A fixed-width field emits exactly the requested number of characters: the beginning of the value, then
spaces; in particular a value that fits is emitted whole. -/
theorem field_width (s : List Nat) (count fuel : Nat) (hc : count < 2 ^ 63) (hf : count < fuel) :
    ∃ out, fixedWidth fuel s count = some (.ok out) ∧ out.length = count ∧
      out = (s ++ List.replicate count 32).take count := by
  have hsub : substr s 0 ((min count s.length : Nat) : Int) = .ok (s.take (min count s.length)) := by
    unfold substr
    rw [if_pos (by omega), if_neg (by omega), if_pos (by omega)]
    simp
  unfold fixedWidth
  rw [hsub]
  simp only
  by_cases hlt : s.length < count
  · rw [if_pos hlt, repeatChar_eq _ _ _ (by omega) (by omega)]
    refine ⟨_, rfl, ?_, ?_⟩
    · simp; omega
    · rw [List.take_append, List.take_of_length_le (by omega), List.take_of_length_le (by omega), List.take_replicate]
      congr 2; omega
  · rw [if_neg hlt]
    refine ⟨_, rfl, ?_, ?_⟩
    · simp; omega
    · rw [List.take_append_of_le_length (by omega), Nat.min_eq_left (by omega)]

example : fixedWidth 11 [104, 105] 5 = some (.ok [104, 105, 32, 32, 32]) ∧
    fixedWidth 11 [104, 105, 106] 2 = some (.ok [104, 105]) := by decide

end Verif.FixedWidth
