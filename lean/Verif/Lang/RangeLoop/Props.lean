import Verif.Lang.RangeLoop.Model
/-! # C87, C88: loops over integer ranges -/
namespace Verif.RangeLoop

/-- The values of a range: `k` values from `start` on, `step` apart. -/
def values (start step : Int) : Nat → List Int
  | 0 => []
  | k + 1 => start :: values (start + step) step k

theorem values_get (start step : Int) : ∀ k i : Nat, i < k → (values start step k)[i]? = some (start + i * step)
  | 0, i, h => by omega
  | k + 1, 0, h => by simp [values]
  | k + 1, i + 1, h => by
    simp only [values, List.getElem?_cons_succ]
    rw [values_get (start + step) step k i (by omega)]
    have : start + step + (i : Int) * step = start + ((i + 1 : Nat) : Int) * step := by
      push_cast; rw [Int.add_mul]; omega
    rw [this]

theorem values_length (start step : Int) : ∀ k, (values start step k).length = k
  | 0 => rfl
  | k + 1 => by simp [values, values_length]

/-- Representable in `w` bits, signed. -/
def Fits (w : Nat) (x : Int) : Prop := -2 ^ (w - 1) ≤ x ∧ x < 2 ^ (w - 1)

theorem ofInt_inj {w : Nat} (hw : 0 < w) {x y : Int} (hx : Fits w x) (hy : Fits w y) (h : BitVec.ofInt w x = BitVec.ofInt w y) : x = y := by
  have hp : (2 : Int) ^ w = 2 * 2 ^ (w - 1) := by
    obtain ⟨v, rfl⟩ := Nat.exists_eq_succ_of_ne_zero (Nat.ne_of_gt hw)
    simp [Int.pow_succ]; omega
  have h1 := congrArg BitVec.toInt h
  rw [BitVec.toInt_ofInt, BitVec.toInt_ofInt] at h1
  have hb : ∀ z, Fits w z → z.bmod (2 ^ w) = z := by
    intro z hz
    obtain ⟨a, b⟩ := hz
    apply Int.bmod_eq_of_le_mul_two <;> push_cast <;> omega
  rw [hb x hx, hb y hy] at h1
  exact h1

/-- The loop up to the end, when the end is met after `k` steps and not before. -/
theorem loop_values {w : Nat} (stop step : Int) : ∀ (k : Nat) (x : Int) (f : Nat), k < f → x + k * step = stop →
    (∀ i : Nat, i < k → BitVec.ofInt w (x + i * step) ≠ BitVec.ofInt w stop) →
    loop (BitVec.ofInt w stop) (BitVec.ofInt w step) f (BitVec.ofInt w x) = ((values x step k).map (BitVec.ofInt w), true)
  | 0, x, f + 1, _, he, _ => by
    have : x = stop := by simpa using he
    subst this
    simp [loop, values]
  | k + 1, x, f + 1, hf, he, hn => by
    have h0 := hn 0 (by omega)
    simp only [Int.natCast_zero, Int.zero_mul, Int.add_zero] at h0
    have hx : ∀ i : Nat, x + step + (i : Int) * step = x + ((i + 1 : Nat) : Int) * step := by
      intro i; push_cast; rw [Int.add_mul]; omega
    have ih := loop_values (w := w) stop step k (x + step) f (by omega) (by rw [hx k]; exact_mod_cast he)
      (fun i hi => by rw [hx i]; exact hn (i + 1) (by omega))
    rw [loop, if_pos h0, ← BitVec.ofInt_add, ih]
    simp [values]

/-- **C87, where it holds.**  If the end is a whole number of steps away from the start, in the direction of the step (up
or down), the loop runs its body for `start`, `start + step`, ... up to before `stop`, once each, in this order, and
ends.  (The full statement is without this proviso; see the two failures.) -/
theorem range_loop_partial (w : Nat) (hw : 0 < w) (start stop step : Int) (hs : Fits w start) (he : Fits w stop) (hp : step ≠ 0)
    (k : Nat) (hk : stop - start = k * step) (fuel : Nat) (hf : k < fuel) :
    loop (BitVec.ofInt w stop) (BitVec.ofInt w step) fuel (BitVec.ofInt w start) =
      ((values start step k).map (BitVec.ofInt w), true) := by
  refine loop_values stop step k start fuel hf (by omega) (fun i hi => ?_)
  intro h
  rcases Int.lt_or_gt_of_ne hp with hn | hp
  · have hlt : (k : Int) * step < i * step := Int.mul_lt_mul_of_neg_right (by omega) hn
    have h0 : (i : Int) * step ≤ 0 := Int.mul_nonpos_of_nonneg_of_nonpos (by omega) (by omega)
    have := ofInt_inj hw (x := start + i * step) (y := stop) ⟨by have := he.1; omega, by have := hs.2; omega⟩ he h
    omega
  · have hlt : (i : Int) * step < k * step := Int.mul_lt_mul_of_pos_right (by omega) hp
    have h0 : 0 ≤ (i : Int) * step := Int.mul_nonneg (by omega) (by omega)
    have := ofInt_inj hw (x := start + i * step) (y := stop) ⟨by have := hs.1; omega, by have := he.2; omega⟩ he h
    omega

/-- `range(-2, 7, 3)`. -/
example : loop (BitVec.ofInt 64 7) (BitVec.ofInt 64 3) 10 (BitVec.ofInt 64 (-2)) =
    ([-2, 1, 4].map (BitVec.ofInt 64), true) := by decide

/-- `range(100, 80, -4)`. -/
example : loop (BitVec.ofInt 64 80) (BitVec.ofInt 64 (-4)) 10 (BitVec.ofInt 64 100) =
    ([100, 96, 92, 88, 84].map (BitVec.ofInt 64), true) := by decide

/-- The first rounds of a loop that does not meet its end in them. -/
theorem loop_passes {w : Nat} (stop step : Int) : ∀ (k : Nat) (x : Int),
    (∀ i : Nat, i < k → BitVec.ofInt w (x + i * step) ≠ BitVec.ofInt w stop) →
    loop (BitVec.ofInt w stop) (BitVec.ofInt w step) k (BitVec.ofInt w x) = ((values x step k).map (BitVec.ofInt w), false)
  | 0, x, _ => by simp [loop, values]
  | k + 1, x, hn => by
    have h0 := hn 0 (by omega)
    simp only [Int.natCast_zero, Int.zero_mul, Int.add_zero] at h0
    have hx : ∀ i : Nat, x + step + (i : Int) * step = x + ((i + 1 : Nat) : Int) * step := by
      intro i; push_cast; rw [Int.add_mul]; omega
    have ih := loop_passes (w := w) stop step k (x + step) (fun i hi => by rw [hx i]; exact hn (i + 1) (by omega))
    rw [loop, if_pos h0, ← BitVec.ofInt_add, ih]
    simp [values]

/-- **C87 fails** for a descending range: `start..stop` with `start > stop` has no values, but the body is run
`2^w - (start - stop)` times, from `start` on. -/
theorem descending_range_runs (w : Nat) (hw : 0 < w) (start stop : Int) (hs : Fits w start) (he : Fits w stop) (h : stop < start) :
    let n := (2 ^ w - (start - stop)).toNat
    0 < n ∧ loop (BitVec.ofInt w stop) (BitVec.ofInt w 1) (n + 1) (BitVec.ofInt w start) =
      ((values start 1 n).map (BitVec.ofInt w), true) := by
  have hp : (2 : Int) ^ w = 2 * 2 ^ (w - 1) := by
    obtain ⟨v, rfl⟩ := Nat.exists_eq_succ_of_ne_zero (Nat.ne_of_gt hw)
    simp [Int.pow_succ]; omega
  obtain ⟨a, b⟩ := hs
  obtain ⟨c, d⟩ := he
  have hn : ((2 ^ w - (start - stop)).toNat : Int) = 2 ^ w - (start - stop) := Int.toNat_of_nonneg (by omega)
  refine ⟨by omega, ?_⟩
  generalize (2 ^ w - (start - stop)).toNat = n at *
  have hsame : BitVec.ofInt w stop = BitVec.ofInt w (stop + 2 ^ w) := by
    apply BitVec.eq_of_toInt_eq
    rw [BitVec.toInt_ofInt, BitVec.toInt_ofInt]
    have := Int.add_bmod_right stop (2 ^ w)
    push_cast at this
    exact this.symm
  rw [hsame]
  refine loop_values (stop + 2 ^ w) 1 n start (n + 1) (by omega) (by omega) (fun i hi heq => ?_)
  rw [← hsame] at heq
  have h1 := congrArg BitVec.toInt heq
  rw [BitVec.toInt_ofInt, BitVec.toInt_ofInt] at h1
  have h2 : (stop : Int).bmod (2 ^ w) = stop := by
    apply Int.bmod_eq_of_le_mul_two <;> push_cast <;> omega
  rw [h2] at h1
  -- `start + i` lies strictly between `stop` and `stop + 2^w`
  have h3 : ((start + i * 1 - stop) % (2 ^ w : Int)) = 0 := by
    have h4 := Int.bmod_emod (x := start + i * 1) (m := 2 ^ w)
    rw [h1] at h4
    push_cast at h4
    rw [Int.sub_emod, ← h4]
    simp
  rw [Int.emod_eq_of_lt (by omega) (by omega)] at h3
  omega

/-- `3..1` on 4 bits: the body is run for 3, 4, 5, 6, 7, -8, ..., -1, 0. -/
example : loop (BitVec.ofInt 4 1) (BitVec.ofInt 4 1) 15 (BitVec.ofInt 4 3) =
    ([3, 4, 5, 6, 7, -8, -7, -6, -5, -4, -3, -2, -1, 0].map (BitVec.ofInt 4), true) := by decide

/-- **C87 fails** if the step does not divide the distance: the loop steps over its end and goes on beyond it.  The first
value past the end is run as well, and the loop has not ended then. -/
theorem step_over_end (w : Nat) (hw : 0 < w) (start stop step : Int) (hs : Fits w start) (he : Fits w stop) (q : Nat)
    (h1 : start + q * step < stop) (h2 : stop < start + (q + 1 : Nat) * step) (hfit : Fits w (start + (q + 1 : Nat) * step)) :
    loop (BitVec.ofInt w stop) (BitVec.ofInt w step) (q + 2) (BitVec.ofInt w start) =
      ((values start step (q + 2)).map (BitVec.ofInt w), false) ∧
    (values start step (q + 2))[q + 1]? = some (start + (q + 1 : Nat) * step) ∧ stop < start + (q + 1 : Nat) * step := by
  refine ⟨loop_passes stop step (q + 2) start (fun i hi heq => ?_), values_get _ _ _ _ (by omega), h2⟩
  have hstep : 0 < step := by
    have : ((q + 1 : Nat) : Int) * step = q * step + step := by push_cast; rw [Int.add_mul]; omega
    omega
  by_cases hiq : i ≤ q
  · have h3 : (i : Int) * step ≤ q * step := Int.mul_le_mul_of_nonneg_right (by omega) (by omega)
    have h0 : 0 ≤ (i : Int) * step := Int.mul_nonneg (by omega) (by omega)
    have := ofInt_inj hw (x := start + i * step) (y := stop) ⟨by have := hs.1; omega, by have := he.2; omega⟩ he heq
    omega
  · have hi' : i = q + 1 := by omega
    subst hi'
    have := ofInt_inj hw hfit he heq
    omega

/-- `range(0, 10, 4)` on 8 bits: 12 follows 8. -/
example : (loop (BitVec.ofInt 8 10) (BitVec.ofInt 8 4) 4 (BitVec.ofInt 8 0)) = ([0, 4, 8, 12].map (BitVec.ofInt 8), false) := by decide

/-- **C88.** At compile time a loop over `start..stop` is unrolled for exactly the values from `start` up to below `stop`, whatever
the order of the two, without overflow. -/
theorem unroll_exact (start stop : Int) (hs : Fits 64 start) (he : Fits 64 stop) (fuel : Nat) (hf : (stop - start).toNat < fuel) :
    unroll stop 1 fuel start = some (values start 1 (stop - start).toNat, true) := by
  induction fuel generalizing start with
  | zero => omega
  | succ f ih =>
    unfold unroll
    simp only [Fits] at hs he
    by_cases h : start < stop
    · rw [if_pos h, if_neg (by omega)]
      have := ih (start + 1) (by simp only [Fits]; omega) (by omega)
      rw [this]
      obtain ⟨k, hk⟩ : ∃ k, (stop - start).toNat = k + 1 := ⟨(stop - start).toNat - 1, by omega⟩
      have hk' : (stop - (start + 1)).toNat = k := by omega
      rw [hk, hk']
      simp [values]
    · rw [if_neg h]
      have : (stop - start).toNat = 0 := by omega
      rw [this]
      simp [values]

example : unroll 3 1 6 (-2) = some ([-2, -1, 0, 1, 2], true) ∧ unroll (-2) 1 6 3 = some ([], true) := by decide

end Verif.RangeLoop
