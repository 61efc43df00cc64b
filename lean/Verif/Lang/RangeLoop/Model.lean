/-! # Model of loops over integer ranges

Run time: `src/cxy/lang/middle/simplify/simplify.c` 122-189 `simplifyForRangeStmt`, with the while loop of
`src/cxy/lang/backend/llvm/generate.cpp` 725-775.  The variable has `w` bits and additions wrap.
Compile time: `src/cxy/lang/middle/eval/for.c` 168-212 `evalForStmtWithRange`. -/
namespace Verif.RangeLoop

/-- simplify.c 129-183: `x = start; while (x != end) { body; x += step }`.  The result is the list of the values of `x` for which
the body is run and whether the loop has ended within `fuel` rounds.  (A body that leaves the loop is not modelled;
`continue` goes to the update, generate.cpp 714.) -/
def loop {w : Nat} (stop step : BitVec w) : Nat → BitVec w → List (BitVec w) × Bool
  | 0, _ => ([], false)
  | f + 1, x =>
    if x ≠ stop then
      let (xs, d) := loop stop step f (x + step)
      (x :: xs, d)
    else ([], true)

/-- for.c 182-209: `for (; i < count; i += step)`, on `i64`; signed overflow of `i += step` is undefined (`none`). -/
def unroll (count step : Int) : Nat → Int → Option (List Int × Bool)
  | 0, _ => some ([], false)
  | f + 1, i =>
    if i < count then
      if i + step < -9223372036854775808 ∨ 9223372036854775807 < i + step then none
      else (unroll count step f (i + step)).map (fun r => (i :: r.1, r.2))
    else some ([], true)

end Verif.RangeLoop
