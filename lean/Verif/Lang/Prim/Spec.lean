import Verif.Lang.Prim.Model
/-! # What the primitive types mean: the set of values of each integer type -/
namespace Verif.Prim
open Prim

/-- The values of an integral type; independent of the compiler's own tables. -/
def Holds : Prim → Int → Prop
  | boolean, v => v = 0 ∨ v = 1
  | char, v => 0 ≤ v ∧ v < 2 ^ 8
  | wchar, v => 0 ≤ v ∧ v < 2 ^ 32
  | u8, v => 0 ≤ v ∧ v < 2 ^ 8
  | u16, v => 0 ≤ v ∧ v < 2 ^ 16
  | u32, v => 0 ≤ v ∧ v < 2 ^ 32
  | u64, v => 0 ≤ v ∧ v < 2 ^ 64
  | i8, v => -2 ^ 7 ≤ v ∧ v < 2 ^ 7
  | i16, v => -2 ^ 15 ≤ v ∧ v < 2 ^ 15
  | i32, v => -2 ^ 31 ≤ v ∧ v < 2 ^ 31
  | i64, v => -2 ^ 63 ≤ v ∧ v < 2 ^ 63
  | f32, _ => False
  | f64, _ => False

instance (p : Prim) (v : Int) : Decidable (Holds p v) := by
  cases p <;> unfold Holds <;> infer_instance

end Verif.Prim
