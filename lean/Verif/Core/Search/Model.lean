import Verif.Common.Res
/-!
# Model of `binarySearch` (`src/cxy/core/utils.c` 242-263)

`int` indices are integers; `int` overflow (more than 2^31 elements) is not modelled.  An access
outside the array is undefined.
-/
namespace Verif.Search

variable {α β : Type}

/-- utils.c 248-262, the loop; `cmp x y` is the C comparison result. -/
def loop (arr : List α) (cmp : β → α → Int) (x : β) : Nat → Int → Int → Res Int
  | 0, _, _ => .diverge
  | f + 1, lower, upper =>
    if lower ≤ upper then
      let mid := lower + (upper - lower) / 2
      if mid < 0 then .ub
      else
        match arr[mid.toNat]? with
        | none => .ub
        | some y =>
          let res := cmp x y
          if res = 0 then .ok mid
          else if res > 0 then loop arr cmp x f (mid + 1) upper
          else loop arr cmp x f lower (mid - 1)
    else .ok (-1)

def binarySearch (arr : List α) (cmp : β → α → Int) (x : β) : Res Int :=
  loop arr cmp x (arr.length + 1) 0 (arr.length - 1)

end Verif.Search
