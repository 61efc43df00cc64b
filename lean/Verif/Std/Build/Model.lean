/-!
# Builds

`src/cxy/stdlib/build.cxy` 45-79 (`Context`) and 96-152 (`Builder`).

Names, values and tasks are numbers. Maps are lists of pairs with different keys, as justified for every history of insertions by
`Verif.Std.HashMap`; the order in which a map is visited is a parameter. Left out: `parseOptions` (101-116), which nothing calls;
descriptions of options; what is printed.
-/
namespace Verif.Build

abbrev Map := List (Nat × Nat)

/-- The value of a key (`src/cxy/stdlib/hash.cxy` 253-259). -/
def get (m : Map) (k : Nat) : Option Nat := (m.find? (fun e => e.1 == k)).map (·.2)

/-- `hash.cxy` 245-251 with 276: the value of a key is replaced; true if the key is new. -/
def put (m : Map) (k v : Nat) : Bool × Map :=
  if (get m k).isSome then (false, m.map (fun e => if e.1 == k then (k, v) else e)) else (true, m ++ [(k, v)])

/-- build.cxy 50-53 `setOption`: true if it raises. -/
def setOption (m : Map) (k v : Nat) : Bool × Map :=
  let r := put m k v
  (!r.1, r.2)

/-- build.cxy 55-60 `option`: `none` if it raises. -/
def option (m : Map) (k : Nat) : Option Nat := get m k

/-- A history of `setOption`, each of which may raise: what was raised, and the options then. -/
def setAll : List (Nat × Nat) → Map → List Bool × Map
  | [], m => ([], m)
  | (k, v) :: h, m =>
    let r := setOption m k v
    let s := setAll h r.2
    (r.1 :: s.1, s.2)

/-- build.cxy 120-124 `addTask`, likewise 126-130 `addOption`: true if it raises. -/
def add (m : Map) (k v : Nat) : Bool × Map :=
  if (get m k).isSome then (true, m) else (false, (put m k v).2)

/-- A history of `addTask`. -/
def addAll : List (Nat × Nat) → Map → List Bool × Map
  | [], m => ([], m)
  | (k, v) :: h, m =>
    let r := add m k v
    let s := addAll h r.2
    (r.1 :: s.1, s.2)

/-- build.cxy 146-151 `run`: the tasks that were called, and whether one raised, which ends the loop. -/
def run (raises : Nat → Bool) : Map → List Nat × Bool
  | [] => ([], false)
  | (_, t) :: es =>
    if raises t then ([t], true)
    else
      let r := run raises es
      (t :: r.1, r.2)

/-- build.cxy 33-36 `set`: there is only a comment in it. -/
def set (x : Nat) (_value : Nat) : Nat := x

/-- build.cxy 62-71 `bindOption`: the fields of a structure with their names. -/
def bindOption : Map → Nat → Nat → Map
  | [], _, _ => []
  | (n, x) :: fs, k, v => if k == n then (n, set x v) :: fs else (n, x) :: bindOption fs k v

/-- build.cxy 73-78 `bindOptions` -/
def bindOptions : Map → Map → Map
  | [], fs => fs
  | (k, v) :: m, fs => bindOptions m (bindOption fs k v)

end Verif.Build
