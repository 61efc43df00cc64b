import Verif.Std.Json.Str
/-!
# JSON values (`src/cxy/stdlib/json.cxy`)

`toJSON` (6–79), `JSONParser` (83–275), `fieldFromJSON` (277–311), `parseJSON` (313–372) and `fromString` (377–381) for booleans, integers,
strings, optionals, tuples and structures with the attribute `json`. A position in the text is given as the text that is still ahead; reading
behind the end gives the NUL that ends a `String`. Lines and columns, which only appear in messages, are left out, and so are floating-point
members, base64 members, classes with a `fromJSON` of their own, and arrays and slices, which can be written but not read. Letters are those
of ASCII.
-/
namespace Verif.JsonVal

open Verif.Json (isSpace)

/-- An integer type. -/
structure IntTy where
  signed : Bool
  width : Nat
  deriving DecidableEq, Repr

def IntTy.i8 : IntTy := ⟨true, 8⟩
def IntTy.i32 : IntTy := ⟨true, 32⟩
def IntTy.i64 : IntTy := ⟨true, 64⟩
def IntTy.u64 : IntTy := ⟨false, 64⟩

/-- The numbers of a type. -/
def IntTy.holds (t : IntTy) (v : Int) : Bool :=
  if t.signed then decide (-2 ^ (t.width - 1) ≤ v ∧ v < 2 ^ (t.width - 1)) else decide (0 ≤ v ∧ v < 2 ^ t.width)

/-- Values. The members of a structure are in the order of their declaration. -/
inductive Val where
  | bool (b : Bool)
  | int (v : Int)
  | str (s : List Nat)
  | tup (vs : List Val)
  | none
  | some (v : Val)
  | obj (vs : List Val)

mutual
/-- The types that can be written and read. -/
inductive Ty where
  | bool
  | int (t : IntTy)
  | str
  | tuple (ts : Tys)
  | opt (t : Ty)
  /-- `anyKey` is `@json(partial: true)`. -/
  | struct (fs : Fields) (anyKey : Bool)
inductive Tys where
  | nil
  | cons (t : Ty) (ts : Tys)
/-- Names, types and the values of `T{}`. -/
inductive Fields where
  | nil
  | cons (name : List Nat) (t : Ty) (init : Val) (fs : Fields)
end

/-! ## Writing -/

/-- `%lld` for a number that is not negative. -/
def digits (n : Nat) : List Nat := if n < 10 then [48 + n] else digits (n / 10) ++ [48 + n % 10]

/-- `%lld` -/
def showInt (v : Int) : List Nat := if v < 0 then 45 :: digits v.natAbs else digits v.natAbs

/-- builtins.cxy 572–576 and 646–647: every integer is converted to `i64`. -/
def writeInt (v : Int) : List Nat := showInt (Int.bmod v (2 ^ 64))

mutual
/-- json.cxy 6–79 `toJSON`. Structures: 25–49, tuples: 50–62, optionals: 16–24. -/
def write : Ty → Val → List Nat
  | .bool, .bool b => if b then [116, 114, 117, 101] else [102, 97, 108, 115, 101]
  | .int _, .int v => writeInt v
  | .str, .str s => Json.toJSON s
  | .opt _, .none => [110, 117, 108, 108]
  | .opt t, .some v => write t v
  | .tuple ts, .tup vs => 91 :: writeElems true ts vs ++ [93]
  | .struct fs _, .obj vs => 123 :: writeFields true fs vs ++ [125]
  | _, _ => []
def writeElems (first : Bool) : Tys → List Val → List Nat
  | .cons t ts, v :: vs => (if first then [] else [44, 32]) ++ write t v ++ writeElems false ts vs
  | _, _ => []
def writeFields (first : Bool) : Fields → List Val → List Nat
  | .cons n t _ fs, v :: vs => (if first then [] else [44, 32]) ++ 34 :: n ++ [34, 58, 32] ++ write t v ++ writeFields false fs vs
  | _, _ => []
end

/-! ## Reading -/

/-- A value and the text behind it, a raised error, undefined behaviour, or a loop that is still running. -/
inductive G (α : Type) where
  | ok (a : α) (rest : List Nat)
  | raised
  | ub
  | more
  deriving DecidableEq, Repr

def G.bind {α β : Type} : G α → (α → List Nat → G β) → G β
  | .ok a r, f => f a r
  | .raised, _ => .raised
  | .ub, _ => .ub
  | .more, _ => .more

/-- json.cxy 102–106 `skipWhitespace` -/
def skipWs (s : List Nat) : List Nat := s.dropWhile isSpace

/-- json.cxy 108–116 `consumeChar` (never asked for NUL) -/
def consumeChar (c : Nat) (s : List Nat) : Bool × List Nat :=
  match skipWs s with
  | [] => (false, [])
  | x :: r => if x = c then (true, r) else (false, x :: r)

/-- json.cxy 217–222 `expectChar` -/
def expectChar (c : Nat) (s : List Nat) : G Unit :=
  match skipWs s with
  | [] => .raised
  | x :: r => if x = c then .ok () r else .raised

/-- json.cxy 130–139: up to the end, a NUL, or a quote without a backslash in front. -/
def scanStr : List Nat → List Nat × List Nat
  | [] => ([], [])
  | [c] => if c = 0 ∨ c = 34 then ([], [c]) else ([c], [])
  | c :: n :: r =>
    if c = 0 then ([], c :: n :: r)
    else if c = 92 ∧ n = 34 then ((c :: n :: (scanStr r).1), (scanStr r).2)
    else if c = 34 then ([], c :: n :: r)
    else (c :: (scanStr (n :: r)).1, (scanStr (n :: r)).2)

/-- json.cxy 121–145 `expectString` -/
def expectString (s : List Nat) : G (List Nat) :=
  match skipWs s with
  | 34 :: r =>
    match (scanStr r).2 with
    | 34 :: t => .ok (scanStr r).1 t
    | _ => .raised
  | _ => .raised

def isAlpha (c : Nat) : Bool := (decide (65 ≤ c) && decide (c ≤ 90)) || (decide (97 ≤ c) && decide (c ≤ 122))
def isDigit (c : Nat) : Bool := decide (48 ≤ c) && decide (c ≤ 57)

/-- json.cxy 151–166 `expectBool` -/
def expectBool (s : List Nat) : G Bool :=
  let w := (skipWs s).takeWhile isAlpha
  let r := (skipWs s).dropWhile isAlpha
  if w = [116, 114, 117, 101] then .ok true r
  else if w = [102, 97, 108, 115, 101] then .ok false r
  else .raised

/-- json.cxy 224–231 `matchNull` -/
def matchNull (s : List Nat) : Bool × List Nat :=
  match skipWs s with
  | 110 :: 117 :: 108 :: 108 :: r => (true, r)
  | r => (false, r)

/-- json.cxy 174–191: the text behind a number. -/
def afterSign (s : List Nat) : List Nat := if s.headD 0 = 45 then s.tail else s
def afterFraction (s : List Nat) : List Nat := if s.headD 0 = 46 then s.tail.dropWhile isDigit else s
def afterExponent (s : List Nat) : List Nat :=
  if s.headD 0 = 69 ∨ s.headD 0 = 101 then
    let m := consumeChar 45 s.tail
    let p := if m.1 then m.2 else (consumeChar 43 m.2).2
    p.dropWhile isDigit
  else s
def afterNumber (s : List Nat) : List Nat := afterExponent (afterFraction ((afterSign s).dropWhile isDigit))

/-- The text `strtod` leaves (C 7.22.1.3): a sign, digits with a point, and an exponent if it has digits. Nothing is taken if there are no
digits. A hexadecimal number is only started: the parser stops in front of the `x`, so that what is taken differs anyway. -/
def strtodExponent (s : List Nat) : List Nat :=
  if s.headD 0 = 69 ∨ s.headD 0 = 101 then
    let t := if s.tail.headD 0 = 45 ∨ s.tail.headD 0 = 43 then s.tail.tail else s.tail
    if isDigit (t.headD 0) then t.dropWhile isDigit else s
  else s
def strtodRest (s : List Nat) : List Nat :=
  let t := if s.headD 0 = 45 ∨ s.headD 0 = 43 then s.tail else s
  let i := t.takeWhile isDigit
  let u := t.dropWhile isDigit
  if i = [48] ∧ (u.headD 0 = 120 ∨ u.headD 0 = 88) then u.tail
  else if u.headD 0 = 46 then
    if i = [] ∧ isDigit (u.tail.headD 0) = false then s else strtodExponent (u.tail.dropWhile isDigit)
  else if i = [] then s
  else strtodExponent u

/-- json.cxy 168–203 `expectFloat`: the text of the number. -/
def expectNumber (s : List Nat) : G (List Nat) :=
  let s0 := skipWs s
  let r := afterNumber s0
  if r.length = s0.length then .raised
  else if (strtodRest s0).length ≠ r.length then .raised
  else .ok (s0.take (s0.length - r.length)) r

/-- The value of digits. -/
def value (ds : List Nat) : Nat := ds.foldl (fun a c => a * 10 + (c - 48)) 0

/-- The double nearest to a number, ties to even. (Numbers of more than 308 digits, which are infinite, are left out.) -/
def toF64 (n : Nat) : Nat :=
  let e := n.log2 - 52
  let q := n / 2 ^ e
  let r := n % 2 ^ e
  (if 2 * r > 2 ^ e ∨ (2 * r = 2 ^ e ∧ q % 2 = 1) then q + 1 else q) * 2 ^ e

/-- The number `strtod` gives, without its fraction. `frac` is what it gives for numbers with a fraction or an exponent. -/
def strtod (frac : List Nat → Int) (t : List Nat) : Int :=
  let neg := t.headD 0 = 45
  let d := if neg then t.tail else t
  if d.all isDigit then (if neg then -(toF64 (value d) : Int) else toF64 (value d)) else frac t

/-- json.cxy 205–208 `expectInteger`: a double that does not fit the type is undefined. -/
def expectInteger (frac : List Nat → Int) (t : IntTy) (s : List Nat) : G Int :=
  (expectNumber s).bind fun tok r => if t.holds (strtod frac tok) then .ok (strtod frac tok) r else .ub

mutual
/-- json.cxy 235–274 `skipValue` -/
def skipValue : Nat → List Nat → G Unit
  | 0, _ => .more
  | f + 1, s =>
    let s := skipWs s
    if s.headD 0 = 34 then (expectString s).bind fun _ r => .ok () r
    else if s.headD 0 = 116 ∨ s.headD 0 = 102 then (expectBool s).bind fun _ r => .ok () r
    else if s.headD 0 = 110 then .ok () (matchNull s).2
    else if isDigit (s.headD 0) then (expectNumber s).bind fun _ r => .ok () r
    else if s.headD 0 = 123 then skipMembers f (skipWs s.tail)
    else if s.headD 0 = 91 then skipElems f (skipWs s.tail)
    else .ok () s
/-- json.cxy 250–261 -/
def skipMembers : Nat → List Nat → G Unit
  | 0, _ => .more
  | f + 1, s =>
    if s.headD 0 = 125 then expectChar 125 s
    else (expectString s).bind fun _ r => (expectChar 58 (skipWs r)).bind fun _ r => (skipValue f r).bind fun _ r =>
      let c := consumeChar 44 (skipWs r)
      if c.1 then skipMembers f (skipWs c.2) else expectChar 125 c.2
/-- json.cxy 264–272 -/
def skipElems : Nat → List Nat → G Unit
  | 0, _ => .more
  | f + 1, s =>
    if s.headD 0 = 93 then expectChar 93 s
    else (skipValue f s).bind fun _ r =>
      let c := consumeChar 44 (skipWs r)
      if c.1 then skipElems f (skipWs c.2) else expectChar 93 c.2
end

/-- The values of `T{}`. -/
def Fields.inits : Fields → List Val
  | .nil => []
  | .cons _ _ v fs => v :: fs.inits

/-- json.cxy 353–362: the loop over the members; `field` is `fieldFromJSON`. -/
def members (field : List Nat → List Val → List Nat → G (List Val)) : Nat → List Val → List Nat → G (List Val)
  | 0, _, _ => .more
  | f + 1, obj, s =>
    if (skipWs s).headD 0 = 125 then .ok obj (skipWs s)
    else (expectString (skipWs s)).bind fun key r => (expectChar 58 r).bind fun _ r => (field key obj r).bind fun obj r =>
      members field f obj (consumeChar 44 r).2

mutual
/-- json.cxy 313–372 `parseJSON` -/
def parse (frac : List Nat → Int) : Ty → List Nat → G Val
  | .bool, s => (expectBool s).bind fun b r => .ok (.bool b) r
  | .int t, s => (expectInteger frac t s).bind fun v r => .ok (.int v) r
  | .str, s => (expectString s).bind fun v r => .ok (.str v) r
  | .tuple ts, s => (expectChar 91 s).bind fun _ r => (parseElems frac true ts r).bind fun vs r => (expectChar 93 r).bind fun _ r => .ok (.tup vs) r
  | .opt t, s => if (matchNull s).1 then .ok .none (matchNull s).2 else (parse frac t (matchNull s).2).bind fun v r => .ok (.some v) r
  | .struct fs p, s => (expectChar 123 s).bind fun _ r =>
      (members (fun key obj r => parseField frac fs p 0 key obj r) (r.length + 1) fs.inits r).bind fun vs r =>
        (expectChar 125 r).bind fun _ r => .ok (.obj vs) r
/-- json.cxy 325–331 -/
def parseElems (frac : List Nat → Int) (first : Bool) : Tys → List Nat → G (List Val)
  | .nil, s => .ok [] s
  | .cons t ts, s => (if first then .ok () s else expectChar 44 s).bind fun _ r => (parse frac t r).bind fun v r =>
      (parseElems frac false ts r).bind fun vs r => .ok (v :: vs) r
/-- json.cxy 277–311 `fieldFromJSON`; `i` members were looked at. -/
def parseField (frac : List Nat → Int) : Fields → Bool → Nat → List Nat → List Val → List Nat → G (List Val)
  | .nil, p, _, _, obj, s => if p then (skipValue (2 * s.length + 1) s).bind fun _ r => .ok obj r else .raised
  | .cons n t _ fs, p, i, key, obj, s =>
    if n = key then (parse frac t s).bind fun v r => .ok (obj.set i v) r else parseField frac fs p (i + 1) key obj s
end

/-- json.cxy 377–381 `fromString`: what is behind the value is not looked at. -/
def fromString (frac : List Nat → Int) (t : Ty) (s : List Nat) : G Val := parse frac t s

end Verif.JsonVal
