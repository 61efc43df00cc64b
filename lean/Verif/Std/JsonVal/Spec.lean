import Verif.Std.JsonVal.Model
/-!
# What JSON texts say

Documents with their layout, their text by the grammar of RFC 8259, and the value of a document at a type.
-/
namespace Verif.JsonVal

open Verif.Json (isSpace)

/-- The text of a number: sign, digits, digits behind the point, and the exponent (its letter, its sign, its digits). -/
structure Num where
  neg : Bool
  int : List Nat
  frac : Option (List Nat)
  exp : Option (Bool × Option Bool × List Nat)

def Num.sign (n : Num) : List Nat := if n.neg then [45] else []
def Num.fracText (n : Num) : List Nat :=
  match n.frac with
  | none => []
  | some ds => 46 :: ds
def Num.expText (n : Num) : List Nat :=
  match n.exp with
  | none => []
  | some (big, sg, ds) => (if big then 69 else 101) :: (match sg with | none => [] | some true => [45] | some false => [43]) ++ ds
def Num.text (n : Num) : List Nat := n.sign ++ n.int ++ n.fracText ++ n.expText

/-- There are digits wherever there have to be. -/
def Num.ok (n : Num) : Bool :=
  (n.int != [] && n.int.all isDigit) &&
  (match n.frac with | none => true | some ds => ds != [] && ds.all isDigit) &&
  (match n.exp with | none => true | some (_, _, ds) => ds != [] && ds.all isDigit)

mutual
/-- Documents. The lists of bytes named `w…` are white space. -/
inductive Doc where
  | null
  | bool (b : Bool)
  | num (n : Num)
  | str (s : List Nat)
  | arr (ds : Docs) (w : List Nat)
  | obj (ms : Mems) (w : List Nat)
inductive Docs where
  | nil
  | cons (w1 : List Nat) (d : Doc) (w2 : List Nat) (ds : Docs)
/-- Members; `comma` says whether a comma follows. -/
inductive Mems where
  | nil
  | cons (w1 key w2 w3 : List Nat) (d : Doc) (w4 : List Nat) (comma : Bool) (ms : Mems)
end

mutual
/-- The text of a document. -/
def Doc.text : Doc → List Nat
  | .null => [110, 117, 108, 108]
  | .bool true => [116, 114, 117, 101]
  | .bool false => [102, 97, 108, 115, 101]
  | .num n => n.text
  | .str s => 34 :: s ++ [34]
  | .arr ds w => 91 :: ds.text ++ w ++ [93]
  | .obj ms w => 123 :: ms.text ++ w ++ [125]
def Docs.text : Docs → List Nat
  | .nil => []
  | .cons w1 d w2 .nil => w1 ++ d.text ++ w2
  | .cons w1 d w2 (.cons a b c e) => w1 ++ d.text ++ w2 ++ 44 :: Docs.text (.cons a b c e)
def Mems.text : Mems → List Nat
  | .nil => []
  | .cons w1 key w2 w3 d w4 comma ms =>
    w1 ++ 34 :: key ++ 34 :: w2 ++ 58 :: w3 ++ d.text ++ w4 ++ (if comma then [44] else []) ++ ms.text
end

def Mems.isNil : Mems → Bool
  | .nil => true
  | _ => false

/-- White space. -/
def Ws (w : List Nat) : Bool := w.all isSpace

mutual
/-- The text is a JSON text: white space is white space, numbers have their digits, and there are commas between members and nowhere else. -/
def Doc.proper : Doc → Bool
  | .num n => n.ok
  | .arr ds w => ds.proper && Ws w
  | .obj ms w => ms.proper && Ws w
  | _ => true
def Docs.proper : Docs → Bool
  | .nil => true
  | .cons w1 d w2 ds => Ws w1 && d.proper && Ws w2 && ds.proper
def Mems.proper : Mems → Bool
  | .nil => true
  | .cons w1 _ w2 w3 d w4 comma ms => Ws w1 && Ws w2 && Ws w3 && d.proper && Ws w4 && (comma == !ms.isNil) && ms.proper
end

/-- A string that ends where its text ends: see `Json.Survives`, of which this is the executable form. -/
def okStr : List Nat → Bool
  | [] => true
  | [c] => c != 0 && c != 34 && c != 92
  | c :: n :: r => c != 0 && (if c = 92 ∧ n = 34 then okStr r else c != 34 && okStr (n :: r))

mutual
/-- The documents `skipValue` is meant for, but for negative numbers and strings with `\\` at their end. -/
def Doc.plain : Doc → Bool
  | .num n => n.ok && !n.neg
  | .str s => okStr s
  | .arr ds w => ds.plain && Ws w
  | .obj ms w => ms.plain && Ws w
  | _ => true
def Docs.plain : Docs → Bool
  | .nil => true
  | .cons w1 d w2 ds => Ws w1 && d.plain && Ws w2 && ds.plain
def Mems.plain : Mems → Bool
  | .nil => true
  | .cons w1 key w2 w3 d w4 comma ms => Ws w1 && okStr key && Ws w2 && Ws w3 && d.plain && Ws w4 && (comma == !ms.isNil) && ms.plain
end

/-- The place and type of the member of a name. -/
def Fields.find : Fields → Nat → List Nat → Option (Nat × Ty)
  | .nil, _, _ => none
  | .cons n t _ fs, i, key => if n = key then some (i, t) else fs.find (i + 1) key

/-- The number, if it is an integer. -/
def Num.integer (n : Num) : Option Int :=
  if n.ok && n.frac.isNone && n.exp.isNone then some (if n.neg then -(value n.int : Int) else value n.int) else none

/-- A type without the optionals around it. -/
def Ty.core : Ty → Ty
  | .opt t => t.core
  | t => t

/-- A value of the type below the optionals as a value of the type. -/
def Ty.wrap : Ty → Val → Val
  | .opt t, v => .some (t.wrap v)
  | _, v => v

def Ty.isOpt : Ty → Bool
  | .opt _ => true
  | _ => false

mutual
/-- The value a document has at a type; `none` if it has none. Integers are taken up to `2 ^ 53`. Members may come in any order; the last of a
name counts, and a member that is missing has its default. -/
def Doc.val : Doc → Ty → Option Val
  | .null, t => if t.isOpt then some .none else none
  | .bool b, t => match t.core with | .bool => some (t.wrap (.bool b)) | _ => none
  | .num n, t => match t.core with
    | .int k => n.integer.bind fun v => if k.holds v && decide (v.natAbs ≤ 2 ^ 53) then some (t.wrap (.int v)) else none
    | _ => none
  | .str s, t => match t.core with | .str => if okStr s then some (t.wrap (.str s)) else none | _ => none
  | .arr ds w, t => match t.core with
    | .tuple ts => if Ws w then (ds.vals ts).bind fun vs => some (t.wrap (.tup vs)) else none
    | _ => none
  | .obj ms w, t => match t.core with
    | .struct fs p => if Ws w then (ms.vals fs p fs.inits).bind fun vs => some (t.wrap (.obj vs)) else none
    | _ => none
def Docs.vals : Docs → Tys → Option (List Val)
  | .nil, .nil => some []
  | .cons w1 d w2 ds, .cons t ts => if Ws w1 && Ws w2 then (d.val t).bind fun v => (ds.vals ts).bind fun vs => some (v :: vs) else none
  | _, _ => none
def Mems.vals : Mems → Fields → Bool → List Val → Option (List Val)
  | .nil, _, _, obj => some obj
  | .cons w1 key w2 w3 d w4 _ ms, fs, p, obj =>
    if Ws w1 && okStr key && Ws w2 && Ws w3 && Ws w4 then
      match fs.find 0 key with
      | some (i, t) => (d.val t).bind fun v => ms.vals fs p (obj.set i v)
      | none => if p && d.plain then ms.vals fs p obj else none
    else none
end

end Verif.JsonVal
