import Verif.Common.Res
import Verif.Lang.Prim.Model
/-!
# Names, enumerations and switch cases

Model of the sorted tables of the compiler: `binarySearch` (`src/cxy/core/utils.c` 242-263), the
member tables of structured types (`src/cxy/lang/frontend/types.c` 17-28, 1093-1170, 1241-1250 and
`ttable.c` 465-470, 984-1009), the table of builtin macros (`src/cxy/lang/middle/eval/macro.c`
1605-1690), the values of enumerations (`src/cxy/lang/middle/bind/resolve.c` 433-463,
`src/cxy/lang/middle/sema/enum.c`, `defaults.c` 32-38) and the checks of `switch` cases
(`src/cxy/lang/middle/sema/switch.c`).

`qsort` is the merge sort of the GNU C library, which is not part of the repository.
-/
namespace Verif.Lookup
open Verif

/-! ## Sorting -/

/-- The merge step of `msort_with_tmp` in glibc: the left element is taken when the comparison
gives at most 0. -/
def merge {α : Type} (cmp : α → α → Int) : List α → List α → List α
  | [], ys => ys
  | x :: xs, [] => x :: xs
  | x :: xs, y :: ys =>
    if cmp x y ≤ 0 then x :: merge cmp xs (y :: ys) else y :: merge cmp (x :: xs) ys
termination_by xs ys => xs.length + ys.length

/-- `msort_with_tmp` of glibc: halves of `n / 2` and `n - n / 2` elements. The number bounds the
depth of the recursion. -/
def msort {α : Type} (cmp : α → α → Int) : Nat → List α → List α
  | 0, l => l
  | f + 1, l =>
    if l.length ≤ 1 then l
    else merge cmp (msort cmp f (l.take (l.length / 2))) (msort cmp f (l.drop (l.length / 2)))

/-- `qsort` of glibc. Elements are values; the tables of pointers sorted by the compiler are
modelled by what the pointers point to. -/
def qsort {α : Type} (cmp : α → α → Int) (l : List α) : List α := msort cmp l.length l

/-! ## Searching -/

/-- A name: its bytes, without the terminating 0. -/
abbrev Name := List Nat

/-- `strcmp` of the C library on names without a 0 byte: the difference of the first bytes that
differ, taken as `unsigned char`. The comparisons of types.c 17-28 and 1093-1098 first compare the
pointers, which gives 0 for the same string, as `strcmp` does. -/
def strcmp : Name → Name → Int
  | [], [] => 0
  | [], b :: _ => -(b : Int)
  | a :: _, [] => (a : Int)
  | a :: as, b :: bs => if a = b then strcmp as bs else (a : Int) - b

/-- The conversion of a wider integer to `int`. -/
def toI32 (v : Int) : Int := (v + 2147483648) % 4294967296 - 2147483648

/-- core/utils.c 249-261: the loop of `binarySearch`, `cmp` is `compare(x, ·)`. The first argument
bounds the number of iterations; reading outside the array is undefined. -/
def searchLoop {α : Type} (arr : List α) (cmp : α → Int) : Nat → Int → Int → Res Int
  | 0, _, _ => .diverge
  | f + 1, lower, upper =>
    if lower ≤ upper then
      let mid := lower + (upper - lower) / 2
      if mid < 0 then .ub
      else match arr[mid.toNat]? with
        | none => .ub
        | some a =>
          if cmp a = 0 then .ok mid
          else if cmp a > 0 then searchLoop arr cmp f (mid + 1) upper
          else searchLoop arr cmp f lower (mid - 1)
    else .ok (-1)

/-- core/utils.c 242-263 `binarySearch` -/
def binarySearch {α : Type} (arr : List α) (cmp : α → Int) : Res Int :=
  searchLoop arr cmp (arr.length + 1) 0 (toI32 arr.length - 1)

/-- A member of a type (`NamedTypeMember`, types.h) or an option of an enumeration
(`EnumOptionDecl`): its name and what it stands for. -/
structure Member (δ : Type) where
  name : Name
  decl : δ
  deriving DecidableEq, Repr

/-- types.c 1093-1098 `sortCompareStructMember`, ttable.c 465-470 `sortCompareEnumOption` -/
def compareMembers {δ : Type} (l r : Member δ) : Int := strcmp l.name r.name

/-- types.c 1100-1122 `makeTypeMembersContainer`, ttable.c 984-1009 `makeEnum`: the table that is
searched. -/
def sortedMembers {δ : Type} (members : List (Member δ)) : List (Member δ) :=
  qsort compareMembers members

/-- What the callers make of the index: `index == -1 ? NULL : sorted[index]`. -/
def entry {α : Type} (arr : List α) : Res Int → Res (Option α)
  | .ok i =>
    if i = -1 then .ok none
    else if i < 0 then .ub
    else match arr[i.toNat]? with
      | some a => .ok (some a)
      | none => .ub
  | .ub => .ub
  | .diverge => .diverge

/-- types.c 1147-1157 `findNamedTypeMemberInContainer`, 1241-1250 `findEnumOption` -/
def findMember {δ : Type} (members : List (Member δ)) (name : Name) : Res (Option (Member δ)) :=
  let arr := sortedMembers members
  entry arr (binarySearch arr fun m => strcmp name m.name)

/-- types.c 1163-1166: the body of the loop, `rest` is what the search in the bases gives. -/
def foundOr {δ : Type} (r rest : Res (Option (Member δ))) : Res (Option (Member δ)) :=
  match r with
  | .ok none => rest
  | r => r

/-- types.c 1159-1169 `findOverloadMemberUpInheritanceChain`: the classes from the type itself up
to its last base, each given by its members. -/
def findInherited {δ : Type} : List (List (Member δ)) → Name → Res (Option (Member δ))
  | [], _ => .ok none
  | c :: cs, name => foundOr (findMember c name) (findInherited cs name)

/-- The bytes of an ASCII string of the source. -/
def bytes (s : String) : Name := s.toList.map Char.toNat

/-- eval/macro.c 1616-1659 `builtinMacros`: names and handlers. -/
def builtinMacros : List (Member String) := [
  ⟨bytes "__copy", "makeCopyNode"⟩, ⟨bytes "__forcedrop", "makeForceDropNode"⟩,
  ⟨bytes "assert", "makeAssertNode"⟩, ⟨bytes "ast_list_add", "actionAstListAdd"⟩,
  ⟨bytes "ast_paste", "makeAstPasteNode"⟩, ⟨bytes "base_of", "makeBaseOfNode"⟩,
  ⟨bytes "column", "makeColumnNumberNode"⟩, ⟨bytes "cstr", "makeCstrNode"⟩,
  ⟨bytes "data", "makeDataNode"⟩, ⟨bytes "destructor", "makeDestructorNode"⟩,
  ⟨bytes "error", "makeAstLogErrorNode"⟩, ⟨bytes "ex", "makeExNode"⟩,
  ⟨bytes "file", "makeFilenameNode"⟩, ⟨bytes "has_member", "makeHasMemberNode"⟩,
  ⟨bytes "has_type", "makeHasTypeNode"⟩, ⟨bytes "indexof", "makeIndexOfNode"⟩,
  ⟨bytes "info", "makeAstLogNoteNode"⟩, ⟨bytes "init_defaults", "makeInitializeDefaults"⟩,
  ⟨bytes "is_base_of", "makeIsBaseOfNode"⟩, ⟨bytes "lambda_of", "makeLambdaOfAstNode"⟩,
  ⟨bytes "len", "makeLenNode"⟩, ⟨bytes "line", "makeLineNumberNode"⟩,
  ⟨bytes "lshift", "makeLShiftNode"⟩, ⟨bytes "mk_ast_list", "makeAstNodeList"⟩,
  ⟨bytes "mk_bc", "makeBackendCallNode"⟩, ⟨bytes "mk_field", "makeAstFieldStmtNode"⟩,
  ⟨bytes "mk_field_expr", "makeAstFieldExprNode"⟩, ⟨bytes "mk_ident", "makeAstIdentifierNode"⟩,
  ⟨bytes "mk_integer", "makeAstIntegerNode"⟩, ⟨bytes "mk_str", "makeAstStringNode"⟩,
  ⟨bytes "mk_struct_expr", "makeAstStructExprNode"⟩,
  ⟨bytes "mk_tuple_expr", "makeAstTupleExprNode"⟩, ⟨bytes "offset", "makeOffsetNumberNode"⟩,
  ⟨bytes "ptroff", "makePointerOfNode"⟩, ⟨bytes "require", "makeRequireNode"⟩,
  ⟨bytes "select", "makeSelectNode"⟩, ⟨bytes "sizeof", "makeSizeofNode"⟩,
  ⟨bytes "typeat", "makeTypeAtIdxNode"⟩, ⟨bytes "typeof", "makeTypeofNode"⟩,
  ⟨bytes "unchecked", "makeUncheckedNode"⟩, ⟨bytes "varargs_def", "makeVarArgsDefaultNode"⟩,
  ⟨bytes "warn", "makeAstLogWarningNode"⟩]

/-- eval/macro.c 1663-1673 `findBuiltinMacro`: the table is searched as it is written. -/
def findBuiltinMacro (name : Name) : Res (Option (Member String)) :=
  entry builtinMacros (binarySearch builtinMacros fun m => strcmp name m.name)

/-! ## Enumerations -/

/-- bind/resolve.c 440-458 the loop of `bindEnumDecl`: `next` is the value of the next option that
gives none. Values are `i64`, kept as integers: leaving the range is not modelled. -/
def optionValues : Int → List (Option Int) → List Int
  | _, [] => []
  | next, none :: os => next :: optionValues (next + 1) os
  | _, some v :: os => v :: optionValues (v + 1) os

/-- The values of the options of `enum { ... }` in the order of the declaration. -/
def enumValues (options : List (Option Int)) : List Int := optionValues 0 options

/-- sema/enum.c 11-15 `compareEnumOptionsByValue`: the difference as an `int`. -/
def compareValues (l r : Int) : Int := toI32 (l - r)

/-- sema/enum.c 62-66: the order in which an enumeration keeps its options, by their values. -/
def keptValues (options : List (Option Int)) : List Int := qsort compareValues (enumValues options)

/-- defaults.c 32-38 `makeDefaultEnumValue`: `options->value`. -/
def defaultValue (options : List (Option Int)) : Option Int := (keptValues options).head?

/-- types.c 1084-1090 `getIntegerTypeMinMax` on an enumeration: the first and the last value, the
last one converted to `u64`. -/
def enumMinMax (options : List (Option Int)) : Option (Int × Nat) :=
  match (keptValues options).head?, (keptValues options).getLast? with
  | some f, some s => some (f, Prim.toU64 s)
  | _, _ => none

/-- switch.c 180-192 with ttable.c 1456-1464 `isIntegerTypeInRange`: is the option with value `v`
accepted as a case of a `switch` on the enumeration? `isSignedType` is false for an enumeration
(types.c 507-526). -/
def enumCaseAccepted (options : List (Option Int)) (v : Int) : Bool :=
  match enumMinMax options with
  | some (f, s) => decide (Prim.toU64 v ≤ s) && decide (v ≥ f)
  | none => false

/-! ## Cases -/

/-- What a case of a `switch` on an integral type matches: a literal or a range of literals. String
literals are not modelled. -/
inductive Match where
  | lit (v : Int)
  | range (min max : Int)
  deriving DecidableEq, Repr

/-- switch.c 20-25 `cxy_compare` -/
def order (a b : Int) : Int := if a < b then -1 else if a > b then 1 else 0

/-- switch.c 36-45 `isIntegerInRange` -/
def inRange (min max value : Int) : Int :=
  if value < min then -1 else if value > max then 1 else 0

/-- switch.c 47-59 `isOverlappingRange` -/
def overlap (minL maxL minR maxR : Int) : Int :=
  if maxL < minR then -1 else if minL > maxR then 1 else 0

/-- switch.c 61-98 `compareLiteralNode` -/
def compareMatch : Match → Match → Int
  | .range a b, .range c d => overlap a b c d
  | .range a b, .lit v => inRange a b v
  | .lit v, .range a b => -inRange a b v
  | .lit v, .lit w => order v w

/-- switch.c 100-125 `checkDuplicateCaseMatches`: is some case reported as a duplicate of its
neighbour? -/
def duplicates : List Match → Bool
  | a :: b :: ms => (compareMatch a b == 0) || duplicates (b :: ms)
  | _ => false

/-- switch.c 207-283 `checkSwitchStmt`: no duplicate is reported among the cases, sorted. -/
def casesAccepted (ms : List Match) : Bool := !duplicates (qsort compareMatch ms)

/-- switch.c 127-192 `checkCaseStmt` on an integer literal of the type `lit` and the value `v`
(`getLiteralValue`, an `i64`), when the condition has the type `cond`. -/
def caseAccepted (cond lit : Prim.Prim) (v : Int) : Bool :=
  Prim.assignable lit cond && (Prim.inRange cond v v).getD false

/-- `case v =>` with the literal as it is written: its type is the smallest one (check.c 748-751). -/
def plainCaseAccepted (cond : Prim.Prim) (v : Int) : Bool :=
  caseAccepted cond (Prim.literalType v) v

end Verif.Lookup
