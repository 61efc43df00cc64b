/-! # Reading the imports at the top of a file

Models `/repo/src/cxy/lang/frontend/parser.c` 336-354 and 379-408 (`parseMany`, `parseManyNoSeparator`,
`parseAtLeastOne`), 429-437 (`skipUntil`), 3463-3479 (`parseImportEntity`), 3493-3511 (`skipImportTestDecl`), 3513-3556
(`parseImportDecl`), 3603-3654 (`conditionalTopLevelDecl`) and 3684-3703 (the first loop of `parseProgram`).

Modelled: the imports a file has, from its tokens, when it is compiled for tests and when it is not.  Simplified: the
condition of `define if` is one token that carries the value it preprocesses to; the annotations for C code are left out;
an error ends the reading (the parser logs it, resynchronises and the compilation fails at the next stage). -/

namespace Verif.Imports

inductive Tok where
  | kImport | kTest | kFrom | kAs | kDefine | kIf | kElse
  | lbrace | rbrace | lparen | rparen | comma
  | ident (n : Nat)
  | str (n : Nat)
  | cond (b : Bool)
  | other (n : Nat)
  deriving DecidableEq, Repr

/-- What an import asks for: the named declarations (with the names they get), the path, and the name of the module. -/
structure Import where
  entities : List (Nat × Nat)
  path : Nat
  name : Option Nat
  deriving DecidableEq, Repr

/-- `parseImportEntity` (3463-3479). -/
def entity : List Tok → Option ((Nat × Nat) × List Tok)
  | .ident n :: .kAs :: .ident a :: r => some ((n, a), r)
  | .ident _ :: .kAs :: _ => none
  | .ident n :: r => some ((n, n), r)
  | _ => none

/-- `parseMany(P, tokRBrace, tokComma, parseImportEntity)` (336-354), on fuel. -/
def entities : Nat → List Tok → Option (List (Nat × Nat) × List Tok)
  | 0, _ => none
  | k + 1, ts =>
    match ts with
    | [] => some ([], [])
    | .rbrace :: _ => some ([], ts)
    | _ =>
      match entity ts with
      | none => none
      | some (e, .comma :: r) =>
        match entities k r with
        | some (es, r') => some (e :: es, r')
        | none => none
      | some (e, .rbrace :: r) => some ([e], .rbrace :: r)
      | some (_, _) => none

/-- `skipUntil` (429-437), also the loop in `skipImportTestDecl`. -/
def skipUntil (t : Tok) : List Tok → List Tok
  | [] => []
  | x :: xs => if x = t then x :: xs else skipUntil t xs

/-- `consume0` -/
def consume (t : Tok) : List Tok → Option (List Tok)
  | x :: xs => if x = t then some xs else none
  | [] => none

/-- `consume0(P, tokStringLiteral)` / `parseString` -/
def consumeStr : List Tok → Option (Nat × List Tok)
  | .str n :: xs => some (n, xs)
  | _ => none

/-- The end of `skipImportTestDecl` (3507-3510). -/
def skipTail (hasEntities : Bool) (ts : List Tok) : Option (List Tok) :=
  match consumeStr ts with
  | none => none
  | some (_, r) =>
    if hasEntities then
      match r with
      | .kAs :: .ident _ :: r' => some r'
      | .kAs :: _ => none
      | _ => some r
    else some r

/-- `skipImportTestDecl` (3493-3511), after `import test`. -/
def skipTest : List Tok → Option (List Tok)
  | .lbrace :: r =>
    match consume .kFrom (skipUntil .rbrace r) with
    | none => none
    | some r' => skipTail true r'
  | .ident _ :: r =>
    match consume .kFrom r with
    | none => none
    | some r' => skipTail true r'
  | r => skipTail false r

/-- The second half of `parseImportDecl` (3532-3556): the path and the name of the module. -/
def importTail (es : List (Nat × Nat)) (ts : List Tok) : Option (Import × List Tok) :=
  match consumeStr ts with
  | none => none
  | some (p, r) =>
    if es = [] then
      match r with
      | .kAs :: .ident a :: r' => some (⟨es, p, some a⟩, r')
      | .kAs :: _ => none
      | _ => some (⟨es, p, none⟩, r)
    else some (⟨es, p, none⟩, r)

/-- `parseImportDecl` (3521-3556) after `import` and the check for `test`. -/
def importBody (k : Nat) : List Tok → Option (Import × List Tok)
  | .lbrace :: r =>
    match entities k r with
    | none => none
    | some ([], _) => none
    | some (es, r') =>
      match consume .rbrace r' with
      | none => none
      | some r2 =>
        match consume .kFrom r2 with
        | none => none
        | some r3 => importTail es r3
  | .ident n :: r =>
    match entity (.ident n :: r) with
    | none => none
    | some (e, r') =>
      match consume .kFrom r' with
      | none => none
      | some r2 => importTail [e] r2
  | r => importTail [] r

/-- `parseImportDecl` (3513-3556): nothing for an import for tests that is passed over. -/
def importDecl (testMode : Bool) (k : Nat) : List Tok → Option (Option Import × List Tok)
  | .kImport :: .kTest :: r =>
    if testMode then
      match importBody k r with
      | none => none
      | some (i, r') => some (some i, r')
    else
      match skipTest r with
      | none => none
      | some r' => some (none, r')
  | .kImport :: r =>
    match importBody k r with
    | none => none
    | some (i, r') => some (some i, r')
  | _ => none

/-- `parseManyNoSeparator(P, tokRBrace, parseTopLevelDecl)` (379-391), on fuel. -/
def block (testMode : Bool) : Nat → List Tok → Option (List Import × List Tok)
  | 0, _ => none
  | k + 1, ts =>
    match ts with
    | [] => some ([], [])
    | .rbrace :: _ => some ([], ts)
    | _ =>
      match importDecl testMode k ts with
      | none => none
      | some (i, r) =>
        match block testMode k r with
        | none => none
        | some (is, r') => some (i.toList ++ is, r')

/-- The loop over the branches after the one that was taken (3634-3640), on fuel. -/
def skipElses : Nat → List Tok → Option (List Tok)
  | 0, _ => none
  | k + 1, .kElse :: ts =>
    let ts := match ts with
      | .kDefine :: r => skipUntil .lbrace r
      | r => r
    match consume .lbrace ts with
    | none => none
    | some r =>
      match consume .rbrace (skipUntil .rbrace r) with
      | none => none
      | some r' => skipElses k r'
  | _ + 1, ts => some ts

/-- `conditionalTopLevelDecl` (3603-3654), on fuel. -/
def conditional (testMode : Bool) : Nat → List Tok → Option (List Import × List Tok)
  | 0, _ => none
  | k + 1, .kDefine :: .kIf :: .lparen :: .cond b :: .rparen :: .lbrace :: r =>
    if b then
      match block testMode k r with
      | none => none
      | some (is, r') =>
        match consume .rbrace r' with
        | none => none
        | some r2 =>
          match skipElses k r2 with
          | none => none
          | some r3 => some (is, r3)
    else
      match consume .rbrace (skipUntil .rbrace r) with
      | none => none
      | some (.kElse :: r') => conditional testMode k r'
      | some r' => some ([], r')
  | _ + 1, .kDefine :: _ => none
  | k + 1, .lbrace :: r =>
    match block testMode k r with
    | none => none
    | some (is, r') =>
      match consume .rbrace r' with
      | none => none
      | some r2 => some (is, r2)
  | k + 1, ts =>
    match importDecl testMode k ts with
    | none => none
    | some (i, r) => some (i.toList, r)

/-- The first loop of `parseProgram` (3690-3703), on fuel: the imports, and what follows them. -/
def tops (testMode : Bool) : Nat → List Tok → Option (List Import × List Tok)
  | 0, _ => none
  | k + 1, ts =>
    match ts with
    | .kImport :: _ | .kDefine :: _ =>
      match conditional testMode k ts with
      | none => none
      | some (is, r) =>
        match tops testMode k r with
        | none => none
        | some (js, r') => some (is ++ js, r')
    | _ => some ([], ts)

end Verif.Imports
