/-!
# The C names of what modules declare

Code modelled: /repo/src/cxy/lang/backend/c/generate.c, functions
`generateCustomTypeName` (83–105), `generateEnumType` (156–179), `getModuleNamespace`
and `generateModuleName` (615–626), `generateStructOrClassName` (628–638),
`generateVariableName` (640–653), `generateFunctionName` (655–681) and
`generateEnumOptionName` (700–709).  All modules of a program, and the main file, are
written into one C file (`initCompilerBackend`, 1988–2036), with functions, variables,
type definitions and the options of enumerations among its ordinary identifiers.

Simplifications: a name is the list of its character codes.  The name of a function
that is overloaded, or of an instance of a generic, is the name as it stands after
mangling (see C25), which is a name like any other.  Declarations that
are nested deeper than in a structure, class or enumeration do not occur.
-/

namespace Verif.GNames

/-- Names; `95` is the underscore. -/
abbrev Name := List Nat

/-- What a file declares: variables, functions, member functions of a structure or
class, types (structures, classes, enumerations), options of an enumeration, and
functions declared `extern` or, at top level, `pure`. -/
inductive D where
  | var (x : Name)
  | func (f : Name)
  | method (s f : Name)
  | type (t : Name)
  | option (e a : Name)
  | ext (f : Name)
  deriving DecidableEq, Repr

/-- A program: the name each file gives its module, if it does (`module m`), and the
declarations, each with its file. -/
structure Program where
  name : Nat → Option Name
  decls : List (Nat × D)

/-- generate.c 615–620 and the underscore behind it (648, 662, 635): the name of the
module, empty without one. -/
def nsUnder (m : Option Name) : Name := (m.getD []) ++ [95]

/-- generate.c 88–97 with check.c 837, 938: the namespace of a type is the name of its
module; without one nothing is written. -/
def typeName (m : Option Name) (t : Name) : Name :=
  match m with
  | some n => n ++ 95 :: t
  | none => t

/-- The C identifier of a declaration. -/
def cname (m : Option Name) : D → Name
  | .var x => nsUnder m ++ x
  | .func f => nsUnder m ++ f
  | .method s f => nsUnder m ++ s ++ 95 :: f
  | .type t => typeName m t
  | .option e a => typeName m e ++ 95 :: a
  | .ext f => f

end Verif.GNames
