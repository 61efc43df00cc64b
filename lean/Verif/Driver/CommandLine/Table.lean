import Verif.Driver.CommandLine.Model
/-!
# The flags and commands of the compiler (`src/cxy/driver/options.c`, `src/cxy/driver/options.h`, `src/cxy/driver/stages.h`)
-/
namespace Verif.CommandLine

/-- options.c 51-63 with stages.h 15-47: the public stages and their numbers. -/
def stageTable : List (Str × Int) :=
  [(bytes "Parse", 2), (bytes "Preprocess", 3), (bytes "Shake", 4), (bytes "Bind", 5), (bytes "ConstCheck", 6),
   (bytes "TypeCheck", 7), (bytes "Simplify", 8), (bytes "MemoryMgmt", 9), (bytes "Lower", 10), (bytes "Finalize", 11),
   (bytes "Codegen", 12), (bytes "Collect", 13), (bytes "Compile", 14)]

/-- options.c 20-33 with options.h 16-27. -/
def dumpTable : List (Str × Int) := [(bytes "NONE", 0), (bytes "JSON", 1), (bytes "YAML", 2), (bytes "CXY", 3)]

/-- options.c 35-49 with options.h 29-39. -/
def statsTable : List (Str × Int) := [(bytes "NONE", 0), (bytes "SUMMARY", 1), (bytes "FULL", 2)]

/-- args.h 240-247 (`version`, `help`) and options.c 395-472. -/
def globals : List Flag :=
  [{ name := bytes "version", sf := 118, kind := .switch },
   { name := bytes "help", sf := 104, kind := .switch },
   { name := bytes "max-errors", kind := .int, dflt := some (bytes "10") },
   { name := bytes "warnings", kind := .text, dflt := some [] },
   { name := bytes "warnings-all", kind := .switch },
   { name := bytes "no-color", kind := .switch },
   { name := bytes "without-builtins", kind := .switch },
   { name := bytes "cflags", kind := .many, dflt := some (bytes "[]") },
   { name := bytes "no-pie", kind := .switch },
   { name := bytes "optimization", sf := 79, kind := .level, dflt := some (bytes "d") },
   { name := bytes "define", sf := 68, kind := .define, dflt := some (bytes "[]") },
   { name := bytes "with-mm", kind := .switch },
   { name := bytes "c-define", kind := .many, dflt := some (bytes "[]") },
   { name := bytes "c-header-dir", kind := .many, dflt := some (bytes "[]") },
   { name := bytes "c-lib-dir", kind := .many, dflt := some (bytes "[]") },
   { name := bytes "c-lib", kind := .many, dflt := some (bytes "[]") },
   { name := bytes "debug", sf := 103, kind := .switch },
   { name := bytes "debug-pass-manager", kind := .switch, dflt := some (bytes "false") },
   { name := bytes "passes", kind := .text, dflt := some [] },
   { name := bytes "load-pass-plugin", kind := .many, dflt := some (bytes "[]") },
   { name := bytes "dump-stats", kind := .oneOf statsTable, dflt := some (bytes "SUMMARY") },
   { name := bytes "no-progress", kind := .switch },
   { name := bytes "stdlib", kind := .text, dflt := some [] }]

/-- options.c 165-206 -/
def dev : Cmd where
  name := bytes "dev"
  flags :=
    [{ name := bytes "last-stage", kind := .oneOf stageTable, dflt := some (bytes "Compile") },
     { name := bytes "dump-ast", kind := .oneOf dumpTable, dflt := some (bytes "NONE") },
     { name := bytes "clean-ast", kind := .switch, dflt := some (bytes "false") },
     { name := bytes "with-location", kind := .switch, dflt := some (bytes "false") },
     { name := bytes "without-attrs", kind := .switch, dflt := some (bytes "false") },
     { name := bytes "with-named-enums", kind := .switch, dflt := some (bytes "true") },
     { name := bytes "output", sf := 111, kind := .text, dflt := some [] },
     { name := bytes "print-ir", kind := .switch, dflt := some (bytes "false") },
     { name := bytes "emit-assembly", kind := .switch, dflt := some (bytes "false") },
     { name := bytes "emit-bitcode", kind := .switch, dflt := some (bytes "false") }]

/-- options.c 208-218 -/
def build : Cmd where
  name := bytes "build"
  flags :=
    [{ name := bytes "output", sf := 111, kind := .text, dflt := some (bytes "app") },
     { name := bytes "build-dir", kind := .text, dflt := some [] }]

/-- options.c 220-226 -/
def test : Cmd where
  name := bytes "test"
  flags := [{ name := bytes "build-dir", kind := .text, dflt := some [] }]

/-- args.h 214-220 `CMDL_HELP_CMD` -/
def help : Cmd where
  name := bytes "help"
  flags := []
  npos := 1

/-- options.c 229-233 `BUILD_COMMANDS` -/
def cmds : List Cmd := [help, dev, build, test]

/-- The argument vector of a process. -/
def argv (prog : Str) (args : List Str) : Nat → Str := fun i => (prog :: args).getD i []

/-- A run of the compiler on a command line. -/
def compiler (prog : Str) (args : List Str) : Outcome :=
  command globals cmds dev (args.length + 1) (argv prog args)

end Verif.CommandLine
