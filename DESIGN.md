# Verification of the cxy compiler and standard library: design

Subject: dccarter/cstar (`/repo`): the cxy compiler (C and C++), its runtime and
standard library (cxy). The sources were read as text; nothing was built or run.
This directory holds an executable Lean 4 model of selected components and
machine-checked proofs about it.

## Layout

* `properties.jsonl`  the properties, in terms of the API.
* `lean/Verif/<Area>/<Component>/Model.lean`  transcription of the code. Every
  definition cites file and lines.
* `.../Spec.lean` or a `Spec` section: the independent specification.
* `.../Lemmas.lean`  helper lemmas.
* `.../Props.lean`  the property theorems and, beside each, an `example` showing
  that its hypotheses are met by a concrete non-trivial case.
* `MANIFEST.json`  property to theorem map.
* `seeded/LOG.jsonl`  log of deliberately wrong models and which theorems caught them.

## Method

* Plain total functions. Loops become structural recursion or recursion on fuel;
  when fuel is used the model's result has an explicit "out of fuel" outcome and
  a theorem shows that it does not occur (or, where the code really loops
  forever, that it occurs for every fuel).
* Undefined behaviour (division by zero, out-of-bounds access, over-wide shift)
  is a separate outcome of the model, never silently totalised.
* External behaviour (hash functions, comparators, user callbacks) is a parameter
  of the model; what is assumed of it is an explicit hypothesis.
* When the code violates a property, the negation is proved, for a whole family of
  inputs where possible and on a concrete witness otherwise, and the part that does
  hold is a theorem whose name ends in `_partial`.

## Trusted base

* The Lean 4.33.0 kernel.
* Axioms: at most `propext`, `Classical.choice`, `Quot.sound`, listed per theorem below; none added here, no `sorry`,
  no `native_decide`, no `bv_decide`.
* The reading of the code: each model definition cites the lines it follows. The models were written by hand from the
  text of the sources; nothing connects them mechanically to the C, C++ and cxy code, and nothing was compiled or run.
* The meaning of C and of LLVM instructions as used in the models (unsigned arithmetic modulo 2^n, undefined behaviour
  as an outcome), and the meaning of cxy code as given by its own compiler (literal types, `!=` loops, casts).
* Library functions (`memcpy`, `strlen`, `strncmp`, `snprintf`, `qsort`, ...) behave as the C standard says.
* Memory allocation is assumed to succeed. Integer sizes are unbounded in the models unless the property is about
  overflow; each model says which.

## Two back ends

The compiler has a back end that writes C (`backend/c`, used by default) and one that builds LLVM modules (`backend/llvm`, used
when configured with `ENABLE_LLVM_BACKEND`). C59-C64, C97, C116-C120, C154 and C155 are about the second, C161 and later
about the first; each header says which.

## Not modelled

Code generation other than arithmetic, casts, assignment and control flow (so no calls, members, closures and memory layout); declarations, statements and types in the parser;
type checking other than the parts listed; declarations of exceptions and their traces; generics and macros; the memory-management pass for anything but locals of class type
(members, temporaries, tuples, unions, `delete`);
debug information; of the C back end everything but the text of expressions, literals, integer arithmetic and the statements of control flow; plugins; the package manager; most of the runtime (saving and restoring the registers of
coroutines), and of the standard library everything that is not listed below (addresses and listening sockets, TLS, the HTTP parser llhttp, middlewares, directories, time, threads,
test runner).

## Modelled code, component by component

The header of each model file, generated from the sources. Anything not named here is not modelled.

* `Verif/Core/Array/Model.lean`: Model of `src/cxy/core/array.c` (dynamic arrays). Elements are abstract values; a cell that was never written holds `none`. `room` is the number of cells really allocated; every access is checked against it.
* `Verif/Core/Excerpt/Model.lean`: The source line shown under a message (`src/cxy/core/log.c` 150-305). `src/cxy/core/log.c` 11-12 (the two buffers of 64 bytes), 150-163 `findLineBegin`, 165-179 `findLineEnd`, 181-189 `countDigits`, 191-197 `printEmptySpace`, 199-214 `printFileLine`, 216-225 `printLineMarkers`, 227-230 `isMultilineFileLoc` and 232-302 `printDiagnostic`. A file is the list of its bytes. The file can be read and a place of the message is not past its end (the places come from reading the same file). The escape codes of colours are left out, as with `--no-color`: `format` writes nothing for `{$}` then. A subtraction of two `size_t` wraps.
* `Verif/Core/Format/Model.lean`: Model of the buffer chain of `src/cxy/core/format.c`. A format state is a list of buffers, the last one being the current one. A buffer is its capacity and the bytes in use. Only the buffer handling is modelled; the conversion of numbers by `snprintf` is a parameter (the bytes written).
* `Verif/Core/HTable/Model.lean`: Model of `src/cxy/core/htable.c` and `src/cxy/core/primes.h`. Open addressing with linear probing. The element type is abstract; `memcpy` of an element is the copy of a value. Sizes are unbounded naturals (the C code uses `size_t`; overflow of `size * 100` needs more elements than memory holds). Allocation succeeds. The element size is at least four bytes: `rehashTable` allocates the hash array with `elemSize` bytes per bucket (line 66), and every caller stores at least a pointer.
* `Verif/Core/HTable/Wrap.lean`: Removal from a chain that runs past the last bucket. `removal_can_lose_another_element` exhibits one table in which `removeFromHashTable` (htable.c 174-196) loses an element. Here the loss is shown for every table in which the chain of occupied buckets starting at the removed one reaches the last bucket and bucket 0 holds an element whose own first bucket is 0.
* `Verif/Core/Hash/Model.lean`: Model of `src/cxy/core/hash.c`. `HashCode` is `uint32_t`, here `BitVec 32`; C conversions between unsigned types are `setWidth`.
* `Verif/Core/Hmap/Model.lean`: Model of `src/cxy/core/hmap.c`. The robin-hood map of the compiler (memory management pass). A stored blob of `elemSize` bytes is an abstract element. Allocation succeeds.
* `Verif/Core/Log/Model.lean`: Model of the diagnostics log (`src/cxy/core/log.c`, `src/cxy/core/log.h`). Only the bookkeeping and the decision whether a diagnostic is printed are modelled; the text of a diagnostic is an opaque value and printing appends it to a list. Both built-in handlers (`printDiagnosticToConsole` and `printDiagnosticToMemory`) go through `printDiagnosticToState`, which is what is modelled; a handler supplied by a caller is not.
* `Verif/Core/MemPool/Alias.lean`: When the memory pool hands out the same bytes twice. `reset_then_cache_aliases` and `cache_ignores_size` are single histories. Here both failures are shown for every history that leaves an item in a free list (mempool.c 106-146).
* `Verif/Core/MemPool/Model.lean`: Model of `src/cxy/core/mempool.c`. A pointer into a pool is a block number and an offset into the data of that block. Blocks are numbered in list order. `size_t` arithmetic is not bounded. Tracked allocations (lines 76-104) are not modelled.
* `Verif/Core/RobinHood/Model.lean`: Robin-hood probing, shared by `src/cxy/core/hmap.c` and `src/cxy/stdlib/hash.cxy`. The two maps are the same algorithm in two languages. They differ in * how the distance of a stored item from its home is computed (`probe`), and * the test that decides whether an insertion swaps with the stored item (`swap`). Both are parameters here and are instantiated in `Core/Hmap/Model.lean` and `Std/HashMap/Model.lean`. A slot with header 0 is empty (`none`); header `h > 0` means home slot `h - 1`. Elements are abstract (`α`): in hmap.c the stored blob, in hash.cxy the key together with the value. Sizes and capacities are unbounded naturals.
* `Verif/Core/Sb/Model.lean`: Model of `src/cxy/core/sb.c` (string builder). Bytes are natural numbers. A byte that was never written holds `none`. `room` is the number of bytes allocated, `none` when `data` is NULL. `u64` arithmetic is not bounded.
* `Verif/Core/Search/Model.lean`: Model of `binarySearch` (`src/cxy/core/utils.c` 242-263). `int` indices are integers; `int` overflow (more than 2^31 elements) is not modelled. An access outside the array is undefined.
* `Verif/Core/StrPool/Model.lean`: Model of `src/cxy/core/strpool.c` (string interning). The pool is the hash table of `htable.c` holding pointers to interned strings. A pointer is a number (`Nat`, fresh for every allocation) and comes with the bytes it refers to; the terminating NUL is implicit.
* `Verif/Core/StrPool/Names.lean`: Model of the name builders of `src/cxy/core/strpool.c`. Each builds a string in a fixed-size local buffer and interns it. The functions below return the string that is interned. C strings are lists of bytes without NUL.
* `Verif/Core/Text/Literals.lean`: What string and character literals mean (`src/cxy/core/utils.c` 29-209). The meaning of an escape is given by the table `meaning`; the two readers (`escapeString` for string literals, `convertEscapeSeq` for character literals) are compared with it.
* `Verif/Core/Text/Model.lean`: Character encoding and escapes: `sb.c`, `format.c`, `utils.c`, `builtins.cxy`. Bytes and code points are natural numbers (bytes below 256, code points below 2^32); `% 256` is the cast to `char`.
* `Verif/Core/Try/Model.lean`: Exceptions of the compiler. `src/cxy/core/e4c.c` 19-84 (`e4c_propagate`, `e4c_try`, `e4c_hook`) and 107-124 (`e4c_throw_ctx`), with the macros of `src/cxy/core/e4c.h` 68-87, and how the parser uses them: `src/cxy/lang/frontend/parser.c` 1394-1403 (statements of a block) and 3701-3708 (declarations). Left out: messages, `E4C_FINALLY` (not used), and `return` from within a statement (`parser.c` 3698).
* `Verif/Driver/CImport/Model.lean`: Importing C headers. Code modelled: /repo/src/cxy/driver/c-import/import.cpp — the translation of types (`getIntegerTypeFromBitWidth` 44–60, `toCxy` for built-in types 62–112, enumerations 238–245, qualified types 279–355), of fields and records (358–441), of constants (`MacroImporter` 664–768); and what /repo/src/cxy/lang/backend/c/generate.c writes for the types (`generateStructType` 215–259, `generateUntaggedUnionType` 363–393, `generateTypeName` 483–585, prelude 2020–2021: `typedef int bool; typedef unsigned int wchar_t;`). The headers themselves are not included by the C that is written: a structure of a header is written out again, field by field, with the types it was imported with. Simplifications: the target is 64-bit Linux (LP64), where only the signedness of plain `char` differs between machines. No bit fields. A type is seen as its layout; qualifiers and the targets of pointers do not count.
* `Verif/Driver/CommandLine/Model.lean`: Model of the command line of the compiler (`src/cxy/core/args.c`, `src/cxy/core/args.h`, `src/cxy/driver/options.c`). Strings are lists of bytes without the terminator. The argument vector is an array of strings which the parser rewrites in place, as the code does: the names of the files to compile are stored over the arguments already read, and `main` (driver/main.c 30-31) compiles `argv[1]` to `argv[argc - 1]` afterwards. Flags are numbered with the global ones first (the order in which args.c 312-335 looks them up), then those of the chosen command. The usage text is not modelled.
* `Verif/Driver/CommandLine/Warnings.lean`: The list of warnings (`src/cxy/core/log.c` 36-98 and 421-464, `src/cxy/core/log.h` 13-34). The table of names is a hash table in the code; here it is a list (the table itself is C02-C04).
* `Verif/Driver/ModPath/Model.lean`: Finding the file of an import or include. Code modelled: /repo/src/cxy/driver/driver.c, `isImportModuleACHeader` (334–338), `getModuleLocation` (340–389) and `getIncludeFileLocation` (391–400), and the use of the result in `compileModule` (402–412) and in /repo/src/cxy/lang/frontend/parser.c, `advanceLexer_` (247–276) and `parseImportDecl` (3541–3547). The buffer `path` has `PATH_MAX` bytes and is not initialised: a byte that was not written is `none`, a write outside and a read of an unset byte are undefined behaviour. `realpath` is any function from texts to the path of an existing file or nothing. The texts are C strings, so they hold no zero byte (the theorems say so where they need it); 46 is the dot, 47 the slash. `realpath` and `access` agree on which files exist.
* `Verif/Driver/Modules/Model.lean`: Compiling the modules of a program. Models `/repo/src/cxy/driver/driver.c` 62-88 (the cache of modules), 402-508 (`compileModule`) and 510-523 (`compileFile`), with `/repo/src/cxy/lang/frontend/parser.c` 3513-3556 (`parseImportDecl`, which compiles the imported module while the importing file is still being parsed) and `/repo/src/cxy/lang/backend/c/generate.c` 1795-1812 (`visitProgram`: the code of a module goes to the end of the one C file). Modelled: which files are compiled, how often and in which order their code is written. A file is a natural number (the real path the compiler looks it up by); a program is a table from files to the files they import, in order. `fail` is a compilation that stops with an error (a file that is not there); `more` is a compiler that has not finished within the given nesting of imports: the compiler recurses in C, so a compilation that is `more` for every amount runs until its stack is exhausted. Simplified: the module with the built-in declarations, which is written first, is left out; the entities that an import names all exist; C headers are left out; an error in one import ends the compilation at once (the parser resynchronises, but no further code is written once an error was logged).
* `Verif/Driver/Stages.lean`: Model of the compiler pipeline (`src/cxy/driver/stages.c`, `src/cxy/driver/driver.c`). What a stage does to the program is arbitrary: `body s p` gives the program after stage `s`, the number of errors it reported, and (for the last stage) whether the back end could make an executable.
* `Verif/Lang/ArrayLit/Model.lean`: Array literals and conditional expressions of primitive types. Code modelled: /repo/src/cxy/lang/middle/sema/array.c, `checkArrayExpr` (150–185); /repo/src/cxy/lang/middle/sema/check.c, `checkTernaryExpr` (766–800); /repo/src/cxy/lang/middle/sema/variables.c, `checkVarDecl` (48–85), the part on arrays; /repo/src/cxy/lang/backend/c/generate.c, `generateArrayType` (123–136), `visitArrayExpr` (859–869) and `visitVariableDecl` (1639–1670). Simplifications: elements are expressions of primitive types, of which only the type counts (the type of an integer literal is `Prim.literalType`, see C21). Of the C compiler we say only when it takes `T1 a = (T2){…}` for two array types: exactly if they are the same type, which is the extension of GCC and Clang.
* `Verif/Lang/Assign/Model.lean`: Which values the type checker accepts for a type. Model of `src/cxy/lang/frontend/types.c` (`isTypeAssignableFrom`, `isTypeConst`, `implementsInterface`) with the parts of `src/cxy/lang/frontend/ttable.c` it uses (`unwrapType`, `stripPointer`, `stripAll`, `makePointerType`). Types are interned, so `to == from` is equality. Left out: type aliases and `This` (resolved to what they stand for), tuples, unions, slices, maps, result types, exceptions, opaque types, and the extra first parameter of closures.
* `Verif/Lang/Attr/Model.lean`: Attributes and their arguments. 
* `Verif/Lang/CArith/Model.lean`: Integer expressions in the C that is written. Model of what C computes for the integer expressions written by `src/cxy/lang/backend/c/generate.c` (`visitBinaryExpr` 560, `visitIntegerLit` 796, `visitCastExpr`; the integer types are the typedefs of lines 2020–2029) and of the types `src/cxy/lang/middle/sema/binary.c` 161 `checkBinaryExpr` gives them. The operands are written as they are: no conversion to the checked type is added. `long` stands for `long` and `long long`, which are alike.
* `Verif/Lang/CFlow/Model.lean`: Model of the C text of statements. The back end that writes C, `src/cxy/lang/backend/c/generate.c`: `visitReturnStmt`, `visitBlockStmt`, `visitExprStmt`, `visitIfStmt`, `visitWhileStmt`, `visitSwitchStmt`, `visitCaseStmt`, `visitContinueStmt`, `visitBreakStmt` (lines 1464–1637). The statements and their meaning are those of `Flow/Source.lean`. The statements of C mean what C11 6.8 says: a `switch` runs from the matching label on, through the labels behind it, until a `break`; a `break` leaves the innermost loop or `switch` (6.8.6.3); a `continue` goes to the end of the innermost loop body, which here is behind the update (6.8.6.2). Left out: the text of expressions (`CText`), declarations, `match` (it becomes a `switch` on the tag, `simplify.c` 1152–1210), case labels that are not constants, clean-up blocks, debug lines. The order in which operands are evaluated is left open as in `Flow/Source.lean`.
* `Verif/Lang/CLit/Model.lean`: Literals in the C that is written. Model of `src/cxy/lang/backend/c/generate.c` 781–833 (`visitCharLit`, `visitIntegerLit`, `visitFloatLit`, `visitStringLit`) with the formats of `src/cxy/core/format.c` 74–470 they use, and of how C reads these literals. Bytes are numbers below 256.
* `Verif/Lang/CNames/Model.lean`: Model of local names in the C that is generated. `src/cxy/lang/middle/bind/resolve.c` 346–402 (`bindFuncParam`, `bindFunctionDecl`, `bindVarDecl`), 636–668 (`bindBlockStmt`), `src/cxy/lang/middle/bind/scope.c` 104–132 (`defineSymbol`); `src/cxy/lang/backend/c/generate.c` 640–653 (`generateVariableName`), 834–857 (`visitIdentifier`), 1478–1485 (`visitBlockStmt`), 1639–1682 (`visitVariableDecl`, `visitFuncParamDecl`), 1714–1749 (`visitFuncDecl`). The compiler resolves every name to a declaration. The C back end prints local variables and parameters under the name they have in the source, and so the C compiler resolves the names again, by its own rules (C11 6.2.1). Simplified: a statement is what it reads and declares; conditionals and loops are the reading of a condition followed by blocks. The names an initialiser reads are those that are left in it when it is printed (a part that was moved in front of the statement, C159, is a declaration of its own). Names that are not found are those of the module, which are printed with the name of the module in front.
* `Verif/Lang/CText/Model.lean`: Model of the C text of expressions. The back end that writes C, `src/cxy/lang/backend/c/generate.c` (the one that is built unless `ENABLE_LLVM_BACKEND` is set, `CMakeLists.txt` 187–201): `visitBinaryExpr`, `visitAssignExpr`, `visitTernaryExpr`, `visitUnaryExpr`, `visitTypedExpr`, `visitCastExpr`, `visitGroupExpr`, `visitMemberExpr`, `visitIndexExpr`, `visitIntegerLit` (lines 744–1069), with `frontend/parser.c` 999–1011 (`implicitCast`) and `middle/sema/unary.c` 148–161 (a dereferenced pointer is an index expression). The reader is the expression grammar of C (C11, 6.5.1–6.5.16, with the conditional without a middle that clang allows) and the rule that the longest sequence of characters makes a token (6.4). Simplified: names, numbers and types are words; calls are left out (their arguments are enclosed like an index); `->` is written like `.`; `move`, which writes nothing, is left out.
* `Verif/Lang/ClassEnd/Model.lean`: The end of an object. `src/cxy/lang/middle/sema/builtins.c` 93-146 (`implementCallClassDestructor`), 237-263 (`implementCallClassDeinit`), 357-431 (`implementDestructorFunction`), 433-497 (`implementDestructorForwardFunction`), 673-711 (`implementClassOrStructBuiltins`), and `sema/class.c` 120-172 (`preCheckClassMembers`, which decides whether a class has a destructor at all); `runtime/builtins.cxy` 148-170 (`__smart_ptr_drop`, which calls the destructor of the class the object was made of). A class with its base, the base of that and so on is a list, the class of the object first. A field is a number; it is managed if its type is a class, or a struct, tuple or union that has something to release. Left out: what is inside a managed field (`Verif.Lang.CopyDrop`, `Verif.Lang.ObjGraph`), what `deinit` does to the fields, other places of inherited fields in objects (`Verif.Lang.Classes`: the fields are taken to be where the base looks for them).
* `Verif/Lang/Classes/Model.lean`: Classes: inheritance and virtual functions. Model of `src/cxy/lang/middle/sema/class.c` (`inheritClassMembers`, `checkBaseDecl`, `evalClassMembers`, `checkClassDecl`), `src/cxy/lang/middle/sema/inheritance.c`, the virtual call of `src/cxy/lang/middle/simplify/simplify.c` (`isVirtualDispatch`, `virtualDispatch`, `visitCallExpr`), the search for a member in `src/cxy/lang/middle/sema/path.c` (`resolveMemberUpInheritance`) and the layout of an object in `src/cxy/lang/backend/llvm/context.cpp` (`createClassType`). A class has at most one base, so a class is given by the list of the declarations from it up to its root. Types of fields and parameters are numbers. Left out: static and generic members, interfaces, overloads within one class (the search is a binary search among members of the same name and finds any of them; the model takes the first), a field with the name of a virtual function, and classes used before their base is checked.
* `Verif/Lang/Closures/Model.lean`: Closures and the variables of the function around them. Sources: `src/cxy/lang/middle/bind/resolve.c` 51–105 (`shouldCaptureSymbol`, `captureSymbol`), 178–226 (`bindPath`), 584–606 (`bindClosureExpr`); `src/cxy/lang/frontend/capture.c` (`addClosureCapture`, `getOrderedCapture`); `src/cxy/lang/middle/sema/closure.c` 12–90 (`createStructForClosure`), 92–172 (`transformClosureToStructExpr`); `src/cxy/lang/middle/sema/path.c` 136–168 (`checkBasePathElement`); `src/cxy/lang/middle/simplify/simplify.c` 891–931 (`visitPathExpr`). A closure becomes a class with one field for each variable it takes from the functions around it, and a member function `op__call` holding its body. That function is a function of its own in the C that is written: inside it only its own parameters and variables, and the fields of `this`, can be named. Modelled: local variables and parameters of functions and of closures. Not modelled: `this` and the fields of an enclosing class, the types of the fields (numbers are copied, aggregates are taken by reference), blocks (they play no part in the walk over the scopes), default values of parameters.
* `Verif/Lang/Codegen/Model.lean`: Code generated for arithmetic on primitive types. Model of `src/cxy/lang/backend/llvm/binary.cpp` (`generateBinaryExpr`), `context.cpp` (`generateCastExpr`) and `generate.cpp` (`visitAssignExpr`) for operands of primitive type. The LLVM instructions they emit are given the meaning of the LLVM language reference: an integer value is a bit pattern of some width, poison and malformed instructions are `Res.ub`. Floats are an abstract type with the operations LLVM needs.
* `Verif/Lang/CompIndex/Model.lean`: Tuples and indexes at compile time. `src/cxy/lang/middle/eval/xform.c` 12-84 (`evalXformType`), `middle/eval/index.c` 8-24 (`evalAstNodeAtIndex`), 74-138 (`evalIntegerIndexExpr`), `frontend/ast.c` 1943-1953 (`getNodeAtIndex`), and for the arguments of calls `middle/sema/call.c` 67-89 with `frontend/ast.c` 2452-2465 (`insertAstNode`). Types and nodes are numbers. How conditions and transforms are evaluated is a parameter. Left out: the way of an index through a floating-point number (index.c 79), which is exact below 2^53; messages; types of nodes.
* `Verif/Lang/CompTypes/Model.lean`: Comparing types at compile time. `src/cxy/lang/middle/eval/eval.c` 11-21 (`comptimeCompareManyTypes`) and 53-101 (`comptimeCompareTypes`), which decide `#T == #U` and `#T != #U` (`middle/eval/binary.c` 405-410). Names of structures, classes and enumerations stand for such expressions with a link to the declaration (`middle/eval/path.c` 96-114). Left out: how the operands are evaluated before.
* `Verif/Lang/Comptime/Model.lean`: Compile-time statements: `#const`, `#{x = e}`, `#if` and `#for`. Sources: `src/cxy/lang/middle/eval/eval.c` 103–170 (`evaluate`, `evalIfStmt`), 225–255 (`evalAssignExpr`), 257–290 (`evalRangeExpr`), 303–326 (`evalVarDecl`); `src/cxy/lang/middle/eval/for.c` 11–211 (unrolling); `src/cxy/lang/middle/eval/path.c` 140–184 (a use of a compile-time variable); `src/cxy/lang/middle/sema/type.c` 76–104 (`checkTypeShallow` evaluates marked nodes before it checks them); `src/cxy/lang/middle/sema/check.c` 122–194 (`checkBlockStmt` walks the list while evaluation splices into it), 379– (`checkWhileStmt`); `src/cxy/lang/middle/sema/if.c` 7–85; `src/cxy/lang/middle/shake/shake.c` 447–500 (bodies become blocks, an `else` that is an `if` does not); `src/cxy/lang/backend/c/generate.c` 1340–1342, 1478–1516 (blocks and `if` in C). Simplifications. * Values are mathematical integers and an operator is an arbitrary function on them; what folding does to particular operators and widths is the subject of the components on constants (`Eval`, `LitCast`). * Names are resolved: every declaration has its own number, as the `resolvesTo` pointers give it. * Only ranges `lo .. hi` are iterated here. A step is treated in `Step`, an array literal in `Splice` below. * Clean-ups, `return`, `break` and `defer` are left out.
* `Verif/Lang/Conds/Model.lean`: Conditions. `src/cxy/lang/middle/sema/if.c` 7-43 and `src/cxy/lang/middle/sema/check.c` 379-416 (what the checker accepts as a condition of `if` and `while`), 766-789 (of `?:`), `src/cxy/lang/middle/sema/node.c` 443-470 (`transformToTruthyOperator`), `src/cxy/lang/middle/sema/unary.c` 124-147 (`!`), `src/cxy/lang/middle/simplify/simplify.c` 400-422 and 1105-1135 (what becomes of a condition) and `src/cxy/lang/backend/llvm/generate.cpp` 135-138, 487-494 and 653 (the code that is emitted). Left out: types that are names of others (the checker looks through them, `src/cxy/lang/middle/sema/type.c` 92 and 98), `This`, and conditions that are evaluated at compile time.
* `Verif/Lang/Consts/Model.lean`: Which assignments the type checker accepts. Model of `src/cxy/lang/middle/sema/assign.c` (`checkAssignExpr`), `src/cxy/lang/middle/sema/unary.c` (`checkUnaryExpr`, `checkPrefixExpr`, `checkPointerOfExpr`), `src/cxy/lang/middle/sema/index.c` (`checkIndexExpr`), `src/cxy/lang/middle/sema/path.c` (`checkPath`, `checkMember`), `src/cxy/lang/middle/sema/member.c` (`checkMemberExpr`) and `src/cxy/lang/middle/sema/variables.c` (`checkVarDecl`), for variables, fields, array elements and pointers to these. The type of an expression and its constant flag are kept apart, as in the code: `node->type`, with the flag of the type, and `node->flags`. Left out: references, casts, functions and `this`, classes, tuples, optional types, fields declared constant, the overloaded operators.
* `Verif/Lang/CopyDrop/Model.lean`: Copying and destroying values that hold objects. Which types are destroyed at all: `src/cxy/lang/frontend/types.c` 1317-1330 (`isDestructible`), the flags of structs (`src/cxy/lang/middle/sema/struct.c` 15-54 `evaluateStructMembers`, 56-95 `preCheckStructMembers`, 445-490 `checkStructDecl`, `sema/builtins.c` 641-677 `implementClassOrStructBuiltins`), of tuples (`sema/tuple.c` 52-144 `checkTupleExpr`, `checkTupleType`) and of unions (`sema/type.c` 176-190 `checkUnionType`). What copying and destroying do: `sema/builtins.c` 264-430 (`implementStructCopyFunction`, `implementDestructorFunction`), `src/cxy/runtime/builtins.cxy` 206-234 (`Optional`), 1128-1204 (`__tuple_dctor`, `__union_dctor`, `__tuple_copy`, `__union_copy`), `src/cxy/lang/backend/c/generate.c` 1188-1290 (`visitBackendBfiCopy`, `visitBackendBfiDrop`) and `mem/manage.c` 541-588 (values that are put into tuples, structs, arrays and unions are copied). Left out: closures, constants, aliases, pointers and references (they are like numbers here). The type of a struct carries the flags its declaration has. A struct whose destructor is written out is only looked at from outside: what that destructor releases is its author's affair. `deinit` releases nothing of what the fields hold.
* `Verif/Lang/DefaultArgs/Model.lean`: Model of default arguments. `src/cxy/lang/middle/sema/call.c` 128–158 (`checkFunctionCallEpilogue`); `src/cxy/lang/middle/sema/function.c` 279–300 (`checkFunctionParam`); `src/cxy/lang/middle/bind/resolve.c` 344–352 (`bindFuncParam`); `src/cxy/lang/backend/c/generate.c` 834–857 (names are printed as they are). The default of a parameter is bound where the function is declared; it may read module variables and the parameters before it. A call that leaves arguments out gets a copy of each default. In the C that is generated a module variable has a name of its own; a parameter is printed by its name and C looks the name up where the call stands. Simplified: the arguments that are written are values; they and the defaults are computed from the left (C leaves the order open). Calls inside a default do with the state what they like and may not come back.
* `Verif/Lang/Defer/Model.lean`: Model of the defer rewrite, `src/cxy/lang/middle/defer.c`. Statements are reduced to what matters for control flow. `act` is any statement without control flow; a deferred statement is one of those. The bodies of conditionals and loops are blocks (shake.c 447-560, 1024-1060 wrap them); the body of a switch case is any statement, since nothing wraps it before this pass. `break` and `continue` belong to a loop, never to a switch (scope.c 290-305).
* `Verif/Lang/Drop/Model.lean`: Model of the memory manager, `src/cxy/lang/middle/mem/manage.c` and `finalize.c`. With `--with-mm` the compiler inserts the calls that destroy the values of local variables. The program is the one left by simplification: bodies of conditionals, loops and cases are blocks. Only local variables of class type are modelled (the ones that have to be managed); a value is an owning reference, so a copy of a reference is a new value. Calls take over their arguments: passing a variable by name passes a copy, which is the callee's affair, and passing `&&x` gives the value away. Left out: `delete` (`visitUnaryExpr` looks at the type of the `delete` expression, which is void, and leaves it as it is), members, tuples, unions, temporaries, top-level variables, the update part of a `for` loop, moves inside conditions, and the unused-variable warning. The hash map of traces is a function (see `Core/Hmap`).
* `Verif/Lang/Dump/Model.lean`: Expressions written as source text: `middle/dump/cxy.c` 20-49, 259-291, 384-400, 527-609, 649-681, `operator.c` 9-45. `cxy dev --dump-ast=CXY` writes a syntax tree as source text. The text is a list of bytes; colours are left out, as they are when the output is not a terminal (1279). The trees are those of the parser model, before types are known: no attributes, no generic arguments, no `this.` added to paths, no name of a generic parameter replaced by its type. `spell` gives the text of a name.
* `Verif/Lang/Eval/Literals.lean`: Programs with expressions built from integer literals. Before types are checked the preprocessor (`src/cxy/lang/middle/preprocess/preprocessor.c` 38-66, `evaluate.c`) replaces every operator whose operands are literals by its value. Parentheses are nodes of their own (parser.c 1265-1288 `parenExpr`), which the preprocessor does not look into when it decides whether an operand is a literal. What is left is compiled: a literal gets the smallest signed type that holds it (check.c 748-751, ttable.c 1444) and an operator the bigger operand type (sema/binary.c 240 `promoteType`).
* `Verif/Lang/Eval/Model.lean`: Compile-time evaluation of integer expressions. Model of `src/cxy/lang/middle/eval/binary.c`, `unary.c` and `literal.c` on integer literals. All arithmetic goes through `f64`; on integers that is exact arithmetic followed by rounding to 53 significant bits (`rnd`), because sums, differences and products of integers are integers.
* `Verif/Lang/FieldInit/Model.lean`: Default values of fields in new objects. `src/cxy/lang/middle/sema/node.c` 151-183 (`createCallDefaultInitializer`), 250-280 (`createInitializerCoverBody`, for classes), 597-628 (`implementCallBaseInitDefaults`), 630-699 (`implementDefaultInitializer`), `sema/class.c` 21-37 (`inheritClassMembers`), 39-75 (`checkBaseDecl`), 313-324 (`checkClassDecl`), `frontend/types.c` 1182-1210 (`findMemberDeclInType`: members of the class itself only, its base is not searched) and `backend/c/generate.c` 1147-1153 (a new object is zeroed). A new object is zeroed, then the function `__defaults_init` of its class is called if the class has one, then the constructor. Fields that are inherited are copied after the base was checked (class.c 42, 69), and by then their default values were taken away (node.c 662), so they count for nothing in the derived class. A class with its base, the base of that and so on is a list, the class of the object first. Left out: default values that are more than a number, the constructor itself, the pointer to virtual functions, and that fields are copied twice when there are two bases or more (for both see `Verif.Lang.Classes`).
* `Verif/Lang/Flags.lean`: Rendering a set of flags (`src/cxy/lang/frontend/operator.c` 176-220, `flag.h` 16-80). The text appended to the format state is the list of its pieces.
* `Verif/Lang/Flow/Accept.lean`: Which functions are accepted. Source: /repo/src/cxy/lang/backend/llvm/generate.cpp 619-824 and 1041-1129, llvm.cpp 257-266.
* `Verif/Lang/Flow/Build.lean`: What generating code leaves alone. Source: /repo/src/cxy/lang/backend/llvm/generate.cpp 619-824, binary.cpp 16-65.
* `Verif/Lang/Flow/Correct.lean`: What the code of an accepted function does. Source: /repo/src/cxy/lang/backend/llvm/generate.cpp 619-824 and 1041-1129, llvm.cpp 257-266.
* `Verif/Lang/Flow/Exact.lean`: Which functions are accepted, exactly. Source: /repo/src/cxy/lang/backend/llvm/generate.cpp 619-824 and 1041-1129, llvm.cpp 257-266.
* `Verif/Lang/Flow/Model.lean`: Model of the blocks that the LLVM backend generates for control flow. `src/cxy/lang/backend/llvm/generate.cpp` (`visitIfStmt`, `visitTernaryExpr`, `visitWhileStmt`, `visitSwitchStmt`, `visitBreakStmt`, `visitContinueStmt`, `visitReturnStmt`, `visitFuncDecl`), `binary.cpp` (`generateLogicAndOr`, order of operands in `generateBinaryExpr`), `context.h` (`Stack`, `LLVMContext`) and `llvm.cpp` (`addModule`). The builder of LLVM is a map from blocks to lists of instructions with an insertion point; blocks are created first and inserted into the function later. Instructions are appended wherever the builder stands, also behind a branch, as LLVM does. `verifyModule` is modelled by what it says about the ends of blocks: a module with a block that does not end in its only terminator is rejected. Left out: types, debug locations, stack slots, the other checks of the verifier (they only reject more programs), `match` (the same code as `switch`, with the tag of a union as the condition), range cases of `switch`.
* `Verif/Lang/Flow/Run.lean`: The blocks of statements, run. Source: /repo/src/cxy/lang/backend/llvm/generate.cpp 619-824 and 1041-1129, llvm.cpp 257-266.
* `Verif/Lang/Flow/Shapes.lean`: Functions that are accepted and functions that are not. Source: /repo/src/cxy/lang/backend/llvm/generate.cpp 619-824 and 1041-1129, llvm.cpp 257-266; sema/check.c 53-70 (only code after `return` is dropped before the backend).
* `Verif/Lang/Flow/SimE.lean`: The blocks of expressions compute their values. Source: /repo/src/cxy/lang/backend/llvm/binary.cpp 16-115, generate.cpp 487-494, 520-548 and 637-693.
* `Verif/Lang/Flow/SimS.lean`: The blocks of statements do what the statements say. Source: /repo/src/cxy/lang/backend/llvm/generate.cpp 619-824 and 1041-1129, llvm.cpp 257-266.
* `Verif/Lang/FnCall/Model.lean`: Calling a function value. Code modelled: /repo/src/cxy/lang/middle/sema/call.c, function `checkCallExpr` (lines 161–336), in particular the branch for function values (235–264); /repo/src/cxy/lang/middle/sema/function.c, `checkFunctionParam` (227–277), which turns the type of a parameter that is a function into a pair of a pointer to what is captured and a function that takes this pointer as its first argument; and the order in which /repo/src/cxy/lang/middle/simplify/simplify.c, `visitMemberExpr` (962–988), evaluates the two members. A function value is a pair `(captured, code)`. A call `c(a, …)` of such a value is rewritten to `c.1(c.0, a, …)`, where the first `c` is a copy of the whole expression. Simplifications: expressions are literals, variables, calls of named functions, calls of function values and selections of a function value by a named function (any indexing of containers is a call of `op__idx`). What named functions and pieces of code do is arbitrary: they are functions from a state of any type and their arguments to a state and a result. An expression whose parts do not have the types they need has no value (`none`); the checker rejects it. Arguments are evaluated from left to right (see C117 and C160 for what is wrong there).
* `Verif/Lang/ForEach/Model.lean`: `for` over arrays and strings, and operators of base classes. Sources: `src/cxy/lang/middle/simplify/simplify.c` 191–344 (`simplifyForArrayStmt`), 1062–1069 (`visitForStmt`); `src/cxy/lang/middle/sema/for.c` 10–47 (`findCustomRange`, `findIteratorType`), 353–428 (`checkForStmt`); `src/cxy/lang/frontend/types.h` 162–236 (`Type`) and `src/cxy/lang/frontend/ttable.c` 508 (the type `string`); `src/cxy/lang/middle/eval/for.c` 131–167 (`evalForStmtWithString`); `src/cxy/lang/frontend/types.c` 1159–1169 (`findOverloadMemberUpInheritanceChain`); `src/cxy/lang/middle/sema/node.c` 443–470 (`transformToTruthyOperator`), 472–491 (`transformToAwaitOperator`), 561–579 (`transformToDerefOperator`); `src/cxy/lang/middle/sema/index.c` 15–44; `src/cxy/lang/middle/sema/assign.c` 12–36; `src/cxy/lang/middle/sema/call.c` 207–214; `src/cxy/lang/middle/sema/binary.c` 52–67. Loops over ranges of numbers are in `Verif/Lang/RangeLoop`, the control flow of the `while` that a loop becomes in `Verif/Lang/CFlow`.
* `Verif/Lang/GNames/Model.lean`: The C names of what modules declare. Code modelled: /repo/src/cxy/lang/backend/c/generate.c, functions `generateCustomTypeName` (83–105), `generateEnumType` (156–179), `getModuleNamespace` and `generateModuleName` (615–626), `generateStructOrClassName` (628–638), `generateVariableName` (640–653), `generateFunctionName` (655–681) and `generateEnumOptionName` (700–709). All modules of a program, and the main file, are written into one C file (`initCompilerBackend`, 1988–2036), with functions, variables, type definitions and the options of enumerations among its ordinary identifiers. Simplifications: a name is the list of its character codes. The name of a function that is overloaded, or of an instance of a generic, is the name as it stands after mangling (see C25), which is a name like any other. Declarations that are nested deeper than in a structure, class or enumeration do not occur.
* `Verif/Lang/Generics/Model.lean`: Type arguments of generic functions. Models, for generic functions: src/cxy/lang/middle/shake/shake.c 52-107 (`transformVariadicFunction`), 191-212 (`inferGenericParamFromFuncParam`), 825-895 (`shakeGenericDecl`), and src/cxy/lang/middle/sema/generics.c 118-194 (`inferGenericFunctionTypes`), 196-232 (`transformVariadicFunctionCallArgs`), 289-347 (`resolveGenericDecl`, up to the list of type arguments). Not modelled: closures as arguments (their type is changed, generics.c 58-116), type arguments that are literals, `This`, and errors in the arguments.
* `Verif/Lang/Hoist/Model.lean`: Model of temporaries moved out of statements. `src/cxy/lang/middle/simplify/simplify.c` 48–67 (`nodeNeedsTemporaryVar`), 725–767 (`visitCallExpr`), 833–878 (`visitBinaryExpr`), 1061–1113 (`visitBlockStmt`, `visitIfStmt`); `src/cxy/lang/middle/shake/shake.c` 447–499 (`shakeIfStmt`), 1061–1074 (`shakeBlockStmt`); `src/cxy/lang/frontend/visitor.c` 381–430 (`astModifierAdd`). An argument of a call that is not a variable, a literal or a unary expression becomes a variable that is declared in front of the statement, in the nearest block. So does the variable declared in the condition of an `if`. Simplified: values are opaque; unary and binary operators may fail (a division by zero) but have no effects; calls do with the state what they like and may not come back (`none`). A method's object is its first argument. Left out: members of a call's result and references to one (`visitMemberExpr`, `visitReferenceOfExpr`, treated in the same way), string expressions (moved by `shakeStringExpr`), parameters that are variadic or of unknown type (whose arguments stay).
* `Verif/Lang/Implements/Model.lean`: Classes and the interfaces they implement. Code modelled: /repo/src/cxy/lang/middle/sema/interface.c, `checkImplements` (10–48) and `checkTypeImplementsAllMembers` (50–98), called from /repo/src/cxy/lang/middle/sema/class.c (295, 402); overloads are resolved as in `Verif.Lang.Overload.Model`. Simplifications: types are any type with decidable equality, conversions any predicate, as there. The functions of one name are given with the type, and no two of them have the same parameters except one that is `const` beside one that is not.
* `Verif/Lang/Implicit/Model.lean`: Constructors that are called without being written. `src/cxy/lang/middle/sema/struct.c` 215-243 (`isExplicitConstructableFrom`) and 245-292 (`evalExplicitConstruction`), and the part of `sema/function.c` 70-141 (`matchOverloadedFunctionPerfectMatch`) that is used by them: one argument, no flags asked for. A call `f(v)` where the parameter is a class or struct `T` and `v` is something else is accepted if `T` has a constructor that takes `v`, and the call becomes `f(T(v))`. Types are numbers. Left out: `This`, references and pointers that are unwrapped first (a type is what is left after that), constructors with `...`, constructors whose type is not known yet, and what `transformToConstructCallExpr` does with a construction that was inserted. The C functions call each other without a bound: the first argument `n` of the functions here is the depth allowed, `none` means that it was not enough.
* `Verif/Lang/Imports/Model.lean`: Reading the imports at the top of a file. Models `/repo/src/cxy/lang/frontend/parser.c` 336-354 and 379-408 (`parseMany`, `parseManyNoSeparator`, `parseAtLeastOne`), 429-437 (`skipUntil`), 3463-3479 (`parseImportEntity`), 3493-3511 (`skipImportTestDecl`), 3513-3556 (`parseImportDecl`), 3603-3654 (`conditionalTopLevelDecl`) and 3684-3703 (the first loop of `parseProgram`). Modelled: the imports a file has, from its tokens, when it is compiled for tests and when it is not. Simplified: the condition of `define if` is one token that carries the value it preprocesses to; the annotations for C code are left out; an error ends the reading (the parser logs it, resynchronises and the compilation fails at the next stage).
* `Verif/Lang/Lexer/Model.lean`: The lexer: `lexer.c`, `token.h`. Bytes are natural numbers below 256. One buffer only: `#include` buffers (`prev`, `lexerPush`) are not modelled. `row` and `col` are unbounded here (`uint32_t` in log.h 48), and so is the byte offset.
* `Verif/Lang/LitCast/Model.lean`: Casts of literals. Model of `castLiteral` (`src/cxy/lang/middle/sema/cast.c` 10-115), which replaces a cast of a literal by a literal during type checking, and of the code the LLVM backend generates for literals (`src/cxy/lang/backend/llvm/generate.cpp` 181-213).
* `Verif/Lang/Lookup/Model.lean`: Names, enumerations and switch cases. Model of the sorted tables of the compiler: `binarySearch` (`src/cxy/core/utils.c` 242-263), the member tables of structured types (`src/cxy/lang/frontend/types.c` 17-28, 1093-1170, 1241-1250 and `ttable.c` 465-470, 984-1009), the table of builtin macros (`src/cxy/lang/middle/eval/macro.c` 1605-1690), the values of enumerations (`src/cxy/lang/middle/bind/resolve.c` 433-463, `src/cxy/lang/middle/sema/enum.c`, `defaults.c` 32-38) and the checks of `switch` cases (`src/cxy/lang/middle/sema/switch.c`). `qsort` is the merge sort of the GNU C library, which is not part of the repository.
* `Verif/Lang/Mangle/Model.lean`: Model of name mangling, `src/cxy/lang/middle/mangle.c`. 
* `Verif/Lang/ModMembers/Model.lean`: The members of a module. `src/cxy/lang/frontend/module.c` 12-33 (`addDefineToModuleMembers`), 35-51 (`addModuleTypeMember`), 53-82 (`buildModuleType`) and `frontend/ast.c` 1920-1934 (`countProgramDecls`). The members are written to an array whose length is counted before; a write behind its end is undefined and has no result here. How a name is found among the members is `Verif.Lang.Lookup`. The parser puts imports into the first list only (`frontend/parser.c` 3675-3716, `parseProgram`). Left out: flags and types of members.
* `Verif/Lang/MultiDecl/Model.lean`: Model of declarations of several variables. `src/cxy/lang/middle/shake/shake.c` 18–49 (`makeTupleMemberExpr`), 212–227 (`shakeVariableInitializer`), 373–445 (`shakeVariableDecl`); `src/cxy/lang/middle/bind/resolve.c` 390–402 (`bindVarDecl`); `src/cxy/lang/middle/sema/member.c` 144–169 (members of tuples). `var a, _, b = init` becomes a declaration for each variable. An initialiser that is a tuple expression is taken apart, each variable gets its element; a variable or parameter is read again for each variable; anything else is kept in a variable of the compiler. Simplified: expressions are literals, variables and calls; a call does with the state what it likes and may not come back. The number of components of a variable or a value is that of its type. A declaration is seen by the declarations behind it (resolve.c 397–401; for what the C compiler makes of a variable that is read by its own initialiser see C206). A variable that is left without an initialiser has a declared type (otherwise its type stays `auto`, variables.c 55–58). Left out: declared types, attributes and constants.
* `Verif/Lang/ObjGraph/Model.lean`: Objects that hold references to each other. `src/cxy/runtime/builtins.cxy` 112-170 (`__mem`, `__smart_ptr_get`, `__smart_ptr_drop`), the destructors the compiler makes for classes (`src/cxy/lang/middle/sema/builtins.c` 352-430 `implementDestructorFunction`) and assignments to members under memory management (`src/cxy/lang/middle/mem/manage.c` 496-510, `visitAssignExpr` for a target that is not a local variable). Only fields of class type are kept; a field is `none` for null. Counts are natural numbers (their wrapping and the orders of concurrent drops are with `Verif.Std.SmartPtr`). Classes have no `deinit` and no destructor of their own.
* `Verif/Lang/Overload/Model.lean`: Model of overload resolution, `src/cxy/lang/middle/sema/function.c` 70-136. Types are any type with decidable equality (the compiler compares interned handles after `resolveAndUnThisType`). `isTypeAssignableFrom` and `isExplicitConstructableFrom` are one arbitrary predicate `conv`, since the code treats both alike. The error report at the end is the result `none`.
* `Verif/Lang/Parser/Model.lean`: Expression parsing: `parser.c` 335-352, 475-499, 644-931, 951-965, 1266-1385, 1563-1626, 1702-1800, `operator.h`, `operator.c`. The parser reads a list of tokens; the end of the list is `tokEoF`. Constructs that are not modelled (types, closures, macros, tuples, arrays, struct literals, strings, `as` casts, generic arguments, typed literals, attributes) give the outcome `outside`; a reported syntax error (`parserError`, which throws) gives `error`. Source locations are not modelled. Names are numbers.
* `Verif/Lang/Preprocess/Model.lean`: Macro expansion. `src/cxy/lang/middle/preprocess/preprocessor.c` (15-36, 87-167, 230-246, 291-324), `src/cxy/lang/frontend/defines.c` (24-69), `src/cxy/lang/middle/bind/scope.c` (103-131, 218-243), `src/cxy/lang/middle/scope.h` 61. Macros are written `macro name(params) body` and used as `name!` or `name!(args)` (parser.c 606-618, 1290-1316, 2022-2069). Simplified: variadic parameters are left out; a body of several statements, which takes the place of the call as a list, is one node; the evaluation of operators on literals (see `Eval.Literals`), ternaries and `#if` on the way is left out; the table of macros is the one at the time of the expansion (declarations of macros in the expanded code are not modelled); the last resort of the search for a name, the public declarations of the builtin module (scope.c 234-238), is left out.
* `Verif/Lang/Prim/Model.lean`: Primitive types of the compiler. Model of the primitive-type part of `src/cxy/lang/frontend/types.c` and `ttable.c`: the size table, the type predicates, implicit assignability, cast assignability, promotion, the literal type and the switch-case range check.
* `Verif/Lang/Raise/Model.lean`: Model of how calls that raise are compiled. `src/cxy/lang/middle/sema/exception.c` (`checkCallExceptionBubbleUp`, `checkCatchBinaryOperator`, `exceptionVerifyRaiseExpr`), `sema/call.c` (`checkCallExpr`), `sema/binary.c` (`checkBinaryExpr`, the part that sets `explicitCatch` and `catcher`), `sema/check.c` (`checkBlockStmt`, `checkReturnStmt`, `checkYieldStmt`, `checkWhileStmt`, `checkTernaryExpr`, `withSavedStack`), `sema/if.c` (`checkIfStmt`), `middle/shake/shake.c` (`shakeIfStmt`, `shakeWhileStmt`, `shakeBinaryExpr`, `shakeReturnStmt`) and `frontend/visitor.c` (`astModifierAdd`). A call that may raise is taken out of its expression: `var _res = call; if (_res is Exception) return _res;` is inserted in front of the current statement of the innermost block, and the expression reads the value out of `_res`. The result of checking a statement is therefore a pair: what goes in front of it, and what is left of it. Simplified: all values are integers and the types that the checks see are "integer", "nothing" and "result of a raising call"; the numbers of the temporaries stand for the names made by `makeAnonymousVariable`; `_Tres`, which the checker creates at the first `yield`, gets its number with `_res`; the moves (`&&_res`) and the recording of stack traces are left out. Refused although the compiler accepts them, hence outside the model: statements behind a `return` of the same block (the compiler warns and drops them); a declaration `var x = f()` inside a handler, which gives `x` the type of the whole result; a `catch` inside a handler behind a use of `ex!` (`catcher.result` is not cleared for it, so that it takes over the result of the outer `catch`).
* `Verif/Lang/RangeLoop/Model.lean`: Model of loops over integer ranges. Run time: `src/cxy/lang/middle/simplify/simplify.c` 122-189 `simplifyForRangeStmt`, with the while loop of `src/cxy/lang/backend/llvm/generate.cpp` 725-775. The variable has `w` bits and additions wrap. Compile time: `src/cxy/lang/middle/eval/for.c` 168-212 `evalForStmtWithRange`.
* `Verif/Lang/Recover/Model.lean`: Where parsing goes on after a syntax error. The tokens of a file are a list that ends at the end of the file. A syntax error is at the first token of the list, the one that was not expected.
* `Verif/Lang/Redundant/Model.lean`: The warning about redundant statements. Models `/repo/src/cxy/lang/middle/simplify/simplify.c` 424-512 (`isRedundantExpression` and its helpers, `isRedundantStatement`) and 1071-1105 (`visitBlockStmt`). Modelled: which statements of a block are reported with "removing this statement because it is redundant" and which statements the block has afterwards. Simplified: rewriting of the statements themselves is left out; the flag on the value of a block that returns one is a property of the statement (`isValue`).
* `Verif/Lang/Scope/Model.lean`: Model of `src/cxy/lang/middle/bind/scope.c`. Names are interned strings, so they are numbers here and equality of names is equality of pointers (`compareSymbols`, scope.c 15-18). Declarations are numbers too. The chain `first → next → …` of `Scope` objects is a list; `prev` and `next` of the object at position `k` are positions `k - 1` and `k + 1`. The hash of a name (`hashPtr`) is a parameter: the theorems hold for every hash. The log is always present, as in every call site. `releaseScope` and `updateSymbol` have no callers and are left out.
* `Verif/Lang/Spread/Model.lean`: Arguments with `...`. `src/cxy/lang/middle/sema/check.c` 21-36 (`makeSpreadVariable`), 461-601 (`checkSpreadExpr`), with `sema/call.c` 67-93 (`checkFunctionCallEpilogue`, which builds the new list of arguments) and `frontend/ast.c` 2452-2465 (`insertAstNode`). A tuple literal becomes its elements; of a variable the members are taken; anything else is put in a new variable before the statement with the call, and its members are taken. An expression is a number. What it gives may depend on what was evaluated before it, so does what is read from a variable. Arguments are evaluated from left to right, as in `Verif.Lang.Hoist`, where what `simplify.c` moves later is modelled. Left out: moves (`...&&x`), parameters with any number of arguments (499-550), empty tuple literals.
* `Verif/Lang/Startup/Model.lean`: The values of module-level variables when `main` starts. Models `/repo/src/cxy/lang/frontend/ast.c` 1748-1796 (`isStaticExpr`), `/repo/src/cxy/lang/middle/simplify/simplify.c` 1239-1282 (`visitVarDecl`), 514-552 (`createModuleInit`) and 554-604 (`visitProgram`), and `/repo/src/cxy/lang/backend/c/generate.c` 1639-1670 (`visitVariableDecl`) and 1714-1722 (`visitFuncDecl`: the initialising function of a module is a C constructor). Modelled: a module is the list of its variables with their initialisers, in order; a program is the list of its modules in the order their code is written (C218). An initialiser that counts as static is printed as the C initialiser of the variable; the others become assignments in the constructor of the module. Before `main`, the variables hold their C initialisers or zero, and then the constructors run in the order in which they stand in the one C file. A C initialiser at file scope must be a constant expression; otherwise the C compiler rejects the file. Simplified: what operators, conversions and functions compute is a parameter; functions called by initialisers read variables but assign none; a member of a constant is not counted among the C constants, and neither is anything the C compiler may fold as an extension, except a constant compound literal. The order of constructors of the same priority within one file is the one the compilers in use give, not one the C standard fixes.
* `Verif/Lang/StructExpr/Model.lean`: Model of struct expressions. `src/cxy/lang/middle/sema/struct.c` 60–95 (`preCheckStructMembers`), 295–444 (`checkStructExpr`); `src/cxy/lang/middle/simplify/simplify.c` 1035–1060 (`visitStructDecl`); `src/cxy/driver/driver.c` 185–212 (a module that is imported goes through all stages before the one that imports it is checked). `S{a: 1, b: 2}`: the checker notes which fields are written, then adds the defaults of the others and refuses the expression if a field is left that has none. It notes a field under the number the field has. While the module with the struct is checked that is the place of the field among all members; once that module is simplified it is the place among the fields. The loop that adds the defaults counts members. Simplified: the values are those of the expressions, which are evaluated elsewhere; types are not checked. The struct is not generic.
* `Verif/Lang/Suggest/Model.lean`: Model of the spelling suggestions, `src/cxy/lang/middle/bind/scope.c` 44-101. 
* `Verif/Lang/Switch/Model.lean`: Model of `switch` on integers. `src/cxy/lang/middle/sema/switch.c` (`checkCaseStmt`, `checkSwitchStmt`, `compareLiteralNode`, `checkDuplicateCaseMatches`), `frontend/parser.c` 2419–2468 (`caseStatement`, `switchStatement`), `backend/llvm/generate.cpp` 777–823 (`visitSwitchStmt`) and the `qsort` of glibc (`msort_with_tmp`, the sort by merging that it uses for arrays of this size). Simplified: the condition is of a primitive integer type; bodies are numbers; case labels are integer literals, each with the type it was given by its suffix or else by its size, or ranges `a..b` of two of them (whose type is always `i64`, `binary.c` 372). Left out: labels of enumerations, characters and strings, cases made at compile time.
* `Verif/Lang/Tests/Model.lean`: Test cases. `src/cxy/lang/frontend/parser.c` 2072-2127 (`testContextDeclaration`, `skipTestDecl`, `testDecl`), 3314-3425 (`declaration`), 3676-3714 (`parseProgram`, the loop over declarations), `src/cxy/lang/middle/shake/shake.c` 898-954 (`shakeTestDecl`), 1170-1191 (`buildTestsVariable`), `src/cxy/runtime/builtins.cxy` 1563-1606 (`runTest`, `runTests`), `src/cxy/lang/backend/c/generate.c` 1757-1796 (`generateTestMainFunction`), 2149-2163 (`compilerBackendExecuteTestCase`) and `src/cxy/driver/driver.c` 240-243. Left out: conditional compilation around tests (`#if`), imports marked `test` (modelled with the imports), test cases that end the program or do not end, and the C compiler.
* `Verif/Lang/TypeQ/Model.lean`: Questions about types at compile time (`T.isInteger`, `T.isPointer`, …). `src/cxy/lang/middle/eval/comptime.c` 407-770 (the functions behind the members `is…`), 870-930 (`initDefaultMembers`), `src/cxy/lang/frontend/ttable.c` 542-611 (`resolveType`, `resolveAndUnThisType`, `resolveUnThisUnwrapType`), 1023-1031 (`makeWrappedType`), 1048-1063 (`unwrapType`) and `src/cxy/lang/frontend/types.c` 459-658, 727-735, 806-812 (`isIntegerType` and the like). A type is a type proper under the layers a program can put around it: an alias, the information `typInfo`, the type of `this` and `const`. A type proper has what the questions look at. Left out: forward declarations, literal types, errors, and questions about other nodes than types.
* `Verif/Lang/TypeTable/Model.lean`: Model of `src/cxy/lang/frontend/ttable.c`: hashing, comparing and interning types. A `Type *` is a tree whose root carries the address of the record (`id`), so a component of a type is the tree of the component. Modelled are the error, auto, void, null, primitive, string, pointer, reference, optional, array, map, alias, union, untagged union, opaque, tuple, function, enum, class, interface, wrapped, result and type-information types. Not modelled: literal, container, `this`, generic, applied, exception, module and struct types (the last because anonymous structs are compared through their members). Names are interned, so comparing the pointers is comparing the names (see `StrPool` for the exception).
* `Verif/Lang/Unions/Model.lean`: Model of unions: `is`, `as` and `match`. `src/cxy/lang/middle/sema/type.c` 15–32 and 156–190 (`addUnionDecl`, `checkUnionDecl`), `src/cxy/lang/frontend/types.c` 1292–1302 (`findUnionTypeIndex`), `src/cxy/lang/middle/sema/match.c`, `src/cxy/lang/frontend/parser.c` 2473–2540 (`matchCaseStatement`), `src/cxy/lang/middle/simplify/simplify.c` 604–700 (`visitCastExpr`), 833–859 (`visitBinaryExpr`, `is`), 1105–1113 (`visitIfStmt`), 1152–1210 (`visitMatchStmt`), `src/cxy/lang/middle/shake/shake.c` 447–561 (`shakeIfStmt`, `shakeWhileStmt`) and `src/cxy/lang/backend/c/generate.c` 292–330, 954–968, 1031–1036, 1114–1125, 1546–1625 (unions in the C that is written). A union is a number, the place of the type it holds among the members, and the value. `as` becomes a call of `__cxy_assert`, put in front of the statement in the nearest block, and an unchecked access. Simplified: there is one union type; what it holds is an integer, whatever the type; functions that return a union change variables of numbers only; indices of arrays are in range. An index is a literal, a variable or `x++` (others are first stored in a variable, `visitIndexExpr` 702–723), what a `match` looks at is a variable or an element (others are first stored, `shakeMatchStmt` 721–741), and the variable of a case is a copy (types that are no numbers get a reference). Left out: `!as`, which is not checked, `break`, `return`, and unions behind references.
* `Verif/Lang/Unreach/Model.lean`: Code that cannot be reached, and functions that end without a result. `src/cxy/lang/middle/sema/check.c` 52-69 (`reportUnreachable`, `hasUnreachable`), 71-79 (`getNodeReturnType`), 122-194 (`checkBlockStmt`), 196-277 (`checkReturnStmt`, the type of the result), 418-421 (`checkWhileStmt`), `sema/if.c` 45-62 (`checkIfStmt`), `sema/for.c` 426-429 (`checkForStmt`), `sema/switch.c` 228-253 (`checkSwitchStmt`), `sema/match.c` 92-116 (`checkMatchStmt`) and `sema/function.c` 374-418 (`checkFunctionBody`). Expressions are left out: an expression statement is a number, a returned value is its type. Handlers of `catch` are modelled with the exceptions (`Verif.Lang.Raise.Model`). The bodies of `if`, loops and cases are blocks, as `shake.c` makes them; an `if` behind `else` is a block with one statement. Cases chosen at compile time are left out.
* `Verif/Std/Args/Model.lean`: Model of command-line parsing (`src/cxy/stdlib/args.cxy`, `Command.parse`). Arguments are C strings: lists of non-zero bytes, with a NUL behind the last one. The hash map of parameters (lines 44-66) is a list of parameters and the map of parsed values an association list; the hash map itself is modelled in `Std/HashMap`. `var i = 0` (line 90) is an `i8`: that is the type of the literal.
* `Verif/Std/Base64/Model.lean`: Model of `src/cxy/stdlib/base64.cxy`. A buffer is a list of bytes; reading past its end is undefined behaviour. `p.[i..]` is the rest of the list. The operands of `&`, `|`, `<<` and `>>` are widened by the compiler as in `Verif.Lang.Codegen`; for these expressions the low bits are those of the operation on naturals. `os << <char>c` goes through `OutputStream.appendChar` (builtins.cxy 652-653), which writes the UTF-8 encoding of the code point `c`.
* `Verif/Std/Bswap.lean`: Byte swapping (`src/cxy/runtime/builtins.cxy` 88-108). The arguments are unsigned, so `>>` is a logical shift and `<<` drops the bits that leave the type. In `__bswap16` the masks `0xff` are 16-bit literals, so all steps are 16 bits wide.
* `Verif/Std/Build/Model.lean`: Builds. `src/cxy/stdlib/build.cxy` 45-79 (`Context`) and 96-152 (`Builder`). Names, values and tasks are numbers. Maps are lists of pairs with different keys, as justified for every history of insertions by `Verif.Std.HashMap`; the order in which a map is visited is a parameter. Left out: `parseOptions` (101-116), which nothing calls; descriptions of options; what is printed.
* `Verif/Std/EvLoop/Model.lean`: The event loop and the coroutine scheduler. Model of `src/cxy/stdlib/native/evloop/ae.c` (timers, file events, `aeProcessEvents`, the epoll part of `aeApiPoll`) and of `CoroutineScheduler` in `src/cxy/stdlib/coro.cxy`. Records have names here and not addresses: `.fd n` is `events[n]`, `.heap k` is the k-th record that `malloc` gave; addresses are not given twice. The clock is a number of milliseconds, read by the caller. What the kernel reports is an argument of each poll. `malloc` and `epoll_ctl` do not fail. The stacks of the coroutines are in `Std/Coro.lean`; saving and restoring registers is not modelled: to switch to a coroutine is to run the next action of its program.
* `Verif/Std/Fetch/Model.lean`: Receiving the response of a fetch. `src/cxy/stdlib/fetch.cxy` 419-431 (`onBodyPart`), 451-460 (`feed`), 462-473 (`receive`), 517-520 (`responseParserOnBody`) and 522-526 (`responseParserOnMessageComplete`). Of the parser (llhttp, third party) only this is assumed: the bytes of a body are given to `on_body` as they come; with a known length `on_message_complete` is called once all were; without one the body goes on to the end of the connection, and only `llhttp_finish`, which fetch.cxy does not call, would complete the message; a result of `on_body` other than 0 makes `llhttp_execute` fail. What comes behind a complete message is left out, as are headers (`Verif.Std.Http.Receive`) and bodies in chunks.
* `Verif/Std/FileServer/Model.lean`: Model of the file server: `src/cxy/stdlib/fserver.cxy` lines 40-72, 88-160, 238-247 and 261-560 and `path.cxy` 40-48. The file system gives for the names from the root what is there. `realpath`, `stat` and `open` of the C library are modelled on it: they follow at most 40 symbolic links; limits on the length of paths and names, permissions, and changes of the file system while a request is answered are left out. A mapped file and a file that was read are both the bytes at the time of loading; `enableSendFile` is off, as it is by default. The hash maps are lists of pairs, found by the comparison that the maps are declared with (`EqualsCase`, `builtins.cxy` 1261-1267); a time is a number of seconds. The header `If-Modified-Since` is given as its time, and of the headers of a reply only `Content-Range` is kept.
* `Verif/Std/FileServer/Ranges.lean`: Requests for a part of a file (C115). Source: /repo/src/cxy/stdlib/fserver.cxy 324-396.
* `Verif/Std/FileServer/Reach.lean`: Which files can be had from the file server (C112, C113, C114). Source: /repo/src/cxy/stdlib/fserver.cxy 120-160, 238-247, 415-489 and 531-559; path.cxy 40-48.
* `Verif/Std/FileServer/Serve.lean`: What the file server sends: files below its root (C112), with the content they have now (C113). Source: /repo/src/cxy/stdlib/fserver.cxy 120-160, 261-337, 415-489 and 531-559.
* `Verif/Std/FixedWidth.lean`: Fixed-width log fields (`src/cxy/stdlib/log.cxy` 18-32) and repeated characters (`builtins.cxy` 1425-1435). A stream is the list of bytes written to it. Characters here are bytes; the padding is a space.
* `Verif/Std/FsOps/Listing.lean`: Listing directories. `src/cxy/stdlib/path.cxy` 308-342 (`ls`). A directory is a tree of entries in the order in which they are read, without `.` and `..`; a link is an entry like a file (`d_type` is not `DT_DIR`). A path is the list of names from the directory that is listed. The callback may decide by the path and all calls before. Left out: errors when a directory is opened, changes while it is read, callbacks that raise.
* `Verif/Std/FsOps/Mkdirs.lean`: Making directories. `src/cxy/stdlib/path.cxy` 289-295 (`mkdir`), 297-306 (`mkdirs`), 201-207 (`exists`); `dirname` is `Verif.Path.dirname`. The file system is the set of directories, each as the list of names from the root. Left out: files in the way, permissions, links, `.` and `..` (taken as names), other processes.
* `Verif/Std/FsOps/Model.lean`: Removing files and directories. `src/cxy/stdlib/path.cxy` 201-207 (`exists`), 209-230 (`isfile`), 232-253 (`isdir`), 255-267 (`islink`), 344-360 (`isDirEmpty`), 362-384 (`remove`), with `ls` (308-342) as far as `remove` uses it (not recursive, the callback always returns true). The file system is a table of objects by number (inodes). A directory is a list of names with the numbers of objects, in the order in which it is read, without `.` and `..`. A symbolic link is the object it leads to, when all links on the way are followed, or nothing. A path is a directory and a name in it: the directories on the way are not modelled. Left out: permissions and other errors of the operating system, other processes, links that lead back to a directory that contains them (the recursion is on a depth; `none` if it is not enough), paths longer than 1023 bytes (`Verif.Std.Path`).
* `Verif/Std/HashFn/Model.lean`: Model of the hash functions of the runtime. `src/cxy/runtime/builtins.cxy` 255–350 (`hash_fnv1a_uint8` … `hash_fnv1a_bytes`, `hash`), 444 (`__string.hash`), 896–904 (`String.hash`), 1260–1297 (`EqualsCase`, `HashCase`). Text is memory around its first byte: `m i` is the byte `i` bytes behind (or before) it, `none` outside of what may be read. `var i = 0` is an `i8`, the type of the literal (`getIntegerTypeForLiteral`), so `i++` wraps at 127. A comparison of an `i8` with a `u64` is made on 64 unsigned bits after extending the sign (`generateBinaryExpr`, `generateCastExpr`); an index of type `i8` is signed. Simplified: `toupper`, `strcasecmp` and `strncasecmp` are those of the C locale. Left out: `hash` of enumerations, tuples, arrays and unions, which only call these functions.
* `Verif/Std/HashMap/Model.lean`: Model of `src/cxy/stdlib/hash.cxy`: `HashMap[K, V]` (and `HashSet[K]` with `V = Unit`). Keys and values are abstract. Numbers of type `u64` are naturals except where the code depends on wrap-around: `probe` and the counters declared `var i = 0` / `var j = 0`, which are `i8` because an integer literal has the smallest signed type that holds it (`lang/frontend/check.c` 748-751, `ttable.c` 1444) and a variable takes the type of its initialiser. Comparing an `i8` with a `u64` sign-extends the `i8` and compares unsigned (`backend/llvm/binary.cpp` 93-115). Allocation succeeds; `delete` of a removed entry is not modelled.
* `Verif/Std/Http/Model.lean`: Model of the client side of HTTP: `src/cxy/stdlib/fetch.cxy` lines 24-41, 77-371 and 566-584. What is written to the socket is a list of bytes; writing never fails. The hash maps of headers, arguments and form fields are lists of pairs; their order is the order of iteration, which the source leaves open. A file is the list of its bytes. Sizes are `u64`, so every size is taken modulo 2^64.
* `Verif/Std/Http/Receive.lean`: Assembling a request from the parser's callbacks (C109). Source: /repo/src/cxy/stdlib/http.cxy 399-410 and 487-598 (`Request`, `clear`, the `requestParserOn...` callbacks); the callbacks of a client's response (fetch.cxy 471-514 `responseParserOn...`, 418-431 `onBodyPart` without a writer) are the same text except that there is no `onMessageBegin` and no `onUrl`. Simplified: the parser itself (llhttp) is not modelled; it appears as the list of calls it makes. Strings are lists of bytes, a null string is `none`; the header map is a list of pairs (`putHeader`, `headerOf`). Callbacks return 0, except where an assertion fails.
* `Verif/Std/Http/Route.lean`: Model of request methods and routing: `src/cxy/stdlib/http.cxy` lines 32-48, 93-125, 214-235, 609-792 and 858-878. Texts have no NUL byte, and a NUL byte follows them in memory (string literals, and `String`, builtins.cxy 828-837), so that reading at the end of the list gives 0. A handler is a number. The trie of routes is that of `Verif.Std.Trie`.
* `Verif/Std/Http/Server.lean`: Model of the server side of HTTP: `src/cxy/stdlib/http.cxy` lines 50-91, 127-212, 244-396 and 940-984. What is written to the socket is a list of bytes; writing never fails, and a file has at least the bytes that are to be sent from it unless stated otherwise. A chunk is its text or a part of a file.
* `Verif/Std/Http/Url.lean`: Addresses of requests (C110) and numbers in views (C111). Source: /repo/src/cxy/stdlib/fetch.cxy 536-541, 634-661 (`Session.create`) and 664-697 (`fetch`); /repo/src/cxy/runtime/builtins.cxy 471-475 (`__string.toi`). A view is given by its text and the memory that follows it, for `toi` gives the C function `strtoll` only the address. Simplified: `methodFromString` reads a NUL byte after its text (as in the model of C107); resolving the host, connecting and TLS are left out: the result is what they are asked for.
* `Verif/Std/Json/Str.lean`: JSON strings (`src/cxy/stdlib/json.cxy`). `toJSON` for strings (14-16) and `JSONParser.expectString` (121-145) as used by `fromString` (374-378), which parses the NUL-terminated contents of a `String`. Line and column numbers, which only appear in messages, are left out. Offsets are `u32` in the source; texts are taken to be shorter than 2^32 bytes.
* `Verif/Std/JsonVal/Model.lean`: JSON values (`src/cxy/stdlib/json.cxy`). `toJSON` (6–79), `JSONParser` (83–275), `fieldFromJSON` (277–311), `parseJSON` (313–372) and `fromString` (377–381) for booleans, integers, strings, optionals, tuples and structures with the attribute `json`. A position in the text is given as the text that is still ahead; reading behind the end gives the NUL that ends a `String`. Lines and columns, which only appear in messages, are left out, and so are floating-point members, base64 members, classes with a `fromJSON` of their own, and arrays and slices, which can be written but not read. Letters are those of ASCII.
* `Verif/Std/ListQ/Model.lean`: Model of `src/cxy/stdlib/list.cxy`. Items are addresses, 0 being `null`; `link` is the field of every item. The count is below 2^64.
* `Verif/Std/Log/Model.lean`: The logger. Model of `src/cxy/stdlib/log.cxy` (5-16, 38-69, 94-98) and of the macro `lshift!` in `src/cxy/lang/middle/eval/macro.c` (515-548). An expression is an operand of any other form, a shift to the left, an expression in parentheses or the call of `log`, which only the macro writes. The text that an operand prints as is a parameter; to evaluate an operand changes nothing but is recorded. The stream is the list of bytes written to it. The text of the time is part of the operation.
* `Verif/Std/Log/Props.lean`: Properties of the logger. Source: `src/cxy/stdlib/log.cxy` 5-98, `src/cxy/lang/middle/eval/macro.c` 515-546.
* `Verif/Std/Net/Model.lean`: Addresses and name lookup. Model of `Address`, `getLocalAddress` and `getRemoteAddress` in `src/cxy/stdlib/net.cxy` (130-427). An address is 32 bytes, read as `struct sockaddr_in` (family at 0, port at 2, host at 4; 16 bytes) or `struct sockaddr_in6` (family at 0, port at 2, host at 8; 28 bytes), the layout of Linux on a machine with the low byte first. What the bytes hold before the constructor runs is a parameter. Texts are lists of bytes. The C library is a parameter: `pton4`/`pton6` are `inet_pton` (nothing when the text is no address of the family), `ntop4`/`ntop6` are `inet_ntop` (nothing for NULL). `getifaddrs` is assumed to succeed, as are the calls that open the resolver; the configuration files of the resolver are left out.
* `Verif/Std/Net/Remote.lean`: Looking up the address of another machine. Source: `src/cxy/stdlib/net.cxy` 319-433.
* `Verif/Std/Net/Tcp.lean`: TCP connections and listeners. Model of `tcpConnect` and `TcpListener` in `src/cxy/stdlib/tcp.cxy` (48-59, 165-283). The open descriptors of the process are a list. The answers of the system calls are parameters. `errno`, the text of the exceptions, the back log and the options of the sockets other than `O_NONBLOCK` are left out, and the calls in `configureSocket` succeed, as its assertions demand.
* `Verif/Std/Net/TcpProps.lean`: Properties of TCP connections and listeners. Source: `src/cxy/stdlib/tcp.cxy` 165-283.
* `Verif/Std/Path.lean`: Splitting paths (`src/cxy/stdlib/path.cxy` 269-287) and handing them to C (190-199). Paths are byte strings; the separator is `/` (`UNIX` defined). `PathLike` values are their `__string`.
* `Verif/Std/Print/Model.lean`: Printing values: `OutputStream.<<`. Models src/cxy/runtime/builtins.cxy 558-756 (`appendSignedInt`, `appendChar`, `appendBool`, `<<`) with the C back end (src/cxy/lang/backend/c/generate.c 2020-2029: `char` is the C type `char`, signed on x86-64 and arm64 macOS). Not modelled: floats and pointers (`%g`, `%p`), classes and structures with their own `str` operator, functions, and `null` strings (of which nothing is printed).
* `Verif/Std/Proc/Model.lean`: Processes. Model of `Process` and `execvpe` in `src/cxy/stdlib/os.cxy` (on Linux): the pipes between a program and the one it starts, and what is reported about its end. A table of descriptors says what each descriptor stands for. Pipes are numbered and never full; a pipe holds the bytes written and not yet read. `execvp` keeps the table (no descriptor is closed on exec) and succeeds.
* `Verif/Std/Slice/Model.lean`: Slices. Source: `src/cxy/runtime/builtins.cxy` 1060–1121 (`Slice`). A slice is a pointer and a length. Memory is a function from element addresses to elements; the pointer is the address of the first element. Numbers are what the types of the parameters hold: a `u64` is a natural number below `2 ^ 64`, an `i64` an integer. Assertions are on (they are unless `DISABLE_ASSERT` is defined). That the pointer and the length describe memory the program owns is the business of whoever makes the slice (1064–1067 store what they are given).
* `Verif/Std/SmartPtr.lean`: Reference-counted objects (`src/cxy/runtime/builtins.cxy` 110-168). One object. `refs` is an atomic `u32`; touching the header after `free` is undefined.
* `Verif/Std/Ssl/Model.lean`: Encrypted sockets: sending, receiving, sending files. `src/cxy/stdlib/ssl.cxy` 160-195 (`sendBuffer`), 197-214 (`sendFile`), 216-251 (`receive`). What OpenSSL and the event loop do is a list of events, one for each call of `BIO_write` or `BIO_read`. If the list ends the call still waits. Trusted of OpenSSL: a length that is not positive makes `BIO_write` and `BIO_read` transfer nothing and return 0, and `SSL_get_error` then gives neither `SSL_ERROR_WANT_WRITE` nor `SSL_ERROR_WANT_READ`. Left out: a connection without `ssl_st` (162-166, 218-222), the flush for a null buffer (168-171), `errno` and messages, the handshake.
* `Verif/Std/Str/Model.lean`: Model of the strings and streams of `src/cxy/runtime/builtins.cxy`. Bytes are naturals below 256; sizes are below 2^63. Allocation succeeds. `Out` distinguishes a failed `assert!` (enabled unless `DISABLE_ASSERT` is defined, lines 51-56) from undefined behaviour.
* `Verif/Std/StreamIO/Model.lean`: Sockets and files. Model of `TcpSocket` in `src/cxy/stdlib/tcp.cxy` with `Socket.wait` in `src/cxy/stdlib/net.cxy`, and of the streams and the copying of files in `src/cxy/stdlib/os.cxy` (on Linux). The kernel is free: what it answers in each round of a loop is an argument, so a theorem for all lists of rounds is about every kernel, network and peer. When the list is used up the call has not returned. Bytes are numbers. Sizes are below 2^63. Other coroutines that use the same descriptor are left out. `MSG_` flags, signals and the buffers of the kernel are left out: a byte is sent when the kernel has taken it.
* `Verif/Std/Thread/Model.lean`: Threads and joining them. Objects `Thread` of the standard library are structures: they are copied by value. Threads of the system are numbers, in the order they are created.
* `Verif/Std/Trie/Model.lean`: Model of `src/cxy/stdlib/trie.cxy`. Nodes live in a heap of cells with increasing addresses. The `children` hash map of a node is a finite map from characters to nodes (what `Verif.Std.HashMap` proves of `stdlib/hash.cxy` for insertions); memory is never exhausted.
* `Verif/Std/Vector/Model.lean`: Model of `src/cxy/stdlib/vector.cxy`. Elements are abstract values, moved in and out; a cell that was never written holds `none`. `room` is the number of cells really allocated and every access is checked against it. Allocation succeeds and sizes are below 2^64. Destructor calls on elements are not modelled.

## Properties: what is modelled, how it is proved, on which axioms

Axioms after each theorem: P = `propext`, C = `Classical.choice`, Q = `Quot.sound`, - = none; computed with `collectAxioms`.
No theorem depends on anything else. Status `partial` means that the full statement is false of the code or not fully covered; the note says which.

### C01 Hash table lookups agree with a set of inserted keys (proved)

Code: `src/cxy/core/htable.c:insertInHashTable`, `src/cxy/core/htable.c:findInHashTable`, `src/cxy/core/htable.c:clearHashTable`, `src/cxy/core/htable.c:rehash`.
Proof: refinement to a list of distinct elements; linear-probing invariant "every bucket between an element's home and its place is occupied".
All histories of insert/find/clear, any client equality with a compatible hash, any initial capacity.
Theorems: `Verif.HTable.history_matches_set` [PCQ].

### C02 Hash table always keeps a free bucket (proved)

Code: `src/cxy/core/htable.c:needsRehash`, `src/cxy/core/htable.c:insertInHashTable`, `src/cxy/core/htable.c:findInHashTable`, `src/cxy/core/primes.h:nextPrime`.
Proof: invariant size < capacity; termination of the probe loop from a free bucket.
Theorems: `Verif.HTable.history_leaves_free_bucket` [PCQ].

### C03 Hash table removal keeps every other element findable (partial)

Code: `src/cxy/core/htable.c:removeFromHashTable`, `src/cxy/lang/frontend/ttable.c:removeFromTypeTable`, `src/cxy/lang/frontend/ast.c:removeFromHashTable`.
Proof: negation by witness and for every table whose chain reaches the last bucket while bucket 0 holds an element at home; partial theorem for chains that do not wrap.
The property is false of the code: the first theorem is a concrete counterexample, the third loses an element in every table whose occupied chain reaches the last bucket and whose bucket 0 holds an element that belongs there. The second gives the condition under which removal keeps every other element.
Theorems: `Verif.HTable.removal_can_lose_another_element` [PQ], `Verif.HTable.removal_keeps_others_partial` [PCQ], `Verif.HTable.removal_loses_first_bucket` [PCQ].

### C04 Hash table enumeration visits each element once (proved)

Code: `src/cxy/core/htable.c:enumerateHashTable`, `src/cxy/core/htable.c:hashTableItNext`, `src/cxy/core/htable.c:hashTableItHasNext`.
Proof: enumeration equals the occupied buckets in order; permutation of the abstract contents.
Theorems: `Verif.HTable.enumeration_is_contents` [PCQ], `Verif.HTable.enumeration_stops` [PQ].

### C05 Robin-hood map: get after put (proved)

Code: `src/cxy/core/hmap.c:hmapPut`, `src/cxy/core/hmap.c:hmapGet`, `src/cxy/core/hmap.c:hmapPutInternal`.
Proof: distinct-key refinement; negation for duplicate puts; undefined behaviour after clear.
Every history in which each put is of an absent element, including removals.
Theorems: `Verif.Hmap.fresh_history_matches_map` [PCQ].

### C06 Robin-hood map: re-putting a key replaces (partial)

Code: `src/cxy/core/hmap.c:hmapPutInternal`, `src/cxy/core/hmap.c:hmapRemove`.
Proof: distinct-key refinement; exact characterisation of when putting a key again stores a second copy; undefined behaviour after clear.
False of the code: re-putting a key that is not first among the keys of its home slot stores a second copy. The last theorem says exactly when, for all reachable states in which the table does not have to grow; the second gives what the map holds otherwise.
Theorems: `Verif.Hmap.reput_can_duplicate` [P], `Verif.Hmap.reput_replaces_partial` [PCQ], `Verif.Hmap.reput_duplicates_iff` [PCQ].

### C07 Robin-hood map is usable after clear (partial)

Code: `src/cxy/core/hmap.c:hmapClear`, `src/cxy/core/hmap.c:hmapPut`, `src/cxy/core/hmap.c:hmapPutInternal`.
Proof: distinct-key refinement; negation for duplicate puts; undefined behaviour after clear.
False of the code: a put after clear computes a remainder modulo zero. Lookup, removal and size after clear are those of an empty map.
Theorems: `Verif.Hmap.put_after_clear_undefined` [PQ], `Verif.Hmap.cleared_map_is_empty_partial` [P].

### C08 String interning returns the requested string (partial)

Code: `src/cxy/core/strpool.c:makeStringSized`, `src/cxy/core/strpool.c:compareStrFind`, `src/cxy/core/strpool.c:compareStrInsert`, `src/cxy/core/hash.c:hashRawBytes`.
Proof: prefix-compare modelled literally; negation with an explicit FNV collision; partial theorem under "no earlier extension with the same hash".
False of the code: interning s after sst5lrt returns sst5lrt. Correct for every history without 31-bit hash collisions; every collision is mishandled (wrong string or undefined behaviour).
Theorems: `Verif.StrPool.interning_correct_partial` [PCQ], `Verif.StrPool.interning_can_return_another_string` [PCQ], `Verif.StrPool.collision_is_mishandled` [PCQ].

### C09 FNV-1a hashing is the reference function and composes (proved)

Code: `src/cxy/core/hash.c:hashUint8`, `src/cxy/core/hash.c:hashUint16`, `src/cxy/core/hash.c:hashUint32`, `src/cxy/core/hash.c:hashUint64`, `src/cxy/core/hash.c:hashStr`, `src/cxy/core/hash.c:hashRawBytes`.
Proof: equalities over BitVec 32, induction over bytes.
Theorems: `Verif.Hash.hashRawBytes_is_fnv1a` [PQ], `Verif.Hash.hashInit_is_offset` [-], `Verif.Hash.hashStr_is_fnv1a` [PQ], `Verif.Hash.hashUint16_is_fnv1a` [PQ], `Verif.Hash.hashUint32_is_fnv1a` [PQ], `Verif.Hash.hashUint64_is_fnv1a` [PQ], `Verif.Hash.hashRawBytes_append` [PQ].

### C10 Pool allocations are aligned and disjoint (proved)

Code: `src/cxy/core/mempool.c:allocFromMemPool`, `src/cxy/core/mempool.c:alignTo`.
Proof: invariant over the block list and the set of handed out ranges; aliasing witness after reset.
All histories of allocations (also through empty free lists) and resets; the block assertions never fail.
Theorems: `Verif.MemPool.allocations_disjoint` [PCQ], `Verif.MemPool.allocation_has_size` [PCQ].

### C11 Pool reset and caches do not alias (partial)

Code: `src/cxy/core/mempool.c:resetMemPool`, `src/cxy/core/mempool.c:allocFromCacheOrPool`, `src/cxy/core/mempool.c:freeMemToPoolCache`.
Proof: invariant over the block list and the set of handed out ranges; overlap after any history that leaves an item in a free list.
False of the code: free lists survive a reset, and ignore the requested size; the first two theorems show both after any history that leaves an item in a free list. Holds when no reset follows a return to a free list and each list is used with one size.
Theorems: `Verif.MemPool.reset_aliases_cached_item` [PQ], `Verif.MemPool.larger_request_overlaps` [PQ], `Verif.MemPool.reset_then_cache_aliases` [P], `Verif.MemPool.cache_ignores_size` [P], `Verif.MemPool.live_allocations_disjoint_partial` [PCQ].

### C12 Dynamic array behaves as a sequence (proved)

Code: `src/cxy/core/array.c:pushOnDynArray`, `src/cxy/core/array.c:popDynArray`, `src/cxy/core/array.c:resizeDynArray`, `src/cxy/core/array.c:copyDynArray`, `src/cxy/core/array.c:growDynArray`.
Proof: refinement to List, bounds as an outcome.
Theorems: `Verif.DynArray.history_matches_list` [PQ].

### C13 String builder content is the concatenation of appends (partial)

Code: `src/cxy/core/sb.c:stringBuilderAppendCstr0`, `src/cxy/core/sb.c:stringBuilderGrow`, `src/cxy/core/sb.c:stringBuilderRelease`.
Proof: refinement to List of bytes.
Holds for every non-empty sequence of appends on a new builder. False without appends (unterminated buffer) and for an empty first append on a released builder (endless loop). Float output not modelled.
Theorems: `Verif.Sb.release_is_concat_partial` [PCQ], `Verif.Sb.reuse_after_release_partial` [PCQ], `Verif.Sb.released_without_append_unterminated` [-], `Verif.Sb.append_after_empty_diverges` [PQ].

### C14 UTF-8 output of a code point decodes to that code point (partial)

Code: `src/cxy/core/sb.c:wcharToStr`, `src/cxy/core/format.c:printUtf8`, `src/cxy/runtime/builtins.cxy:OutputStream.appendChar`, `src/cxy/core/utils.c:convertStrToUtf32`.
Proof: round trip against an independent decoder; negation for the wrong one.
Proved for the two compiler encoders and all Unicode characters. The stdlib output stream is right up to U+FFFF and wrong for every character above.
Theorems: `Verif.Text.builder_writes_utf8` [PCQ], `Verif.Text.format_writes_utf8` [PCQ], `Verif.Text.reader_inverts_encoder` [PCQ], `Verif.Text.stream_writes_utf8_partial` [PCQ], `Verif.Text.stream_wrong_above_bmp` [PCQ].

### C15 Formatted output is the concatenation of all writes (proved)

Code: `src/cxy/core/format.c:reserveBuf`, `src/cxy/core/format.c:write`, `src/cxy/core/format.c:formatStateToString`, `src/cxy/core/format.c:format`.
Proof: refinement to concatenation.
The conversion of numbers by snprintf is a parameter.
Theorems: `Verif.Format.output_is_concatenation` [PQ].

### C16 Binary search is exact on sorted arrays (proved)

Code: `src/cxy/core/utils.c:binarySearch`, `src/cxy/lang/frontend/types.c:findNamedTypeMemberInContainer`.
Proof: invariant of the search interval.
Theorems: `Verif.Search.binarySearch_exact` [PCQ].

### C17 Escaped characters read back as themselves (partial)

Code: `src/cxy/core/format.c:printEscapedChar`, `src/cxy/core/utils.c:convertEscapeSeq`, `src/cxy/core/utils.c:escapeString`.
Proof: round trip.
False of the code in three ways (theorems); the two partial theorems give the exact side conditions under which printing and reading are inverse.
Theorems: `Verif.Text.escaped_text_reads_back_partial` [PCQ], `Verif.Text.literal_reads_back_partial` [PQ], `Verif.Text.escaped_nul_swallows_digits` [P], `Verif.Text.escaped_char_backslash_lost` [P], `Verif.Text.literal_escaped_backslash_wrong` [P].

### C18 Lexing terminates and consumes the whole source (partial)

Code: `src/cxy/lang/frontend/lexer.c:advanceLexer`, `src/cxy/lang/frontend/lexer.c:skipMultiLineComment`, `src/cxy/lang/frontend/lexer.c:skipUntilSpaceOrPunctuation`.
Proof: fuelled lexer, progress measure; divergence proved for unterminated literals.
Ordering and coverage hold for every source that is lexed. Termination is proved for every source ending in a newline that is not preceded by a backslash; it is false of the code otherwise: an unterminated string or character literal at the end of the file makes the lexer loop forever, and a prefixed literal that ends the file recurses without end.
Theorems: `Verif.Lexer.lexing_ends_partial` [PCQ], `Verif.Lexer.tokens_cover_source` [PCQ], `Verif.Lexer.unterminated_string_diverges` [PCQ], `Verif.Lexer.unterminated_char_diverges` [PCQ], `Verif.Lexer.binary_literal_at_eof_never_lexed` [PCQ], `Verif.Lexer.char_literal_at_eof_undefined` [PCQ].

### C19 Nested comments are skipped exactly (proved)

Code: `src/cxy/lang/frontend/lexer.c:skipMultiLineComment`.
Proof: fuelled lexer, progress measure; divergence proved for unterminated literals.
Theorems: `Verif.Lexer.Comment.comment_skipped_exactly` [PCQ], `Verif.Lexer.Comment.skipped_comment_is_balanced` [PCQ], `Verif.Lexer.Comment.unbalanced_comment_runs_to_end` [PCQ], `Verif.Lexer.Comment.no_close_unbalanced` [P].

### C20 Binary operator parsing follows the precedence table (proved)

Code: `src/cxy/lang/frontend/parser.c:binary`, `src/cxy/lang/frontend/operator.h:AST_BINARY_EXPR_LIST`, `src/cxy/lang/frontend/operator.c:getBinaryOpPrecedence`.
Proof: print/parse round trip by induction on trees.
Covers prefix, postfix, call, index, member, assignment and conditional expressions as well.
Theorems: `Verif.Parser.printed_expression_is_read_back` [PCQ], `Verif.Parser.two_operators` [PCQ].

### C21 Implicit integer assignment preserves the value (partial)

Code: `src/cxy/lang/frontend/types.c:isTypeAssignableFrom`, `src/cxy/lang/frontend/types.c:getIntegerTypeMinMax`.
Proof: decision tables over all primitive types lifted to all values.
False of the code from signed to unsigned (last theorem, for every such pair). True for every other accepted pair, also of the stored value in the generated code; and every value-preserving pair is accepted.
Theorems: `Verif.Prim.assignable_keeps_value_partial` [PCQ], `Verif.Prim.value_preserving_is_assignable` [P], `Verif.Codegen.assignment_stores_value_partial` [PCQ], `Verif.Prim.unsigned_accepts_negative` [P].

### C22 Arithmetic promotion gives a type that can hold both operands (partial)

Code: `src/cxy/lang/frontend/ttable.c:promoteType`.
Proof: decision tables over all primitive types lifted to all values.
False of the code for mixed signedness unless the signed type is strictly bigger: the promoted type then loses a value, and with equal sizes it depends on the operand order. True in all other cases.
Theorems: `Verif.Prim.promote_sound_partial` [PCQ], `Verif.Prim.promote_loses_value` [P], `Verif.Prim.promote_depends_on_order` [P].

### C23 Unmatchable switch cases are rejected, others accepted (partial)

Code: `src/cxy/lang/frontend/ttable.c:isIntegerTypeInRange`, `src/cxy/lang/frontend/types.c:getIntegerTypeMinMax`, `src/cxy/lang/middle/sema/switch.c:checkCaseStmt`.
Proof: decision tables over all primitive types lifted to all values.
Exact for signed condition types and for ranges that do not start below zero; for narrower unsigned types every range from a negative to a non-negative number is wrongly rejected. Enum condition types are not modelled.
Theorems: `Verif.Prim.case_range_exact_partial` [PCQ], `Verif.Prim.case_range_from_negative_rejected` [PCQ].

### C24 Type interning is canonical (partial)

Code: `src/cxy/lang/frontend/ttable.c:getOrInsertTypeScoped`, `src/cxy/lang/frontend/ttable.c:compareTypes`, `src/cxy/lang/frontend/ttable.c:hashType`.
Proof: equivalence of the comparison, compatibility of the hash, interning refinement.
Proved for histories in which each kind of type receives its qualifiers in one way only and no alias is extern. False of the code otherwise: a qualified pointer requested as a pointer or as a wrapper gets two handles, a pointer to const and a const pointer get one, named functions depend on the order of requests, and inference of a return type leaves duplicates. Literal, container, this, generic, applied, exception, module and struct types are not modelled.
Theorems: `Verif.TypeTable.interning_canonical_partial` [PCQ], `Verif.TypeTable.compareTypes_exact` [PQ], `Verif.TypeTable.clean_qualifiers` [PCQ], `Verif.TypeTable.byName_iff` [PQ], `Verif.TypeTable.const_pointer_has_two_handles` [PCQ], `Verif.TypeTable.pointer_to_const_is_const_pointer` [PCQ], `Verif.TypeTable.function_type_depends_on_order` [PQ], `Verif.TypeTable.inferred_return_type_duplicates` [PCQ].

### C25 Mangled names are unique per overload (partial)

Code: `src/cxy/lang/middle/mangle.c:makeMangledName`, `src/cxy/lang/middle/mangle.c:mangleType`.
Proof: collision witnesses; injectivity on a code-safe fragment.
False of the code: const t and (char, t) have one encoding, all result types are encoded alike, and type names with underscores or namespaces run together. Proved without these, for all nested types. Float and string literal arguments are not modelled.
Theorems: `Verif.Mangle.overloads_apart_partial` [PQ], `Verif.Mangle.plain_names_apart` [P], `Verif.Mangle.const_is_char` [P], `Verif.Mangle.results_collide` [P], `Verif.Mangle.underscore_collides` [P].

### C26 Compile-time integer arithmetic agrees with run-time arithmetic (partial)

Code: `src/cxy/lang/middle/eval/binary.c:evalBinaryExpr`, `src/cxy/lang/middle/eval/unary.c:evalUnaryExpr`, `src/cxy/lang/backend/llvm/binary.cpp:generateBinaryExpr`.
Proof: BitVec 64 semantics on both sides; exactness range and witnesses.
Proved for expression trees of any size whose intermediate values are exact in a double, non-negative at binary operators, and without >> of a negative. Outside that range the other theorems show disagreement or undefined behaviour in the compiler. The preprocessor applies the same arithmetic to every operator on literals, see C65.
Theorems: `Verif.Eval.comptime_agrees_with_runtime_partial` [PCQ], `Verif.Eval.comptime_comparison_agrees_partial` [PCQ], `Verif.Eval.negative_result_undefined` [PCQ], `Verif.Eval.comptime_loses_precision` [PCQ], `Verif.Eval.comptime_equality_wrong` [P], `Verif.Eval.shift_disagrees` [PCQ], `Verif.Eval.comptime_division_by_zero` [PCQ], `Verif.Eval.comptime_negated_float_truncated` [-].

### C27 Name resolution finds the innermost declaration (partial)

Code: `src/cxy/lang/middle/bind/scope.c:findSymbol`, `src/cxy/lang/middle/bind/scope.c:defineSymbol`, `src/cxy/lang/middle/bind/scope.c:pushScope`, `src/cxy/lang/middle/bind/scope.c:popScope`.
Proof: refinement to a stack of maps; bounded edit distance against the recursive definition.
False of the code when a function entered as a plain symbol (an imported entity) is followed by a function declaration of that name: the overload chain is NULL. Proved for all other histories.
Theorems: `Verif.Scope.names_resolve_partial` [PCQ], `Verif.Scope.import_then_declare_undefined` [PCQ].

### C28 Suggestion distance is the edit distance (proved)

Code: `src/cxy/lang/middle/bind/scope.c:levenshteinDistance`.
Proof: refinement to a stack of maps; bounded edit distance against the recursive definition.
Theorems: `Verif.Suggest.distance_exact` [PCQ], `Verif.Suggest.distance_or_beyond` [PCQ].

### C29 Deferred statements run once, in reverse order, on every exit (partial)

Code: `src/cxy/lang/middle/defer.c:visitBlockStmt`, `src/cxy/lang/middle/defer.c:visitReturnStmt`, `src/cxy/lang/middle/defer.c:visitBreakContinue`, `src/cxy/lang/middle/defer.c:blockScopeSealIntoList`.
Proof: small-step trace semantics of source and rewritten program; equality of traces.
False of the code when a switch case is a bare return (break, continue, defer): the deferred statements run before the switch, whether or not the case is taken. Proved for all other programs, by simulation with a semantics of defer.
Theorems: `Verif.Defer.defers_run_partial` [PCQ], `Verif.Defer.bare_return_in_case` [P].

### C30 Vector behaves as a sequence without out-of-bounds writes (partial)

Code: `src/cxy/stdlib/vector.cxy:Vector.push`, `src/cxy/stdlib/vector.cxy:Vector.grow`, `src/cxy/stdlib/vector.cxy:Vector.pop`, `src/cxy/stdlib/vector.cxy:Vector.shift`, `src/cxy/stdlib/vector.cxy:Vector.resize`, `src/cxy/stdlib/vector.cxy:Vector.shrink`.
Proof: refinement to lists and maps; witnesses.
False of the code at capacity 0 and 1: the growth rule capacity + capacity/2 does not grow and the next push writes out of bounds. Proved whenever growth happens at capacity 2 or more.
Theorems: `Verif.Vector.vector_is_sequence_partial` [PCQ], `Verif.Vector.vector_is_sequence_without_shrink_partial` [PCQ], `Verif.Vector.push_at_small_capacity_undefined` [PQ], `Verif.Vector.push_after_shrink_undefined` [PQ].

### C31 Intrusive list is a FIFO queue (proved)

Code: `src/cxy/stdlib/list.cxy:List.push`, `src/cxy/stdlib/list.cxy:List.pop`.
Proof: refinement to lists and maps; witnesses.
Theorems: `Verif.ListQ.list_is_fifo` [PQ].

### C32 Trie finds exactly what was added (partial)

Code: `src/cxy/stdlib/trie.cxy:Trie.add`, `src/cxy/stdlib/trie.cxy:Trie.find`.
Proof: refinement to lists and maps; witnesses.
False of the code for the empty key, which can be added but is never found. Proved for all other keys.
Theorems: `Verif.Trie.trie_lookup_partial` [PQ], `Verif.Trie.adding_twice_fails` [PQ], `Verif.Trie.empty_key_never_found` [PQ].

### C33 Stdlib hash map: insert-only histories behave as a map (proved)

Code: `src/cxy/stdlib/hash.cxy:HashMap.insertInternal`, `src/cxy/stdlib/hash.cxy:HashMap.getInternal`, `src/cxy/stdlib/hash.cxy:HashMap.rehash`.
Proof: refinement to lists and maps; witnesses.
Histories of insert (with and without replacement), get, contains, size, clear.
Theorems: `Verif.HashMap.history_matches_map` [PCQ].

### C34 Stdlib hash map: removal leaves other keys alone (partial)

Code: `src/cxy/stdlib/hash.cxy:HashMap.remove`, `src/cxy/stdlib/hash.cxy:HashMap.probe`.
Proof: refinement to lists and maps; witnesses.
False of the code: the unsigned distance makes removal lose keys whose chain wraps. Second theorem: correct when no chain wraps and the key is within 127 slots of its home.
Theorems: `Verif.HashMap.removal_can_lose_another_key` [P], `Verif.HashMap.removal_removes_one_key_partial` [PCQ].

### C35 Base64 round trip (partial)

Code: `src/cxy/stdlib/base64.cxy:encodeBuffer`, `src/cxy/stdlib/base64.cxy:decodeBuffer`.
Proof: round trip by induction over triples.
False of the code for bytes of 128 and more (the decoder appends a character, which is re-encoded as UTF-8) and for the empty text (it reads before the start). Proved for non-empty strings of 7-bit bytes; the shape and alphabet of the encoding for all.
Theorems: `Verif.Base64.encoding_shape` [PCQ], `Verif.Base64.decode_encode` [PCQ], `Verif.Base64.base64_round_trip_partial` [PCQ], `Verif.Base64.high_bytes_do_not_come_back` [PCQ], `Verif.Base64.decode_empty_undefined` [P].

### C36 URL-safe Base64 round trip (partial)

Code: `src/cxy/stdlib/base64.cxy:urlEncodeBuffer`, `src/cxy/stdlib/base64.cxy:urlDecodeBuffer`.
Proof: round trip by induction over triples.
False of the code: the encoder advances by two bytes per group, so nothing of three bytes or more comes back, and the decoder does not know - and _. Proved for one byte and for two bytes, below 0x80, whose encoding avoids those digits.
Theorems: `Verif.Base64.url_round_trip_partial` [PCQ], `Verif.Base64.url_round_trip_fails` [PCQ].

### C37 Buffered stream preserves write order (partial)

Code: `src/cxy/runtime/builtins.cxy:BufferedOutputStream.append`, `src/cxy/runtime/builtins.cxy:BufferedOutputStream.flush`.
Proof: refinement to byte lists.
False of the code when a piece fills the rest of a non-empty buffer exactly: it overtakes what is buffered. Proved for all other histories.
Theorems: `Verif.Str.stream_order_partial` [PCQ], `Verif.Str.exact_piece_overtakes` [PQ].

### C38 Memory stream never overruns its buffer (proved)

Code: `src/cxy/runtime/builtins.cxy:MemoryOutputStream.append`.
Proof: refinement to byte lists.
Theorems: `Verif.Str.memory_stream_safe` [PCQ].

### C39 Owned string content is the concatenation of appends (partial)

Code: `src/cxy/runtime/builtins.cxy:String.append`, `src/cxy/runtime/builtins.cxy:String.grow`, `src/cxy/runtime/builtins.cxy:String.`==``.
Proof: refinement to byte lists.
Contents and termination proved for all histories. The comparison truncates the difference of lengths to 32 bits: a total order below 2^31 bytes, false beyond.
Theorems: `Verif.Str.string_contents` [PCQ], `Verif.Str.compare_total_order_partial` [PCQ], `Verif.Str.long_strings_compare_equal` [PQ].

### C40 Substring search is exact (partial)

Code: `src/cxy/runtime/builtins.cxy:__string.find`, `src/cxy/runtime/builtins.cxy:__string.rfind`, `src/cxy/runtime/builtins.cxy:__string.indexOf`, `src/cxy/runtime/builtins.cxy:__string.rIndexOf`.
Proof: refinement to byte lists.
False of the code for rIndexOf of a character that occurs only at index 0, and for the empty pattern. Proved otherwise.
Theorems: `Verif.Str.search_is_exact_partial` [PCQ], `Verif.Str.find_empty_pattern` [PQ], `Verif.Str.rIndexOf_misses_first` [PQ].

### C41 Shared pointers are freed exactly once (partial)

Code: `src/cxy/runtime/builtins.cxy:__smart_ptr_get`, `src/cxy/runtime/builtins.cxy:__smart_ptr_drop`.
Proof: transition system with threads; invariant and race witness.
False of the code when two threads drop the last two references at once: the count is decremented and tested in two steps, so the object is destroyed and then read again. Also when the 32-bit count wraps. Proved for all sequential histories below 2^32 references.
Theorems: `Verif.SmartPtr.freed_once_partial` [PCQ], `Verif.SmartPtr.concurrent_double_free` [PQ], `Verif.SmartPtr.count_wraps` [PQ].

### C42 Coroutine mutex excludes and hands over (partial)

Code: `src/cxy/stdlib/coro.cxy:Mutex.lock`, `src/cxy/stdlib/coro.cxy:Mutex.unlock`.
Proof: transition system; invariants and witnesses.
False of the code: unlocking with nobody waiting does not clear the holder, so nobody ever gets the mutex again. Exclusion and first-come order are proved for all schedules.
Theorems: `Verif.Coro.mutex_partial` [PQ], `Verif.Coro.handover` [PQ], `Verif.Coro.released_stays_locked` [PQ].

### C43 Coroutine stack cache does not lose stacks (partial)

Code: `src/cxy/stdlib/coro.cxy:CoroutineScheduler.freeStack`, `src/cxy/stdlib/coro.cxy:CoroutineScheduler.allocStack`.
Proof: transition system; invariants and witnesses.
False of the code when the cache is full: the returned stack is neither cached nor unmapped. Proved: no stack is in two places, and the lost stacks are exactly those returned to a full cache.
Theorems: `Verif.Coro.stack_cache_partial` [PCQ], `Verif.Coro.full_cache_leaks` [PQ].

### C44 Path splitting is lossless (proved)

Code: `src/cxy/stdlib/path.cxy:dirname`, `src/cxy/stdlib/path.cxy:basename`.
Proof: direct.
Theorems: `Verif.Path.split_lossless` [PCQ], `Verif.Path.join_split` [PCQ].

### C45 JSON string output parses back (partial)

Code: `src/cxy/stdlib/json.cxy:toJSON`, `src/cxy/stdlib/json.cxy:JSONParser.expectString`.
Proof: direct.
False of the code: strings are written without escaping quotes and read without decoding escapes. Proved exactly for the strings that survive.
Theorems: `Verif.Json.json_string_partial` [PQ], `Verif.Json.json_string_lost` [PCQ], `Verif.Json.json_quote_ends` [PQ].

### C46 Command-line rest arguments are complete (partial)

Code: `src/cxy/stdlib/args.cxy:Command.parse`, `src/cxy/stdlib/args.cxy:Command.populateRest`.
Proof: direct.
False of the code: the first argument after -- is lost. Proved for the others.
Theorems: `Verif.Args.rest_delivered_partial` [PCQ], `Verif.Args.rest_loses_first` [PCQ].

### C47 Byte swapping is an involution (proved)

Code: `src/cxy/runtime/builtins.cxy:bswap16`, `src/cxy/runtime/builtins.cxy:bswap32`, `src/cxy/runtime/builtins.cxy:bswap64`.
Proof: direct.
Theorems: `Verif.Bswap.bswap_involution` [PCQ].

### C48 Fixed-width log fields have the requested width (proved)

Code: `src/cxy/stdlib/log.cxy:FixedWidth`.
Proof: direct.
Theorems: `Verif.FixedWidth.field_width` [PCQ].

### C49 Compiler flag names list exactly the set flags (partial)

Code: `src/cxy/lang/frontend/operator.c:appendFlagsAsString`, `src/cxy/lang/frontend/operator.c:flagsToString`.
Proof: direct, induction over bits and diagnostics.
False of the code when the topmost flag is set: the shift count is 64. Proved for all other flag sets.
Theorems: `Verif.Flags.flags_listed_partial` [PCQ], `Verif.Flags.union_cast_undefined` [PQ].

### C50 Errors make compilation fail (partial)

Code: `src/cxy/core/log.c:printDiagnosticToState`, `src/cxy/core/log.h:hasErrors`.
Proof: direct, induction over bits and diagnostics.
False of the code: one diagnostic fewer than the configured maximum is printed, and warnings are cut off as well. Counting and stickiness are proved for all sequences.
Theorems: `Verif.Log.errors_counted_partial` [PQ], `Verif.Log.errors_stick` [PQ], `Verif.Log.limit_off_by_one` [PQ].

### C51 Robin-hood map: removal leaves other keys alone (proved)

Code: `src/cxy/core/hmap.c:hmapRemove`, `src/cxy/core/hmap.c:hmapResizeLess`.
Proof: one of the operations of the history refinement.
Removal is one of the operations of the history; the outputs of all later gets and sizes are those of the abstract map.
Theorems: `Verif.Hmap.fresh_history_matches_map` [PCQ].

### C52 Robin-hood map: iteration visits each entry once (proved)

Code: `src/cxy/core/hmap.c:hmapIterator`, `src/cxy/core/hmap.c:hmapNext`.
Proof: the iterator visits the occupied slots in order; permutation of the contents.
Theorems: `Verif.Hmap.iteration_visits_each_once` [PCQ].

### C53 Stdlib hash map: iteration visits each entry once (partial)

Code: `src/cxy/stdlib/hash.cxy:HashMap.each`, `src/cxy/stdlib/hash.cxy:HashMap.`..``.
Proof: invariant of the 8-bit index; negation for every larger capacity.
False of the code: the index is an i8, so slots from 128 on are never visited. Correct up to capacity 128.
Theorems: `Verif.HashMap.iteration_misses_entries` [PCQ], `Verif.HashMap.iteration_can_miss_only_entry` [P], `Verif.HashMap.iteration_visits_each_once_partial` [PCQ].

### C54 Stdlib hash map: map returns the image of the entries (partial)

Code: `src/cxy/stdlib/hash.cxy:HashMap.map`.
Proof: divergence for every fuel.
False of the code: the loop index is never incremented, so map never returns on a map with slots. Proved for maps without slots.
Theorems: `Verif.HashMap.map_never_returns` [-], `Verif.HashMap.map_of_cleared_partial` [PQ].

### C55 Generated names are fresh (partial)

Code: `src/cxy/core/strpool.c:makeAnonymousVariable`.
Proof: injectivity of decimal printing after a prefix.
Holds for prefixes that do not end in a digit (all prefixes the compiler uses); a prefix ending in a digit can clash.
Theorems: `Verif.StrPool.generated_names_distinct_partial` [PQ], `Verif.StrPool.generated_name_defined` [PQ], `Verif.StrPool.generated_names_can_clash` [PCQ].

### C56 Concatenated names are complete (partial)

Code: `src/cxy/core/strpool.c:makeStringConcat_`.
Proof: bounds as an outcome.
Correct below 256 bytes in total; overruns the buffer from 288 bytes on although every assertion passes.
Theorems: `Verif.StrPool.concat_correct_partial` [PQ], `Verif.StrPool.concat_overruns_buffer` [PQ].

### C57 Joined paths are the components with one separator (partial)

Code: `src/cxy/core/strpool.c:joinPath_`.
Proof: bounds as an outcome.
Correct when the result fits; one length combination writes the terminator outside the buffer.
Theorems: `Verif.StrPool.joinPath_correct_partial` [PQ], `Verif.StrPool.joinPath_overruns_buffer` [PQ].

### C58 Push returns the address of the new element (partial)

Code: `src/cxy/core/array.c:pushOnDynArrayExplicit`.
Proof: equation of the returned pointer, for all arrays.
False of the code: proved that the returned pointer is always one past the new element.
Theorems: `Verif.DynArray.push_returns_past_the_element` [PQ].

### C59 Run-time integer arithmetic is arithmetic in the expression's type (partial)

Code: `src/cxy/lang/backend/llvm/binary.cpp:generateBinaryExpr`, `src/cxy/lang/backend/llvm/context.cpp:generateCastExpr`, `src/cxy/lang/frontend/ttable.c:promoteType`.
Proof: LLVM instruction semantics against integers modulo 2^n.
Proved for + - * / % << >> unless the operand types have one size and different signedness, or >> has a negative left operand; the last two theorems show these exceptions are real. Bitwise operators are proved bit by bit under the same condition on the types.
Theorems: `Verif.Codegen.arithmetic_correct_partial` [PCQ], `Verif.Codegen.bitwise_correct_partial` [PCQ], `Verif.Codegen.bits_determine` [PCQ], `Verif.Codegen.mixed_sign_division_wrong` [PQ], `Verif.Codegen.shr_of_negative_wrong` [PCQ].

### C60 Integer comparisons give the mathematical answer (partial)

Code: `src/cxy/lang/backend/llvm/binary.cpp:generateBinaryExpr`.
Proof: LLVM comparison against the order of the integers.
Proved for equal signedness or a strictly bigger signed type; false otherwise.
Theorems: `Verif.Codegen.comparison_correct_partial` [PCQ], `Verif.Codegen.mixed_sign_comparison_wrong` [PQ], `Verif.Codegen.mixed_sign_comparison_not_symmetric` [PQ].

### C61 Casts between integer types keep representable values (proved)

Code: `src/cxy/lang/backend/llvm/context.cpp:generateCastExpr`.
Proof: bit patterns against integers modulo 2^n.
Theorems: `Verif.Codegen.int_cast_correct` [PQ], `Verif.Codegen.rep_injective` [PQ].

### C62 Casts from integers to floats keep the number (partial)

Code: `src/cxy/lang/backend/llvm/context.cpp:generateCastExpr`.
Proof: abstract float operations; conversion of the exact integer.
False of the code: signed and unsigned conversion instructions are swapped, so every negative integer and every unsigned integer from the upper half is converted to a wrong number. True for the rest.
Theorems: `Verif.Codegen.int_to_float_partial` [PCQ], `Verif.Codegen.negative_int_to_float_wrong` [PQ], `Verif.Codegen.large_unsigned_to_float_wrong` [PQ].

### C63 Float comparisons with NaN are false (partial)

Code: `src/cxy/lang/backend/llvm/binary.cpp:generateBinaryExpr`.
Proof: abstract float order with NaN.
False of the code: all six comparisons with NaN are true. Proved: without a NaN they give the order of the numbers.
Theorems: `Verif.Codegen.nan_comparisons_true` [P], `Verif.Codegen.float_comparison_partial` [PCQ].

### C64 Compound assignment is assignment of the operation (partial)

Code: `src/cxy/lang/backend/llvm/generate.cpp:visitAssignExpr`, `src/cxy/lang/backend/llvm/binary.cpp:generateBinaryExpr`.
Proof: reduction to C59.
Proved for integers when both types are equal or the target is strictly bigger. A float target with an integer operand is accepted by the checker but generates a malformed instruction.
Theorems: `Verif.Codegen.compound_assign_correct_partial` [PCQ], `Verif.Codegen.compound_assign_float_int_malformed` [P].

### C65 Literal expressions have their mathematical value (partial)

Code: `src/cxy/lang/middle/preprocess/preprocessor.c:visitBinaryExpr`, `src/cxy/lang/middle/preprocess/evaluate.c:preprocessorEvalBinaryExpr`, `src/cxy/lang/frontend/ttable.c:getIntegerTypeForLiteral`, `src/cxy/lang/middle/sema/binary.c:checkBinaryExpr`, `src/cxy/lang/backend/llvm/binary.cpp:generateBinaryExpr`.
Proof: folding by the preprocessor followed by typing and code generation; induction over expressions, parentheses tracked.
True of every expression without parentheses whose values are exact in a double and not negative at an operator, and with parentheses when every intermediate value fits the type of its own node. False otherwise: (100) + 100 stored in an i32 is -56, (50 + 50) * 3 is 44, and a negative difference of literals is undefined in the compiler.
Theorems: `Verif.Eval.literal_expression_partial` [PCQ], `Verif.Eval.parentheses_change_the_value` [PCQ], `Verif.Eval.parenthesised_factor_wraps` [PCQ], `Verif.Eval.negative_difference_undefined` [PCQ].

### C66 Integer literals get the smallest signed type that holds them (proved)

Code: `src/cxy/lang/frontend/ttable.c:getIntegerTypeForLiteral`.
Proof: decision over all literals.
Theorems: `Verif.Prim.literal_type_minimal` [PCQ].

### C67 Token positions are right (proved)

Code: `src/cxy/lang/frontend/lexer.c:skipChar`, `src/cxy/lang/frontend/lexer.c:advanceLexer`.
Proof: induction over the characters read.
Theorems: `Verif.Lexer.token_positions` [PCQ].

### C68 Symbols are read by longest match (proved)

Code: `src/cxy/lang/frontend/lexer.c:advanceLexer`.
Proof: maximal munch against the list of symbols.
Theorems: `Verif.Lexer.longest_symbol_is_read` [PCQ].

### C69 Names and keywords (proved)

Code: `src/cxy/lang/frontend/lexer.c:advanceLexer`, `src/cxy/lang/frontend/lexer.c:registerKeywords`.
Proof: longest word, keyword table.
Theorems: `Verif.Lexer.word_is_read` [PCQ].

### C70 Integer literals have the value they spell (partial)

Code: `src/cxy/lang/frontend/lexer.c:advanceLexer`.
Proof: value of digit strings by induction.
True for values below 2^64 written with at least one digit. False otherwise: larger decimal literals silently become 2^64-1, and a prefix without digits takes its value from the text that follows.
Theorems: `Verif.Lexer.decimal_literal_partial` [PCQ], `Verif.Lexer.prefixed_literal_partial` [PCQ], `Verif.Lexer.prefix_without_digits_reads_ahead` [PCQ], `Verif.Lexer.large_literal_saturates` [PCQ].

### C71 Expression parsing always ends (proved)

Code: `src/cxy/lang/frontend/parser.c:expression`, `src/cxy/lang/frontend/parser.c:binary`, `src/cxy/lang/frontend/parser.c:postfix`, `src/cxy/lang/frontend/parser.c:parseMany`.
Proof: measure on the remaining tokens.
Theorems: `Verif.Parser.expression_ends` [PCQ].

### C72 A parsed expression has the tokens of its source (proved)

Code: `src/cxy/lang/frontend/parser.c:expression`, `src/cxy/lang/frontend/parser.c:binary`, `src/cxy/lang/frontend/parser.c:postfix`, `src/cxy/lang/frontend/parser.c:callExpression`.
Proof: induction over the fuel of the mutual parser.
Theorems: `Verif.Parser.tree_has_the_tokens_read` [PQ].

### C73 The right side of an assignment is assigned as a whole (partial)

Code: `src/cxy/lang/frontend/parser.c:assign`, `src/cxy/lang/frontend/parser.c:ternary`.
Proof: print/parse on trees.
False of the code for conditionals: x = c ? a : b is read as (x = c) ? a : b. True for operators and further assignments.
Theorems: `Verif.Parser.assignment_takes_operators_partial` [PCQ], `Verif.Parser.conditional_not_assigned` [PCQ].

### C74 Walking a vector sees exactly its elements (proved)

Code: `src/cxy/stdlib/vector.cxy:Vector.each`, `src/cxy/stdlib/vector.cxy:Vector.accumulate`, `src/cxy/stdlib/vector.cxy:Vector.filter`, `src/cxy/stdlib/vector.cxy:Vector.map`, `src/cxy/stdlib/vector.cxy:Vector.find`.
Proof: refinement to List.
Theorems: `Verif.Vector.vector_functions` [PCQ].

### C75 Pushing an item that is already queued is refused (partial)

Code: `src/cxy/stdlib/list.cxy:List.push`, `src/cxy/stdlib/list.cxy:List.`..``.
Proof: invariant of the links; cycle proved for the last item.
False of the code for the last item of the list: pushing it again is accepted and makes the list cyclic. Proved for every other item.
Theorems: `Verif.ListQ.pushing_member_fails_partial` [P], `Verif.ListQ.pushing_last_again_loops` [P].

### C76 Decoding Base64 text stays inside the text and the output (partial)

Code: `src/cxy/stdlib/base64.cxy:decodeBuffer`, `src/cxy/stdlib/base64.cxy:decode`.
Proof: bounds as an outcome, induction over groups.
False of the code for the empty text and for a text with one extra character. Proved in bounds for every text whose length is a positive multiple of four. Lengths of two or three more than a multiple of four are not covered by a theorem.
Theorems: `Verif.Base64.decode_in_bounds_partial` [PCQ], `Verif.Base64.one_extra_character_undefined` [PCQ], `Verif.Base64.decode_empty_undefined` [P].

### C77 The announced size of URL-safe Base64 is the size written (partial)

Code: `src/cxy/stdlib/base64.cxy:urlEncodeSize`, `src/cxy/stdlib/base64.cxy:urlEncodeBuffer`, `src/cxy/stdlib/fetch.cxy`.
Proof: arithmetic.
False of the code for every positive even size (off by one). Proved for the others.
Theorems: `Verif.Base64.announced_size_partial` [PQ], `Verif.Base64.announced_size_wrong` [PQ].

### C78 String views slice and compare by content (partial)

Code: `src/cxy/runtime/builtins.cxy:__string.substr`, `src/cxy/runtime/builtins.cxy:__string.`==``, `src/cxy/runtime/builtins.cxy:__string.startswith`, `src/cxy/runtime/builtins.cxy:__string.endswith`.
Proof: refinement to List.
False of the code for views with NUL bytes, since strncmp stops there. Proved for views without.
Theorems: `Verif.Str.views_partial` [PCQ], `Verif.Str.substr_piece` [PCQ], `Verif.Str.nul_hides_difference` [P].

### C79 Trimming a view removes exactly the outer white space (proved)

Code: `src/cxy/runtime/builtins.cxy:__string.trim`, `src/cxy/runtime/builtins.cxy:__string.trimLeft`, `src/cxy/runtime/builtins.cxy:__string.trimRight`.
Proof: specification by maximal runs of spaces.
Theorems: `Verif.Str.trim_exact` [PCQ].

### C80 Every owned-string operation keeps the text C-readable (partial)

Code: `src/cxy/runtime/builtins.cxy:String.trimLeft`, `src/cxy/runtime/builtins.cxy:String.resize`.
Proof: bytes of the buffer, for all strings.
trimLeft keeps the right bytes but never terminates them; the assertion in resize is the wrong way round. Proved: the bytes after trimLeft, and both failures for all strings.
Theorems: `Verif.Str.trimLeft_ok` [PCQ], `Verif.Str.trimLeft_not_terminated` [PCQ], `Verif.Str.resize_backwards` [PQ].

### C81 A string can be appended to itself (partial)

Code: `src/cxy/runtime/builtins.cxy:String.append`, `src/cxy/runtime/builtins.cxy:String.grow`.
Proof: buffer identity across growth.
False of the code whenever the string has to grow. Proved when the doubled text fits.
Theorems: `Verif.Str.append_self_partial` [PCQ], `Verif.Str.append_self_dangles` [PQ].

### C82 Every accepted overload is seen (partial)

Code: `src/cxy/lang/middle/bind/scope.c:defineFunctionDecl`, `src/cxy/lang/middle/bind/scope.c:findSymbol`.
Proof: refinement to lists of overloads.
False of the code when a function alias is among the overloads. Proved without aliases.
Theorems: `Verif.Scope.overloads_complete_partial` [PCQ], `Verif.Scope.alias_loses_overload` [PQ].

### C83 break and continue never leave their function (partial)

Code: `src/cxy/lang/middle/bind/scope.c:findEnclosingLoop`, `src/cxy/lang/middle/bind/scope.c:findEnclosingLoopOrSwitch`, `src/cxy/lang/middle/bind/resolve.c:bindBreakOrContinueStmt`.
Proof: path to the nearest loop.
False of the code for closures: a break in a closure inside a loop is bound to that loop. Proved where no closure lies between.
Theorems: `Verif.Scope.break_in_loop_partial` [PQ], `Verif.Scope.break_out_of_closure` [PQ].

### C84 The spelling suggestion is a nearest visible name (proved)

Code: `src/cxy/lang/middle/bind/scope.c:suggestSimilarSymbol`.
Proof: minimum over all visible names.
Theorems: `Verif.Suggest.suggestion_nearest` [PCQ].

### C85 Overload resolution picks a best declaration that takes the call (partial)

Code: `src/cxy/lang/middle/sema/function.c:matchOverloadedFunctionPerfectMatch`.
Proof: minimum over the applicable overloads.
False of the code after a variadic overload with fewer parameters than the call has arguments: the argument count stays cut down for the later overloads. Proved when no overload but the last is of that kind.
Theorems: `Verif.Overload.resolution_best_partial` [PCQ], `Verif.Overload.variadic_spoils_count` [PQ].

### C86 The operand of a return is computed before the deferred statements (partial)

Code: `src/cxy/lang/middle/defer.c:visitReturnStmt`.
Proof: traces of source and rewritten program.
False of the code: the deferred statements are put before the return and so run before its operand is computed. Proved for returns without operand.
Theorems: `Verif.Defer.operand_first_partial` [PCQ], `Verif.Defer.operand_after_defers` [P].

### C87 A loop over a range visits exactly its values (partial)

Code: `src/cxy/lang/middle/simplify/simplify.c:simplifyForRangeStmt`, `src/cxy/lang/backend/llvm/generate.cpp:visitWhileStmt`.
Proof: induction over the number of steps, BitVec arithmetic.
False of the code for descending ranges and for steps that do not divide the distance: the loop tests for inequality, so it runs past the end. Proved when the end is a whole number of steps away.
Theorems: `Verif.RangeLoop.range_loop_partial` [PQ], `Verif.RangeLoop.descending_range_runs` [PQ], `Verif.RangeLoop.step_over_end` [PQ].

### C88 A compile-time loop over a range is unrolled for exactly its values (proved)

Code: `src/cxy/lang/middle/eval/for.c:evalForStmtWithRange`.
Proof: equality of lists.
Theorems: `Verif.RangeLoop.unroll_exact` [PCQ].

### C89 A compilation that reports success has no errors (proved)

Code: `src/cxy/driver/driver.c:compileProgram`, `src/cxy/driver/stages.c:executeCompilerStage`.
Proof: order of stages and gating.
Theorems: `Verif.Stages.pipeline` [PCQ], `Verif.Stages.pipeline_completes` [PQ].

### C90 The whole command line reaches the command (partial)

Code: `src/cxy/stdlib/args.cxy:Command.parse`.
Proof: induction over the arguments with an 8-bit index.
False of the code beyond 128 arguments: the index is an 8-bit integer. Proved below.
Theorems: `Verif.Args.line_delivered_partial` [PCQ], `Verif.Args.long_line_cut` [PCQ].

### C91 Path pieces reach the operating system as written (partial)

Code: `src/cxy/stdlib/path.cxy:withNullTermination`.
Proof: bounds as an outcome.
False of the code for a piece followed by more text, and for paths of 1024 bytes or more. Proved for zero-terminated paths below that.
Theorems: `Verif.Path.path_reaches_os_partial` [PCQ], `Verif.Path.piece_leaks` [PCQ], `Verif.Path.long_path_aborts` [PQ].

### C92 Literals mean what their escapes say (partial)

Code: `src/cxy/core/utils.c:escapeString`, `src/cxy/core/utils.c:convertEscapeSeq`.
Proof: scanner against a specification of escapes.
False of the code for string literals with an escaped backslash or single quote: the second backslash is scanned again as the start of an escape. Proved for the other escapes in string literals and for all escapes in character literals.
Theorems: `Verif.Text.string_literal_value_partial` [P], `Verif.Text.backslash_escape_rescanned` [P], `Verif.Text.quote_escape_kept` [P], `Verif.Text.char_literal_value` [PQ].

### C93 Text that is not Base64 is rejected (partial)

Code: `src/cxy/stdlib/base64.cxy:decodeBuffer`.
Proof: induction over groups.
False of the code: what follows padding in the last group is ignored. Proved for texts of whole groups whose first bad character is not padding or comes before the last group.
Theorems: `Verif.Base64.invalid_text_rejected_partial` [PCQ], `Verif.Base64.padding_hides_garbage` [PCQ].

### C94 Unsupported command lines are rejected (partial)

Code: `src/cxy/stdlib/args.cxy:parse`, `src/cxy/stdlib/args.cxy:validateParams`, `src/cxy/stdlib/args.cxy:addParsed`, `src/cxy/stdlib/args.cxy:addParam`.
Proof: independent reading of the command line.
Soundness of an accepted line is proved for every command line whatever; rejection for every unsupported argument after a supported part of fewer than 128 arguments (later arguments are ignored, see C90).
Theorems: `Verif.Args.accepted_line_sound` [PQ], `Verif.Args.unsupported_rejected_partial` [PCQ], `Verif.Args.declared_apart` [PQ].

### C95 Casting a literal gives what the same cast gives at run time (partial)

Code: `src/cxy/lang/middle/sema/cast.c:castLiteral`, `src/cxy/lang/middle/sema/cast.c:castIntegerLiteral`, `src/cxy/lang/backend/llvm/generate.cpp:visitFloatLit`.
Proof: bit patterns against integers modulo 2^n.
Proved for integer targets, and for character targets below 2^31. False of the code elsewhere: undefined behaviour above 2^31 for characters, a double constant for f32, disagreement with variables for negative literals cast to f64 (the literal is right), and a failed assertion for literals in parentheses.
Theorems: `Verif.LitCast.literal_to_integer` [PQ], `Verif.LitCast.literal_to_character_partial` [PQ], `Verif.LitCast.large_literal_to_character_undefined` [PCQ], `Verif.LitCast.literal_to_f64` [PCQ], `Verif.LitCast.f32_literal_is_double` [PQ], `Verif.LitCast.wrapped_literal_cast_aborts` [PQ].

### C96 Every cast the checker accepts can be compiled (partial)

Code: `src/cxy/lang/frontend/types.c:isTypeCastAssignable`, `src/cxy/lang/backend/llvm/context.cpp:generateCastExpr`.
Proof: decision over all pairs of types.
False of the code from bool to integers (accepted, no code) and to char (u16, u32 and wchar accepted). Proved for all other pairs and for wchar.
Theorems: `Verif.LitCast.accepted_cast_generates_partial` [PQ], `Verif.LitCast.bool_cast_accepted_but_unsupported` [P], `Verif.LitCast.cast_to_wchar_exact` [PCQ], `Verif.LitCast.cast_to_char_loses` [P].

### C97 Float arithmetic is done in the float type of the expression (partial)

Code: `src/cxy/lang/backend/llvm/binary.cpp:generateBinaryExpr`, `src/cxy/lang/frontend/ttable.c:promoteType`.
Proof: abstract float operations.
Proved for two floats, and for a float and an integer that is non-negative and below half the range of its type; other integers are converted wrongly (last two theorems, see C62). The float operations themselves are abstract.
Theorems: `Verif.Codegen.float_arithmetic_correct` [P], `Verif.Codegen.float_int_arithmetic_partial` [PCQ], `Verif.Codegen.negative_int_to_float_wrong` [PQ], `Verif.Codegen.large_unsigned_to_float_wrong` [PQ].

### C98 Managed values are destroyed or handed over exactly once (partial)

Code: `src/cxy/lang/middle/mem/manage.c:visitBlockStmt`, `src/cxy/lang/middle/mem/manage.c:visitWhileStmt`, `src/cxy/lang/middle/mem/manage.c:visitReturnStmt`, `src/cxy/lang/middle/mem/manage.c:mergeUpdateVariableStates`, `src/cxy/lang/middle/mem/finalize.c:visitBackendCallExpr`.
Proof: invariant relating the states of the pass to the memory, by induction over statements, for all executions.
Proved for functions that assign only new or moved values, and never one computed from the variable itself: without loops and switches if nothing is reported and no parameter is moved on some paths only; with loops, switches and jumps if every variable is initialised and nothing is moved, or more generally if the states at jumps and ends of bodies agree with those the pass continues with. False of the code otherwise (last eight theorems). Locals of class type only; members, temporaries and delete are not modelled.
Theorems: `Verif.Drop.managed_exactly_once_partial` [PCQ], `Verif.Drop.branching_exactly_once_partial` [PCQ], `Verif.Drop.steady_exactly_once_partial` [PCQ], `Verif.Drop.assigned_variable_destroyed_twice` [PCQ], `Verif.Drop.replaced_value_destroyed_before_use` [PQ], `Verif.Drop.parameter_moved_on_one_path_leaks` [PQ], `Verif.Drop.moved_in_one_case_destroyed_again` [PQ], `Verif.Drop.moved_in_two_cases_leaks` [PQ], `Verif.Drop.break_destroys_moved_value` [PQ], `Verif.Drop.return_in_loop_destroys_result` [PQ], `Verif.Drop.loop_moves_twice` [PQ].

### C99 Memory management only adds destructions (partial)

Code: `src/cxy/lang/middle/mem/manage.c:visitAssignExpr`, `src/cxy/lang/middle/mem/finalize.c:visitAssignExpr`.
Proof: refinement: erasing the insertions gives the source.
Proved for functions without assignments of null, which disappear, so that the variable keeps pointing to the destroyed value.
Theorems: `Verif.Drop.manage_only_adds_drops_partial` [PQ], `Verif.Drop.null_assignment_removed` [PQ], `Verif.Drop.null_assignment_keeps_value` [PQ].

### C100 Reading a variable that has no value is reported (partial)

Code: `src/cxy/lang/middle/mem/manage.c:visitIdentifier`, `src/cxy/lang/middle/mem/manage.c:reportUseUnassigned`.
Proof: invariant of the pass by induction over statements, and monotonicity of reports.
Proved when the read follows in the text. Not reported, and wrong at run time, when it follows only in the next round of a loop (second theorem).
Theorems: `Verif.Drop.use_without_value_reported_partial` [PQ], `Verif.Drop.loop_moves_twice` [PQ].

### C101 Query arguments of a request read back (proved)

Code: `src/cxy/stdlib/fetch.cxy:urlEncode`, `src/cxy/stdlib/fetch.cxy:Request`.
Proof: round trip with an independent decoder, by induction over the arguments.
Theorems: `Verif.Http.query_reads_back` [PCQ].

### C102 The announced length of a form is the length sent (partial)

Code: `src/cxy/stdlib/fetch.cxy:Form`, `src/cxy/stdlib/fetch.cxy:urlEncodedSize`, `src/cxy/stdlib/fetch.cxy:multipartEncodeSize`.
Proof: exact formula for the announced size by induction over the fields; negation for all other forms.
Proved for forms with files, and for the others if all names and values are empty or of odd length; false of the code as soon as one of them has even positive length (second theorem).
Theorems: `Verif.Http.form_length_partial` [PCQ], `Verif.Http.form_length_wrong` [PCQ].

### C103 A request carries exactly its content (partial)

Code: `src/cxy/stdlib/fetch.cxy:Request`, `src/cxy/stdlib/fetch.cxy:submit`, `src/cxy/stdlib/http.cxy:SendFile`.
Proof: invariant over builder steps and framing with an independent description of the head; negations for all texts and all files.
Proved for texts and forms whose length is announced correctly, up to the two bytes that the code sends after every body (second theorem). Files are never sent (third theorem).
Theorems: `Verif.Http.request_carries_content_partial` [PCQ], `Verif.Http.request_has_surplus` [PCQ], `Verif.Http.file_never_sent` [PCQ].

### C104 Requests of a session are independent (partial)

Code: `src/cxy/stdlib/fetch.cxy:Session`, `src/cxy/stdlib/fetch.cxy:perform`, `src/cxy/stdlib/fetch.cxy:reset`.
Proof: case distinction on the reset, negation for all pairs of texts.
Proved if the request before had another method or resource; otherwise the text of the second request is ignored (second theorem).
Theorems: `Verif.Http.request_independent_partial` [PCQ], `Verif.Http.second_body_ignored` [PCQ].

### C105 A response is framed as announced (proved)

Code: `src/cxy/stdlib/http.cxy:Response`, `src/cxy/stdlib/http.cxy:sendResponse`, `src/cxy/stdlib/http.cxy:statusText`.
Proof: invariant over the calls of a handler (what was said so far), framing against independent lines.
Files are assumed to have the bytes that are asked for.
Theorems: `Verif.Http.response_framed` [PCQ].

### C106 A response without content is sent without a body (partial)

Code: `src/cxy/stdlib/http.cxy:sendResponse`.
Proof: corollary of the framing; negation for all five statuses.
Proved for status 200; false of the code for all statuses that exclude a body (second theorem).
Theorems: `Verif.Http.empty_ok_partial` [PCQ], `Verif.Http.no_content_has_body` [PCQ].

### C107 Method names are read exactly (proved)

Code: `src/cxy/stdlib/http.cxy:methodFromString`, `src/cxy/stdlib/http.cxy:methodName`.
Proof: decision logic against a table of names.
Theorems: `Verif.Http.method_exact` [PCQ], `Verif.Http.method_reads_back` [PCQ].

### C108 Requests reach the routes that match them (partial)

Code: `src/cxy/stdlib/http.cxy:Router`, `src/cxy/stdlib/http.cxy:parseRouteArgs`, `src/cxy/stdlib/http.cxy:parseParams`, `src/cxy/stdlib/http.cxy:handleConnection`, `src/cxy/stdlib/trie.cxy:find`.
Proof: refinement: search of the trie is the longest declared prefix (by induction over the path), then decision logic; negations for families of declarations.
Proved: a handler is called only for a request that matches its declaration, with the parameters of the match, and is called for every such request if it was declared without a method and no longer declared path is a prefix of the path. False of the code otherwise (last three theorems): declarations with a method are never called, a longer declared prefix hides a route, and a parameter at the root is never reached.
Theorems: `Verif.Http.routing_partial` [PCQ], `Verif.Http.explicit_method_never_called` [PCQ], `Verif.Http.shadowed_by_prefix` [PCQ], `Verif.Http.root_parameter_never_called` [PCQ].

### C109 A request is assembled the same however it arrives (proved)

Code: `src/cxy/stdlib/http.cxy:requestParserOnHeaderField`, `src/cxy/stdlib/http.cxy:requestParserOnHeaderValue`, `src/cxy/stdlib/http.cxy:requestParserOnBody`, `src/cxy/stdlib/http.cxy:requestParserOnUrl`, `src/cxy/stdlib/http.cxy:clear`, `src/cxy/stdlib/fetch.cxy:responseParserOnHeaderField`.
Proof: invariant over the calls of the parser, by induction over headers and pieces.
The parser (llhttp) is represented by the calls it makes: at least one for the name and one for the value of every header.
Theorems: `Verif.Http.request_assembled` [PCQ].

### C110 A URL is asked for as it is written (partial)

Code: `src/cxy/stdlib/fetch.cxy:fetch`, `src/cxy/stdlib/fetch.cxy:create`, `src/cxy/runtime/builtins.cxy:rIndexOf`, `src/cxy/runtime/builtins.cxy:find`.
Proof: decision logic on the searches of C40, for all parts of an address; negations for families of addresses.
Proved for addresses with a scheme, and for those without scheme and resource. False of the code for a resource without scheme and for a query right after the host (last two theorems).
Theorems: `Verif.Http.address_asked_partial` [PCQ], `Verif.Http.path_without_scheme_lost` [PCQ], `Verif.Http.query_in_host` [PCQ].

### C111 A view of digits is the number it spells (partial)

Code: `src/cxy/runtime/builtins.cxy:toi`.
Proof: reading back decimal numbers by induction; negations for families of views.
Proved if the memory after the view does not go on with a digit and there are no leading zeros; false of the code otherwise (last two theorems).
Theorems: `Verif.Http.toi_reads_number_partial` [PCQ], `Verif.Http.toi_reads_on` [PCQ], `Verif.Http.toi_octal` [PCQ].

### C112 The file server sends only files below its root (partial)

Code: `src/cxy/stdlib/fserver.cxy:fileExists`, `src/cxy/stdlib/fserver.cxy:setupWwwDir`, `src/cxy/stdlib/fserver.cxy:loadFile`, `src/cxy/stdlib/path.cxy:Path`.
Proof: invariant of the cache by induction over histories; path resolution by induction over its steps, for all file systems with links; negation for all roots and siblings.
Proved, for paths that do not differ in case only, up to directories beside the root whose name begins with the name of the root; files there are sent (second theorem). If the root does not exist and realpath leaves its buffer alone, every file is sent (third theorem).
Theorems: `Verif.FileServer.content_from_root_partial` [PCQ], `Verif.FileServer.sibling_is_served` [PCQ], `Verif.FileServer.missing_root_serves_all` [PQ].

### C113 The file server sends the present content of the requested file (partial)

Code: `src/cxy/stdlib/fserver.cxy:loadFile`, `src/cxy/stdlib/fserver.cxy:CachedFiles`, `src/cxy/runtime/builtins.cxy:EqualsCase`.
Proof: the same invariant; negations for all files.
Proved if changed files get another time of modification and no two paths differ in case only; false of the code without either (last two theorems).
Theorems: `Verif.FileServer.content_is_current_partial` [PCQ], `Verif.FileServer.not_modified_is_true` [PCQ], `Verif.FileServer.case_is_confused` [PCQ], `Verif.FileServer.same_second_is_stale` [PQ].

### C114 Every file below the root can be had (partial)

Code: `src/cxy/stdlib/fserver.cxy:fileExists`, `src/cxy/stdlib/fserver.cxy:requestPrologue`, `src/cxy/stdlib/fserver.cxy:FileServer`.
Proof: computation of path resolution for all trees.
Proved without a query, for paths without symbolic links; with a query every file is reported missing (second theorem).
Theorems: `Verif.FileServer.file_is_served_partial` [PQ], `Verif.FileServer.query_is_not_found` [PQ].

### C115 A part of a file that is asked for is the part that is sent (partial)

Code: `src/cxy/stdlib/fserver.cxy:buildRangeResponse`, `src/cxy/stdlib/fserver.cxy:prepareResponse`.
Proof: parsing lemmas for all numbers; negations for all ranges, divergence by induction over the fuel.
Proved: without a range the whole file is sent, and a range that ends behind the file is refused. False of the code for every range inside of the file (second theorem); some requests are never answered (third), some abort the server (fourth).
Theorems: `Verif.FileServer.ranges_partial` [PCQ], `Verif.FileServer.range_from_start` [PCQ], `Verif.FileServer.range_never_answered` [PCQ], `Verif.FileServer.range_aborts` [PCQ].

### C116 Control flow runs as it is written (proved)

Code: `src/cxy/lang/backend/llvm/generate.cpp:visitIfStmt`, `src/cxy/lang/backend/llvm/generate.cpp:visitWhileStmt`, `src/cxy/lang/backend/llvm/generate.cpp:visitSwitchStmt`, `src/cxy/lang/backend/llvm/generate.cpp:visitFuncDecl`, `src/cxy/lang/backend/llvm/binary.cpp:generateLogicAndOr`.
Proof: simulation of structured programs by blocks, by induction over statements and over the rounds of loops; divergence by step counting.
For the function as it reaches the back end, where arguments of calls are variables, literals or unary expressions (moving the others is C159 and C160), and for the order of operands that the backend has chosen (see C117). Second theorem: no block is left without a terminator and no phi node lacks its predecessor.
Theorems: `Verif.Flow.accepted_code_is_faithful` [PQ], `Verif.Flow.accepted_code_is_defined` [PCQ], `Verif.Flow.exec_more` [PQ].

### C117 The operands of an operator are evaluated from left to right (partial)

Code: `src/cxy/lang/backend/llvm/binary.cpp:generateBinaryExpr`.
Proof: simulation with the order as parameter; negations with logging primitives for all operands.
False of the code: operands of one type and operands with a bigger left type are evaluated from right to left (second and third theorem). Proved when for such operands it makes no difference (first theorem).
Theorems: `Verif.Flow.accepted_code_is_left_to_right_partial` [PQ], `Verif.Flow.operand_order_depends_on_types` [PQ], `Verif.Flow.same_operator_both_orders` [PQ].

### C118 The target of a compound assignment is evaluated once (partial)

Code: `src/cxy/lang/backend/llvm/generate.cpp:visitAssignExpr`, `src/cxy/lang/backend/llvm/generate.cpp:visitPrefixUnaryExpr`, `src/cxy/lang/backend/llvm/generate.cpp:visitUnaryExpr`.
Proof: counting in the log, for all targets.
False of the code: twice for op=, three times for ++ and -- (second theorem, for all targets without short-circuit operators). Proved for targets with a fixed address.
Theorems: `Verif.Flow.compound_on_fixed_target_partial` [PQ], `Verif.Flow.target_is_evaluated_again` [PQ].

### C119 Well-formed control flow compiles (partial)

Code: `src/cxy/lang/backend/llvm/generate.cpp:visitIfStmt`, `src/cxy/lang/backend/llvm/generate.cpp:visitWhileStmt`, `src/cxy/lang/backend/llvm/generate.cpp:visitSwitchStmt`, `src/cxy/lang/backend/llvm/llvm.cpp:addModule`.
Proof: exact characterisation by induction over statements (invariant of the builder); negations for all functions that contain one of four shapes.
False of the code for four families. The first theorem gives exactly the functions that are accepted, by an analysis that does not mention blocks; the second a simple sufficient shape.
Theorems: `Verif.Flow.accepted_iff` [PQ], `Verif.Flow.plain_functions_are_accepted_partial` [PQ], `Verif.Flow.loop_body_ending_in_jump_is_rejected` [PQ], `Verif.Flow.branch_ending_in_switch_is_rejected` [PQ], `Verif.Flow.switch_on_logic_is_rejected` [PQ], `Verif.Flow.code_after_jump_is_rejected` [PQ], `Verif.Flow.formed_functions_are_not_all_accepted` [PQ].

### C120 Compound assignment to an element of a container updates the element (partial)

Code: `src/cxy/lang/middle/sema/assign.c:checkIndexExprAssignment`, `src/cxy/lang/middle/sema/assign.c:checkAssignExpr`.
Proof: induction over sequences of assignments.
False of the code for compound operators: the operator is dropped (second theorem). Proved for plain assignments.
Theorems: `Verif.Flow.element_assignment_partial` [P], `Verif.Flow.counting_in_a_container_is_lost` [PQ].

### C121 A name is found exactly when it is declared (proved)

Code: `src/cxy/core/utils.c:binarySearch`, `src/cxy/lang/frontend/types.c:findNamedTypeMemberInContainer`, `src/cxy/lang/frontend/types.c:findOverloadMemberUpInheritanceChain`, `src/cxy/lang/frontend/types.c:findEnumOption`, `src/cxy/lang/middle/eval/macro.c:findBuiltinMacro`.
Proof: invariant of the loop of the binary search; correctness of the merge sort by induction; finite table by evaluation.
For tables of fewer than 2^31 names. The sort of the C library is modelled.
Theorems: `Verif.Lookup.lookup_finds_declared` [PCQ], `Verif.Lookup.lookup_is_exact` [PCQ], `Verif.Lookup.inherited_lookup_is_nearest` [PCQ], `Verif.Lookup.macro_lookup_is_exact` [PCQ], `Verif.Lookup.every_macro_is_found` [PCQ].

### C122 Values of enumerations (partial)

Code: `src/cxy/lang/middle/bind/resolve.c:bindEnumDecl`, `src/cxy/lang/middle/sema/enum.c:compareEnumOptionsByValue`, `src/cxy/lang/middle/sema/enum.c:checkEnumDecl`, `src/cxy/lang/middle/sema/defaults.c:makeDefaultEnumValue`, `src/cxy/lang/frontend/types.c:getIntegerTypeMinMax`.
Proof: induction over the options against a rule by positions; sorted order from the invariant of the merge; negations for all far or negative values.
The values are proved. The default and the cases are proved for values less than 2^31 apart (cases: exactly when not negative, or all negative); false of the code otherwise (third, fifth and sixth theorem).
Theorems: `Verif.Lookup.enum_values_follow_the_rule` [PQ], `Verif.Lookup.default_is_smallest_partial` [PQ], `Verif.Lookup.far_values_are_swapped` [PQ], `Verif.Lookup.option_as_case_iff` [PCQ], `Verif.Lookup.negative_option_is_no_case` [PCQ], `Verif.Lookup.far_options_are_no_cases` [PCQ].

### C123 The cases of a switch do not overlap (partial)

Code: `src/cxy/lang/middle/sema/switch.c:compareLiteralNode`, `src/cxy/lang/middle/sema/switch.c:checkDuplicateCaseMatches`, `src/cxy/lang/middle/sema/switch.c:checkSwitchStmt`.
Proof: neighbours in order (holds for any antisymmetric comparison) plus transitivity inside one kind; negation for all ranges; in `Verif.Switch` again with the merge sort of glibc: on labels of one kind the comparison is an order, so overlapping labels end up side by side; a reported pair of neighbours overlaps and the sort is a permutation.
Proved for switches with only literals or only ranges (the first and third theorem); for a mixture one direction holds: labels that share no value are accepted (fourth theorem). The other is false of the code, also with the sort of glibc: with labels v, x, w, a..b, v (v < a, b < w < x) the second v is not noticed.
Theorems: `Verif.Lookup.cases_apart_partial` [PCQ], `Verif.Lookup.literal_inside_range_is_accepted` [PQ], `Verif.Switch.labels_apart_partial` [PQ], `Verif.Switch.apart_accepted` [PCQ], `Verif.Switch.overlap_accepted` [PQ].

### C124 A value of the condition can be a case (partial)

Code: `src/cxy/lang/middle/sema/switch.c:checkCaseStmt`, `src/cxy/lang/frontend/types.c:isTypeAssignableFrom`.
Proof: decision logic over all types and values.
Proved for literals with the type of the condition; false of the code for plain literals, of which the third theorem says exactly which are accepted.
Theorems: `Verif.Lookup.accepted_case_can_match` [PCQ], `Verif.Lookup.typed_case_is_accepted_partial` [PCQ], `Verif.Lookup.plain_case_accepted_iff` [PCQ], `Verif.Lookup.small_case_is_rejected` [PCQ], `Verif.Switch.bare_literal_rejected` [P].

### C125 A macro call means its body with the parameters replaced (partial)

Code: `src/cxy/lang/middle/preprocess/preprocessor.c:visitMacroCall`, `src/cxy/lang/middle/preprocess/preprocessor.c:substituteAstNode`, `src/cxy/lang/frontend/defines.c:preprocessorHasMacro`, `src/cxy/lang/middle/bind/scope.c:defineSymbol`, `src/cxy/lang/middle/bind/scope.c:findSymbol`.
Proof: dynamic-scope expansion with fuel related to a substitution semantics; soundness by induction on fuel, completeness by induction on derivations.
Proved (both directions, any nesting) when no name is both a parameter and a macro, bodies use only their own parameters, and the program uses no name that is a parameter. False otherwise: a macro of the program takes the place of a parameter of the same name in any other macro, and bodies see the parameters of the macros they are expanded in. Variadic parameters are not modelled.
Theorems: `Verif.Preprocess.expansion_is_substitution_partial` [PCQ], `Verif.Preprocess.global_captures_parameter` [PCQ], `Verif.Preprocess.inner_macro_sees_parameter` [PCQ].

### C126 Expanding macros ends (partial)

Code: `src/cxy/lang/middle/preprocess/preprocessor.c:visitMacroCall`, `src/cxy/lang/middle/preprocess/preprocessor.c:visitMacroDecl`.
Proof: rank induction for ordered tables; induction on fuel for the expansions that never end.
Proved for ordered (non-recursive) macros under the naming conditions of C125. False of the code: a macro that uses itself is expanded without end, and so is a call that passes a name which is the parameter itself and no macro, such as log!(file!) for a macro log(file).
Theorems: `Verif.Preprocess.expansion_ends_partial` [PCQ], `Verif.Preprocess.recursive_macro_never_ends` [PQ], `Verif.Preprocess.recursive_macro_diverges` [PQ], `Verif.Preprocess.argument_captured` [PCQ].

### C127 The files on the command line are compiled (partial)

Code: `src/cxy/core/args.c:cmdParseCommandArguments`, `src/cxy/core/args.c:parseCommandLineArguments_`, `src/cxy/core/args.c:cmdFindCommandByName`, `src/cxy/driver/main.c:main`.
Proof: refinement: the in-place loop over the argument vector against a relation that reads a command line; the relation is shown total, which gives the converse.
Proved, in both directions and for every command but help, unless the program itself is called dev and no command is named, or the first argument is empty. False in those two cases: the files are shifted by one (second and third theorem).
Theorems: `Verif.CommandLine.files_and_options_partial` [PCQ], `Verif.CommandLine.program_named_dev` [PCQ], `Verif.CommandLine.empty_first_argument` [PCQ].

### C128 An option has the value it is given last (partial)

Code: `src/cxy/core/args.c:cmdParseCommandArguments`, `src/cxy/core/args.c:cmdParseString`, `src/cxy/core/args.c:cmdParseInteger`, `src/cxy/core/args.c:cmdParseEnumValue`, `src/cxy/driver/options.c:cmdOptimizationLevel`, `src/cxy/driver/options.c:cmdArrayArgument`, `src/cxy/driver/options.c:cmdCompilerDefine`, `src/cxy/driver/options.c:parseCommandLineOptions`.
Proof: the same refinement; the fold of the events of each option against a last-value/default specification.
Proved under the conditions of C127 for every option but --with-named-enums, whose default true is ignored (third theorem); the second says what a definition is.
Theorems: `Verif.CommandLine.files_and_options_partial` [PCQ], `Verif.CommandLine.definition_read` [PCQ], `Verif.CommandLine.named_enums_off` [PCQ].

### C129 A wrong command line is reported (partial)

Code: `src/cxy/core/args.c:cmdParseCommandArguments`, `src/cxy/core/args.c:cmdParseEnumValue`, `src/cxy/driver/options.c:parseCommandLineOptions`, `src/cxy/driver/options.c:cmdOptimizationLevel`, `src/cxy/core/args.h:CmdParser`, `src/cxy/core/format.c:format`.
Proof: the same refinement for wrong lines, with the buffer and the format modelled; families of counterexamples.
Proved for messages that fit 128 bytes and have no opening brace. False otherwise: the buffer overflows for an unknown argument of 88 bytes and for every wrong optimisation level; a brace makes the message a format; a value out of a list gives an empty message, and an empty value is read past its end.
Theorems: `Verif.CommandLine.wrong_line_reported_partial` [PCQ], `Verif.CommandLine.unknown_argument_reported_partial` [PCQ], `Verif.CommandLine.long_unknown_argument` [PCQ], `Verif.CommandLine.brace_in_argument` [PCQ], `Verif.CommandLine.wrong_level` [PCQ], `Verif.CommandLine.unknown_choice_silent` [PCQ], `Verif.CommandLine.empty_choice` [PCQ].

### C130 The option for warnings switches the warnings it names (partial)

Code: `src/cxy/core/log.c:parseWarningLevels`, `src/cxy/core/log.c:parseNextWarningId`, `src/cxy/core/log.c:registerWarnings`.
Proof: case analysis on the text; bitwise extensionality for the mask.
Proved for one name. False of the code for lists, which compare pointers into different strings, and for ~All.
Theorems: `Verif.CommandLine.Warnings.one_warning_partial` [PCQ], `Verif.CommandLine.Warnings.unknown_warning` [PCQ], `Verif.CommandLine.Warnings.list_undefined` [PCQ], `Verif.CommandLine.Warnings.all_cannot_be_switched_off` [PCQ].

### C131 The limit on errors is the number given (partial)

Code: `src/cxy/core/args.c:cmdParseInteger`, `src/cxy/driver/options.c:parseCommandLineOptions`, `src/cxy/core/args.h:getGlobalInt`.
Proof: decimal round trip through the number reader.
Proved for decimal numbers below 2^31. False for larger ones (undefined conversion), for a leading zero (octal) and for an empty text (0).
Theorems: `Verif.CommandLine.limit_is_the_number_partial` [PCQ], `Verif.CommandLine.large_limit_undefined` [PCQ], `Verif.CommandLine.leading_zero_is_octal` [PCQ], `Verif.CommandLine.empty_limit_is_zero` [PCQ].

### C132 An object of a derived class begins with the fields of its base (partial)

Code: `src/cxy/lang/middle/sema/class.c:inheritClassMembers`, `src/cxy/lang/middle/sema/class.c:checkBaseDecl`, `src/cxy/lang/middle/sema/class.c:checkClassDecl`, `src/cxy/lang/middle/sema/inheritance.c:inheritanceMakeVTableMember`, `src/cxy/lang/backend/llvm/context.cpp:createClassType`.
Proof: exact characterisation by prefixes of the layout; counting by induction over the chain of classes.
The first theorem says exactly when it holds; the second is the useful direction. False of the code when the derived class declares the first virtual function, and when three classes in a row have fields: inherited fields are copied again at every level, so those of the root appear 2^(n-2) times in the n-th class.
Theorems: `Verif.Classes.base_first_iff` [PQ], `Verif.Classes.base_first_partial` [PQ], `Verif.Classes.first_virtual_moves_the_fields` [PQ], `Verif.Classes.third_class_moves_the_fields` [PQ], `Verif.Classes.root_fields_double` [PQ].

### C133 A call of a virtual function runs the function of the object's class (partial)

Code: `src/cxy/lang/middle/sema/inheritance.c:inheritanceChainBuildVTableType`, `src/cxy/lang/middle/sema/inheritance.c:inheritanceBuildVTable`, `src/cxy/lang/middle/sema/class.c:checkClassDecl`, `src/cxy/lang/middle/simplify/simplify.c:virtualDispatch`, `src/cxy/lang/middle/simplify/simplify.c:isVirtualDispatch`, `src/cxy/lang/middle/simplify/simplify.c:visitCallExpr`, `src/cxy/lang/middle/sema/path.c:resolveMemberUpInheritance`.
Proof: invariant of the table of functions by induction over the chain (names of the base are a prefix, every entry is the nearest function); negations for all hierarchies of three shapes.
Proved when the object has a table, the nearest declaration seen by the call is marked virtual and no function of that name has another signature. False of the code otherwise: a class two levels below the last virtual declaration has no table; an override not marked virtual again is called without the table; a function of the same name with other parameters takes the place in the table.
Theorems: `Verif.Classes.virtual_call_partial` [PCQ], `Verif.Classes.plain_call` [PCQ], `Verif.Classes.third_class_has_no_table` [PCQ], `Verif.Classes.unmarked_override_is_final` [PCQ], `Verif.Classes.other_parameters_take_the_place` [PCQ].

### C134 `super` calls the function of the base (partial)

Code: `src/cxy/lang/middle/simplify/simplify.c:visitCallExpr`, `src/cxy/lang/middle/simplify/simplify.c:virtualDispatch`, `src/cxy/lang/middle/sema/path.c:resolveMemberUpInheritance`.
Proof: corollaries of the invariant of C133, for all hierarchies.
Proved for functions that are not virtual. False for virtual ones: super.f() inside the override of f calls the override again.
Theorems: `Verif.Classes.super_call_partial` [PCQ], `Verif.Classes.super_calls_itself` [PCQ].

### C135 What is reached through an accepted reference is of the type declared (partial)

Code: `src/cxy/lang/frontend/types.c:isTypeAssignableFrom`, `src/cxy/lang/frontend/types.c:isTypeConst`, `src/cxy/lang/frontend/ttable.c:unwrapType`, `src/cxy/lang/frontend/ttable.c:stripPointer`, `src/cxy/lang/frontend/ttable.c:stripAll`.
Proof: soundness against a step-indexed meaning of types in a state of memory; induction over types; negations for whole families of types.
Proved for references over one primitive type, strings, structures, classes, interfaces and functions of those. False of the code otherwise: ^i8 is accepted for ^i64 (and for ^f64), [i8, n] for [i64, n], a function returning i8 for one returning i64, a function on a derived class for one on its base, one enumeration for another, ^T for ^T?, ^[T, n] for ^^T; each is proved for the whole family with a value that is of the one type and not of the other.
Theorems: `Verif.Assign.accepted_reference_fits_partial` [PQ], `Verif.Assign.number_under_pointer` [PQ], `Verif.Assign.number_in_array_or_result` [PCQ], `Verif.Assign.parameter_of_derived_class` [PQ], `Verif.Assign.other_enumeration` [PQ], `Verif.Assign.optional_under_pointer` [PQ], `Verif.Assign.array_under_pointer` [PQ].

### C136 No accepted assignment takes const away (partial)

Code: `src/cxy/lang/frontend/types.c:isTypeAssignableFrom`, `src/cxy/lang/frontend/types.c:isTypeConst`, `src/cxy/lang/frontend/ttable.c:makePointerType`, `src/cxy/lang/frontend/ttable.c:makeReferenceType`.
Proof: the same soundness, with constant memory and an inductive definition of what can be written.
Proved for pointers of any depth, under the conditions of C135. False for references: &const T is accepted for &T.
Theorems: `Verif.Assign.constants_stay_constant_partial` [PCQ], `Verif.Assign.constant_reference` [PQ].

### C137 What is written through an accepted pointer fits the variable (partial)

Code: `src/cxy/lang/frontend/types.c:isTypeAssignableFrom`, `src/cxy/lang/frontend/ttable.c:makePointerType`.
Proof: on the fragment the accepted types are equal (induction over types); negations for whole families.
Proved for pointers over one primitive type, strings and structures that are all to constants or all not. False of the code for classes (a pointer to a variable of a derived class is accepted for a pointer to one of the base) and for ^^T accepted as ^^const T.
Theorems: `Verif.Assign.written_value_fits_partial` [PQ], `Verif.Assign.base_object_in_derived_variable` [PQ], `Verif.Assign.constant_pointer_in_variable` [PCQ].

### C138 Objects are accepted for the classes and interfaces they have (partial)

Code: `src/cxy/lang/frontend/types.c:isTypeAssignableFrom`, `src/cxy/lang/frontend/types.c:implementsInterface`.
Proof: induction over the chain of bases (suffix); decision logic for interfaces.
Proved for classes, and for interfaces that the class itself declares. False for inherited interfaces: the object is refused although the base is accepted.
Theorems: `Verif.Assign.class_accepted_iff` [PQ], `Verif.Assign.interface_accepted_partial` [PQ], `Verif.Assign.inherited_interface_refused` [PQ].

### C139 The source text written for an expression is read back as that expression (partial)

Code: `src/cxy/lang/middle/dump/cxy.c:dumpBinaryExpr`, `src/cxy/lang/middle/dump/cxy.c:dumpUnaryExpr`, `src/cxy/lang/middle/dump/cxy.c:dumpTernaryExpr`, `src/cxy/lang/middle/dump/cxy.c:dumpMemberExpr`, `src/cxy/lang/middle/dump/cxy.c:dumpIndexExpr`, `src/cxy/lang/middle/dump/cxy.c:dumpGroupExpr`, `src/cxy/lang/middle/dump/cxy.c:dumpPath`, `src/cxy/lang/frontend/parser.c:prefix`.
Proof: Round trip through three models: the printer (`dump`), the lexer and the parser. The text is cut into tokens and spaces, each token is shown not to merge with what follows (`good_pieces`), the lexer then gives these tokens back and the parser the tree. That the parser builds only such trees is an induction over its fuel (`Parser/Shape.lean`). The failing trees are proved for whole families..
Proved, through the lexer and the parser, for trees that the parser builds and whose tokens do not join (C140). Trees made by later passes or by macros need not have groups: for these it is false, operands of looser operators are regrouped. Types, statements and literals other than integers are not modelled.
Theorems: `Verif.Dump.written_expression_is_read_back_partial` [PCQ], `Verif.Dump.parsed_expression_is_read_back_partial` [PCQ], `Verif.Dump.ungrouped_left_operand_regroups` [PCQ], `Verif.Dump.ungrouped_right_operand_regroups` [PCQ], `Verif.Dump.ungrouped_prefix_operand_regroups` [PCQ].

### C140 Operators written next to each other stay apart (partial)

Code: `src/cxy/lang/middle/dump/cxy.c:dumpUnaryExpr`, `src/cxy/lang/middle/dump/cxy.c:dumpIntegerLit`, `src/cxy/lang/frontend/lexer.c:advanceLexer`.
Proof: Case analysis of the pairs of a prefix operator and a first token; the joined pairs are read by the models of the lexer and the parser..
False of the code: -(-x) without its group, - -5, + +x, & &x are written without a space and read back as --x, --5, ++x, &&x. The first theorem has the pairs that stay apart.
Theorems: `Verif.Dump.written_expression_is_read_back_partial` [PCQ], `Verif.Dump.joined_operators_are_another` [PCQ], `Verif.Dump.minus_negative_number_is_decrement` [PCQ].

### C141 All arguments of a call are written (partial)

Code: `src/cxy/lang/middle/dump/cxy.c:dumpCallExpr`, `src/cxy/lang/middle/dump/cxy.c:dumpManyAstNodesEnclosed`, `src/cxy/lang/frontend/parser.c:callExpression`.
Proof: As C139, with induction over the argument list..
Proved for calls without spread arguments. False with them: nothing is written for f(...x), so f(...x) becomes f().
Theorems: `Verif.Dump.call_is_read_back_partial` [PCQ], `Verif.Dump.spread_operand_not_written` [PCQ], `Verif.Dump.spread_call_reads_as_empty` [PCQ].

### C142 Constants keep their value (partial)

Code: `src/cxy/lang/middle/sema/assign.c:checkAssignExpr`, `src/cxy/lang/middle/sema/unary.c:checkUnaryExpr`, `src/cxy/lang/middle/sema/unary.c:checkPointerOfExpr`, `src/cxy/lang/middle/sema/path.c:checkPath`, `src/cxy/lang/middle/sema/index.c:checkIndexExpr`, `src/cxy/lang/middle/sema/variables.c:checkVarDecl`.
Proof: Invariant by induction over the statements run: every address in memory has a type that agrees with the declared type of its place, and only pointers to constants hold addresses into constants (`Good`). Expressions keep it (`ev_typed`), the statements that the checker accepts and that are outside the holes write no constant. The holes are proved for whole families of declarations..
Proved for all programs that do not use the holes that follow, with pointers up to two levels. False of the code: s.f = n on a constant structure, *p = n and p.f = n and p.[0]++ through a pointer to constants, a.[i].[j] = n on a constant nested array, ptrof s.f and ptrof p.[i] losing the constant, and three levels of pointers. Each is accepted and changes the constant.
Theorems: `Verif.Consts.constants_keep_their_value_partial` [PCQ], `Verif.Consts.field_of_constant_assigned` [PQ], `Verif.Consts.target_of_constant_pointer_assigned` [PQ], `Verif.Consts.constant_changed_through_pointer` [PQ], `Verif.Consts.field_through_constant_pointer_assigned` [PQ], `Verif.Consts.address_of_field_of_constant` [PQ], `Verif.Consts.element_of_constant_assigned` [PQ], `Verif.Consts.element_through_constant_pointer_stepped` [PQ], `Verif.Consts.address_of_element_of_constant` [PQ], `Verif.Consts.constant_changed_through_three_pointers` [PQ].

### C143 Variables can be assigned (partial)

Code: `src/cxy/lang/middle/sema/assign.c:checkAssignExpr`, `src/cxy/lang/frontend/types.c:isTypeConst`, `src/cxy/lang/frontend/ttable.c:makePointerType`.
Proof: Decision logic of the checker for every declaration and expression; the failing case for all expressions..
Proved for variables whose type is not a pointer to constants. False for these: no assignment to such a variable is accepted.
Theorems: `Verif.Consts.variable_assigned_partial` [PQ], `Verif.Consts.pointer_to_constant_not_assigned` [PQ].

### C144 The type of *p is what p points to (partial)

Code: `src/cxy/lang/middle/sema/unary.c:checkPrefixExpr`, `src/cxy/lang/frontend/ttable.c:makeWrappedType`.
Proof: Decision logic of the checker for every declaration; the failing case for all constant pointers..
Proved for variables. False for constants: *p is given the type of p itself.
Theorems: `Verif.Consts.deref_type_partial` [PQ], `Verif.Consts.deref_of_constant_pointer` [PQ].

### C145 The scheduler forgets no coroutine and runs none twice (partial)

Code: `src/cxy/stdlib/native/evloop/ae.c:aeProcessEvents`, `src/cxy/stdlib/native/evloop/ae.c:processTimeEvents`, `src/cxy/stdlib/native/evloop/ae.c:aeRemoveTimerEvent`, `src/cxy/stdlib/native/evloop/ae.c:aeCreateFileEvent`, `src/cxy/stdlib/native/evloop/ae.c:aeFileEventTimeout`, `src/cxy/stdlib/coro.cxy:CoroutineScheduler`, `src/cxy/stdlib/coro.cxy:suspend`, `src/cxy/stdlib/coro.cxy:fdWaitRead`.
Proof: refinement: invariant between the timers, masks, flags and the ready list of the code and a specification that keeps one status per coroutine; counterexample families.
Proved for executions in which the memory of the records is zero at first, one coroutine at a time waits for a descriptor, the kernel reports a descriptor only to a coroutine that still waits for it and with an event it waits for, no wait without a timeout follows a wait for the same descriptor whose timeout was ended by an event, and the clock is not set back. False without each: the record is not cleared (a sleeper is lost), the old timer is unlinked again (a sleeper is lost), a hang-up takes away the timeout of a reader, and a descriptor reported again to a ready coroutine aborts the program.
Theorems: `Verif.EvLoop.scheduler_refines_partial` [PCQ], `Verif.EvLoop.spec_consistent` [PCQ], `Verif.EvLoop.waiting_is_registered_partial` [PCQ], `Verif.EvLoop.junk_loses_sleeper` [PQ], `Verif.EvLoop.ended_timeout_loses_sleeper` [PCQ], `Verif.EvLoop.hang_up_loses_timeout` [PCQ], `Verif.EvLoop.reported_again_fails` [P], `Verif.EvLoop.busy_program_aborts` [P].

### C146 A sleep lasts as long as asked, and ends (partial)

Code: `src/cxy/stdlib/native/evloop/ae.c:aeCreateTimeEvent`, `src/cxy/stdlib/native/evloop/ae.c:aeAddMillisecondsToNow`, `src/cxy/stdlib/native/evloop/ae.c:processTimeEvents`, `src/cxy/stdlib/coro.cxy:sleep`.
Proof: induction over executions on the refinement; counterexample families.
Same conditions. False without them: the input of a reader cuts short the sleep of a coroutine that wrote to the same descriptor; setting the clock back ends all sleeps.
Theorems: `Verif.EvLoop.sleep_lasts_partial` [PCQ], `Verif.EvLoop.sleep_ends_partial` [PCQ], `Verif.EvLoop.second_waiter_takes_events` [PCQ], `Verif.EvLoop.clock_set_back_ends_sleep` [PQ].

### C147 Ready coroutines run in the order in which they became ready (partial)

Code: `src/cxy/stdlib/coro.cxy:resume`, `src/cxy/stdlib/coro.cxy:suspend`, `src/cxy/stdlib/coro.cxy:yld`, `src/cxy/stdlib/coro.cxy:prologue`.
Proof: induction over executions on the refinement.
Same conditions.
Theorems: `Verif.EvLoop.ready_run_in_order_partial` [PCQ].

### C148 The event loop does not sleep past a deadline (partial)

Code: `src/cxy/stdlib/native/evloop/ae.c:aeSearchNearestTimer`, `src/cxy/stdlib/native/evloop/ae.c:aeProcessEvents`, `src/cxy/stdlib/native/evloop/ae.c:aeApiPoll`.
Proof: invariant of the refinement plus induction over the list of timers.
Same conditions.
Theorems: `Verif.EvLoop.poll_waits_no_longer_partial` [PCQ].

### C149 A function that raises and catches does what it says (partial)

Code: `src/cxy/lang/middle/sema/exception.c:checkCallExceptionBubbleUp`, `src/cxy/lang/middle/sema/exception.c:checkCatchBinaryOperator`, `src/cxy/lang/middle/sema/call.c:checkCallExpr`, `src/cxy/lang/middle/sema/binary.c:checkBinaryExpr`, `src/cxy/lang/middle/sema/check.c:checkReturnStmt`, `src/cxy/lang/middle/sema/check.c:checkYieldStmt`, `src/cxy/lang/middle/sema/if.c:checkIfStmt`.
Proof: `lowerS` follows the checker statement by statement and gives the statements hoisted in front and what is left; `exec` is the meaning written from docs/exceptions.md. Simulation by induction over statements with a frame condition on temporaries; loops by induction on fuel; equality of endings for every world and every fuel.
Proved for accepted bodies in which no call that may raise is evaluated after a call that may not, or under && || ?:, or in a condition behind else if, no call that may raise is a statement of a handler, a yield comes last in its handler, and a handler whose value is used always yields or leaves. False without: x = g() + f() calls f first, a && f() calls f always, if (a) .. else if (f()) calls f first.
Theorems: `Verif.Raise.compiled_as_written_partial` [PCQ], `Verif.Raise.calls_swapped` [PQ], `Verif.Raise.guarded_call_is_made` [PQ], `Verif.Raise.else_if_is_evaluated_first` [PQ].

### C150 A function not declared to raise does not raise (proved)

Code: `src/cxy/lang/middle/sema/exception.c:checkCallExceptionBubbleUp`, `src/cxy/lang/middle/sema/exception.c:exceptionVerifyRaiseExpr`.
Proof: No statement that lets an exception out is produced when the function is not declared to raise; induction over the body, then over the compiled statement.
For every accepted body.
Theorems: `Verif.Raise.undeclared_never_raises` [PCQ].

### C151 Every exception is handled or passed on (partial)

Code: `src/cxy/lang/middle/sema/exception.c:checkCallExceptionBubbleUp`, `src/cxy/lang/middle/sema/exception.c:checkCatchBinaryOperator`, `src/cxy/lang/middle/sema/binary.c:checkBinaryExpr`.
Proof: From C149 and C150: the meaning of an accepted body never is an uncaught exception.
Same conditions as C149. False without: in f() catch { g() } the exceptions of g are dropped, also in a function that is not declared to raise.
Theorems: `Verif.Raise.every_exception_is_handled_partial` [PCQ], `Verif.Raise.handlers_swallow` [PQ].

### C152 A catch always has a value (partial)

Code: `src/cxy/lang/middle/sema/exception.c:checkCatchBinaryOperator`, `src/cxy/lang/middle/sema/check.c:checkYieldStmt`.
Proof: From the simulation of C149: the compiled body is never `stuck` (a read of an unset temporary or of an exception as a value).
Same conditions as C149. False without: x = f() catch { if (a) yield 1 } reads a variable that was never set, x = f() catch { if (a) raise } reads the exception as a value.
Theorems: `Verif.Raise.values_are_there_partial` [PCQ], `Verif.Raise.catch_gives_a_value` [PCQ], `Verif.Raise.partial_yield_is_stuck` [PQ], `Verif.Raise.conditional_raise_is_stuck` [PQ].

### C153 The documented handlers are accepted (partial)

Code: `src/cxy/lang/middle/sema/exception.c:checkCatchBinaryOperator`, `src/cxy/lang/middle/sema/exception.c:exceptionVerifyRaiseExpr`.
Proof: Acceptance computed for each documented handler after any accepted arguments; the two rejected forms for all functions and arguments.
Proved except for two cases which are always rejected: { raise } after a call that returns nothing, discard after a call that returns a value.
Theorems: `Verif.Raise.documented_handlers_accepted_partial` [PQ], `Verif.Raise.reraise_rejected` [PQ], `Verif.Raise.discard_rejected` [PQ].

### C154 An accepted case can be compiled (partial)

Code: `src/cxy/lang/middle/sema/switch.c:checkCaseStmt`, `src/cxy/lang/backend/llvm/generate.cpp:visitSwitchStmt`.
Proof: `build` (check, code, module verification) for a single case, for every type and value; the failure for all pairs of types.
Proved for a literal written with exactly the type of the condition, below 2^63. False otherwise: every accepted literal of another type makes an invalid module.
Theorems: `Verif.Switch.literal_case_built_partial` [PCQ], `Verif.Switch.wide_literal_breaks_module` [PCQ].

### C155 A switch runs the case that lists the value (partial)

Code: `src/cxy/lang/middle/sema/switch.c:checkSwitchStmt`, `src/cxy/lang/backend/llvm/generate.cpp:visitSwitchStmt`, `src/cxy/lang/frontend/parser.c:caseStatement`.
Proof: `Code.run` of the table built from the cases against `meaning`, the first group that lists the value; induction over groups and labels.
Proved for labels that are values, and values not in front of a comma. False otherwise: of case v, w => b only w runs b, and a..b only runs for b.
Theorems: `Verif.Switch.listed_case_runs_partial` [PCQ], `Verif.Switch.first_label_runs_nothing` [PCQ], `Verif.Switch.range_runs_for_its_end_only` [PCQ].

### C156 Numbers are hashed by their bytes (partial)

Code: `src/cxy/runtime/builtins.cxy:hash_fnv1a_uint8`, `src/cxy/runtime/builtins.cxy:hash_fnv1a_uint16`, `src/cxy/runtime/builtins.cxy:hash_fnv1a_uint32`, `src/cxy/runtime/builtins.cxy:hash_fnv1a_uint64`, `src/cxy/runtime/builtins.cxy:hash`.
Proof: Equality with the function on natural numbers and lists of bytes for each width; a whole family of undefined floats..
Proved for all integers. A float is converted to u64 first, which is undefined for every float below -1.
Theorems: `Verif.HashFn.number_hash_partial` [PQ], `Verif.HashFn.negative_float_hash_undefined` [PQ].

### C157 Text is hashed by its bytes (partial)

Code: `src/cxy/runtime/builtins.cxy:hash_fnv1a_string`, `src/cxy/runtime/builtins.cxy:hash_fnv1a_n_string`, `src/cxy/runtime/builtins.cxy:hash_fnv1a_bytes`, `src/cxy/runtime/builtins.cxy:hash`.
Proof: Induction over the text with the wrapped index as invariant; families of texts for which each of the three functions goes wrong..
string: proved up to 127 bytes, from 128 on the index (an i8) wraps and reads in front of the text. __string: proved up to 128 bytes, the rest does not count. String: the last byte does not count; an empty String with a buffer is read to its end and beyond.
Theorems: `Verif.HashFn.cstr_hash_partial` [PQ], `Verif.HashFn.long_cstr_hash_undefined` [PQ], `Verif.HashFn.view_hash_partial` [PCQ], `Verif.HashFn.view_hash_ignores` [PCQ], `Verif.HashFn.owned_hash_by_content_partial` [PQ], `Verif.HashFn.owned_hash_ignores_last` [PQ], `Verif.HashFn.empty_owned_hash_undefined` [PQ].

### C158 Texts that are equal up to case have equal hashes (partial)

Code: `src/cxy/runtime/builtins.cxy:EqualsCase`, `src/cxy/runtime/builtins.cxy:HashCase`, `src/cxy/runtime/builtins.cxy:hash_fnv1a_string_n_igc`, `src/cxy/runtime/builtins.cxy:hash_fnv1a_string_igc`.
Proof: Both functions as functions of the text (lower case for comparing, upper case for hashing); counterexample family by injectivity of the FNV step..
Proved for texts without NUL (for string: of at most 127 bytes). False for texts that differ behind a NUL: strncasecmp stops there, the hash does not.
Theorems: `Verif.HashFn.equal_case_equal_hash_partial` [PCQ], `Verif.HashFn.equal_case_equal_cstr_hash_partial` [PQ], `Verif.HashFn.equal_case_other_hash` [PCQ].

### C159 What is not needed is not computed (partial)

Code: `src/cxy/lang/middle/simplify/simplify.c:nodeNeedsTemporaryVar`, `src/cxy/lang/middle/simplify/simplify.c:visitCallExpr`, `src/cxy/lang/middle/simplify/simplify.c:visitIfStmt`, `src/cxy/lang/middle/shake/shake.c:shakeIfStmt`.
Proof: Equality of the compiled statement (declarations in front, then the rest) with the evaluation of the language, by mutual induction over expressions and arguments; families of counterexamples for each construct..
Proved if the parts that may be skipped have no compound arguments and declare no variables, and for expressions without effects and failures. False otherwise: x != 0 && f(10 / x) divides first, c ? f(g()) : f(h()) calls both g and h, and else if (const x = e) computes e before the first condition.
Theorems: `Verif.Hoist.left_to_right_partial` [PQ], `Verif.Hoist.harmless_value_partial` [PQ], `Verif.Hoist.chain_partial` [PQ], `Verif.Hoist.and_runs_argument` [PQ], `Verif.Hoist.and_guard_is_late` [PQ], `Verif.Hoist.or_guard_is_late` [PQ], `Verif.Hoist.ternary_runs_both` [PQ], `Verif.Hoist.else_if_decl_runs_first` [PQ], `Verif.Hoist.else_if_not_guarded` [PQ], `Verif.Hoist.else_if_argument_not_guarded` [PQ].

### C160 Arguments and operands are computed from left to right (partial)

Code: `src/cxy/lang/middle/simplify/simplify.c:nodeNeedsTemporaryVar`, `src/cxy/lang/middle/simplify/simplify.c:visitCallExpr`, `src/cxy/lang/middle/simplify/simplify.c:visitBlockStmt`, `src/cxy/lang/frontend/visitor.c:astModifierAdd`.
Proof: As C159..
Proved if compound arguments come in front, and for expressions without effects and failures. False otherwise: f(x, g()) reads x after the call of g.
Theorems: `Verif.Hoist.left_to_right_partial` [PQ], `Verif.Hoist.harmless_value_partial` [PQ], `Verif.Hoist.variable_read_late` [PQ], `Verif.Hoist.operand_called_late` [PQ].

### C161 Operators keep their operands in the C that is written (partial)

Code: `src/cxy/lang/backend/c/generate.c:visitBinaryExpr`, `src/cxy/lang/backend/c/generate.c:visitAssignExpr`, `src/cxy/lang/backend/c/generate.c:visitTernaryExpr`, `src/cxy/lang/backend/c/generate.c:visitUnaryExpr`, `src/cxy/lang/backend/c/generate.c:visitGroupExpr`, `src/cxy/lang/backend/c/generate.c:visitIndexExpr`, `src/cxy/lang/middle/sema/unary.c:checkUnaryExpr`.
Proof: Round trip through the C tokenizer (longest match) and the C expression grammar: `reads_ok` by induction over trees with the level of each operator; composed with the parser's own round trip (C20). Families of counterexamples..
Proved for expressions of names, numbers, members, indices, unary, binary, conditional and assignment operators, without conversions, doubled signs and conditionals that hold assignments. False for a dereferenced conversion, an assignment as the condition of ?: and one behind its colon.
Theorems: `Verif.CText.c_reads_the_parsed_tree_partial` [PCQ], `Verif.CText.deref_of_cast_reads_element` [PCQ], `Verif.CText.assigned_condition_reads_assigned_choice` [PCQ], `Verif.CText.assigning_choice_is_rejected` [PCQ].

### C162 A conversion converts the whole expression behind it (partial)

Code: `src/cxy/lang/backend/c/generate.c:visitCastExpr`, `src/cxy/lang/backend/c/generate.c:visitTypedExpr`, `src/cxy/lang/frontend/parser.c:implicitCast`, `src/cxy/lang/middle/simplify/simplify.c:simplifyCastExpression`.
Proof: The same reader; the tree C sees is computed for every operand (`castLeft`)..
Proved for operands that are names, numbers, members, calls in parentheses and unary operators. False for every binary operator and conditional: the conversion is written in front without parentheses, so C converts the leftmost operand only.
Theorems: `Verif.CText.conversion_of_operand_partial` [PCQ], `Verif.CText.conversion_reads_leftmost` [PCQ], `Verif.CText.conversion_not_read` [PCQ], `Verif.CText.converted_quotient` [PCQ].

### C163 Two signs in a row are two operators (partial)

Code: `src/cxy/lang/backend/c/generate.c:visitUnaryExpr`, `src/cxy/lang/backend/c/generate.c:visitIntegerLit`.
Proof: The same reader..
Proved with parentheses between the signs and for different signs. False otherwise: the signs are written next to each other, so C reads -- or ++ and changes the variable.
Theorems: `Verif.CText.parenthesised_signs_partial` [PCQ], `Verif.CText.different_signs_partial` [PCQ], `Verif.CText.negation_twice_reads_decrement` [PCQ], `Verif.CText.plus_twice_reads_increment` [PCQ], `Verif.CText.negated_literal_reads_decrement` [PCQ].

### C164 Statements do in C what they say (partial)

Code: `src/cxy/lang/backend/c/generate.c:visitWhileStmt`, `src/cxy/lang/backend/c/generate.c:visitSwitchStmt`, `src/cxy/lang/backend/c/generate.c:visitCaseStmt`, `src/cxy/lang/backend/c/generate.c:visitContinueStmt`, `src/cxy/lang/backend/c/generate.c:visitBreakStmt`.
Proof: Refinement of the statements of the language by the C statements (labels, goto, switch fall through), by mutual induction over statements and cases, for every number of rounds..
Proved for all statements whose switches have a default and no break of a loop outside. The rest is C165 and C166.
Theorems: `Verif.CFlow.c_runs_like_the_source_partial` [PQ].

### C165 break in a case leaves the loop around the switch (partial)

Code: `src/cxy/lang/backend/c/generate.c:visitBreakStmt`, `src/cxy/lang/backend/c/generate.c:visitSwitchStmt`, `src/cxy/lang/middle/bind/resolve.c:bindBreakOrContinueStmt`.
Proof: As C164; the loop that never ends is shown to run out of every number of rounds..
False: the break is written as a break of C, which leaves the switch; a loop that only ends there never ends.
Theorems: `Verif.CFlow.c_runs_like_the_source_partial` [PQ], `Verif.CFlow.break_in_switch_leaves_switch_only` [P], `Verif.CFlow.loop_left_by_switch_never_ends` [P].

### C166 A switch without default skips values no case lists (partial)

Code: `src/cxy/lang/backend/c/generate.c:visitSwitchStmt`, `src/cxy/lang/backend/c/generate.c:visitCaseStmt`.
Proof: As C164..
Proved with a default. False without: the back end adds a default that aborts.
Theorems: `Verif.CFlow.switch_with_default_partial` [PQ], `Verif.CFlow.unlisted_value_aborts` [P].

### C167 A string literal has its bytes in the program (partial)

Code: `src/cxy/lang/backend/c/generate.c:visitStringLit`, `src/cxy/core/format.c:printUtf8`, `src/cxy/core/utils.c:escapeString`.
Proof: Round trip from the source text of the literal through `escapeString`, the writer and a reader of C string literals; induction over the pieces..
Proved for ASCII, the escapes and \xHH. False beyond ASCII: with a signed char any other letter ends the compiler, with an unsigned one its bytes are doubled; and false behind a NUL and for a backslash in front of xHH.
Theorems: `Verif.CLit.string_bytes_partial` [PCQ], `Verif.CLit.text_bytes_partial` [PCQ], `Verif.CLit.high_byte_ends_compiler` [PQ], `Verif.CLit.high_byte_becomes_two` [PQ], `Verif.CLit.backslash_before_hex` [PCQ], `Verif.CLit.nul_cuts` [P].

### C168 A character literal has its character in the program (partial)

Code: `src/cxy/lang/backend/c/generate.c:visitCharLit`, `src/cxy/core/format.c:printUtf8`.
Proof: The same reader with one character; all characters beyond ASCII are shown to fail..
Proved for ASCII but the single quote. False for the single quote (written without a backslash) and for every character beyond ASCII.
Theorems: `Verif.CLit.char_kept_partial` [PCQ], `Verif.CLit.single_quote_invalid` [P], `Verif.CLit.other_char_invalid` [PCQ].

### C169 An integer literal has its value in the program (partial)

Code: `src/cxy/lang/backend/c/generate.c:visitIntegerLit`.
Proof: Round trip through decimal digits and the rules for the type of a constant..
Proved for all values but the smallest i64, which C reads as a positive number.
Theorems: `Verif.CLit.integer_literal_value_partial` [PCQ], `Verif.CLit.smallest_literal_positive` [PCQ].

### C170 A floating-point literal has its value in the program (partial)

Code: `src/cxy/lang/backend/c/generate.c:visitFloatLit`, `src/cxy/core/format.c:formatArg`.
Proof: Exact rational arithmetic; `%e` is seven digits and an exponent; rounding to doubles is a parameter with a relative error..
Proved for literals of at most seven digits. False for longer ones: only seven are written.
Theorems: `Verif.CLit.float_literal_value_partial` [PCQ], `Verif.CLit.digits_behind_seventh_lost` [PCQ].

### C171 Integer expressions have their value in the program (partial)

Code: `src/cxy/lang/backend/c/generate.c:visitBinaryExpr`, `src/cxy/lang/backend/c/generate.c:visitIntegerLit`, `src/cxy/lang/middle/sema/binary.c:checkBinaryExpr`, `src/cxy/lang/frontend/ttable.c:promoteType`.
Proof: Evaluation of expressions by the rules of C (promotions, usual conversions, undefined overflow) against the meaning by conversion to the common type; induction over expressions..
Proved if nothing overflows and no unsigned operand meets a signed type of its width, and for sums, differences and products that are stored in their type. False otherwise: narrow types do not wrap, overflows of i32, i64 and products of u16 are undefined, and 1 << n is shifted as int.
Theorems: `Verif.CArith.c_value_partial` [PCQ], `Verif.CArith.plain_good` [PCQ], `Verif.CArith.stored_result_partial` [PCQ], `Verif.CArith.narrow_result_not_wrapped` [PCQ], `Verif.CArith.u16_product_undefined` [PCQ], `Verif.CArith.signed_overflow_undefined` [PCQ], `Verif.CArith.shifted_literal_undefined` [PCQ].

### C172 Comparisons of integers give the right answer in the program (partial)

Code: `src/cxy/lang/backend/c/generate.c:visitBinaryExpr`, `src/cxy/lang/middle/sema/binary.c:checkBinaryExpr`, `src/cxy/lang/frontend/ttable.c:promoteType`.
Proof: As C171..
As C171. False for negative numbers compared with unsigned ones of their width, and for overflowing sums of narrow types.
Theorems: `Verif.CArith.c_value_partial` [PCQ], `Verif.CArith.plain_good` [PCQ], `Verif.CArith.negative_compares_huge` [PCQ], `Verif.CArith.overflowed_sum_above` [PCQ].

### C173 The count a send or an asynchronous write reports is what was written (proved)

Code: `src/cxy/stdlib/tcp.cxy:sendBuffer`, `src/cxy/stdlib/os.cxy:writeAsync`.
Proof: The kernel is an arbitrary sequence of answers (counts, errors, wake-ups) given as an argument; induction over it with the invariant that a beginning of the buffer went out..
Theorems: `Verif.StreamIO.send_count_exact` [PCQ], `Verif.StreamIO.sent_is_prefix` [PCQ], `Verif.StreamIO.write_count_exact` [PCQ].

### C174 A send waits until there is room (partial)

Code: `src/cxy/stdlib/tcp.cxy:sendBuffer`, `src/cxy/stdlib/net.cxy:wait`, `src/cxy/stdlib/os.cxy:writeAsync`.
Proof: As C173: arbitrary sequences of answers, induction over them; families of counterexamples..
Proved if the kernel takes some bytes at every call. False otherwise: the wait never reports a socket as writable, so that a full buffer fails the send.
Theorems: `Verif.StreamIO.send_completes_partial` [PCQ], `Verif.StreamIO.full_buffer_fails_send` [PQ], `Verif.StreamIO.full_pipe_fails_write` [P].

### C175 Received bytes are those that arrived, in order (partial)

Code: `src/cxy/stdlib/tcp.cxy:receive`, `src/cxy/stdlib/net.cxy:wait`.
Proof: As C173: arbitrary sequences of answers, induction over them; families of counterexamples..
Proved if no call fails behind bytes already taken. False otherwise: these bytes are lost; a hang-up is reported as a timeout, and receiving from a closed socket succeeds with no bytes.
Theorems: `Verif.StreamIO.received_exact_partial` [PQ], `Verif.StreamIO.received_in_order_partial` [PQ], `Verif.StreamIO.failed_receive_loses` [PQ], `Verif.StreamIO.hangup_is_timeout` [P], `Verif.StreamIO.closed_receives_zero` [PQ].

### C176 Sending a part of a file sends that part (partial)

Code: `src/cxy/stdlib/tcp.cxy:sendFile`, `src/cxy/stdlib/tcp.cxy:Socket_sendfile`.
Proof: As C173: arbitrary sequences of answers, induction over them; families of counterexamples..
Proved of the bytes if the kernel takes them in one call. False: the offset moves only if nothing was sent, so that no call that sends anything reports success and a part sent in pieces is sent from its start again.
Theorems: `Verif.StreamIO.sendFile_bytes_partial` [PQ], `Verif.StreamIO.sendFile_never_succeeds` [PQ], `Verif.StreamIO.sendFile_repeats` [PQ].

### C177 Copying a file copies its content (partial)

Code: `src/cxy/stdlib/os.cxy:copy`.
Proof: As C173: arbitrary sequences of answers, induction over them; families of counterexamples..
Proved if the kernel writes every piece whole. False otherwise: what is left of a piece is dropped.
Theorems: `Verif.StreamIO.copy_exact_partial` [PQ], `Verif.StreamIO.copy_in_pieces_loses` [PQ].

### C178 Reading a file gives its content (partial)

Code: `src/cxy/stdlib/os.cxy:readAll`, `src/cxy/stdlib/os.cxy:readAsync`.
Proof: As C173: arbitrary sequences of answers, induction over them; families of counterexamples..
Proved for streams and for files of at least the initial capacity. False: short files abort, a file that shrinks is read for ever, and an error of a read is taken for the end.
Theorems: `Verif.StreamIO.readAsync_content_partial` [PQ], `Verif.StreamIO.readAll_content_partial` [PCQ], `Verif.StreamIO.readAll_stream_partial` [PQ], `Verif.StreamIO.readAsync_hangup_raises` [P], `Verif.StreamIO.small_file_aborts` [PCQ], `Verif.StreamIO.shrunk_file_never_returns` [PCQ], `Verif.StreamIO.read_error_is_end` [PQ].

### C179 What a started program writes is what its parent reads (partial)

Code: `src/cxy/stdlib/os.cxy:execvpe`.
Proof: Descriptor tables of parent and child through pipe, dup2, fork and close; writes go to the pipe behind the descriptor. Induction over writes and started programs..
Proved for a parent with its own standard streams open and pipes that do not fill up.
Theorems: `Verif.Proc.output_reaches_parent_partial` [PQ], `Verif.Proc.output_ends` [PQ].

### C180 What is written to the input of a started program reaches it (partial)

Code: `src/cxy/stdlib/os.cxy:execvpe`.
Proof: As C179: no end for reading the pipe is in the child, none for writing is in the parent..
False: the ends of the pipe are exchanged, so that no byte ever reaches the program.
Theorems: `Verif.Proc.input_never_arrives` [PQ].

### C181 The reported exit code is how the program ended (partial)

Code: `src/cxy/stdlib/os.cxy:Process`, `src/cxy/stdlib/os.cxy:WIFEXITED`.
Proof: The encoding of the wait status and the macros that take it apart..
Proved for programs that end by themselves. False for killed ones, which are reported with code 0.
Theorems: `Verif.Proc.exit_code_partial` [P], `Verif.Proc.killed_reported_as_success` [P].

### C182 Asking whether a program has ended does not lose its exit code (partial)

Code: `src/cxy/stdlib/os.cxy:isExited`, `src/cxy/stdlib/os.cxy:waitAsync`.
Proof: A process that runs, has ended or was collected, under sequences of calls..
Proved for waitAsync alone. False with isExited, which takes the code away, and with wait after it.
Theorems: `Verif.Proc.waitAsync_partial` [P], `Verif.Proc.isExited_takes_exit_code` [P], `Verif.Proc.running_reported_as_success` [PQ].

### C183 JSON documents are read as what they say (partial)

Code: `src/cxy/stdlib/json.cxy:parseJSON`, `src/cxy/stdlib/json.cxy:JSONParser`, `src/cxy/stdlib/json.cxy:expectFloat`.
Proof: A printer of documents with arbitrary white space and a semantics of documents at a type; mutual induction over documents: the parser inverts the printer..
Proved for integers up to 2^53, strings without a backslash at their end, and skipped members without negative numbers. False beyond 2^53: every odd number between 2^53 and 2^54 changes silently.
Theorems: `Verif.JsonVal.json_read_partial` [PCQ], `Verif.JsonVal.read_integer_in_range` [P], `Verif.JsonVal.large_integer_changed` [PCQ].

### C184 Members a structure does not know are skipped or refused (partial)

Code: `src/cxy/stdlib/json.cxy:fieldFromJSON`, `src/cxy/stdlib/json.cxy:skipValue`.
Proof: As C183: members appended in the middle of a document; the skipping functions consume exactly one document..
Refusing is proved in full. Skipping is false for negative numbers, which are refused.
Theorems: `Verif.JsonVal.other_member_skipped_partial` [PCQ], `Verif.JsonVal.other_member_refused` [PCQ], `Verif.JsonVal.negative_number_not_skipped` [PCQ].

### C185 What is not JSON is refused (partial)

Code: `src/cxy/stdlib/json.cxy:parseJSON`, `src/cxy/stdlib/json.cxy:expectChar`, `src/cxy/stdlib/json.cxy:consumeChar`.
Proof: As C183: a case analysis of the first character per type; documents printed with any choice of commas..
Proved for documents of another kind. False for commas between members and for text behind the value.
Theorems: `Verif.JsonVal.wrong_kind_refused_partial` [PCQ], `Verif.JsonVal.read_boolean_word` [PQ], `Verif.JsonVal.commas_do_not_matter` [PCQ], `Verif.JsonVal.missing_commas_accepted` [PCQ], `Verif.JsonVal.trailing_text_ignored` [PCQ].

### C186 Reading JSON ends (proved)

Code: `src/cxy/stdlib/json.cxy:parseJSON`, `src/cxy/stdlib/json.cxy:skipValue`.
Proof: A measure: no function returns a longer rest, every loop consumes, and the fuel given is enough for every text..
Theorems: `Verif.JsonVal.reading_ends` [PCQ].

### C187 What is written as JSON is read back (partial)

Code: `src/cxy/stdlib/json.cxy:toJSON`, `src/cxy/stdlib/json.cxy:fromString`.
Proof: The text written for a value is the text of a document (induction over types), which C183 reads..
Proved for integers up to 2^53, strings without quotes or a backslash at their end, tuples, structures and optionals. False for unsigned numbers from 2^63 on and for optionals of optionals.
Theorems: `Verif.JsonVal.json_roundtrip_partial` [PCQ], `Verif.JsonVal.large_unsigned_undefined` [PCQ], `Verif.JsonVal.nested_optional_lost` [PQ].

### C188 A union gives back what was stored in it (proved)

Code: `src/cxy/lang/middle/sema/type.c:checkUnionDecl`, `src/cxy/lang/frontend/types.c:findUnionTypeIndex`, `src/cxy/lang/backend/c/generate.c:visitUnionValue`, `src/cxy/lang/middle/simplify/simplify.c:visitCastExpr`.
Proof: Union values as pairs of a position and a value; the position is the one the compiler looks up. Direct computation with injectivity of the look-up..
A member that is written `const` cannot be stored; the theorem is about the others.
Theorems: `Verif.Unions.union_holds_what_is_stored` [PCQ].

### C189 An `as` is checked where it stands (partial)

Code: `src/cxy/lang/middle/simplify/simplify.c:visitCastExpr`, `src/cxy/lang/middle/simplify/simplify.c:visitMatchStmt`, `src/cxy/lang/backend/c/generate.c:visitMatchStmt`.
Proof: Two languages over one runner: the source, in which unions carry types, and what is left after the checks have been moved and types replaced by positions. Simulation by mutual induction over statements; the failures are families over all unions and states..
Proved for whole programs in which `as` stands at places that are always reached and has no side effects. False behind && and ||, in else-if conditions and in case bodies without braces, where the check is moved to the front and stops the program; and for calls, which are made twice.
Theorems: `Verif.Unions.union_program_partial` [PCQ], `Verif.Unions.guard_does_not_protect` [PCQ], `Verif.Unions.else_if_checked_too_early` [PCQ], `Verif.Unions.case_checked_too_early` [PCQ], `Verif.Unions.called_twice` [PCQ].

### C190 match runs the case of what is held (partial)

Code: `src/cxy/lang/middle/sema/match.c:checkMatchStmt`, `src/cxy/lang/middle/simplify/simplify.c:visitMatchStmt`, `src/cxy/lang/backend/c/generate.c:visitMatchStmt`.
Proof: The simulation, composed with a look-up of the case in a list that is stated without the runner..
Proved for cases of one type with braces. False for cases of several types: all but the last do nothing; for `T` beside `const T`; and for elements whose index changes something.
Theorems: `Verif.Unions.match_runs_held_partial` [PCQ], `Verif.Unions.first_of_several_does_nothing` [PQ], `Verif.Unions.const_case_invalid` [PQ], `Verif.Unions.index_evaluated_twice` [PCQ].

### C191 A printed integer is the integer (partial)

Code: `src/cxy/runtime/builtins.cxy:OutputStream`, `src/cxy/runtime/builtins.cxy:appendSignedInt`.
Proof: The printer of integers against a separate reader of decimal numbers..
Proved for all types but u64. False for u64 from 2^63 on: always printed as a negative number.
Theorems: `Verif.Print.printed_integer_partial` [PCQ], `Verif.Print.large_u64_printed_negative` [PCQ].

### C192 Values that are printed alike are the same (partial)

Code: `src/cxy/runtime/builtins.cxy:OutputStream`.
Proof: Texts of values in front of a closing character can be told from what follows; by mutual induction over types, with separate lemmas for elements of arrays..
Proved for all types without strings, characters, unions and optionals of optionals. False for strings in tuples, for optionals of optionals and for unions of two integer types.
Theorems: `Verif.Print.printed_apart_partial` [PCQ], `Verif.Print.print_total` [PQ], `Verif.Print.strings_not_apart` [PQ], `Verif.Print.nested_optionals_not_apart` [PQ], `Verif.Print.union_members_not_apart` [PQ].

### C193 A printed character is the character (partial)

Code: `src/cxy/runtime/builtins.cxy:OutputStream`, `src/cxy/runtime/builtins.cxy:appendChar`.
Proof: Computation over all bytes with the signed conversion of C..
Proved for ASCII. False for every other char: nothing is printed (C back end, signed char).
Theorems: `Verif.Print.ascii_printed_partial` [PQ], `Verif.Print.other_chars_not_printed` [PQ].

### C194 Type arguments that are not written are those of the arguments (partial)

Code: `src/cxy/lang/middle/shake/shake.c:shakeGenericDecl`, `src/cxy/lang/middle/shake/shake.c:inferGenericParamFromFuncParam`, `src/cxy/lang/middle/sema/generics.c:inferGenericFunctionTypes`, `src/cxy/lang/middle/sema/generics.c:resolveGenericDecl`.
Proof: The marking of type parameters at the declaration and the loop at the call, against a search in the two lists of parameters and arguments. Inductions over both lists; reads outside arrays are an outcome of their own..
Proved for type parameters that are no packs, are given by an argument that is written, and whose parameter does not stand behind a reference or pointer. False otherwise: a pointer behind a reference parameter is peeled, and the compiler reads outside the list of types or types it never wrote.
Theorems: `Verif.Generics.type_arguments_partial` [PCQ], `Verif.Generics.unmentioned_refused` [PQ], `Verif.Generics.inner_type_of_another_parameter` [PQ], `Verif.Generics.default_read_outside` [PQ], `Verif.Generics.pack_read_outside` [PQ], `Verif.Generics.pack_types_not_written` [PCQ].

### C195 A closure can use the variables of the functions around it (partial)

Code: `src/cxy/lang/middle/bind/resolve.c:captureSymbol`, `src/cxy/lang/middle/bind/resolve.c:bindClosureExpr`, `src/cxy/lang/frontend/capture.c:addClosureCapture`, `src/cxy/lang/middle/sema/closure.c:transformClosureToStructExpr`, `src/cxy/lang/middle/simplify/simplify.c:visitPathExpr`.
Proof: The binder's pass over a body with nested closures, the fields of the closures' objects and the stores into them; what is written is compared, by induction over bodies, with a condition on the source alone (if and only if)..
Exactly which programs: closures may use only the variables of the function they are written in, and none of them directly after a closure of their own. So it holds for closures without closures in them, and fails for every variable used two closures in.
Theorems: `Verif.Closures.closure_reaches_iff` [PQ], `Verif.Closures.closure_reaches_partial` [PQ], `Verif.Closures.same_variables` [PQ], `Verif.Closures.fields_are_what_is_named` [PQ], `Verif.Closures.two_closures_out_not_reached` [PQ], `Verif.Closures.after_inner_closure_not_reached` [PQ].

### C196 A slice is a window on its elements (proved)

Code: `src/cxy/runtime/builtins.cxy:Slice`.
Proof: Refinement to a list: what a slice shows is a list read off memory, and each operation is the list operation (element, set, drop and take) or stops the program..
With assertions on (the default).
Theorems: `Verif.Slice.get_spec` [PQ], `Verif.Slice.set_spec` [PQ], `Verif.Slice.view_spec` [PCQ], `Verif.Slice.set_through_view` [PQ], `Verif.Slice.disjoint_views` [PQ].

### C197 A loop over a slice visits every element once (partial)

Code: `src/cxy/runtime/builtins.cxy:Slice`.
Proof: The closure that the range operator returns, called until it gives None; induction on the elements left, against the list with its indices..
Proved for fewer than 2^31 elements. From 2^31 elements on the index, an i32, overflows: undefined in the C that is written.
Theorems: `Verif.Slice.loop_visits_all_partial` [PQ], `Verif.Slice.long_loop_undefined` [PQ].

### C198 A loop over an array or a string visits every element (partial)

Code: `src/cxy/lang/middle/simplify/simplify.c:simplifyForArrayStmt`, `src/cxy/lang/middle/sema/for.c:checkForStmt`, `src/cxy/lang/middle/eval/for.c:evalForStmtWithString`.
Proof: The while loop that a `for` over an array becomes, with any body as a function on states; induction on the elements left, against running the body over the list of indices..
Proved for arrays, if the body does not assign the index, and for #for over strings. False for strings at run time: a loop over any string does nothing, as the length is taken from the type.
Theorems: `Verif.ForEach.array_loop_visits_all_partial` [PCQ], `Verif.ForEach.array_loop_notes_all` [PCQ], `Verif.ForEach.comptime_string_visits_all` [PQ], `Verif.ForEach.string_loop_visits_nothing` [PQ], `Verif.ForEach.string_loop_differs` [PCQ], `Verif.ForEach.assigned_index_never_ends` [PCQ].

### C199 A class has the operators of its bases (partial)

Code: `src/cxy/lang/middle/sema/for.c:findCustomRange`, `src/cxy/lang/middle/sema/index.c:checkIndexOperator`, `src/cxy/lang/middle/sema/assign.c:checkIndexExprAssignment`, `src/cxy/lang/middle/sema/call.c:checkCallExpr`, `src/cxy/lang/middle/sema/node.c:transformToTruthyOperator`, `src/cxy/lang/middle/sema/node.c:transformToAwaitOperator`, `src/cxy/lang/middle/sema/node.c:transformToDerefOperator`, `src/cxy/lang/frontend/types.c:findOverloadMemberUpInheritanceChain`.
Proof: A class as the chain of its bases, with what each declares; each operator's search, against the nearest declaration..
Proved for binary operators and conditions, and for classes without a base. False for [], []=, calls, await and *, which are never inherited, and for loops, where only the outermost base counts.
Theorems: `Verif.ForEach.inherited_operators_partial` [PQ], `Verif.ForEach.own_operators` [P], `Verif.ForEach.operators_not_inherited` [P], `Verif.ForEach.range_of_outermost_base` [P], `Verif.ForEach.range_own_iff` [PQ].

### C200 Compile-time statements mean what they say (partial)

Code: `src/cxy/lang/middle/eval/eval.c:evalIfStmt`, `src/cxy/lang/middle/eval/eval.c:evalAssignExpr`, `src/cxy/lang/middle/eval/eval.c:evalVarDecl`, `src/cxy/lang/middle/eval/for.c:evalForStmt`, `src/cxy/lang/middle/eval/path.c:evalPath`, `src/cxy/lang/middle/sema/check.c:checkBlockStmt`, `src/cxy/lang/middle/sema/type.c:checkTypeShallow`.
Proof: Staging of a small language as a pair of functions on statements (new compile-time values, emitted statements), C semantics of the emitted code, and a reference interpreter that ignores the marks; mutual induction on the program with the invariant that the compile-time variables in scope agree..
Proved for programs in which compile-time variables are assigned only in the run-time branch or loop that declares them (see C201 for the others) and no run-time if has an `else #if` (C202). Values are mathematical integers here; folding is C26.
Theorems: `Verif.Comptime.comptime_code_means_source_partial` [PQ].

### C201 A compile-time assignment below a run-time condition follows the condition (partial)

Code: `src/cxy/lang/middle/eval/eval.c:evalAssignExpr`, `src/cxy/lang/middle/sema/if.c:checkIfStmt`, `src/cxy/lang/middle/sema/check.c:checkWhileStmt`.
Proof: The same model; emitted code and reference computed for a family of programs with an arbitrary condition, and for a counting loop of k rounds..
False: the assignment takes place once, when the code is compiled, whether or not the branch runs and however often the loop does. Proved: right exactly when the condition holds or nothing changes.
Theorems: `Verif.Comptime.branch_assignment_right_iff` [PQ], `Verif.Comptime.loop_assignment_happens_once` [PQ].

### C202 `else #if` behind a run-time `if` (partial)

Code: `src/cxy/lang/middle/eval/eval.c:evalIfStmt`, `src/cxy/lang/middle/sema/if.c:checkIfStmt`, `src/cxy/lang/middle/shake/shake.c:shakeIfStmt`, `src/cxy/lang/backend/c/generate.c:visitIfStmt`.
Proof: The same model, with C code in which an else has nothing behind it; proved equal to the reference of another program..
False: the selected code is dropped, and the statement that follows becomes the else branch. The theorem gives the program that is really emitted.
Theorems: `Verif.Comptime.else_comptime_if_swallows_next` [PQ], `Verif.Comptime.else_comptime_if_wrong` [PQ].

### C203 A variable can be declared in the body of `#for` (partial)

Code: `src/cxy/lang/middle/eval/for.c:getEvaluatedBody`, `src/cxy/lang/middle/eval/for.c:evalForStmt`, `src/cxy/lang/backend/c/generate.c:visitVariableDecl`.
Proof: The names declared directly in the emitted block; induction on the rounds..
The C code is valid exactly for at most one round or with @consistent.
Theorems: `Verif.Comptime.unrolled_declaration_valid_iff` [PCQ].

### C204 `#for` over a range with a step (partial)

Code: `src/cxy/lang/middle/eval/eval.c:evalRangeExpr`, `src/cxy/lang/middle/eval/for.c:evalForStmtWithRange`.
Proof: The loop of the unroller on fuel; induction..
False: every step is reported as an error, since the test is the wrong way round, and for a step of zero or less on a range that is not empty the compiler never ends. The values visited for a positive step are the right ones.
Theorems: `Verif.Comptime.Step.step_ends_iff` [PCQ], `Verif.Comptime.Step.visit_some` [PCQ].

### C205 `#for` over an array literal passes one element per round (partial)

Code: `src/cxy/lang/middle/eval/for.c:evalExprForStmtArray`, `src/cxy/lang/middle/eval/path.c:evalPathEpilogue`, `src/cxy/lang/frontend/ast.c:replaceAstNodeWith`, `src/cxy/lang/frontend/ast.c:insertAstNode`, `src/cxy/lang/middle/sema/call.c:checkFunctionCallEpilogue`.
Proof: Syntax nodes as memory with next links; getLastAstNode, insertAstNode and replaceAstNodeWith on it; invariants on the chain of elements, for all lengths..
True exactly for at most one element. Otherwise a call gets all later elements too and, with an argument behind, the compiler never ends.
Theorems: `Verif.Comptime.Splice.array_loop_right_iff` [PCQ], `Verif.Comptime.Splice.last_argument_gets_all_later_elements` [PCQ], `Verif.Comptime.Splice.argument_behind_never_ends` [PCQ].

### C206 Local names mean the same in the C that is generated (partial)

Code: `src/cxy/lang/backend/c/generate.c:generateVariableName`, `src/cxy/lang/backend/c/generate.c:visitVariableDecl`, `src/cxy/lang/middle/bind/resolve.c:bindVarDecl`, `src/cxy/lang/middle/bind/scope.c:defineSymbol`.
Proof: Binding of names as the compiler does it and as C does it with the names printed; equal exactly for clean functions, by induction over blocks. Two families of counterexamples..
Exactly the functions that are clean keep their meaning. False otherwise: a variable that hides a parameter in the outermost block is refused by the C compiler, and `var x = x` in an inner block reads the new variable.
Theorems: `Verif.CNames.names_mean_the_same_iff` [PCQ], `Verif.CNames.parameter_hidden_refused` [PCQ], `Verif.CNames.hidden_variable_not_read` [PCQ].

### C207 A declaration of several variables gives each its component (partial)

Code: `src/cxy/lang/middle/shake/shake.c:makeTupleMemberExpr`, `src/cxy/lang/middle/shake/shake.c:shakeVariableInitializer`, `src/cxy/lang/middle/shake/shake.c:shakeVariableDecl`, `src/cxy/lang/middle/sema/member.c:checkMemberExpr`.
Proof: The declarations made from the list of names, run one after the other, against evaluation of the initialiser as a whole; equality for computed values, an exact condition for lists of variables, and the cases that go wrong..
Proved for initialisers that are neither tuple expressions nor names. A tuple expression is not evaluated as a whole: later elements see earlier variables (right exactly if none is read), elements at `_` are never computed. Missing elements are accepted, and with no name but `_` the compiler crashes.
Theorems: `Verif.MultiDecl.declares_components` [PQ], `Verif.MultiDecl.declares_from_variable_partial` [PQ], `Verif.MultiDecl.variable_taken_apart_twice` [PQ], `Verif.MultiDecl.declares_elements_partial` [PCQ], `Verif.MultiDecl.dropped_element_irrelevant` [PQ], `Verif.MultiDecl.dropped_call_not_made` [PCQ], `Verif.MultiDecl.reordering_right_iff` [PCQ], `Verif.MultiDecl.only_ignored_crashes` [PQ], `Verif.MultiDecl.missing_element_accepted` [PQ].

### C208 A struct expression fills every field (partial)

Code: `src/cxy/lang/middle/sema/struct.c:checkStructExpr`, `src/cxy/lang/middle/sema/struct.c:preCheckStructMembers`, `src/cxy/lang/middle/simplify/simplify.c:visitStructDecl`.
Proof: The marks and the loop over the members, with both ways of numbering fields; right in the own module, and in an importing module exactly when the fields stand first..
Proved in the module of the struct. In a module that imports it, true exactly if the fields stand before the functions; otherwise a value written for the last field is lost.
Theorems: `Verif.StructExpr.struct_expression_right` [PCQ], `Verif.StructExpr.imported_right_iff` [PCQ], `Verif.StructExpr.last_field_lost` [PCQ].

### C209 Default arguments (partial)

Code: `src/cxy/lang/middle/sema/call.c:checkFunctionCallEpilogue`, `src/cxy/lang/middle/sema/function.c:checkFunctionParam`, `src/cxy/lang/middle/bind/resolve.c:bindFuncParam`.
Proof: Copies of the defaults, evaluated with the names of the caller, against evaluation with the parameters of the call; exact condition..
True, wherever the call stands, exactly if the defaults needed read no parameter; otherwise the name is looked up at the caller.
Theorems: `Verif.DefaultArgs.default_arguments_partial` [PQ], `Verif.DefaultArgs.default_arguments_iff` [PQ], `Verif.DefaultArgs.default_reads_callers_variable` [PCQ].

### C210 Addresses made from text or a port (proved)

Code: `src/cxy/stdlib/net.cxy:Address`, `src/cxy/stdlib/net.cxy:parseIpv4`, `src/cxy/stdlib/net.cxy:parseIpv6`.
Proof: Decision logic over the bytes of an address, against a view (family, host, port) and its text..
The text functions of the C library are parameters; of these it is only assumed that they keep the lengths of addresses and can print them.
Theorems: `Verif.Net.literal_shows` [PCQ], `Verif.Net.wildcard_shows` [PCQ], `Verif.Net.set_address_prints` [PQ].

### C211 The local address of an interface (partial)

Code: `src/cxy/stdlib/net.cxy:getLocalAddress`.
Proof: Refinement of the loop over the interfaces to the list of the interface's own addresses; abort characterised exactly..
True unless the first two addresses of the interface are of the same family; then, and only then, the program is aborted by an assertion.
Theorems: `Verif.Net.local_address` [PCQ].

### C212 The address of another machine (partial)

Code: `src/cxy/stdlib/net.cxy:getRemoteAddress`.
Proof: Invariant of the loop over the answers (first of each family, permutation of the entries); end characterised exactly; hang proved for failing look-ups..
The result and the freeing are right whenever the look-up ends. It ends exactly if the resolver says that there are no more answers or brings both families; a look-up that keeps failing hangs.
Theorems: `Verif.Net.remote_address` [PCQ], `Verif.Net.remote_ends_iff` [PCQ], `Verif.Net.failing_lookup_hangs` [PCQ].

### C213 A connection that fails costs nothing (partial)

Code: `src/cxy/stdlib/tcp.cxy:tcpConnect`, `src/cxy/stdlib/tcp.cxy:configureSocket`.
Proof: All answers of the system calls; exact conditions for success and for the leak; induction over attempts..
The result is right; the descriptor stays open when the connection is refused at once or the wait fails, and the time limit is not used because the socket still blocks.
Theorems: `Verif.Tcp.connect_result` [PQ], `Verif.Tcp.connect_open` [PQ], `Verif.Tcp.connect_leaks_iff` [PQ], `Verif.Tcp.refused_dials_leak` [PQ], `Verif.Tcp.connect_ignores_timeout` [PQ].

### C214 A listener holds one descriptor (partial)

Code: `src/cxy/stdlib/tcp.cxy:TcpListener`, `src/cxy/stdlib/tcp.cxy:accept`, `src/cxy/stdlib/tcp.cxy:listen`.
Proof: Induction over the rounds of accept and over operations; the open descriptors up to permutation..
All of it except that listen on a listening listener forgets the old descriptor; the descriptors are accounted for exactly.
Theorems: `Verif.Tcp.listen_result` [PQ], `Verif.Tcp.accept_first` [PQ], `Verif.Tcp.accept_null_iff` [PQ], `Verif.Tcp.close_idempotent` [P], `Verif.Tcp.closed_accepts_nothing` [P], `Verif.Tcp.listener_descriptors` [PCQ], `Verif.Tcp.listener_no_loss_iff_partial` [PCQ], `Verif.Tcp.listening_twice_leaks` [PCQ].

### C215 An address that is not set prints as no address (partial)

Code: `src/cxy/stdlib/net.cxy:Address`, `src/cxy/stdlib/net.cxy:str`.
Proof: Negation for all contents of memory..
False of the code, always: the bytes are printed as an IPv6 address; 0.0.0.0:0000 never appears.
Theorems: `Verif.Net.unset_prints_bytes` [PQ].

### C216 `lshift!` prints all parts in order (proved)

Code: `src/cxy/lang/middle/eval/macro.c:lShift`, `src/cxy/lang/middle/eval/macro.c:makeLShiftNode`.
Proof: The tree built by the macro against the list of parts; induction over the parts..
Evaluating a part changes nothing else (parts that log themselves are not modelled).
Theorems: `Verif.Logger.lshift_prints_parts` [PCQ].

### C217 The log holds the messages that are severe enough (proved)

Code: `src/cxy/stdlib/log.cxy:Logger`, `src/cxy/stdlib/log.cxy:__LOG`, `src/cxy/stdlib/log.cxy:setLogLevel`, `src/cxy/stdlib/log.cxy:FixedWidth`.
Proof: Refinement of the logger to the list of lines expected; induction over events..
The time is a parameter, the stream is the list of bytes written; parts that log themselves are not modelled.
Theorems: `Verif.Logger.log_content` [PCQ].

### C218 Every module is compiled once, after what it imports (proved)

Code: `src/cxy/driver/driver.c:compileModule`, `src/cxy/driver/driver.c:compileFile`, `src/cxy/driver/driver.c:findCachedModule`, `src/cxy/lang/frontend/parser.c:parseImportDecl`.
Proof: Invariant of the cache and of the sections written (same modules, no duplicates, each after its imports) by induction over the recursion of compileModule..
For every set of files. The built-in module, written before all others, and C headers are left out.
Theorems: `Verif.Modules.once_after_imports` [PCQ].

### C219 Modules that import one another are reported (partial)

Code: `src/cxy/driver/driver.c:compileModule`, `src/cxy/driver/driver.c:addCachedModule`.
Proof: Well-foundedness: without cycles every chain of imports ends because the files are finitely many, so some nesting is enough; an answer implies the invariant of C218, which excludes cycles..
Which programs compile is as stated. But modules that import one another are not reported: the compiler recurses without end.
Theorems: `Verif.Modules.compiles_iff` [PCQ], `Verif.Modules.cycle_never_answers` [PCQ].

### C220 Module-level variables hold the values of their initialisers (partial)

Code: `src/cxy/lang/middle/simplify/simplify.c:visitVarDecl`, `src/cxy/lang/middle/simplify/simplify.c:createModuleInit`, `src/cxy/lang/backend/c/generate.c:visitVariableDecl`, `src/cxy/lang/backend/c/generate.c:visitFuncDecl`.
Proof: The two phases (C initialisers, constructors) of all modules are those of one list; the value of each variable by splitting the list at its declaration..
The value is known exactly for every program. It is the stated one if no initialiser reads, through functions, a variable set by code later on; such variables are read as zero, and nothing is reported.
Theorems: `Verif.Startup.start_exact` [PQ], `Verif.Startup.values_hold` [PQ], `Verif.Startup.reads_later_as_zero` [PQ].

### C221 Any initialiser is accepted for a module-level variable (partial)

Code: `src/cxy/lang/frontend/ast.c:isStaticExpr`, `src/cxy/lang/middle/simplify/simplify.c:visitVarDecl`.
Proof: Characterisations of the crash and of the rejection by the C compiler; mutual induction over expressions..
False of the code for variables without an initialiser (the compiler crashes) and for struct expressions with a field that is not constant (the C compiler rejects the output); true for all other expressions without members of constants.
Theorems: `Verif.Startup.crash_iff` [PQ], `Verif.Startup.rejected_iff` [PQ], `Verif.Startup.static_is_constant` [P], `Verif.Startup.struct_is_static` [P], `Verif.Startup.struct_field_rejected` [PQ], `Verif.Startup.plain_accepted` [PQ].

### C222 The imports of a file are read as written (partial)

Code: `src/cxy/lang/frontend/parser.c:parseImportDecl`, `src/cxy/lang/frontend/parser.c:skipImportTestDecl`, `src/cxy/lang/frontend/parser.c:conditionalTopLevelDecl`, `src/cxy/lang/frontend/parser.c:parseProgram`.
Proof: Round trip from imports as data to tokens and back, for every form; induction over entities, blocks and branches..
True when the test imports to be left out are of the forms "path" or name from "path", and the branches left out contain no braces; skip_iff and false_branch_iff show that exactly these are left out as a whole.
Theorems: `Verif.Imports.tops_ok_partial` [PQ], `Verif.Imports.import_ok` [PQ], `Verif.Imports.skip_iff` [PQ], `Verif.Imports.false_branch_iff` [PQ].

### C223 A statement reported as redundant does nothing (partial)

Code: `src/cxy/lang/middle/simplify/simplify.c:isRedundantExpression`, `src/cxy/lang/middle/simplify/simplify.c:isRedundantStatement`, `src/cxy/lang/middle/simplify/simplify.c:visitBlockStmt`.
Proof: Induction over expressions against a separate definition of what acts; the kept statements as a filter of the block..
Nothing is removed, so programs keep their meaning, but the report is wrong: one operand that does nothing is enough for it. It is right for chains of members and operators with one operand.
Theorems: `Verif.Redundant.nothing_removed` [P], `Verif.Redundant.chain_report_partial` [P], `Verif.Redundant.idle_reported` [P], `Verif.Redundant.one_idle_part` [PQ], `Verif.Redundant.acting_reported` [P].

### C224 The function that is called is computed once (partial)

Code: `src/cxy/lang/middle/sema/call.c:checkCallExpr`, `src/cxy/lang/middle/simplify/simplify.c:visitMemberExpr`.
Proof: Refinement of the rewritten expression to the source expression, mutual induction over expressions and arguments; induction over n for chains of calls..
True where functions are called through names. False of the code for other callees: in f()(a) the function f is called twice, and in f()()...() 2^n times.
Theorems: `Verif.FnCall.call_by_name_partial` [PQ], `Verif.FnCall.call_of_result` [P], `Verif.FnCall.chain_calls_doubled` [PQ], `Verif.FnCall.chain_size` [PQ].

### C225 Different declarations have different names in the C that is written (partial)

Code: `src/cxy/lang/backend/c/generate.c:generateCustomTypeName`, `src/cxy/lang/backend/c/generate.c:generateFunctionName`, `src/cxy/lang/backend/c/generate.c:generateVariableName`.
Proof: Injectivity of the naming over all declarations of a program; whole families of clashes..
True of programs whose module and type names contain no underscore and whose modules have different names. False otherwise: function T_f beside type T with method f, function b_c of module a beside c of module a_b, two modules of one name.
Theorems: `Verif.GNames.names_distinct_partial` [P], `Verif.GNames.member_clash` [PQ], `Verif.GNames.module_clash` [PQ], `Verif.GNames.same_module_name_clash` [P].

### C226 An import or include reads the file its path names (partial)

Code: `src/cxy/driver/driver.c:getModuleLocation`, `src/cxy/driver/driver.c:getIncludeFileLocation`.
Proof: Simulation of the buffer byte by byte against the concatenation of directory and path..
True exactly while the path fits the buffer, and unless the compiler is started in the root directory or the library directory is the empty string.
Theorems: `Verif.ModPath.relative_path_partial` [PCQ], `Verif.ModPath.library_path_partial` [PCQ], `Verif.ModPath.current_path_partial` [PCQ], `Verif.ModPath.root_unset` [PQ], `Verif.ModPath.empty_library` [P].

### C227 A file that is missing is reported (partial)

Code: `src/cxy/driver/driver.c:compileModule`, `src/cxy/driver/driver.c:getIncludeFileLocation`.
Proof: Decision logic over the forms of paths and the file system as a parameter..
True of imports, and of includes exactly if their path does not begin with ./; for the others compilation ends without the message.
Theorems: `Verif.ModPath.import_reported_partial` [P], `Verif.ModPath.include_reported_iff` [P], `Verif.ModPath.relative_include_silent` [PCQ].

### C228 An array literal or conditional keeps the values of its parts (partial)

Code: `src/cxy/lang/middle/sema/array.c:checkArrayExpr`, `src/cxy/lang/middle/sema/check.c:checkTernaryExpr`.
Proof: Equivalence of acceptance with containment of value ranges, for lists of any length..
True, in both directions, for integers unless the first part is unsigned and a later one signed; then -1 is lost.
Theorems: `Verif.ArrayLit.array_values_partial` [PCQ], `Verif.ArrayLit.array_unsigned_first` [PQ], `Verif.ArrayLit.ternary_values_partial` [PCQ].

### C229 The order of the elements of an array does not matter (partial)

Code: `src/cxy/lang/middle/sema/array.c:checkArrayExpr`.
Proof: Equivalence over all permutations..
The literals for which it is true are known exactly: all elements of one type, all floats, all characters. [1000, 1] is accepted and [1, 1000] is not.
Theorems: `Verif.ArrayLit.any_order_iff` [PCQ], `Verif.ArrayLit.literal_order` [P].

### C230 An array literal initialises an array of the declared type (partial)

Code: `src/cxy/lang/middle/sema/variables.c:checkVarDecl`, `src/cxy/lang/backend/c/generate.c:visitVariableDecl`, `src/cxy/lang/backend/c/generate.c:visitArrayExpr`.
Proof: Equivalence between what the C compiler takes and equality of types..
False of the code: nothing is refused, and the C that is written can be compiled exactly if the literal has the declared type itself.
Theorems: `Verif.ArrayLit.declared_array` [P], `Verif.ArrayLit.declared_small_numbers` [PQ].

### C231 A structure of a C header has the layout it has in C (partial)

Code: `src/cxy/driver/c-import/import.cpp:toCxy`, `src/cxy/driver/c-import/import.cpp:getIntegerTypeFromBitWidth`, `src/cxy/lang/backend/c/generate.c:generateStructType`, `src/cxy/lang/backend/c/generate.c:generateUntaggedUnionType`.
Proof: Mutual induction over types and fields: C layout (size, alignment, offsets) of the type written against that of the type read..
True of records of integers, floats, doubles, pointers, arrays and such records. False with _Bool (4 bytes), long double, _Float16, arrays of unknown length (pointers), aligned records, plain char where it is unsigned. Bit fields are not modelled.
Theorems: `Verif.CImport.layout_partial` [PCQ], `Verif.CImport.scalar_iff` [PCQ], `Verif.CImport.bools_grow` [PQ], `Verif.CImport.aligned_lost` [PQ], `Verif.CImport.flexible_grows` [PCQ].

### C232 A constant of a C header has the value it has in C (partial)

Code: `src/cxy/driver/c-import/import.cpp:MacroImporter`, `src/cxy/driver/c-import/import.cpp:importMacroConstant`, `src/cxy/driver/c-import/import.cpp:importMacroCall`.
Proof: Invariant over the lines of a header against the preprocessor of C given separately (last definition counts, names looked up at use)..
True of headers that define each name once, by a number in the signed range of its type or by a name above. Numbers with the top bit set become negative (exactly those), expressions are not imported, names defined again or taken back keep their old values.
Theorems: `Verif.CImport.constants_partial` [PQ], `Verif.CImport.number_iff` [PQ], `Verif.CImport.unsigned_negative` [PQ], `Verif.CImport.expression_missing` [P], `Verif.CImport.later_alias_missing` [P], `Verif.CImport.redefined_stale` [P], `Verif.CImport.undef_kept` [P].

### C233 A class has the functions of the interfaces it implements (partial)

Code: `src/cxy/lang/middle/sema/interface.c:checkTypeImplementsAllMembers`, `src/cxy/lang/middle/sema/interface.c:checkImplements`.
Proof: Equivalence of acceptance with membership of the function asked, for interfaces of any length; refutations for whole families..
True, in both directions, of plain functions of a class without bases if no types convert. Functions with other parameter types are taken where types convert or parameters have defaults, and functions of a base are not found.
Theorems: `Verif.Implements.implements_partial` [PCQ], `Verif.Implements.converted_accepted` [PCQ], `Verif.Implements.defaults_accepted` [PCQ], `Verif.Implements.inherited_refused` [PQ].

### C234 The marks stand under the text a message is about (partial)

Code: `src/cxy/core/log.c:printDiagnostic`, `src/cxy/core/log.c:findLineBegin`, `src/cxy/core/log.c:findLineEnd`, `src/cxy/core/log.c:printFileLine`, `src/cxy/core/log.c:printLineMarkers`.
Proof: The loops over pieces of 64 bytes against the division of the file into lines, by induction; columns on the screen given separately..
The line is always shown whole and the marks cover the bytes meant. Without tabs they stand below the text exactly if no multi-byte character is before it; after a tab they do not.
Theorems: `Verif.Excerpt.one_line_partial` [PQ], `Verif.Excerpt.two_lines_partial` [PCQ], `Verif.Excerpt.marks_below_iff` [PCQ], `Verif.Excerpt.tab_first` [PCQ], `Verif.Excerpt.tab_first_small` [PCQ].

### C235 An ordinary build leaves tests out (partial)

Code: `src/cxy/lang/frontend/parser.c:skipTestDecl`, `src/cxy/lang/frontend/parser.c:testDecl`, `src/cxy/lang/frontend/parser.c:parseProgram`.
Proof: Equivalence of what is skipped with a grammar of balanced braces; induction over the file..
What is skipped is known exactly. Tests whose braces do not match are errors.
Theorems: `Verif.Tests.skip_iff` [PQ], `Verif.Tests.tests_left_out_partial` [PQ].

### C236 Test cases are compiled as written (partial)

Code: `src/cxy/lang/frontend/parser.c:testDecl`, `src/cxy/lang/frontend/parser.c:testContextDeclaration`, `src/cxy/lang/frontend/parser.c:declaration`, `src/cxy/lang/middle/shake/shake.c:shakeTestDecl`, `src/cxy/lang/middle/shake/shake.c:buildTestsVariable`.
Proof: Mutual induction over declarations; pairwise difference of the names of cases..
Cases have functions and names of their own and nothing is left out. False of attributes: the first declaration of a group loses its own; a group that begins with an empty group ends the compiler.
Theorems: `Verif.Tests.cases_partial` [PQ], `Verif.Tests.function_after_line` [PQ], `Verif.Tests.read_file_partial` [PQ], `Verif.Tests.attributes_lost` [P], `Verif.Tests.empty_group` [-].

### C237 A failing test makes the test run fail (partial)

Code: `src/cxy/runtime/builtins.cxy:runTests`, `src/cxy/runtime/builtins.cxy:runTest`, `src/cxy/lang/backend/c/generate.c:generateTestMainFunction`, `src/cxy/lang/backend/c/generate.c:compilerBackendExecuteTestCase`.
Proof: Invariant of the loop over test cases with an 8-bit counter; equivalence for the exit status..
The run succeeds exactly if the number of failures is a multiple of 256; the number printed is wrong from 128 failures on.
Theorems: `Verif.Tests.succeeds_iff` [PCQ], `Verif.Tests.failures_missed` [PCQ], `Verif.Tests.test_run_partial` [PCQ], `Verif.Tests.number_wrong` [PCQ].

### C238 A question about a type is answered for the type, however it is named (partial)

Code: `src/cxy/lang/middle/eval/comptime.c:isSigned`, `src/cxy/lang/middle/eval/comptime.c:isNumeric`, `src/cxy/lang/middle/eval/comptime.c:isClosure`, `src/cxy/lang/middle/eval/comptime.c:isEnum`, `src/cxy/lang/middle/eval/comptime.c:isPointer`, `src/cxy/lang/frontend/ttable.c:resolveType`, `src/cxy/lang/frontend/types.c:isNumericType`.
Proof: Induction over the layers of a type; equivalence with a table of the documentation..
The answers are known exactly. Three questions say yes for types they are not documented for, and layers of const, aliases and this hide some types.
Theorems: `Verif.TypeQ.answer_eq` [P], `Verif.TypeQ.documented_partial` [P], `Verif.TypeQ.documented_plain_partial` [P], `Verif.TypeQ.yes_is_right_partial` [P], `Verif.TypeQ.others_taken` [P], `Verif.TypeQ.layers_hide` [P].

### C239 Code dropped as unreachable never runs (proved)

Code: `src/cxy/lang/middle/sema/check.c:checkBlockStmt`, `src/cxy/lang/middle/sema/check.c:hasUnreachable`, `src/cxy/lang/middle/sema/check.c:reportUnreachable`, `src/cxy/lang/middle/sema/if.c:checkIfStmt`, `src/cxy/lang/middle/sema/switch.c:checkSwitchStmt`, `src/cxy/lang/middle/sema/match.c:checkMatchStmt`.
Proof: Checker as a function on statements that gives what is left and `returnState`; a relational semantics of prefixes of executions, separate from it; equality of the runs of what is left and what was written by mutual induction..
For the statements modelled; handlers of catch are with the exceptions (C149 to C153). A switch or match whose cases all return is not recognised, which only leaves code in.
Theorems: `Verif.Unreach.dropped_never_runs` [PQ], `Verif.Unreach.dropped_never_runs_void` [PQ], `Verif.Unreach.switch_never_known` [P].

### C240 A function with a result gives one (partial)

Code: `src/cxy/lang/middle/sema/function.c:checkFunctionBody`, `src/cxy/lang/middle/sema/check.c:checkReturnStmt`, `src/cxy/lang/middle/sema/check.c:checkBlockStmt`.
Proof: Same model: acceptance looks at the types of returns only; every body that can fall off its end is accepted (negation for all such bodies), and bodies that leave on all ways give a result..
False of the code: a body that can come to its end is accepted for a function with a result. True of bodies that leave by returns and if on all ways, and of functions that return !void.
Theorems: `Verif.Unreach.gives_result_partial` [PQ], `Verif.Unreach.void_result_returns` [PQ], `Verif.Unreach.falls_off_accepted` [PQ], `Verif.Unreach.dropped_return_unchecked` [P].

### C241 Releasing a reference destroys what nothing refers to any more (partial)

Code: `src/cxy/runtime/builtins.cxy:__smart_ptr_drop`, `src/cxy/lang/middle/sema/builtins.c:implementDestructorFunction`, `src/cxy/lang/middle/sema/builtins.c:implementZeroMemory`.
Proof: Heap of objects with counts, allocation and fields; `__smart_ptr_drop` with the generated destructors as a recursion with fuel. Invariant with a set of objects that are being destroyed; termination by the number of the others; reachability from the variables as specification..
Exactly so if no object holds itself over others; objects that hold each other are never destroyed. Fields of class type only, no deinit.
Theorems: `Verif.ObjGraph.release_right` [PQ], `Verif.ObjGraph.reachable_live` [-], `Verif.ObjGraph.released_iff` [PQ], `Verif.ObjGraph.ring_stays` [PQ].

### C242 Assigning to a member stores the value as it was before (partial)

Code: `src/cxy/lang/middle/mem/manage.c:visitAssignExpr`, `src/cxy/runtime/builtins.cxy:__smart_ptr_get`, `src/cxy/runtime/builtins.cxy:__smart_ptr_drop`.
Proof: Assignment as the memory manager emits it (drop, copy, store) on the same heap; frame lemma: a release does not look at objects it does not destroy; safe if both paths avoid the field, exact characterisation of `x.f = x.f.qs`..
False of the code: the old object is released before the new value is read, so `x.f = x.f.g` uses memory that was given back if the field held the only reference. True if neither side goes over the field that is assigned.
Theorems: `Verif.ObjGraph.assign_right_partial` [PQ], `Verif.ObjGraph.assign_new_partial` [PQ], `Verif.ObjGraph.assign_through_old_iff` [PCQ].

### C243 What a value holds is released with it (partial)

Code: `src/cxy/lang/frontend/types.c:isDestructible`, `src/cxy/lang/middle/sema/tuple.c:checkTupleExpr`, `src/cxy/lang/middle/sema/tuple.c:checkTupleType`, `src/cxy/lang/middle/sema/builtins.c:implementDestructorFunction`, `src/cxy/runtime/builtins.cxy:__tuple_dctor`, `src/cxy/runtime/builtins.cxy:__union_dctor`, `src/cxy/lang/backend/c/generate.c:visitBackendBfiDrop`.
Proof: Types and values as trees; which types are destroyed at all, by the flags each kind of type passes on; destroying as the list of objects released. The objects a value holds are the separate specification; equality by mutual induction, and the converse with a witness for every other type..
The types for which it is true are known exactly. False of arrays that hold objects and of tuples that hold objects only in unions. Structs with a destructor of their own are looked at from outside; closures are left out.
Theorems: `Verif.CopyDrop.destroy_releases_partial` [P], `Verif.CopyDrop.destroy_releases_iff` [P], `Verif.CopyDrop.array_never_released` [P], `Verif.CopyDrop.tuple_of_unions_forgotten` [P].

### C244 A copy holds references of its own (partial)

Code: `src/cxy/lang/middle/sema/builtins.c:implementStructCopyFunction`, `src/cxy/runtime/builtins.cxy:__tuple_copy`, `src/cxy/runtime/builtins.cxy:__union_copy`, `src/cxy/runtime/builtins.cxy:Optional`, `src/cxy/lang/backend/c/generate.c:visitBackendBfiCopy`.
Proof: Same model, copying as the list of objects that get one more reference; equal to what the value holds and to what destroying it releases..
True of the same types and of values without optionals that were moved from; a copy of such an optional counts the object that was given away and never releases it.
Theorems: `Verif.CopyDrop.copy_takes_partial` [P], `Verif.CopyDrop.copy_of_moved` [P].

### C245 Constructors inserted for an argument (partial)

Code: `src/cxy/lang/middle/sema/struct.c:isExplicitConstructableFrom`, `src/cxy/lang/middle/sema/struct.c:evalExplicitConstruction`, `src/cxy/lang/middle/sema/function.c:matchOverloadedFunctionPerfectMatch`, `src/cxy/lang/middle/sema/call.c:checkCallExpr`.
Proof: Types with lists of constructors; the two C functions and the overload search with one argument, on a depth of calls. What an argument may become is a separate inductive specification; induction on the depth, monotone in it..
What is accepted is built by constructors that exist, and chains of single constructors are found at any length; but nothing is ever constructed from an object or a struct, although the constructor exists. Variadic constructors are left out.
Theorems: `Verif.Implicit.accepted_fits_partial` [PQ], `Verif.Implicit.chain_accepted` [PQ], `Verif.Implicit.object_not_converted` [P].

### C246 Whether an argument can be passed is always answered (partial)

Code: `src/cxy/lang/middle/sema/struct.c:isExplicitConstructableFrom`, `src/cxy/lang/middle/sema/function.c:matchOverloadedFunctionPerfectMatch`.
Proof: Same model; running out of every depth is not ending. Invariant over a set of types closed under constructors for the negative part, a rank for the positive one..
False of the code: constructors that take each other, or a constructor that takes the type itself, make the check recurse for ever. True if types can be ordered so that constructors take only what comes before.
Theorems: `Verif.Implicit.ordered_ends_partial` [PQ], `Verif.Implicit.circle_never_ends` [PQ], `Verif.Implicit.copy_constructor_never_ends` [PQ], `Verif.Implicit.copied_source_never_ends` [PQ].

### C247 The end of an object of a derived class (partial)

Code: `src/cxy/lang/middle/sema/builtins.c:implementDestructorFunction`, `src/cxy/lang/middle/sema/builtins.c:implementCallClassDestructor`, `src/cxy/lang/middle/sema/builtins.c:implementCallClassDeinit`, `src/cxy/lang/middle/sema/class.c:preCheckClassMembers`, `src/cxy/runtime/builtins.cxy:__smart_ptr_drop`.
Proof: A class and its bases as a list; destructors as lists of events, run on the contents of fields. What is due is a separate specification; equal up to order, with the exact condition when destructors are written by hand..
True if no class of the chain has a `destructor` with a body; with one, exactly if nothing is due in that class and its bases. Fields are taken to be where the base looks for them (see C132).
Theorems: `Verif.ClassEnd.destroy_complete_partial` [PCQ], `Verif.ClassEnd.destroy_complete_iff` [PCQ], `Verif.ClassEnd.released_partial` [PCQ].

### C248 deinit sees the object as it was (partial)

Code: `src/cxy/lang/middle/sema/builtins.c:implementDestructorFunction`, `src/cxy/lang/middle/sema/builtins.c:implementCallClassDestructor`, `src/cxy/lang/middle/sema/builtins.c:implementZeroMemory`.
Proof: Same model; the contents of fields at each deinit by splitting the run there..
True of the fields of the class itself. False of inherited ones: the destructor of the base runs first and clears them, so a deinit finds null in each managed field of a base. What deinit does to fields is left out.
Theorems: `Verif.ClassEnd.deinit_sees_own_partial` [PCQ], `Verif.ClassEnd.deinit_sees_all_iff` [PCQ].

### C249 Removing a path removes that and nothing else (partial)

Code: `src/cxy/stdlib/path.cxy:remove`, `src/cxy/stdlib/path.cxy:isdir`, `src/cxy/stdlib/path.cxy:exists`, `src/cxy/stdlib/path.cxy:isDirEmpty`, `src/cxy/stdlib/path.cxy:ls`.
Proof: File system as a table of objects, remove on a depth of recursion. Trees are a separate inductive specification with the set of their objects; induction with a frame. Links to directories by the same induction..
True of trees whose links lead to files only. False with links to directories: what is in the directory they lead to is removed, wherever it is, the link stays and so does the tree. A link that leads nowhere cannot be removed. Errors of the operating system and links in circles are left out.
Theorems: `Verif.FsOps.remove_tree_partial` [PCQ], `Verif.FsOps.plain_removes_one` [P], `Verif.FsOps.plain_refuses` [P], `Verif.FsOps.link_followed` [PCQ], `Verif.FsOps.dangling_stays` [P].

### C250 Listing a directory (partial)

Code: `src/cxy/stdlib/path.cxy:ls`.
Proof: Directory trees, the calls so far handed on; which paths are below is a separate inductive specification..
True of listings that are not recursive, and of recursive ones that are not stopped; a callback that returns false inside a directory is called again with the directory and what follows.
Theorems: `Verif.FsOps.Listing.lists_all_partial` [PCQ], `Verif.FsOps.Listing.flat_stops` [PQ], `Verif.FsOps.Listing.stop_not_heard` [P].

### C251 Making directories with parents (partial)

Code: `src/cxy/stdlib/path.cxy:mkdirs`, `src/cxy/stdlib/path.cxy:mkdir`, `src/cxy/stdlib/path.cxy:dirname`, `src/cxy/stdlib/path.cxy:exists`.
Proof: Paths as bytes with the proved dirname, directories as a set of name lists; induction on the names of the path..
True of paths of names with single separators; with a separator at the end the directories are made and an exception is raised. Files in the way are left out.
Theorems: `Verif.FsOps.Mkdirs.mkdirs_right_partial` [PCQ], `Verif.FsOps.Mkdirs.trailing_separator_fails` [PCQ].

### C252 Files, directories and links are told apart (partial)

Code: `src/cxy/stdlib/path.cxy:isfile`, `src/cxy/stdlib/path.cxy:isdir`, `src/cxy/stdlib/path.cxy:islink`.
Proof: Same file system; stat follows links, lstat does not..
True of isfile and isdir; islink is always false because it follows the link.
Theorems: `Verif.FsOps.is_right` [PQ], `Verif.FsOps.islink_never` [P].

### C253 New objects have the default values of their fields (partial)

Code: `src/cxy/lang/middle/sema/node.c:implementDefaultInitializer`, `src/cxy/lang/middle/sema/node.c:implementCallBaseInitDefaults`, `src/cxy/lang/middle/sema/node.c:createCallDefaultInitializer`, `src/cxy/lang/middle/sema/node.c:createInitializerCoverBody`, `src/cxy/lang/middle/sema/class.c:inheritClassMembers`.
Proof: `Lang/FieldInit`: a chain of classes, which of them get `__defaults_init`, what it assigns after the object was zeroed. The assignments are a permutation of the defaults of the classes before the first without `__defaults_init`; from that, an iff and the family for which it fails..
Known exactly: true if and only if each class below a class with a default value other than zero has a default value of its own or virtual functions. False of a class that adds no default value: all those of its bases are lost.
Theorems: `Verif.FieldInit.defaults_iff` [PCQ], `Verif.FieldInit.defaults_right_partial` [PCQ], `Verif.FieldInit.plain_class_loses` [P], `Verif.FieldInit.others_zero` [PQ].

### C254 Sending over an encrypted socket (partial)

Code: `src/cxy/stdlib/ssl.cxy:sendBuffer`.
Proof: `Std/Ssl`: the loop over a list of events, one for each `BIO_write`. Invariant by induction over the events (what is on the connection is a prefix of the buffer); success by induction with the number of writes; an invariant on the rest shows that 2^31 bytes are never sent..
The order and completeness hold for all sizes. That it succeeds holds for sizes below 2^31; larger buffers are never sent, and an error in between (also when OpenSSL has to read first) returns null after part was sent. What OpenSSL does with lengths that are not positive is trusted.
Theorems: `Verif.Ssl.send_right` [PCQ], `Verif.Ssl.send_succeeds_partial` [PCQ], `Verif.Ssl.large_never_sent` [PQ], `Verif.Ssl.send_gives_up` [PQ].

### C255 Receiving from an encrypted socket (partial)

Code: `src/cxy/stdlib/ssl.cxy:receive`.
Proof: `Std/Ssl`: the loop over a list of events, one for each `BIO_read`. Invariant by induction: buffer and what is still to come are together what arrives..
What is returned is right for all sizes. False of bytes read before an error: they are lost. Zero means the end for sizes below 2^31; for sizes that are no positive i32 it is returned although bytes are there. What OpenSSL does with lengths that are not positive is trusted.
Theorems: `Verif.Ssl.recv_right` [PQ], `Verif.Ssl.timeout_keeps_partial` [PQ], `Verif.Ssl.error_loses` [PQ], `Verif.Ssl.zero_means_end_partial` [PCQ], `Verif.Ssl.large_reads_nothing` [PQ].

### C256 Sending a part of a file over an encrypted socket (partial)

Code: `src/cxy/stdlib/ssl.cxy:sendFile`.
Proof: `Std/Ssl`: the mapped part of a file, sent with the loop of C254; the theorem is stated on the bytes of the file..
True of offsets at a page and parts inside the file; from any other offset nothing is sent. Parts beyond the end of the file are left out.
Theorems: `Verif.Ssl.file_right_partial` [PCQ], `Verif.Ssl.file_unaligned` [-].

### C257 Arguments with ... are evaluated once and in order (partial)

Code: `src/cxy/lang/middle/sema/check.c:checkSpreadExpr`, `src/cxy/lang/middle/sema/check.c:makeSpreadVariable`, `src/cxy/lang/middle/sema/call.c:checkFunctionCallEpilogue`.
Proof: `Lang/Spread`: what becomes of the arguments, with new variables before the statement; running both as traces. Specification: left to right. An iff by induction over the arguments (lengths for what is dropped, the head of the trace for what moves)..
Known exactly. False of a spread expression behind other arguments: it is evaluated before them; false of one that gives nothing or an empty tuple: it is never evaluated. Moves and parameters for any number of arguments are left out.
Theorems: `Verif.Spread.order_iff` [PCQ], `Verif.Spread.empty_dropped` [PQ], `Verif.Spread.moved_first` [P], `Verif.Spread.spread_first_partial` [PQ].

### C258 Arguments with ... pass the members of the tuple (partial)

Code: `src/cxy/lang/middle/sema/check.c:checkSpreadExpr`, `src/cxy/lang/middle/sema/check.c:makeSpreadVariable`, `src/cxy/lang/middle/sema/call.c:checkFunctionCallEpilogue`.
Proof: `Lang/Spread`: the values the function is called with, against a specification that evaluates from left to right; induction over the arguments with the new variables so far..
True of all lists of arguments whose values do not depend on the order of evaluation, and of those that begin with the spread expressions whatever they do. Moves and parameters for any number of arguments are left out.
Theorems: `Verif.Spread.values_right_partial` [PQ], `Verif.Spread.spread_first_partial` [PQ].

### C259 The members of a module are what it declares (proved)

Code: `src/cxy/lang/frontend/module.c:buildModuleType`, `src/cxy/lang/frontend/module.c:addModuleTypeMember`, `src/cxy/lang/frontend/module.c:addDefineToModuleMembers`, `src/cxy/lang/frontend/ast.c:countProgramDecls`.
Proof: `Lang/ModMembers`: counting the declarations, then writing the members to an array of that length, with no result for a write behind its end. Equal to a specification that only lists names; an iff for when the array is long enough..
For files as the parser builds them, with imports only at the beginning; what happens otherwise is known exactly. Flags and types of members are left out.
Theorems: `Verif.ModMembers.members_right` [PCQ], `Verif.ModMembers.fits_iff` [PCQ].

### C260 A transform of a tuple type keeps the right members (proved)

Code: `src/cxy/lang/middle/eval/xform.c:evalXformType`.
Proof: `Lang/CompIndex`: the loop over the members with its array, where a write behind the end is a result of its own. Equivalent to a relation that keeps, drops and transforms members with their indexes; an iff for errors..
For any evaluation of conditions and transforms; how they are evaluated is a parameter.
Theorems: `Verif.CompIndex.xform_right` [PQ], `Verif.CompIndex.xform_error_iff` [PQ].

### C261 An index at compile time gives the element (partial)

Code: `src/cxy/lang/middle/eval/index.c:evalIntegerIndexExpr`, `src/cxy/lang/middle/eval/index.c:evalAstNodeAtIndex`, `src/cxy/lang/frontend/parser.c:array`, `src/cxy/lang/middle/eval/eval.c:evalArrayExpr`, `src/cxy/lang/middle/eval/comptime.c:comptimeWrapped`.
Proof: `Lang/CompIndex`: the length as the code reads it from the node, then the list of elements. Equal to the element at the index for tuples and attributes; an iff for arrays and for strings; proved false for array literals and members..
Right for tuples and attributes. False for arrays that are written in the program and for the members of declarations, where every index is an error, and for bytes of strings that are not ASCII.
Theorems: `Verif.CompIndex.tuple_right` [PQ], `Verif.CompIndex.attr_right_partial` [PQ], `Verif.CompIndex.array_iff` [PQ], `Verif.CompIndex.array_never` [P], `Verif.CompIndex.iter_never` [P], `Verif.CompIndex.string_iff` [PCQ], `Verif.CompIndex.string_outside` [PQ].

### C262 An index at compile time is one argument (partial)

Code: `src/cxy/lang/middle/eval/index.c:evalAstNodeAtIndex`, `src/cxy/lang/middle/sema/call.c:checkFunctionCallEpilogue`, `src/cxy/lang/frontend/ast.c:insertAstNode`.
Proof: `Lang/CompIndex`: copying a node with its link, then inserting whole lists as arguments. The exact list of arguments, and an iff for when it is right..
False: the elements behind the index are passed as well. Right exactly for the last element. Shown for tuples; errors in other arguments are left out.
Theorems: `Verif.CompIndex.call_iff` [PQ], `Verif.CompIndex.call_passes` [PQ], `Verif.CompIndex.call_right_partial` [PQ].

### C263 Options of a build are set once (partial)

Code: `src/cxy/stdlib/build.cxy:Context.setOption`, `src/cxy/stdlib/build.cxy:Context.option`, `src/cxy/stdlib/hash.cxy:insert`.
Proof: `Std/Build`: histories of calls on the map of options. The value is the last one and a call raises iff the name was set, by induction over histories; an iff for when a call leaves the options alone; proved false for values that are set twice..
What is raised is right. False for the value: a call that raises has replaced it. Maps are lists of pairs, as justified for histories of insertions by C33.
Theorems: `Verif.Build.set_raises_iff` [PCQ], `Verif.Build.option_last` [PCQ], `Verif.Build.set_replaces` [PCQ], `Verif.Build.set_keeps_iff` [PCQ], `Verif.Build.set_new_partial` [PCQ].

### C264 A build runs every task once (partial)

Code: `src/cxy/stdlib/build.cxy:Builder.addTask`, `src/cxy/stdlib/build.cxy:Builder.run`.
Proof: `Std/Build`: histories of `addTask`, then the loop over any permutation of the map. The tasks called are the first of each name, one for each, by induction; a task that raises ends the list..
For maps whose visits are complete; the iteration of large hash maps is not, which is C53.
Theorems: `Verif.Build.task_first` [PCQ], `Verif.Build.add_raises_iff` [PCQ], `Verif.Build.run_right_partial` [PCQ], `Verif.Build.run_stops` [P].

### C265 Options of a program get the values that were set (partial)

Code: `src/cxy/stdlib/build.cxy:Context.bindOptions`, `src/cxy/stdlib/build.cxy:Context.bindOption`, `src/cxy/stdlib/build.cxy:Option.set`.
Proof: `Std/Build`: the loops over options and fields. Values are unchanged by induction; an iff for when that is right..
False: the values never arrive, since the function that should store them is empty.
Theorems: `Verif.Build.bind_iff` [PCQ], `Verif.Build.bind_never` [PCQ].

### C266 Types are compared at compile time as they should be (partial)

Code: `src/cxy/lang/middle/eval/eval.c:comptimeCompareTypes`, `src/cxy/lang/middle/eval/eval.c:comptimeCompareManyTypes`, `src/cxy/lang/middle/eval/binary.c:CXY_DEFINE_BINARY_EQ_COMP_OPERATOR`.
Proof: `Lang/CompTypes`: the recursive comparison on trees, with a null pointer that is followed as a result of its own. Equal to equality of trees by induction for types without classes, functions and auto; proved false for classes and all types around them, by induction over these..
False for classes, which are not equal to themselves, nor is anything around them; for structures with the same name in two modules; for auto; and for functions within other types. Right for all other types of any depth. How operands are evaluated before is left out.
Theorems: `Verif.CompTypes.eq_right_partial` [PCQ], `Verif.CompTypes.ne_opposite` [P], `Verif.CompTypes.class_never` [PQ], `Verif.CompTypes.around_class_never` [PCQ], `Verif.CompTypes.struct_iff` [PQ], `Verif.CompTypes.auto_not_symmetric` [PQ], `Verif.CompTypes.func_crashes` [PQ].

### C267 The body of a response to a fetch arrives (partial)

Code: `src/cxy/stdlib/fetch.cxy:receive`, `src/cxy/stdlib/fetch.cxy:feed`, `src/cxy/stdlib/fetch.cxy:onBodyPart`, `src/cxy/stdlib/fetch.cxy:responseParserOnMessageComplete`.
Proof: `Std/Fetch`: the loop that receives and feeds the parser, over any list of pieces and then the end of the connection. Equal to the bytes of the body by induction over the pieces, an iff for raising, and proved false for bodies without a length..
Right for bodies of known length. False for bodies that end with the connection: the fetch always raises. What is assumed about the parser is stated in the model; chunked bodies are left out.
Theorems: `Verif.Fetch.length_right_partial` [PCQ], `Verif.Fetch.length_raises_iff` [PCQ], `Verif.Fetch.close_never` [P].

### C268 The writer of a fetch gets the body (partial)

Code: `src/cxy/stdlib/fetch.cxy:onBodyPart`, `src/cxy/stdlib/fetch.cxy:onHeadersComplete`, `src/cxy/stdlib/fetch.cxy:receive`.
Proof: `Std/Fetch`: the same loop with a writer whose answers may depend on all it was given. Proved false for one answer and right for the other, by induction over the pieces..
False for writers that return true, which the same class takes for going on elsewhere: they get at most one part and the fetch raises. Right for writers that return false.
Theorems: `Verif.Fetch.writer_false_partial` [PCQ], `Verif.Fetch.writer_true` [PQ].

### C269 A branch is taken exactly if its condition is true (partial)

Code: `src/cxy/lang/middle/simplify/simplify.c:simplifyCondition`, `src/cxy/lang/middle/sema/if.c:checkIfStmt`, `src/cxy/lang/middle/sema/check.c:checkWhileStmt`, `src/cxy/lang/middle/sema/node.c:transformToTruthyOperator`, `src/cxy/lang/frontend/types.c:isTruthyType`.
Proof: `Lang/Conds`: what the checker accepts and what the condition is compared with, for all types; correctness against a table of which values are true, an iff for crashing, and an iff for objects by induction over references, constants and bases..
Right for all values of all types that are accepted, but enumerations: on these the compiler stops working. Behind a reference to a constant the operator of a base is not found.
Theorems: `Verif.Conds.cond_right_partial` [PQ], `Verif.Conds.crash_iff` [PQ], `Verif.Conds.class_iff_partial` [PQ], `Verif.Conds.const_base_never` [P].

### C270 Conditions of `?:` work as those of `if` (partial)

Code: `src/cxy/lang/middle/sema/check.c:checkTernaryExpr`, `src/cxy/lang/backend/llvm/generate.cpp:visitTernaryExpr`, `src/cxy/lang/frontend/types.c:isTruthyType`.
Proof: `Lang/Conds`: an iff for all types that are accepted..
False but for booleans: numbers, pointers and objects are accepted and the branch is then on a value that is no boolean.
Theorems: `Verif.Conds.ternary_iff` [P], `Verif.Conds.ternary_pointer_never` [P].

### C271 `!x` is the opposite of `x` (partial)

Code: `src/cxy/lang/middle/sema/unary.c:checkPrefixExpr`, `src/cxy/lang/backend/llvm/generate.cpp:visitPrefixUnaryExpr`, `src/cxy/lang/middle/sema/node.c:transformToTruthyOperator`.
Proof: `Lang/Conds`: the negation of all values, an iff for both branches being taken..
Right for booleans. False for objects whose `!!` returns an integer: both branches are taken unless it is 0 or -1.
Theorems: `Verif.Conds.not_right_partial` [P], `Verif.Conds.not_both_iff` [PCQ], `Verif.Conds.not_accepts` [P], `Verif.Conds.not_float_never` [P].

### C272 Exceptions of the compiler reach the closest handler (partial)

Code: `src/cxy/core/e4c.c:e4c_try`, `src/cxy/core/e4c.c:e4c_hook`, `src/cxy/core/e4c.c:e4c_propagate`, `src/cxy/core/e4c.h:E4C_TRY_BLOCK`.
Proof: `Core/Try`: the stages and frames of the exceptions of the compiler as a machine; refinement of the usual meaning of exceptions, by induction over programs, with what each step leaves unchanged as the invariant..
Right for all programs that nest at most 16 deep and leave no statement early; what happens otherwise is under the next two.
Theorems: `Verif.Try.try_right_partial` [PQ].

### C273 Blocks can be nested (partial)

Code: `src/cxy/lang/frontend/parser.c:block`, `src/cxy/lang/frontend/parser.c:parseProgram`, `src/cxy/core/e4c.c:e4c_try`.
Proof: `Core/Try`: the parser's blocks as programs of that machine; an iff over the depth..
False: with more than 15 blocks in one another the compiler exits.
Theorems: `Verif.Try.nested_iff` [PCQ], `Verif.Try.nested_exits` [PQ].

### C274 All functions with errors are reported (partial)

Code: `src/cxy/lang/frontend/parser.c:block`, `src/cxy/lang/frontend/parser.c:parseProgram`, `src/cxy/core/e4c.c:e4c_hook`.
Proof: `Core/Try`: the parser's handler with its `break`; an iff over the number of errors by induction, and one together with the depth..
False: each error in a block costs a frame, since the handler leaves the loop that would give it back; from the sixteenth error on nothing is reported, and functions behind errors may have fewer blocks.
Theorems: `Verif.Try.errors_reported_partial` [PCQ], `Verif.Try.badAt_step` [PCQ], `Verif.Try.errors_iff` [PCQ], `Verif.Try.errors_lost` [PCQ], `Verif.Try.after_errors_iff` [PCQ].

### C275 After an error in a block parsing goes on at its end (partial)

Code: `src/cxy/lang/frontend/parser.c:block`, `src/cxy/lang/frontend/parser.c:synchronizeUntil`, `src/cxy/lang/frontend/parser.c:parserError`.
Proof: `Lang/Recover`: the tokens left after an error in a block; an iff over balanced code for going on at the end of the block, by induction, and what is skipped or left otherwise..
False unless there are no braces in what is left of the block: parsing goes on at the first closing brace, wherever that is. If the error is at the closing brace of the block, code behind the block is skipped.
Theorems: `Verif.Recover.block_iff` [PQ], `Verif.Recover.block_first` [P], `Verif.Recover.block_within_never` [PQ], `Verif.Recover.block_end_never` [PQ], `Verif.Recover.block_end_skips` [P].

### C276 After an error in a declaration parsing goes on at the next (partial)

Code: `src/cxy/lang/frontend/parser.c:parseProgram`, `src/cxy/lang/frontend/parser.c:synchronize`, `src/cxy/lang/frontend/parser.c:parserError`, `src/cxy/lang/frontend/parser.c:declaration`.
Proof: `Lang/Recover`: the tokens left after an error in a declaration; an iff for going on at the next one, by induction over the tokens between..
False: the token of the error is passed twice, so that a declaration right behind it is skipped; those that begin with `extern`, `test`, `exception` or `#` are not looked for.
Theorems: `Verif.Recover.program_iff` [PQ], `Verif.Recover.program_semi_partial` [P], `Verif.Recover.program_extern_lost` [P], `Verif.Recover.program_less` [PQ].

### C277 Attributes keep their arguments (partial)

Code: `src/cxy/lang/frontend/parser.c:attribute`.
Proof: `Lang/Attr`: the parser of attributes; a round trip with the text of any list of arguments as an iff, by induction over the list..
Right exactly if no argument has a sign and either none or all have names. Arguments with a sign are meant to be accepted and never are; missing commas are not noticed. Types behind numbers are not modelled.
Theorems: `Verif.Attr.attr_iff` [PQ], `Verif.Attr.signed_never` [P], `Verif.Attr.attr_bare` [P], `Verif.Attr.commas_optional` [PQ].

### C278 A thread is joined once (partial)

Code: `src/cxy/stdlib/thread.cxy:Thread`, `src/cxy/stdlib/thread.cxy:join`, `src/cxy/stdlib/thread.cxy:__launch`.
Proof: `Std/Thread`: objects, copies and joins; two invariants by induction over programs, and a program that waits twice behind any other..
`join` always has waited. Once only without copies: a copy of an object is joinable as the object was, and joining both waits twice.
Theorems: `Verif.Threads.join_waits` [PQ], `Verif.Threads.join_made` [PQ], `Verif.Threads.join_once_partial` [PQ], `Verif.Threads.copy_twice` [PQ].

## Seeded edits

`seeded/LOG.jsonl` has one line per deliberately wrong edit of a model, made in a scratch copy and rebuilt.
`result` is `caught` when the build fails and `survived` when it does not; `failed` names the declarations in which
the build stopped and `property_theorems_failed` the property theorems that depend on them. A failing proof does
not by itself show that the statement has become false, so edits that do not change the observable behaviour are
marked "equivalent" in `claim_broken`; `tightened` says which statements were strengthened because an edit got through
or broke a proof only. Two kinds of survivors remain: equivalent edits, and edits outside of what is claimed.

At present 1164 edits are logged: 1139 caught, 19 survived, 6 survived (only an example failed).
