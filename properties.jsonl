{"id": "C01", "title": "Hash table lookups agree with a set of inserted keys", "statement": "For every history of insert, find and clear on the compiler's open-addressing hash table, insert reports true exactly when no equal element is stored, a rejected insert leaves the contents alone, and find returns the stored equal element exactly when one was inserted since the last clear.", "quantifier": "every hash function (including all-colliding ones), every equality compatible with it, every finite sequence of insert/find/clear, every number of rehashes", "why_tests_cant": "collision patterns, probe wrap-around and rehash points are unbounded in number; a test samples a handful of layouts", "anchors": ["src/cxy/core/htable.c:insertInHashTable", "src/cxy/core/htable.c:findInHashTable", "src/cxy/core/htable.c:clearHashTable", "src/cxy/core/htable.c:rehash"]}
{"id": "C02", "title": "Hash table always keeps a free bucket", "statement": "After every operation the table has strictly fewer elements than buckets, so every probe loop stops; no find or insert can spin forever.", "quantifier": "every operation sequence and every hash function", "why_tests_cant": "non-termination needs a completely full table, which depends on the growth policy at every size", "anchors": ["src/cxy/core/htable.c:needsRehash", "src/cxy/core/htable.c:insertInHashTable", "src/cxy/core/htable.c:findInHashTable", "src/cxy/core/primes.h:nextPrime"]}
{"id": "C03", "title": "Hash table removal keeps every other element findable", "statement": "Removing one element from the hash table removes exactly that element: every other element that could be found before can still be found afterwards.", "quantifier": "every table reachable by insert/remove, every hash function, every removed element", "why_tests_cant": "only particular displaced layouts (wrap-around of a probe chain past the last bucket) expose a wrong back-shift", "anchors": ["src/cxy/core/htable.c:removeFromHashTable", "src/cxy/lang/frontend/ttable.c:removeFromTypeTable", "src/cxy/lang/frontend/ast.c:removeFromHashTable"]}
{"id": "C04", "title": "Hash table enumeration visits each element once", "statement": "Enumerating the table (callback form and iterator form) yields every stored element exactly once, in the same order, and the number of elements yielded equals the reported size.", "quantifier": "every table reachable by insert/clear", "why_tests_cant": "bucket layouts are unbounded", "anchors": ["src/cxy/core/htable.c:enumerateHashTable", "src/cxy/core/htable.c:hashTableItNext", "src/cxy/core/htable.c:hashTableItHasNext"]}
{"id": "C05", "title": "Robin-hood map: get after put", "statement": "In the compiler's robin-hood map, after putting distinct keys, get returns for each key exactly the value that was put, and reports absence for every other key.", "quantifier": "every hash function, every sequence of puts of pairwise distinct keys, every capacity growth", "why_tests_cant": "displacement chains depend on all hash values at once", "anchors": ["src/cxy/core/hmap.c:hmapPut", "src/cxy/core/hmap.c:hmapGet", "src/cxy/core/hmap.c:hmapPutInternal"]}
{"id": "C06", "title": "Robin-hood map: re-putting a key replaces", "statement": "Putting a key that is already in the map replaces its value, does not change the number of entries, and a later remove makes the key absent.", "quantifier": "every map reachable by put, every key in it", "why_tests_cant": "the failure needs a key that is not the first of its probe chain", "anchors": ["src/cxy/core/hmap.c:hmapPutInternal", "src/cxy/core/hmap.c:hmapRemove"]}
{"id": "C07", "title": "Robin-hood map is usable after clear", "statement": "After clear, the map behaves as an empty map: a put followed by a get returns the value and no operation has undefined behaviour.", "quantifier": "every map state, every key put after clear", "why_tests_cant": "division by zero after clear is undefined behaviour, not an observable wrong answer", "anchors": ["src/cxy/core/hmap.c:hmapClear", "src/cxy/core/hmap.c:hmapPut", "src/cxy/core/hmap.c:hmapPutInternal"]}
{"id": "C08", "title": "String interning returns the requested string", "statement": "Interning a string returns a handle whose contents equal the requested bytes, and two interning requests return the same handle if and only if their contents are equal.", "quantifier": "every history of interning requests, every pair of strings", "why_tests_cant": "requires reasoning about all hash collisions between a string and its extensions", "anchors": ["src/cxy/core/strpool.c:makeStringSized", "src/cxy/core/strpool.c:compareStrFind", "src/cxy/core/strpool.c:compareStrInsert", "src/cxy/core/hash.c:hashRawBytes"]}
{"id": "C09", "title": "FNV-1a hashing is the reference function and composes", "statement": "The compiler's byte, 16, 32 and 64-bit hash steps and string hash all equal the reference 32-bit FNV-1a over the corresponding little-endian byte sequence, and hashing a concatenation equals hashing the parts in sequence.", "quantifier": "every seed, every integer, every byte string", "why_tests_cant": "the domain is all byte strings", "anchors": ["src/cxy/core/hash.c:hashUint8", "src/cxy/core/hash.c:hashUint16", "src/cxy/core/hash.c:hashUint32", "src/cxy/core/hash.c:hashUint64", "src/cxy/core/hash.c:hashStr", "src/cxy/core/hash.c:hashRawBytes"]}
{"id": "C10", "title": "Pool allocations are aligned and disjoint", "statement": "All live allocations obtained from a memory pool since the last reset lie inside a pool block, start at a multiple of the pool's alignment and never overlap one another.", "quantifier": "every sequence of allocation sizes", "why_tests_cant": "overlap depends on the exact block boundary every size sequence produces", "anchors": ["src/cxy/core/mempool.c:allocFromMemPool", "src/cxy/core/mempool.c:alignTo"]}
{"id": "C11", "title": "Pool reset and caches do not alias", "statement": "After resetting the pool, an allocation from a free-list cache never returns memory that also backs another live allocation.", "quantifier": "every sequence of alloc, free-to-cache, reset and alloc-from-cache", "why_tests_cant": "needs a specific interleaving of free-list and reset", "anchors": ["src/cxy/core/mempool.c:resetMemPool", "src/cxy/core/mempool.c:allocFromCacheOrPool", "src/cxy/core/mempool.c:freeMemToPoolCache"]}
{"id": "C12", "title": "Dynamic array behaves as a sequence", "statement": "For every history of push, pop, resize and bulk copy, the dynamic array holds the sequence that the same history gives on a plain list, its size never exceeds its capacity, and all writes are in bounds.", "quantifier": "every operation sequence, every initial capacity", "why_tests_cant": "growth boundary conditions occur at every capacity", "anchors": ["src/cxy/core/array.c:pushOnDynArray", "src/cxy/core/array.c:popDynArray", "src/cxy/core/array.c:resizeDynArray", "src/cxy/core/array.c:copyDynArray", "src/cxy/core/array.c:growDynArray"]}
{"id": "C13", "title": "String builder content is the concatenation of appends", "statement": "The released string is the concatenation of all appended pieces followed by a NUL, with no out-of-bounds write at any point.", "quantifier": "every sequence of appended pieces of any lengths", "why_tests_cant": "growth boundaries depend on the sum of all earlier lengths", "anchors": ["src/cxy/core/sb.c:stringBuilderAppendCstr0", "src/cxy/core/sb.c:stringBuilderGrow", "src/cxy/core/sb.c:stringBuilderRelease"]}
{"id": "C14", "title": "UTF-8 output of a code point decodes to that code point", "statement": "Every routine that writes a code point as UTF-8 (string builder, format state, stdlib output stream) produces the standard encoding of each Unicode code point up to U+10FFFF, so decoding gives the code point back.", "quantifier": "every code point 0..0x10FFFF, all three encoders", "why_tests_cant": "0x110000 code points in three encoders; four-byte cases are rarely exercised", "anchors": ["src/cxy/core/sb.c:wcharToStr", "src/cxy/core/format.c:printUtf8", "src/cxy/runtime/builtins.cxy:OutputStream.appendChar", "src/cxy/core/utils.c:convertStrToUtf32"]}
{"id": "C15", "title": "Formatted output is the concatenation of all writes", "statement": "The text obtained from a format state is exactly the concatenation, in order, of everything written to it, for any mixture of small and large writes.", "quantifier": "every sequence of writes of any lengths", "why_tests_cant": "the state is a chain of buffers whose split points depend on all earlier writes", "anchors": ["src/cxy/core/format.c:reserveBuf", "src/cxy/core/format.c:write", "src/cxy/core/format.c:formatStateToString", "src/cxy/core/format.c:format"]}
{"id": "C16", "title": "Binary search is exact on sorted arrays", "statement": "On an array sorted by the comparator, binary search returns an index of an equal element if there is one and -1 otherwise; it never reads outside the array.", "quantifier": "every sorted array of every length and every key", "why_tests_cant": "off-by-one faults appear only at some lengths and positions", "anchors": ["src/cxy/core/utils.c:binarySearch", "src/cxy/lang/frontend/types.c:findNamedTypeMemberInContainer"]}
{"id": "C17", "title": "Escaped characters read back as themselves", "statement": "For every byte string, the text produced by printing it with escapes and then processed by the escape reader is the original string.", "quantifier": "every byte string", "why_tests_cant": "domain is all strings over all control and printable characters", "anchors": ["src/cxy/core/format.c:printEscapedChar", "src/cxy/core/utils.c:convertEscapeSeq", "src/cxy/core/utils.c:escapeString"]}
{"id": "C18", "title": "Lexing terminates and consumes the whole source", "statement": "For every source text the lexer produces a finite token sequence ending in the end-of-file token; every other token consumes at least one byte, except the marker tokens around the pieces of an interpolated string, and token ranges are in order and do not overlap.", "quantifier": "every byte string", "why_tests_cant": "termination has to hold for all malformed inputs too (for example an unterminated string literal)", "anchors": ["src/cxy/lang/frontend/lexer.c:advanceLexer", "src/cxy/lang/frontend/lexer.c:skipMultiLineComment", "src/cxy/lang/frontend/lexer.c:skipUntilSpaceOrPunctuation"]}
{"id": "C19", "title": "Nested comments are skipped exactly", "statement": "A block comment ends at the delimiter that balances its opening delimiter, whatever it contains, and an unbalanced one runs to the end of the file.", "quantifier": "every comment nesting depth and content", "why_tests_cant": "depth is unbounded", "anchors": ["src/cxy/lang/frontend/lexer.c:skipMultiLineComment"]}
{"id": "C20", "title": "Binary operator parsing follows the precedence table", "statement": "Parsing the minimal-parenthesis rendering of any binary expression tree gives the same tree back: tighter operators bind first and equal-precedence operators associate to the left.", "quantifier": "every expression tree over the operator table, every depth", "why_tests_cant": "trees are unbounded and precedence mistakes show only in particular operator combinations", "anchors": ["src/cxy/lang/frontend/parser.c:binary", "src/cxy/lang/frontend/operator.h:AST_BINARY_EXPR_LIST", "src/cxy/lang/frontend/operator.c:getBinaryOpPrecedence"]}
{"id": "C21", "title": "Implicit integer assignment preserves the value", "statement": "Whenever the type checker accepts assigning one integer type to another without a cast, every value of the source type is representable in the destination type.", "quantifier": "every pair of integer types and every value", "why_tests_cant": "value ranges are up to 2^64", "anchors": ["src/cxy/lang/frontend/types.c:isTypeAssignableFrom", "src/cxy/lang/frontend/types.c:getIntegerTypeMinMax"]}
{"id": "C22", "title": "Arithmetic promotion gives a type that can hold both operands", "statement": "The common type chosen for a binary arithmetic operation is the same in either operand order and can represent every value of both operand types.", "quantifier": "every pair of numeric types and every value", "why_tests_cant": "pairs times values", "anchors": ["src/cxy/lang/frontend/ttable.c:promoteType"]}
{"id": "C23", "title": "Unmatchable switch cases are rejected, others accepted", "statement": "The range check on a switch case rejects a case value or range exactly when no value of the condition type falls in it.", "quantifier": "every integral condition type and every range", "why_tests_cant": "ranges straddling a bound are an unbounded family", "anchors": ["src/cxy/lang/frontend/ttable.c:isIntegerTypeInRange", "src/cxy/lang/frontend/types.c:getIntegerTypeMinMax", "src/cxy/lang/middle/sema/switch.c:checkCaseStmt"]}
{"id": "C24", "title": "Type interning is canonical", "statement": "Two requests for structurally equal types give the same type handle and requests for structurally different types give different handles, over the whole life of the type table.", "quantifier": "every history of type requests over arbitrarily nested types", "why_tests_cant": "nesting depth and history length are unbounded and hash collisions are arbitrary", "anchors": ["src/cxy/lang/frontend/ttable.c:getOrInsertTypeScoped", "src/cxy/lang/frontend/ttable.c:compareTypes", "src/cxy/lang/frontend/ttable.c:hashType"]}
{"id": "C25", "title": "Mangled names are unique per overload", "statement": "Two overloads of one function with different parameter type lists get different mangled names.", "quantifier": "every pair of parameter type lists", "why_tests_cant": "collisions arise from concatenations of arbitrary type encodings", "anchors": ["src/cxy/lang/middle/mangle.c:makeMangledName", "src/cxy/lang/middle/mangle.c:mangleType"]}
{"id": "C26", "title": "Compile-time integer arithmetic agrees with run-time arithmetic", "statement": "Evaluating an integer expression at compile time gives the same value as running the generated code on i64 operands.", "quantifier": "every operator and all i64 operand values", "why_tests_cant": "2^128 operand pairs; the failures sit at large magnitudes and negative shifts", "anchors": ["src/cxy/lang/middle/eval/binary.c:evalBinaryExpr", "src/cxy/lang/middle/eval/unary.c:evalUnaryExpr", "src/cxy/lang/backend/llvm/binary.cpp:generateBinaryExpr"]}
{"id": "C27", "title": "Name resolution finds the innermost declaration", "statement": "Looking up a name returns the declaration of the innermost open scope that declares it, redeclaring a name in one scope is rejected, and closing a scope restores exactly the bindings visible before it was opened.", "quantifier": "every well-nested sequence of open, close, define and lookup", "why_tests_cant": "nesting and scope reuse are unbounded", "anchors": ["src/cxy/lang/middle/bind/scope.c:findSymbol", "src/cxy/lang/middle/bind/scope.c:defineSymbol", "src/cxy/lang/middle/bind/scope.c:pushScope", "src/cxy/lang/middle/bind/scope.c:popScope"]}
{"id": "C28", "title": "Suggestion distance is the edit distance", "statement": "The spell-check distance equals the true Levenshtein distance whenever that is within the cut-off and exceeds the cut-off otherwise.", "quantifier": "every pair of strings and every cut-off", "why_tests_cant": "all string pairs", "anchors": ["src/cxy/lang/middle/bind/scope.c:levenshteinDistance"]}
{"id": "C29", "title": "Deferred statements run once, in reverse order, on every exit", "statement": "After the defer rewrite, on each way out of a block (falling off the end, break, continue, return from any depth) exactly the defers executed so far in the exited blocks run, each once, last first.", "quantifier": "every program built from blocks, conditionals, loops, defers and exits; every execution path", "why_tests_cant": "exit paths and nesting are unbounded", "anchors": ["src/cxy/lang/middle/defer.c:visitBlockStmt", "src/cxy/lang/middle/defer.c:visitReturnStmt", "src/cxy/lang/middle/defer.c:visitBreakContinue", "src/cxy/lang/middle/defer.c:blockScopeSealIntoList"]}
{"id": "C30", "title": "Vector behaves as a sequence without out-of-bounds writes", "statement": "For every history of push, pop, shift, resize, shrink and element access, the vector's contents equal the same history on a list and no element is written outside the allocation.", "quantifier": "every initial capacity and every operation sequence", "why_tests_cant": "the growth rule has to be right at every capacity including 0 and 1", "anchors": ["src/cxy/stdlib/vector.cxy:Vector.push", "src/cxy/stdlib/vector.cxy:Vector.grow", "src/cxy/stdlib/vector.cxy:Vector.pop", "src/cxy/stdlib/vector.cxy:Vector.shift", "src/cxy/stdlib/vector.cxy:Vector.resize", "src/cxy/stdlib/vector.cxy:Vector.shrink"]}
{"id": "C31", "title": "Intrusive list is a FIFO queue", "statement": "Items come out of the list in the order they were pushed, the reported size is the number of queued items, and emptiness is reported exactly when it is zero.", "quantifier": "every sequence of pushes of unqueued items and pops", "why_tests_cant": "histories are unbounded", "anchors": ["src/cxy/stdlib/list.cxy:List.push", "src/cxy/stdlib/list.cxy:List.pop"]}
{"id": "C32", "title": "Trie finds exactly what was added", "statement": "After adding a set of keys, finding a key returns its data if that key was added and nothing otherwise, including keys that are prefixes of one another.", "quantifier": "every sequence of added keys and every looked-up key, including the empty key", "why_tests_cant": "prefix relations between keys of any length", "anchors": ["src/cxy/stdlib/trie.cxy:Trie.add", "src/cxy/stdlib/trie.cxy:Trie.find"]}
{"id": "C33", "title": "Stdlib hash map: insert-only histories behave as a map", "statement": "For every history of insertions, lookups return the first value inserted for a key (or the replaced one when replacement is requested), and the size is the number of distinct keys.", "quantifier": "every hash function and every insertion sequence", "why_tests_cant": "displacement chains and rehash points", "anchors": ["src/cxy/stdlib/hash.cxy:HashMap.insertInternal", "src/cxy/stdlib/hash.cxy:HashMap.getInternal", "src/cxy/stdlib/hash.cxy:HashMap.rehash"]}
{"id": "C34", "title": "Stdlib hash map: removal leaves other keys alone", "statement": "Removing a key makes that key absent and leaves every other key's lookup unchanged.", "quantifier": "every history of insertions and removals and every hash function", "why_tests_cant": "requires a displaced, wrapped probe chain", "anchors": ["src/cxy/stdlib/hash.cxy:HashMap.remove", "src/cxy/stdlib/hash.cxy:HashMap.probe"]}
{"id": "C35", "title": "Base64 round trip", "statement": "Decoding the encoding of any byte string gives that byte string; the encoding has length 4*ceil(n/3) and uses only the standard alphabet with correct padding.", "quantifier": "every byte string, including the empty one", "why_tests_cant": "all byte strings", "anchors": ["src/cxy/stdlib/base64.cxy:encodeBuffer", "src/cxy/stdlib/base64.cxy:decodeBuffer"]}
{"id": "C36", "title": "URL-safe Base64 round trip", "statement": "Decoding the URL-safe encoding of any byte string gives that byte string back.", "quantifier": "every byte string", "why_tests_cant": "all byte strings", "anchors": ["src/cxy/stdlib/base64.cxy:urlEncodeBuffer", "src/cxy/stdlib/base64.cxy:urlDecodeBuffer"]}
{"id": "C37", "title": "Buffered stream preserves write order", "statement": "The bytes delivered to the underlying sink, followed by the bytes still buffered, are the concatenation of all appended pieces in order.", "quantifier": "every buffer capacity, every sequence of appends and flushes", "why_tests_cant": "the fault needs a piece whose size meets the remaining room exactly", "anchors": ["src/cxy/runtime/builtins.cxy:BufferedOutputStream.append", "src/cxy/runtime/builtins.cxy:BufferedOutputStream.flush"]}
{"id": "C38", "title": "Memory stream never overruns its buffer", "statement": "Writing any pieces to a fixed-size memory stream either stores exactly their concatenation, followed by a NUL inside the buffer, or stops with a failed assertion when they do not fit; it never writes outside the buffer.", "quantifier": "every buffer size and every sequence of writes", "why_tests_cant": "boundary combinations are unbounded", "anchors": ["src/cxy/runtime/builtins.cxy:MemoryOutputStream.append"]}
{"id": "C39", "title": "Owned string content is the concatenation of appends", "statement": "A String's contents equal the concatenation of everything appended, it is always NUL-terminated within its capacity, and comparison is a total order consistent with equality of contents.", "quantifier": "every sequence of appends and every pair of strings", "why_tests_cant": "sizes and histories unbounded", "anchors": ["src/cxy/runtime/builtins.cxy:String.append", "src/cxy/runtime/builtins.cxy:String.grow", "src/cxy/runtime/builtins.cxy:String.`==`"]}
{"id": "C40", "title": "Substring search is exact", "statement": "find returns the first index at which the pattern occurs, rfind the last, indexOf/rIndexOf the first/last index of a character, and each reports nothing exactly when there is no occurrence.", "quantifier": "every text, pattern and character", "why_tests_cant": "all pairs of strings", "anchors": ["src/cxy/runtime/builtins.cxy:__string.find", "src/cxy/runtime/builtins.cxy:__string.rfind", "src/cxy/runtime/builtins.cxy:__string.indexOf", "src/cxy/runtime/builtins.cxy:__string.rIndexOf"]}
{"id": "C41", "title": "Shared pointers are freed exactly once", "statement": "A reference-counted object is destroyed exactly once, when its last reference is dropped, and is never used afterwards.", "quantifier": "every history of get and drop, and every interleaving of concurrent drops", "why_tests_cant": "interleavings; double free needs a precise schedule", "anchors": ["src/cxy/runtime/builtins.cxy:__smart_ptr_get", "src/cxy/runtime/builtins.cxy:__smart_ptr_drop"]}
{"id": "C42", "title": "Coroutine mutex excludes and hands over", "statement": "At most one coroutine holds the mutex at a time, waiters acquire it in the order they arrived, and after the holder unlocks with nobody waiting the mutex can be locked again.", "quantifier": "every schedule of lock and unlock over any number of coroutines", "why_tests_cant": "schedules are unbounded", "anchors": ["src/cxy/stdlib/coro.cxy:Mutex.lock", "src/cxy/stdlib/coro.cxy:Mutex.unlock"]}
{"id": "C43", "title": "Coroutine stack cache does not lose stacks", "statement": "Every stack returned to the scheduler is either cached for reuse or unmapped, and no stack is both in use and in the cache.", "quantifier": "every history of coroutine starts and finishes and every cache limit", "why_tests_cant": "leak appears only when the cache is full", "anchors": ["src/cxy/stdlib/coro.cxy:CoroutineScheduler.freeStack", "src/cxy/stdlib/coro.cxy:CoroutineScheduler.allocStack"]}
{"id": "C44", "title": "Path splitting is lossless", "statement": "For a path with a separator, directory name, separator and base name put together give the path; the base name never contains a separator.", "quantifier": "every byte string", "why_tests_cant": "all strings", "anchors": ["src/cxy/stdlib/path.cxy:dirname", "src/cxy/stdlib/path.cxy:basename"]}
{"id": "C45", "title": "JSON string output parses back", "statement": "Serialising any string value to JSON and parsing the result gives the same string.", "quantifier": "every string value", "why_tests_cant": "all strings including quotes and backslashes", "anchors": ["src/cxy/stdlib/json.cxy:toJSON", "src/cxy/stdlib/json.cxy:JSONParser.expectString"]}
{"id": "C46", "title": "Command-line rest arguments are complete", "statement": "Everything after `--` on the command line is delivered to the rest arguments, in order.", "quantifier": "every argument vector", "why_tests_cant": "argument vectors are unbounded", "anchors": ["src/cxy/stdlib/args.cxy:Command.parse", "src/cxy/stdlib/args.cxy:Command.populateRest"]}
{"id": "C47", "title": "Byte swapping is an involution", "statement": "Swapping the byte order of a 16, 32 or 64-bit value twice gives the value back, and one swap reverses its bytes.", "quantifier": "every value", "why_tests_cant": "2^64 values", "anchors": ["src/cxy/runtime/builtins.cxy:bswap16", "src/cxy/runtime/builtins.cxy:bswap32", "src/cxy/runtime/builtins.cxy:bswap64"]}
{"id": "C48", "title": "Fixed-width log fields have the requested width", "statement": "A fixed-width field always emits exactly the requested number of characters: the value, padded or truncated.", "quantifier": "every width and every value", "why_tests_cant": "all pairs", "anchors": ["src/cxy/stdlib/log.cxy:FixedWidth"]}
{"id": "C49", "title": "Compiler flag names list exactly the set flags", "statement": "Rendering a flag set lists exactly the names of the flags in it, without undefined shifts.", "quantifier": "every 64-bit flag set", "why_tests_cant": "2^64 flag sets", "anchors": ["src/cxy/lang/frontend/operator.c:appendFlagsAsString", "src/cxy/lang/frontend/operator.c:flagsToString"]}
{"id": "C50", "title": "Errors make compilation fail", "statement": "Once an error diagnostic has been reported, the log reports errors until reset, the count equals the number of error diagnostics, and only the printing is cut off at the configured maximum.", "quantifier": "every sequence of diagnostics and every limit", "why_tests_cant": "all histories", "anchors": ["src/cxy/core/log.c:printDiagnosticToState", "src/cxy/core/log.h:hasErrors"]}
{"id": "C51", "title": "Robin-hood map: removal leaves other keys alone", "statement": "In the compiler's robin-hood map, removing a key makes exactly that key absent; every other key is still found with its value and the number of entries drops by one if the key was there.", "quantifier": "every hash function, every history of puts of absent keys, gets and removes", "why_tests_cant": "whether an item survives depends on the layout of its chain, including chains that wrap around the array", "anchors": ["src/cxy/core/hmap.c:hmapRemove", "src/cxy/core/hmap.c:hmapResizeLess"]}
{"id": "C52", "title": "Robin-hood map: iteration visits each entry once", "statement": "Iterating over the compiler's robin-hood map yields every stored entry exactly once.", "quantifier": "every map reachable by puts of absent keys and removes", "why_tests_cant": "layouts are unbounded", "anchors": ["src/cxy/core/hmap.c:hmapIterator", "src/cxy/core/hmap.c:hmapNext"]}
{"id": "C53", "title": "Stdlib hash map: iteration visits each entry once", "statement": "Iterating over a HashMap or HashSet (range loop or each) visits every entry exactly once, whatever its size.", "quantifier": "every map reachable by insertions, of any size", "why_tests_cant": "a test uses small maps; the index type matters only above a certain capacity", "anchors": ["src/cxy/stdlib/hash.cxy:HashMap.each", "src/cxy/stdlib/hash.cxy:HashMap.`..`"]}
{"id": "C54", "title": "Stdlib hash map: map returns the image of the entries", "statement": "HashMap.map returns the transformed entries and terminates.", "quantifier": "every map", "why_tests_cant": "needs a termination argument for all maps", "anchors": ["src/cxy/stdlib/hash.cxy:HashMap.map"]}
{"id": "C55", "title": "Generated names are fresh", "statement": "Names the compiler generates for temporaries are pairwise different, start with the requested prefix, and are built without leaving the buffer.", "quantifier": "every sequence of requests with any accepted prefixes", "why_tests_cant": "all pairs of prefixes and counter values", "anchors": ["src/cxy/core/strpool.c:makeAnonymousVariable"]}
{"id": "C56", "title": "Concatenated names are complete", "statement": "Concatenating names yields exactly the concatenation, for any number and length of parts.", "quantifier": "every list of strings", "why_tests_cant": "buffer overruns only show for particular length combinations", "anchors": ["src/cxy/core/strpool.c:makeStringConcat_"]}
{"id": "C57", "title": "Joined paths are the components with one separator", "statement": "Joining path components gives the components separated by exactly one slash, or the compiler stops with an error if the result does not fit.", "quantifier": "every list of components", "why_tests_cant": "unbounded lengths; the boundary case depends on the total length", "anchors": ["src/cxy/core/strpool.c:joinPath_"]}
{"id": "C58", "title": "Push returns the address of the new element", "statement": "The pointer returned by pushing on a dynamic array refers to the element just pushed.", "quantifier": "every array state and element", "why_tests_cant": "reading one past the end often goes unnoticed in a test", "anchors": ["src/cxy/core/array.c:pushOnDynArrayExplicit"]}
{"id": "C59", "title": "Run-time integer arithmetic is arithmetic in the expression's type", "statement": "The code generated for an integer operation yields the exact result of the operation, with both operands converted to the type of the expression and the result wrapped to it; division by zero and over-wide shifts are the only undefined cases.", "quantifier": "every arithmetic operator, every pair of integer types, all operand values", "why_tests_cant": "operand values are up to 2^64 and errors sit at sign boundaries", "anchors": ["src/cxy/lang/backend/llvm/binary.cpp:generateBinaryExpr", "src/cxy/lang/backend/llvm/context.cpp:generateCastExpr", "src/cxy/lang/frontend/ttable.c:promoteType"]}
{"id": "C60", "title": "Integer comparisons give the mathematical answer", "statement": "Comparing two integers gives the mathematical answer, and a < b agrees with b > a.", "quantifier": "every pair of integer types, all values, all six operators", "why_tests_cant": "errors only show for particular sign and size combinations", "anchors": ["src/cxy/lang/backend/llvm/binary.cpp:generateBinaryExpr"]}
{"id": "C61", "title": "Casts between integer types keep representable values", "statement": "A cast between integer or character types gives the source value when the target can represent it, and otherwise the value congruent to it.", "quantifier": "every pair of types and every value", "why_tests_cant": "value ranges up to 2^64", "anchors": ["src/cxy/lang/backend/llvm/context.cpp:generateCastExpr"]}
{"id": "C62", "title": "Casts from integers to floats keep the number", "statement": "Casting an integer to a float type gives the float nearest to that integer.", "quantifier": "every integer type, every float type, every value", "why_tests_cant": "only negative and large unsigned values go wrong", "anchors": ["src/cxy/lang/backend/llvm/context.cpp:generateCastExpr"]}
{"id": "C63", "title": "Float comparisons with NaN are false", "statement": "Comparing with a NaN gives false for every operator but !=.", "quantifier": "every operator and every other operand", "why_tests_cant": "every float value times operator", "anchors": ["src/cxy/lang/backend/llvm/binary.cpp:generateBinaryExpr"]}
{"id": "C64", "title": "Compound assignment is assignment of the operation", "statement": "x op= y stores the value of x op y computed in the type of x.", "quantifier": "every accepted pair of numeric types, every operator, all values", "why_tests_cant": "types times operators times values", "anchors": ["src/cxy/lang/backend/llvm/generate.cpp:visitAssignExpr", "src/cxy/lang/backend/llvm/binary.cpp:generateBinaryExpr"]}
{"id": "C65", "title": "Literal expressions have their mathematical value", "statement": "An expression of integer literals, with or without parentheses, assigned to a variable that can hold its value stores that value.", "quantifier": "every expression tree over integer literals", "why_tests_cant": "trees are unbounded and the failing ones cross a type bound inside", "anchors": ["src/cxy/lang/middle/preprocess/preprocessor.c:visitBinaryExpr", "src/cxy/lang/middle/preprocess/evaluate.c:preprocessorEvalBinaryExpr", "src/cxy/lang/frontend/ttable.c:getIntegerTypeForLiteral", "src/cxy/lang/middle/sema/binary.c:checkBinaryExpr", "src/cxy/lang/backend/llvm/binary.cpp:generateBinaryExpr"]}
{"id": "C66", "title": "Integer literals get the smallest signed type that holds them", "statement": "The type given to an integer literal holds its value and no smaller signed integer type does.", "quantifier": "every 64-bit signed value", "why_tests_cant": "2^64 values", "anchors": ["src/cxy/lang/frontend/ttable.c:getIntegerTypeForLiteral"]}
{"id": "C67", "title": "Token positions are right", "statement": "The line and column recorded for the start and end of every token are the ones of its byte offsets in the source text: lines are counted by newlines before it and columns by bytes since the last newline.", "quantifier": "every source text and every token", "why_tests_cant": "error messages for any source depend on it; tests check a few messages", "anchors": ["src/cxy/lang/frontend/lexer.c:skipChar", "src/cxy/lang/frontend/lexer.c:advanceLexer"]}
{"id": "C68", "title": "Symbols are read by longest match", "statement": "Where an operator or punctuation symbol starts, the lexer reads the longest symbol of the language that the text starts with, and consumes exactly its spelling.", "quantifier": "every symbol of the language and every continuation of the text", "why_tests_cant": "pairs of symbols and following text are unbounded", "anchors": ["src/cxy/lang/frontend/lexer.c:advanceLexer"]}
{"id": "C69", "title": "Names and keywords", "statement": "A name starting with a letter or underscore is read up to the last letter, digit or underscore; it is a keyword token exactly if it is one of the reserved words and an identifier otherwise.", "quantifier": "every name and every following text", "why_tests_cant": "names are unbounded", "anchors": ["src/cxy/lang/frontend/lexer.c:advanceLexer", "src/cxy/lang/frontend/lexer.c:registerKeywords"]}
{"id": "C70", "title": "Integer literals have the value they spell", "statement": "A decimal, hexadecimal, octal or binary integer literal token carries the number its digits spell, and a literal that does not fit is rejected.", "quantifier": "every digit string and every following text", "why_tests_cant": "digit strings are unbounded and what follows matters", "anchors": ["src/cxy/lang/frontend/lexer.c:advanceLexer"]}
{"id": "C71", "title": "Expression parsing always ends", "statement": "The expression parser stops on every token sequence, well formed or not, with a tree or an error; it never loops.", "quantifier": "every finite token sequence (of the modelled constructs)", "why_tests_cant": "malformed inputs are unbounded", "anchors": ["src/cxy/lang/frontend/parser.c:expression", "src/cxy/lang/frontend/parser.c:binary", "src/cxy/lang/frontend/parser.c:postfix", "src/cxy/lang/frontend/parser.c:parseMany"]}
{"id": "C72", "title": "A parsed expression has the tokens of its source", "statement": "A tree returned by the expression parser is spelled by exactly the tokens that were read, in order; no operand or operator is dropped, duplicated or moved.", "quantifier": "every token sequence the parser accepts", "why_tests_cant": "token sequences are unbounded", "anchors": ["src/cxy/lang/frontend/parser.c:expression", "src/cxy/lang/frontend/parser.c:binary", "src/cxy/lang/frontend/parser.c:postfix", "src/cxy/lang/frontend/parser.c:callExpression"]}
{"id": "C73", "title": "The right side of an assignment is assigned as a whole", "statement": "In `target = value` the value is the whole expression to the right, including a conditional `c ? a : b`.", "quantifier": "every target and value expression", "why_tests_cant": "all nestings of conditionals and operators on the right side", "anchors": ["src/cxy/lang/frontend/parser.c:assign", "src/cxy/lang/frontend/parser.c:ternary"]}
{"id": "C74", "title": "Walking a vector sees exactly its elements", "statement": "each, accumulate, filter, map and find on a vector give what the same functions give on the list of its elements; find reports the first match.", "quantifier": "every vector contents, predicate and function", "why_tests_cant": "all sizes and all callbacks", "anchors": ["src/cxy/stdlib/vector.cxy:Vector.each", "src/cxy/stdlib/vector.cxy:Vector.accumulate", "src/cxy/stdlib/vector.cxy:Vector.filter", "src/cxy/stdlib/vector.cxy:Vector.map", "src/cxy/stdlib/vector.cxy:Vector.find"]}
{"id": "C75", "title": "Pushing an item that is already queued is refused", "statement": "Pushing an item that is already in the intrusive list fails an assertion instead of damaging the list.", "quantifier": "every list and every item in it, wherever it stands", "why_tests_cant": "depends on the position of the item in a list of any length", "anchors": ["src/cxy/stdlib/list.cxy:List.push", "src/cxy/stdlib/list.cxy:List.`..`"]}
{"id": "C76", "title": "Decoding Base64 text stays inside the text and the output", "statement": "Decoding any text, valid or not, reads only the text and writes only the output buffer sized for it.", "quantifier": "every input text of any length", "why_tests_cant": "malformed inputs are unbounded and a read past the end need not crash", "anchors": ["src/cxy/stdlib/base64.cxy:decodeBuffer", "src/cxy/stdlib/base64.cxy:decode"]}
{"id": "C77", "title": "The announced size of URL-safe Base64 is the size written", "statement": "urlEncodeSize(n) is the number of bytes urlEncode writes for n bytes of input.", "quantifier": "every input size", "why_tests_cant": "the caller uses the size as an HTTP content length, so one wrong size corrupts a connection", "anchors": ["src/cxy/stdlib/base64.cxy:urlEncodeSize", "src/cxy/stdlib/base64.cxy:urlEncodeBuffer", "src/cxy/stdlib/fetch.cxy"]}
{"id": "C78", "title": "String views slice and compare by content", "statement": "substr gives exactly the requested piece; equality of views is equality of their bytes; startswith and endswith hold exactly for prefixes and suffixes.", "quantifier": "every pair of views and every slice", "why_tests_cant": "all byte strings, including those with NUL bytes", "anchors": ["src/cxy/runtime/builtins.cxy:__string.substr", "src/cxy/runtime/builtins.cxy:__string.`==`", "src/cxy/runtime/builtins.cxy:__string.startswith", "src/cxy/runtime/builtins.cxy:__string.endswith"]}
{"id": "C79", "title": "Trimming a view removes exactly the outer white space", "statement": "trim, trimLeft and trimRight of a view remove the maximal run of white space at the ends and nothing else.", "quantifier": "every view", "why_tests_cant": "all byte strings", "anchors": ["src/cxy/runtime/builtins.cxy:__string.trim", "src/cxy/runtime/builtins.cxy:__string.trimLeft", "src/cxy/runtime/builtins.cxy:__string.trimRight"]}
{"id": "C80", "title": "Every owned-string operation keeps the text C-readable", "statement": "After trimLeft or resize an owned String still holds the expected bytes followed by a NUL inside its allocation.", "quantifier": "every String and every new size", "why_tests_cant": "depends on contents, capacity and size", "anchors": ["src/cxy/runtime/builtins.cxy:String.trimLeft", "src/cxy/runtime/builtins.cxy:String.resize"]}
{"id": "C81", "title": "A string can be appended to itself", "statement": "Appending a String to itself doubles its contents.", "quantifier": "every String contents and capacity", "why_tests_cant": "only fails when the buffer has to move", "anchors": ["src/cxy/runtime/builtins.cxy:String.append", "src/cxy/runtime/builtins.cxy:String.grow"]}
{"id": "C82", "title": "Every accepted overload is seen", "statement": "Walking the overloads of a visible function name visits exactly the declarations of that name that were accepted in its scope, in source order.", "quantifier": "every sequence of declarations and scopes", "why_tests_cant": "histories of declarations, aliases and scopes are unbounded", "anchors": ["src/cxy/lang/middle/bind/scope.c:defineFunctionDecl", "src/cxy/lang/middle/bind/scope.c:findSymbol"]}
{"id": "C83", "title": "break and continue never leave their function", "statement": "A break or continue is accepted only inside a loop (or switch) of the same function or closure, and is bound to the innermost one.", "quantifier": "every nesting of scopes", "why_tests_cant": "nesting is unbounded", "anchors": ["src/cxy/lang/middle/bind/scope.c:findEnclosingLoop", "src/cxy/lang/middle/bind/scope.c:findEnclosingLoopOrSwitch", "src/cxy/lang/middle/bind/resolve.c:bindBreakOrContinueStmt"]}
{"id": "C84", "title": "The spelling suggestion is a nearest visible name", "statement": "For an undefined name longer than two characters the suggestion, if any, is a visible name at most one edit away with none nearer; there is none only if no visible name is within one edit.", "quantifier": "every name and every set of visible names", "why_tests_cant": "all sets of names", "anchors": ["src/cxy/lang/middle/bind/scope.c:suggestSimilarSymbol"]}
{"id": "C85", "title": "Overload resolution picks a best declaration that takes the call", "statement": "The declaration chosen for a call takes that number of arguments of these types, and no other visible overload takes them with fewer conversions; the call is rejected only if no overload takes it.", "quantifier": "every list of overloads, argument list and conversion relation", "why_tests_cant": "overload sets and argument lists are unbounded", "anchors": ["src/cxy/lang/middle/sema/function.c:matchOverloadedFunctionPerfectMatch"]}
{"id": "C86", "title": "The operand of a return is computed before the deferred statements", "statement": "In a function with pending deferred statements, `return e` computes e before any of them runs.", "quantifier": "every program and every execution path", "why_tests_cant": "exit paths and nesting are unbounded", "anchors": ["src/cxy/lang/middle/defer.c:visitReturnStmt"]}
{"id": "C87", "title": "A loop over a range visits exactly its values", "statement": "for over start..stop, or range(start, stop, step), runs its body once for each of start, start + step, ... before stop, in order, and ends; a range with no values runs it not at all.", "quantifier": "every start, stop and step of any integer width", "why_tests_cant": "2^128 and more pairs; a failure is an endless loop", "anchors": ["src/cxy/lang/middle/simplify/simplify.c:simplifyForRangeStmt", "src/cxy/lang/backend/llvm/generate.cpp:visitWhileStmt"]}
{"id": "C88", "title": "A compile-time loop over a range is unrolled for exactly its values", "statement": "A compile-time for over start..stop is unrolled once for each integer from start up to before stop, in order.", "quantifier": "every pair of 64-bit bounds", "why_tests_cant": "2^128 pairs of bounds", "anchors": ["src/cxy/lang/middle/eval/for.c:evalForStmtWithRange"]}
{"id": "C89", "title": "A compilation that reports success has no errors", "statement": "The compiler's stages run in pipeline order, stop after a stage that reported errors, and a compilation that succeeds reported no error in any stage, parsing included; an executable is made only after error-free code generation.", "quantifier": "every program outcome, every last stage requested", "why_tests_cant": "every combination of failures in stages", "anchors": ["src/cxy/driver/driver.c:compileProgram", "src/cxy/driver/stages.c:executeCompilerStage"]}
{"id": "C90", "title": "The whole command line reaches the command", "statement": "Every argument a program is started with is looked at by its command-line parser.", "quantifier": "every argument vector", "why_tests_cant": "argument vectors are unbounded; the failure needs a long one", "anchors": ["src/cxy/stdlib/args.cxy:Command.parse"]}
{"id": "C91", "title": "Path pieces reach the operating system as written", "statement": "A path operation on a piece of a longer string acts on exactly that piece.", "quantifier": "every path and every piece of it", "why_tests_cant": "all strings and lengths", "anchors": ["src/cxy/stdlib/path.cxy:withNullTermination"]}
{"id": "C92", "title": "Literals mean what their escapes say", "statement": "A string or character literal has the value given by its characters, with each escape standing for the character it denotes.", "quantifier": "every sequence of characters and escapes", "why_tests_cant": "all strings; the errors need two escapes next to each other", "anchors": ["src/cxy/core/utils.c:escapeString", "src/cxy/core/utils.c:convertEscapeSeq"]}
{"id": "C93", "title": "Text that is not Base64 is rejected", "statement": "Decoding a text that is not the Base64 encoding of anything reports an error instead of returning data.", "quantifier": "every text with a character outside the alphabet, at any position", "why_tests_cant": "malformed texts are unbounded, and which characters are looked at depends on the position", "anchors": ["src/cxy/stdlib/base64.cxy:decodeBuffer"]}
{"id": "C94", "title": "Unsupported command lines are rejected", "statement": "A command line is accepted only if every option on it is declared and given once, options that take no value have none and every parameter that needs a value has one; otherwise the parser reports an error.", "quantifier": "every set of declared parameters and every command line", "why_tests_cant": "command lines are unbounded and the errors depend on what came before", "anchors": ["src/cxy/stdlib/args.cxy:parse", "src/cxy/stdlib/args.cxy:validateParams", "src/cxy/stdlib/args.cxy:addParsed", "src/cxy/stdlib/args.cxy:addParam"]}
{"id": "C95", "title": "Casting a literal gives what the same cast gives at run time", "statement": "Casting an integer or character literal yields a constant of the target type with the value that the same cast of a variable holding that number yields.", "quantifier": "every literal value, every source and target type", "why_tests_cant": "all values of all pairs of types", "anchors": ["src/cxy/lang/middle/sema/cast.c:castLiteral", "src/cxy/lang/middle/sema/cast.c:castIntegerLiteral", "src/cxy/lang/backend/llvm/generate.cpp:visitFloatLit"]}
{"id": "C96", "title": "Every cast the checker accepts can be compiled", "statement": "A cast between primitive types that the type checker accepts generates a value of the target type, and a cast to a character type is accepted only if it keeps the value.", "quantifier": "every pair of primitive types and every value", "why_tests_cant": "all values of all pairs of types", "anchors": ["src/cxy/lang/frontend/types.c:isTypeCastAssignable", "src/cxy/lang/backend/llvm/context.cpp:generateCastExpr"]}
{"id": "C97", "title": "Float arithmetic is done in the float type of the expression", "statement": "An arithmetic operator with a float operand converts the other operand to the bigger float type, applies the operator there, and the result has the type the checker gave to the expression.", "quantifier": "every operator, every pair of float types, every integer type with a float type, all values", "why_tests_cant": "all values of all pairs of types", "anchors": ["src/cxy/lang/backend/llvm/binary.cpp:generateBinaryExpr", "src/cxy/lang/frontend/ttable.c:promoteType"]}
{"id": "C98", "title": "Managed values are destroyed or handed over exactly once", "statement": "In a function compiled with memory management, every value is destroyed or handed over exactly once by the time the function ends, on every path, and no value is read, destroyed or handed over after that.", "quantifier": "every function body with declarations, assignments, moves, nested blocks, conditionals, loops, switches, break, continue and return; every execution", "why_tests_cant": "paths and iterations are unbounded, and the errors need a particular combination of a move, a loop or a branch and a later use", "anchors": ["src/cxy/lang/middle/mem/manage.c:visitBlockStmt", "src/cxy/lang/middle/mem/manage.c:visitWhileStmt", "src/cxy/lang/middle/mem/manage.c:visitReturnStmt", "src/cxy/lang/middle/mem/manage.c:mergeUpdateVariableStates", "src/cxy/lang/middle/mem/finalize.c:visitBackendCallExpr"]}
{"id": "C99", "title": "Memory management only adds destructions", "statement": "Apart from the inserted destructions and their flags, a function compiled with memory management performs the statements that were written, in the same order and under the same conditions.", "quantifier": "every function body", "why_tests_cant": "all programs", "anchors": ["src/cxy/lang/middle/mem/manage.c:visitAssignExpr", "src/cxy/lang/middle/mem/finalize.c:visitAssignExpr"]}
{"id": "C100", "title": "Reading a variable that has no value is reported", "statement": "A function that reads a variable that has been declared without a value, moved or set to null, and not given a value since, is rejected with a diagnostic.", "quantifier": "every function body, at any depth, with any statements between the two", "why_tests_cant": "the two places can be any distance apart with any control flow between them", "anchors": ["src/cxy/lang/middle/mem/manage.c:visitIdentifier", "src/cxy/lang/middle/mem/manage.c:reportUseUnassigned"]}
{"id": "C101", "title": "Query arguments of a request read back", "statement": "The arguments given to an HTTP request are sent as a query string that a server decodes to exactly the same names and values, and that contains no byte that could end the request line or start a fragment.", "quantifier": "every list of names and values with arbitrary bytes", "why_tests_cant": "the contents and number of the arguments are unbounded", "anchors": ["src/cxy/stdlib/fetch.cxy:urlEncode", "src/cxy/stdlib/fetch.cxy:Request"]}
{"id": "C102", "title": "The announced length of a form is the length sent", "statement": "The length that a form announces in Content-Length is the number of bytes that it sends.", "quantifier": "every form built from fields and uploads, with or without files", "why_tests_cant": "whether it holds depends on the lengths of all names and values", "anchors": ["src/cxy/stdlib/fetch.cxy:Form", "src/cxy/stdlib/fetch.cxy:urlEncodedSize", "src/cxy/stdlib/fetch.cxy:multipartEncodeSize"]}
{"id": "C103", "title": "A request carries exactly its content", "statement": "A submitted HTTP request consists of its head with the announced length, an empty line, and exactly the announced bytes of the body, form or file it was given.", "quantifier": "every sequence of builder steps, every content", "why_tests_cant": "contents and sequences of steps are unbounded", "anchors": ["src/cxy/stdlib/fetch.cxy:Request", "src/cxy/stdlib/fetch.cxy:submit", "src/cxy/stdlib/http.cxy:SendFile"]}
{"id": "C104", "title": "Requests of a session are independent", "statement": "What a session sends for a request depends on the session's headers and on that request, not on the requests it sent before.", "quantifier": "every previous state of the session, every request", "why_tests_cant": "histories of requests are unbounded", "anchors": ["src/cxy/stdlib/fetch.cxy:Session", "src/cxy/stdlib/fetch.cxy:perform", "src/cxy/stdlib/fetch.cxy:reset"]}
{"id": "C105", "title": "A response is framed as announced", "statement": "A response is sent as a status line with its code, header lines, an empty line and then exactly the bytes that the handler gave, whose number is announced in Content-Length.", "quantifier": "every sequence of calls a handler can make on the response, every configuration", "why_tests_cant": "sequences of calls and contents are unbounded", "anchors": ["src/cxy/stdlib/http.cxy:Response", "src/cxy/stdlib/http.cxy:sendResponse", "src/cxy/stdlib/http.cxy:statusText"]}
{"id": "C106", "title": "A response without content is sent without a body", "statement": "A response whose status says that it has no body, and for which the handler gave nothing, is sent without a body.", "quantifier": "every such status, every sequence of calls", "why_tests_cant": "sequences of calls are unbounded, and a peer notices only at the next response on the connection", "anchors": ["src/cxy/stdlib/http.cxy:sendResponse"]}
{"id": "C107", "title": "Method names are read exactly", "statement": "Reading an HTTP method from a text gives the method whose name begins the text, in any case, with the length of the name, or reports that there is none; it never reads outside the text.", "quantifier": "every text", "why_tests_cant": "all texts", "anchors": ["src/cxy/stdlib/http.cxy:methodFromString", "src/cxy/stdlib/http.cxy:methodName"]}
{"id": "C108", "title": "Requests reach the routes that match them", "statement": "A request is given to the handler of a declared route exactly if its method and path match the declaration, with the parameters of that match.", "quantifier": "every list of declared routes, every method and path", "why_tests_cant": "sets of routes that share prefixes, and paths, are unbounded", "anchors": ["src/cxy/stdlib/http.cxy:Router", "src/cxy/stdlib/http.cxy:parseRouteArgs", "src/cxy/stdlib/http.cxy:parseParams", "src/cxy/stdlib/http.cxy:handleConnection", "src/cxy/stdlib/trie.cxy:find"]}
{"id": "C109", "title": "A request is assembled the same however it arrives", "statement": "The target, headers and body of a received request do not depend on how its bytes were split on the network or on earlier requests of the connection; a header that is repeated has its last value.", "quantifier": "every request, every way of splitting it, every earlier state of the connection", "why_tests_cant": "the number of ways of splitting a message is exponential in its length", "anchors": ["src/cxy/stdlib/http.cxy:requestParserOnHeaderField", "src/cxy/stdlib/http.cxy:requestParserOnHeaderValue", "src/cxy/stdlib/http.cxy:requestParserOnBody", "src/cxy/stdlib/http.cxy:requestParserOnUrl", "src/cxy/stdlib/http.cxy:clear", "src/cxy/stdlib/fetch.cxy:responseParserOnHeaderField"]}
{"id": "C110", "title": "A URL is asked for as it is written", "statement": "Fetching a URL connects to its host and port, or the port of its scheme, and asks for its resource with the method written before it.", "quantifier": "every method, scheme, host, port and resource", "why_tests_cant": "all texts", "anchors": ["src/cxy/stdlib/fetch.cxy:fetch", "src/cxy/stdlib/fetch.cxy:create", "src/cxy/runtime/builtins.cxy:rIndexOf", "src/cxy/runtime/builtins.cxy:find"]}
{"id": "C111", "title": "A view of digits is the number it spells", "statement": "Converting a string view to an integer gives the decimal number that the bytes of the view spell, whatever follows the view in memory.", "quantifier": "every number that fits, every memory after the view", "why_tests_cant": "the bytes after the view are usually not under the control of a test", "anchors": ["src/cxy/runtime/builtins.cxy:toi"]}
{"id": "C112", "title": "The file server sends only files below its root", "statement": "All content that the file server sends comes from regular files inside its root directory, whatever paths are requested and whatever symbolic links there are.", "quantifier": "every root, every history of requests and of file systems", "why_tests_cant": "paths, links and histories are unbounded, and the request that breaks out is the one that nobody thought of", "anchors": ["src/cxy/stdlib/fserver.cxy:fileExists", "src/cxy/stdlib/fserver.cxy:setupWwwDir", "src/cxy/stdlib/fserver.cxy:loadFile", "src/cxy/stdlib/path.cxy:Path"]}
{"id": "C113", "title": "The file server sends the present content of the requested file", "statement": "A file that is sent whole has the content that the requested file has when the request is answered, whatever was requested before and however files have changed.", "quantifier": "every history of requests and of file systems", "why_tests_cant": "histories are unbounded; staleness needs a particular sequence", "anchors": ["src/cxy/stdlib/fserver.cxy:loadFile", "src/cxy/stdlib/fserver.cxy:CachedFiles", "src/cxy/runtime/builtins.cxy:EqualsCase"]}
{"id": "C114", "title": "Every file below the root can be had", "statement": "A regular file below the root of the file server whose extension is known is sent when its path is requested, with or without a query.", "quantifier": "every file system, every path, every query", "why_tests_cant": "all trees and paths", "anchors": ["src/cxy/stdlib/fserver.cxy:fileExists", "src/cxy/stdlib/fserver.cxy:requestPrologue", "src/cxy/stdlib/fserver.cxy:FileServer"]}
{"id": "C115", "title": "A part of a file that is asked for is the part that is sent", "statement": "A request with a range of bytes inside of the file is answered with exactly those bytes and their range; every request is answered.", "quantifier": "every file, every range", "why_tests_cant": "the numbers are unbounded, and whether a request is ever answered cannot be seen in finite time", "anchors": ["src/cxy/stdlib/fserver.cxy:buildRangeResponse", "src/cxy/stdlib/fserver.cxy:prepareResponse"]}
{"id": "C116", "title": "Control flow runs as it is written", "statement": "A function that compiles, as it reaches the back end (temporaries moved out of statements are the subject of C159 and C160), does what its conditionals, loops, switches, jumps, short-circuit operators and conditional expressions say: it calls the same primitives with the same values in the same order, returns the same value, gets stuck where a primitive does, and runs forever exactly when the source does.", "quantifier": "every function body of any size and nesting, every meaning of the primitives, every state", "why_tests_cant": "programs, nesting and numbers of iterations are unbounded", "anchors": ["src/cxy/lang/backend/llvm/generate.cpp:visitIfStmt", "src/cxy/lang/backend/llvm/generate.cpp:visitWhileStmt", "src/cxy/lang/backend/llvm/generate.cpp:visitSwitchStmt", "src/cxy/lang/backend/llvm/generate.cpp:visitFuncDecl", "src/cxy/lang/backend/llvm/binary.cpp:generateLogicAndOr"]}
{"id": "C117", "title": "The operands of an operator are evaluated from left to right", "statement": "In f() op g() the call of f comes before the call of g, whatever the types of the operands are.", "quantifier": "every operator, every pair of types, all operands", "why_tests_cant": "the order depends on the types; a test sees one pair", "anchors": ["src/cxy/lang/backend/llvm/binary.cpp:generateBinaryExpr"]}
{"id": "C118", "title": "The target of a compound assignment is evaluated once", "statement": "In target op= value, ++target and target++ the calls inside of the target happen once.", "quantifier": "every target expression, every operator, every value", "why_tests_cant": "only targets with effects show it, and expressions are unbounded", "anchors": ["src/cxy/lang/backend/llvm/generate.cpp:visitAssignExpr", "src/cxy/lang/backend/llvm/generate.cpp:visitPrefixUnaryExpr", "src/cxy/lang/backend/llvm/generate.cpp:visitUnaryExpr"]}
{"id": "C119", "title": "Well-formed control flow compiles", "statement": "A function whose jumps are inside of loops and whose switches have one default at most is not rejected by the verifier of LLVM.", "quantifier": "every function body of any size and nesting", "why_tests_cant": "programs are unbounded, and each of the shapes that fail is rare", "anchors": ["src/cxy/lang/backend/llvm/generate.cpp:visitIfStmt", "src/cxy/lang/backend/llvm/generate.cpp:visitWhileStmt", "src/cxy/lang/backend/llvm/generate.cpp:visitSwitchStmt", "src/cxy/lang/backend/llvm/llvm.cpp:addModule"]}
{"id": "C120", "title": "Compound assignment to an element of a container updates the element", "statement": "After x.[k] op= v on a class or struct with index operators the element at k is the old element op v, and other elements are unchanged.", "quantifier": "every operator, every container, all sequences of assignments", "why_tests_cant": "all operators and values; plain assignment works", "anchors": ["src/cxy/lang/middle/sema/assign.c:checkIndexExprAssignment", "src/cxy/lang/middle/sema/assign.c:checkAssignExpr"]}
{"id": "C121", "title": "A name is found exactly when it is declared", "statement": "Looking up a member of a type, an option of an enumeration or a builtin macro gives the declaration of that name, and nothing for a name that is not declared; a member that a class does not declare comes from its nearest base that does.", "quantifier": "every list of declarations in any order, every name, every chain of base classes", "why_tests_cant": "the numbers of names and their orders are unbounded, and a misplaced entry hides only some names", "anchors": ["src/cxy/core/utils.c:binarySearch", "src/cxy/lang/frontend/types.c:findNamedTypeMemberInContainer", "src/cxy/lang/frontend/types.c:findOverloadMemberUpInheritanceChain", "src/cxy/lang/frontend/types.c:findEnumOption", "src/cxy/lang/middle/eval/macro.c:findBuiltinMacro"]}
{"id": "C122", "title": "Values of enumerations", "statement": "An option without a value follows the option before it, the first one is 0. The default of an enumeration is its smallest value, and each of its options can be a case of a switch on it.", "quantifier": "every list of options with or without values", "why_tests_cant": "lists and values are unbounded; only far or negative values go wrong", "anchors": ["src/cxy/lang/middle/bind/resolve.c:bindEnumDecl", "src/cxy/lang/middle/sema/enum.c:compareEnumOptionsByValue", "src/cxy/lang/middle/sema/enum.c:checkEnumDecl", "src/cxy/lang/middle/sema/defaults.c:makeDefaultEnumValue", "src/cxy/lang/frontend/types.c:getIntegerTypeMinMax"]}
{"id": "C123", "title": "The cases of a switch do not overlap", "statement": "A switch is accepted exactly when no value is matched by two of its cases, given as literals or as ranges.", "quantifier": "every list of cases in any order", "why_tests_cant": "lists of cases are unbounded, and whether an overlap is found depends on the order of all of them", "anchors": ["src/cxy/lang/middle/sema/switch.c:compareLiteralNode", "src/cxy/lang/middle/sema/switch.c:checkDuplicateCaseMatches", "src/cxy/lang/middle/sema/switch.c:checkSwitchStmt"]}
{"id": "C124", "title": "A value of the condition can be a case", "statement": "A literal that is a value of the type of the condition of a switch is accepted as a case, and a case that is accepted can match.", "quantifier": "every integer type and every value", "why_tests_cant": "2^64 values; which of them are accepted depends on the type of the literal", "anchors": ["src/cxy/lang/middle/sema/switch.c:checkCaseStmt", "src/cxy/lang/frontend/types.c:isTypeAssignableFrom"]}
{"id": "C125", "title": "A macro call means its body with the parameters replaced", "statement": "A call of a macro is replaced by the body of the macro with the uses of its parameters replaced by the arguments, and what comes out is expanded in turn; no other macro, and no macro the call is written in, changes what a parameter or another name in the body stands for.", "quantifier": "every table of macros, every program, any nesting of calls, bodies and arguments", "why_tests_cant": "macros and arguments nest without bound, and which names meet in one expansion depends on all modules of a program", "anchors": ["src/cxy/lang/middle/preprocess/preprocessor.c:visitMacroCall", "src/cxy/lang/middle/preprocess/preprocessor.c:substituteAstNode", "src/cxy/lang/frontend/defines.c:preprocessorHasMacro", "src/cxy/lang/middle/bind/scope.c:defineSymbol", "src/cxy/lang/middle/bind/scope.c:findSymbol"]}
{"id": "C126", "title": "Expanding macros ends", "statement": "The compiler finishes expanding the macros of every program, either with the expanded program or with an error.", "quantifier": "every table of macros and every program", "why_tests_cant": "a run that does not end cannot be observed by a test, and the programs are unbounded", "anchors": ["src/cxy/lang/middle/preprocess/preprocessor.c:visitMacroCall", "src/cxy/lang/middle/preprocess/preprocessor.c:visitMacroDecl"]}
{"id": "C127", "title": "The files on the command line are compiled", "statement": "The compiler compiles exactly the arguments that are not options or values of options, in order, up to an argument `--`; a command name as first argument selects the command.", "quantifier": "every list of arguments, every name of the program", "why_tests_cant": "command lines are unbounded, and the file names are written back over the arguments while these are being read", "anchors": ["src/cxy/core/args.c:cmdParseCommandArguments", "src/cxy/core/args.c:parseCommandLineArguments_", "src/cxy/core/args.c:cmdFindCommandByName", "src/cxy/driver/main.c:main"]}
{"id": "C128", "title": "An option has the value it is given last", "statement": "After the command line is read, a switch is on exactly when it was given, a list has every element given in order, any other option has the last value given, and an option not given has its default.", "quantifier": "every list of arguments, every option of every command", "why_tests_cant": "options come in any number, order and spelling, and share storage with their defaults", "anchors": ["src/cxy/core/args.c:cmdParseCommandArguments", "src/cxy/core/args.c:cmdParseString", "src/cxy/core/args.c:cmdParseInteger", "src/cxy/core/args.c:cmdParseEnumValue", "src/cxy/driver/options.c:cmdOptimizationLevel", "src/cxy/driver/options.c:cmdArrayArgument", "src/cxy/driver/options.c:cmdCompilerDefine", "src/cxy/driver/options.c:parseCommandLineOptions"]}
{"id": "C129", "title": "A wrong command line is reported", "statement": "When an argument is not an option, lacks its value or has a wrong one, the compiler prints a message that says so and compiles nothing.", "quantifier": "every list of arguments", "why_tests_cant": "the text of an argument has any length and any bytes, and goes through a buffer and a format", "anchors": ["src/cxy/core/args.c:cmdParseCommandArguments", "src/cxy/core/args.c:cmdParseEnumValue", "src/cxy/driver/options.c:parseCommandLineOptions", "src/cxy/driver/options.c:cmdOptimizationLevel", "src/cxy/core/args.h:CmdParser", "src/cxy/core/format.c:format"]}
{"id": "C130", "title": "The option for warnings switches the warnings it names", "statement": "The value of `--warnings` is a list of names separated by `|`; each switches its warning on, or off when it begins with `~`, and leaves the others as they are; a name that is no warning is an error.", "quantifier": "every state of the warnings and every text", "why_tests_cant": "there are unboundedly many texts and 2^63 states", "anchors": ["src/cxy/core/log.c:parseWarningLevels", "src/cxy/core/log.c:parseNextWarningId", "src/cxy/core/log.c:registerWarnings"]}
{"id": "C131", "title": "The limit on errors is the number given", "statement": "The value of `--max-errors` is read as a decimal number, which becomes the limit; any other text is refused.", "quantifier": "every text", "why_tests_cant": "there are unboundedly many texts; only long ones and those with a leading zero go wrong", "anchors": ["src/cxy/core/args.c:cmdParseInteger", "src/cxy/driver/options.c:parseCommandLineOptions", "src/cxy/core/args.h:getGlobalInt"]}
{"id": "C132", "title": "An object of a derived class begins with the fields of its base", "statement": "Code compiled for a class finds the fields of the class (and the pointer to its virtual functions) at the same places in an object of any class derived from it.", "quantifier": "every hierarchy of classes of any depth, every class of it and every class derived from that", "why_tests_cant": "hierarchies are unbounded in depth and width; a test fixes one", "anchors": ["src/cxy/lang/middle/sema/class.c:inheritClassMembers", "src/cxy/lang/middle/sema/class.c:checkBaseDecl", "src/cxy/lang/middle/sema/class.c:checkClassDecl", "src/cxy/lang/middle/sema/inheritance.c:inheritanceMakeVTableMember", "src/cxy/lang/backend/llvm/context.cpp:createClassType"]}
{"id": "C133", "title": "A call of a virtual function runs the function of the object's class", "statement": "A call of a virtual function on an expression of a class runs the function with that name and signature that is nearest to the class of the object, going up.", "quantifier": "every hierarchy of classes, every class of the expression, every class of the object, every function", "why_tests_cant": "there are unboundedly many hierarchies and ways to override in them", "anchors": ["src/cxy/lang/middle/sema/inheritance.c:inheritanceChainBuildVTableType", "src/cxy/lang/middle/sema/inheritance.c:inheritanceBuildVTable", "src/cxy/lang/middle/sema/class.c:checkClassDecl", "src/cxy/lang/middle/simplify/simplify.c:virtualDispatch", "src/cxy/lang/middle/simplify/simplify.c:isVirtualDispatch", "src/cxy/lang/middle/simplify/simplify.c:visitCallExpr", "src/cxy/lang/middle/sema/path.c:resolveMemberUpInheritance"]}
{"id": "C134", "title": "`super` calls the function of the base", "statement": "In a member function, `super.f(...)` runs the function `f` that the base has, whatever the class of the object replaces.", "quantifier": "every hierarchy of classes, every class, every function", "why_tests_cant": "there are unboundedly many hierarchies, and a wrong call may not return", "anchors": ["src/cxy/lang/middle/simplify/simplify.c:visitCallExpr", "src/cxy/lang/middle/simplify/simplify.c:virtualDispatch", "src/cxy/lang/middle/sema/path.c:resolveMemberUpInheritance"]}
{"id": "C135", "title": "What is reached through an accepted reference is of the type declared", "statement": "When a value is accepted for a pointer, reference, class, interface, string or function type without a cast, everything the program then reaches through it is of the type that is declared: memory holds the numbers, structures and pointers that the type says, and functions can be called with the arguments it takes.", "quantifier": "every pair of types the checker accepts, every state of memory, every value, to any depth of pointers", "why_tests_cant": "types nest without bound, and the effect shows only in memory that another part of the program owns", "anchors": ["src/cxy/lang/frontend/types.c:isTypeAssignableFrom", "src/cxy/lang/frontend/types.c:isTypeConst", "src/cxy/lang/frontend/ttable.c:unwrapType", "src/cxy/lang/frontend/ttable.c:stripPointer", "src/cxy/lang/frontend/ttable.c:stripAll"]}
{"id": "C136", "title": "No accepted assignment takes const away", "statement": "When a value is accepted for a type without a cast, memory that its own type only gives as constant cannot be written through it.", "quantifier": "every pair of types the checker accepts, every state of memory, to any depth of pointers", "why_tests_cant": "types nest without bound; a test sees only the write it makes", "anchors": ["src/cxy/lang/frontend/types.c:isTypeAssignableFrom", "src/cxy/lang/frontend/types.c:isTypeConst", "src/cxy/lang/frontend/ttable.c:makePointerType", "src/cxy/lang/frontend/ttable.c:makeReferenceType"]}
{"id": "C137", "title": "What is written through an accepted pointer fits the variable", "statement": "When a pointer is accepted for another pointer type, any value of that type can be stored through it and the variable still holds a value of its own type.", "quantifier": "every pair of pointer types the checker accepts, every value stored, every state of memory", "why_tests_cant": "the variable is read elsewhere, later, by code that was checked on its own", "anchors": ["src/cxy/lang/frontend/types.c:isTypeAssignableFrom", "src/cxy/lang/frontend/ttable.c:makePointerType"]}
{"id": "C138", "title": "Objects are accepted for the classes and interfaces they have", "statement": "An object is accepted for a class exactly when its class is that one or derived from it, and for an interface exactly when its class or one above it declares that interface.", "quantifier": "every hierarchy of any depth, every pair of classes, every interface", "why_tests_cant": "hierarchies are unbounded", "anchors": ["src/cxy/lang/frontend/types.c:isTypeAssignableFrom", "src/cxy/lang/frontend/types.c:implementsInterface"]}
{"id": "C139", "title": "The source text written for an expression is read back as that expression", "statement": "The text that `--dump-ast=CXY` writes for an expression, given to the compiler again, is parsed as the same expression.", "quantifier": "every expression of any depth, any spelling of the names in it", "why_tests_cant": "expressions nest without bound and the text depends on every pair of neighbouring tokens", "anchors": ["src/cxy/lang/middle/dump/cxy.c:dumpBinaryExpr", "src/cxy/lang/middle/dump/cxy.c:dumpUnaryExpr", "src/cxy/lang/middle/dump/cxy.c:dumpTernaryExpr", "src/cxy/lang/middle/dump/cxy.c:dumpMemberExpr", "src/cxy/lang/middle/dump/cxy.c:dumpIndexExpr", "src/cxy/lang/middle/dump/cxy.c:dumpGroupExpr", "src/cxy/lang/middle/dump/cxy.c:dumpPath", "src/cxy/lang/frontend/parser.c:prefix"]}
{"id": "C140", "title": "Operators written next to each other stay apart", "statement": "In the text that is written for an expression, an operator before another operator or a negative number is read back as those two.", "quantifier": "every pair of prefix operators and every number", "why_tests_cant": "the operators join only in some pairs, and the result is another valid program", "anchors": ["src/cxy/lang/middle/dump/cxy.c:dumpUnaryExpr", "src/cxy/lang/middle/dump/cxy.c:dumpIntegerLit", "src/cxy/lang/frontend/lexer.c:advanceLexer"]}
{"id": "C141", "title": "All arguments of a call are written", "statement": "The text written for a call has the callee and every argument, in order, and is read back as the same call.", "quantifier": "every callee, every number of arguments, every argument", "why_tests_cant": "arguments are unbounded in number and depth", "anchors": ["src/cxy/lang/middle/dump/cxy.c:dumpCallExpr", "src/cxy/lang/middle/dump/cxy.c:dumpManyAstNodesEnclosed", "src/cxy/lang/frontend/parser.c:callExpression"]}
{"id": "C142", "title": "Constants keep their value", "statement": "After its initialisation, no accepted program changes a constant variable or any part of one: not by assignment, not by ++ or --, not through pointers.", "quantifier": "every program of accepted statements of any length, every expression of any depth, every state of memory", "why_tests_cant": "the writes that go through pointers and parts of variables are unbounded in number and shape; a test sees one of them", "anchors": ["src/cxy/lang/middle/sema/assign.c:checkAssignExpr", "src/cxy/lang/middle/sema/unary.c:checkUnaryExpr", "src/cxy/lang/middle/sema/unary.c:checkPointerOfExpr", "src/cxy/lang/middle/sema/path.c:checkPath", "src/cxy/lang/middle/sema/index.c:checkIndexExpr", "src/cxy/lang/middle/sema/variables.c:checkVarDecl"]}
{"id": "C143", "title": "Variables can be assigned", "statement": "A variable that is not declared constant can be given any value that its type accepts.", "quantifier": "every type of variable, every expression", "why_tests_cant": "types are unbounded; the refusal depends on a flag of the type and not of the variable", "anchors": ["src/cxy/lang/middle/sema/assign.c:checkAssignExpr", "src/cxy/lang/frontend/types.c:isTypeConst", "src/cxy/lang/frontend/ttable.c:makePointerType"]}
{"id": "C144", "title": "The type of *p is what p points to", "statement": "For a pointer variable p, constant or not, the expression *p has the type that the pointer is declared to point to.", "quantifier": "every pointer type, every declaration", "why_tests_cant": "a wrong type shows only where the value is used", "anchors": ["src/cxy/lang/middle/sema/unary.c:checkPrefixExpr", "src/cxy/lang/frontend/ttable.c:makeWrappedType"]}
{"id": "C145", "title": "The scheduler forgets no coroutine and runs none twice", "statement": "The coroutines that run, their order, and the results of their waits are those of a scheduler that only keeps, for each coroutine, what it waits for. A coroutine that sleeps or waits has a timer or a watched descriptor until it is made ready, and is then run once; nothing aborts or touches freed memory.", "quantifier": "every execution: any number of coroutines, actions, polls and switches; any times and any reported events", "why_tests_cant": "the records of descriptors are reused for ever and the state left in them matters much later; executions are unbounded", "anchors": ["src/cxy/stdlib/native/evloop/ae.c:aeProcessEvents", "src/cxy/stdlib/native/evloop/ae.c:processTimeEvents", "src/cxy/stdlib/native/evloop/ae.c:aeRemoveTimerEvent", "src/cxy/stdlib/native/evloop/ae.c:aeCreateFileEvent", "src/cxy/stdlib/native/evloop/ae.c:aeFileEventTimeout", "src/cxy/stdlib/coro.cxy:CoroutineScheduler", "src/cxy/stdlib/coro.cxy:suspend", "src/cxy/stdlib/coro.cxy:fdWaitRead"]}
{"id": "C146", "title": "A sleep lasts as long as asked, and ends", "statement": "A coroutine that sleeps for some milliseconds does not run before that time has passed on the clock, and is ready after the first poll that sees that it has.", "quantifier": "every execution before and after the call, every duration, every reading of the clock", "why_tests_cant": "what cuts a sleep short is another coroutine, or the clock", "anchors": ["src/cxy/stdlib/native/evloop/ae.c:aeCreateTimeEvent", "src/cxy/stdlib/native/evloop/ae.c:aeAddMillisecondsToNow", "src/cxy/stdlib/native/evloop/ae.c:processTimeEvents", "src/cxy/stdlib/coro.cxy:sleep"]}
{"id": "C147", "title": "Ready coroutines run in the order in which they became ready", "statement": "Of any two points of an execution: those ready at the first are the next to run, in their order, before any that becomes ready later.", "quantifier": "every execution and every pair of points in it", "why_tests_cant": "the number of ready coroutines and of steps is unbounded", "anchors": ["src/cxy/stdlib/coro.cxy:resume", "src/cxy/stdlib/coro.cxy:suspend", "src/cxy/stdlib/coro.cxy:yld", "src/cxy/stdlib/coro.cxy:prologue"]}
{"id": "C148", "title": "The event loop does not sleep past a deadline", "statement": "When the event loop waits for the kernel, it asks to wait no longer than to the deadline of each coroutine that sleeps or waits with a timeout.", "quantifier": "every reachable state, every time, every number of timers", "why_tests_cant": "the list of timers is not sorted and holds deleted ones", "anchors": ["src/cxy/stdlib/native/evloop/ae.c:aeSearchNearestTimer", "src/cxy/stdlib/native/evloop/ae.c:aeProcessEvents", "src/cxy/stdlib/native/evloop/ae.c:aeApiPoll"]}
{"id": "C149", "title": "A function that raises and catches does what it says", "statement": "An accepted function makes the calls its statements ask for, in the order of evaluation and with the values computed, whatever those calls return or raise. A call that raises and is not caught ends the function with that exception; one that is caught runs its handler; after it everything goes on as written.", "quantifier": "every accepted function body with nested blocks, conditions, loops, handlers and calls, every behaviour of the called functions, every number of loop iterations", "why_tests_cant": "the compiler rewrites every statement around such calls; programs and runs are unbounded", "anchors": ["src/cxy/lang/middle/sema/exception.c:checkCallExceptionBubbleUp", "src/cxy/lang/middle/sema/exception.c:checkCatchBinaryOperator", "src/cxy/lang/middle/sema/call.c:checkCallExpr", "src/cxy/lang/middle/sema/binary.c:checkBinaryExpr", "src/cxy/lang/middle/sema/check.c:checkReturnStmt", "src/cxy/lang/middle/sema/check.c:checkYieldStmt", "src/cxy/lang/middle/sema/if.c:checkIfStmt"]}
{"id": "C150", "title": "A function not declared to raise does not raise", "statement": "A function whose return type is not marked with ! and that the compiler accepts never ends with an exception.", "quantifier": "every accepted function body, every behaviour of the called functions, every run", "why_tests_cant": "bodies are unbounded", "anchors": ["src/cxy/lang/middle/sema/exception.c:checkCallExceptionBubbleUp", "src/cxy/lang/middle/sema/exception.c:exceptionVerifyRaiseExpr"]}
{"id": "C151", "title": "Every exception is handled or passed on", "statement": "In a function not declared to raise that the compiler accepts, no exception of a called function is left without a handler.", "quantifier": "every accepted function body, every behaviour of the called functions, every run", "why_tests_cant": "an exception that is lost shows nothing", "anchors": ["src/cxy/lang/middle/sema/exception.c:checkCallExceptionBubbleUp", "src/cxy/lang/middle/sema/exception.c:checkCatchBinaryOperator", "src/cxy/lang/middle/sema/binary.c:checkBinaryExpr"]}
{"id": "C152", "title": "A catch always has a value", "statement": "When the value of `f() catch ...` is used, it is what the call returned, or what the handler yielded; the value of an exception or of a variable that was never set is not used.", "quantifier": "every accepted function body, every behaviour of the called functions, every run", "why_tests_cant": "the value read instead is whatever the memory holds", "anchors": ["src/cxy/lang/middle/sema/exception.c:checkCatchBinaryOperator", "src/cxy/lang/middle/sema/check.c:checkYieldStmt"]}
{"id": "C153", "title": "The documented handlers are accepted", "statement": "After a call that may raise, `catch discard`, `catch value`, `catch { raise }` and `catch` with a block of statements are accepted where docs/exceptions.md allows them.", "quantifier": "every raising function and all accepted arguments", "why_tests_cant": "the acceptance depends on the state of the checker around the handler", "anchors": ["src/cxy/lang/middle/sema/exception.c:checkCatchBinaryOperator", "src/cxy/lang/middle/sema/exception.c:exceptionVerifyRaiseExpr"]}
{"id": "C154", "title": "An accepted case can be compiled", "statement": "A case of a switch that is accepted, with an integer literal as its label, can be compiled, and its body runs for that value.", "quantifier": "every integer type of the condition, every literal and every way to write its type", "why_tests_cant": "every pair of types and every value; the module is only checked after the whole program was compiled", "anchors": ["src/cxy/lang/middle/sema/switch.c:checkCaseStmt", "src/cxy/lang/backend/llvm/generate.cpp:visitSwitchStmt"]}
{"id": "C155", "title": "A switch runs the case that lists the value", "statement": "A switch that is compiled runs the body of the case that lists the value of its condition, and that of default when no case does.", "quantifier": "every accepted list of cases and every value of the condition", "why_tests_cant": "lists of cases and values are unbounded", "anchors": ["src/cxy/lang/middle/sema/switch.c:checkSwitchStmt", "src/cxy/lang/backend/llvm/generate.cpp:visitSwitchStmt", "src/cxy/lang/frontend/parser.c:caseStatement"]}
{"id": "C156", "title": "Numbers are hashed by their bytes", "statement": "The hash of a number is FNV-1a of its bytes, the lowest first, and is defined for every number.", "quantifier": "every value of every integer and float type, every start value", "why_tests_cant": "there are up to 2^64 values of a type", "anchors": ["src/cxy/runtime/builtins.cxy:hash_fnv1a_uint8", "src/cxy/runtime/builtins.cxy:hash_fnv1a_uint16", "src/cxy/runtime/builtins.cxy:hash_fnv1a_uint32", "src/cxy/runtime/builtins.cxy:hash_fnv1a_uint64", "src/cxy/runtime/builtins.cxy:hash"]}
{"id": "C157", "title": "Text is hashed by its bytes", "statement": "The hash of a string, a __string or a String is FNV-1a of all of its bytes, whatever its length, and hashing reads nothing else.", "quantifier": "every text of every length and every memory around it", "why_tests_cant": "texts are unbounded; reading outside shows nothing", "anchors": ["src/cxy/runtime/builtins.cxy:hash_fnv1a_string", "src/cxy/runtime/builtins.cxy:hash_fnv1a_n_string", "src/cxy/runtime/builtins.cxy:hash_fnv1a_bytes", "src/cxy/runtime/builtins.cxy:hash"]}
{"id": "C158", "title": "Texts that are equal up to case have equal hashes", "statement": "When EqualsCase takes two texts for equal, HashCase gives them the same hash, as a hash map with these two as its operations needs.", "quantifier": "every two texts", "why_tests_cant": "pairs of texts are unbounded", "anchors": ["src/cxy/runtime/builtins.cxy:EqualsCase", "src/cxy/runtime/builtins.cxy:HashCase", "src/cxy/runtime/builtins.cxy:hash_fnv1a_string_n_igc", "src/cxy/runtime/builtins.cxy:hash_fnv1a_string_igc"]}
{"id": "C159", "title": "What is not needed is not computed", "statement": "The right operand of && and ||, the branch of ?: that is not chosen and the conditions behind a true condition in a chain of else if are not computed: no call in them is made and nothing in them can fail.", "quantifier": "every expression and every chain, every state, every behaviour of the calls", "why_tests_cant": "expressions are unbounded; the tests would have to guess which arguments are moved", "anchors": ["src/cxy/lang/middle/simplify/simplify.c:nodeNeedsTemporaryVar", "src/cxy/lang/middle/simplify/simplify.c:visitCallExpr", "src/cxy/lang/middle/simplify/simplify.c:visitIfStmt", "src/cxy/lang/middle/shake/shake.c:shakeIfStmt"]}
{"id": "C160", "title": "Arguments and operands are computed from left to right", "statement": "The arguments of a call and the operands of an operator are computed from left to right, each once, and a variable has the value it had when it was its turn.", "quantifier": "every expression, every state, every behaviour of the calls", "why_tests_cant": "expressions are unbounded", "anchors": ["src/cxy/lang/middle/simplify/simplify.c:nodeNeedsTemporaryVar", "src/cxy/lang/middle/simplify/simplify.c:visitCallExpr", "src/cxy/lang/middle/simplify/simplify.c:visitBlockStmt", "src/cxy/lang/frontend/visitor.c:astModifierAdd"]}
{"id": "C161", "title": "Operators keep their operands in the C that is written", "statement": "Every expression is handed to the C compiler so that C reads each operator with the operands the language gives it.", "quantifier": "every expression of names, numbers, members, indices and operators", "why_tests_cant": "nesting and mixtures of operators are unbounded", "anchors": ["src/cxy/lang/backend/c/generate.c:visitBinaryExpr", "src/cxy/lang/backend/c/generate.c:visitAssignExpr", "src/cxy/lang/backend/c/generate.c:visitTernaryExpr", "src/cxy/lang/backend/c/generate.c:visitUnaryExpr", "src/cxy/lang/backend/c/generate.c:visitGroupExpr", "src/cxy/lang/backend/c/generate.c:visitIndexExpr", "src/cxy/lang/middle/sema/unary.c:checkUnaryExpr"]}
{"id": "C162", "title": "A conversion converts the whole expression behind it", "statement": "<T>e, and the conversion the compiler adds to an argument of another type, converts the value of e, also when e is an operator expression.", "quantifier": "every expression behind the conversion and every value", "why_tests_cant": "expressions are unbounded; the values agree for many inputs", "anchors": ["src/cxy/lang/backend/c/generate.c:visitCastExpr", "src/cxy/lang/backend/c/generate.c:visitTypedExpr", "src/cxy/lang/frontend/parser.c:implicitCast", "src/cxy/lang/middle/simplify/simplify.c:simplifyCastExpression"]}
{"id": "C163", "title": "Two signs in a row are two operators", "statement": "- -x, + +x and the negation of a negative number compute the value and change no variable.", "quantifier": "every operand", "why_tests_cant": "operands are unbounded", "anchors": ["src/cxy/lang/backend/c/generate.c:visitUnaryExpr", "src/cxy/lang/backend/c/generate.c:visitIntegerLit"]}
{"id": "C164", "title": "Statements do in C what they say", "statement": "Blocks, if, loops with their updates, switch, break, continue and return written in C do the steps of the language in the same order.", "quantifier": "every nesting of statements, every state, every number of rounds", "why_tests_cant": "programs and rounds are unbounded", "anchors": ["src/cxy/lang/backend/c/generate.c:visitWhileStmt", "src/cxy/lang/backend/c/generate.c:visitSwitchStmt", "src/cxy/lang/backend/c/generate.c:visitCaseStmt", "src/cxy/lang/backend/c/generate.c:visitContinueStmt", "src/cxy/lang/backend/c/generate.c:visitBreakStmt"]}
{"id": "C165", "title": "break in a case leaves the loop around the switch", "statement": "break belongs to the innermost loop, as the compiler binds it; inside a case of a switch it ends that loop.", "quantifier": "every loop, every switch in it, every state", "why_tests_cant": "programs and rounds are unbounded", "anchors": ["src/cxy/lang/backend/c/generate.c:visitBreakStmt", "src/cxy/lang/backend/c/generate.c:visitSwitchStmt", "src/cxy/lang/middle/bind/resolve.c:bindBreakOrContinueStmt"]}
{"id": "C166", "title": "A switch without default skips values no case lists", "statement": "When no case lists the value and there is no default, the program goes on behind the switch.", "quantifier": "every switch, every value, every state", "why_tests_cant": "cases and values are unbounded", "anchors": ["src/cxy/lang/backend/c/generate.c:visitSwitchStmt", "src/cxy/lang/backend/c/generate.c:visitCaseStmt"]}
{"id": "C167", "title": "A string literal has its bytes in the program", "statement": "A string literal is in the compiled program the bytes it was written as: its characters in UTF-8 and the values of its escapes.", "quantifier": "every string literal", "why_tests_cant": "literals are unbounded; only some bytes and neighbours go wrong", "anchors": ["src/cxy/lang/backend/c/generate.c:visitStringLit", "src/cxy/core/format.c:printUtf8", "src/cxy/core/utils.c:escapeString"]}
{"id": "C168", "title": "A character literal has its character in the program", "statement": "Every character literal the compiler accepts is in the compiled program the number of its character.", "quantifier": "every character of Unicode", "why_tests_cant": "there are more than a million characters", "anchors": ["src/cxy/lang/backend/c/generate.c:visitCharLit", "src/cxy/core/format.c:printUtf8"]}
{"id": "C169", "title": "An integer literal has its value in the program", "statement": "An integer literal has in the compiled program the value it is written with.", "quantifier": "every integer type and every value of it", "why_tests_cant": "there are 2^64 values", "anchors": ["src/cxy/lang/backend/c/generate.c:visitIntegerLit"]}
{"id": "C170", "title": "A floating-point literal has its value in the program", "statement": "A floating-point literal is in the compiled program the double nearest to the number written.", "quantifier": "every literal", "why_tests_cant": "literals are unbounded", "anchors": ["src/cxy/lang/backend/c/generate.c:visitFloatLit", "src/cxy/core/format.c:formatArg"]}
{"id": "C171", "title": "Integer expressions have their value in the program", "statement": "An integer expression computes in C what it means: operands converted to the common type, results wrapped to it.", "quantifier": "every expression and all values of its variables", "why_tests_cant": "expressions and values are unbounded", "anchors": ["src/cxy/lang/backend/c/generate.c:visitBinaryExpr", "src/cxy/lang/backend/c/generate.c:visitIntegerLit", "src/cxy/lang/middle/sema/binary.c:checkBinaryExpr", "src/cxy/lang/frontend/ttable.c:promoteType"]}
{"id": "C172", "title": "Comparisons of integers give the right answer in the program", "statement": "A comparison of two integer expressions answers in C as the two numbers compare.", "quantifier": "every two expressions and all values of their variables", "why_tests_cant": "expressions and values are unbounded", "anchors": ["src/cxy/lang/backend/c/generate.c:visitBinaryExpr", "src/cxy/lang/middle/sema/binary.c:checkBinaryExpr", "src/cxy/lang/frontend/ttable.c:promoteType"]}
{"id": "C173", "title": "The count a send or an asynchronous write reports is what was written", "statement": "Whenever sendBuffer or writeAsync reports a count, exactly that many bytes, the first ones of the buffer in order, went out; and whatever they report, only a beginning of the buffer went out.", "quantifier": "every buffer and every sequence of answers of the operating system", "why_tests_cant": "short counts, full buffers and errors come in any sequence, and tests see the few the kernel happens to produce", "anchors": ["src/cxy/stdlib/tcp.cxy:sendBuffer", "src/cxy/stdlib/os.cxy:writeAsync"]}
{"id": "C174", "title": "A send waits until there is room", "statement": "A send or an asynchronous write that finds the buffer of the kernel full waits and goes on when there is room, so that a connected peer that reads receives everything.", "quantifier": "every buffer and every sequence of answers of the operating system", "why_tests_cant": "a test on one machine seldom fills the buffers of the kernel", "anchors": ["src/cxy/stdlib/tcp.cxy:sendBuffer", "src/cxy/stdlib/net.cxy:wait", "src/cxy/stdlib/os.cxy:writeAsync"]}
{"id": "C175", "title": "Received bytes are those that arrived, in order", "statement": "The bytes a sequence of receives gives are the bytes that arrived, in order and without gaps; no receive takes bytes and reports a failure.", "quantifier": "every sequence of receives and of answers of the operating system", "why_tests_cant": "the pieces in which bytes arrive, and errors between them, are not under the control of a test", "anchors": ["src/cxy/stdlib/tcp.cxy:receive", "src/cxy/stdlib/net.cxy:wait"]}
{"id": "C176", "title": "Sending a part of a file sends that part", "statement": "sendFile succeeds if the peer reads, and what was sent is the given part of the file, once.", "quantifier": "every file, part and sequence of answers of the operating system", "why_tests_cant": "the number of pieces in which the kernel takes a file is not under the control of a test", "anchors": ["src/cxy/stdlib/tcp.cxy:sendFile", "src/cxy/stdlib/tcp.cxy:Socket_sendfile"]}
{"id": "C177", "title": "Copying a file copies its content", "statement": "A copy that returns without raising has written exactly the content of the source.", "quantifier": "every file and every sequence of answers of the operating system", "why_tests_cant": "the pieces in which the kernel reads and writes are not under the control of a test", "anchors": ["src/cxy/stdlib/os.cxy:copy"]}
{"id": "C178", "title": "Reading a file gives its content", "statement": "readAsync and readAll give the content of the file or of the stream, raise if reading fails, and return.", "quantifier": "every content and every sequence of answers of the operating system", "why_tests_cant": "sizes and the pieces in which the content comes are unbounded", "anchors": ["src/cxy/stdlib/os.cxy:readAll", "src/cxy/stdlib/os.cxy:readAsync"]}
{"id": "C179", "title": "What a started program writes is what its parent reads", "statement": "The bytes a started program writes on its standard output and standard error are those read from stdout() and stderr(), complete and in order, and they end when the program ends, whatever other programs were started.", "quantifier": "every sequence of writes and of started programs", "why_tests_cant": "the sequences of writes and of programs are unbounded", "anchors": ["src/cxy/stdlib/os.cxy:execvpe"]}
{"id": "C180", "title": "What is written to the input of a started program reaches it", "statement": "The bytes written to stdin() of a started program are those the program reads from its standard input.", "quantifier": "every program and every sequence of writes", "why_tests_cant": "the tests start no program that reads", "anchors": ["src/cxy/stdlib/os.cxy:execvpe"]}
{"id": "C181", "title": "The reported exit code is how the program ended", "statement": "The code wait reports for a program is the code it ended with, and one killed by a signal is not reported as one that succeeded.", "quantifier": "every exit code and signal", "why_tests_cant": "the tests run two commands", "anchors": ["src/cxy/stdlib/os.cxy:Process", "src/cxy/stdlib/os.cxy:WIFEXITED"]}
{"id": "C182", "title": "Asking whether a program has ended does not lose its exit code", "statement": "waitAsync and isExited may be called at any time, in any order: a program is not reported as ended before it has, and the code reported in the end is the code it ended with.", "quantifier": "every sequence of calls and every moment at which the program ends", "why_tests_cant": "when a program ends relative to the calls is not under the control of a test", "anchors": ["src/cxy/stdlib/os.cxy:isExited", "src/cxy/stdlib/os.cxy:waitAsync"]}
{"id": "C183", "title": "JSON documents are read as what they say", "statement": "fromString of a JSON text gives the value the text says, whatever its layout, the order of its members and the depth of its nesting.", "quantifier": "every type and every JSON text of that type", "why_tests_cant": "types, layouts and nesting are unbounded; the tests only write JSON", "anchors": ["src/cxy/stdlib/json.cxy:parseJSON", "src/cxy/stdlib/json.cxy:JSONParser", "src/cxy/stdlib/json.cxy:expectFloat"]}
{"id": "C184", "title": "Members a structure does not know are skipped or refused", "statement": "A structure that allows partial reading reads the same value if members with other names are added anywhere, whatever their values; one that does not allow it refuses them.", "quantifier": "every structure, every document and every added member", "why_tests_cant": "the values of the members that are skipped are unbounded", "anchors": ["src/cxy/stdlib/json.cxy:fieldFromJSON", "src/cxy/stdlib/json.cxy:skipValue"]}
{"id": "C185", "title": "What is not JSON is refused", "statement": "fromString raises for texts that are no JSON text of the type: documents of another kind, missing or superfluous commas, and text behind the value.", "quantifier": "every type and every text", "why_tests_cant": "the set of wrong texts is unbounded", "anchors": ["src/cxy/stdlib/json.cxy:parseJSON", "src/cxy/stdlib/json.cxy:expectChar", "src/cxy/stdlib/json.cxy:consumeChar"]}
{"id": "C186", "title": "Reading JSON ends", "statement": "fromString returns or raises for every text: no text makes it run forever.", "quantifier": "every type and every text", "why_tests_cant": "a test that does not end shows nothing about the others", "anchors": ["src/cxy/stdlib/json.cxy:parseJSON", "src/cxy/stdlib/json.cxy:skipValue"]}
{"id": "C187", "title": "What is written as JSON is read back", "statement": "fromString of what toJSON writes for a value gives that value.", "quantifier": "every type and every value of it", "why_tests_cant": "types and values are unbounded; the tests never read", "anchors": ["src/cxy/stdlib/json.cxy:toJSON", "src/cxy/stdlib/json.cxy:fromString"]}
{"id": "C188", "title": "A union gives back what was stored in it", "statement": "After a value of a member type is stored in a union variable, `is` is true for exactly this type, `as` this type gives the value, and `as` any other member stops the program.", "quantifier": "every union type, every two members, every value and every state before", "why_tests_cant": "unions have any number of members", "anchors": ["src/cxy/lang/middle/sema/type.c:checkUnionDecl", "src/cxy/lang/frontend/types.c:findUnionTypeIndex", "src/cxy/lang/backend/c/generate.c:visitUnionValue", "src/cxy/lang/middle/simplify/simplify.c:visitCastExpr"]}
{"id": "C189", "title": "An `as` is checked where it stands", "statement": "A program that uses unions does what it says: `u as T` is evaluated once, and stops the program only when it is reached and `u` holds another type.", "quantifier": "every program, every state and every number of steps", "why_tests_cant": "programs are unbounded; the tests use `as` only at the top of statements", "anchors": ["src/cxy/lang/middle/simplify/simplify.c:visitCastExpr", "src/cxy/lang/middle/simplify/simplify.c:visitMatchStmt", "src/cxy/lang/backend/c/generate.c:visitMatchStmt"]}
{"id": "C190", "title": "match runs the case of what is held", "statement": "A `match` runs the body of the case that names the type held, with the case's variable set to the value held, and `else` if no case names it; cases that are accepted give valid C.", "quantifier": "every list of cases, every union and every state", "why_tests_cant": "lists of cases are unbounded", "anchors": ["src/cxy/lang/middle/sema/match.c:checkMatchStmt", "src/cxy/lang/middle/simplify/simplify.c:visitMatchStmt", "src/cxy/lang/backend/c/generate.c:visitMatchStmt"]}
{"id": "C191", "title": "A printed integer is the integer", "statement": "What `stream << n` appends for an integer is its decimal representation.", "quantifier": "every integer type and every value of it", "why_tests_cant": "2^64 values for each of the widest types", "anchors": ["src/cxy/runtime/builtins.cxy:OutputStream", "src/cxy/runtime/builtins.cxy:appendSignedInt"]}
{"id": "C192", "title": "Values that are printed alike are the same", "statement": "Every value of a printable type is printed without stopping the program, and two values of one type for which `stream << v` appends the same text are equal.", "quantifier": "every type built of integers, booleans, characters, strings, enumerations, optionals, structures, tuples, arrays and unions, and every two values", "why_tests_cant": "types nest without bound, and pairs of values cannot be enumerated", "anchors": ["src/cxy/runtime/builtins.cxy:OutputStream"]}
{"id": "C193", "title": "A printed character is the character", "statement": "What `stream << c` appends for a `char` is that character, so text printed character by character is the text.", "quantifier": "every value of char", "why_tests_cant": "the tests print ASCII only", "anchors": ["src/cxy/runtime/builtins.cxy:OutputStream", "src/cxy/runtime/builtins.cxy:appendChar"]}
{"id": "C194", "title": "Type arguments that are not written are those of the arguments", "statement": "A call of a generic function without (all) type arguments instantiates it with the types that its parameters give to the type parameters: `T` the type of the argument, `&T` and `^T` what it refers to; a type parameter that no parameter mentions is reported.", "quantifier": "every declaration, every list of type arguments and every list of arguments", "why_tests_cant": "declarations and lists of arguments are unbounded", "anchors": ["src/cxy/lang/middle/shake/shake.c:shakeGenericDecl", "src/cxy/lang/middle/shake/shake.c:inferGenericParamFromFuncParam", "src/cxy/lang/middle/sema/generics.c:inferGenericFunctionTypes", "src/cxy/lang/middle/sema/generics.c:resolveGenericDecl"]}
{"id": "C195", "title": "A closure can use the variables of the functions around it", "statement": "Every variable in scope that a closure names, of the function it is written in or of one further out, is reached by the code of the closure: the C that is written names, in each function, only variables of that function and fields that the object of the closure has.", "quantifier": "every function body with closures, nested to any depth, naming any variables in any order", "why_tests_cant": "nesting of closures and order of uses are unbounded; the tests have closures one deep", "anchors": ["src/cxy/lang/middle/bind/resolve.c:captureSymbol", "src/cxy/lang/middle/bind/resolve.c:bindClosureExpr", "src/cxy/lang/frontend/capture.c:addClosureCapture", "src/cxy/lang/middle/sema/closure.c:transformClosureToStructExpr", "src/cxy/lang/middle/simplify/simplify.c:visitPathExpr"]}
{"id": "C196", "title": "A slice is a window on its elements", "statement": "Indexing and storing through a slice read and change the element at that place of the sequence it shows and no other memory; a view shows the part asked for and shares it with the slice; indices, starts and counts outside stop the program.", "quantifier": "every memory, every slice, every index, start, count and stored value, and views of views", "why_tests_cant": "lengths and positions are unbounded", "anchors": ["src/cxy/runtime/builtins.cxy:Slice"]}
{"id": "C197", "title": "A loop over a slice visits every element once", "statement": "`for` over a slice visits each of its elements exactly once, in order, together with its index.", "quantifier": "every slice, of any length", "why_tests_cant": "lengths are unbounded; the tests loop over a few elements", "anchors": ["src/cxy/runtime/builtins.cxy:Slice"]}
{"id": "C198", "title": "A loop over an array or a string visits every element", "statement": "`for` over an array or a string runs its body once for each element or character, in order, with the element's index, until the body breaks or returns; so does `#for` over a string at compile time.", "quantifier": "every array, every string, every body, also one that changes the array", "why_tests_cant": "lengths and bodies are unbounded; the tests do not loop over strings", "anchors": ["src/cxy/lang/middle/simplify/simplify.c:simplifyForArrayStmt", "src/cxy/lang/middle/sema/for.c:checkForStmt", "src/cxy/lang/middle/eval/for.c:evalForStmtWithString"]}
{"id": "C199", "title": "A class has the operators of its bases", "statement": "An operator applied to an object of a class calls the function declared for it in the class or, if the class declares none, in the nearest base that does.", "quantifier": "every chain of classes and every operator that classes can overload", "why_tests_cant": "chains of classes are unbounded; the tests overload operators in classes without bases", "anchors": ["src/cxy/lang/middle/sema/for.c:findCustomRange", "src/cxy/lang/middle/sema/index.c:checkIndexOperator", "src/cxy/lang/middle/sema/assign.c:checkIndexExprAssignment", "src/cxy/lang/middle/sema/call.c:checkCallExpr", "src/cxy/lang/middle/sema/node.c:transformToTruthyOperator", "src/cxy/lang/middle/sema/node.c:transformToAwaitOperator", "src/cxy/lang/middle/sema/node.c:transformToDerefOperator", "src/cxy/lang/frontend/types.c:findOverloadMemberUpInheritanceChain"]}
{"id": "C200", "title": "Compile-time statements mean what they say", "statement": "A function with `#const`, `#{x = e}`, `#{x += e}`, `#if` and `#for` over a range behaves as if the `#` were not there: compile-time variables have the values the text gives them, `#if` selects one branch, `#for (const i: a..b)` runs its body for a, a+1, \u2026, b-1, nested as written.", "quantifier": "every program of these statements and of run-time assignments, calls, blocks, `if` and `while`, every state it is run from", "why_tests_cant": "nesting, ranges and run-time states are unbounded; the tests unroll single loops", "anchors": ["src/cxy/lang/middle/eval/eval.c:evalIfStmt", "src/cxy/lang/middle/eval/eval.c:evalAssignExpr", "src/cxy/lang/middle/eval/eval.c:evalVarDecl", "src/cxy/lang/middle/eval/for.c:evalForStmt", "src/cxy/lang/middle/eval/path.c:evalPath", "src/cxy/lang/middle/sema/check.c:checkBlockStmt", "src/cxy/lang/middle/sema/type.c:checkTypeShallow"]}
{"id": "C201", "title": "A compile-time assignment below a run-time condition follows the condition", "statement": "`#{x = e}` in a branch of a run-time `if`, or in a run-time loop, has its effect when and as often as that branch or loop body runs, or is rejected.", "quantifier": "every condition, every pair of values, every number of rounds", "why_tests_cant": "run-time values are unbounded; no test assigns a compile-time variable in a branch", "anchors": ["src/cxy/lang/middle/eval/eval.c:evalAssignExpr", "src/cxy/lang/middle/sema/if.c:checkIfStmt", "src/cxy/lang/middle/sema/check.c:checkWhileStmt"]}
{"id": "C202", "title": "`else #if` behind a run-time `if`", "statement": "In `if (c) A else #if (k) B else C; S` the statement selected at compile time runs when c is false, and S runs in both cases.", "quantifier": "every condition, all statements A, B, C and S", "why_tests_cant": "statements are unbounded; no test mixes the two kinds of `if`", "anchors": ["src/cxy/lang/middle/eval/eval.c:evalIfStmt", "src/cxy/lang/middle/sema/if.c:checkIfStmt", "src/cxy/lang/middle/shake/shake.c:shakeIfStmt", "src/cxy/lang/backend/c/generate.c:visitIfStmt"]}
{"id": "C203", "title": "A variable can be declared in the body of `#for`", "statement": "The body of `#for` may declare run-time variables; each round has its own.", "quantifier": "every range and every body that declares a variable", "why_tests_cant": "ranges are unbounded; the tests unroll bodies without declarations", "anchors": ["src/cxy/lang/middle/eval/for.c:getEvaluatedBody", "src/cxy/lang/middle/eval/for.c:evalForStmt", "src/cxy/lang/backend/c/generate.c:visitVariableDecl"]}
{"id": "C204", "title": "`#for` over a range with a step", "statement": "`#for (const i: range(a, b, s))` with s > 0 unrolls its body for a, a+s, \u2026 below b; a step that does not lead to the end is reported.", "quantifier": "all bounds and steps", "why_tests_cant": "bounds and steps are unbounded; no test gives a step at compile time", "anchors": ["src/cxy/lang/middle/eval/eval.c:evalRangeExpr", "src/cxy/lang/middle/eval/for.c:evalForStmtWithRange"]}
{"id": "C205", "title": "`#for` over an array literal passes one element per round", "statement": "`#for (const x: [e1, \u2026, en]) f(a, \u2026, #{x}, b, \u2026)` is unrolled to the n calls f(a, \u2026, ei, b, \u2026).", "quantifier": "every array literal, all arguments before and behind", "why_tests_cant": "lengths are unbounded; no test loops over an array at compile time", "anchors": ["src/cxy/lang/middle/eval/for.c:evalExprForStmtArray", "src/cxy/lang/middle/eval/path.c:evalPathEpilogue", "src/cxy/lang/frontend/ast.c:replaceAstNodeWith", "src/cxy/lang/frontend/ast.c:insertAstNode", "src/cxy/lang/middle/sema/call.c:checkFunctionCallEpilogue"]}
{"id": "C206", "title": "Local names mean the same in the C that is generated", "statement": "A name in a function stands for the same parameter or variable in the generated C code as in the source: the innermost declaration before it.", "quantifier": "every function made of parameters, nested blocks, declarations and uses", "why_tests_cant": "nesting and names are unbounded; the tests do not shadow parameters or read a hidden variable in an initialiser", "anchors": ["src/cxy/lang/backend/c/generate.c:generateVariableName", "src/cxy/lang/backend/c/generate.c:visitVariableDecl", "src/cxy/lang/middle/bind/resolve.c:bindVarDecl", "src/cxy/lang/middle/bind/scope.c:defineSymbol"]}
{"id": "C207", "title": "A declaration of several variables gives each its component", "statement": "`var a, _, b = init` evaluates init once, as a whole, before anything is declared; then each variable holds the component at its place and `_` drops one.", "quantifier": "every list of names, every initialiser (tuple expression, variable, any other expression), all states", "why_tests_cant": "lists, expressions and states are unbounded; the tests take apart a few constant tuples", "anchors": ["src/cxy/lang/middle/shake/shake.c:makeTupleMemberExpr", "src/cxy/lang/middle/shake/shake.c:shakeVariableInitializer", "src/cxy/lang/middle/shake/shake.c:shakeVariableDecl", "src/cxy/lang/middle/sema/member.c:checkMemberExpr"]}
{"id": "C208", "title": "A struct expression fills every field", "statement": "`S{a: x, b: y}` is accepted exactly if all names are fields of S and every field that is not named has a default; each field then holds the value written for it, otherwise its default, in every module.", "quantifier": "every list of members of the struct, every list of fields written, both in the module of the struct and in one that imports it", "why_tests_cant": "members and expressions are unbounded; the tests declare fields first and use structs in their own module", "anchors": ["src/cxy/lang/middle/sema/struct.c:checkStructExpr", "src/cxy/lang/middle/sema/struct.c:preCheckStructMembers", "src/cxy/lang/middle/simplify/simplify.c:visitStructDecl"]}
{"id": "C209", "title": "Default arguments", "statement": "A call that leaves out arguments passes for each the value of the parameter's default, where a parameter named in the default is the one of this call.", "quantifier": "every list of parameters and defaults, every number of arguments, every place where the call stands", "why_tests_cant": "defaults and callers are unbounded; the tests use literal defaults", "anchors": ["src/cxy/lang/middle/sema/call.c:checkFunctionCallEpilogue", "src/cxy/lang/middle/sema/function.c:checkFunctionParam", "src/cxy/lang/middle/bind/resolve.c:bindFuncParam"]}
{"id": "C210", "title": "Addresses made from text or a port", "statement": "`Address(text, port, mode)` is set exactly if the text is an IPv4 or IPv6 address of a kind the mode allows; it then has that host and port, the right length for the system, and prints as host:port. `Address(port, mode)` is the wildcard address with that port.", "quantifier": "every text, port below 65536, mode, previous contents of the memory, and every C library whose address functions keep their lengths", "why_tests_cant": "texts and contents of memory are unbounded; no test prints an address", "anchors": ["src/cxy/stdlib/net.cxy:Address", "src/cxy/stdlib/net.cxy:parseIpv4", "src/cxy/stdlib/net.cxy:parseIpv6"]}
{"id": "C211", "title": "The local address of an interface", "statement": "`getLocalAddress(name, port, mode)` gives, when the name is that of an interface, its first address of a kind the mode allows, IPv4 first, with the port; an address that is not set when there is none.", "quantifier": "every list of interfaces, name, port and mode", "why_tests_cant": "machines have any number of interfaces and addresses; a test sees one machine", "anchors": ["src/cxy/stdlib/net.cxy:getLocalAddress"]}
{"id": "C212", "title": "The address of another machine", "statement": "`getRemoteAddress(name, port, mode)` ends, with the first address of a kind the mode allows, IPv4 first, or with one that is not set; everything the resolver hands out is given back once.", "quantifier": "every sequence of answers of the resolver", "why_tests_cant": "answers come in any number and order; tests have no name server that fails", "anchors": ["src/cxy/stdlib/net.cxy:getRemoteAddress"]}
{"id": "C213", "title": "A connection that fails costs nothing", "statement": "`tcpConnect` gives an open non-blocking descriptor exactly if the connection comes about within the time allowed, and otherwise raises and leaves no descriptor behind.", "quantifier": "all answers of the system calls, any number of attempts", "why_tests_cant": "refused and slow connections need a network that misbehaves; leaks show only after many attempts", "anchors": ["src/cxy/stdlib/tcp.cxy:tcpConnect", "src/cxy/stdlib/tcp.cxy:configureSocket"]}
{"id": "C214", "title": "A listener holds one descriptor", "statement": "`listen` says true exactly if the socket is listening; `accept` gives the first connection, and null only for an error, a time-out or a closed listener; the only descriptors open are those of the connections handed out and that of the listener while it is listening.", "quantifier": "every sequence of listen, accept and close, all answers of the system calls, closing by other threads while accept waits", "why_tests_cant": "sequences and answers are unbounded; tests do not make system calls fail", "anchors": ["src/cxy/stdlib/tcp.cxy:TcpListener", "src/cxy/stdlib/tcp.cxy:accept", "src/cxy/stdlib/tcp.cxy:listen"]}
{"id": "C215", "title": "An address that is not set prints as no address", "statement": "The text of an address that is not set is \"0.0.0.0:0000\".", "quantifier": "all contents of the memory of the address", "why_tests_cant": "the text depends on memory that was never written; no test prints an address", "anchors": ["src/cxy/stdlib/net.cxy:Address", "src/cxy/stdlib/net.cxy:str"]}
{"id": "C216", "title": "`lshift!` prints all parts in order", "statement": "`lshift!(stream, a << b << \u2026)` prints a, b, \u2026 on the stream in this order, each part as a whole: a part in parentheses is printed as one value even if it contains `<<`.", "quantifier": "every message of one or more parts", "why_tests_cant": "messages are unbounded; no test uses lshift!", "anchors": ["src/cxy/lang/middle/eval/macro.c:lShift", "src/cxy/lang/middle/eval/macro.c:makeLShiftNode"]}
{"id": "C217", "title": "The log holds the messages that are severe enough", "statement": "The log of a program is one line for each message at least as severe as the level then set, with time, level, tag in ten characters and the parts in order; parts of other messages are not evaluated.", "quantifier": "every sequence of changes of the level and messages", "why_tests_cant": "sequences are unbounded; no test reads a log", "anchors": ["src/cxy/stdlib/log.cxy:Logger", "src/cxy/stdlib/log.cxy:__LOG", "src/cxy/stdlib/log.cxy:setLogLevel", "src/cxy/stdlib/log.cxy:FixedWidth"]}
{"id": "C218", "title": "Every module is compiled once, after what it imports", "statement": "When a program compiles, the code written is that of exactly the modules the main file needs, each once, each after all the modules it imports, the main file last.", "quantifier": "all sets of files and all ways in which they import one another", "why_tests_cant": "the ways files can import one another are unbounded; the tests have a handful of files", "anchors": ["src/cxy/driver/driver.c:compileModule", "src/cxy/driver/driver.c:compileFile", "src/cxy/driver/driver.c:findCachedModule", "src/cxy/lang/frontend/parser.c:parseImportDecl"]}
{"id": "C219", "title": "Modules that import one another are reported", "statement": "A program compiles exactly if all the files it needs are there and no module needs one that imports it; otherwise the compiler reports an error.", "quantifier": "all sets of files and all ways in which they import one another", "why_tests_cant": "a cycle through several files is not something a unit test contains, and a compiler that does not end fails no assertion", "anchors": ["src/cxy/driver/driver.c:compileModule", "src/cxy/driver/driver.c:addCachedModule"]}
{"id": "C220", "title": "Module-level variables hold the values of their initialisers", "statement": "When `main` starts, every module-level variable has the value that its initialiser has in the running program.", "quantifier": "all modules, variables and initialisers, whatever operators and functions compute", "why_tests_cant": "the order in which variables are set shows only when initialisers read other variables through functions", "anchors": ["src/cxy/lang/middle/simplify/simplify.c:visitVarDecl", "src/cxy/lang/middle/simplify/simplify.c:createModuleInit", "src/cxy/lang/backend/c/generate.c:visitVariableDecl", "src/cxy/lang/backend/c/generate.c:visitFuncDecl"]}
{"id": "C221", "title": "Any initialiser is accepted for a module-level variable", "statement": "A module-level variable may be initialised with any expression of its type, or not at all.", "quantifier": "all programs, all expressions", "why_tests_cant": "which expressions end up in a C initialiser depends on their form at any depth", "anchors": ["src/cxy/lang/frontend/ast.c:isStaticExpr", "src/cxy/lang/middle/simplify/simplify.c:visitVarDecl"]}
{"id": "C222", "title": "The imports of a file are read as written", "statement": "The imports at the top of a file are those written there, except that those marked `test` count only when compiling for tests, and of `define if` only those of the branch chosen.", "quantifier": "all sequences of imports in all their forms, with `define if` of any length, with and without tests", "why_tests_cant": "forms and lengths are unbounded; no test has an import marked `test` or a `define if` around imports", "anchors": ["src/cxy/lang/frontend/parser.c:parseImportDecl", "src/cxy/lang/frontend/parser.c:skipImportTestDecl", "src/cxy/lang/frontend/parser.c:conditionalTopLevelDecl", "src/cxy/lang/frontend/parser.c:parseProgram"]}
{"id": "C223", "title": "A statement reported as redundant does nothing", "statement": "The statements that the compiler reports it removes as redundant are ones that do nothing, and removing them is all that is done to a block.", "quantifier": "all blocks, all expressions", "why_tests_cant": "expressions are unbounded; warnings are not looked at by tests", "anchors": ["src/cxy/lang/middle/simplify/simplify.c:isRedundantExpression", "src/cxy/lang/middle/simplify/simplify.c:isRedundantStatement", "src/cxy/lang/middle/simplify/simplify.c:visitBlockStmt"]}
{"id": "C224", "title": "The function that is called is computed once", "statement": "In a call `e(args)` the expression `e` is evaluated once, and the function it gives is called with what that function has captured.", "quantifier": "all expressions with calls at any depth, all functions and states", "why_tests_cant": "what an expression in front of the parentheses does is unbounded; tests call functions by name", "anchors": ["src/cxy/lang/middle/sema/call.c:checkCallExpr", "src/cxy/lang/middle/simplify/simplify.c:visitMemberExpr"]}
{"id": "C225", "title": "Different declarations have different names in the C that is written", "statement": "Two different functions, variables, methods, types or enumeration options of a program have different names in the generated C.", "quantifier": "all programs, any number of modules and declarations, any names", "why_tests_cant": "a clash takes two names in two files that no test has together", "anchors": ["src/cxy/lang/backend/c/generate.c:generateCustomTypeName", "src/cxy/lang/backend/c/generate.c:generateFunctionName", "src/cxy/lang/backend/c/generate.c:generateVariableName"]}
{"id": "C226", "title": "An import or include reads the file its path names", "statement": "The file read for a path is that path in the directory of the importing file if it begins with `./`, else in the library directory, else in the directory the compiler was started in.", "quantifier": "all paths, directories and settings of any length", "why_tests_cant": "directories and paths are unbounded; tests run from one directory with one library", "anchors": ["src/cxy/driver/driver.c:getModuleLocation", "src/cxy/driver/driver.c:getIncludeFileLocation"]}
{"id": "C227", "title": "A file that is missing is reported", "statement": "If the file an import or include names does not exist, a message names it.", "quantifier": "all imports and includes, all file systems", "why_tests_cant": "each form of path with each missing file is a case of its own; none is tested", "anchors": ["src/cxy/driver/driver.c:compileModule", "src/cxy/driver/driver.c:getIncludeFileLocation"]}
{"id": "C228", "title": "An array literal or conditional keeps the values of its parts", "statement": "An array literal, or `c ? a : b`, is accepted only if its type can hold every value its parts can have.", "quantifier": "all lists of parts of primitive types, any length", "why_tests_cant": "combinations of types and values are unbounded", "anchors": ["src/cxy/lang/middle/sema/array.c:checkArrayExpr", "src/cxy/lang/middle/sema/check.c:checkTernaryExpr"]}
{"id": "C229", "title": "The order of the elements of an array does not matter", "statement": "Whether an array literal is accepted does not depend on the order of its elements.", "quantifier": "all array literals, any length, any order", "why_tests_cant": "orders are unbounded; tests list elements of one type", "anchors": ["src/cxy/lang/middle/sema/array.c:checkArrayExpr"]}
{"id": "C230", "title": "An array literal initialises an array of the declared type", "statement": "`var a: [T, n] = [...]` either gives an array of the declared type with the elements written or an error that says why not.", "quantifier": "all declared types and lengths, all literals", "why_tests_cant": "whether the C that comes out can be compiled shows for each combination of types and lengths only", "anchors": ["src/cxy/lang/middle/sema/variables.c:checkVarDecl", "src/cxy/lang/backend/c/generate.c:visitVariableDecl", "src/cxy/lang/backend/c/generate.c:visitArrayExpr"]}
{"id": "C231", "title": "A structure of a C header has the layout it has in C", "statement": "A structure or union imported from a C header has the size, the alignment and the offsets of its fields that it has in C.", "quantifier": "all structures and unions, nested to any depth, any number of fields", "why_tests_cant": "structures are unbounded; a wrong offset shows only when C code and cxy code share one", "anchors": ["src/cxy/driver/c-import/import.cpp:toCxy", "src/cxy/driver/c-import/import.cpp:getIntegerTypeFromBitWidth", "src/cxy/lang/backend/c/generate.c:generateStructType", "src/cxy/lang/backend/c/generate.c:generateUntaggedUnionType"]}
{"id": "C232", "title": "A constant of a C header has the value it has in C", "statement": "After `import` of a C header, the names its macros define have the values they have in C after that header.", "quantifier": "all headers: any number of definitions in any order, all values", "why_tests_cant": "orders of definitions and values are unbounded", "anchors": ["src/cxy/driver/c-import/import.cpp:MacroImporter", "src/cxy/driver/c-import/import.cpp:importMacroConstant", "src/cxy/driver/c-import/import.cpp:importMacroCall"]}
{"id": "C233", "title": "A class has the functions of the interfaces it implements", "statement": "A class that says it implements an interface is accepted exactly if it has, itself or from a base, every function of the interface with the same parameters and result.", "quantifier": "all classes and interfaces, any number of functions and bases, all types", "why_tests_cant": "interfaces and classes are unbounded", "anchors": ["src/cxy/lang/middle/sema/interface.c:checkTypeImplementsAllMembers", "src/cxy/lang/middle/sema/interface.c:checkImplements"]}
{"id": "C234", "title": "The marks stand under the text a message is about", "statement": "A message about a place of a source file shows the whole line and below it marks that stand under exactly the text the message is about.", "quantifier": "all files, all lines of any length, all places", "why_tests_cant": "lines and places are unbounded; the file is read in pieces of 64 bytes, so what is shown depends on where a line lies in the file", "anchors": ["src/cxy/core/log.c:printDiagnostic", "src/cxy/core/log.c:findLineBegin", "src/cxy/core/log.c:findLineEnd", "src/cxy/core/log.c:printFileLine", "src/cxy/core/log.c:printLineMarkers"]}
{"id": "C235", "title": "An ordinary build leaves tests out", "statement": "Building a program without tests compiles exactly the declarations that are not tests, whatever the tests contain.", "quantifier": "all files: any number of declarations and tests, bodies nested to any depth", "why_tests_cant": "bodies of tests are unbounded", "anchors": ["src/cxy/lang/frontend/parser.c:skipTestDecl", "src/cxy/lang/frontend/parser.c:testDecl", "src/cxy/lang/frontend/parser.c:parseProgram"]}
{"id": "C236", "title": "Test cases are compiled as written", "statement": "In a test build every test case becomes a function of its own that is run under its name, and declarations in `test { }` mean what they mean outside.", "quantifier": "all files: any number of tests and groups, nested to any depth", "why_tests_cant": "arrangements of tests and groups are unbounded", "anchors": ["src/cxy/lang/frontend/parser.c:testDecl", "src/cxy/lang/frontend/parser.c:testContextDeclaration", "src/cxy/lang/frontend/parser.c:declaration", "src/cxy/lang/middle/shake/shake.c:shakeTestDecl", "src/cxy/lang/middle/shake/shake.c:buildTestsVariable"]}
{"id": "C237", "title": "A failing test makes the test run fail", "statement": "The test command succeeds exactly if no test case fails, and it says how many failed.", "quantifier": "all lists of test cases, any length, all outcomes", "why_tests_cant": "numbers of failing tests are unbounded; the exit status has 8 bits", "anchors": ["src/cxy/runtime/builtins.cxy:runTests", "src/cxy/runtime/builtins.cxy:runTest", "src/cxy/lang/backend/c/generate.c:generateTestMainFunction", "src/cxy/lang/backend/c/generate.c:compilerBackendExecuteTestCase"]}
{"id": "C238", "title": "A question about a type is answered for the type, however it is named", "statement": "`T.isInteger`, `T.isPointer` and the like are answered as documented for the type T stands for, also through aliases and const.", "quantifier": "all types, any number of aliases and const around them, all questions", "why_tests_cant": "layers of aliases and const are unbounded", "anchors": ["src/cxy/lang/middle/eval/comptime.c:isSigned", "src/cxy/lang/middle/eval/comptime.c:isNumeric", "src/cxy/lang/middle/eval/comptime.c:isClosure", "src/cxy/lang/middle/eval/comptime.c:isEnum", "src/cxy/lang/middle/eval/comptime.c:isPointer", "src/cxy/lang/frontend/ttable.c:resolveType", "src/cxy/lang/frontend/types.c:isNumericType"]}
{"id": "C239", "title": "Code dropped as unreachable never runs", "statement": "Statements the compiler drops because they stand behind a return are never reached: the code generated for a function can do exactly what the function as written can do.", "quantifier": "all function bodies, any nesting of blocks, `if`, loops, `switch` and `match`, all executions also those that do not end", "why_tests_cant": "bodies and executions are unbounded", "anchors": ["src/cxy/lang/middle/sema/check.c:checkBlockStmt", "src/cxy/lang/middle/sema/check.c:hasUnreachable", "src/cxy/lang/middle/sema/check.c:reportUnreachable", "src/cxy/lang/middle/sema/if.c:checkIfStmt", "src/cxy/lang/middle/sema/switch.c:checkSwitchStmt", "src/cxy/lang/middle/sema/match.c:checkMatchStmt"]}
{"id": "C240", "title": "A function with a result gives one", "statement": "A function declared with a result type is accepted only if every execution that ends gives a value of that type.", "quantifier": "all function bodies, any nesting, all executions", "why_tests_cant": "bodies and executions are unbounded", "anchors": ["src/cxy/lang/middle/sema/function.c:checkFunctionBody", "src/cxy/lang/middle/sema/check.c:checkReturnStmt", "src/cxy/lang/middle/sema/check.c:checkBlockStmt"]}
{"id": "C241", "title": "Releasing a reference destroys what nothing refers to any more", "statement": "When a reference to an object is released, exactly the objects that can no longer be reached are destroyed, and what can still be reached stays as it was.", "quantifier": "all heaps: any number of objects, any references between them, chains of any length", "why_tests_cant": "object graphs are unbounded and a release goes through chains of any length", "anchors": ["src/cxy/runtime/builtins.cxy:__smart_ptr_drop", "src/cxy/lang/middle/sema/builtins.c:implementDestructorFunction", "src/cxy/lang/middle/sema/builtins.c:implementZeroMemory"]}
{"id": "C242", "title": "Assigning to a member stores the value as it was before", "statement": "`a.b.f = c.d` leaves the field holding the object `c.d` referred to before the assignment, and releases the one the field held, whatever the objects are.", "quantifier": "all heaps, all paths of any length on both sides", "why_tests_cant": "object graphs and paths are unbounded; the error needs the assigned value to be held only through the member that is replaced", "anchors": ["src/cxy/lang/middle/mem/manage.c:visitAssignExpr", "src/cxy/runtime/builtins.cxy:__smart_ptr_get", "src/cxy/runtime/builtins.cxy:__smart_ptr_drop"]}
{"id": "C243", "title": "What a value holds is released with it", "statement": "Destroying a value (a tuple, struct, union, optional or array, nested in any way) releases each reference to an object in it exactly once.", "quantifier": "all types nested to any depth, all values of them", "why_tests_cant": "types and values are unbounded; what is destroyed depends on flags that are passed on differently by each kind of type", "anchors": ["src/cxy/lang/frontend/types.c:isDestructible", "src/cxy/lang/middle/sema/tuple.c:checkTupleExpr", "src/cxy/lang/middle/sema/tuple.c:checkTupleType", "src/cxy/lang/middle/sema/builtins.c:implementDestructorFunction", "src/cxy/runtime/builtins.cxy:__tuple_dctor", "src/cxy/runtime/builtins.cxy:__union_dctor", "src/cxy/lang/backend/c/generate.c:visitBackendBfiDrop"]}
{"id": "C244", "title": "A copy holds references of its own", "statement": "Copying a value takes one more reference to each object in it, so that the copy and the original can be destroyed independently and in any order.", "quantifier": "all types nested to any depth, all values of them, also those that were moved from", "why_tests_cant": "types and values are unbounded", "anchors": ["src/cxy/lang/middle/sema/builtins.c:implementStructCopyFunction", "src/cxy/runtime/builtins.cxy:__tuple_copy", "src/cxy/runtime/builtins.cxy:__union_copy", "src/cxy/runtime/builtins.cxy:Optional", "src/cxy/lang/backend/c/generate.c:visitBackendBfiCopy"]}
{"id": "C245", "title": "Constructors inserted for an argument", "statement": "An argument is accepted for a parameter of class or struct type exactly if it can be assigned or if a chain of constructors leads from it to that type, each with one parameter and not marked @explicit; what is then passed is the value built by that chain.", "quantifier": "all sets of types and constructors, all chains of any length", "why_tests_cant": "types, constructors and chains are unbounded", "anchors": ["src/cxy/lang/middle/sema/struct.c:isExplicitConstructableFrom", "src/cxy/lang/middle/sema/struct.c:evalExplicitConstruction", "src/cxy/lang/middle/sema/function.c:matchOverloadedFunctionPerfectMatch", "src/cxy/lang/middle/sema/call.c:checkCallExpr"]}
{"id": "C246", "title": "Whether an argument can be passed is always answered", "statement": "For every call the compiler decides whether the arguments go with the parameters.", "quantifier": "all sets of types and constructors, also those that refer to each other or to themselves", "why_tests_cant": "the failure is recursion without end for a family of declarations; a test shows one of them at most", "anchors": ["src/cxy/lang/middle/sema/struct.c:isExplicitConstructableFrom", "src/cxy/lang/middle/sema/function.c:matchOverloadedFunctionPerfectMatch"]}
{"id": "C247", "title": "The end of an object of a derived class", "statement": "When an object is destroyed, each deinit of its class and of all bases runs exactly once, and what each field holds, own or inherited, is released exactly once.", "quantifier": "all chains of base classes of any length, all fields, all contents of them", "why_tests_cant": "hierarchies are unbounded", "anchors": ["src/cxy/lang/middle/sema/builtins.c:implementDestructorFunction", "src/cxy/lang/middle/sema/builtins.c:implementCallClassDestructor", "src/cxy/lang/middle/sema/builtins.c:implementCallClassDeinit", "src/cxy/lang/middle/sema/class.c:preCheckClassMembers", "src/cxy/runtime/builtins.cxy:__smart_ptr_drop"]}
{"id": "C248", "title": "deinit sees the object as it was", "statement": "While a deinit runs, the fields that it can use, own and inherited, still hold what they held before the object was destroyed.", "quantifier": "all chains of base classes of any length, every class in them, all contents of fields", "why_tests_cant": "hierarchies are unbounded; the failure needs a base that holds something the derived class uses at the end", "anchors": ["src/cxy/lang/middle/sema/builtins.c:implementDestructorFunction", "src/cxy/lang/middle/sema/builtins.c:implementCallClassDestructor", "src/cxy/lang/middle/sema/builtins.c:implementZeroMemory"]}
{"id": "C249", "title": "Removing a path removes that and nothing else", "statement": "remove(path, true) removes the file, link or directory with everything in it, and nothing that is not below the path; remove(path) removes a file or an empty directory only.", "quantifier": "all file systems with directories nested to any depth, files and symbolic links anywhere", "why_tests_cant": "file systems are unbounded; damage is done outside the tree that a test would look at", "anchors": ["src/cxy/stdlib/path.cxy:remove", "src/cxy/stdlib/path.cxy:isdir", "src/cxy/stdlib/path.cxy:exists", "src/cxy/stdlib/path.cxy:isDirEmpty", "src/cxy/stdlib/path.cxy:ls"]}
{"id": "C250", "title": "Listing a directory", "statement": "ls calls its callback once with each entry (with `recursive`, once with everything below), and makes no further call once the callback has returned false.", "quantifier": "all directory trees, all callbacks (also those that decide by earlier calls)", "why_tests_cant": "trees and callbacks are unbounded", "anchors": ["src/cxy/stdlib/path.cxy:ls"]}
{"id": "C251", "title": "Making directories with parents", "statement": "mkdirs makes the directory and all missing directories on the way to it, and no others, and succeeds if they are there in the end.", "quantifier": "all paths, all sets of directories that exist before", "why_tests_cant": "paths and file systems are unbounded", "anchors": ["src/cxy/stdlib/path.cxy:mkdirs", "src/cxy/stdlib/path.cxy:mkdir", "src/cxy/stdlib/path.cxy:dirname", "src/cxy/stdlib/path.cxy:exists"]}
{"id": "C252", "title": "Files, directories and links are told apart", "statement": "isfile and isdir say whether a path leads to a file or a directory (following links); islink says whether it is a symbolic link.", "quantifier": "all file systems, all objects in them", "why_tests_cant": "file systems are unbounded; a test sees one answer each", "anchors": ["src/cxy/stdlib/path.cxy:isfile", "src/cxy/stdlib/path.cxy:isdir", "src/cxy/stdlib/path.cxy:islink"]}
{"id": "C253", "title": "New objects have the default values of their fields", "statement": "In a new object of a class, before its constructor runs, each field that was declared with a default value, in the class or in one of its bases, has that value; other fields are zero.", "quantifier": "all chains of classes of any length, all sets of fields and default values", "why_tests_cant": "chains of classes and fields are unbounded; a test sees one class", "anchors": ["src/cxy/lang/middle/sema/node.c:implementDefaultInitializer", "src/cxy/lang/middle/sema/node.c:implementCallBaseInitDefaults", "src/cxy/lang/middle/sema/node.c:createCallDefaultInitializer", "src/cxy/lang/middle/sema/node.c:createInitializerCoverBody", "src/cxy/lang/middle/sema/class.c:inheritClassMembers"]}
{"id": "C254", "title": "Sending over an encrypted socket", "statement": "SslSocket.sendBuffer puts the bytes of the buffer on the connection in order, none twice and none left out, whatever the size of the pieces that are taken; it returns the size only if all were taken, and it does so as long as the connection works.", "quantifier": "all buffers and sizes, all sequences of partial writes, waits, timeouts and errors", "why_tests_cant": "the sequences of partial writes and waits are unbounded and depend on the peer", "anchors": ["src/cxy/stdlib/ssl.cxy:sendBuffer"]}
{"id": "C255", "title": "Receiving from an encrypted socket", "statement": "SslSocket.receive returns at most the number of bytes asked for, the next ones that arrive, in order; no byte that was taken from the connection is lost, and zero means that the connection has ended.", "quantifier": "all sizes, all bytes that arrive, all sequences of partial reads, waits, timeouts and errors", "why_tests_cant": "the sequences of partial reads and waits are unbounded and depend on the peer", "anchors": ["src/cxy/stdlib/ssl.cxy:receive"]}
{"id": "C256", "title": "Sending a part of a file over an encrypted socket", "statement": "SslSocket.sendFile sends the bytes of the file from the offset on, as many as asked for, in order.", "quantifier": "all files, offsets, counts and page sizes, all sequences of partial writes", "why_tests_cant": "files, offsets and partial writes are unbounded", "anchors": ["src/cxy/stdlib/ssl.cxy:sendFile"]}
{"id": "C257", "title": "Arguments with ... are evaluated once and in order", "statement": "In a call f(a, ...b, c) each argument is evaluated exactly once, from left to right, also those that are spread with `...`.", "quantifier": "all lists of arguments, with and without `...`, for all effects of the expressions on each other", "why_tests_cant": "lists of arguments and the effects of expressions are unbounded", "anchors": ["src/cxy/lang/middle/sema/check.c:checkSpreadExpr", "src/cxy/lang/middle/sema/check.c:makeSpreadVariable", "src/cxy/lang/middle/sema/call.c:checkFunctionCallEpilogue"]}
{"id": "C258", "title": "Arguments with ... pass the members of the tuple", "statement": "An argument `...t` passes the members of the tuple t in order at its place among the arguments, none left out and none twice.", "quantifier": "all lists of arguments, all tuples of any length", "why_tests_cant": "lists of arguments and tuples are unbounded", "anchors": ["src/cxy/lang/middle/sema/check.c:checkSpreadExpr", "src/cxy/lang/middle/sema/check.c:makeSpreadVariable", "src/cxy/lang/middle/sema/call.c:checkFunctionCallEpilogue"]}
{"id": "C259", "title": "The members of a module are what it declares", "statement": "The names that can be used from an imported module are those of all its declarations, in order, with aliases in place of names that have one; imports and C code are not members, and building the list stays within its memory.", "quantifier": "all lists of declarations at the beginning of a file and behind it", "why_tests_cant": "lists of declarations are unbounded; a write behind the end of an array often goes unnoticed in a test", "anchors": ["src/cxy/lang/frontend/module.c:buildModuleType", "src/cxy/lang/frontend/module.c:addModuleTypeMember", "src/cxy/lang/frontend/module.c:addDefineToModuleMembers", "src/cxy/lang/frontend/ast.c:countProgramDecls"]}
{"id": "C260", "title": "A transform of a tuple type keeps the right members", "statement": "The transform of a tuple type has the transformed types of exactly those members for which the condition holds, in order, each seen with its own index; it is an error exactly if a condition is not a boolean or a member that is kept has no transformed type.", "quantifier": "all tuples, conditions and transforms, with and without a variable for the index", "why_tests_cant": "tuples, conditions and transforms are unbounded", "anchors": ["src/cxy/lang/middle/eval/xform.c:evalXformType"]}
{"id": "C261", "title": "An index at compile time gives the element", "statement": "`#{x.[i]}` gives the element of x at i for strings, arrays, tuples, attributes and the members of declarations, and is an error exactly if there is none.", "quantifier": "all targets and all integers", "why_tests_cant": "targets and indexes are unbounded; what a wrong length is depends on what is in memory", "anchors": ["src/cxy/lang/middle/eval/index.c:evalIntegerIndexExpr", "src/cxy/lang/middle/eval/index.c:evalAstNodeAtIndex", "src/cxy/lang/frontend/parser.c:array", "src/cxy/lang/middle/eval/eval.c:evalArrayExpr", "src/cxy/lang/middle/eval/comptime.c:comptimeWrapped"]}
{"id": "C262", "title": "An index at compile time is one argument", "statement": "A call with `#{x.[i]}` among its arguments passes the element in its place and the other arguments as written.", "quantifier": "all lists of arguments and all tuples, any index", "why_tests_cant": "lists of arguments and tuples are unbounded", "anchors": ["src/cxy/lang/middle/eval/index.c:evalAstNodeAtIndex", "src/cxy/lang/middle/sema/call.c:checkFunctionCallEpilogue", "src/cxy/lang/frontend/ast.c:insertAstNode"]}
{"id": "C263", "title": "Options of a build are set once", "statement": "`setOption` raises exactly if the option was set before, and then leaves its value as it was; `option` gives the value that was set, and raises exactly for options that were never set.", "quantifier": "all histories of calls of setOption, all names and values", "why_tests_cant": "histories are unbounded; a test of what is raised does not look at the value then", "anchors": ["src/cxy/stdlib/build.cxy:Context.setOption", "src/cxy/stdlib/build.cxy:Context.option", "src/cxy/stdlib/hash.cxy:insert"]}
{"id": "C264", "title": "A build runs every task once", "statement": "The task of a name is the first that was added; adding another raises and changes nothing. Running the build calls the task of each name exactly once, up to the first that raises.", "quantifier": "all histories of calls of addTask, all orders in which the tasks are visited", "why_tests_cant": "histories and orders are unbounded", "anchors": ["src/cxy/stdlib/build.cxy:Builder.addTask", "src/cxy/stdlib/build.cxy:Builder.run"]}
{"id": "C265", "title": "Options of a program get the values that were set", "statement": "After `bindOptions` each option of the program whose name was set has the value that was set.", "quantifier": "all options of a program and all options of a build", "why_tests_cant": "structures and options are unbounded", "anchors": ["src/cxy/stdlib/build.cxy:Context.bindOptions", "src/cxy/stdlib/build.cxy:Context.bindOption", "src/cxy/stdlib/build.cxy:Option.set"]}
{"id": "C266", "title": "Types are compared at compile time as they should be", "statement": "`#T == #U` is true exactly if T and U are the same type, whatever they are made of, and `#T != #U` is the opposite.", "quantifier": "all types, nested to any depth", "why_tests_cant": "types are unbounded; a comparison that is false by mistake just selects another branch", "anchors": ["src/cxy/lang/middle/eval/eval.c:comptimeCompareTypes", "src/cxy/lang/middle/eval/eval.c:comptimeCompareManyTypes", "src/cxy/lang/middle/eval/binary.c:CXY_DEFINE_BINARY_EQ_COMP_OPERATOR"]}
{"id": "C267", "title": "The body of a response to a fetch arrives", "statement": "A fetch gives the body of the response, whether its end is given by a length or by the end of the connection, however the bytes are split on their way; it raises exactly if the body is cut off.", "quantifier": "all bodies, all ways to split them", "why_tests_cant": "bodies and splits are unbounded", "anchors": ["src/cxy/stdlib/fetch.cxy:receive", "src/cxy/stdlib/fetch.cxy:feed", "src/cxy/stdlib/fetch.cxy:onBodyPart", "src/cxy/stdlib/fetch.cxy:responseParserOnMessageComplete"]}
{"id": "C268", "title": "The writer of a fetch gets the body", "statement": "A writer that accepts what it is given gets all parts of the body in order, and the fetch succeeds.", "quantifier": "all bodies, all ways to split them, all writers", "why_tests_cant": "bodies, splits and writers are unbounded", "anchors": ["src/cxy/stdlib/fetch.cxy:onBodyPart", "src/cxy/stdlib/fetch.cxy:onHeadersComplete", "src/cxy/stdlib/fetch.cxy:receive"]}
{"id": "C269", "title": "A branch is taken exactly if its condition is true", "statement": "Every condition of `if` and `while` that is accepted is compiled, and the branch is taken exactly if the value is true: a boolean that is true, a number or pointer that is not null, an object whose closest `!!` says so.", "quantifier": "all types, all values", "why_tests_cant": "types nest without bound and values are too many", "anchors": ["src/cxy/lang/middle/simplify/simplify.c:simplifyCondition", "src/cxy/lang/middle/sema/if.c:checkIfStmt", "src/cxy/lang/middle/sema/check.c:checkWhileStmt", "src/cxy/lang/middle/sema/node.c:transformToTruthyOperator", "src/cxy/lang/frontend/types.c:isTruthyType"]}
{"id": "C270", "title": "Conditions of `?:` work as those of `if`", "statement": "A condition that is accepted in `?:` is compiled to code that is valid.", "quantifier": "all types", "why_tests_cant": "types nest without bound", "anchors": ["src/cxy/lang/middle/sema/check.c:checkTernaryExpr", "src/cxy/lang/backend/llvm/generate.cpp:visitTernaryExpr", "src/cxy/lang/frontend/types.c:isTruthyType"]}
{"id": "C271", "title": "`!x` is the opposite of `x`", "statement": "Where both are accepted exactly one of `if (x)` and `if (!x)` is taken.", "quantifier": "all types, all values", "why_tests_cant": "values are too many", "anchors": ["src/cxy/lang/middle/sema/unary.c:checkPrefixExpr", "src/cxy/lang/backend/llvm/generate.cpp:visitPrefixUnaryExpr", "src/cxy/lang/middle/sema/node.c:transformToTruthyOperator"]}
{"id": "C272", "title": "Exceptions of the compiler reach the closest handler", "statement": "An exception raised in the compiler ends all statements up to the closest handler for its type, which then runs; without a handler the process exits with it.", "quantifier": "all programs of nested statements, handlers and exceptions", "why_tests_cant": "programs nest without bound", "anchors": ["src/cxy/core/e4c.c:e4c_try", "src/cxy/core/e4c.c:e4c_hook", "src/cxy/core/e4c.c:e4c_propagate", "src/cxy/core/e4c.h:E4C_TRY_BLOCK"]}
{"id": "C273", "title": "Blocks can be nested", "statement": "A function whose blocks are nested without an error is parsed.", "quantifier": "all depths", "why_tests_cant": "depths are unbounded", "anchors": ["src/cxy/lang/frontend/parser.c:block", "src/cxy/lang/frontend/parser.c:parseProgram", "src/cxy/core/e4c.c:e4c_try"]}
{"id": "C274", "title": "All functions with errors are reported", "statement": "Every function with a syntax error in its body has the error reported, and functions behind it are parsed as if there had been none.", "quantifier": "all numbers of functions and errors", "why_tests_cant": "programs are unbounded", "anchors": ["src/cxy/lang/frontend/parser.c:block", "src/cxy/lang/frontend/parser.c:parseProgram", "src/cxy/core/e4c.c:e4c_hook"]}
{"id": "C275", "title": "After an error in a block parsing goes on at its end", "statement": "After a syntax error in a block nothing but the rest of that block is skipped: code behind the block is parsed as if there had been no error.", "quantifier": "all code, all places of the error", "why_tests_cant": "code nests without bound", "anchors": ["src/cxy/lang/frontend/parser.c:block", "src/cxy/lang/frontend/parser.c:synchronizeUntil", "src/cxy/lang/frontend/parser.c:parserError"]}
{"id": "C276", "title": "After an error in a declaration parsing goes on at the next", "statement": "After a syntax error in a declaration that is not in a block, parsing goes on at the next declaration, and comes to an end.", "quantifier": "all code, all places of the error", "why_tests_cant": "code is unbounded", "anchors": ["src/cxy/lang/frontend/parser.c:parseProgram", "src/cxy/lang/frontend/parser.c:synchronize", "src/cxy/lang/frontend/parser.c:parserError", "src/cxy/lang/frontend/parser.c:declaration"]}
{"id": "C277", "title": "Attributes keep their arguments", "statement": "The arguments of an attribute, literals with or without names, arrive all, in order and with their names.", "quantifier": "all numbers of arguments, all literals", "why_tests_cant": "lists of arguments are unbounded", "anchors": ["src/cxy/lang/frontend/parser.c:attribute"]}
{"id": "C278", "title": "A thread is joined once", "statement": "After `join` on a thread that was launched it has ended, and no thread is waited for twice, however often `join` is called.", "quantifier": "all programs of launches, copies and joins", "why_tests_cant": "programs are unbounded", "anchors": ["src/cxy/stdlib/thread.cxy:Thread", "src/cxy/stdlib/thread.cxy:join", "src/cxy/stdlib/thread.cxy:__launch"]}
