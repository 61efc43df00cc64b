{
 "claims": [
  {
   "property": "C01",
   "status": "proved",
   "theorems": [
    "Verif.HTable.history_matches_set"
   ],
   "note": "All histories of insert/find/clear, any client equality with a compatible hash, any initial capacity."
  },
  {
   "property": "C02",
   "status": "proved",
   "theorems": [
    "Verif.HTable.history_leaves_free_bucket"
   ],
   "note": ""
  },
  {
   "property": "C03",
   "status": "partial",
   "theorems": [
    "Verif.HTable.removal_can_lose_another_element",
    "Verif.HTable.removal_keeps_others_partial",
    "Verif.HTable.removal_loses_first_bucket"
   ],
   "note": "The property is false of the code: the first theorem is a concrete counterexample, the third loses an element in every table whose occupied chain reaches the last bucket and whose bucket 0 holds an element that belongs there. The second gives the condition under which removal keeps every other element."
  },
  {
   "property": "C04",
   "status": "proved",
   "theorems": [
    "Verif.HTable.enumeration_is_contents",
    "Verif.HTable.enumeration_stops"
   ],
   "note": ""
  },
  {
   "property": "C05",
   "status": "proved",
   "theorems": [
    "Verif.Hmap.fresh_history_matches_map"
   ],
   "note": "Every history in which each put is of an absent element, including removals."
  },
  {
   "property": "C06",
   "status": "partial",
   "theorems": [
    "Verif.Hmap.reput_can_duplicate",
    "Verif.Hmap.reput_replaces_partial",
    "Verif.Hmap.reput_duplicates_iff"
   ],
   "note": "False of the code: re-putting a key that is not first among the keys of its home slot stores a second copy. The last theorem says exactly when, for all reachable states in which the table does not have to grow; the second gives what the map holds otherwise."
  },
  {
   "property": "C07",
   "status": "partial",
   "theorems": [
    "Verif.Hmap.put_after_clear_undefined",
    "Verif.Hmap.cleared_map_is_empty_partial"
   ],
   "note": "False of the code: a put after clear computes a remainder modulo zero. Lookup, removal and size after clear are those of an empty map."
  },
  {
   "property": "C08",
   "status": "partial",
   "theorems": [
    "Verif.StrPool.interning_correct_partial",
    "Verif.StrPool.interning_can_return_another_string",
    "Verif.StrPool.collision_is_mishandled"
   ],
   "note": "False of the code: interning s after sst5lrt returns sst5lrt. Correct for every history without 31-bit hash collisions; every collision is mishandled (wrong string or undefined behaviour)."
  },
  {
   "property": "C09",
   "status": "proved",
   "theorems": [
    "Verif.Hash.hashRawBytes_is_fnv1a",
    "Verif.Hash.hashInit_is_offset",
    "Verif.Hash.hashStr_is_fnv1a",
    "Verif.Hash.hashUint16_is_fnv1a",
    "Verif.Hash.hashUint32_is_fnv1a",
    "Verif.Hash.hashUint64_is_fnv1a",
    "Verif.Hash.hashRawBytes_append"
   ],
   "note": ""
  },
  {
   "property": "C10",
   "status": "proved",
   "theorems": [
    "Verif.MemPool.allocations_disjoint",
    "Verif.MemPool.allocation_has_size"
   ],
   "note": "All histories of allocations (also through empty free lists) and resets; the block assertions never fail."
  },
  {
   "property": "C11",
   "status": "partial",
   "theorems": [
    "Verif.MemPool.reset_aliases_cached_item",
    "Verif.MemPool.larger_request_overlaps",
    "Verif.MemPool.reset_then_cache_aliases",
    "Verif.MemPool.cache_ignores_size",
    "Verif.MemPool.live_allocations_disjoint_partial"
   ],
   "note": "False of the code: free lists survive a reset, and ignore the requested size; the first two theorems show both after any history that leaves an item in a free list. Holds when no reset follows a return to a free list and each list is used with one size."
  },
  {
   "property": "C12",
   "status": "proved",
   "theorems": [
    "Verif.DynArray.history_matches_list"
   ],
   "note": ""
  },
  {
   "property": "C13",
   "status": "partial",
   "theorems": [
    "Verif.Sb.release_is_concat_partial",
    "Verif.Sb.reuse_after_release_partial",
    "Verif.Sb.released_without_append_unterminated",
    "Verif.Sb.append_after_empty_diverges"
   ],
   "note": "Holds for every non-empty sequence of appends on a new builder. False without appends (unterminated buffer) and for an empty first append on a released builder (endless loop). Float output not modelled."
  },
  {
   "property": "C14",
   "status": "partial",
   "theorems": [
    "Verif.Text.builder_writes_utf8",
    "Verif.Text.format_writes_utf8",
    "Verif.Text.reader_inverts_encoder",
    "Verif.Text.stream_writes_utf8_partial",
    "Verif.Text.stream_wrong_above_bmp"
   ],
   "note": "Proved for the two compiler encoders and all Unicode characters. The stdlib output stream is right up to U+FFFF and wrong for every character above."
  },
  {
   "property": "C15",
   "status": "proved",
   "theorems": [
    "Verif.Format.output_is_concatenation"
   ],
   "note": "The conversion of numbers by snprintf is a parameter."
  },
  {
   "property": "C16",
   "status": "proved",
   "theorems": [
    "Verif.Search.binarySearch_exact"
   ],
   "note": ""
  },
  {
   "property": "C17",
   "status": "partial",
   "theorems": [
    "Verif.Text.escaped_text_reads_back_partial",
    "Verif.Text.literal_reads_back_partial",
    "Verif.Text.escaped_nul_swallows_digits",
    "Verif.Text.escaped_char_backslash_lost",
    "Verif.Text.literal_escaped_backslash_wrong"
   ],
   "note": "False of the code in three ways (theorems); the two partial theorems give the exact side conditions under which printing and reading are inverse."
  },
  {
   "property": "C18",
   "status": "partial",
   "theorems": [
    "Verif.Lexer.lexing_ends_partial",
    "Verif.Lexer.tokens_cover_source",
    "Verif.Lexer.unterminated_string_diverges",
    "Verif.Lexer.unterminated_char_diverges",
    "Verif.Lexer.binary_literal_at_eof_never_lexed",
    "Verif.Lexer.char_literal_at_eof_undefined"
   ],
   "note": "Ordering and coverage hold for every source that is lexed. Termination is proved for every source ending in a newline that is not preceded by a backslash; it is false of the code otherwise: an unterminated string or character literal at the end of the file makes the lexer loop forever, and a prefixed literal that ends the file recurses without end."
  },
  {
   "property": "C19",
   "status": "proved",
   "theorems": [
    "Verif.Lexer.Comment.comment_skipped_exactly",
    "Verif.Lexer.Comment.skipped_comment_is_balanced",
    "Verif.Lexer.Comment.unbalanced_comment_runs_to_end",
    "Verif.Lexer.Comment.no_close_unbalanced"
   ],
   "note": ""
  },
  {
   "property": "C20",
   "status": "proved",
   "theorems": [
    "Verif.Parser.printed_expression_is_read_back",
    "Verif.Parser.two_operators"
   ],
   "note": "Covers prefix, postfix, call, index, member, assignment and conditional expressions as well."
  },
  {
   "property": "C21",
   "status": "partial",
   "theorems": [
    "Verif.Prim.assignable_keeps_value_partial",
    "Verif.Prim.value_preserving_is_assignable",
    "Verif.Codegen.assignment_stores_value_partial",
    "Verif.Prim.unsigned_accepts_negative"
   ],
   "note": "False of the code from signed to unsigned (last theorem, for every such pair). True for every other accepted pair, also of the stored value in the generated code; and every value-preserving pair is accepted."
  },
  {
   "property": "C22",
   "status": "partial",
   "theorems": [
    "Verif.Prim.promote_sound_partial",
    "Verif.Prim.promote_loses_value",
    "Verif.Prim.promote_depends_on_order"
   ],
   "note": "False of the code for mixed signedness unless the signed type is strictly bigger: the promoted type then loses a value, and with equal sizes it depends on the operand order. True in all other cases."
  },
  {
   "property": "C23",
   "status": "partial",
   "theorems": [
    "Verif.Prim.case_range_exact_partial",
    "Verif.Prim.case_range_from_negative_rejected"
   ],
   "note": "Exact for signed condition types and for ranges that do not start below zero; for narrower unsigned types every range from a negative to a non-negative number is wrongly rejected. Enum condition types are not modelled."
  },
  {
   "property": "C24",
   "status": "partial",
   "theorems": [
    "Verif.TypeTable.interning_canonical_partial",
    "Verif.TypeTable.compareTypes_exact",
    "Verif.TypeTable.clean_qualifiers",
    "Verif.TypeTable.byName_iff",
    "Verif.TypeTable.const_pointer_has_two_handles",
    "Verif.TypeTable.pointer_to_const_is_const_pointer",
    "Verif.TypeTable.function_type_depends_on_order",
    "Verif.TypeTable.inferred_return_type_duplicates"
   ],
   "note": "Proved for histories in which each kind of type receives its qualifiers in one way only and no alias is extern. False of the code otherwise: a qualified pointer requested as a pointer or as a wrapper gets two handles, a pointer to const and a const pointer get one, named functions depend on the order of requests, and inference of a return type leaves duplicates. Literal, container, this, generic, applied, exception, module and struct types are not modelled."
  },
  {
   "property": "C25",
   "status": "partial",
   "theorems": [
    "Verif.Mangle.overloads_apart_partial",
    "Verif.Mangle.plain_names_apart",
    "Verif.Mangle.const_is_char",
    "Verif.Mangle.results_collide",
    "Verif.Mangle.underscore_collides"
   ],
   "note": "False of the code: const t and (char, t) have one encoding, all result types are encoded alike, and type names with underscores or namespaces run together. Proved without these, for all nested types. Float and string literal arguments are not modelled."
  },
  {
   "property": "C26",
   "status": "partial",
   "theorems": [
    "Verif.Eval.comptime_agrees_with_runtime_partial",
    "Verif.Eval.comptime_comparison_agrees_partial",
    "Verif.Eval.negative_result_undefined",
    "Verif.Eval.comptime_loses_precision",
    "Verif.Eval.comptime_equality_wrong",
    "Verif.Eval.shift_disagrees",
    "Verif.Eval.comptime_division_by_zero",
    "Verif.Eval.comptime_negated_float_truncated"
   ],
   "note": "Proved for expression trees of any size whose intermediate values are exact in a double, non-negative at binary operators, and without >> of a negative. Outside that range the other theorems show disagreement or undefined behaviour in the compiler. The preprocessor applies the same arithmetic to every operator on literals, see C65."
  },
  {
   "property": "C27",
   "status": "partial",
   "theorems": [
    "Verif.Scope.names_resolve_partial",
    "Verif.Scope.import_then_declare_undefined"
   ],
   "note": "False of the code when a function entered as a plain symbol (an imported entity) is followed by a function declaration of that name: the overload chain is NULL. Proved for all other histories."
  },
  {
   "property": "C28",
   "status": "proved",
   "theorems": [
    "Verif.Suggest.distance_exact",
    "Verif.Suggest.distance_or_beyond"
   ],
   "note": ""
  },
  {
   "property": "C29",
   "status": "partial",
   "theorems": [
    "Verif.Defer.defers_run_partial",
    "Verif.Defer.bare_return_in_case"
   ],
   "note": "False of the code when a switch case is a bare return (break, continue, defer): the deferred statements run before the switch, whether or not the case is taken. Proved for all other programs, by simulation with a semantics of defer."
  },
  {
   "property": "C30",
   "status": "partial",
   "theorems": [
    "Verif.Vector.vector_is_sequence_partial",
    "Verif.Vector.vector_is_sequence_without_shrink_partial",
    "Verif.Vector.push_at_small_capacity_undefined",
    "Verif.Vector.push_after_shrink_undefined"
   ],
   "note": "False of the code at capacity 0 and 1: the growth rule capacity + capacity/2 does not grow and the next push writes out of bounds. Proved whenever growth happens at capacity 2 or more."
  },
  {
   "property": "C31",
   "status": "proved",
   "theorems": [
    "Verif.ListQ.list_is_fifo"
   ],
   "note": ""
  },
  {
   "property": "C32",
   "status": "partial",
   "theorems": [
    "Verif.Trie.trie_lookup_partial",
    "Verif.Trie.adding_twice_fails",
    "Verif.Trie.empty_key_never_found"
   ],
   "note": "False of the code for the empty key, which can be added but is never found. Proved for all other keys."
  },
  {
   "property": "C33",
   "status": "proved",
   "theorems": [
    "Verif.HashMap.history_matches_map"
   ],
   "note": "Histories of insert (with and without replacement), get, contains, size, clear."
  },
  {
   "property": "C34",
   "status": "partial",
   "theorems": [
    "Verif.HashMap.removal_can_lose_another_key",
    "Verif.HashMap.removal_removes_one_key_partial"
   ],
   "note": "False of the code: the unsigned distance makes removal lose keys whose chain wraps. Second theorem: correct when no chain wraps and the key is within 127 slots of its home."
  },
  {
   "property": "C35",
   "status": "partial",
   "theorems": [
    "Verif.Base64.encoding_shape",
    "Verif.Base64.decode_encode",
    "Verif.Base64.base64_round_trip_partial",
    "Verif.Base64.high_bytes_do_not_come_back",
    "Verif.Base64.decode_empty_undefined"
   ],
   "note": "False of the code for bytes of 128 and more (the decoder appends a character, which is re-encoded as UTF-8) and for the empty text (it reads before the start). Proved for non-empty strings of 7-bit bytes; the shape and alphabet of the encoding for all."
  },
  {
   "property": "C36",
   "status": "partial",
   "theorems": [
    "Verif.Base64.url_round_trip_partial",
    "Verif.Base64.url_round_trip_fails"
   ],
   "note": "False of the code: the encoder advances by two bytes per group, so nothing of three bytes or more comes back, and the decoder does not know - and _. Proved for one byte and for two bytes, below 0x80, whose encoding avoids those digits."
  },
  {
   "property": "C37",
   "status": "partial",
   "theorems": [
    "Verif.Str.stream_order_partial",
    "Verif.Str.exact_piece_overtakes"
   ],
   "note": "False of the code when a piece fills the rest of a non-empty buffer exactly: it overtakes what is buffered. Proved for all other histories."
  },
  {
   "property": "C38",
   "status": "proved",
   "theorems": [
    "Verif.Str.memory_stream_safe"
   ],
   "note": ""
  },
  {
   "property": "C39",
   "status": "partial",
   "theorems": [
    "Verif.Str.string_contents",
    "Verif.Str.compare_total_order_partial",
    "Verif.Str.long_strings_compare_equal"
   ],
   "note": "Contents and termination proved for all histories. The comparison truncates the difference of lengths to 32 bits: a total order below 2^31 bytes, false beyond."
  },
  {
   "property": "C40",
   "status": "partial",
   "theorems": [
    "Verif.Str.search_is_exact_partial",
    "Verif.Str.find_empty_pattern",
    "Verif.Str.rIndexOf_misses_first"
   ],
   "note": "False of the code for rIndexOf of a character that occurs only at index 0, and for the empty pattern. Proved otherwise."
  },
  {
   "property": "C41",
   "status": "partial",
   "theorems": [
    "Verif.SmartPtr.freed_once_partial",
    "Verif.SmartPtr.concurrent_double_free",
    "Verif.SmartPtr.count_wraps"
   ],
   "note": "False of the code when two threads drop the last two references at once: the count is decremented and tested in two steps, so the object is destroyed and then read again. Also when the 32-bit count wraps. Proved for all sequential histories below 2^32 references."
  },
  {
   "property": "C42",
   "status": "partial",
   "theorems": [
    "Verif.Coro.mutex_partial",
    "Verif.Coro.handover",
    "Verif.Coro.released_stays_locked"
   ],
   "note": "False of the code: unlocking with nobody waiting does not clear the holder, so nobody ever gets the mutex again. Exclusion and first-come order are proved for all schedules."
  },
  {
   "property": "C43",
   "status": "partial",
   "theorems": [
    "Verif.Coro.stack_cache_partial",
    "Verif.Coro.full_cache_leaks"
   ],
   "note": "False of the code when the cache is full: the returned stack is neither cached nor unmapped. Proved: no stack is in two places, and the lost stacks are exactly those returned to a full cache."
  },
  {
   "property": "C44",
   "status": "proved",
   "theorems": [
    "Verif.Path.split_lossless",
    "Verif.Path.join_split"
   ],
   "note": ""
  },
  {
   "property": "C45",
   "status": "partial",
   "theorems": [
    "Verif.Json.json_string_partial",
    "Verif.Json.json_string_lost",
    "Verif.Json.json_quote_ends"
   ],
   "note": "False of the code: strings are written without escaping quotes and read without decoding escapes. Proved exactly for the strings that survive."
  },
  {
   "property": "C46",
   "status": "partial",
   "theorems": [
    "Verif.Args.rest_delivered_partial",
    "Verif.Args.rest_loses_first"
   ],
   "note": "False of the code: the first argument after -- is lost. Proved for the others."
  },
  {
   "property": "C47",
   "status": "proved",
   "theorems": [
    "Verif.Bswap.bswap_involution"
   ],
   "note": ""
  },
  {
   "property": "C48",
   "status": "proved",
   "theorems": [
    "Verif.FixedWidth.field_width"
   ],
   "note": ""
  },
  {
   "property": "C49",
   "status": "partial",
   "theorems": [
    "Verif.Flags.flags_listed_partial",
    "Verif.Flags.union_cast_undefined"
   ],
   "note": "False of the code when the topmost flag is set: the shift count is 64. Proved for all other flag sets."
  },
  {
   "property": "C50",
   "status": "partial",
   "theorems": [
    "Verif.Log.errors_counted_partial",
    "Verif.Log.errors_stick",
    "Verif.Log.limit_off_by_one"
   ],
   "note": "False of the code: one diagnostic fewer than the configured maximum is printed, and warnings are cut off as well. Counting and stickiness are proved for all sequences."
  },
  {
   "property": "C51",
   "status": "proved",
   "theorems": [
    "Verif.Hmap.fresh_history_matches_map"
   ],
   "note": "Removal is one of the operations of the history; the outputs of all later gets and sizes are those of the abstract map."
  },
  {
   "property": "C52",
   "status": "proved",
   "theorems": [
    "Verif.Hmap.iteration_visits_each_once"
   ],
   "note": ""
  },
  {
   "property": "C53",
   "status": "partial",
   "theorems": [
    "Verif.HashMap.iteration_misses_entries",
    "Verif.HashMap.iteration_can_miss_only_entry",
    "Verif.HashMap.iteration_visits_each_once_partial"
   ],
   "note": "False of the code: the index is an i8, so slots from 128 on are never visited. Correct up to capacity 128."
  },
  {
   "property": "C54",
   "status": "partial",
   "theorems": [
    "Verif.HashMap.map_never_returns",
    "Verif.HashMap.map_of_cleared_partial"
   ],
   "note": "False of the code: the loop index is never incremented, so map never returns on a map with slots. Proved for maps without slots."
  },
  {
   "property": "C55",
   "status": "partial",
   "theorems": [
    "Verif.StrPool.generated_names_distinct_partial",
    "Verif.StrPool.generated_name_defined",
    "Verif.StrPool.generated_names_can_clash"
   ],
   "note": "Holds for prefixes that do not end in a digit (all prefixes the compiler uses); a prefix ending in a digit can clash."
  },
  {
   "property": "C56",
   "status": "partial",
   "theorems": [
    "Verif.StrPool.concat_correct_partial",
    "Verif.StrPool.concat_overruns_buffer"
   ],
   "note": "Correct below 256 bytes in total; overruns the buffer from 288 bytes on although every assertion passes."
  },
  {
   "property": "C57",
   "status": "partial",
   "theorems": [
    "Verif.StrPool.joinPath_correct_partial",
    "Verif.StrPool.joinPath_overruns_buffer"
   ],
   "note": "Correct when the result fits; one length combination writes the terminator outside the buffer."
  },
  {
   "property": "C58",
   "status": "partial",
   "theorems": [
    "Verif.DynArray.push_returns_past_the_element"
   ],
   "note": "False of the code: proved that the returned pointer is always one past the new element."
  },
  {
   "property": "C59",
   "status": "partial",
   "theorems": [
    "Verif.Codegen.arithmetic_correct_partial",
    "Verif.Codegen.bitwise_correct_partial",
    "Verif.Codegen.bits_determine",
    "Verif.Codegen.mixed_sign_division_wrong",
    "Verif.Codegen.shr_of_negative_wrong"
   ],
   "note": "Proved for + - * / % << >> unless the operand types have one size and different signedness, or >> has a negative left operand; the last two theorems show these exceptions are real. Bitwise operators are proved bit by bit under the same condition on the types."
  },
  {
   "property": "C60",
   "status": "partial",
   "theorems": [
    "Verif.Codegen.comparison_correct_partial",
    "Verif.Codegen.mixed_sign_comparison_wrong",
    "Verif.Codegen.mixed_sign_comparison_not_symmetric"
   ],
   "note": "Proved for equal signedness or a strictly bigger signed type; false otherwise."
  },
  {
   "property": "C61",
   "status": "proved",
   "theorems": [
    "Verif.Codegen.int_cast_correct",
    "Verif.Codegen.rep_injective"
   ],
   "note": ""
  },
  {
   "property": "C62",
   "status": "partial",
   "theorems": [
    "Verif.Codegen.int_to_float_partial",
    "Verif.Codegen.negative_int_to_float_wrong",
    "Verif.Codegen.large_unsigned_to_float_wrong"
   ],
   "note": "False of the code: signed and unsigned conversion instructions are swapped, so every negative integer and every unsigned integer from the upper half is converted to a wrong number. True for the rest."
  },
  {
   "property": "C63",
   "status": "partial",
   "theorems": [
    "Verif.Codegen.nan_comparisons_true",
    "Verif.Codegen.float_comparison_partial"
   ],
   "note": "False of the code: all six comparisons with NaN are true. Proved: without a NaN they give the order of the numbers."
  },
  {
   "property": "C64",
   "status": "partial",
   "theorems": [
    "Verif.Codegen.compound_assign_correct_partial",
    "Verif.Codegen.compound_assign_float_int_malformed"
   ],
   "note": "Proved for integers when both types are equal or the target is strictly bigger. A float target with an integer operand is accepted by the checker but generates a malformed instruction."
  },
  {
   "property": "C65",
   "status": "partial",
   "theorems": [
    "Verif.Eval.literal_expression_partial",
    "Verif.Eval.parentheses_change_the_value",
    "Verif.Eval.parenthesised_factor_wraps",
    "Verif.Eval.negative_difference_undefined"
   ],
   "note": "True of every expression without parentheses whose values are exact in a double and not negative at an operator, and with parentheses when every intermediate value fits the type of its own node. False otherwise: (100) + 100 stored in an i32 is -56, (50 + 50) * 3 is 44, and a negative difference of literals is undefined in the compiler."
  },
  {
   "property": "C66",
   "status": "proved",
   "theorems": [
    "Verif.Prim.literal_type_minimal"
   ],
   "note": ""
  },
  {
   "property": "C67",
   "status": "proved",
   "theorems": [
    "Verif.Lexer.token_positions"
   ],
   "note": ""
  },
  {
   "property": "C68",
   "status": "proved",
   "theorems": [
    "Verif.Lexer.longest_symbol_is_read"
   ],
   "note": ""
  },
  {
   "property": "C69",
   "status": "proved",
   "theorems": [
    "Verif.Lexer.word_is_read"
   ],
   "note": ""
  },
  {
   "property": "C70",
   "status": "partial",
   "theorems": [
    "Verif.Lexer.decimal_literal_partial",
    "Verif.Lexer.prefixed_literal_partial",
    "Verif.Lexer.prefix_without_digits_reads_ahead",
    "Verif.Lexer.large_literal_saturates"
   ],
   "note": "True for values below 2^64 written with at least one digit. False otherwise: larger decimal literals silently become 2^64-1, and a prefix without digits takes its value from the text that follows."
  },
  {
   "property": "C71",
   "status": "proved",
   "theorems": [
    "Verif.Parser.expression_ends"
   ],
   "note": ""
  },
  {
   "property": "C72",
   "status": "proved",
   "theorems": [
    "Verif.Parser.tree_has_the_tokens_read"
   ],
   "note": ""
  },
  {
   "property": "C73",
   "status": "partial",
   "theorems": [
    "Verif.Parser.assignment_takes_operators_partial",
    "Verif.Parser.conditional_not_assigned"
   ],
   "note": "False of the code for conditionals: x = c ? a : b is read as (x = c) ? a : b. True for operators and further assignments."
  },
  {
   "property": "C74",
   "status": "proved",
   "theorems": [
    "Verif.Vector.vector_functions"
   ],
   "note": ""
  },
  {
   "property": "C75",
   "status": "partial",
   "theorems": [
    "Verif.ListQ.pushing_member_fails_partial",
    "Verif.ListQ.pushing_last_again_loops"
   ],
   "note": "False of the code for the last item of the list: pushing it again is accepted and makes the list cyclic. Proved for every other item."
  },
  {
   "property": "C76",
   "status": "partial",
   "theorems": [
    "Verif.Base64.decode_in_bounds_partial",
    "Verif.Base64.one_extra_character_undefined",
    "Verif.Base64.decode_empty_undefined"
   ],
   "note": "False of the code for the empty text and for a text with one extra character. Proved in bounds for every text whose length is a positive multiple of four. Lengths of two or three more than a multiple of four are not covered by a theorem."
  },
  {
   "property": "C77",
   "status": "partial",
   "theorems": [
    "Verif.Base64.announced_size_partial",
    "Verif.Base64.announced_size_wrong"
   ],
   "note": "False of the code for every positive even size (off by one). Proved for the others."
  },
  {
   "property": "C78",
   "status": "partial",
   "theorems": [
    "Verif.Str.views_partial",
    "Verif.Str.substr_piece",
    "Verif.Str.nul_hides_difference"
   ],
   "note": "False of the code for views with NUL bytes, since strncmp stops there. Proved for views without."
  },
  {
   "property": "C79",
   "status": "proved",
   "theorems": [
    "Verif.Str.trim_exact"
   ],
   "note": ""
  },
  {
   "property": "C80",
   "status": "partial",
   "theorems": [
    "Verif.Str.trimLeft_ok",
    "Verif.Str.trimLeft_not_terminated",
    "Verif.Str.resize_backwards"
   ],
   "note": "trimLeft keeps the right bytes but never terminates them; the assertion in resize is the wrong way round. Proved: the bytes after trimLeft, and both failures for all strings."
  },
  {
   "property": "C81",
   "status": "partial",
   "theorems": [
    "Verif.Str.append_self_partial",
    "Verif.Str.append_self_dangles"
   ],
   "note": "False of the code whenever the string has to grow. Proved when the doubled text fits."
  },
  {
   "property": "C82",
   "status": "partial",
   "theorems": [
    "Verif.Scope.overloads_complete_partial",
    "Verif.Scope.alias_loses_overload"
   ],
   "note": "False of the code when a function alias is among the overloads. Proved without aliases."
  },
  {
   "property": "C83",
   "status": "partial",
   "theorems": [
    "Verif.Scope.break_in_loop_partial",
    "Verif.Scope.break_out_of_closure"
   ],
   "note": "False of the code for closures: a break in a closure inside a loop is bound to that loop. Proved where no closure lies between."
  },
  {
   "property": "C84",
   "status": "proved",
   "theorems": [
    "Verif.Suggest.suggestion_nearest"
   ],
   "note": ""
  },
  {
   "property": "C85",
   "status": "partial",
   "theorems": [
    "Verif.Overload.resolution_best_partial",
    "Verif.Overload.variadic_spoils_count"
   ],
   "note": "False of the code after a variadic overload with fewer parameters than the call has arguments: the argument count stays cut down for the later overloads. Proved when no overload but the last is of that kind."
  },
  {
   "property": "C86",
   "status": "partial",
   "theorems": [
    "Verif.Defer.operand_first_partial",
    "Verif.Defer.operand_after_defers"
   ],
   "note": "False of the code: the deferred statements are put before the return and so run before its operand is computed. Proved for returns without operand."
  },
  {
   "property": "C87",
   "status": "partial",
   "theorems": [
    "Verif.RangeLoop.range_loop_partial",
    "Verif.RangeLoop.descending_range_runs",
    "Verif.RangeLoop.step_over_end"
   ],
   "note": "False of the code for descending ranges and for steps that do not divide the distance: the loop tests for inequality, so it runs past the end. Proved when the end is a whole number of steps away."
  },
  {
   "property": "C88",
   "status": "proved",
   "theorems": [
    "Verif.RangeLoop.unroll_exact"
   ],
   "note": ""
  },
  {
   "property": "C89",
   "status": "proved",
   "theorems": [
    "Verif.Stages.pipeline",
    "Verif.Stages.pipeline_completes"
   ],
   "note": ""
  },
  {
   "property": "C90",
   "status": "partial",
   "theorems": [
    "Verif.Args.line_delivered_partial",
    "Verif.Args.long_line_cut"
   ],
   "note": "False of the code beyond 128 arguments: the index is an 8-bit integer. Proved below."
  },
  {
   "property": "C91",
   "status": "partial",
   "theorems": [
    "Verif.Path.path_reaches_os_partial",
    "Verif.Path.piece_leaks",
    "Verif.Path.long_path_aborts"
   ],
   "note": "False of the code for a piece followed by more text, and for paths of 1024 bytes or more. Proved for zero-terminated paths below that."
  },
  {
   "property": "C92",
   "status": "partial",
   "theorems": [
    "Verif.Text.string_literal_value_partial",
    "Verif.Text.backslash_escape_rescanned",
    "Verif.Text.quote_escape_kept",
    "Verif.Text.char_literal_value"
   ],
   "note": "False of the code for string literals with an escaped backslash or single quote: the second backslash is scanned again as the start of an escape. Proved for the other escapes in string literals and for all escapes in character literals."
  },
  {
   "property": "C93",
   "status": "partial",
   "theorems": [
    "Verif.Base64.invalid_text_rejected_partial",
    "Verif.Base64.padding_hides_garbage"
   ],
   "note": "False of the code: what follows padding in the last group is ignored. Proved for texts of whole groups whose first bad character is not padding or comes before the last group."
  },
  {
   "property": "C94",
   "status": "partial",
   "theorems": [
    "Verif.Args.accepted_line_sound",
    "Verif.Args.unsupported_rejected_partial",
    "Verif.Args.declared_apart"
   ],
   "note": "Soundness of an accepted line is proved for every command line whatever; rejection for every unsupported argument after a supported part of fewer than 128 arguments (later arguments are ignored, see C90)."
  },
  {
   "property": "C95",
   "status": "partial",
   "theorems": [
    "Verif.LitCast.literal_to_integer",
    "Verif.LitCast.literal_to_character_partial",
    "Verif.LitCast.large_literal_to_character_undefined",
    "Verif.LitCast.literal_to_f64",
    "Verif.LitCast.f32_literal_is_double",
    "Verif.LitCast.wrapped_literal_cast_aborts"
   ],
   "note": "Proved for integer targets, and for character targets below 2^31. False of the code elsewhere: undefined behaviour above 2^31 for characters, a double constant for f32, disagreement with variables for negative literals cast to f64 (the literal is right), and a failed assertion for literals in parentheses."
  },
  {
   "property": "C96",
   "status": "partial",
   "theorems": [
    "Verif.LitCast.accepted_cast_generates_partial",
    "Verif.LitCast.bool_cast_accepted_but_unsupported",
    "Verif.LitCast.cast_to_wchar_exact",
    "Verif.LitCast.cast_to_char_loses"
   ],
   "note": "False of the code from bool to integers (accepted, no code) and to char (u16, u32 and wchar accepted). Proved for all other pairs and for wchar."
  },
  {
   "property": "C97",
   "status": "partial",
   "theorems": [
    "Verif.Codegen.float_arithmetic_correct",
    "Verif.Codegen.float_int_arithmetic_partial",
    "Verif.Codegen.negative_int_to_float_wrong",
    "Verif.Codegen.large_unsigned_to_float_wrong"
   ],
   "note": "Proved for two floats, and for a float and an integer that is non-negative and below half the range of its type; other integers are converted wrongly (last two theorems, see C62). The float operations themselves are abstract."
  },
  {
   "property": "C98",
   "status": "partial",
   "theorems": [
    "Verif.Drop.managed_exactly_once_partial",
    "Verif.Drop.branching_exactly_once_partial",
    "Verif.Drop.steady_exactly_once_partial",
    "Verif.Drop.assigned_variable_destroyed_twice",
    "Verif.Drop.replaced_value_destroyed_before_use",
    "Verif.Drop.parameter_moved_on_one_path_leaks",
    "Verif.Drop.moved_in_one_case_destroyed_again",
    "Verif.Drop.moved_in_two_cases_leaks",
    "Verif.Drop.break_destroys_moved_value",
    "Verif.Drop.return_in_loop_destroys_result",
    "Verif.Drop.loop_moves_twice"
   ],
   "note": "Proved for functions that assign only new or moved values, and never one computed from the variable itself: without loops and switches if nothing is reported and no parameter is moved on some paths only; with loops, switches and jumps if every variable is initialised and nothing is moved, or more generally if the states at jumps and ends of bodies agree with those the pass continues with. False of the code otherwise (last eight theorems). Locals of class type only; members, temporaries and delete are not modelled."
  },
  {
   "property": "C99",
   "status": "partial",
   "theorems": [
    "Verif.Drop.manage_only_adds_drops_partial",
    "Verif.Drop.null_assignment_removed",
    "Verif.Drop.null_assignment_keeps_value"
   ],
   "note": "Proved for functions without assignments of null, which disappear, so that the variable keeps pointing to the destroyed value."
  },
  {
   "property": "C100",
   "status": "partial",
   "theorems": [
    "Verif.Drop.use_without_value_reported_partial",
    "Verif.Drop.loop_moves_twice"
   ],
   "note": "Proved when the read follows in the text. Not reported, and wrong at run time, when it follows only in the next round of a loop (second theorem)."
  },
  {
   "property": "C101",
   "status": "proved",
   "theorems": [
    "Verif.Http.query_reads_back"
   ],
   "note": ""
  },
  {
   "property": "C102",
   "status": "partial",
   "theorems": [
    "Verif.Http.form_length_partial",
    "Verif.Http.form_length_wrong"
   ],
   "note": "Proved for forms with files, and for the others if all names and values are empty or of odd length; false of the code as soon as one of them has even positive length (second theorem)."
  },
  {
   "property": "C103",
   "status": "partial",
   "theorems": [
    "Verif.Http.request_carries_content_partial",
    "Verif.Http.request_has_surplus",
    "Verif.Http.file_never_sent"
   ],
   "note": "Proved for texts and forms whose length is announced correctly, up to the two bytes that the code sends after every body (second theorem). Files are never sent (third theorem)."
  },
  {
   "property": "C104",
   "status": "partial",
   "theorems": [
    "Verif.Http.request_independent_partial",
    "Verif.Http.second_body_ignored"
   ],
   "note": "Proved if the request before had another method or resource; otherwise the text of the second request is ignored (second theorem)."
  },
  {
   "property": "C105",
   "status": "proved",
   "theorems": [
    "Verif.Http.response_framed"
   ],
   "note": "Files are assumed to have the bytes that are asked for."
  },
  {
   "property": "C106",
   "status": "partial",
   "theorems": [
    "Verif.Http.empty_ok_partial",
    "Verif.Http.no_content_has_body"
   ],
   "note": "Proved for status 200; false of the code for all statuses that exclude a body (second theorem)."
  },
  {
   "property": "C107",
   "status": "proved",
   "theorems": [
    "Verif.Http.method_exact",
    "Verif.Http.method_reads_back"
   ],
   "note": ""
  },
  {
   "property": "C108",
   "status": "partial",
   "theorems": [
    "Verif.Http.routing_partial",
    "Verif.Http.explicit_method_never_called",
    "Verif.Http.shadowed_by_prefix",
    "Verif.Http.root_parameter_never_called"
   ],
   "note": "Proved: a handler is called only for a request that matches its declaration, with the parameters of the match, and is called for every such request if it was declared without a method and no longer declared path is a prefix of the path. False of the code otherwise (last three theorems): declarations with a method are never called, a longer declared prefix hides a route, and a parameter at the root is never reached."
  },
  {
   "property": "C109",
   "status": "proved",
   "theorems": [
    "Verif.Http.request_assembled"
   ],
   "note": "The parser (llhttp) is represented by the calls it makes: at least one for the name and one for the value of every header."
  },
  {
   "property": "C110",
   "status": "partial",
   "theorems": [
    "Verif.Http.address_asked_partial",
    "Verif.Http.path_without_scheme_lost",
    "Verif.Http.query_in_host"
   ],
   "note": "Proved for addresses with a scheme, and for those without scheme and resource. False of the code for a resource without scheme and for a query right after the host (last two theorems)."
  },
  {
   "property": "C111",
   "status": "partial",
   "theorems": [
    "Verif.Http.toi_reads_number_partial",
    "Verif.Http.toi_reads_on",
    "Verif.Http.toi_octal"
   ],
   "note": "Proved if the memory after the view does not go on with a digit and there are no leading zeros; false of the code otherwise (last two theorems)."
  },
  {
   "property": "C112",
   "status": "partial",
   "theorems": [
    "Verif.FileServer.content_from_root_partial",
    "Verif.FileServer.sibling_is_served",
    "Verif.FileServer.missing_root_serves_all"
   ],
   "note": "Proved, for paths that do not differ in case only, up to directories beside the root whose name begins with the name of the root; files there are sent (second theorem). If the root does not exist and realpath leaves its buffer alone, every file is sent (third theorem)."
  },
  {
   "property": "C113",
   "status": "partial",
   "theorems": [
    "Verif.FileServer.content_is_current_partial",
    "Verif.FileServer.not_modified_is_true",
    "Verif.FileServer.case_is_confused",
    "Verif.FileServer.same_second_is_stale"
   ],
   "note": "Proved if changed files get another time of modification and no two paths differ in case only; false of the code without either (last two theorems)."
  },
  {
   "property": "C114",
   "status": "partial",
   "theorems": [
    "Verif.FileServer.file_is_served_partial",
    "Verif.FileServer.query_is_not_found"
   ],
   "note": "Proved without a query, for paths without symbolic links; with a query every file is reported missing (second theorem)."
  },
  {
   "property": "C115",
   "status": "partial",
   "theorems": [
    "Verif.FileServer.ranges_partial",
    "Verif.FileServer.range_from_start",
    "Verif.FileServer.range_never_answered",
    "Verif.FileServer.range_aborts"
   ],
   "note": "Proved: without a range the whole file is sent, and a range that ends behind the file is refused. False of the code for every range inside of the file (second theorem); some requests are never answered (third), some abort the server (fourth)."
  },
  {
   "property": "C116",
   "status": "proved",
   "theorems": [
    "Verif.Flow.accepted_code_is_faithful",
    "Verif.Flow.accepted_code_is_defined",
    "Verif.Flow.exec_more"
   ],
   "note": "For the function as it reaches the back end, where arguments of calls are variables, literals or unary expressions (moving the others is C159 and C160), and for the order of operands that the backend has chosen (see C117). Second theorem: no block is left without a terminator and no phi node lacks its predecessor."
  },
  {
   "property": "C117",
   "status": "partial",
   "theorems": [
    "Verif.Flow.accepted_code_is_left_to_right_partial",
    "Verif.Flow.operand_order_depends_on_types",
    "Verif.Flow.same_operator_both_orders"
   ],
   "note": "False of the code: operands of one type and operands with a bigger left type are evaluated from right to left (second and third theorem). Proved when for such operands it makes no difference (first theorem)."
  },
  {
   "property": "C118",
   "status": "partial",
   "theorems": [
    "Verif.Flow.compound_on_fixed_target_partial",
    "Verif.Flow.target_is_evaluated_again"
   ],
   "note": "False of the code: twice for op=, three times for ++ and -- (second theorem, for all targets without short-circuit operators). Proved for targets with a fixed address."
  },
  {
   "property": "C119",
   "status": "partial",
   "theorems": [
    "Verif.Flow.accepted_iff",
    "Verif.Flow.plain_functions_are_accepted_partial",
    "Verif.Flow.loop_body_ending_in_jump_is_rejected",
    "Verif.Flow.branch_ending_in_switch_is_rejected",
    "Verif.Flow.switch_on_logic_is_rejected",
    "Verif.Flow.code_after_jump_is_rejected",
    "Verif.Flow.formed_functions_are_not_all_accepted"
   ],
   "note": "False of the code for four families. The first theorem gives exactly the functions that are accepted, by an analysis that does not mention blocks; the second a simple sufficient shape."
  },
  {
   "property": "C120",
   "status": "partial",
   "theorems": [
    "Verif.Flow.element_assignment_partial",
    "Verif.Flow.counting_in_a_container_is_lost"
   ],
   "note": "False of the code for compound operators: the operator is dropped (second theorem). Proved for plain assignments."
  },
  {
   "property": "C121",
   "status": "proved",
   "theorems": [
    "Verif.Lookup.lookup_finds_declared",
    "Verif.Lookup.lookup_is_exact",
    "Verif.Lookup.inherited_lookup_is_nearest",
    "Verif.Lookup.macro_lookup_is_exact",
    "Verif.Lookup.every_macro_is_found"
   ],
   "note": "For tables of fewer than 2^31 names. The sort of the C library is modelled."
  },
  {
   "property": "C122",
   "status": "partial",
   "theorems": [
    "Verif.Lookup.enum_values_follow_the_rule",
    "Verif.Lookup.default_is_smallest_partial",
    "Verif.Lookup.far_values_are_swapped",
    "Verif.Lookup.option_as_case_iff",
    "Verif.Lookup.negative_option_is_no_case",
    "Verif.Lookup.far_options_are_no_cases"
   ],
   "note": "The values are proved. The default and the cases are proved for values less than 2^31 apart (cases: exactly when not negative, or all negative); false of the code otherwise (third, fifth and sixth theorem)."
  },
  {
   "property": "C123",
   "status": "partial",
   "theorems": [
    "Verif.Lookup.cases_apart_partial",
    "Verif.Lookup.literal_inside_range_is_accepted",
    "Verif.Switch.labels_apart_partial",
    "Verif.Switch.apart_accepted",
    "Verif.Switch.overlap_accepted"
   ],
   "note": "Proved for switches with only literals or only ranges (the first and third theorem); for a mixture one direction holds: labels that share no value are accepted (fourth theorem). The other is false of the code, also with the sort of glibc: with labels v, x, w, a..b, v (v < a, b < w < x) the second v is not noticed."
  },
  {
   "property": "C124",
   "status": "partial",
   "theorems": [
    "Verif.Lookup.accepted_case_can_match",
    "Verif.Lookup.typed_case_is_accepted_partial",
    "Verif.Lookup.plain_case_accepted_iff",
    "Verif.Lookup.small_case_is_rejected",
    "Verif.Switch.bare_literal_rejected"
   ],
   "note": "Proved for literals with the type of the condition; false of the code for plain literals, of which the third theorem says exactly which are accepted."
  },
  {
   "property": "C125",
   "status": "partial",
   "theorems": [
    "Verif.Preprocess.expansion_is_substitution_partial",
    "Verif.Preprocess.global_captures_parameter",
    "Verif.Preprocess.inner_macro_sees_parameter"
   ],
   "note": "Proved (both directions, any nesting) when no name is both a parameter and a macro, bodies use only their own parameters, and the program uses no name that is a parameter. False otherwise: a macro of the program takes the place of a parameter of the same name in any other macro, and bodies see the parameters of the macros they are expanded in. Variadic parameters are not modelled."
  },
  {
   "property": "C126",
   "status": "partial",
   "theorems": [
    "Verif.Preprocess.expansion_ends_partial",
    "Verif.Preprocess.recursive_macro_never_ends",
    "Verif.Preprocess.recursive_macro_diverges",
    "Verif.Preprocess.argument_captured"
   ],
   "note": "Proved for ordered (non-recursive) macros under the naming conditions of C125. False of the code: a macro that uses itself is expanded without end, and so is a call that passes a name which is the parameter itself and no macro, such as log!(file!) for a macro log(file)."
  },
  {
   "property": "C127",
   "status": "partial",
   "theorems": [
    "Verif.CommandLine.files_and_options_partial",
    "Verif.CommandLine.program_named_dev",
    "Verif.CommandLine.empty_first_argument"
   ],
   "note": "Proved, in both directions and for every command but help, unless the program itself is called dev and no command is named, or the first argument is empty. False in those two cases: the files are shifted by one (second and third theorem)."
  },
  {
   "property": "C128",
   "status": "partial",
   "theorems": [
    "Verif.CommandLine.files_and_options_partial",
    "Verif.CommandLine.definition_read",
    "Verif.CommandLine.named_enums_off"
   ],
   "note": "Proved under the conditions of C127 for every option but --with-named-enums, whose default true is ignored (third theorem); the second says what a definition is."
  },
  {
   "property": "C129",
   "status": "partial",
   "theorems": [
    "Verif.CommandLine.wrong_line_reported_partial",
    "Verif.CommandLine.unknown_argument_reported_partial",
    "Verif.CommandLine.long_unknown_argument",
    "Verif.CommandLine.brace_in_argument",
    "Verif.CommandLine.wrong_level",
    "Verif.CommandLine.unknown_choice_silent",
    "Verif.CommandLine.empty_choice"
   ],
   "note": "Proved for messages that fit 128 bytes and have no opening brace. False otherwise: the buffer overflows for an unknown argument of 88 bytes and for every wrong optimisation level; a brace makes the message a format; a value out of a list gives an empty message, and an empty value is read past its end."
  },
  {
   "property": "C130",
   "status": "partial",
   "theorems": [
    "Verif.CommandLine.Warnings.one_warning_partial",
    "Verif.CommandLine.Warnings.unknown_warning",
    "Verif.CommandLine.Warnings.list_undefined",
    "Verif.CommandLine.Warnings.all_cannot_be_switched_off"
   ],
   "note": "Proved for one name. False of the code for lists, which compare pointers into different strings, and for ~All."
  },
  {
   "property": "C131",
   "status": "partial",
   "theorems": [
    "Verif.CommandLine.limit_is_the_number_partial",
    "Verif.CommandLine.large_limit_undefined",
    "Verif.CommandLine.leading_zero_is_octal",
    "Verif.CommandLine.empty_limit_is_zero"
   ],
   "note": "Proved for decimal numbers below 2^31. False for larger ones (undefined conversion), for a leading zero (octal) and for an empty text (0)."
  },
  {
   "property": "C132",
   "status": "partial",
   "theorems": [
    "Verif.Classes.base_first_iff",
    "Verif.Classes.base_first_partial",
    "Verif.Classes.first_virtual_moves_the_fields",
    "Verif.Classes.third_class_moves_the_fields",
    "Verif.Classes.root_fields_double"
   ],
   "note": "The first theorem says exactly when it holds; the second is the useful direction. False of the code when the derived class declares the first virtual function, and when three classes in a row have fields: inherited fields are copied again at every level, so those of the root appear 2^(n-2) times in the n-th class."
  },
  {
   "property": "C133",
   "status": "partial",
   "theorems": [
    "Verif.Classes.virtual_call_partial",
    "Verif.Classes.plain_call",
    "Verif.Classes.third_class_has_no_table",
    "Verif.Classes.unmarked_override_is_final",
    "Verif.Classes.other_parameters_take_the_place"
   ],
   "note": "Proved when the object has a table, the nearest declaration seen by the call is marked virtual and no function of that name has another signature. False of the code otherwise: a class two levels below the last virtual declaration has no table; an override not marked virtual again is called without the table; a function of the same name with other parameters takes the place in the table."
  },
  {
   "property": "C134",
   "status": "partial",
   "theorems": [
    "Verif.Classes.super_call_partial",
    "Verif.Classes.super_calls_itself"
   ],
   "note": "Proved for functions that are not virtual. False for virtual ones: super.f() inside the override of f calls the override again."
  },
  {
   "property": "C135",
   "status": "partial",
   "theorems": [
    "Verif.Assign.accepted_reference_fits_partial",
    "Verif.Assign.number_under_pointer",
    "Verif.Assign.number_in_array_or_result",
    "Verif.Assign.parameter_of_derived_class",
    "Verif.Assign.other_enumeration",
    "Verif.Assign.optional_under_pointer",
    "Verif.Assign.array_under_pointer"
   ],
   "note": "Proved for references over one primitive type, strings, structures, classes, interfaces and functions of those. False of the code otherwise: ^i8 is accepted for ^i64 (and for ^f64), [i8, n] for [i64, n], a function returning i8 for one returning i64, a function on a derived class for one on its base, one enumeration for another, ^T for ^T?, ^[T, n] for ^^T; each is proved for the whole family with a value that is of the one type and not of the other."
  },
  {
   "property": "C136",
   "status": "partial",
   "theorems": [
    "Verif.Assign.constants_stay_constant_partial",
    "Verif.Assign.constant_reference"
   ],
   "note": "Proved for pointers of any depth, under the conditions of C135. False for references: &const T is accepted for &T."
  },
  {
   "property": "C137",
   "status": "partial",
   "theorems": [
    "Verif.Assign.written_value_fits_partial",
    "Verif.Assign.base_object_in_derived_variable",
    "Verif.Assign.constant_pointer_in_variable"
   ],
   "note": "Proved for pointers over one primitive type, strings and structures that are all to constants or all not. False of the code for classes (a pointer to a variable of a derived class is accepted for a pointer to one of the base) and for ^^T accepted as ^^const T."
  },
  {
   "property": "C138",
   "status": "partial",
   "theorems": [
    "Verif.Assign.class_accepted_iff",
    "Verif.Assign.interface_accepted_partial",
    "Verif.Assign.inherited_interface_refused"
   ],
   "note": "Proved for classes, and for interfaces that the class itself declares. False for inherited interfaces: the object is refused although the base is accepted."
  },
  {
   "property": "C139",
   "status": "partial",
   "theorems": [
    "Verif.Dump.written_expression_is_read_back_partial",
    "Verif.Dump.parsed_expression_is_read_back_partial",
    "Verif.Dump.ungrouped_left_operand_regroups",
    "Verif.Dump.ungrouped_right_operand_regroups",
    "Verif.Dump.ungrouped_prefix_operand_regroups"
   ],
   "note": "Proved, through the lexer and the parser, for trees that the parser builds and whose tokens do not join (C140). Trees made by later passes or by macros need not have groups: for these it is false, operands of looser operators are regrouped. Types, statements and literals other than integers are not modelled."
  },
  {
   "property": "C140",
   "status": "partial",
   "theorems": [
    "Verif.Dump.written_expression_is_read_back_partial",
    "Verif.Dump.joined_operators_are_another",
    "Verif.Dump.minus_negative_number_is_decrement"
   ],
   "note": "False of the code: -(-x) without its group, - -5, + +x, & &x are written without a space and read back as --x, --5, ++x, &&x. The first theorem has the pairs that stay apart."
  },
  {
   "property": "C141",
   "status": "partial",
   "theorems": [
    "Verif.Dump.call_is_read_back_partial",
    "Verif.Dump.spread_operand_not_written",
    "Verif.Dump.spread_call_reads_as_empty"
   ],
   "note": "Proved for calls without spread arguments. False with them: nothing is written for f(...x), so f(...x) becomes f()."
  },
  {
   "property": "C142",
   "status": "partial",
   "theorems": [
    "Verif.Consts.constants_keep_their_value_partial",
    "Verif.Consts.field_of_constant_assigned",
    "Verif.Consts.target_of_constant_pointer_assigned",
    "Verif.Consts.constant_changed_through_pointer",
    "Verif.Consts.field_through_constant_pointer_assigned",
    "Verif.Consts.address_of_field_of_constant",
    "Verif.Consts.element_of_constant_assigned",
    "Verif.Consts.element_through_constant_pointer_stepped",
    "Verif.Consts.address_of_element_of_constant",
    "Verif.Consts.constant_changed_through_three_pointers"
   ],
   "note": "Proved for all programs that do not use the holes that follow, with pointers up to two levels. False of the code: s.f = n on a constant structure, *p = n and p.f = n and p.[0]++ through a pointer to constants, a.[i].[j] = n on a constant nested array, ptrof s.f and ptrof p.[i] losing the constant, and three levels of pointers. Each is accepted and changes the constant."
  },
  {
   "property": "C143",
   "status": "partial",
   "theorems": [
    "Verif.Consts.variable_assigned_partial",
    "Verif.Consts.pointer_to_constant_not_assigned"
   ],
   "note": "Proved for variables whose type is not a pointer to constants. False for these: no assignment to such a variable is accepted."
  },
  {
   "property": "C144",
   "status": "partial",
   "theorems": [
    "Verif.Consts.deref_type_partial",
    "Verif.Consts.deref_of_constant_pointer"
   ],
   "note": "Proved for variables. False for constants: *p is given the type of p itself."
  },
  {
   "property": "C145",
   "status": "partial",
   "theorems": [
    "Verif.EvLoop.scheduler_refines_partial",
    "Verif.EvLoop.spec_consistent",
    "Verif.EvLoop.waiting_is_registered_partial",
    "Verif.EvLoop.junk_loses_sleeper",
    "Verif.EvLoop.ended_timeout_loses_sleeper",
    "Verif.EvLoop.hang_up_loses_timeout",
    "Verif.EvLoop.reported_again_fails",
    "Verif.EvLoop.busy_program_aborts"
   ],
   "note": "Proved for executions in which the memory of the records is zero at first, one coroutine at a time waits for a descriptor, the kernel reports a descriptor only to a coroutine that still waits for it and with an event it waits for, no wait without a timeout follows a wait for the same descriptor whose timeout was ended by an event, and the clock is not set back. False without each: the record is not cleared (a sleeper is lost), the old timer is unlinked again (a sleeper is lost), a hang-up takes away the timeout of a reader, and a descriptor reported again to a ready coroutine aborts the program."
  },
  {
   "property": "C146",
   "status": "partial",
   "theorems": [
    "Verif.EvLoop.sleep_lasts_partial",
    "Verif.EvLoop.sleep_ends_partial",
    "Verif.EvLoop.second_waiter_takes_events",
    "Verif.EvLoop.clock_set_back_ends_sleep"
   ],
   "note": "Same conditions. False without them: the input of a reader cuts short the sleep of a coroutine that wrote to the same descriptor; setting the clock back ends all sleeps."
  },
  {
   "property": "C147",
   "status": "partial",
   "theorems": [
    "Verif.EvLoop.ready_run_in_order_partial"
   ],
   "note": "Same conditions."
  },
  {
   "property": "C148",
   "status": "partial",
   "theorems": [
    "Verif.EvLoop.poll_waits_no_longer_partial"
   ],
   "note": "Same conditions."
  },
  {
   "property": "C149",
   "status": "partial",
   "theorems": [
    "Verif.Raise.compiled_as_written_partial",
    "Verif.Raise.calls_swapped",
    "Verif.Raise.guarded_call_is_made",
    "Verif.Raise.else_if_is_evaluated_first"
   ],
   "note": "Proved for accepted bodies in which no call that may raise is evaluated after a call that may not, or under && || ?:, or in a condition behind else if, no call that may raise is a statement of a handler, a yield comes last in its handler, and a handler whose value is used always yields or leaves. False without: x = g() + f() calls f first, a && f() calls f always, if (a) .. else if (f()) calls f first."
  },
  {
   "property": "C150",
   "status": "proved",
   "theorems": [
    "Verif.Raise.undeclared_never_raises"
   ],
   "note": "For every accepted body."
  },
  {
   "property": "C151",
   "status": "partial",
   "theorems": [
    "Verif.Raise.every_exception_is_handled_partial",
    "Verif.Raise.handlers_swallow"
   ],
   "note": "Same conditions as C149. False without: in f() catch { g() } the exceptions of g are dropped, also in a function that is not declared to raise."
  },
  {
   "property": "C152",
   "status": "partial",
   "theorems": [
    "Verif.Raise.values_are_there_partial",
    "Verif.Raise.catch_gives_a_value",
    "Verif.Raise.partial_yield_is_stuck",
    "Verif.Raise.conditional_raise_is_stuck"
   ],
   "note": "Same conditions as C149. False without: x = f() catch { if (a) yield 1 } reads a variable that was never set, x = f() catch { if (a) raise } reads the exception as a value."
  },
  {
   "property": "C153",
   "status": "partial",
   "theorems": [
    "Verif.Raise.documented_handlers_accepted_partial",
    "Verif.Raise.reraise_rejected",
    "Verif.Raise.discard_rejected"
   ],
   "note": "Proved except for two cases which are always rejected: { raise } after a call that returns nothing, discard after a call that returns a value."
  },
  {
   "property": "C154",
   "status": "partial",
   "theorems": [
    "Verif.Switch.literal_case_built_partial",
    "Verif.Switch.wide_literal_breaks_module"
   ],
   "note": "Proved for a literal written with exactly the type of the condition, below 2^63. False otherwise: every accepted literal of another type makes an invalid module."
  },
  {
   "property": "C155",
   "status": "partial",
   "theorems": [
    "Verif.Switch.listed_case_runs_partial",
    "Verif.Switch.first_label_runs_nothing",
    "Verif.Switch.range_runs_for_its_end_only"
   ],
   "note": "Proved for labels that are values, and values not in front of a comma. False otherwise: of case v, w => b only w runs b, and a..b only runs for b."
  },
  {
   "property": "C156",
   "status": "partial",
   "theorems": [
    "Verif.HashFn.number_hash_partial",
    "Verif.HashFn.negative_float_hash_undefined"
   ],
   "note": "Proved for all integers. A float is converted to u64 first, which is undefined for every float below -1."
  },
  {
   "property": "C157",
   "status": "partial",
   "theorems": [
    "Verif.HashFn.cstr_hash_partial",
    "Verif.HashFn.long_cstr_hash_undefined",
    "Verif.HashFn.view_hash_partial",
    "Verif.HashFn.view_hash_ignores",
    "Verif.HashFn.owned_hash_by_content_partial",
    "Verif.HashFn.owned_hash_ignores_last",
    "Verif.HashFn.empty_owned_hash_undefined"
   ],
   "note": "string: proved up to 127 bytes, from 128 on the index (an i8) wraps and reads in front of the text. __string: proved up to 128 bytes, the rest does not count. String: the last byte does not count; an empty String with a buffer is read to its end and beyond."
  },
  {
   "property": "C158",
   "status": "partial",
   "theorems": [
    "Verif.HashFn.equal_case_equal_hash_partial",
    "Verif.HashFn.equal_case_equal_cstr_hash_partial",
    "Verif.HashFn.equal_case_other_hash"
   ],
   "note": "Proved for texts without NUL (for string: of at most 127 bytes). False for texts that differ behind a NUL: strncasecmp stops there, the hash does not."
  },
  {
   "property": "C159",
   "status": "partial",
   "theorems": [
    "Verif.Hoist.left_to_right_partial",
    "Verif.Hoist.harmless_value_partial",
    "Verif.Hoist.chain_partial",
    "Verif.Hoist.and_runs_argument",
    "Verif.Hoist.and_guard_is_late",
    "Verif.Hoist.or_guard_is_late",
    "Verif.Hoist.ternary_runs_both",
    "Verif.Hoist.else_if_decl_runs_first",
    "Verif.Hoist.else_if_not_guarded",
    "Verif.Hoist.else_if_argument_not_guarded"
   ],
   "note": "Proved if the parts that may be skipped have no compound arguments and declare no variables, and for expressions without effects and failures. False otherwise: x != 0 && f(10 / x) divides first, c ? f(g()) : f(h()) calls both g and h, and else if (const x = e) computes e before the first condition."
  },
  {
   "property": "C160",
   "status": "partial",
   "theorems": [
    "Verif.Hoist.left_to_right_partial",
    "Verif.Hoist.harmless_value_partial",
    "Verif.Hoist.variable_read_late",
    "Verif.Hoist.operand_called_late"
   ],
   "note": "Proved if compound arguments come in front, and for expressions without effects and failures. False otherwise: f(x, g()) reads x after the call of g."
  },
  {
   "property": "C161",
   "status": "partial",
   "theorems": [
    "Verif.CText.c_reads_the_parsed_tree_partial",
    "Verif.CText.deref_of_cast_reads_element",
    "Verif.CText.assigned_condition_reads_assigned_choice",
    "Verif.CText.assigning_choice_is_rejected"
   ],
   "note": "Proved for expressions of names, numbers, members, indices, unary, binary, conditional and assignment operators, without conversions, doubled signs and conditionals that hold assignments. False for a dereferenced conversion, an assignment as the condition of ?: and one behind its colon."
  },
  {
   "property": "C162",
   "status": "partial",
   "theorems": [
    "Verif.CText.conversion_of_operand_partial",
    "Verif.CText.conversion_reads_leftmost",
    "Verif.CText.conversion_not_read",
    "Verif.CText.converted_quotient"
   ],
   "note": "Proved for operands that are names, numbers, members, calls in parentheses and unary operators. False for every binary operator and conditional: the conversion is written in front without parentheses, so C converts the leftmost operand only."
  },
  {
   "property": "C163",
   "status": "partial",
   "theorems": [
    "Verif.CText.parenthesised_signs_partial",
    "Verif.CText.different_signs_partial",
    "Verif.CText.negation_twice_reads_decrement",
    "Verif.CText.plus_twice_reads_increment",
    "Verif.CText.negated_literal_reads_decrement"
   ],
   "note": "Proved with parentheses between the signs and for different signs. False otherwise: the signs are written next to each other, so C reads -- or ++ and changes the variable."
  },
  {
   "property": "C164",
   "status": "partial",
   "theorems": [
    "Verif.CFlow.c_runs_like_the_source_partial"
   ],
   "note": "Proved for all statements whose switches have a default and no break of a loop outside. The rest is C165 and C166."
  },
  {
   "property": "C165",
   "status": "partial",
   "theorems": [
    "Verif.CFlow.c_runs_like_the_source_partial",
    "Verif.CFlow.break_in_switch_leaves_switch_only",
    "Verif.CFlow.loop_left_by_switch_never_ends"
   ],
   "note": "False: the break is written as a break of C, which leaves the switch; a loop that only ends there never ends."
  },
  {
   "property": "C166",
   "status": "partial",
   "theorems": [
    "Verif.CFlow.switch_with_default_partial",
    "Verif.CFlow.unlisted_value_aborts"
   ],
   "note": "Proved with a default. False without: the back end adds a default that aborts."
  },
  {
   "property": "C167",
   "status": "partial",
   "theorems": [
    "Verif.CLit.string_bytes_partial",
    "Verif.CLit.text_bytes_partial",
    "Verif.CLit.high_byte_ends_compiler",
    "Verif.CLit.high_byte_becomes_two",
    "Verif.CLit.backslash_before_hex",
    "Verif.CLit.nul_cuts"
   ],
   "note": "Proved for ASCII, the escapes and \\xHH. False beyond ASCII: with a signed char any other letter ends the compiler, with an unsigned one its bytes are doubled; and false behind a NUL and for a backslash in front of xHH."
  },
  {
   "property": "C168",
   "status": "partial",
   "theorems": [
    "Verif.CLit.char_kept_partial",
    "Verif.CLit.single_quote_invalid",
    "Verif.CLit.other_char_invalid"
   ],
   "note": "Proved for ASCII but the single quote. False for the single quote (written without a backslash) and for every character beyond ASCII."
  },
  {
   "property": "C169",
   "status": "partial",
   "theorems": [
    "Verif.CLit.integer_literal_value_partial",
    "Verif.CLit.smallest_literal_positive"
   ],
   "note": "Proved for all values but the smallest i64, which C reads as a positive number."
  },
  {
   "property": "C170",
   "status": "partial",
   "theorems": [
    "Verif.CLit.float_literal_value_partial",
    "Verif.CLit.digits_behind_seventh_lost"
   ],
   "note": "Proved for literals of at most seven digits. False for longer ones: only seven are written."
  },
  {
   "property": "C171",
   "status": "partial",
   "theorems": [
    "Verif.CArith.c_value_partial",
    "Verif.CArith.plain_good",
    "Verif.CArith.stored_result_partial",
    "Verif.CArith.narrow_result_not_wrapped",
    "Verif.CArith.u16_product_undefined",
    "Verif.CArith.signed_overflow_undefined",
    "Verif.CArith.shifted_literal_undefined"
   ],
   "note": "Proved if nothing overflows and no unsigned operand meets a signed type of its width, and for sums, differences and products that are stored in their type. False otherwise: narrow types do not wrap, overflows of i32, i64 and products of u16 are undefined, and 1 << n is shifted as int."
  },
  {
   "property": "C172",
   "status": "partial",
   "theorems": [
    "Verif.CArith.c_value_partial",
    "Verif.CArith.plain_good",
    "Verif.CArith.negative_compares_huge",
    "Verif.CArith.overflowed_sum_above"
   ],
   "note": "As C171. False for negative numbers compared with unsigned ones of their width, and for overflowing sums of narrow types."
  },
  {
   "property": "C173",
   "status": "proved",
   "theorems": [
    "Verif.StreamIO.send_count_exact",
    "Verif.StreamIO.sent_is_prefix",
    "Verif.StreamIO.write_count_exact"
   ],
   "note": ""
  },
  {
   "property": "C174",
   "status": "partial",
   "theorems": [
    "Verif.StreamIO.send_completes_partial",
    "Verif.StreamIO.full_buffer_fails_send",
    "Verif.StreamIO.full_pipe_fails_write"
   ],
   "note": "Proved if the kernel takes some bytes at every call. False otherwise: the wait never reports a socket as writable, so that a full buffer fails the send."
  },
  {
   "property": "C175",
   "status": "partial",
   "theorems": [
    "Verif.StreamIO.received_exact_partial",
    "Verif.StreamIO.received_in_order_partial",
    "Verif.StreamIO.failed_receive_loses",
    "Verif.StreamIO.hangup_is_timeout",
    "Verif.StreamIO.closed_receives_zero"
   ],
   "note": "Proved if no call fails behind bytes already taken. False otherwise: these bytes are lost; a hang-up is reported as a timeout, and receiving from a closed socket succeeds with no bytes."
  },
  {
   "property": "C176",
   "status": "partial",
   "theorems": [
    "Verif.StreamIO.sendFile_bytes_partial",
    "Verif.StreamIO.sendFile_never_succeeds",
    "Verif.StreamIO.sendFile_repeats"
   ],
   "note": "Proved of the bytes if the kernel takes them in one call. False: the offset moves only if nothing was sent, so that no call that sends anything reports success and a part sent in pieces is sent from its start again."
  },
  {
   "property": "C177",
   "status": "partial",
   "theorems": [
    "Verif.StreamIO.copy_exact_partial",
    "Verif.StreamIO.copy_in_pieces_loses"
   ],
   "note": "Proved if the kernel writes every piece whole. False otherwise: what is left of a piece is dropped."
  },
  {
   "property": "C178",
   "status": "partial",
   "theorems": [
    "Verif.StreamIO.readAsync_content_partial",
    "Verif.StreamIO.readAll_content_partial",
    "Verif.StreamIO.readAll_stream_partial",
    "Verif.StreamIO.readAsync_hangup_raises",
    "Verif.StreamIO.small_file_aborts",
    "Verif.StreamIO.shrunk_file_never_returns",
    "Verif.StreamIO.read_error_is_end"
   ],
   "note": "Proved for streams and for files of at least the initial capacity. False: short files abort, a file that shrinks is read for ever, and an error of a read is taken for the end."
  },
  {
   "property": "C179",
   "status": "partial",
   "theorems": [
    "Verif.Proc.output_reaches_parent_partial",
    "Verif.Proc.output_ends"
   ],
   "note": "Proved for a parent with its own standard streams open and pipes that do not fill up."
  },
  {
   "property": "C180",
   "status": "partial",
   "theorems": [
    "Verif.Proc.input_never_arrives"
   ],
   "note": "False: the ends of the pipe are exchanged, so that no byte ever reaches the program."
  },
  {
   "property": "C181",
   "status": "partial",
   "theorems": [
    "Verif.Proc.exit_code_partial",
    "Verif.Proc.killed_reported_as_success"
   ],
   "note": "Proved for programs that end by themselves. False for killed ones, which are reported with code 0."
  },
  {
   "property": "C182",
   "status": "partial",
   "theorems": [
    "Verif.Proc.waitAsync_partial",
    "Verif.Proc.isExited_takes_exit_code",
    "Verif.Proc.running_reported_as_success"
   ],
   "note": "Proved for waitAsync alone. False with isExited, which takes the code away, and with wait after it."
  },
  {
   "property": "C183",
   "status": "partial",
   "theorems": [
    "Verif.JsonVal.json_read_partial",
    "Verif.JsonVal.read_integer_in_range",
    "Verif.JsonVal.large_integer_changed"
   ],
   "note": "Proved for integers up to 2^53, strings without a backslash at their end, and skipped members without negative numbers. False beyond 2^53: every odd number between 2^53 and 2^54 changes silently."
  },
  {
   "property": "C184",
   "status": "partial",
   "theorems": [
    "Verif.JsonVal.other_member_skipped_partial",
    "Verif.JsonVal.other_member_refused",
    "Verif.JsonVal.negative_number_not_skipped"
   ],
   "note": "Refusing is proved in full. Skipping is false for negative numbers, which are refused."
  },
  {
   "property": "C185",
   "status": "partial",
   "theorems": [
    "Verif.JsonVal.wrong_kind_refused_partial",
    "Verif.JsonVal.read_boolean_word",
    "Verif.JsonVal.commas_do_not_matter",
    "Verif.JsonVal.missing_commas_accepted",
    "Verif.JsonVal.trailing_text_ignored"
   ],
   "note": "Proved for documents of another kind. False for commas between members and for text behind the value."
  },
  {
   "property": "C186",
   "status": "proved",
   "theorems": [
    "Verif.JsonVal.reading_ends"
   ],
   "note": ""
  },
  {
   "property": "C187",
   "status": "partial",
   "theorems": [
    "Verif.JsonVal.json_roundtrip_partial",
    "Verif.JsonVal.large_unsigned_undefined",
    "Verif.JsonVal.nested_optional_lost"
   ],
   "note": "Proved for integers up to 2^53, strings without quotes or a backslash at their end, tuples, structures and optionals. False for unsigned numbers from 2^63 on and for optionals of optionals."
  },
  {
   "property": "C188",
   "status": "proved",
   "theorems": [
    "Verif.Unions.union_holds_what_is_stored"
   ],
   "note": "A member that is written `const` cannot be stored; the theorem is about the others."
  },
  {
   "property": "C189",
   "status": "partial",
   "theorems": [
    "Verif.Unions.union_program_partial",
    "Verif.Unions.guard_does_not_protect",
    "Verif.Unions.else_if_checked_too_early",
    "Verif.Unions.case_checked_too_early",
    "Verif.Unions.called_twice"
   ],
   "note": "Proved for whole programs in which `as` stands at places that are always reached and has no side effects. False behind && and ||, in else-if conditions and in case bodies without braces, where the check is moved to the front and stops the program; and for calls, which are made twice."
  },
  {
   "property": "C190",
   "status": "partial",
   "theorems": [
    "Verif.Unions.match_runs_held_partial",
    "Verif.Unions.first_of_several_does_nothing",
    "Verif.Unions.const_case_invalid",
    "Verif.Unions.index_evaluated_twice"
   ],
   "note": "Proved for cases of one type with braces. False for cases of several types: all but the last do nothing; for `T` beside `const T`; and for elements whose index changes something."
  },
  {
   "property": "C191",
   "status": "partial",
   "theorems": [
    "Verif.Print.printed_integer_partial",
    "Verif.Print.large_u64_printed_negative"
   ],
   "note": "Proved for all types but u64. False for u64 from 2^63 on: always printed as a negative number."
  },
  {
   "property": "C192",
   "status": "partial",
   "theorems": [
    "Verif.Print.printed_apart_partial",
    "Verif.Print.print_total",
    "Verif.Print.strings_not_apart",
    "Verif.Print.nested_optionals_not_apart",
    "Verif.Print.union_members_not_apart"
   ],
   "note": "Proved for all types without strings, characters, unions and optionals of optionals. False for strings in tuples, for optionals of optionals and for unions of two integer types."
  },
  {
   "property": "C193",
   "status": "partial",
   "theorems": [
    "Verif.Print.ascii_printed_partial",
    "Verif.Print.other_chars_not_printed"
   ],
   "note": "Proved for ASCII. False for every other char: nothing is printed (C back end, signed char)."
  },
  {
   "property": "C194",
   "status": "partial",
   "theorems": [
    "Verif.Generics.type_arguments_partial",
    "Verif.Generics.unmentioned_refused",
    "Verif.Generics.inner_type_of_another_parameter",
    "Verif.Generics.default_read_outside",
    "Verif.Generics.pack_read_outside",
    "Verif.Generics.pack_types_not_written"
   ],
   "note": "Proved for type parameters that are no packs, are given by an argument that is written, and whose parameter does not stand behind a reference or pointer. False otherwise: a pointer behind a reference parameter is peeled, and the compiler reads outside the list of types or types it never wrote."
  },
  {
   "property": "C195",
   "status": "partial",
   "theorems": [
    "Verif.Closures.closure_reaches_iff",
    "Verif.Closures.closure_reaches_partial",
    "Verif.Closures.same_variables",
    "Verif.Closures.fields_are_what_is_named",
    "Verif.Closures.two_closures_out_not_reached",
    "Verif.Closures.after_inner_closure_not_reached"
   ],
   "note": "Exactly which programs: closures may use only the variables of the function they are written in, and none of them directly after a closure of their own. So it holds for closures without closures in them, and fails for every variable used two closures in."
  },
  {
   "property": "C196",
   "status": "proved",
   "theorems": [
    "Verif.Slice.get_spec",
    "Verif.Slice.set_spec",
    "Verif.Slice.view_spec",
    "Verif.Slice.set_through_view",
    "Verif.Slice.disjoint_views"
   ],
   "note": "With assertions on (the default)."
  },
  {
   "property": "C197",
   "status": "partial",
   "theorems": [
    "Verif.Slice.loop_visits_all_partial",
    "Verif.Slice.long_loop_undefined"
   ],
   "note": "Proved for fewer than 2^31 elements. From 2^31 elements on the index, an i32, overflows: undefined in the C that is written."
  },
  {
   "property": "C198",
   "status": "partial",
   "theorems": [
    "Verif.ForEach.array_loop_visits_all_partial",
    "Verif.ForEach.array_loop_notes_all",
    "Verif.ForEach.comptime_string_visits_all",
    "Verif.ForEach.string_loop_visits_nothing",
    "Verif.ForEach.string_loop_differs",
    "Verif.ForEach.assigned_index_never_ends"
   ],
   "note": "Proved for arrays, if the body does not assign the index, and for #for over strings. False for strings at run time: a loop over any string does nothing, as the length is taken from the type."
  },
  {
   "property": "C199",
   "status": "partial",
   "theorems": [
    "Verif.ForEach.inherited_operators_partial",
    "Verif.ForEach.own_operators",
    "Verif.ForEach.operators_not_inherited",
    "Verif.ForEach.range_of_outermost_base",
    "Verif.ForEach.range_own_iff"
   ],
   "note": "Proved for binary operators and conditions, and for classes without a base. False for [], []=, calls, await and *, which are never inherited, and for loops, where only the outermost base counts."
  },
  {
   "property": "C200",
   "status": "partial",
   "theorems": [
    "Verif.Comptime.comptime_code_means_source_partial"
   ],
   "note": "Proved for programs in which compile-time variables are assigned only in the run-time branch or loop that declares them (see C201 for the others) and no run-time if has an `else #if` (C202). Values are mathematical integers here; folding is C26."
  },
  {
   "property": "C201",
   "status": "partial",
   "theorems": [
    "Verif.Comptime.branch_assignment_right_iff",
    "Verif.Comptime.loop_assignment_happens_once"
   ],
   "note": "False: the assignment takes place once, when the code is compiled, whether or not the branch runs and however often the loop does. Proved: right exactly when the condition holds or nothing changes."
  },
  {
   "property": "C202",
   "status": "partial",
   "theorems": [
    "Verif.Comptime.else_comptime_if_swallows_next",
    "Verif.Comptime.else_comptime_if_wrong"
   ],
   "note": "False: the selected code is dropped, and the statement that follows becomes the else branch. The theorem gives the program that is really emitted."
  },
  {
   "property": "C203",
   "status": "partial",
   "theorems": [
    "Verif.Comptime.unrolled_declaration_valid_iff"
   ],
   "note": "The C code is valid exactly for at most one round or with @consistent."
  },
  {
   "property": "C204",
   "status": "partial",
   "theorems": [
    "Verif.Comptime.Step.step_ends_iff",
    "Verif.Comptime.Step.visit_some"
   ],
   "note": "False: every step is reported as an error, since the test is the wrong way round, and for a step of zero or less on a range that is not empty the compiler never ends. The values visited for a positive step are the right ones."
  },
  {
   "property": "C205",
   "status": "partial",
   "theorems": [
    "Verif.Comptime.Splice.array_loop_right_iff",
    "Verif.Comptime.Splice.last_argument_gets_all_later_elements",
    "Verif.Comptime.Splice.argument_behind_never_ends"
   ],
   "note": "True exactly for at most one element. Otherwise a call gets all later elements too and, with an argument behind, the compiler never ends."
  },
  {
   "property": "C206",
   "status": "partial",
   "theorems": [
    "Verif.CNames.names_mean_the_same_iff",
    "Verif.CNames.parameter_hidden_refused",
    "Verif.CNames.hidden_variable_not_read"
   ],
   "note": "Exactly the functions that are clean keep their meaning. False otherwise: a variable that hides a parameter in the outermost block is refused by the C compiler, and `var x = x` in an inner block reads the new variable."
  },
  {
   "property": "C207",
   "status": "partial",
   "theorems": [
    "Verif.MultiDecl.declares_components",
    "Verif.MultiDecl.declares_from_variable_partial",
    "Verif.MultiDecl.variable_taken_apart_twice",
    "Verif.MultiDecl.declares_elements_partial",
    "Verif.MultiDecl.dropped_element_irrelevant",
    "Verif.MultiDecl.dropped_call_not_made",
    "Verif.MultiDecl.reordering_right_iff",
    "Verif.MultiDecl.only_ignored_crashes",
    "Verif.MultiDecl.missing_element_accepted"
   ],
   "note": "Proved for initialisers that are neither tuple expressions nor names. A tuple expression is not evaluated as a whole: later elements see earlier variables (right exactly if none is read), elements at `_` are never computed. Missing elements are accepted, and with no name but `_` the compiler crashes."
  },
  {
   "property": "C208",
   "status": "partial",
   "theorems": [
    "Verif.StructExpr.struct_expression_right",
    "Verif.StructExpr.imported_right_iff",
    "Verif.StructExpr.last_field_lost"
   ],
   "note": "Proved in the module of the struct. In a module that imports it, true exactly if the fields stand before the functions; otherwise a value written for the last field is lost."
  },
  {
   "property": "C209",
   "status": "partial",
   "theorems": [
    "Verif.DefaultArgs.default_arguments_partial",
    "Verif.DefaultArgs.default_arguments_iff",
    "Verif.DefaultArgs.default_reads_callers_variable"
   ],
   "note": "True, wherever the call stands, exactly if the defaults needed read no parameter; otherwise the name is looked up at the caller."
  },
  {
   "property": "C210",
   "status": "proved",
   "theorems": [
    "Verif.Net.literal_shows",
    "Verif.Net.wildcard_shows",
    "Verif.Net.set_address_prints"
   ],
   "note": "The text functions of the C library are parameters; of these it is only assumed that they keep the lengths of addresses and can print them."
  },
  {
   "property": "C211",
   "status": "partial",
   "theorems": [
    "Verif.Net.local_address"
   ],
   "note": "True unless the first two addresses of the interface are of the same family; then, and only then, the program is aborted by an assertion."
  },
  {
   "property": "C212",
   "status": "partial",
   "theorems": [
    "Verif.Net.remote_address",
    "Verif.Net.remote_ends_iff",
    "Verif.Net.failing_lookup_hangs"
   ],
   "note": "The result and the freeing are right whenever the look-up ends. It ends exactly if the resolver says that there are no more answers or brings both families; a look-up that keeps failing hangs."
  },
  {
   "property": "C213",
   "status": "partial",
   "theorems": [
    "Verif.Tcp.connect_result",
    "Verif.Tcp.connect_open",
    "Verif.Tcp.connect_leaks_iff",
    "Verif.Tcp.refused_dials_leak",
    "Verif.Tcp.connect_ignores_timeout"
   ],
   "note": "The result is right; the descriptor stays open when the connection is refused at once or the wait fails, and the time limit is not used because the socket still blocks."
  },
  {
   "property": "C214",
   "status": "partial",
   "theorems": [
    "Verif.Tcp.listen_result",
    "Verif.Tcp.accept_first",
    "Verif.Tcp.accept_null_iff",
    "Verif.Tcp.close_idempotent",
    "Verif.Tcp.closed_accepts_nothing",
    "Verif.Tcp.listener_descriptors",
    "Verif.Tcp.listener_no_loss_iff_partial",
    "Verif.Tcp.listening_twice_leaks"
   ],
   "note": "All of it except that listen on a listening listener forgets the old descriptor; the descriptors are accounted for exactly."
  },
  {
   "property": "C215",
   "status": "partial",
   "theorems": [
    "Verif.Net.unset_prints_bytes"
   ],
   "note": "False of the code, always: the bytes are printed as an IPv6 address; 0.0.0.0:0000 never appears."
  },
  {
   "property": "C216",
   "status": "proved",
   "theorems": [
    "Verif.Logger.lshift_prints_parts"
   ],
   "note": "Evaluating a part changes nothing else (parts that log themselves are not modelled)."
  },
  {
   "property": "C217",
   "status": "proved",
   "theorems": [
    "Verif.Logger.log_content"
   ],
   "note": "The time is a parameter, the stream is the list of bytes written; parts that log themselves are not modelled."
  },
  {
   "property": "C218",
   "status": "proved",
   "theorems": [
    "Verif.Modules.once_after_imports"
   ],
   "note": "For every set of files. The built-in module, written before all others, and C headers are left out."
  },
  {
   "property": "C219",
   "status": "partial",
   "theorems": [
    "Verif.Modules.compiles_iff",
    "Verif.Modules.cycle_never_answers"
   ],
   "note": "Which programs compile is as stated. But modules that import one another are not reported: the compiler recurses without end."
  },
  {
   "property": "C220",
   "status": "partial",
   "theorems": [
    "Verif.Startup.start_exact",
    "Verif.Startup.values_hold",
    "Verif.Startup.reads_later_as_zero"
   ],
   "note": "The value is known exactly for every program. It is the stated one if no initialiser reads, through functions, a variable set by code later on; such variables are read as zero, and nothing is reported."
  },
  {
   "property": "C221",
   "status": "partial",
   "theorems": [
    "Verif.Startup.crash_iff",
    "Verif.Startup.rejected_iff",
    "Verif.Startup.static_is_constant",
    "Verif.Startup.struct_is_static",
    "Verif.Startup.struct_field_rejected",
    "Verif.Startup.plain_accepted"
   ],
   "note": "False of the code for variables without an initialiser (the compiler crashes) and for struct expressions with a field that is not constant (the C compiler rejects the output); true for all other expressions without members of constants."
  },
  {
   "property": "C222",
   "status": "partial",
   "theorems": [
    "Verif.Imports.tops_ok_partial",
    "Verif.Imports.import_ok",
    "Verif.Imports.skip_iff",
    "Verif.Imports.false_branch_iff"
   ],
   "note": "True when the test imports to be left out are of the forms \"path\" or name from \"path\", and the branches left out contain no braces; skip_iff and false_branch_iff show that exactly these are left out as a whole."
  },
  {
   "property": "C223",
   "status": "partial",
   "theorems": [
    "Verif.Redundant.nothing_removed",
    "Verif.Redundant.chain_report_partial",
    "Verif.Redundant.idle_reported",
    "Verif.Redundant.one_idle_part",
    "Verif.Redundant.acting_reported"
   ],
   "note": "Nothing is removed, so programs keep their meaning, but the report is wrong: one operand that does nothing is enough for it. It is right for chains of members and operators with one operand."
  },
  {
   "property": "C224",
   "status": "partial",
   "theorems": [
    "Verif.FnCall.call_by_name_partial",
    "Verif.FnCall.call_of_result",
    "Verif.FnCall.chain_calls_doubled",
    "Verif.FnCall.chain_size"
   ],
   "note": "True where functions are called through names. False of the code for other callees: in f()(a) the function f is called twice, and in f()()...() 2^n times."
  },
  {
   "property": "C225",
   "status": "partial",
   "theorems": [
    "Verif.GNames.names_distinct_partial",
    "Verif.GNames.member_clash",
    "Verif.GNames.module_clash",
    "Verif.GNames.same_module_name_clash"
   ],
   "note": "True of programs whose module and type names contain no underscore and whose modules have different names. False otherwise: function T_f beside type T with method f, function b_c of module a beside c of module a_b, two modules of one name."
  },
  {
   "property": "C226",
   "status": "partial",
   "theorems": [
    "Verif.ModPath.relative_path_partial",
    "Verif.ModPath.library_path_partial",
    "Verif.ModPath.current_path_partial",
    "Verif.ModPath.root_unset",
    "Verif.ModPath.empty_library"
   ],
   "note": "True exactly while the path fits the buffer, and unless the compiler is started in the root directory or the library directory is the empty string."
  },
  {
   "property": "C227",
   "status": "partial",
   "theorems": [
    "Verif.ModPath.import_reported_partial",
    "Verif.ModPath.include_reported_iff",
    "Verif.ModPath.relative_include_silent"
   ],
   "note": "True of imports, and of includes exactly if their path does not begin with ./; for the others compilation ends without the message."
  },
  {
   "property": "C228",
   "status": "partial",
   "theorems": [
    "Verif.ArrayLit.array_values_partial",
    "Verif.ArrayLit.array_unsigned_first",
    "Verif.ArrayLit.ternary_values_partial"
   ],
   "note": "True, in both directions, for integers unless the first part is unsigned and a later one signed; then -1 is lost."
  },
  {
   "property": "C229",
   "status": "partial",
   "theorems": [
    "Verif.ArrayLit.any_order_iff",
    "Verif.ArrayLit.literal_order"
   ],
   "note": "The literals for which it is true are known exactly: all elements of one type, all floats, all characters. [1000, 1] is accepted and [1, 1000] is not."
  },
  {
   "property": "C230",
   "status": "partial",
   "theorems": [
    "Verif.ArrayLit.declared_array",
    "Verif.ArrayLit.declared_small_numbers"
   ],
   "note": "False of the code: nothing is refused, and the C that is written can be compiled exactly if the literal has the declared type itself."
  },
  {
   "property": "C231",
   "status": "partial",
   "theorems": [
    "Verif.CImport.layout_partial",
    "Verif.CImport.scalar_iff",
    "Verif.CImport.bools_grow",
    "Verif.CImport.aligned_lost",
    "Verif.CImport.flexible_grows"
   ],
   "note": "True of records of integers, floats, doubles, pointers, arrays and such records. False with _Bool (4 bytes), long double, _Float16, arrays of unknown length (pointers), aligned records, plain char where it is unsigned. Bit fields are not modelled."
  },
  {
   "property": "C232",
   "status": "partial",
   "theorems": [
    "Verif.CImport.constants_partial",
    "Verif.CImport.number_iff",
    "Verif.CImport.unsigned_negative",
    "Verif.CImport.expression_missing",
    "Verif.CImport.later_alias_missing",
    "Verif.CImport.redefined_stale",
    "Verif.CImport.undef_kept"
   ],
   "note": "True of headers that define each name once, by a number in the signed range of its type or by a name above. Numbers with the top bit set become negative (exactly those), expressions are not imported, names defined again or taken back keep their old values."
  },
  {
   "property": "C233",
   "status": "partial",
   "theorems": [
    "Verif.Implements.implements_partial",
    "Verif.Implements.converted_accepted",
    "Verif.Implements.defaults_accepted",
    "Verif.Implements.inherited_refused"
   ],
   "note": "True, in both directions, of plain functions of a class without bases if no types convert. Functions with other parameter types are taken where types convert or parameters have defaults, and functions of a base are not found."
  },
  {
   "property": "C234",
   "status": "partial",
   "theorems": [
    "Verif.Excerpt.one_line_partial",
    "Verif.Excerpt.two_lines_partial",
    "Verif.Excerpt.marks_below_iff",
    "Verif.Excerpt.tab_first",
    "Verif.Excerpt.tab_first_small"
   ],
   "note": "The line is always shown whole and the marks cover the bytes meant. Without tabs they stand below the text exactly if no multi-byte character is before it; after a tab they do not."
  },
  {
   "property": "C235",
   "status": "partial",
   "theorems": [
    "Verif.Tests.skip_iff",
    "Verif.Tests.tests_left_out_partial"
   ],
   "note": "What is skipped is known exactly. Tests whose braces do not match are errors."
  },
  {
   "property": "C236",
   "status": "partial",
   "theorems": [
    "Verif.Tests.cases_partial",
    "Verif.Tests.function_after_line",
    "Verif.Tests.read_file_partial",
    "Verif.Tests.attributes_lost",
    "Verif.Tests.empty_group"
   ],
   "note": "Cases have functions and names of their own and nothing is left out. False of attributes: the first declaration of a group loses its own; a group that begins with an empty group ends the compiler."
  },
  {
   "property": "C237",
   "status": "partial",
   "theorems": [
    "Verif.Tests.succeeds_iff",
    "Verif.Tests.failures_missed",
    "Verif.Tests.test_run_partial",
    "Verif.Tests.number_wrong"
   ],
   "note": "The run succeeds exactly if the number of failures is a multiple of 256; the number printed is wrong from 128 failures on."
  },
  {
   "property": "C238",
   "status": "partial",
   "theorems": [
    "Verif.TypeQ.answer_eq",
    "Verif.TypeQ.documented_partial",
    "Verif.TypeQ.documented_plain_partial",
    "Verif.TypeQ.yes_is_right_partial",
    "Verif.TypeQ.others_taken",
    "Verif.TypeQ.layers_hide"
   ],
   "note": "The answers are known exactly. Three questions say yes for types they are not documented for, and layers of const, aliases and this hide some types."
  },
  {
   "property": "C239",
   "status": "proved",
   "theorems": [
    "Verif.Unreach.dropped_never_runs",
    "Verif.Unreach.dropped_never_runs_void",
    "Verif.Unreach.switch_never_known"
   ],
   "note": "For the statements modelled; handlers of catch are with the exceptions (C149 to C153). A switch or match whose cases all return is not recognised, which only leaves code in."
  },
  {
   "property": "C240",
   "status": "partial",
   "theorems": [
    "Verif.Unreach.gives_result_partial",
    "Verif.Unreach.void_result_returns",
    "Verif.Unreach.falls_off_accepted",
    "Verif.Unreach.dropped_return_unchecked"
   ],
   "note": "False of the code: a body that can come to its end is accepted for a function with a result. True of bodies that leave by returns and if on all ways, and of functions that return !void."
  },
  {
   "property": "C241",
   "status": "partial",
   "theorems": [
    "Verif.ObjGraph.release_right",
    "Verif.ObjGraph.reachable_live",
    "Verif.ObjGraph.released_iff",
    "Verif.ObjGraph.ring_stays"
   ],
   "note": "Exactly so if no object holds itself over others; objects that hold each other are never destroyed. Fields of class type only, no deinit."
  },
  {
   "property": "C242",
   "status": "partial",
   "theorems": [
    "Verif.ObjGraph.assign_right_partial",
    "Verif.ObjGraph.assign_new_partial",
    "Verif.ObjGraph.assign_through_old_iff"
   ],
   "note": "False of the code: the old object is released before the new value is read, so `x.f = x.f.g` uses memory that was given back if the field held the only reference. True if neither side goes over the field that is assigned."
  },
  {
   "property": "C243",
   "status": "partial",
   "theorems": [
    "Verif.CopyDrop.destroy_releases_partial",
    "Verif.CopyDrop.destroy_releases_iff",
    "Verif.CopyDrop.array_never_released",
    "Verif.CopyDrop.tuple_of_unions_forgotten"
   ],
   "note": "The types for which it is true are known exactly. False of arrays that hold objects and of tuples that hold objects only in unions. Structs with a destructor of their own are looked at from outside; closures are left out."
  },
  {
   "property": "C244",
   "status": "partial",
   "theorems": [
    "Verif.CopyDrop.copy_takes_partial",
    "Verif.CopyDrop.copy_of_moved"
   ],
   "note": "True of the same types and of values without optionals that were moved from; a copy of such an optional counts the object that was given away and never releases it."
  },
  {
   "property": "C245",
   "status": "partial",
   "theorems": [
    "Verif.Implicit.accepted_fits_partial",
    "Verif.Implicit.chain_accepted",
    "Verif.Implicit.object_not_converted"
   ],
   "note": "What is accepted is built by constructors that exist, and chains of single constructors are found at any length; but nothing is ever constructed from an object or a struct, although the constructor exists. Variadic constructors are left out."
  },
  {
   "property": "C246",
   "status": "partial",
   "theorems": [
    "Verif.Implicit.ordered_ends_partial",
    "Verif.Implicit.circle_never_ends",
    "Verif.Implicit.copy_constructor_never_ends",
    "Verif.Implicit.copied_source_never_ends"
   ],
   "note": "False of the code: constructors that take each other, or a constructor that takes the type itself, make the check recurse for ever. True if types can be ordered so that constructors take only what comes before."
  },
  {
   "property": "C247",
   "status": "partial",
   "theorems": [
    "Verif.ClassEnd.destroy_complete_partial",
    "Verif.ClassEnd.destroy_complete_iff",
    "Verif.ClassEnd.released_partial"
   ],
   "note": "True if no class of the chain has a `destructor` with a body; with one, exactly if nothing is due in that class and its bases. Fields are taken to be where the base looks for them (see C132)."
  },
  {
   "property": "C248",
   "status": "partial",
   "theorems": [
    "Verif.ClassEnd.deinit_sees_own_partial",
    "Verif.ClassEnd.deinit_sees_all_iff"
   ],
   "note": "True of the fields of the class itself. False of inherited ones: the destructor of the base runs first and clears them, so a deinit finds null in each managed field of a base. What deinit does to fields is left out."
  },
  {
   "property": "C249",
   "status": "partial",
   "theorems": [
    "Verif.FsOps.remove_tree_partial",
    "Verif.FsOps.plain_removes_one",
    "Verif.FsOps.plain_refuses",
    "Verif.FsOps.link_followed",
    "Verif.FsOps.dangling_stays"
   ],
   "note": "True of trees whose links lead to files only. False with links to directories: what is in the directory they lead to is removed, wherever it is, the link stays and so does the tree. A link that leads nowhere cannot be removed. Errors of the operating system and links in circles are left out."
  },
  {
   "property": "C250",
   "status": "partial",
   "theorems": [
    "Verif.FsOps.Listing.lists_all_partial",
    "Verif.FsOps.Listing.flat_stops",
    "Verif.FsOps.Listing.stop_not_heard"
   ],
   "note": "True of listings that are not recursive, and of recursive ones that are not stopped; a callback that returns false inside a directory is called again with the directory and what follows."
  },
  {
   "property": "C251",
   "status": "partial",
   "theorems": [
    "Verif.FsOps.Mkdirs.mkdirs_right_partial",
    "Verif.FsOps.Mkdirs.trailing_separator_fails"
   ],
   "note": "True of paths of names with single separators; with a separator at the end the directories are made and an exception is raised. Files in the way are left out."
  },
  {
   "property": "C252",
   "status": "partial",
   "theorems": [
    "Verif.FsOps.is_right",
    "Verif.FsOps.islink_never"
   ],
   "note": "True of isfile and isdir; islink is always false because it follows the link."
  },
  {
   "property": "C253",
   "status": "partial",
   "theorems": [
    "Verif.FieldInit.defaults_iff",
    "Verif.FieldInit.defaults_right_partial",
    "Verif.FieldInit.plain_class_loses",
    "Verif.FieldInit.others_zero"
   ],
   "note": "Known exactly: true if and only if each class below a class with a default value other than zero has a default value of its own or virtual functions. False of a class that adds no default value: all those of its bases are lost."
  },
  {
   "property": "C254",
   "status": "partial",
   "theorems": [
    "Verif.Ssl.send_right",
    "Verif.Ssl.send_succeeds_partial",
    "Verif.Ssl.large_never_sent",
    "Verif.Ssl.send_gives_up"
   ],
   "note": "The order and completeness hold for all sizes. That it succeeds holds for sizes below 2^31; larger buffers are never sent, and an error in between (also when OpenSSL has to read first) returns null after part was sent. What OpenSSL does with lengths that are not positive is trusted."
  },
  {
   "property": "C255",
   "status": "partial",
   "theorems": [
    "Verif.Ssl.recv_right",
    "Verif.Ssl.timeout_keeps_partial",
    "Verif.Ssl.error_loses",
    "Verif.Ssl.zero_means_end_partial",
    "Verif.Ssl.large_reads_nothing"
   ],
   "note": "What is returned is right for all sizes. False of bytes read before an error: they are lost. Zero means the end for sizes below 2^31; for sizes that are no positive i32 it is returned although bytes are there. What OpenSSL does with lengths that are not positive is trusted."
  },
  {
   "property": "C256",
   "status": "partial",
   "theorems": [
    "Verif.Ssl.file_right_partial",
    "Verif.Ssl.file_unaligned"
   ],
   "note": "True of offsets at a page and parts inside the file; from any other offset nothing is sent. Parts beyond the end of the file are left out."
  },
  {
   "property": "C257",
   "status": "partial",
   "theorems": [
    "Verif.Spread.order_iff",
    "Verif.Spread.empty_dropped",
    "Verif.Spread.moved_first",
    "Verif.Spread.spread_first_partial"
   ],
   "note": "Known exactly. False of a spread expression behind other arguments: it is evaluated before them; false of one that gives nothing or an empty tuple: it is never evaluated. Moves and parameters for any number of arguments are left out."
  },
  {
   "property": "C258",
   "status": "partial",
   "theorems": [
    "Verif.Spread.values_right_partial",
    "Verif.Spread.spread_first_partial"
   ],
   "note": "True of all lists of arguments whose values do not depend on the order of evaluation, and of those that begin with the spread expressions whatever they do. Moves and parameters for any number of arguments are left out."
  },
  {
   "property": "C259",
   "status": "proved",
   "theorems": [
    "Verif.ModMembers.members_right",
    "Verif.ModMembers.fits_iff"
   ],
   "note": "For files as the parser builds them, with imports only at the beginning; what happens otherwise is known exactly. Flags and types of members are left out."
  },
  {
   "property": "C260",
   "status": "proved",
   "theorems": [
    "Verif.CompIndex.xform_right",
    "Verif.CompIndex.xform_error_iff"
   ],
   "note": "For any evaluation of conditions and transforms; how they are evaluated is a parameter."
  },
  {
   "property": "C261",
   "status": "partial",
   "theorems": [
    "Verif.CompIndex.tuple_right",
    "Verif.CompIndex.attr_right_partial",
    "Verif.CompIndex.array_iff",
    "Verif.CompIndex.array_never",
    "Verif.CompIndex.iter_never",
    "Verif.CompIndex.string_iff",
    "Verif.CompIndex.string_outside"
   ],
   "note": "Right for tuples and attributes. False for arrays that are written in the program and for the members of declarations, where every index is an error, and for bytes of strings that are not ASCII."
  },
  {
   "property": "C262",
   "status": "partial",
   "theorems": [
    "Verif.CompIndex.call_iff",
    "Verif.CompIndex.call_passes",
    "Verif.CompIndex.call_right_partial"
   ],
   "note": "False: the elements behind the index are passed as well. Right exactly for the last element. Shown for tuples; errors in other arguments are left out."
  },
  {
   "property": "C263",
   "status": "partial",
   "theorems": [
    "Verif.Build.set_raises_iff",
    "Verif.Build.option_last",
    "Verif.Build.set_replaces",
    "Verif.Build.set_keeps_iff",
    "Verif.Build.set_new_partial"
   ],
   "note": "What is raised is right. False for the value: a call that raises has replaced it. Maps are lists of pairs, as justified for histories of insertions by C33."
  },
  {
   "property": "C264",
   "status": "partial",
   "theorems": [
    "Verif.Build.task_first",
    "Verif.Build.add_raises_iff",
    "Verif.Build.run_right_partial",
    "Verif.Build.run_stops"
   ],
   "note": "For maps whose visits are complete; the iteration of large hash maps is not, which is C53."
  },
  {
   "property": "C265",
   "status": "partial",
   "theorems": [
    "Verif.Build.bind_iff",
    "Verif.Build.bind_never"
   ],
   "note": "False: the values never arrive, since the function that should store them is empty."
  },
  {
   "property": "C266",
   "status": "partial",
   "theorems": [
    "Verif.CompTypes.eq_right_partial",
    "Verif.CompTypes.ne_opposite",
    "Verif.CompTypes.class_never",
    "Verif.CompTypes.around_class_never",
    "Verif.CompTypes.struct_iff",
    "Verif.CompTypes.auto_not_symmetric",
    "Verif.CompTypes.func_crashes"
   ],
   "note": "False for classes, which are not equal to themselves, nor is anything around them; for structures with the same name in two modules; for auto; and for functions within other types. Right for all other types of any depth. How operands are evaluated before is left out."
  },
  {
   "property": "C267",
   "status": "partial",
   "theorems": [
    "Verif.Fetch.length_right_partial",
    "Verif.Fetch.length_raises_iff",
    "Verif.Fetch.close_never"
   ],
   "note": "Right for bodies of known length. False for bodies that end with the connection: the fetch always raises. What is assumed about the parser is stated in the model; chunked bodies are left out."
  },
  {
   "property": "C268",
   "status": "partial",
   "theorems": [
    "Verif.Fetch.writer_false_partial",
    "Verif.Fetch.writer_true"
   ],
   "note": "False for writers that return true, which the same class takes for going on elsewhere: they get at most one part and the fetch raises. Right for writers that return false."
  },
  {
   "property": "C269",
   "status": "partial",
   "theorems": [
    "Verif.Conds.cond_right_partial",
    "Verif.Conds.crash_iff",
    "Verif.Conds.class_iff_partial",
    "Verif.Conds.const_base_never"
   ],
   "note": "Right for all values of all types that are accepted, but enumerations: on these the compiler stops working. Behind a reference to a constant the operator of a base is not found."
  },
  {
   "property": "C270",
   "status": "partial",
   "theorems": [
    "Verif.Conds.ternary_iff",
    "Verif.Conds.ternary_pointer_never"
   ],
   "note": "False but for booleans: numbers, pointers and objects are accepted and the branch is then on a value that is no boolean."
  },
  {
   "property": "C271",
   "status": "partial",
   "theorems": [
    "Verif.Conds.not_right_partial",
    "Verif.Conds.not_both_iff",
    "Verif.Conds.not_accepts",
    "Verif.Conds.not_float_never"
   ],
   "note": "Right for booleans. False for objects whose `!!` returns an integer: both branches are taken unless it is 0 or -1."
  },
  {
   "property": "C272",
   "status": "partial",
   "theorems": [
    "Verif.Try.try_right_partial"
   ],
   "note": "Right for all programs that nest at most 16 deep and leave no statement early; what happens otherwise is under the next two."
  },
  {
   "property": "C273",
   "status": "partial",
   "theorems": [
    "Verif.Try.nested_iff",
    "Verif.Try.nested_exits"
   ],
   "note": "False: with more than 15 blocks in one another the compiler exits."
  },
  {
   "property": "C274",
   "status": "partial",
   "theorems": [
    "Verif.Try.errors_reported_partial",
    "Verif.Try.badAt_step",
    "Verif.Try.errors_iff",
    "Verif.Try.errors_lost",
    "Verif.Try.after_errors_iff"
   ],
   "note": "False: each error in a block costs a frame, since the handler leaves the loop that would give it back; from the sixteenth error on nothing is reported, and functions behind errors may have fewer blocks."
  },
  {
   "property": "C275",
   "status": "partial",
   "theorems": [
    "Verif.Recover.block_iff",
    "Verif.Recover.block_first",
    "Verif.Recover.block_within_never",
    "Verif.Recover.block_end_never",
    "Verif.Recover.block_end_skips"
   ],
   "note": "False unless there are no braces in what is left of the block: parsing goes on at the first closing brace, wherever that is. If the error is at the closing brace of the block, code behind the block is skipped."
  },
  {
   "property": "C276",
   "status": "partial",
   "theorems": [
    "Verif.Recover.program_iff",
    "Verif.Recover.program_semi_partial",
    "Verif.Recover.program_extern_lost",
    "Verif.Recover.program_less"
   ],
   "note": "False: the token of the error is passed twice, so that a declaration right behind it is skipped; those that begin with `extern`, `test`, `exception` or `#` are not looked for."
  },
  {
   "property": "C277",
   "status": "partial",
   "theorems": [
    "Verif.Attr.attr_iff",
    "Verif.Attr.signed_never",
    "Verif.Attr.attr_bare",
    "Verif.Attr.commas_optional"
   ],
   "note": "Right exactly if no argument has a sign and either none or all have names. Arguments with a sign are meant to be accepted and never are; missing commas are not noticed. Types behind numbers are not modelled."
  },
  {
   "property": "C278",
   "status": "partial",
   "theorems": [
    "Verif.Threads.join_waits",
    "Verif.Threads.join_made",
    "Verif.Threads.join_once_partial",
    "Verif.Threads.copy_twice"
   ],
   "note": "`join` always has waited. Once only without copies: a copy of an object is joinable as the object was, and joining both waits twice."
  }
 ]
}