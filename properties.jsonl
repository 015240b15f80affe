{"id": "C01", "title": "Integer literals denote their mathematical value", "statement": "Parsing an integer literal (source token, or integer(\"...\")) either fails or yields exactly the number the digits denote: optional sign, optional 0x/0b prefix, underscores ignored; decimal literals outside the signed 64-bit range are rejected rather than wrapped, hexadecimal and binary literals denote their low 64 bits reinterpreted as signed and are rejected beyond 64 bits.", "quantifier": "every finite character sequence", "why_tests_cant": "the input space is unbounded and the interesting cases sit on both sides of every overflow boundary in three radices", "anchors": [{"file": "core/kos_misc.c", "symbols": ["kos_parse_int"]}]}
{"id": "C02", "title": "Parsing an integer never runs into undefined behaviour", "statement": "No text handed to the integer parser makes it evaluate a C expression with undefined behaviour.", "quantifier": "every finite character sequence", "why_tests_cant": "undefined behaviour usually produces the expected value on the test machine", "anchors": [{"file": "core/kos_misc.c", "symbols": ["kos_parse_int"]}]}
{"id": "C03", "title": "hex() and integer() are inverse", "statement": "For every integer v and every min_digits in 0..16, the string hex(v, min_digits) starts with 0x, has at least min_digits digits, and integer() of that string is v again.", "quantifier": "every 64-bit integer and every permitted minimum width", "why_tests_cant": "2^64 values times 17 widths", "anchors": [{"file": "modules/base.kos", "symbols": ["hex"]}, {"file": "core/kos_misc.c", "symbols": ["kos_parse_int"]}]}
{"id": "C04", "title": "Bytecode immediates decode to what was encoded", "statement": "Every variable-length unsigned or signed immediate written by the code generator is read back by the interpreter as the same number, consuming exactly the bytes written, whatever follows it; the predicted encoded size of a signed immediate equals the number of bytes written.", "quantifier": "every immediate the generator can emit and every trailing byte sequence", "why_tests_cant": "the round trip must hold for each of the 2^30 immediates in front of arbitrary code", "anchors": [{"file": "core/kos_compiler.c", "symbols": ["write_uimm", "write_simm", "encode_signed", "get_simm_size"]}, {"file": "core/kos_misc.c", "symbols": ["kos_load_uimm", "kos_load_simm"]}]}
{"id": "C05", "title": "UTF-8 encode then decode is the identity", "statement": "Any string of code points accepted by the encoder, encoded to UTF-8 and decoded again (as conversion string -> buffer -> string does) gives the same code points, and the encoder writes exactly the number of bytes its size calculation announces.", "quantifier": "every finite sequence of code points, in each of the three element widths", "why_tests_cant": "unbounded sequences over two million code points in three internal widths", "anchors": [{"file": "core/kos_utf8.c", "symbols": ["KOS_utf8_calc_buf_size_8", "KOS_utf8_calc_buf_size_16", "KOS_utf8_calc_buf_size_32", "KOS_utf8_encode_8", "KOS_utf8_encode_16", "KOS_utf8_encode_32", "KOS_utf8_decode_8", "KOS_utf8_decode_16", "KOS_utf8_decode_32", "KOS_utf8_get_len"]}]}
{"id": "C06", "title": "UTF-8 length scan and decoder agree on every byte string", "statement": "Whenever the length scan accepts a byte string with n characters and maximum code m, the decoder for any element width able to hold m reads only inside the byte string and writes exactly n code units, none above the larger of m and 0x7F; so creating a string from a literal or from a buffer never overruns the allocated string, and the string consists of the decoded characters.", "quantifier": "every byte string, with and without escape processing", "why_tests_cant": "memory safety for arbitrary untrusted bytes cannot be sampled", "anchors": [{"file": "core/kos_utf8.c", "symbols": ["KOS_utf8_get_len", "KOS_utf8_decode_8", "KOS_utf8_decode_16", "KOS_utf8_decode_32", "parse_escape_sequence"]}, {"file": "core/kos_string.c", "symbols": ["new_string", "new_empty_string", "KOS_new_string_from_buffer", "string_size_from_max_code"]}]}
{"id": "C07", "title": "Adjacent string literals join without changing their characters", "statement": "When the optimizer concatenates the source text of two string literals, the escape-decoded value of the joined text equals the concatenation of the two decoded values.", "quantifier": "every pair of literal bodies the lexer can produce", "why_tests_cant": "an escape sequence could swallow the beginning of the second literal for some pair", "anchors": [{"file": "core/kos_compiler_optim.c", "symbols": ["add_strings"]}, {"file": "core/kos_utf8.c", "symbols": ["parse_escape_sequence", "KOS_utf8_get_len"]}, {"file": "core/kos_lexer.c", "symbols": ["collect_escape", "collect_string"]}]}
{"id": "C08", "title": "A quoted string reads back as the same string", "statement": "Printing a string inside a container quotes and escapes it so that the quoted text, taken as a string literal, denotes the original string.", "quantifier": "every string", "why_tests_cant": "the escaping has separate cases for quotes, backslash, control characters and each UTF-8 length", "anchors": [{"file": "core/kos_utils.c", "symbols": ["vector_append_str", "make_quoted_str"]}, {"file": "core/kos_utf8.c", "symbols": ["parse_escape_sequence"]}]}
{"id": "C09", "title": "Random integers from a range are in range and unbiased", "statement": "random.integer(min, max) always lies between min and max inclusive; and for a given raw generator output space the accepted raw outputs are divided equally among all results, so no value is favoured.", "quantifier": "every range and every sequence of raw generator outputs", "why_tests_cant": "bias of one part in 2^32 is invisible to sampling", "anchors": [{"file": "core/kos_misc.c", "symbols": ["kos_rng_random_range"]}, {"file": "modules/kos_mod_random.c", "symbols": ["rand_integer"]}]}
{"id": "C10", "title": "Integer division and modulo obey the division law", "statement": "For all integers a, b with b != 0, except the overflowing pair of the minimum integer and -1, which raises, a == (a / b) * b + a % b, the quotient is the rational quotient truncated towards zero, and a % b is smaller than b in magnitude and, unless zero, has the sign of a; division and modulo by zero raise.", "quantifier": "every pair of 64-bit integers", "why_tests_cant": "2^128 pairs; errors concentrate on sign combinations and extremes", "anchors": [{"file": "core/kos_vm.c", "symbols": ["div_integer", "mod_integer"]}]}
{"id": "C11", "title": "Shift operators are total and agree with arithmetic", "statement": "For every value and every shift count, a << n, a >> n and a >>> n give the value of multiplying by 2^n modulo 2^64, of flooring division by 2^n, and of unsigned division by 2^n; negative counts shift the other way; counts of any magnitude are well defined and no C shift is executed with an out-of-range count.", "quantifier": "every pair of 64-bit integers", "why_tests_cant": "2^128 pairs, boundary counts -64..64 differ per operator", "anchors": [{"file": "core/kos_vm.c", "symbols": ["execute"]}]}
{"id": "C12", "title": "Constant folding of integer operators equals run-time evaluation", "statement": "For every binary operator and every pair of integer constants, the value folded by the optimizer is the value the virtual machine computes, and compilation fails because of a constant expression exactly when executing the expression would raise an exception.", "quantifier": "every operator and every pair of 64-bit integers", "why_tests_cant": "compile-time and run-time implementations are separate code and must agree on 2^128 pairs per operator", "anchors": [{"file": "core/kos_compiler_optim.c", "symbols": ["optimize_binary_op", "optimize_unary_op"]}, {"file": "core/kos_vm.c", "symbols": ["execute", "add_integer", "sub_integer", "mul_integer", "div_integer", "mod_integer"]}]}
{"id": "C13", "title": "Keyword recognition is exact", "statement": "The lexer's keyword lookup reports keyword k for an identifier exactly when the identifier's text is the text of k, for every identifier including proper prefixes and extensions of keywords.", "quantifier": "every identifier text", "why_tests_cant": "infinitely many identifiers; a binary search with a prefix comparison can go wrong on a few", "anchors": [{"file": "core/kos_lexer.c", "symbols": ["find_keyword", "keywords"]}]}
{"id": "C14", "title": "Operators are read by maximal munch", "statement": "For every input starting with an operator character the lexer returns the longest spelling in the operator set that is a prefix of the input, and consumes exactly that many characters.", "quantifier": "every character sequence", "why_tests_cant": "arbitrary look-ahead context", "anchors": [{"file": "core/kos_lexer.c", "symbols": ["collect_operator", "operator_map"]}]}
{"id": "C15", "title": "Red-black tree keeps sorted order and contents", "statement": "After any sequence of insertions and deletions the in-order walk of the tree visits exactly the items present, in comparison order, and lookup finds an item exactly when it is present.", "quantifier": "every sequence of operations and every key order", "why_tests_cant": "histories are unbounded; delete has eight symmetric rebalancing cases", "anchors": [{"file": "core/kos_red_black.c", "symbols": ["kos_red_black_insert", "kos_red_black_delete", "kos_red_black_find", "kos_red_black_walk"]}]}
{"id": "C16", "title": "Red-black tree stays balanced", "statement": "After any sequence of insertions and deletions no red node has a red child and all root-to-leaf paths have the same number of black nodes, so the height is at most 2*log2(n+1).", "quantifier": "every sequence of operations", "why_tests_cant": "histories are unbounded", "anchors": [{"file": "core/kos_red_black.c", "symbols": ["kos_red_black_insert", "kos_red_black_delete", "left_rotate", "right_rotate"]}]}
{"id": "C17", "title": "Arrays behave as mathematical sequences", "statement": "After any sequence of array operations (create, read, write, push, pop, resize, reserve, slice, insert, fill, compare-and-swap), with positive or negative indices, every observation equals that of a plain sequence; out-of-range accesses raise and leave the array unchanged; storage reallocation is never observable.", "quantifier": "every operation history and every index", "why_tests_cant": "unbounded histories crossing capacity doublings", "anchors": [{"file": "core/kos_array.c", "symbols": ["KOS_new_array", "KOS_array_read", "KOS_array_write", "KOS_array_cas", "KOS_array_reserve", "KOS_array_resize", "KOS_array_slice", "KOS_array_insert", "KOS_array_push", "KOS_array_pop", "KOS_array_fill"]}]}
{"id": "C18", "title": "Concurrent array resize loses no write", "statement": "If one thread grows an array while others read, write or compare-and-swap existing elements, every interleaving gives each element the behaviour of a single atomic variable: a completed write is never lost or duplicated by the storage copy, and no thread observes an internal marker.", "quantifier": "every number of threads and every interleaving of their atomic steps", "why_tests_cant": "the number of schedules is unbounded and the bad ones need a preemption between two machine instructions", "anchors": [{"file": "core/kos_array.c", "symbols": ["copy_buf", "KOS_array_read", "KOS_array_write", "KOS_array_cas", "resize_storage"]}]}
{"id": "C19", "title": "Slice index normalization", "statement": "For every begin and end (negative, void or past the end) a slice of an array, string or buffer contains exactly the elements whose positions lie in the clamped half-open interval, in order.", "quantifier": "every length and every pair of 64-bit indices", "why_tests_cant": "2^128 index pairs for every length", "anchors": [{"file": "core/kos_utils.c", "symbols": ["KOS_fix_index"]}, {"file": "core/kos_array.c", "symbols": ["KOS_array_slice"]}, {"file": "core/kos_string.c", "symbols": ["KOS_string_slice"]}, {"file": "core/kos_buffer.c", "symbols": ["KOS_buffer_slice"]}]}
{"id": "C20", "title": "Buffers behave as byte sequences", "statement": "After any sequence of buffer operations (resize, reserve, make room, fill, copy, slice) the contents equal those of a plain byte sequence under the same operations; overlapping copies behave as if the source were copied first; sizes beyond the limit raise.", "quantifier": "every operation history", "why_tests_cant": "unbounded histories with aliasing copies", "anchors": [{"file": "core/kos_buffer.c", "symbols": ["KOS_buffer_reserve", "KOS_buffer_resize", "KOS_buffer_make_room", "KOS_buffer_fill", "KOS_buffer_copy", "KOS_buffer_slice"]}]}
{"id": "C21", "title": "buffer.insert is a splice", "statement": "buffer.prototype.insert(begin, end, data) replaces exactly the bytes in the clamped interval [begin, end) by data, keeping every other byte and their order.", "quantifier": "every buffer, data and index pair", "why_tests_cant": "the implementation moves the tail in place, growing or shrinking, and inserted data may be longer or shorter than the gap", "anchors": [{"file": "modules/base.kos", "symbols": ["buffer.prototype.insert"]}, {"file": "core/kos_buffer.c", "symbols": ["KOS_buffer_copy", "KOS_buffer_resize"]}]}
{"id": "C22", "title": "Objects behave as finite maps", "statement": "After any sequence of property writes, deletions and reads on an object, reading a property returns the value most recently written and not deleted since, and fails for all other names, across any number of internal table resizes and hash collisions.", "quantifier": "every operation history, every hash function on the keys", "why_tests_cant": "collision patterns and resize points are unbounded", "anchors": [{"file": "core/kos_object.c", "symbols": ["KOS_get_property_with_depth", "KOS_set_property", "KOS_delete_property", "find_property", "set_property", "resize_prop_table", "copy_table", "salvage_item"]}]}
{"id": "C23", "title": "Property lookup follows the prototype chain", "statement": "A shallow read consults only the object; a deep read returns the value from the first object along the prototype chain that has the property; writing or deleting on an object never changes what other objects on the chain hold.", "quantifier": "every finite prototype chain and history", "why_tests_cant": "unbounded chains", "anchors": [{"file": "core/kos_object.c", "symbols": ["KOS_get_property_with_depth", "find_valid_prototype", "KOS_set_property"]}]}
{"id": "C24", "title": "Concurrent property-table resize loses no property", "statement": "When several threads write, delete and read properties of one object while its table is being moved to a larger one, a value whose write completed is found by every later read, a deleted one is not resurrected, and internal markers are never returned.", "quantifier": "every number of threads and interleaving", "why_tests_cant": "races need preemption at specific atomic steps", "anchors": [{"file": "core/kos_object.c", "symbols": ["salvage_item", "copy_table", "set_property", "find_property", "resize_prop_table"]}]}
{"id": "C25", "title": "String hash depends only on the characters", "statement": "Two strings with the same characters have the same hash whatever their internal element width or storage, so property lookup cannot miss because of representation.", "quantifier": "every string in every representation", "why_tests_cant": "the hash is computed by three separate loops", "anchors": [{"file": "core/kos_string.c", "symbols": ["KOS_string_get_hash"]}]}
{"id": "C26", "title": "String comparison is lexicographic order by code point", "statement": "Comparing two strings of any internal widths orders them lexicographically by code point, is a total order, and reports equality exactly for equal character sequences.", "quantifier": "every pair and triple of strings in every representation", "why_tests_cant": "separate code per pair of widths plus word-at-a-time fast paths", "anchors": [{"file": "core/kos_string.c", "symbols": ["KOS_string_compare", "compare_slice", "strcmp_8_16", "strcmp_8_32", "strcmp_16_32"]}]}
{"id": "C27", "title": "Substring search returns the nearest match", "statement": "string.find / rfind from a position return the first (last) position at or after (before) it where the pattern occurs, and -1 exactly when there is none.", "quantifier": "every text, pattern and start position", "why_tests_cant": "unbounded texts", "anchors": [{"file": "core/kos_string.c", "symbols": ["KOS_string_find", "string_find_brute_force"]}]}
{"id": "C28", "title": "Character-set scan returns the nearest qualifying character", "statement": "string.scan / rscan return the nearest position whose character is (or, in exclusive mode, is not) in the given set, and -1 exactly when there is none, regardless of the widths of text and set.", "quantifier": "every text, set, direction, mode and start position", "why_tests_cant": "width mixes of text and set", "anchors": [{"file": "core/kos_string.c", "symbols": ["KOS_string_scan"]}]}
{"id": "C29", "title": "Concatenation, repetition and reversal of strings", "statement": "The characters of a concatenation are those of the parts in order, of a repetition those of the string repeated, of a reversal those of the string backwards, for every mix of internal widths; lengths past the limit raise.", "quantifier": "every sequence of strings in every representation", "why_tests_cant": "width promotion per part", "anchors": [{"file": "core/kos_string.c", "symbols": ["KOS_string_add", "KOS_string_add_n", "KOS_string_repeat", "KOS_string_reverse"]}]}
{"id": "C30", "title": "Every jump lands on its intended instruction after relaxation", "statement": "After the variable-length jump offsets are widened to a fixed point, each jump's stored offset, decoded and added to the end of the jump instruction, is the final position of the instruction it was aimed at; the relaxation terminates.", "quantifier": "every code layout with any number of forward and backward jumps", "why_tests_cant": "offset growth cascades arbitrarily", "anchors": [{"file": "core/kos_compiler.c", "symbols": ["update_jumps", "update_jump_offsets", "update_imm_size", "write_jump_offs"]}]}
{"id": "C31", "title": "Function arguments are bound to the right parameters", "statement": "In every call, parameter i receives argument i if supplied, else its declared default; surplus arguments go to the ellipsis parameter in order; too few arguments raise.", "quantifier": "every function signature and every argument list", "why_tests_cant": "unbounded arity with three storage classes for parameters", "anchors": [{"file": "core/kos_vm.c", "symbols": ["init_registers", "prepare_call"]}, {"file": "core/kos_compiler_args.c", "symbols": ["update_arguments"]}]}
{"id": "C32", "title": "Named arguments are equivalent to positional ones", "statement": "Calling a function with named arguments binds exactly the parameters of those names, fills gaps with defaults, and raises for unknown or missing names.", "quantifier": "every signature and every name-value map", "why_tests_cant": "unbounded signatures", "anchors": [{"file": "core/kos_vm.c", "symbols": ["get_named_args"]}]}
{"id": "C33", "title": "A generator is run by at most one caller at a time", "statement": "In every interleaving of calls to one generator instance from any number of threads, at most one is executing its body at any time, its yields are delivered in order, and once finished it stays finished.", "quantifier": "every number of threads and every schedule", "why_tests_cant": "schedules are unbounded", "anchors": [{"file": "core/kos_vm.c", "symbols": ["prepare_call", "finish_call", "execute"]}]}
{"id": "C34", "title": "A failed generator resume leaves the generator usable", "statement": "If resuming a generator fails before its body runs (for example stack overflow), the generator can be resumed later.", "quantifier": "every generator state and failure point", "why_tests_cant": "needs failure injection between two steps", "anchors": [{"file": "core/kos_vm.c", "symbols": ["prepare_call"]}, {"file": "core/kos_stack.c", "symbols": ["kos_stack_push"]}]}
{"id": "C35", "title": "No register is handed out twice", "statement": "Through every sequence of register allocations (single and contiguous ranges) and releases in a function being compiled, two live temporaries never share a register, ranges are contiguous, and the register count never exceeds 255.", "quantifier": "every allocation history", "why_tests_cant": "unbounded histories", "anchors": [{"file": "core/kos_compiler.c", "symbols": ["gen_new_reg", "gen_reg", "gen_reg_range", "free_reg"]}]}
{"id": "C36", "title": "Dead-code removal preserves program behaviour", "statement": "Removing statements the optimizer considers unreachable never changes what a program does.", "quantifier": "every program and every valuation of its conditions", "why_tests_cant": "control-flow nesting is unbounded", "anchors": [{"file": "core/kos_compiler_optim.c", "symbols": ["process_scope", "if_stmt", "while_stmt", "repeat_stmt", "try_stmt", "switch_stmt", "case_stmt"]}]}
{"id": "C37", "title": "for-in over range() visits what range() yields", "statement": "A for loop over range(begin, end, step) compiled to the specialised counting loop runs its body for exactly the values the range generator yields, in order.", "quantifier": "every begin, end and constant step", "why_tests_cant": "unbounded numeric inputs", "anchors": [{"file": "core/kos_compiler.c", "symbols": ["is_for_range", "for_range"]}, {"file": "modules/base.kos", "symbols": ["range"]}]}
{"id": "C38", "title": "array.sort sorts, permutes and is stable", "statement": "array.sort leaves a permutation of the original elements in non-descending key order, keeping the original order of elements with equal keys; with reverse it is in non-ascending order.", "quantifier": "every array and every key function", "why_tests_cant": "permutations are unbounded", "anchors": [{"file": "modules/kos_mod_base.c", "symbols": ["sort", "sort_range", "is_less_for_sort", "expand_for_sort", "copy_sort_results"]}]}
{"id": "C39", "title": "pack and unpack are inverse", "statement": "For every sequence of integer and byte-sequence format items and values, unpacking what was packed returns the values reduced to the item's width and signedness, consuming exactly the bytes written.", "quantifier": "every format, byte order and value list", "why_tests_cant": "unbounded formats", "anchors": [{"file": "modules/kos_mod_base.c", "symbols": ["process_pack_format", "pack_format", "unpack_format", "pack_format_get_count", "pack_format_skip_spaces"]}]}
{"id": "C40", "title": "unpack never reads outside the buffer", "statement": "Every byte unpack reads lies inside the buffer, for every format string and buffer.", "quantifier": "every format string and buffer", "why_tests_cant": "malicious counts and sizes", "anchors": [{"file": "modules/kos_mod_base.c", "symbols": ["unpack_format", "pack_format_get_count"]}]}
{"id": "C41", "title": "datetime converts timestamps to calendar dates and back", "statement": "For every non-negative timestamp, the date and time fields are the Gregorian calendar date and time of day, and building a datetime from those fields gives the same timestamp; a date that does not exist is rejected.", "quantifier": "every timestamp and every field tuple", "why_tests_cant": "leap rules over unbounded years", "anchors": [{"file": "modules/datetime.kos", "symbols": ["datetime", "first_day_from_year", "is_leap_year", "get_month", "date_check"]}]}
{"id": "C42", "title": "iter.iproduct enumerates the Cartesian product once", "statement": "iproduct(n1, ..., nk) yields every index tuple below the bounds exactly once, first coordinate fastest, and then stops; product() yields the corresponding element tuples in the same order.", "quantifier": "every dimension and all bounds", "why_tests_cant": "unbounded dimensions", "anchors": [{"file": "modules/iter.kos", "symbols": ["iproduct", "product", "generator"]}]}
{"id": "C43", "title": "shuffle returns a permutation", "statement": "random.shuffle(iterable) returns an array with exactly the same elements with the same multiplicities, for every behaviour of the random source.", "quantifier": "every iterable and every random sequence", "why_tests_cant": "unbounded", "anchors": [{"file": "modules/random.kos", "symbols": ["random.prototype.shuffle"]}]}
{"id": "C44", "title": "split and join are inverse", "statement": "Joining the pieces of s.split(sep) with sep gives s back; no piece (with unlimited splits) contains sep; concatenating s.split_lines(true) gives s.", "quantifier": "every string and separator", "why_tests_cant": "unbounded strings", "anchors": [{"file": "modules/base.kos", "symbols": ["string.prototype.split", "string.prototype.split_lines", "join"]}]}
{"id": "C45", "title": "json.dump output parses back to the same value", "statement": "json.parse(json.dump(v)) equals v for every value built from void, booleans, numbers, strings, arrays and objects, and every JSON text, with any whitespace, is parsed to the value it shows.", "quantifier": "every finite JSON value", "why_tests_cant": "unbounded nesting and string contents", "anchors": [{"file": "modules/json.kos", "symbols": ["dump", "parse", "parse_value", "parse_array_value", "parse_object"]}]}
{"id": "C46", "title": "Comparison operators form a total preorder", "statement": "The ordering used by <, <=, >, >=, == and sort on integers, booleans, void, strings and nested arrays of them is reflexive, antisymmetric up to equality, transitive and total.", "quantifier": "every triple of values", "why_tests_cant": "nested values are unbounded", "anchors": [{"file": "core/kos_utils.c", "symbols": ["KOS_compare", "compare", "compare_array", "compare_int", "compare_buf"]}]}
{"id": "C47", "title": "Memory pool allocations never overlap", "statement": "Blocks returned by the compiler's memory pool are pairwise disjoint, 8-byte aligned, inside memory owned by the pool, and stay valid until the pool is destroyed.", "quantifier": "every allocation history including allocation failures", "why_tests_cant": "unbounded histories and crash points", "anchors": [{"file": "core/kos_memory.c", "symbols": ["KOS_mempool_alloc", "alloc_large", "KOS_mempool_init_small"]}]}
{"id": "C48", "title": "Call-stack depth accounting is exact", "statement": "Through every sequence of calls, returns, generator resumes and yields, the recorded stack depth equals the number of slots in use, returns to zero when everything returned, and never exceeds the limit.", "quantifier": "every call history", "why_tests_cant": "unbounded interleavings of generators and calls", "anchors": [{"file": "core/kos_stack.c", "symbols": ["kos_stack_push", "kos_stack_pop", "chain_stack_frame", "unchain_reentrant_frame"]}]}
{"id": "C49", "title": "Floating-point literals parse to the nearest value", "statement": "A floating-point literal denotes a double within one unit in the last place of its mathematical value and a literal too large for a double is rejected.", "quantifier": "every decimal floating-point literal", "why_tests_cant": "boundary literals are rare", "anchors": [{"file": "core/kos_misc.c", "symbols": ["kos_parse_double"]}]}
{"id": "C50", "title": "Source line lookup is exact", "statement": "For every code offset the line reported in a backtrace is the line of the last address mapping at or before it.", "quantifier": "every address table and offset", "why_tests_cant": "unbounded tables", "anchors": [{"file": "core/kos_entity.c", "symbols": ["KOS_function_addr_to_line"]}]}
{"id": "C51", "title": "A string literal accepted by the lexer denotes a string", "statement": "When the lexer accepts a string literal (plain, raw, or a part of an interpolated string), the later creation of the string from the literal's text, which decodes UTF-8 and escapes separately, succeeds.", "quantifier": "every source text", "why_tests_cant": "lexer and string decoder implement UTF-8 and escapes twice, and must agree on every byte sequence", "anchors": [{"file": "core/kos_lexer.c", "symbols": ["prefetch_next", "collect_string", "collect_raw_string", "collect_escape"]}, {"file": "core/kos_utf8.c", "symbols": ["KOS_utf8_get_len", "parse_escape_sequence"]}, {"file": "core/kos_compiler.c", "symbols": ["get_token_str"]}]}
{"id": "C52", "title": "Tokens tile the source text", "statement": "Whatever the source bytes and whatever the parser asks for, each call of the lexer reports an error, or the end of an empty rest, or splits off a non-empty token of at most 65535 bytes; it reads nothing outside of the source. Scanning therefore ends, and the tokens' texts one after another are the source.", "quantifier": "every source text and every sequence of lexer modes", "why_tests_cant": "unbounded texts; off-by-one look-ahead at the end of the source shows only for particular last bytes", "anchors": [{"file": "core/kos_lexer.c", "symbols": ["kos_lexer_next_token", "prefetch_next", "collect_decimal", "collect_block_comment", "collect_operator", "collect_hex", "collect_bin"]}]}
{"id": "C53", "title": "Joining literals never rejects a program which would run", "statement": "If two literals denote strings whose concatenation is a valid string, the optimizer's joining of the two literals does not turn their sum into a compilation error.", "quantifier": "every pair of string literals", "why_tests_cant": "needs literals near the size limit with multi-byte characters", "anchors": [{"file": "core/kos_compiler_optim.c", "symbols": ["add_strings", "optimize_binary_op"]}]}
{"id": "C54", "title": "Case conversion converts every character", "statement": "lowercase and uppercase replace every character below U+10000 by the character the locale maps it to and keep all others; the result does not depend on how many bits per character the string uses.", "quantifier": "every string in every representation, every conversion table", "why_tests_cant": "the result depends on the representation, which tests do not control, and on the locale", "anchors": [{"file": "core/kos_string.c", "symbols": ["KOS_string_lowercase", "KOS_string_uppercase"]}, {"file": "core/kos_unicode.h", "symbols": ["kos_unicode_to_upper", "kos_unicode_to_lower"]}]}
{"id": "C58", "title": "pack never writes outside of the buffer", "statement": "Whatever the format string, the arguments and the buffer, pack raises an exception or writes only inside of the buffer's own storage, and leaves the buffer well formed.", "quantifier": "every format string, all arguments, every buffer", "why_tests_cant": "needs counts and sizes whose product wraps at 32 bits, and many arguments", "anchors": [{"file": "modules/kos_mod_base.c", "symbols": ["pack_format", "process_pack_format", "pack_format_get_count"]}, {"file": "core/kos_buffer.c", "symbols": ["KOS_buffer_make_room"]}]}
{"id": "C56", "title": "Conditions decide what is executed", "statement": "For every condition built with !, && and || the generated conditional jump is taken exactly if the condition's value says so; operands are evaluated from left to right, none of them more than once, and none which is not needed.", "quantifier": "every condition, all values and exceptions of its operands, with and without optimization", "why_tests_cant": "the number of shapes of conditions is unbounded; most shapes are right", "anchors": [{"file": "core/kos_compiler.c", "symbols": ["gen_cond_jump_inner", "gen_cond_jump"]}]}
{"id": "C59", "title": "The compiler keeps all pending jumps", "statement": "However many jumps are added to a list of pending jumps, the list holds all of them and nothing outside of its storage is accessed; if memory runs out, compilation fails.", "quantifier": "any number of jumps, every pattern of failing allocations", "why_tests_cant": "needs a condition with more than 32768 operands, or failing allocations at particular calls", "anchors": [{"file": "core/kos_compiler.c", "symbols": ["push_jump_array", "update_jump_array"]}]}
{"id": "C61", "title": "Every jump of a compiled function has one target", "statement": "In the code of every function which the parser accepts, each jump instruction gets its target exactly once and the target is an instruction of the function; no break, continue, fallthrough, return in deferred code or exception handler is left open. Hence the machine never leaves the function's code and the compiler's assertions about targets hold.", "quantifier": "every nesting of statements, all behaviour of expressions", "why_tests_cant": "the bookkeeping of pending jumps across nested loops, switches, try and defer has unboundedly many combinations", "anchors": [{"file": "core/kos_compiler.c", "symbols": ["set_jump_target", "finish_break_continue", "finish_fallthrough", "update_child_scope_catch", "try_stmt", "switch_stmt", "gen_return"]}]}
{"id": "C60", "title": "Compiled control flow does what the statements mean", "statement": "The code generated for a function, run by the machine, returns a value or ends with an exception exactly if the body of the function does so when it is read statement by statement, with the same value and the same effects in the same order; it runs forever if the body does.", "quantifier": "every nesting of statements, all behaviour of expressions, with and without optimization", "why_tests_cant": "nested try, defer, loops and switch have unboundedly many combinations; most of them are right", "anchors": [{"file": "core/kos_compiler.c", "symbols": ["if_stmt", "while_stmt", "repeat_stmt", "for_in", "switch_stmt", "try_stmt", "break_continue_fallthrough", "gen_return", "restore_catch", "throw_op", "assert_stmt"]}]}
{"id": "C62", "title": "A caller finds its registers where they were", "statement": "However calls, generator resumes, yields and returns nest, the registers in use are those of the topmost frame; when everything called from a frame has been left, they are in the place where they were before. No two active frames share slots, all lie inside of stack objects, and frames of suspended generators are kept.", "quantifier": "every call history, every pattern of failing allocations", "why_tests_cant": "frames move between chains of stack objects when generators call functions and functions resume generators; the interleavings are unbounded", "anchors": [{"file": "core/kos_stack.c", "symbols": ["kos_stack_push", "kos_stack_pop", "chain_stack_frame", "unchain_reentrant_frame", "push_new_stack", "push_new_reentrant_stack"]}, {"file": "core/kos_vm.c", "symbols": ["prepare_call", "finish_call", "set_closure_stack_size"]}]}
{"id": "C63", "title": "shuffle gives every permutation the same chance", "statement": "If the random source gives all numbers equally often, random.shuffle returns every permutation of its elements, and returns all of them equally often.", "quantifier": "every array", "why_tests_cant": "the number of permutations and of random sequences is unbounded; a bias is small for any one array", "anchors": [{"file": "modules/random.kos", "symbols": ["random.prototype.shuffle"]}]}
{"id": "C64", "title": "strip removes characters of the set from the ends of a string, and nothing else", "statement": "lstrip, rstrip and strip return the string without its leading, trailing, or leading and trailing characters which belong to the given set (whitespace by default); all other characters are kept.", "quantifier": "every string and every set of characters", "why_tests_cant": "unbounded strings and sets; only some widths of characters go wrong", "anchors": [{"file": "modules/base.kos", "symbols": ["string.prototype.lstrip", "string.prototype.rstrip", "string.prototype.strip"]}, {"file": "core/kos_string.c", "symbols": ["KOS_string_scan"]}]}
{"id": "C65", "title": "split without a separator gives the words of a string", "statement": "s.split() yields the maximal sequences of characters which are not whitespace, in order; no character other than whitespace is lost. With a limit, the last part is the rest of the string.", "quantifier": "every string and every limit", "why_tests_cant": "unbounded strings; only some widths of characters go wrong", "anchors": [{"file": "modules/base.kos", "symbols": ["string.prototype.split"]}, {"file": "core/kos_string.c", "symbols": ["KOS_string_scan"]}]}
{"id": "C66", "title": "The text of a floating-point number denotes it", "statement": "Converting a finite floating-point number to a string gives a literal with a point, with the sign of the number, which denotes the number to 15 decimals; the conversion never writes more than the buffer holds. Numbers which are not finite become nan, infinity and -infinity.", "quantifier": "all 64-bit floating-point numbers", "why_tests_cant": "2^64 numbers; only those whose text does not fit in the buffer go wrong, in several ways", "anchors": [{"file": "core/kos_misc.c", "symbols": ["kos_print_float"]}, {"file": "core/kos_utils.c", "symbols": ["float_to_str"]}, {"file": "core/kos_compiler_optim.c", "symbols": ["stringify"]}]}
{"id": "C67", "title": "A floating-point number converted to a string and back is the same number", "statement": "For every finite floating-point number x, converting x to a string and that string to a number gives x.", "quantifier": "all 64-bit floating-point numbers", "why_tests_cant": "2^64 numbers, with rounding both in printing and in parsing", "anchors": [{"file": "core/kos_misc.c", "symbols": ["kos_print_float", "kos_parse_double", "kos_parse_numeric"]}]}
{"id": "C68", "title": "Changing the size of an array from several threads is safe", "statement": "When several threads change the size of one array (push, resize, reserve) while others use its elements, no access is outside of the storage of the array, and an element which was removed is not read before it is set again.", "quantifier": "every number of threads and every interleaving of their atomic steps", "why_tests_cant": "the bad schedules need a preemption between two given instructions, in one case between an allocation and the next read", "anchors": [{"file": "core/kos_array.c", "symbols": ["resize_storage", "KOS_array_reserve", "KOS_array_resize", "KOS_array_push", "copy_buf"]}]}
{"id": "C69", "title": "A character class matches exactly the listed characters", "statement": "A character class of a regular expression matches a character if and only if the character is listed in the brackets, alone or inside of a range; after ^ if and only if it is not listed. The order of the items does not matter.", "quantifier": "every class and every character", "why_tests_cant": "over a million characters and unboundedly many lists of ranges which overlap in any way; the wrong ones need three items in one order", "anchors": [{"file": "modules/kos_mod_re.c", "symbols": ["add_class_range", "parse_class", "match_class", "generate_class"]}]}
{"id": "C70", "title": "re.find gives the leftmost match of a regular expression, and void only if there is none", "statement": "For every regular expression of the documented grammar, re.find ends, never leaves its code or its tables, and returns the match with the least start; among those the preferred one (greedy repetition takes as many turns as possible, lazy repetition as few, earlier alternatives first), with the positions of all groups. It returns void only if the expression matches nowhere in the given part of the string.", "quantifier": "every expression, every string, every part of the string", "why_tests_cant": "expressions nest without bound and the number of ways to match grows exponentially with the string", "anchors": [{"file": "modules/kos_mod_re.c", "symbols": ["parse_re", "parse_alternative_match_seq", "parse_optional_multiplicity", "emit_multiplicity", "parse_single_match", "parse_group", "match_string", "re_find"]}]}
{"id": "C71", "title": "A garbage collection preserves everything that the program can reach", "statement": "After KOS_collect_garbage, whether it succeeds or runs out of memory at any point, every object which could be reached from the instance, its threads, their stacks and locals can be reached in the same way and has the same contents; no two objects have become one; references, pointers into strings and pointers to bytes of buffers lead to the new places; the heap is well formed. The collector never reads memory that holds no object.", "quantifier": "every well formed heap, every number of marking threads and every interleaving of their steps, every size of pages, every pattern of failures to get memory", "why_tests_cant": "object graphs and schedules of threads have no bound, and the failures of allocation which matter happen in the middle of a page", "anchors": [{"file": "core/kos_heap.c", "symbols": ["KOS_collect_garbage", "mark_roots", "mark_children_gray", "mark_object_black", "set_mark_state", "evacuate", "evacuate_object", "mark_unused_objects_opaque", "update_child_ptrs", "update_after_evacuation", "update_incomplete_page", "unlock_pages", "reclaim_free_pages", "alloc_object"]}]}
{"id": "C72", "title": "A garbage collection leaves nothing that the program cannot reach", "statement": "After a collection which succeeds, every object in the pages of the heap is one which could be reached before, the tracker of a huge object which could be reached, or opaque filler; nothing can be reached which could not be reached before.", "quantifier": "every well formed heap, every number of marking threads and every interleaving", "why_tests_cant": "one object kept too long is seen only as growing memory after many collections", "anchors": [{"file": "core/kos_heap.c", "symbols": ["KOS_collect_garbage", "evacuate", "mark_unused_objects_opaque", "gray_to_black"]}]}
{"id": "C73", "title": "A garbage collection ends", "statement": "Marking ends whatever the order in which the threads take their steps, and it never gets stuck: while anything remains to be marked some thread can go on. When memory runs out while objects are moved, the collector tries again at most once for each page.", "quantifier": "every well formed heap, every number of threads and every schedule", "why_tests_cant": "cyclic object graphs of any size and endless schedules", "anchors": [{"file": "core/kos_heap.c", "symbols": ["gray_to_black", "perform_gray_to_black_marking", "mark_object_black", "mark_object_gray", "KOS_collect_garbage"]}]}
{"id": "C74", "title": "A garbage collection calls each finalizer of an unreachable object once", "statement": "A garbage collection calls the finalizers of exactly those objects, huge objects included, which the program cannot reach any more, and each of them once, even if memory runs out while objects are moved and the collector starts again. If marking cannot be finished, no finalizer is called.", "quantifier": "every well formed heap, every number of threads, every schedule and every pattern of failed requests for memory", "why_tests_cant": "which objects are visited twice depends on where in a page memory runs out", "anchors": [{"file": "core/kos_heap.c", "symbols": ["finalize_object", "mark_unused_objects_opaque", "evacuate", "KOS_collect_garbage"]}]}
{"id": "C75", "title": "Expressions are parsed into the tree of the documented grammar", "statement": "The parser accepts a list of tokens as an expression exactly if doc/grammar.md derives it, and the syntax tree it builds is the one of the derivation: precedence, grouping, which operators may not be mixed, where a new line ends an expression, lists of arguments, parameters, elements and properties, function literals with =>, -> and async. The only exception is a tree which is deeper than the limit.", "quantifier": "every list of tokens of any length, inside and outside of constructors and methods, at every depth", "why_tests_cant": "the trees are unboundedly many; tests compare single expressions, and the wrong cases need unusual combinations", "anchors": [{"file": "core/kos_parser.c", "symbols": ["parameters", "is_lambda_literal", "lambda_literal_body", "lambda_literal", "array_literal", "object_literal", "primary_expr", "refinement_identifier", "refinement_expr", "named_argument", "invocation", "member_expr", "unary_expr", "arithm_bitwise_expr", "comparison_expr", "logical_expr", "conditional_expr", "stream_expr", "async_expr", "right_hand_side_expr"]}]}
{"id": "C76", "title": "A function uses the variables of the call of the outer function in which it was created", "statement": "The compiler makes one object of a function which needs nothing from its outer functions, and loads it with LOAD.CONST; functions which do need something are new objects each time their literal is executed. What a compiled program does is what it means: each execution of a function literal gives a function which reads and assigns the variables of those calls of the outer functions in which it was created. Uses replaced by LOAD.CONST name constants which hold such single objects.", "quantifier": "every program with nested functions of any depth, recursion, assignments and loops, every number of steps of its execution, every number of passes of the optimizer", "why_tests_cant": "whether a function is shared depends on counters which are reset and recounted in nested loops, and a wrong answer shows only when the same literal is executed in two calls and both functions are used", "anchors": [{"file": "core/kos_compiler_optim.c", "symbols": ["reset_var_state", "push_scope", "count_and_update_vars", "pop_scope", "check_self_ref_fun", "mark_binds", "function_literal", "is_const_fun", "identifier", "assignment"]}, {"file": "core/kos_compiler.c", "symbols": ["gen_function", "gen_binds", "kos_compiler_compile"]}, {"file": "core/kos_vm.c", "symbols": ["execute"]}]}
{"id": "C77", "title": "Every name refers to the innermost declaration visible where it is used", "statement": "The compiler rejects a module exactly if a name is used where no declaration of it is visible, a name is declared twice in one block, or a constant is assigned to, and it blames the place of the first such mistake. Otherwise each name refers to the innermost visible declaration: a variable is visible behind its declaration to the end of the block and in blocks and functions inside, not in its own value; the name of a constant function or class also in the function or in its methods, not in default values; parameters in the function; a caught value in the block of its handler; the block goes on behind a defer statement. A use is local exactly if the variable belongs to the same function or is global; a function keeps the variables of exactly those outer functions whose variables are used in it or inside of it.", "quantifier": "every program, nesting of blocks, functions and classes of any depth, every set of global variables known before", "why_tests_cant": "combinations of shadowing, nesting, activation and deactivation of variables are unboundedly many; a name resolved wrongly gives another value, not an error", "anchors": [{"file": "core/kos_compiler_vars.c", "symbols": ["lookup_local_var", "lookup_and_mark_var", "add_scope_ref", "find_local_var", "define_var", "var_node", "left_hand_side", "identifier", "parameter_defaults", "function_literal", "class_literal", "catch_clause", "assignment", "visit_node", "kos_activate_var", "kos_activate_new_vars", "kos_activate_self_ref_func", "kos_deactivate_self_ref_func"]}]}
{"id": "C78", "title": "The optimizer ends", "statement": "The compiler visits each function again while it finds something to optimize in it, and the whole module again while anything was found. For every module these loops end, with the same result whatever bound one puts on them, so compiling a module does not hang.", "quantifier": "every program with nested functions of any depth whose names are resolved", "why_tests_cant": "tests compile some programs; the counters compared by the loops are reset and recounted in nested loops, so that they end is not evident and a program for which they do not would be found by chance only", "anchors": [{"file": "core/kos_compiler_optim.c", "symbols": ["reset_var_state", "push_scope", "count_and_update_vars", "pop_scope", "mark_binds", "function_literal", "is_const_fun", "identifier", "assignment", "visit_node", "kos_optimize"]}, {"file": "core/kos_compiler.c", "symbols": ["kos_compiler_compile"]}]}
{"id": "C79", "title": "Threads stop for a garbage collection and go on after it", "statement": "However the threads of a program are interleaved, whatever they do (run, allocate, suspend, resume, register, unregister, start a collection) and whenever waiting threads wake up: no assertion of the collector about the state of threads fails; two threads use the heap at the same time only if both run programs, both mark or both update; nobody but the collector has a page while objects are marked, moved or updated; after a collection no thread waits; while a collection is in progress some thread can go on without a wake-up by chance and brings it nearer to its end, and if this is a thread which runs a program it was told by its flag of events; every state can be continued to the end of the collection.", "quantifier": "any number of threads, every interleaving of their steps, every sequence of operations, spurious wake-ups at any time", "why_tests_cant": "a lost wake-up or a thread which runs while objects move appears in rare interleavings only, and the tests cannot enumerate these", "anchors": [{"file": "core/kos_heap.c", "symbols": ["begin_walk", "end_walk", "release_helper_threads", "release_current_page_locked", "stop_the_world", "engage_in_gc", "help_gc", "kos_help_gc", "KOS_suspend_context", "KOS_resume_context", "KOS_collect_garbage", "alloc_object", "update_after_evacuation", "gray_to_black"]}, {"file": "core/kos_instance.c", "symbols": ["KOS_instance_register_thread", "unregister_thread", "kos_set_global_event", "kos_clear_global_event"]}]}
{"id": "C80", "title": "Queues and stacks shared by threads keep every element and lose no wake-up", "statement": "However threads which push to and pop from one queue or stack of module threads are interleaved: every pop returns as many elements as it was asked for, the oldest ones of a queue, the newest ones of a stack, in the order in which the calls take effect; no element is lost, made up or returned twice; a pop which has acquired the semaphore never fails for lack of elements; the value of the semaphore stays in its range; and no thread sleeps while the semaphore is above 0 unless another one is about to wake it, so that when nobody can go on, those who wait for one element wait because there is none.", "quantifier": "any number of threads, every interleaving of their atomic steps, every number of elements pushed and popped, spurious wake-ups and failures of weak compare-and-swap", "why_tests_cant": "lost wake-ups and elements returned twice appear in rare interleavings only; tests run a few threads for a short time", "anchors": [{"file": "modules/threads.kos", "symbols": ["ts_collection", "queue", "stack"]}, {"file": "modules/kos_mod_threads.c", "symbols": ["semaphore_acquire", "semaphore_release", "get_count_arg"]}]}
{"id": "C81", "title": "Code for expressions computes what they mean, whatever registers it uses", "statement": "For every sequence of expressions and assignments in a function, the code which the compiler emits executes the operations of the source in their order, operands from left to right, each exactly once, and each operation gets the values which the variables and intermediate results have at that point; conditional parts are executed exactly when they should be; afterwards variables have the values which were assigned, and if an operation throws, the rest is not executed. No choice of registers made by the compiler - reuse of the register of the variable which is assigned to, of operands, of released registers - can be seen.", "quantifier": "all expressions and assignments of any size, all assignments of variables to registers, all sets of registers in use, all values, all behaviours of the instructions", "why_tests_cant": "there are infinitely many expressions, and mistakes in the use of registers show up only for particular combinations of nested expressions and targets", "anchors": [{"file": "core/kos_compiler.c", "symbols": ["visit_node", "assignment", "assign_member", "assign_non_local", "assign_slice", "gen_reg", "gen_reg_range", "gen_dest_reg", "free_reg", "invocation", "async_op", "maybe_refinement", "refinement_object", "refinement_module", "slice", "gen_array", "gen_args_array", "array_literal", "object_literal", "function_literal", "pos_neg", "log_not", "log_and_or", "log_tri", "has_prop", "process_operator", "identifier", "this_literal"]}]}
{"id": "C82", "title": "A variable keeps its value when the expression assigned to it throws", "statement": "If an operation throws while the right side of an assignment to a local variable is computed, the variable has the value it had before the statement, as a handler in the same function observes, and all variables have the values which the statements in front have given them.", "quantifier": "all sequences of expressions and assignments, all operations which may throw, all values", "why_tests_cant": "whether the register of the variable is used for an intermediate result depends on the form of the expression; tests do not look at the variable after an exception", "anchors": [{"file": "core/kos_compiler.c", "symbols": ["assignment", "pos_neg", "has_prop", "yield", "array_literal", "object_literal", "function_literal", "invocation", "async_op", "gen_get_prop_instr"]}]}
{"id": "C83", "title": "Threads are waited for once and released when nobody uses them", "statement": "Whatever threads of an instance do in whatever order - create threads, wait for them, drop thread objects, end, collect garbage, end the program - the memory of a thread is not used after it was released, pthread_join is called at most once for each thread and no assertion fails. The result of each thread is delivered at most once, as its function gave it. When KOS_instance_destroy goes on behind kos_join_finished_threads, all other threads have ended, and when all thread objects are finalized, the memory of all threads has been released.", "quantifier": "all numbers of threads, all sizes of the table, all interleavings of their steps, all failures to create or resume a thread, all times at which thread objects are found unreachable", "why_tests_cant": "races between wait, garbage collection and the end of the program need particular interleavings of several threads; memory which was released usually still has its contents", "anchors": [{"file": "core/kos_threads.c", "symbols": ["alloc_thread", "set_thread_flags", "kos_thread_add_ref", "release_thread", "remove_thread", "kos_thread_disown", "kos_join_finished_threads", "thread_proc", "kos_thread_create", "kos_thread_join"]}, {"file": "modules/kos_mod_base.c", "symbols": ["async", "wait", "thread_finalize"]}, {"file": "core/kos_instance.c", "symbols": ["KOS_instance_destroy"]}]}
{"id": "C84", "title": "Iteration returns each property once, with its value", "statement": "Iterating over the properties of an object returns no name twice. Each returned value is the one which the property has at that moment in the object or, for a deep iteration, in an object of its prototype chain, whatever writes, deletions and resizes happen between steps. When the iteration is over, every property which the object has had since the start has been returned. Without changes, the iteration ends and returns exactly the properties which can be read from the object, with the same values.", "quantifier": "every history of operations on objects interleaved with the steps of an iteration, every hash function", "why_tests_cant": "when the table is replaced in the middle of an iteration depends on the history", "anchors": [{"file": "core/kos_object.c", "symbols": ["kos_new_object_walk", "kos_object_walk", "copy_table", "salvage_item"]}]}
{"id": "C85", "title": "The line editor keeps text, cursor and history consistent", "statement": "Whatever is typed and whichever editing keys are used, the line editor of the interactive interpreter fails no assertion and reads nothing outside of the line. The cursor is always between two characters and in the visible part of the window. Each key changes the text and the cursor as it says: typing inserts a character at the cursor, word keys go to the nearest word boundary, deletions remove what is between the two places. Up and Down bring back the lines entered before, with the changes made to them during this call. Enter returns the text and adds it to the history.", "quantifier": "every sequence of keys and window sizes, every history, any number of calls", "why_tests_cant": "the state has two positions in bytes and in characters, a scroll position and a history which is changed in place; bad combinations need particular widths and characters of several bytes", "anchors": [{"file": "core/kos_getline.c", "symbols": ["insert_char", "is_utf8_finished", "decrement_pos", "increment_pos", "clear_and_redraw", "move_cursor_to", "find_word_begin", "find_word_end", "delete_range", "alloc_history_node", "save_to_temp_history", "restore_from_temp_history", "kos_getline"]}]}
{"id": "C86", "title": "The line editor shows the text and the cursor where they are", "statement": "After any keys, the row of the terminal has the prompt, the text of the line (the part of it which is in the window) and blanks, whatever was in the row before, and the cursor of the terminal is at the character where the editor has its own cursor.", "quantifier": "every sequence of keys, every history, every width of the window, every content of the row", "why_tests_cant": "the editor writes only differences: what is on the screen depends on all that was written before; a wrong column shows only for particular widths and lengths, and only on a terminal", "anchors": [{"file": "core/kos_getline.c", "symbols": ["clear_and_redraw", "move_cursor_to", "insert_char", "action_clear_after_cursor", "action_clear_screen", "restore_from_temp_history", "delete_range", "send_escape"]}]}
{"id": "C87", "title": "Vectors of bytes keep their contents and own their memory", "statement": "Whatever is done with any number of vectors (KOS_vector_reserve, KOS_vector_resize, KOS_vector_concat, KOS_vector_destroy, stores to their bytes), nothing is accessed outside of a buffer or after it has been freed. A vector has the bytes which were stored, also after it grows and moves to the heap; concatenation appends the source; a call which fails for lack of memory changes nothing, and calls fail for no other reason. Each block of memory is owned by exactly one vector, and destroying the vectors frees everything.", "quantifier": "every sequence of calls on any number of vectors, every size, every pattern of refused memory", "why_tests_cant": "small vectors have their buffer in the struct and move to the heap when they grow; sizes which are at the border, refused memory and aliasing have to be combined", "anchors": [{"file": "core/kos_memory.c", "symbols": ["KOS_vector_init", "KOS_vector_destroy", "KOS_vector_reserve", "KOS_vector_resize", "KOS_vector_concat"]}, {"file": "inc/kos_memory.h", "symbols": ["KOS_VECTOR_S"]}]}
{"id": "C88", "title": "Numbers are converted to the greatest integer not above them", "statement": "KOS_get_integer gives an integer unchanged and a floating-point number as the greatest integer which is not above it, if that integer is in the range of 64-bit signed integers. Numbers out of range, infinities, NaN and objects which are not numbers are exceptions. The conversion is never undefined.", "quantifier": "every object, every 64-bit pattern of a floating-point number", "why_tests_cant": "2^64 patterns; the cases which matter are next to the border of the range, subnormal and not numbers, and an undefined conversion gives different results on different processors", "anchors": [{"file": "core/kos_utils.c", "symbols": ["KOS_get_integer"]}]}
{"id": "C89", "title": "ljust, rjust and zfill return a string of the requested size", "statement": "If the string has the requested size or more, it is returned unchanged. Otherwise the result has exactly the requested size: ljust adds the filling after the string, rjust before it, zfill before it but after a leading + or -. A filling which is not one character is refused. A size above 65535 (the limit of strings) is an exception if the string is shorter, and nothing but this and lack of memory is.", "quantifier": "every string and filling in every representation (8, 16 or 32 bits per character), every integer size, every pattern of refused memory", "why_tests_cant": "the widths of the string and the filling are independent, and sizes at the limit of strings fail in different functions", "anchors": [{"file": "modules/base.kos", "symbols": ["string.prototype.ljust", "string.prototype.rjust", "string.prototype.zfill"]}, {"file": "core/kos_string.c", "symbols": ["KOS_string_repeat", "KOS_string_add_n", "KOS_string_slice"]}]}
{"id": "C90", "title": "array.insert replaces a range by the elements of an iterable", "statement": "array.insert(begin, end, iterable) replaces the elements from begin to end by those of the iterable, however many these are; array.insert(pos, iterable) inserts them at pos. Negative positions count from the end, positions outside of the array are moved to its ends, void is the begin or the end of the array, and if end is before begin nothing is replaced. This does not depend on whether the iterable is an array (one call) or not (elements are replaced one by one, the rest is inserted).", "quantifier": "every array, every pair of positions, every iterable of any length", "why_tests_cant": "two implementations have to agree for all relations of the size of the range, the number of elements and the size of the array", "anchors": [{"file": "modules/base.kos", "symbols": ["array.prototype.insert"]}, {"file": "modules/kos_mod_base.c", "symbols": ["insert_array"]}, {"file": "core/kos_utils.c", "symbols": ["KOS_fix_index"]}]}
{"id": "C91", "title": "array.cas changes only the element at the given position", "statement": "array.cas(pos, old_value, new_value) returns the element at pos (negative positions count from the end) and replaces it by new_value exactly if it is old_value; no other element changes. A position outside of the array is an exception, and a locked array is never changed.", "quantifier": "every array, every 64-bit position and every floating-point number as position, every pair of values", "why_tests_cant": "positions beyond 32 bits are not used by tests, but a program may compute them", "anchors": [{"file": "modules/kos_mod_base.c", "symbols": ["array_cas"]}, {"file": "core/kos_array.c", "symbols": ["KOS_array_cas"]}]}
