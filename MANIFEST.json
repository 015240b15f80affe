{
 "claims": [
  {
   "property": "C01",
   "status": "proved",
   "theorems": [
    "Verif.Misc.C01_literal_value",
    "Verif.Misc.C01_meaning_unique"
   ],
   "note": "Bytes are Nat; the literal grammar and its positional meaning are a separate specification. The one literal class with an undefined C negation is C02."
  },
  {
   "property": "C02",
   "status": "partial",
   "theorems": [
    "Verif.Misc.C02_ub_violated",
    "Verif.Misc.C02_ub_iff_partial"
   ],
   "note": "The code violates the claim: the text -9223372036854775808 negates INT64_MIN. Proved that texts denoting that value are the only ones."
  },
  {
   "property": "C03",
   "status": "proved",
   "theorems": [
    "Verif.Base.C03_hex_roundtrip",
    "Verif.Base.C03_width_rejected"
   ],
   "note": "hex() is modelled on its 18-byte buffer with the index variable; composed with the parser of C01."
  },
  {
   "property": "C04",
   "status": "proved",
   "theorems": [
    "Verif.Compiler.C04_uimm_roundtrip",
    "Verif.Compiler.C04_simm_roundtrip",
    "Verif.Compiler.C04_simm_size",
    "Verif.Compiler.C04_simm_limit"
   ],
   "note": "Left shift of a negative int32_t is taken as two's complement. Asserts hold up to 28 bits; code size is limited to 2^21 bytes."
  },
  {
   "property": "C05",
   "status": "proved",
   "theorems": [
    "Verif.Props.C05_encode",
    "Verif.Props.C05_too_large_refused",
    "Verif.Props.C05_round_trip",
    "Verif.Props.C05_injective"
   ],
   "note": "All element kinds, any alignment and word size of the scanner's fast path; codes of 2^21 and above are refused by the encoder. Allocation failure is not modelled."
  },
  {
   "property": "C06",
   "status": "partial",
   "theorems": [
    "Verif.Props.C06_scan_in_bounds",
    "Verif.Props.C06_fast_path_invisible",
    "Verif.Props.C06_decode_agrees",
    "Verif.Props.C06_new_string",
    "Verif.Props.C06_from_buffer_in_bounds",
    "Verif.Props.C06_from_buffer_violated",
    "Verif.Props.C06_from_buffer_partial"
   ],
   "note": "Bounds and agreement of scanner and decoders are proved for all bytes. The last part is false for buffers: overlong encodings of ASCII characters are copied undecoded into a string marked ASCII (witness E0 81 81); proved for all other buffers."
  },
  {
   "property": "C07",
   "status": "proved",
   "theorems": [
    "Verif.Props.C07_body",
    "Verif.Props.C07_joined_text",
    "Verif.Props.C07_scan_joined",
    "Verif.Props.C07_joined_literal"
   ],
   "note": "Escaped, raw and interpolated literals; for all bodies, also ones which are not UTF-8."
  },
  {
   "property": "C08",
   "status": "partial",
   "theorems": [
    "Verif.Props.C08_quote_text",
    "Verif.Props.C08_reads_back_partial",
    "Verif.Props.C08_quote_violated"
   ],
   "note": "The claim is false for U+100000 and above: only five hexadecimal digits are written. Proved for all other strings (through lexer, literal body and string creation), if the quoted text fits in a token."
  },
  {
   "property": "C09",
   "status": "partial",
   "theorems": [
    "Verif.Misc.C09_unbiased",
    "Verif.Misc.C09_in_range_partial",
    "Verif.Misc.C09_wide_range_violated"
   ],
   "note": "The claim is false for ranges of 2^63 or more: max - min overflows a signed subtraction. Everything else is proved for arbitrary raw generator outputs. The PCG step itself is not modelled."
  },
  {
   "property": "C10",
   "status": "proved",
   "theorems": [
    "Verif.Vm.C10_div_mod_law"
   ],
   "note": "Integer operands only."
  },
  {
   "property": "C11",
   "status": "proved",
   "theorems": [
    "Verif.Vm.C11_shl",
    "Verif.Vm.C11_shr",
    "Verif.Vm.C11_shru"
   ],
   "note": "Every guarded C shift is modelled with an undefined outcome for out-of-range counts, proved unreachable."
  },
  {
   "property": "C12",
   "status": "proved",
   "theorems": [
    "Verif.Vm.C12_fold_binary_agrees",
    "Verif.Vm.C12_fold_unary_agrees"
   ],
   "note": "Integer constants. Signed overflow in add/sub/mul is undefined in both implementations and is the same outcome on both sides."
  },
  {
   "property": "C13",
   "status": "proved",
   "theorems": [
    "Verif.Lexer.C13_keyword_exact",
    "Verif.Lexer.C13_not_keyword"
   ],
   "note": "Identifier bytes are non-zero, as the lexer guarantees."
  },
  {
   "property": "C14",
   "status": "partial",
   "theorems": [
    "Verif.Lexer.C14_maximal_munch_partial",
    "Verif.Lexer.C14_table_reads_in_bounds",
    "Verif.Lexer.C14_violated"
   ],
   "note": "The claim is false for inputs starting with >=>, >== or >>== (read as shift operators) and for a lone / at end of input; proved for all other inputs."
  },
  {
   "property": "C15",
   "status": "proved",
   "theorems": [
    "Verif.Props.C15_tree"
   ],
   "note": "Any history of insertions and deletions on a heap of nodes with parent pointers; any strict weak order; no undefined behaviour and no failed assertion. Keys of nodes in the tree do not change; the walk callback never fails; other code may change memory outside of the tree."
  },
  {
   "property": "C16",
   "status": "proved",
   "theorems": [
    "Verif.Props.C16_balance"
   ],
   "note": "Same histories as C15. Also: child and parent pointers agree, and lookup ends within 2*log2(n+1) comparisons."
  },
  {
   "property": "C17",
   "status": "partial",
   "theorems": [
    "Verif.Props.C17_arrays_partial",
    "Verif.Props.C17_insert_violated",
    "Verif.Props.C17_insert_from_start",
    "Verif.Props.C17_push_memory"
   ],
   "note": "One thread; any number of arrays, any history, any pattern of failing allocations. The claim is false for one form of self-insert at the C API (the inserted range lies after a longer replaced range); Kos programs cannot reach it (C17_insert_from_start)."
  },
  {
   "property": "C18",
   "status": "proved",
   "theorems": [
    "Verif.Conc.C18"
   ],
   "note": "Any number of threads, any interleaving of atomic steps, spurious failures of weak compare-and-swap and failed allocations. One thread at a time pushes, reserves or resizes to a size which is not smaller; the others read, write and compare-and-swap at any index. The results are those of a list, in the order of return; also no access outside of storage, and reads never wait. Sequentially consistent memory; the garbage collector, fill, insert and negative indices are not modelled."
  },
  {
   "property": "C19",
   "status": "partial",
   "theorems": [
    "Verif.Props.C19_array",
    "Verif.Props.C19_string",
    "Verif.Props.C19_buffer_partial",
    "Verif.Props.C19_buffer_violated"
   ],
   "note": "Void or 64-bit integer limits. Complete for arrays, strings and buffers with own storage; false only for storage above 4294967232 bytes provided by C code. Slices fail only if memory is refused (arrays: or near the size limit)."
  },
  {
   "property": "C20",
   "status": "partial",
   "theorems": [
    "Verif.Props.C20_buffers_partial",
    "Verif.Props.C20_size_violated",
    "Verif.Props.C20_resize_violated"
   ],
   "note": "One thread; any number of buffers, any history, any pattern of failing allocations, any contents of fresh memory. Memory safety is false for sizes in the last 63 values of the 32-bit range (rounding up to 64 wraps), reachable through pack and C extensions; such sizes are excluded."
  },
  {
   "property": "C21",
   "status": "partial",
   "theorems": [
    "Verif.Props.C21_insert_partial",
    "Verif.Props.C21_insert_violated",
    "Verif.Props.C21_self_insert_violated"
   ],
   "note": "The claim is false when begin lies after the end of the buffer, and when a buffer is inserted into itself; proved for all other arguments. The inserted iterable is already a buffer."
  },
  {
   "property": "C22",
   "status": "partial",
   "theorems": [
    "Verif.Props.C22_objects_partial",
    "Verif.Props.C22_last_write",
    "Verif.Props.C22_collision_violated",
    "Verif.Props.C22_failed_write_violated"
   ],
   "note": "One thread; any number of objects, any history, any hash function, any pattern of failing allocations. The claim is false for eleven names with the same hash (witness with the real hash function): the table doubles until its byte size wraps at 32 bits. Proved if requests for 2^28 or more slots are refused. A write which fails for lack of memory may have taken effect."
  },
  {
   "property": "C23",
   "status": "proved",
   "theorems": [
    "Verif.Props.C23_lookup",
    "Verif.Props.C23_frame"
   ],
   "note": "Same histories as C22, if they end without the wrap of C22_collision_violated. Prototypes are fixed at creation."
  },
  {
   "property": "C24",
   "status": "partial",
   "theorems": [
    "Verif.PropTab.C24_partial",
    "Verif.PropTab.C24_found_partial",
    "Verif.PropTab.C24_value_partial",
    "Verif.PropTab.C24_violated",
    "Verif.PropTab.C24_full_false"
   ],
   "note": "The claim is false: the key of a new slot is visible before its hash, and a thread which moves the table reads the hash 0 and puts the property where nobody looks for it; a completed write of another thread is lost. Proved for all executions in which no hash is read before it is written: any number of threads, interleavings of atomic steps, spurious failures of weak compare-and-swap and failed allocations, tables of any sizes moved at any time. Sequentially consistent memory; own properties, no getters and setters; the garbage collector is not modelled."
  },
  {
   "property": "C25",
   "status": "partial",
   "theorems": [
    "Verif.Props.C25_hash",
    "Verif.Props.C25_hash_debug_partial",
    "Verif.Props.C25_assert_violated"
   ],
   "note": "Complete for builds without assertions. In builds with assertions, a string whose hash is 0 fails an assertion (witness: the single character U+2B5A5)."
  },
  {
   "property": "C26",
   "status": "partial",
   "theorems": [
    "Verif.Props.C26_equal",
    "Verif.Props.C26_slices_equal",
    "Verif.Props.C26_starts_ends",
    "Verif.Props.C26_order_partial",
    "Verif.Props.C26_transitive_partial",
    "Verif.Props.C26_misaligned_violated",
    "Verif.Props.C26_order_violated",
    "Verif.Props.C26_locale_violated"
   ],
   "note": "Equality, starts_with and ends_with are complete for locales which tell characters apart. The order is false for 16-bit and 32-bit slices which both start off an 8-byte boundary; proved for all other strings in the C locale."
  },
  {
   "property": "C27",
   "status": "partial",
   "theorems": [
    "Verif.Props.C27_find",
    "Verif.Props.C27_rfind_partial",
    "Verif.Props.C27_rfind_violated",
    "Verif.Props.C27_find_empty",
    "Verif.Props.C27_find_empty_nearest"
   ],
   "note": "find is complete. rfind with a negative position counts from the last place the pattern fits, not from the end of the string; proved for absent and non-negative positions. Locales which tell characters apart."
  },
  {
   "property": "C28",
   "status": "partial",
   "theorems": [
    "Verif.Props.C28_inclusive",
    "Verif.Props.C28_exclusive_partial",
    "Verif.Props.C28_exclusive_violated"
   ],
   "note": "Searching for characters of the set is complete, both directions, any position. Searching for characters outside of the set skips characters wider than the set's elements; proved when there are none."
  },
  {
   "property": "C29",
   "status": "partial",
   "theorems": [
    "Verif.Props.C29_strings_partial",
    "Verif.Props.C29_add_violated",
    "Verif.Props.C29_add_unsafe_violated"
   ],
   "note": "Any history of string operations, any representation, any pattern of failing allocations. Concatenation of strings whose total length reaches 2^32 is false: the 32-bit sum wraps, which gives a short string or writes out of bounds; such sums are excluded."
  },
  {
   "property": "C30",
   "status": "proved",
   "theorems": [
    "Verif.Props.C30.C30_jumps_land"
   ],
   "note": "Any code within the size limit, any number of jumps; relaxation ends within 4n+1 passes and no assertion fails. Also: every other byte and every address-to-line entry is moved to its new place. Jumps are in order of their offsets and do not overlap, and no target is in the middle of a jump (the code generator appends instructions only)."
  },
  {
   "property": "C31",
   "status": "partial",
   "theorems": [
    "Verif.Call.C31_partial",
    "Verif.Call.C31_few",
    "Verif.Call.C31_few_used",
    "Verif.Call.C31_gap",
    "Verif.Call.C31_handler",
    "Verif.Call.C31_violated",
    "Verif.Call.C31_rest_violated",
    "Verif.Call.C31_rest_exception_violated",
    "Verif.Call.C31_unused_violated"
   ],
   "note": "The claim is false: with more than 32 used parameters, a call which gives at least 31 arguments but not all binds wrong default values (unless exactly 31 parameters are required), and required parameters after the last used one may be left out. Proved for all other declarations and calls, including parameters with an ellipsis, this, captured variables and native functions."
  },
  {
   "property": "C32",
   "status": "partial",
   "theorems": [
    "Verif.Call.C32_partial",
    "Verif.Call.C32_proto_violated",
    "Verif.Call.C32_violated"
   ],
   "note": "The claim is false: the map of parameter names has the prototype of objects, so that a name such as iterator is not found to be unknown and what is found is taken for an index. Proved for all other names and all declarations; as in C31, required parameters after the last used one may be missing."
  },
  {
   "property": "C33",
   "status": "partial",
   "theorems": [
    "Verif.Gener.C33_partial",
    "Verif.Gener.C33_before_end_partial",
    "Verif.Gener.C33_calls_partial",
    "Verif.Gener.C33_alone_partial",
    "Verif.Gener.C33_lost_violated",
    "Verif.Gener.C33_violated"
   ],
   "note": "The claim is false: loops and iterators read the state of the generator a second time after it was released, so that a value yielded to one thread is lost when another thread ends the generator in between. Proved for every number of threads and every schedule: one runner at a time, the body does what it does for one caller, a finished generator stays finished, each thread is given or loses its values in order, and nothing is lost before the end; delivery in full for direct calls by any number of threads and for one thread. Memory is sequentially consistent in the model; generators written in Kos only."
  },
  {
   "property": "C34",
   "status": "partial",
   "theorems": [
    "Verif.Gener.C34_partial",
    "Verif.Gener.C34_restores",
    "Verif.Gener.C34_stuck_violated",
    "Verif.Gener.C34_overflow_violated",
    "Verif.Gener.C34_violated"
   ],
   "note": "The claim is false: when the stack overflows in a call to a generator, its state stays at running with nobody running it, and no thread can ever resume it. Proved for every other failure, every number of threads and every schedule; a failure after the push leaves state and frame as they were."
  },
  {
   "property": "C35",
   "status": "proved",
   "theorems": [
    "Verif.Props.C35.C35_registers",
    "Verif.Props.C35.C35_operation"
   ],
   "note": "Any history of allocations, releases and nested functions, any pattern of failing allocations. Also: allocation of a range fails only if each range of that length has a register in use."
  },
  {
   "property": "C36",
   "status": "partial",
   "theorems": [
    "Verif.Ctl.C36_partial",
    "Verif.Ctl.C36_apart_partial",
    "Verif.Ctl.C36_return_partial",
    "Verif.Ctl.C36_second_pass",
    "Verif.Ctl.C36_compiled_partial",
    "Verif.Ctl.C36_violated",
    "Verif.Ctl.C36_break_violated",
    "Verif.Ctl.C36_switch_violated",
    "Verif.Ctl.C36_repeat_violated",
    "Verif.Ctl.C36_return_violated",
    "Verif.Ctl.C36_effect_violated"
   ],
   "note": "The claim is false: a break in an if is forgotten when the body ends with return (loops and switch), continue in repeat drops the condition, and literals with side effects are dropped from conditions. Proved for all programs in which the optimizer knows of each break where it matters; composed with C60 down to machine code."
  },
  {
   "property": "C37",
   "status": "partial",
   "theorems": [
    "Verif.Ctl.C37_partial",
    "Verif.Ctl.C37_values",
    "Verif.Ctl.C37_values_up",
    "Verif.Ctl.C37_names",
    "Verif.Ctl.C37_violated",
    "Verif.Ctl.C37_zero_step_violated",
    "Verif.Ctl.C37_zero_step_forever",
    "Verif.Ctl.C37_fourth_argument_violated",
    "Verif.Ctl.C37_name_violated"
   ],
   "note": "The claim is false for a step of zero (the compiled loop never ends, the generator yields nothing) and for a fourth argument (it is not evaluated); also every beginning of the word range is taken for the name. Proved for every call with at most three arguments and a step which is not zero, for every body and number of passes, with any addition and comparison; for integers, in terms of the list of values and the meaning of break and continue."
  },
  {
   "property": "C38",
   "status": "partial",
   "theorems": [
    "Verif.Props.C38_permutation",
    "Verif.Props.C38_partial",
    "Verif.Props.C38_reverse_violated",
    "Verif.Props.C38_violated",
    "Verif.Props.C38_growing_key_violated",
    "Verif.Props.C38_shrinking_key_violated",
    "Verif.Props.C38_depth_violated"
   ],
   "note": "The claim is false with reverse (equal keys are reversed), for key functions which resize the array, and for sorted arrays longer than the C stack is deep. Proved for all other cases: ascending order is stable, descending order reverses equal keys; a permutation for any comparison at all."
  },
  {
   "property": "C39",
   "status": "partial",
   "theorems": [
    "Verif.Props.C39_pack",
    "Verif.Props.C39_unpack",
    "Verif.Props.C39_partial",
    "Verif.Props.C39_total",
    "Verif.Props.C39_unique",
    "Verif.Props.C39_pack_accepts",
    "Verif.Props.C39_unpack_accepts",
    "Verif.Props.C39_position",
    "Verif.Props.C39_self_violated",
    "Verif.Props.C39_empty_violated",
    "Verif.Props.C39_failure_violated"
   ],
   "note": "Every format string (by a grammar), byte order, values of all types, any pattern of failing allocations. The claim is false for an empty buffer packed into itself (fresh memory appears) and for an empty string without size in an empty buffer (an exception); a failed pack leaves unwritten bytes. Proved for everything else, for buffers below 2^31 bytes."
  },
  {
   "property": "C40",
   "status": "partial",
   "theorems": [
    "Verif.Props.C40_partial",
    "Verif.Props.C40_short",
    "Verif.Props.C40_violated",
    "Verif.Props.C40_backwards_violated",
    "Verif.Props.C40_external_violated",
    "Verif.Props.C40_large_violated"
   ],
   "note": "The claim is false when size times count wraps at 32 bits, for strings in buffers with external storage, and in buffers of 2^31 bytes; proved for everything else (so for every format of at most ten characters)."
  },
  {
   "property": "C41",
   "status": "partial",
   "theorems": [
    "Verif.Datetime.C41_fields",
    "Verif.Datetime.C41_build_partial",
    "Verif.Datetime.C41_back_partial",
    "Verif.Datetime.C41_accept_partial",
    "Verif.Datetime.C41_overflow",
    "Verif.Datetime.C41_construct",
    "Verif.Datetime.dateOf_onto",
    "Verif.Datetime.C41_day_violated",
    "Verif.Datetime.C41_year_violated",
    "Verif.Datetime.C41_violated"
   ],
   "note": "The claim is false: the day after the end of a month is accepted if the month has less than 31 days (29 February 2021, 31 April), and the fields of timestamps after the year 290307 are rejected. Proved: the fields of every non-negative 64-bit timestamp are right, without overflow; they give the timestamp back up to that year; exactly which fields are accepted. The division of the day number by a double is modelled with rounding. Arguments are integers or void."
  },
  {
   "property": "C42",
   "status": "proved",
   "theorems": [
    "Verif.Iter.C42",
    "Verif.Iter.C42_once",
    "Verif.Iter.C42_small",
    "Verif.Iter.C42_product"
   ],
   "note": "Any number of dimensions, any bounds. A generator passed to product is read once and cached; arguments which change while they are iterated are left out. One argument yields numbers and not arrays, as documented."
  },
  {
   "property": "C43",
   "status": "proved",
   "theorems": [
    "Verif.Shuffle.C43"
   ],
   "note": "Any elements, any random source with a state which gives numbers in range. An iterable is an array of its elements."
  },
  {
   "property": "C44",
   "status": "proved",
   "theorems": [
    "Verif.Text.C44",
    "Verif.Text.C44_split",
    "Verif.Text.C44_split_none",
    "Verif.Text.C44_join",
    "Verif.Text.C44_back",
    "Verif.Text.C44_forth",
    "Verif.Text.C44_lines",
    "Verif.Text.C44_find",
    "Verif.Text.C44_scan",
    "Verif.Text.C44_rscan",
    "Verif.Text.C44_slice",
    "Verif.Text.C44_concat"
   ],
   "note": "Every string within the limit of 65535 characters, every separator and limit on the number of parts; also what split gives after join with one character, and lines with each kind of end. Strings are lists of characters; find, scan, slice and concatenation are compared with the string model of C26 to C29. Arrays of strings are joined."
  },
  {
   "property": "C45",
   "status": "partial",
   "theorems": [
    "Verif.Json.C45_partial",
    "Verif.Json.C45_parse",
    "Verif.Json.C45_two",
    "Verif.Json.C45_dump",
    "Verif.Json.C45_violated",
    "Verif.Json.C45_lenient_violated"
   ],
   "note": "The claim is false: strings are not escaped, so ['x\",\"y'] comes back as two strings and a string with line ends as a number; escapes are not replaced; the least integer and an object with a property map do not come back. Proved for all values without these, at any depth, and for all texts of JSON with any whitespace whose strings have no escapes and whose exponents have no leading zeroes. Texts which are not JSON but are accepted are listed. Call depth and values which contain themselves are not modelled."
  },
  {
   "property": "C46",
   "status": "partial",
   "theorems": [
    "Verif.Props.C46_order_partial",
    "Verif.Props.C46_partial",
    "Verif.Props.C46_values",
    "Verif.Props.C46_antisymmetric",
    "Verif.Props.C46_ends",
    "Verif.Props.C46_crossing_violated",
    "Verif.Props.C46_violated",
    "Verif.Props.C46_mixed_violated"
   ],
   "note": "The claim is false for arrays of which one is at different depths in both operands: the check for recursive arrays compares addresses. Proved for all other finite values (strings: C locale, aligned as in C26). For all values including floats and recursive arrays: antisymmetry and termination."
  },
  {
   "property": "C47",
   "status": "partial",
   "theorems": [
    "Verif.Props.C47.C47_pool_partial",
    "Verif.Props.C47.C47_fails_only_without_memory",
    "Verif.Props.C47.C47_pool_violated",
    "Verif.Props.C47.C47_init_small_violated"
   ],
   "note": "Any history, any pattern of failing allocations, any writes to blocks; destruction frees every buffer once. The claim is false for requests of 2^32 - 7 bytes or more (the mask ~7U has 32 bits) and for an initial size of 0; such sizes are excluded."
  },
  {
   "property": "C48",
   "status": "partial",
   "theorems": [
    "Verif.Stack.C48_partial",
    "Verif.Stack.C48_step_partial",
    "Verif.Stack.C48_room",
    "Verif.Stack.C48_limit_violated",
    "Verif.Stack.C48_slots_violated",
    "Verif.Stack.C48_memory_violated",
    "Verif.Stack.C48_init_violated",
    "Verif.Stack.C48_violated"
   ],
   "note": "The claim is false: the limit is checked without the slots which link stack objects, so that the depth exceeds it by up to two; slots which refer to interrupted generators are not counted; when memory runs out at a certain point, the cleanup in prepare_call runs into an assertion. Proved for every history of calls, resumes, yields, returns and failed calls: the depth is the number of slots in use less those of interrupted generators and slot 0, it is at most the limit and two, it is zero when everything returned, and all other operations do what they should or fail without effect."
  },
  {
   "property": "C49",
   "status": "partial",
   "theorems": [
    "Verif.Misc.C49_partial",
    "Verif.Misc.C49_faithful_partial",
    "Verif.Misc.C49_exact",
    "Verif.Misc.C49_rejected",
    "Verif.Misc.C49_too_large",
    "Verif.Misc.C49_ub_iff",
    "Verif.Misc.C49_numeric",
    "Verif.Misc.C49_integer",
    "Verif.Misc.C49_violated",
    "Verif.Misc.C49_not_nearest"
   ],
   "note": "The claim is false in two places: 1.7976931348623159e308 is accepted and gives infinity, 2.2250738585072012e-308 gives zero. Proved for every literal of any length: the sign is right, the double is within one unit in the last place and no other double lies between it and the number, except next to 2^1024 and 2^-1022; numbers which are doubles are parsed to themselves; literals are rejected only for exponents outside of -324 to 308 or numbers which are too large up to one part in 2^54, and all beyond 2^1024 by one part in 2^53 are rejected. The result need not be the nearest double (83e25)."
  },
  {
   "property": "C50",
   "status": "proved",
   "theorems": [
    "Verif.Props.C50.C50_lookup",
    "Verif.Props.C50.C50_compiled",
    "Verif.Props.C50.C50_relaxed"
   ],
   "note": "All strictly increasing tables and all offsets; tables which the compiler makes for nested functions are such, with the greatest line noted at the last offset; relaxation of jumps keeps the line of every instruction."
  },
  {
   "property": "C51",
   "status": "partial",
   "theorems": [
    "Verif.Props.C51_literals_partial",
    "Verif.Props.C51_continuation_partial",
    "Verif.Props.C51_violated",
    "Verif.Props.C51_more_violations"
   ],
   "note": "The claim is false for source text which is not UTF-8 (three different witnesses); proved for all well-formed source texts."
  },
  {
   "property": "C52",
   "status": "proved",
   "theorems": [
    "Verif.Props.C52_next_token",
    "Verif.Props.C52_next_continuation",
    "Verif.Props.C52_tiling",
    "Verif.Props.C52_operator_text"
   ],
   "note": "All bytes, all choices of lexer mode by the parser. Line and column counting is not modelled."
  },
  {
   "property": "C53",
   "status": "partial",
   "theorems": [
    "Verif.Props.C53_join_accepts_partial",
    "Verif.Props.C53_join_limit_violated"
   ],
   "note": "The claim is false: the limit is on source bytes, not on characters. Proved that sums with fewer than 65532 source bytes are accepted."
  },
  {
   "property": "C54",
   "status": "partial",
   "theorems": [
    "Verif.Props.C54_case_partial",
    "Verif.Props.C54_wide",
    "Verif.Props.C54_case_violated"
   ],
   "note": "The claim is false for 8-bit strings: converted characters are cut to 8 bits. Proved whenever the converted characters fit; complete for 16-bit and 32-bit strings."
  },
  {
   "property": "C56",
   "status": "partial",
   "theorems": [
    "Verif.Props.C56_conditions_partial",
    "Verif.Props.C56_exact",
    "Verif.Props.C56_violated"
   ],
   "note": "The claim is false for conditions such as (a && b) || c: the jump out of the left operand goes to the wrong side. Proved for conditions in which left operands do not alternate; for every other condition with distinct operands there are values for which the code goes wrong (C56_exact). Operands are any expressions, which may throw and change memory."
  },
  {
   "property": "C58",
   "status": "partial",
   "theorems": [
    "Verif.Props.C58_partial",
    "Verif.Props.C58_violated"
   ],
   "note": "The claim is false when size times count wraps at 32 bits: 2^31 bytes are written where no room was made. Proved for items below 2^31 bytes, on systems which refuse blocks of 2^31 bytes (without that, C20_size_violated applies)."
  },
  {
   "property": "C59",
   "status": "partial",
   "theorems": [
    "Verif.Props.C59_partial",
    "Verif.Props.C59_overflow",
    "Verif.Props.C59_violated",
    "Verif.Props.C59_ignored_error_violated"
   ],
   "note": "The claim is false: the capacity of the array wraps at 65536, and an error from extending the list of all jumps is ignored. Proved for up to 32768 jumps if that list can be extended."
  },
  {
   "property": "C60",
   "status": "partial",
   "theorems": [
    "Verif.Ctl.C60_partial",
    "Verif.Ctl.C60_diverges_partial",
    "Verif.Ctl.C60_simple_partial",
    "Verif.Ctl.C60_violated",
    "Verif.Ctl.C60_break_violated",
    "Verif.Ctl.C60_switch_violated",
    "Verif.Ctl.C60_defer_violated",
    "Verif.Ctl.C60_condition_violated"
   ],
   "note": "The claim is false: break or continue out of a try may leave the wrong exception handler installed (three different witnesses), and conditions go wrong as in C56. Proved for all functions without such jumps and with straight conditions, so in particular for all functions without try, with and defer; including divergence."
  },
  {
   "property": "C61",
   "status": "proved",
   "theorems": [
    "Verif.Ctl.C61_targets",
    "Verif.Ctl.C61_closed",
    "Verif.Ctl.C61_never_stuck"
   ],
   "note": "Every nesting of if, while, repeat, for, switch, break, continue, fallthrough, return, throw, assert, try and defer, placed as the parser requires; any expressions. Instructions have length 1 in this model (C30 is about lengths)."
  },
  {
   "property": "C62",
   "status": "proved",
   "theorems": [
    "Verif.Stack.C62",
    "Verif.Stack.C62_back"
   ],
   "note": "Every history of calls, resumes, yields, returns and failed calls. Contents of registers are left out. Histories end where C48_memory_violated applies."
  },
  {
   "property": "C63",
   "status": "partial",
   "theorems": [
    "Verif.Shuffle.C63_partial",
    "Verif.Shuffle.C63_violated"
   ],
   "note": "The claim is false: each element is exchanged with any element instead of one which was not placed yet, so that for three elements two of nine sequences give one permutation and one gives another. Proved: every permutation is returned for some sequence."
  },
  {
   "property": "C64",
   "status": "partial",
   "theorems": [
    "Verif.Text.C64_exact",
    "Verif.Text.C64_partial",
    "Verif.Text.C64_violated"
   ],
   "note": "The claim is false: characters which need more bytes than those of the set are removed too, so that emoji at the ends count as whitespace. Proved for all strings without such characters; C64_exact says what is removed in general."
  },
  {
   "property": "C65",
   "status": "partial",
   "theorems": [
    "Verif.Text.C65_limit_partial",
    "Verif.Text.C65_partial",
    "Verif.Text.C65_violated"
   ],
   "note": "The claim is false: characters above U+FFFF at the start of a word are skipped as if they were whitespace, and lost. Proved for all strings without such characters, with and without a limit."
  },
  {
   "property": "C66",
   "status": "partial",
   "theorems": [
    "Verif.Misc.C66_partial",
    "Verif.Misc.C66_special",
    "Verif.Misc.C66_fits",
    "Verif.Misc.C66_violated"
   ],
   "note": "The claim is false: the buffer has 32 bytes, so that 10^22 * 2^30 becomes the text 1073741824 and 10^32 loses its last digits and the point. Proved for every finite number below 10^30 (10^29 if negative): the text is a literal with a point, with the right sign, within half a unit of the 15th decimal. snprintf is taken to round exactly. nan and infinities, and that the text fits the buffer, for all."
  },
  {
   "property": "C67",
   "status": "partial",
   "theorems": [
    "Verif.Misc.C67_partial",
    "Verif.Misc.C67_violated"
   ],
   "note": "The claim is false: 0.1 + 0.2 comes back as 0.3, 1e-16 as 0, and 10^22 * 2^30 as an integer. Proved for every number from 128 up to the limit of C66 and every number with at most 15 decimals below the limit."
  },
  {
   "property": "C68",
   "status": "partial",
   "theorems": [
    "Verif.Conc.C68_partial",
    "Verif.Conc.C68_violated",
    "Verif.Conc.C68_ghost_violated",
    "Verif.Conc.C68_full_false"
   ],
   "note": "The claim is false: the capacity is compared before the new buffer is allocated but the current one is read after, so that a thread which appends may replace a larger buffer by a smaller one and write outside of it; and a thread which helps to copy may put a removed element back. Proved if one thread at a time changes the size and does not make it smaller."
  },
  {
   "property": "C69",
   "status": "partial",
   "theorems": [
    "Verif.Re.C69_class_partial",
    "Verif.Re.C69_ranges_partial",
    "Verif.Re.C69_violated"
   ],
   "note": "The claim is false: [a-z~c] does not match x, because adding a range which lies inside of an earlier one cuts the earlier one off if there is a range behind it. Proved for every class in which no item lies well inside of what is listed in front of it while more is listed behind, from the text of the class to the result of re.find on any one character."
  },
  {
   "property": "C70",
   "status": "partial",
   "theorems": [
    "Verif.Re.C70_find_partial",
    "Verif.Re.C70_places_partial",
    "Verif.Re.C70_best",
    "Verif.Re.C70_limit",
    "Verif.Re.C70_violated"
   ],
   "note": "The claim is false for groups at position 65535 (the marker for groups which have not matched) and for the classes of C69. Proved for every other expression of the documented grammar of at most 32767 words of code, every string and every part of it, from the text of the expression to the positions in the result; up to position 65535 all but the groups there is right. Repetition without limit makes at most 65535 turns, which is shown to be enough. Number of steps and out of memory are not modelled: an empty turn is not detected, so that (a*)* may take very long."
  },
  {
   "property": "C71",
   "status": "partial",
   "theorems": [
    "Verif.Gc.C71_collect_partial",
    "Verif.Gc.C71_panic_violated"
   ],
   "note": "The claim is false for two roots: panic_proto and ctrl_c_proto of the instance are neither marked nor updated, so that the first collection frees the objects and leaves the references. Proved for all other roots: marking by any number of threads in any interleaving, moving of objects with all ways to run out of memory, updating of references, several rounds. The assumption is a well formed heap (Wf), which is also what a collection leaves."
  },
  {
   "property": "C72",
   "status": "proved",
   "theorems": [
    "Verif.Gc.C72_exact"
   ],
   "note": ""
  },
  {
   "property": "C73",
   "status": "proved",
   "theorems": [
    "Verif.Gc.C73_marking_ends",
    "Verif.Gc.C73_rounds_end"
   ],
   "note": "Marking ends under the assumption that the tables, storages, functions and module parts which belong to an object are of the right kinds (Shaped); the file has an object which is its own table and would be marked for ever."
  },
  {
   "property": "C74",
   "status": "partial",
   "theorems": [
    "Verif.Gc.C74_finalizers_partial",
    "Verif.Gc.C74_module_violated"
   ],
   "note": "finalize_object does not clear the finalizer of a module; when memory runs out later in the same page, mark_unused_objects_opaque visits the module again and its finalizer is called twice. Proved: exactly the unreachable objects are finalized, and each once when no unreachable module has a finalizer."
  },
  {
   "property": "C75",
   "status": "partial",
   "theorems": [
    "Verif.Expr.C75_accepts_partial",
    "Verif.Expr.C75_rejects_partial",
    "Verif.Expr.C75_own_partial",
    "Verif.Expr.C75_ownAll_partial",
    "Verif.Expr.C75_unambiguous_partial",
    "Verif.Expr.C75_newline_violated",
    "Verif.Expr.C75_slice_violated",
    "Verif.Expr.C75_comma_violated",
    "Verif.Expr.C75_body_violated",
    "Verif.Expr.C75_shift_violated",
    "Verif.Expr.C75_props_violated",
    "Verif.Expr.C75_full_violated"
   ],
   "note": "The claim is false in six places. Accepted without being documented: -a with (b) on the next line as a call, a[?b:c] as a slice, (a,) => b, and a => b < c < 1 as (a => b < c) < 1. Documented and rejected: a << b << c and {a : b,, c : 1}. Proved: every documented expression with at most one shift operator and without two commas in a row is accepted with its tree, if it has fewer tokens than levels are left; everything accepted is documented with this tree, if there is no =>, no ( or [ at the start of a line and no [?; each variant of the parser agrees with its own grammar; the documented grammar is unambiguous on these texts. Strings with interpolation, fun, class and async do are not modelled."
  },
  {
   "property": "C76",
   "status": "partial",
   "theorems": [
    "Verif.Clos.C76_closures_partial",
    "Verif.Clos.C76_direct_partial",
    "Verif.Clos.C76_const_uses",
    "Verif.Clos.C76_captures",
    "Verif.Clos.C76_closures_violated",
    "Verif.Clos.C76_not_full"
   ],
   "note": "The claim is false: a function g inside of f which uses only the variable of f is one object even when f is not, so a second call binds it to the second f (C76_closures_violated, a program which gives 20 and means 10). Proved for all programs in which no such function exists, in particular all in which functions do not refer to themselves from functions inside of them: same result within every number of steps. For all programs: uses replaced by LOAD.CONST are uses of constants which hold functions loaded by LOAD.CONST, and such functions assign nothing outside and use only functions from outside, single objects or functions around the use. Not modelled: classes, generators, default values, global variables, constant folding; that the passes of the optimizer end is C78."
  },
  {
   "property": "C77",
   "status": "proved",
   "theorems": [
    "Verif.Names.C77_names",
    "Verif.Names.C77_local",
    "Verif.Names.C77_closures"
   ],
   "note": "Every program and every list of global variables. Names are numbers; import, this, super, yield, the interactive mode and running out of memory are not modelled. Closures are compared as sets."
  },
  {
   "property": "C78",
   "status": "partial",
   "theorems": [
    "Verif.Clos.C78_ends_partial",
    "Verif.Clos.C78_same",
    "Verif.Clos.C78_closures_partial"
   ],
   "note": "Every program of the model of C76 (nested functions with one parameter, variables, assignments, loops, calls). What is missing: constant folding, removal of dead code, default values, classes and global variables, which count optimizations, too, are not modelled. C78_closures_partial removes the hypothesis of C76 that the optimizer ends."
  },
  {
   "property": "C79",
   "status": "proved",
   "theorems": [
    "Verif.Stop.C79_asserts",
    "Verif.Stop.C79_exclusive",
    "Verif.Stop.C79_pages",
    "Verif.Stop.C79_woken",
    "Verif.Stop.C79_progress",
    "Verif.Stop.C79_ends",
    "Verif.Stop.C79_told",
    "Verif.Stop.C79_one"
   ],
   "note": "Any number of threads, sequentially consistent memory. What the phases do to the heap is left to C71-C74; the list of contexts is read in one step; fewer than 2^32 contexts; no CONFIG_MAD_GC, no destruction of the instance. threads_to_stop may wrap around below 0 (resumed threads decrement it without being counted); the collector counts again after each wake-up, so this is harmless, which is part of the proof."
  },
  {
   "property": "C80",
   "status": "proved",
   "theorems": [
    "Verif.Thr.C80_behaves",
    "Verif.Thr.C80_fifo",
    "Verif.Thr.C80_lifo",
    "Verif.Thr.C80_never_fails",
    "Verif.Thr.C80_value",
    "Verif.Thr.C80_woken",
    "Verif.Thr.C80_progress",
    "Verif.Thr.C80_blocked"
   ],
   "note": "Any number of threads, every interleaving, spurious wake-ups and failures of weak compare-and-swap. Counts are whole numbers (pop(1.5) truncates in acquire but not in the arithmetic of the queue, and is not modelled). Sequentially consistent memory; a push which makes the value exceed 0x7FFFFFFF throws and its elements stay behind (counted in `failed`). Two pops of several elements may block each other, as documented for semaphores; the file has such a run."
  },
  {
   "property": "C81",
   "status": "partial",
   "theorems": [
    "Verif.Ec.C81_right_partial",
    "Verif.Ec.C81_value_partial",
    "Verif.Ec.C81_object_violated",
    "Verif.Ec.C81_default_violated",
    "Verif.Ec.C81_async_violated",
    "Verif.Ec.C81_method_violated",
    "Verif.Ec.C81_module_violated"
   ],
   "note": "The full statement is false: `x = {a: x}` puts the object into itself, `x = fun(a = x) {}` gives the function itself as the default value, `x = async g(x)` and `x = async x.f()` pass the function, `async module.f()` passes an uninitialised register as `this`. It is proved for all sequences of statements without these forms (`Expr.clob`, `Expr.modAsync`). Classes, super, tail calls and statements which contain statements are not modelled."
  },
  {
   "property": "C82",
   "status": "partial",
   "theorems": [
    "Verif.Ec.C82_keeps_partial",
    "Verif.Ec.C82_others_partial",
    "Verif.Ec.C82_neg_violated",
    "Verif.Ec.C82_array_violated",
    "Verif.Ec.C82_object_violated",
    "Verif.Ec.C82_far_violated"
   ],
   "note": "The full statement is false, for instance for `x = -g()`, `x = [this.f()]`, `x = {a: g()}` and for `x = y.name` in a file with more than 256 constants. It is proved for all assignments which are not of these forms (`Expr.late`), and for all variables other than the one assigned to."
  },
  {
   "property": "C83",
   "status": "partial",
   "theorems": [
    "Verif.Join.C83_safe_partial",
    "Verif.Join.C83_fails_partial",
    "Verif.Join.C83_delivered_partial",
    "Verif.Join.C83_ended_partial",
    "Verif.Join.C83_released_partial",
    "Verif.Join.C83_wait_violated",
    "Verif.Join.C83_rest_violated",
    "Verif.Join.C83_violated"
   ],
   "note": "The claim is false in two places. Two calls of wait on one thread object: one reads the private pointer of the object and then the thread, which the other may have released in between. At the end of the program the main thread compares the number of finished threads it has counted with the number of threads which are left now; if other threads were waited for in between, it takes running threads for finished, calls pthread_join for them and may do so for a thread for which another thread waits. Proved for all executions without these two: nothing fails. The rest is proved for all executions without the second (up to the first failure). Sequentially consistent memory."
  },
  {
   "property": "C84",
   "status": "partial",
   "theorems": [
    "Verif.Props.C84_iteration_partial",
    "Verif.Props.C84_shallow",
    "Verif.Props.C84_deep_partial",
    "Verif.Props.C84_deleted_violated"
   ],
   "note": "One thread. The claim is false for a deep iteration after a deletion: the name of the deleted property is put among the returned names, so that the property of the prototype is not returned. Proved for shallow iterations, and for deep iterations for all names which no object has deleted; everything that a deep iteration returns is right in any case. Requests for 2^28 or more slots are refused, as for C22."
  },
  {
   "property": "C85",
   "status": "partial",
   "theorems": [
    "Verif.Line.C85_getline_partial",
    "Verif.Line.C85_session_partial",
    "Verif.Line.C85_one_meaning",
    "Verif.Line.C85_invalid_violated",
    "Verif.Line.C85_tail_violated",
    "Verif.Line.C85_long_violated",
    "Verif.Line.C85_longer_violated"
   ],
   "note": "Systems other than Windows. The claim is false for bytes which are not UTF-8, and for lines of 65536 bytes or more in the history. Proved for complete characters and shorter lines. The mapping of keys to actions, Ctrl-C, the end of the input, and a change of the window between the bytes of one character are left out. When the window becomes too narrow, the cursor may move to the left."
  },
  {
   "property": "C86",
   "status": "partial",
   "theorems": [
    "Verif.Line.C86_screen_partial",
    "Verif.Line.C86_full_violated"
   ],
   "note": "The claim is false when the drawn text ends in the last column: the cursor is shown one column to the left of its place. Proved as long as all texts fit and leave the last column free, in a window which does not change its size; lines which scroll are left out. The terminal is a model of a VT100 with one column for each character."
  },
  {
   "property": "C87",
   "status": "partial",
   "theorems": [
    "Verif.Vect.C87_vectors_partial",
    "Verif.Vect.C87_owned",
    "Verif.Vect.C87_destroyed",
    "Verif.Vect.C87_no_leak",
    "Verif.Vect.C87_self_violated",
    "Verif.Vect.C87_destroy_violated"
   ],
   "note": "The claim is false for a vector which is appended to itself (no caller does this); proved for different vectors. Destroying a vector of 16 bytes or less leaves its contents."
  },
  {
   "property": "C88",
   "status": "partial",
   "theorems": [
    "Verif.GetInt.C88_integer_partial",
    "Verif.GetInt.C88_defined",
    "Verif.GetInt.C88_nan_violated",
    "Verif.GetInt.C88_least_violated"
   ],
   "note": "The claim is false for NaN, whose conversion is undefined, and for -2^63, which is rejected; proved for all other numbers."
  },
  {
   "property": "C89",
   "status": "proved",
   "theorems": [
    "Verif.Props.C89_ljust",
    "Verif.Props.C89_rjust",
    "Verif.Props.C89_zfill",
    "Verif.Props.C89_fill",
    "Verif.Props.C89_size"
   ],
   "note": "Sizes which are floating-point numbers are not modelled."
  },
  {
   "property": "C90",
   "status": "partial",
   "theorems": [
    "Verif.InsertIter.C90_insert3_partial",
    "Verif.InsertIter.C90_insert2_partial",
    "Verif.InsertIter.C90_self_violated"
   ],
   "note": "The claim is false for an iterator over the array itself; proved for arrays and for iterables whose elements do not depend on the array."
  },
  {
   "property": "C91",
   "status": "partial",
   "theorems": [
    "Verif.Props.C91_cas_partial",
    "Verif.Props.C91_locked",
    "Verif.Props.C91_truncated_violated"
   ],
   "note": "The claim is false for positions which do not fit into a C int, these are truncated; proved for all which do."
  }
 ]
}