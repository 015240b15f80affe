# Formal model of kos-lang/kos: design

Source under study: `/repo` (C core, C and Kos library modules), read as text.
Proof tool: Lean 4.33.0, project in `/verif/lean`, modules in `/verif/lean/Verif/`.

## Trusted base

* Lean's kernel and its elaborator for statements.
* Axioms: only `propext`, `Classical.choice`, `Quot.sound` (checked with `#print axioms`).
  No own axioms, no `sorry`, no `native_decide`, no `bv_decide`.
* The translation from C / Kos source to Lean definitions.  It is by hand. Each
  definition cites the lines it was taken from.  This is the main thing to review.
* C semantics used: two's complement fixed width integers (modelled by `BitVec`, or by
  `Int`/`Nat` with explicit wrap); undefined behaviour is a distinct outcome where it matters.
* Concurrency: sequentially consistent interleavings of the individual atomic operations.
  The weak-memory effects of relaxed/acquire accesses are not modelled.

## General conventions

* Definitions under `Verif/<Area>/Model.lean` (or `<Area>.lean`) follow the code function by function.
* Independent specifications are in `namespace Spec` sections and never use model helpers.
* Property theorems live in `Verif/Props/Cxx.lean`; helper lemmas live with the model.
* Theorem names end in `_partial` where the full claim is not established; the text above says what is missing.
* Where the code violates the claim, `*_violated` gives a machine-checked counterexample.
* Next to each theorem an `example` shows a non-trivial instance of its hypotheses.

## Parsing of floating-point literals (C49)

* `Misc/ParseDouble.lean` is the function; `ParseDoubleLemmas.lean` has the arithmetic of one step; `ScanDouble.lean` relates the text to the
  digits and the decimal exponent; `FloatError.lean`, `FloatRound.lean` and `FloatFaithful.lean` bound the error. `FloatSpec.lean` says
  what a literal and a double denote, as rational numbers (Mathlib's `ℚ`).
* `int` does not overflow: literals are shorter than 2^31 characters.  `e <= 57` when a digit is added, so shifts are in range; this is
  proved along the way (`digitLoop_start`).
* Printing (C66, C67): `Misc/PrintFloat.lean`. `snprintf("%.15f")` is modelled as exact rounding to 15 decimals, ties to even, which is what
  glibc does in the default rounding mode. `kos_print_float` is called with a buffer of 32 bytes by `float_to_str` and by `stringify` in
  the optimizer.
* Arrays used by several threads (C18, C68): `Conc/Array.lean`. One step is one atomic access; memory is sequentially consistent, although the code
  uses relaxed accesses. Buffers are numbered in the order of `next`; the null pointer is a first buffer of capacity 0. Modelled: KOS_array_read,
  KOS_array_write, KOS_array_cas, KOS_array_push, KOS_array_reserve, KOS_array_resize, resize_storage, copy_buf. Choices of the environment: spurious
  failure of weak compare-and-swap, failed allocation, rounding of capacities. Not modelled: moving of objects by the garbage collector, negative
  indices, read-only arrays, fill, insert, pop (which is read and resize), kos_array_copy_storage (used only in tests). The field `busy` belongs to
  the model: with the rule `one`, it keeps other threads from changing the size. The specification `Conc/ArraySpec.lean` is a list.
* Properties of an object used by several threads (C24): `Conc/Object.lean`. As for arrays; tables are numbered in the order of `new_prop_table`.
  Modelled: find_property, set_property, resize_prop_table, help_copy_table, copy_table, salvage_item, with the loops of KOS_get_property_shallow,
  KOS_set_property and KOS_delete_property around them. The table may be moved after any write and to any capacity, which covers need_resize and
  num_slots_used. A key and its hash are written in two steps; the rule `wait` keeps a thread which copies from reading a hash before it is written,
  which the code does not. Not modelled: prototypes, getters and setters, the table which is made when the first property is written, the garbage
  collector. The specification `Conc/ObjectSpec.lean` is a map from keys to values with, for every thread, whether the property it works with was
  absent or overwritten at some moment since the operation began.
* JSON (C45): `Lib/Json.lean`, from modules/json.kos and the lexer which C52 models. The specification `Lib/JsonSpec.lean` is a grammar which
  relates a value to the texts which show it; floating-point numbers in it are those of C49. When the lexer finds an error, module kos turns what was
  read into whitespace; the model follows this for single characters, strings and decimal numbers, and gives `unknown` for other errors. Values which
  contain themselves, functions, buffers and the depth of calls are left out.
* Regular expressions (C69, C70): `Re/Class.lean`, `Re/Parse.lean` and `Re/Match.lean`, from modules/kos_mod_re.c. Modelled: the whole compiler from the
  text to 16-bit words and classes, the interpreter with its stack of possibilities, counts and groups, and re_find. Reading words, counts, groups
  or classes which do not exist is the result `bad`. The specification `Re/Spec.lean` has the grammar as syntax trees with their texts, the places
  where a tree matches (`Lang`) and the list of all matches, the preferred ones first (`outcomes`). Choices in it where the documentation is silent: `\B`
  matches between two characters of the same kind; word boundaries look at the character in front of the searched part, `^` matches at
  its beginning; `{n,}` is in the grammar although the comment in the code leaves it out; the escapes `\A`, `\Z`, `\s`, `\S` of that comment
  are rejected by the code and are left out; a class lists any characters but `]`, `-` and `\`, which are escaped; groups keep the place of their last
  turn. Repetition without limit makes at most 65535 turns, in the code and in `outcomes`; that no match is lost by this is proved
  (`outcomes_shows`). Not modelled: messages of exceptions, running out of memory, the substrings in the result, the check of the arguments
  of find (the part of the string is inside of it). The interpreter is given a number of steps and it is proved that some number is enough; it
  can be large, as empty turns are not detected: `(a*)*b` tries some 10^13 ways on a string of three characters.

* Garbage collector (C71, C72, C73, C74): `Gc/Heap.lean`, `Gc/Mark.lean` and `Gc/Evac.lean`, from core/kos_heap.c. Modelled: all types of objects with all
  their references, pages with slots and mark bits, huge objects and their trackers, the roots, marking by any number of threads (one step is one
  compare-and-swap of a mark), allocation during evacuation, evacuation with both ways to recover when memory runs out, the page of which only a part
  was moved, updating of references, string slices and buffers, the loop of KOS_collect_garbage. A failed assertion or reading memory which
  holds no object is the result `none`; that it never occurs is part of C71. The system's answers to requests for memory are a list in the
  heap (`pools`), so that a request may fail at any point. The specification `Gc/Spec.lean` has which objects can be reached, well formed heaps
  (`Wf`), the relation between an object and its copy (`SameBody`) and `Preserved`. Not modelled: stopping of the other threads (they are assumed to
  wait and to have no current page), statistics and thresholds, builds with CONFIG_MAD_GC; each page is updated at once, as one thread does it.
  A finalizer is an entry in a log with the object and the function; the function itself does not touch the heap.
  That `Wf` holds whenever a collection starts is an assumption about the rest of the program; a collection keeps it.

* Parser of expressions (C75): `Expr/Tok.lean` and `Expr/Parse.lean`, from core/kos_parser.c:298–376, 471–580, 838–1947. A token is its kind and whether
  a line ends in front of it. Modelled: everything from right_hand_side_expr down to literals, with `unary_depth`, the limit of the depth and the bit patterns of the
  operators. The functions call each other, so each takes the one for nested expressions as an argument, and `rhsN` ties the knot with a bound which the length of
  the text satisfies. `Rules` are four switches which make the model stricter than the code; `Rules.code` is the code, and the other values only serve to
  show that a text is not documented. The specification `Expr/Spec.lean` is the grammar of doc/grammar.md:983–1222 as an inductive relation between tokens
  and trees; `Dialect` has the same switches and two more for what is documented and not accepted. A phrase which ends with the body of `=>` may not be followed by
  something that continues an expression, as the body extends as far as possible. Not modelled: interpolated strings, `fun`, `class`, `async do` (errors in the
  model), statements, positions, messages, running out of memory.
* Closures (C76): `Clos/Ast.lean` are programs with nested functions after names were resolved (one parameter, no defaults, ellipsis, classes, generators or exceptions;
  functions, variables and uses of variables have unique numbers which stand for addresses). `Clos/Pass.lean` is the part of the optimizer which decides how functions are loaded,
  core/kos_compiler_optim.c:241–305, 376–411, 748–852, 917–986, 1036–1231, the loops over functions and passes (kos_compiler.c:6536–6541) with fuel (C78: they end), and the choice of the instruction
  (kos_compiler.c:5681–5684). Folding of constants and removal of unused variables are not modelled; they only remove uses. `Clos/Sem.lean` executes a program where some functions are single
  objects, to which BIND writes at each execution of the literal (kos_vm.c:1513–1547, 3000–3077, 669–692); a function is bound to all outer frames, the code binds those it uses.
  The specification `Clos/Mean.lean` is an interpreter with closures which knows nothing about sharing.
* Names (C77): `Names/Ast.lean` are the nodes of the syntax tree as core/kos_compiler_vars.c treats them. `Names/Model.lean` is this pass (lines 130–440, 442–451, 673–686, 711–772,
  811–1007, 1021–1287): a stack of scopes whose variables become active and inactive, the search in the blocks of the current function and then in outer functions, the closures noted for
  functions, variables marked as independent, `fun_var` of function and class literals, the special case for `defer` in find_local_var. The tree of variables is a list. Not modelled: `import`
  (variables known before are arguments), `this`, `super`, `yield`, the interactive mode, running out of memory; the ordering of pointers in `closures` is taken to be an order. The specification `Names/Spec.lean`
  passes the list of visible declarations along.
* Stopping for a garbage collection (C79): `Stop/Model.lean` has any number of threads, each at a place in the functions of core/kos_heap.c (575–601, 744–795, 836–864, 917–927, 1228–1263, 2706–3062) and
  core/kos_instance.c (106–210, 1215–1290) or in a program; `next t a s` is one step of thread `t`, impossible, a failed assertion, or a new state. A wait on a condition variable is a place with a mark whether
  it was signalled; a thread without the mark may also wake up (spuriously). Memory is sequentially consistent; what happens to objects in the phases is not in this model (C71–C74), nor are CONFIG_MAD_GC and the
  destruction of an instance; contexts are fewer than 2^32.
* Queue and stack of module threads (C80): `Thr/Model.lean` has any number of threads, each at a place in push, pop (modules/threads.kos), semaphore.acquire or semaphore.release (modules/kos_mod_threads.c 303–437).
  A step is one atomic access to the value, one operation on a mutex or the condition variable, or the whole body of `with this.mutex`. Weak compare-and-swap may fail and threads may wake up without a reason.
  Left out: suspending for garbage collections (C79), running out of memory, counts which are not whole numbers, use of the semaphore or collection behind the back of the class.
  The specification (`Thr/Spec.lean`) is a list to which pushes and pops are applied one after another; the order is that of the bodies of `with`, each of which lies inside of its call.
* Threads of an instance (C83): `Join/Model.lean` has any number of threads, each at a place in async, wait, a finalizer of a thread object, thread_proc, kos_thread_join, kos_join_finished_threads or KOS_instance_destroy
  (core/kos_threads.c 100–479, modules/kos_mod_base.c 1879–2012). A step is one atomic access or one section under `new_mutex`. Every access to the memory of a thread checks that it has not been released.
  Left out: suspending of contexts (C79), weak memory, overflow of the number of threads. When a collection finds a thread object unreachable is arbitrary, except that no call of wait uses it.
* Code for expressions and assignments (C81, C82): `Ec/Model.lean` is visit_node for expressions and assignment with everything they call in core/kos_compiler.c (2014–2035, 2259–2323, 3521–4240, 4293–4882,
  4904–5274, 5276–5443, 5935–6219): which register gets which result, when registers are released, in which order instructions come. Code has branches instead of jumps. Instructions are arbitrary functions from
  the values of their operands to a value or an exception, which may change everything but the registers of the function. Free registers are all numbers below 255 which are not held (C35 is about the lists).
  Left out: classes, `super`, tail calls, prototypes of object literals, statements other than expressions and assignments, constant conditions, default values of unused parameters; bindings of functions to outer variables are part of the
  instruction which makes the function. The specification (`Ec/Spec.lean`) evaluates expressions without registers.

## Not modelled (whole project)

* Garbage collection in the middle of other functions, object headers, allocation failure (unless a property mentions it).
* Operating system services, libc formatting (`snprintf`), dynamic library loading.
* Floating-point arithmetic except where stated.

## Conventions

* A left shift of a negative `int32_t` (C04) is taken as two's complement; the C standard leaves it undefined.
* Object type checks at function entry are left out; the models start after them.
* Allocation is an oracle where it is modelled, so the theorems hold for every pattern of failures.
* Fresh memory is an oracle where its contents could be seen (C20).
* A write to an element of a read-only buffer (C20) leaves an exception pending while `write_buffer` reports success.
  It is modelled as an exception.
* The tokenizer model (C51, C52) keeps positions as the rest of the source; line and column numbers are left out.
  The parser's choice of lexer mode at each token is arbitrary.
* Strings (C25-C29, C54) are bytes in memory with a width, an address modulo 8 and a kind of storage. Slices of more than 16 bytes share
  memory. A misaligned 16-bit or 32-bit read is modelled as a plain read (little endian).
* `wcscoll` is the parameter `coll`, `towupper`/`towlower` are the parameter `conv`; both depend on the locale. Theorems say which
  locales they need. In the C locale `coll` is the order of code points.
* Assertions are modelled where they can fail (C25); other theorems are about builds without them.
* Red-black trees (C15, C16): a result `none` is a null or dangling access, a failed assertion or a loop which has not ended within
  the fuel; the theorems give enough fuel and exclude `none`. The comparison callback is a strict weak order, the keys of nodes in the
  tree do not change, and the walk callback never fails. Other code may change memory outside of the tree between operations.
* Property tables (C22, C23) are modelled for one thread; sizes assume 64-bit pointers. Keys are compared with `=` and have any hash
  function; the collision witness uses the hash function of strings.
* Iteration over properties (C84): `Obj/Walk.lean` has kos_new_object_walk and kos_object_walk for one thread; one turn of the loop is one step, so that any operations on objects can come between turns. The set of returned keys is a list, memory for it is not refused, and the 32-bit index does not wrap
* Line editor (C85): `Line/Model.lean` has the editing functions of kos_getline.c for systems other than Windows. A read at the size of the line or beyond is a failure; a failed assertion too. Keys come as actions: the mapping of keys to functions, Ctrl-C and the end of the input are left out. A window changes its size between characters, not between the bytes of one. Memory is not refused and writes to the terminal succeed
* Screen of the line editor (C86): `Line/Screen.lean` has a terminal, which is not in /repo and is trusted to behave like a VT100: one row, one column for each character, and after a character in the last column the cursor stays there until the next one. The escape sequences are taken as the actions they ask for; their bytes are left out
* Vectors of bytes (C87): `Vect/Model.lean` has the vectors of kos_memory.c. Memory is cells which have a byte or are not initialised; blocks are separate lists, so an access outside of one is a failure. Whether memory is refused is part of each call; no block has 2^63 bytes or more; a block from `KOS_realloc` is a new one and the old one is freed. A vector is used through these calls and stores to its bytes; a struct which is copied (its pointer to the local buffer is then wrong) is left out
* Numbers to integers (C88): `Utils/GetInt.lean` has `KOS_get_integer`. A double is its 64 bits; comparisons are those of IEEE 754, `floor` of the C library is exact, and conversion to `int64_t` is undefined outside of its range and for NaN, as the C standard has it
* Justification of strings (C89): `Str/Justify.lean` has `ljust`, `rjust` and `zfill` of base.kos over the model of strings (C29), with an oracle for each allocation. The size is an integer and the filling a string; `sign == "+"` is a comparison of characters (equality of strings is C26); `stringify` of strings is their concatenation
* Insertion of iterables (C90): `Arr/InsertIter.lean` has `array.prototype.insert` of base.kos over lists. Arrays are not locked, no other thread uses them, and memory is not refused; insertion of an array (`insert_array`) is what C17 proves about `KOS_array_insert`. An iterable is a finite list of functions from the contents of the array at the time when an element is asked for, so an iterator over the same array can be expressed
* `array.cas` (C91): `Arr/CasMethod.lean` has the method over `KOS_array_cas` (C17) and `KOS_get_integer` (C88); `(int)pos` keeps the lower 32 bits, as compilers define it. Other threads are in C18 and C68, not here
* Jumps (C30) are given with the code: in order of their offsets, without overlaps, and with targets at instruction boundaries. The
  generator of code keeps to this by only appending instructions; it is not modelled as a whole. Growing a buffer succeeds.
  The model of address-to-line tables (C50) has nested functions but no jumps; `C50_relaxed` adds the effect of jumps on the table.
* Memory pools (C47): `KOS_malloc` gives any aligned region apart from those in use, or fails; memory is a map from addresses to 8-byte
  words, used for headers of buffers only. The user may change all words which touch a block.
* Registers (C35): the compiler releases only registers it holds and asks for ranges of two or more; objects come from the memory pool
  (C47). Which registers the code generator holds at which time is arbitrary. Compilation ends on an error.
* Comparison (C46): floating-point numbers are a parameter (conversion, NaN test, `<`); arrays do not change while they are compared; one
  void object. Strings are those of C26, with its condition on alignment and locale.
* Sorting (C38): the expanded array is a list of records. A key function may change the array, given as an effect on its storage. The
  depth of the C stack is a parameter. The order of keys is any total preorder.
* pack and unpack (C39, C40, C58): floating-point numbers are bit patterns, with conversions as parameters; texts of exceptions are left out,
  but the buffer at the time of the exception is kept. The array of arguments does not change. Buffers are those of C20, strings those of C05
  and C06 (a string taken from a buffer with external storage reads the wrong field in the code, and is an access out of bounds here).
* Control flow (C56, C60, C61): expressions are opaque, they end with a value or an exception and may change memory. Instructions have length 1;
  registers are given by nesting of `try` (C35 is about allocation). Left out: errors of the compiler, lines, tail calls, the lowering of
  `for` over ranges (C37). Statements are placed as the parser requires. A thrown value which is not an exception is wrapped in one; the
  backtrace in it is opaque.
* Counting loops (C37): addition and comparison of values are parameters; the body is any function of the loop variable. The reset of the
  variable at the end is left out.
* Calls (C31, C32): arguments are a list, which does not change during the call. Properties of the object with named arguments are a list of
  pairs; the prototype of the map of names is a parameter. Failed allocations are left out. A function is given by which of its
  parameters are used, and the registers of its parameters are consecutive, as the compiler asserts.
* Generators (C33, C34): the body is any program on its frame; steps are atomic and memory is sequentially consistent (the code publishes the
  state with a relaxed write). Left out: generators written in C, checks of arguments before the state is changed. Whether `kos_stack_push`
  finds room is arbitrary, and its failures leave the stack unchanged, as they do for generators.
* The call stack (C48, C62): stack objects with their frames, the link and the references to reentrant stack objects; the contents of registers
  and of the other slots of frames are left out. Whether an allocation succeeds is arbitrary. A garbage collection does not move stack
  objects. One thread; a generator is resumed by one thread at a time (C33).
* Optimizer (C36): one pass of dead-code removal on the statements of C60. Folding of constants, unused variables and expressions without
  effect are left out. Constants in conditions have no side effects (`C36_effect_violated` is about those which have).
* Library modules written in Kos (C41, C42, C43, C63): arguments are integers, void or lists of elements; generators are the list of what they
  yield. Integer overflow is a distinct outcome in datetime. Doubles (`Misc/Double.lean`) are a mantissa and an exponent, with the quotient rounded
  to 53 bits, half to even; that the machine rounds in this way is assumed. The random source is any function of a state with results in range.
* Quoting (C08) starts from the list of code points of a string, as `KOS_string_get_char_code` gives them.

## Plan per property

| Id | What is modelled | How it is proved |
|----|------------------|------------------|
| C01 | `kos_parse_int` over byte lists | digit-fold invariant; spec is a positional value of the digit list |
| C02 | same with a UB outcome | counterexample (negating 2^63) and characterisation of the only UB inputs |
| C03 | `hex` loop on a byte buffer, `kos_parse_int` | loop invariant on base-16 digits, composition with C01 |
| C04 | write_uimm / write_simm / load_uimm / load_simm | induction on base-128 digits, any trailing bytes |
| C05 | calc_buf_size / encode / get_len / decode | induction on code point list, per-length arithmetic |
| C06 | get_len / decode as bounds-checked readers | induction on fuel/byte list, simulation between the two scanners |
| C07 | lexer escape validation, parse_escape_sequence, add_strings | induction on a grammar of literal bodies |
| C08 | vector_append_str | round trip through the escape decoder; counterexample above U+FFFFF |
| C09 | kos_rng_random_range with raw stream oracle | counting argument on residues |
| C10 | div_integer, mod_integer on BitVec 64 | arithmetic on Int with bounds |
| C11 | SHL/SHR/SHRU cases | arithmetic, each C shift guarded |
| C12 | optimize_binary_op / unary vs VM ops | case analysis; same BitVec functions written separately |
| C13 | find_keyword binary search, strncmp | binary-search invariant, sortedness by evaluation of the fixed table |
| C14 | collect_operator over operator_map | table analysis + induction on the scan |
| C15, C16 | every function of `kos_red_black.c` on a heap of nodes with parent pointers, including the dummy leaf of delete | each pointer step represents a step on a tree with a hole (`Rb/`); histories refine a sorted list of items |
| C17 | storage with capacity, TOMBSTONE, resize | refinement to `List` |
| C18, C68 | every atomic step of read/write/CAS/push/reserve/resize and of copying between buffers; any number of threads | inductive invariant over interleavings: where each element is, who has copied it, how many slots are open; forward simulation of a list; counterexamples for two growing threads and for shrinking |
| C19 | `slice` method on arrays, buffers and strings | slices are the elements with positions in the range (filter by position) |
| C20, C21 | buffer ops, base.kos splice | refinement to `List UInt8` |
| C22, C23 | property tables with probing, tombstones, resize and copying; prototype chains; one thread | tables represent finite maps (`Obj/`); histories refine finite maps; counterexamples for equal hashes and for failed writes |
| C24 | every atomic step of find/set/delete, of moving the table and of copying slots between tables; any number of threads | inductive invariant over interleavings: where each property is, who has reserved its new slot, who is still copying, how many slots are open; forward simulation of a map; counterexample for a hash which is read before it is written |
| C25 | `KOS_string_get_hash` | the hash is a fold over the characters in each representation; counterexample for the assertion |
| C26 | `compare_slice` with its word-wise lead, all nine width pairs | first difference of the character lists; counterexample for misaligned slices |
| C27, C28 | find, rfind, scan, rscan with their argument conversion | walk over positions; nearest position satisfying a predicate |
| C29 | string operations on bytes in memory, addresses, shared storage | histories refine lists of code points |
| C30 | jump entries, relaxation passes, writing of offsets, decoding by the virtual machine | invariant preserved by each widening step, measure for termination; the result is the code with operands replaced |
| C31, C32 | numbering of parameters by the compiler, init_registers, set_default_args_for_handler, get_named_args | closed form of the compiled numbers; each register read back equals the positional specification; counterexamples for the rest-array default offset, unused parameters and the prototype of the map of names |
| C33, C34 | prepare_call and finish_call for generators, the second look at the state in execute and kos_call_function; any number of threads | inductive invariant over interleavings: one holder, what the body did is a run with one caller, values on their way; counterexamples for a lost value and for a failed push |
| C35 | gen_reg, gen_reg_range, free_reg, free_all_regs on linked register objects; nested functions | invariant on lists in memory; step relation on held numbers; completeness of the search for ranges |
| C37 | is_for_range, for_range, and the generator range of base.kos as a state machine | the same passes of any body, by induction on the bound on passes; counterexamples for step 0, a fourth argument and the name |
| C38 | expand_for_sort, sort_range, is_less_for_sort, copy_sort_results | loop invariant of partitioning on three segments, induction on depth; uniqueness of the sorted permutation for stability |
| C39 | process_pack_format, pack_format, unpack_format | grammar of formats with a parsing lemma; relation between values, bytes and values given back; induction on the format, from both ends of the round trip |
| C40 | unpack_format, KOS_get_index_arg | invariant position inside of the buffer through every prefix of the format |
| C58 | pack_format on the buffers of C20 | invariant storage below 2^31 bytes through every prefix of the format |
| C41 | datetime constructor both ways, with the division by a double | calendar defined by the next day; days before a year; the estimate of the year is off by one at most for every day number; counterexamples for the day check and the last year |
| C42 | iproduct, product and generator of iter.kos | the k-th tuple is the digits of k to the given bases; the loop is the successor of digits |
| C43, C63 | shuffle of random.kos with any source | swapping keeps the multiset; numbers chosen backwards reach every permutation; counterexample by counting |
| C44, C64, C65 | split, split_lines, join and strip of base.kos over lists of characters; searching, slicing and concatenation compared with the string model | relations for pieces, lines and words; the loops satisfy them by induction; counterexamples with characters wider than the set |
| C45 | library functions over lists | induction |
| C46 | compare with its check for recursive arrays, objects at addresses; comparison instructions | a value is a tree read from the heap; mutual induction on trees; counterexample for arrays inside of each other |
| C47 | mempool_init(_small), mempool_alloc, alloc_large, mempool_destroy | invariant over histories with arbitrary writes to blocks; the list of buffers in memory |
| C49 | kos_parse_double, every step on 64-bit numbers | rational numbers: relative error of each step by induction on the number of steps, multiples of powers of two for the last rounding; counterexamples where rounding up leaves the range of normal or subnormal numbers |
| C66, C67 | kos_print_float | the decimals which are cut off are zero, from the size of the number; a number within 1/40 of the last place of a double is parsed to it; counterexamples for long numbers and small ones |
| C45 | json.kos, lexer | reading a part of the text gives its tokens, whatever follows (`Lexes`); induction over the grammar; the text of `dump` is in the grammar |
| C69, C70 | parse_re and everything below it, match_string, re_find | ranges are kept apart and sorted; each syntax tree corresponds to a block of code (`Code`), which the compiler emits and the interpreter runs as the list of its outcomes (induction on the tree, on turns); outcomes show all places of the language by cutting empty turns; counterexamples for swallowed ranges and for position 65535 |
| C71, C72, C73, C74 | the collector, from the roots to the last round | three-colour invariant for threads that mark (`MInv`); invariant of evacuation relating the heap before and now (`EInv`), for every function that changes it; update of references as a map; the marks after a failed round are those of a heap to start from again, with fewer pages to move; measure on gray slots, scheduled objects and calls for the end of marking; the log of finalizers is that of the dead objects passed so far; counterexamples for the roots which are forgotten and for the finalizer of a module |
| C75 | right_hand_side_expr and everything below it | what a function accepts is a phrase of its category (one lemma per function, invariant for the loop over `*` and `+`); every phrase in front of a token of a higher level is found (levels of tokens, induction on the length of phrases, in passing style for the loops); where dialects agree, by induction over derivations; that a text is not documented follows by running the strict parser |
| C76 | optimizer and execution with shared functions | invariant of the optimizer which holds in the middle of all visits (counters are reset and recounted): uses replaced by LOAD.CONST name closed functions whose counters agree, such functions use only shared functions and functions around the use; then a simulation between execution with shared objects and closures, by induction on steps, with a relation between frames indexed by the variables a function uses |
| C77 | all of kos_compiler_vars.c but imports | relation between the stack of scopes with activity and the list of visible declarations; scopes below the current one do not change, variables of the current one stay (induction over programs); functions between use and declaration as a difference of two stacks |
| C78 | loops of the optimizer | what can be optimized once (uses, constants, default values) is counted over the finite lists of the program and never grows; when it stays the same, a visit adds fixed numbers to the counters of outer functions once the functions inside count the same as before, so after at most two more visits the counters of a function repeat (`Clos/Ends.lean`); existence of a bound by induction on the program, independence of the bound by monotonicity |
| C79 | stop-the-world handshake | inductive invariant over places of threads (who holds the mutex, which phase, who has stopped, who has a page, counters as numbers of threads, flags of events), each step by cases; progress by a measure which sums a weight of each place (`Stop/Ends.lean`) |
| C80 | queue and stack of module threads | inductive invariant: holders of the two mutexes, size = value + what threads have acquired or are about to release, waiting threads imply value 0 or a thread about to wake them |
| C81, C82 | visit_node for expressions, assignment | each expression corresponds to its meaning for every register in which it is wanted and every set of held registers (`GenOk`), by induction over expressions, with rules for sequences of instructions (`Ec/Sim.lean`); which registers are held and which may change is first-order reasoning; counterexamples for values written to the register of a variable which is still read |
| C83 | creating, waiting for and releasing threads | each thread goes through three sequences of stages (place in the table, reference of the object, reference of kos_join_finished_threads), and each stage is owned by the one thread which is at the corresponding place (`Own`), from which reference counts, flags and the number of threads follow; frame lemmas, then each step by itself; two executions which fail |
| C84 | iterating over properties while objects change | tables keep their keys in place and are never handed to another object (`Obj/Ext.lean`); a table which is no longer in use has all slots closed (`Shut`), so that a slot, or the object, tells the current value; histories of operations and turns refine finite maps; whole iterations end and agree with reads; a property which is never deleted leaves no slot without a value (`Obj/Firm.lean`) |
| C85 | the line editor | a line as a list of characters; the byte offsets of the cursor and of the scroll position are those of characters, and the cursor is in the window; each key is compared with a small specification (`Line/Spec.lean`), whole calls and sessions with a history |
| C86 | what the line editor writes to the terminal | what each key writes keeps the row equal to prompt, text and blanks, and the cursor of the terminal at the place of the cursor of the editor; composed with C85 over all keys, as long as the text leaves the last column free |
| C87 | vectors of bytes | each call by itself with what it does to the heap (`Frame`), then any number of vectors: each block has exactly one owner, contents are compared with lists; two cases which fail |
| C88 | numbers to integers | values of doubles are integers in units of 2^-1074, so that `IsFloor` needs no rational numbers; the test of the range is one on the bits |
| C89 | ljust, rjust, zfill | from the specifications of repetition, concatenation and slices of C29; the result is a list of characters for every representation of the two strings |
| C90 | array.insert of iterables | the loop by induction over the iterable; positions are compared with an independent definition (`place`); counterexample with an iterator over the array itself |
| C91 | array.cas | positions are those of `ArrSpec.index` (C17), elements those of a list; counterexample for a position which is no C int |
| C48, C62 | kos_stack_push, kos_stack_pop with their helpers, the use of them by prepare_call, finish_call and set_closure_stack_size | layout invariant relating chains of stack objects to a list of frames with places; one lemma for each helper; induction over histories; counterexamples for the limit, the count, failed allocation and module initialisers |
| C50 | addr-to-line scan; noting of lines for nested functions | last entry of a strictly increasing table; histories against pairs noted per function |
| C51 | whole tokenizer (`Lexer/Token.lean`) against the escape decoder | a grammar of scanned text; counterexamples for text the lexer takes and the decoder rejects |
| C52 | whole tokenizer, any lexer mode chosen by the parser | every token is a non-empty prefix of the rest; induction on the source |
| C53 | `add_strings` on two literal tokens | length accounting; counterexample where joining makes the compiler fail |
| C54 | `lowercase`, `uppercase` with any conversion table | per-element loop; counterexample by truncation |
| C56 | gen_cond_jump_inner, gen_cond_jump, the instructions they use | the generated code takes a route given by recursion on the condition; the route is right exactly for straight conditions |
| C59 | push_jump_array on a store with capacity | invariant over pushes; counterexample by wrapping of the capacity |
| C60 | code generation for all statements, and the machine with exception handlers | simulation: one lemma per kind of statement, from a meaning with a bound on passes to machine steps; four counterexamples |
| C36 | process_scope, if_stmt, while_stmt, repeat_stmt, try_stmt, switch_stmt, case_stmt of the optimizer | the result has the same meaning, and what is called terminal does not run to its end; composed with C60 |
| C61 | code generation for all statements with lists of pending jumps | each jump entry is counted once over all lists, for every statement; invariant of the machine |

## Violations found in the code

The theorem named here is a machine-checked counterexample about the model of the code.

| Theorem | What goes wrong |
|---------|-----------------|
| `C02_ub_violated` | the text `-9223372036854775808` negates INT64_MIN (undefined in C) |
| `C06_from_buffer_violated` | a string made from a buffer with overlong encodings of ASCII contains the first raw bytes |
| `C09_wide_range_violated` | random ranges of 2^63 or more overflow a signed subtraction |
| `C14_violated` | inputs starting with `>=>`, `>==` or `>>==` are not read by maximal munch |
| `C08_quote_violated` | quoting of characters above U+FFFFF loses the top hex digit |
| `C51_violated`, `C51_more_violations` | the lexer accepts literals that the string constructor later rejects |
| `C17_insert_violated` | C API only: replacing a range by a shorter later range of the same array reads out of bounds |
| `C20_size_violated`, `C20_resize_violated` | buffer sizes within 63 of 2^32 wrap to a capacity of 0, later accesses are out of bounds |
| `C21_insert_violated` | `buffer.insert` with `begin` after the end leaves a zero byte and drops the data |
| `C21_self_insert_violated` | inserting a buffer into itself inserts zeros |
| `C19_buffer_violated` | C API only: slicing an external buffer above 4294967232 bytes writes out of bounds |
| `C25_assert_violated` | the hash of "\u{2B5A5}" is 0, which fails an assertion in debug builds |
| `C26_misaligned_violated`, `C26_order_violated` | 16-bit slices starting off an 8-byte boundary are compared by shifted bytes; the sign is wrong |
| `C26_locale_violated` | characters that the user's locale collates equal make different strings equal |
| `C27_rfind_violated` | `"language".rfind("e", -1)` is -1 |
| `C28_exclusive_violated` | `"\u{100}".scan("a", 0, false)` is -1 |
| `C29_add_violated`, `C29_add_unsafe_violated` | joining strings with 2^32 or more characters in total wraps the length |
| `C54_case_violated` | `"\xFF".uppercase()` is "x" in locales which map U+FF to U+178 |
| `C22_collision_violated` | eleven property names with the same hash make the table grow until its size wraps at 32 bits, then it is written out of bounds |
| `C22_failed_write_violated` | a property write which raises an exception for lack of memory has taken effect |
| `C84_deleted_violated` | an object which has deleted a property hides that property of its prototype from a deep iteration, though reading the property finds it |
| `C85_invalid_violated` | after the first byte of a character alone (or a letter in Latin-1), Left uses the index of the byte before the line |
| `C85_tail_violated` | after a tail byte without a first byte, Left twice fails an assertion |
| `C85_long_violated`, `C85_longer_violated` | lines of 65536 bytes or more are restored from history wrongly, as 16-bit sizes wrap: Up reads before the line, or brings an empty line |
| `C86_full_violated` | when the text which is drawn ends in the last column, the cursor of the terminal is moved one column too far to the left |
| `C87_self_violated` | `KOS_vector_concat` of a vector with itself writes after the end of the block, as the size of the source is read after it has changed (no caller does this) |
| `C87_destroy_violated` | `KOS_vector_destroy` leaves a vector of 16 bytes or less with its contents, a larger one is made empty |
| `C88_nan_violated` | `KOS_get_integer` of NaN: both tests of the range are false and the conversion to `int64_t` is undefined; reached by NaN as an index or as an operand of a bitwise operator |
| `C88_least_violated` | the floating-point number -2^63 is rejected although it is the least integer |
| `C90_self_violated` | `array.insert` of an iterator over the same array inserts elements which it has replaced: `[1, 2, 3]` with range 1 to 2 becomes `[1, 1, 1, 3, 3]` |
| `C91_truncated_violated` | `array.cas` truncates the position to 32 bits: position 2^32 changes element 0 instead of throwing |
| `C47_pool_violated` | a request of 2^32 bytes from a memory pool gives an empty block, since `~7U` has 32 bits |
| `C47_init_small_violated` | a memory pool with initial size 0 has 2^64 - 8 free bytes |
| `C46_crossing_violated`, `C46_violated` | when an array is an element of the other one, addresses are compared, so `<=` is not transitive |
| `C46_mixed_violated` | `==` between integers and floats is not transitive |
| `C38_reverse_violated`, `C38_violated` | sorting with `reverse` reverses the order of elements with equal keys |
| `C38_growing_key_violated`, `C38_shrinking_key_violated` | a key function which resizes the array makes `sort` use internal markers as values or fail an assertion |
| `C38_depth_violated` | sorted arrays make `sort_range` recurse once per element, so a long one exhausts the C stack |
| `C39_self_violated` | an empty buffer packed into itself gets bytes of fresh memory instead of zeros |
| `C39_empty_violated` | packing an empty string without size into an empty buffer raises an exception |
| `C39_failure_violated` | a failed `pack` leaves bytes which were never written at the end of the buffer |
| `C40_violated`, `C58_violated` | size times count wraps at 32 bits, so that `unpack` reads and `pack` writes out of bounds |
| `C40_backwards_violated` | the position wraps, so that padding moves it backwards |
| `C40_external_violated` | strings are taken from the wrong memory if the buffer has external storage |
| `C40_large_violated` | negative offsets above 2^31 bytes |
| `C56_violated`, `C56_exact` | `if (a && b) \|\| c` skips `c` if `a` is false |
| `C59_violated`, `C59_overflow` | the 32769th pending jump is written outside of the array, whose 16-bit capacity wraps |
| `C59_ignored_error_violated` | if the list of jumps cannot be extended, an entry which was never written is used |
| `C60_break_violated` | `loop { try { break } catch const e { return 7 } } throw 5` returns 7: the handler of a `try` which was left stays installed |
| `C60_switch_violated` | `break` and `fallthrough` in a `switch` inside of `try` inside of a loop install the handler around the loop |
| `C60_defer_violated` | `break` through deferred code leaves an inner handler installed |
| `C60_condition_violated` | a function which takes the wrong branch because of `C56_violated` |
| `C36_break_violated`, `C36_switch_violated`, `C36_violated` | `loop { if a { break } return 5 } return 6`: the code after the loop is removed |
| `C36_return_violated` | similarly the `return` at the end of a function is removed, and the machine runs past the end of the function |
| `C36_repeat_violated` | the condition of `repeat { ...; continue } while c` is replaced by `false` |
| `C36_effect_violated` | `if [f()] { }` does not call `f` |
| `C37_zero_step_violated`, `C37_violated` | `for const x in range(0, 3, 0)` never ends, the generator yields nothing |
| `C37_fourth_argument_violated` | `for const x in range(0, 1, 1, f())` does not call `f` |
| `C37_name_violated` | `for const x in base.r(3)` counts instead of raising an exception |
| `C31_rest_violated`, `C31_violated` | 40 parameters with default values, 35 arguments: the 36th parameter gets the default value of the fifth |
| `C31_rest_exception_violated` | 35 parameters without and 5 with default values, 36 arguments: reading the last parameter raises an exception |
| `C31_unused_violated` | an unused last parameter without default value may be left out of a call |
| `C32_proto_violated`, `C32_violated` | `f(iterator = 1)`: the name is found in the prototype of the map of names, and a function is taken for an index |
| `C33_lost_violated`, `C33_violated` | two threads loop over one generator: a value yielded to one is lost when the other ends the generator |
| `C34_overflow_violated`, `C34_stuck_violated`, `C34_violated` | a generator which was called when the stack was full counts as running forever |
| `C41_day_violated`, `C41_violated` | 29 February 2021 and 31 April are accepted: the day is compared with one too many |
| `C41_year_violated` | the fields of timestamp 2^63 - 1 (year 294247) are rejected by the constructor |
| `C64_violated` | `"\U0001F600".strip()` is empty: the emoji is wider than the characters of `whitespace` |
| `C65_violated` | splitting `"a \U0001F600 b"` gives `"a"` and `"b"` only |
| `C63_violated` | shuffle of three elements: two of nine random sequences give one order and one gives another |
| `C48_limit_violated`, `C48_violated` | calls with 255, 245, 255 and 252 registers reach depth 1026; the limit is 1024 |
| `C48_slots_violated` | a generator calls a function: depth 11, 13 slots in use |
| `C48_memory_violated` | memory runs out after the current generator was put aside: `kos_stack_pop` runs into an assertion |
| `C48_init_violated` | a function which a built-in module initialiser has called returns: the frame of the initialiser has no registers, and an assertion fails |
| `C53_join_limit_violated` | the sum of two constant strings is refused because of its source length |
| `C49_violated` | `1.7976931348623159e308` is infinity instead of an error; `2.2250738585072012e-308` is zero |
| `C66_violated` | 10^22 * 2^30 is converted to the string "1073741824": trailing zeroes of a number without a point are removed; 10^32 loses digits |
| `C67_violated` | 0.1 + 0.2 converted to a string and back is 0.3, 1e-16 is 0 |
| `C45_violated` | `dump(['x","y'])` is parsed to two strings, `dump` of a string with line ends to a number; escapes are not replaced; the least integer is rejected; an object with the property `map` cannot be dumped |
| `C45_lenient_violated` | `[,,1]`, `007`, `0x10`, `[1e05]` (as 5) and an unfinished string at the end are accepted |
| `C68_violated` | a thread pushes to an array of one element while another one resizes it to nine: the buffer of nine is replaced by a buffer of five and the copy writes outside of it |
| `C24_violated` | a thread adds a key and is interrupted before it writes the hash; another thread writes the same property, moves the table, and then does not find the property |
| `C68_ghost_violated` | an element removed by resize is put back by a thread which helps to copy the storage, and is read after the array is enlarged again |
| `C69_violated` | `[a-z~c]` does not match `x`: adding `c` cuts `a-z` down to `a-c` |
| `C70_violated` | the group of `()` found at position 65535 is given as one which has not matched |
| `C71_panic_violated` | after a collection the prototypes of the exceptions "panic" and "ctrl-c" are gone and the instance refers to freed memory |
| `C74_module_violated` | the finalizer of a module which cannot be reached is called twice when memory runs out later in the same page (kos_heap.c:393–398 does not clear it) |
| `C75_newline_violated` | `-a` followed by a line `(b)` is the call `-a(b)`; without the `-` it is an error, as documented (kos_parser.c counts `unary_depth` for operators and brackets alike) |
| `C75_slice_violated` | `a[?b:c]` is accepted and the `?` ignored |
| `C75_comma_violated` | `(a,) => b` is accepted |
| `C75_body_violated` | `a => b < c < 1` is accepted and means `(a => b < c) < 1`; likewise `a => b & c + 1` and `a => b << c << 1` |
| `C75_shift_violated` | `a << b << c` is documented and rejected |
| `C75_props_violated` | `{a : b,, c : 1}` is documented and rejected |
| `C76_closures_violated` | `fun outer(k) { fun f(x) { fun g(_) { return f } if x { return g } return k } return f }`: with `const a = outer(10)(1)` and `const b = outer(20)(1)`, `a(1)(0)` gives 20, not 10. `g` only uses the variable of `f`; check_self_ref_fun counts this as a use of a function by itself although it is `g` which uses it, so `g` becomes one object |
| `C49_not_nearest` | `83e25` is not the nearest double (within one unit in the last place, as for all literals) |

## Seeded mutations

`seeded/LOG.jsonl` has one line per wrong program. `failed` lists every declaration whose proof
stopped checking. A Lean build stops below a failing file, so often only the helper lemma nearest to the
edited definition is listed. Such an entry shows that a proof the property depends on no longer goes through.
It is weaker evidence than a failing property theorem. The field `wrong_output` is a checked example of wrong behaviour of the
mutated program; entries without it and with a note on equivalence are not evidence for a property. Entries where only an `example` failed were followed by
a stronger theorem (field `tightened`).
