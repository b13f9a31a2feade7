{"id": "C01", "title": "Allocator never hands out a cell that is still in use", "statement": "For every sequence of cell allocations and releases performed on a slab (releases only of cells currently held), the cell returned by an allocation is not among the cells currently held, lies inside the committed part of the slab, and is returned zeroed.", "quantifier": "all finite alloc/free histories starting from a new slab, of any length, including histories that cross any number of slab expansions", "why_tests_cant": "A test exercises one history; aliasing of two live cells needs a specific interleaving of frees, allocations and expansions.", "anchors": ["lib/core/slab.c:slab_new", "lib/core/slab.c:slab_expand", "lib/core/slab.c:slab_allocate", "lib/core/slab.c:slab_deallocate"]}
{"id": "C02", "title": "Allocator accounting and exhaustion", "statement": "Along every history the number of cells held equals (allocations minus releases) and never exceeds the slab capacity of 2^21 cells; an allocation fails (process abort) exactly when all 2^21 cells are held, and released cells become available again.", "quantifier": "all finite alloc/free histories", "why_tests_cant": "Reaching exhaustion requires millions of live cells and every path to it; a test sees one.", "anchors": ["lib/core/slab.c:slab_expand", "lib/core/slab.c:slab_allocate", "include/mnml/slab.h:SLAB_SIZE"]}
{"id": "C03", "title": "Reference counting is exact for the list primitives", "statement": "Making atoms, CONS, CAR, CDR, shallow duplication, CONC, APPEND, assoc-list update and dropping keep this invariant: the reference count stored in each live cell equals the number of references to it held by live cells plus those held by the program; a cell is released exactly when its count reaches zero, and no primitive ever touches a released cell.", "quantifier": "all heaps satisfying the invariant and all sequences of primitive calls that follow the ownership protocol", "why_tests_cant": "A miscounted reference only shows up as corruption much later, and only for particular sharing patterns; sharing patterns are unbounded.", "anchors": ["include/mnml/lisp.h:X", "include/mnml/lisp.h:lisp_car", "include/mnml/lisp.h:lisp_cons", "lib/core/lisp.c:lisp_deallocate", "lib/core/lisp.c:lisp_conc", "lib/core/utils.c:lisp_dup", "lib/core/utils.c:lisp_sss", "lib/core/utils.c:lisp_merge"]}
{"id": "C04", "title": "Evaluation is memory safe", "statement": "Evaluating any expression in any environment never reads or writes a released cell and never releases a cell twice, whatever user program is run and however it ends.", "quantifier": "all programs, environments, global states and evaluation depths", "why_tests_cant": "The space of programs is infinite and use-after-free depends on heap layout and history.", "anchors": ["lib/core/eval.c:lisp_eval", "lib/core/eval.c:lisp_eval_func", "lib/core/eval.c:lisp_eval_args", "lib/core/lisp.c:lisp_prog", "lib/core/lisp.c:lisp_bind"]}
{"id": "C05", "title": "Evaluation does not leak", "statement": "After an expression has been evaluated and its result dropped, the only cells still held that were not held before are those reachable from global definitions (documented exceptions: `<-`, and `def` given a non-symbol name, leak).", "quantifier": "all programs, environments and global states", "why_tests_cant": "Leak tests check a handful of programs; a leak on any one branch of any native accumulates until the 64 MB slab aborts the process.", "anchors": ["lib/core/eval.c", "lib/mnml/std/set.c", "lib/mnml/std/def.c", "test/c/syntax.c:lisp_test_fini"]}
{"id": "C06", "title": "Equality is structural and an equivalence", "statement": "`(= A B)` is T exactly when A and B are the same tree of atoms (same type and same content at every position, whatever flags or caches the cells carry); hence it is reflexive, symmetric and transitive and is a congruence for CONS.", "quantifier": "all pairs/triples of values of any size", "why_tests_cant": "Values are unbounded trees; a wrong case on one type pair at one depth escapes samples.", "anchors": ["lib/core/utils.c:lisp_equ", "lib/mnml/logic/equ.c"]}
{"id": "C07", "title": "Inequality is the negation of equality", "statement": "`(<> A B)` is T exactly when `(= A B)` is NIL.", "quantifier": "all pairs of values", "why_tests_cant": "The two are implemented by separate recursive functions that could disagree on some pair.", "anchors": ["lib/core/utils.c:lisp_neq", "lib/core/utils.c:lisp_equ"]}
{"id": "C08", "title": "Symbol identity and ordering", "statement": "Two symbols are the same exactly when their names agree on the first 16 bytes; the order used by environments and the global table is a strict total order on symbols compatible with that identity.", "quantifier": "all byte-string names", "why_tests_cant": "2^128 names; ordering laws are universally quantified over triples.", "anchors": ["include/mnml/utils.h:lisp_symbol_match", "include/mnml/utils.h:lisp_symbol_compare", "include/mnml/lisp.h:MAKE_SYMBOL_STATIC"]}
{"id": "C09", "title": "Pattern matching semantics", "statement": "A `match` pattern accepts a value exactly when the value is obtained from the pattern by replacing each `_` by some value; in particular a pattern without `_` accepts exactly the values equal to it, and `_` accepts everything.", "quantifier": "all patterns and values", "why_tests_cant": "Patterns and values are unbounded trees.", "anchors": ["lib/mnml/std/match.c:atom_match"]}
{"id": "C10", "title": "Environment update is map update", "statement": "Binding a name in a local environment makes lookups of that name return the new value and leaves lookups of every other name unchanged; the environment stays sorted without duplicates.", "quantifier": "all environments, names and values", "why_tests_cant": "Needs all relative orders of keys in lists of any length.", "anchors": ["lib/core/utils.c:lisp_sss", "lib/core/utils.c:lisp_merge"]}
{"id": "C11", "title": "Name resolution order", "statement": "Evaluating a symbol yields the innermost local binding when there is one, otherwise the current global value, otherwise NIL.", "quantifier": "all local environments, global tables and symbols", "why_tests_cant": "Depends on all shapes of both tables.", "anchors": ["lib/core/lisp.c:lisp_lookup"]}
{"id": "C12", "title": "Symbol caching is transparent", "statement": "A symbol cell may remember the global entry it resolved to; for every history of global definitions, redefinitions, assignments and lookups, a lookup through the memo returns exactly what a fresh search of the global table would return.", "quantifier": "all histories of def/setq/<-/lookup on any symbol cells", "why_tests_cant": "Staleness needs a particular order of redefinition and lookup; histories are unbounded.", "anchors": ["lib/core/lisp.c:lisp_lookup", "lib/core/tree.c:tree_add_node", "lib/core/tree.c:lisp_tree_upd"]}
{"id": "C13", "title": "Global table is a map", "statement": "After any sequence of insertions and updates, looking a name up in the global table returns the value most recently stored for it, or nothing if it was never stored.", "quantifier": "all insertion/update histories and all keys", "why_tests_cant": "Insert order determines the rotations; the number of orders is factorial.", "anchors": ["lib/core/tree.c:lisp_tree_add", "lib/core/tree.c:lisp_tree_upd", "lib/core/tree.c:lisp_tree_get"]}
{"id": "C14", "title": "Global table stays a search tree and is never corrupted", "statement": "Every insertion keeps the table an ordered binary search tree with consistent parent links containing each key once; no node becomes unreachable; insertion always terminates and never dereferences a missing node.", "quantifier": "all insertion histories", "why_tests_cant": "Same as C13; pointer surgery errors show on specific shapes only.", "anchors": ["lib/core/tree.c:lisp_tree_lrot", "lib/core/tree.c:lisp_tree_rrot", "lib/core/tree.c:tree_add_check"]}
{"id": "C15", "title": "Global table stays balanced (red-black)", "statement": "After every insertion no red node has a red child and all root-to-leaf paths have the same number of black nodes, so a lookup visits O(log n) nodes.", "quantifier": "all insertion histories", "why_tests_cant": "Balance must hold for every history.", "anchors": ["lib/core/tree.c:tree_add_check"]}
{"id": "C16", "title": "Removal from a table", "statement": "Removing a key from a table returns the table without that key and with every other association intact; removing an absent key leaves the table unchanged.", "quantifier": "all tables and keys", "why_tests_cant": "Fix-up cases depend on shape and colours.", "anchors": ["lib/core/tree.c:lisp_tree_rem", "lib/core/tree.c:tree_rem_check"]}
{"id": "C17", "title": "In-order traversal", "statement": "Visiting a table calls the visitor on every entry in increasing key order, stopping at the first entry for which it answers true. tree_successor of the node of an entry is the node of the entry with the next key, and NIL for the last one.", "quantifier": "all tables, visitors and nodes", "why_tests_cant": "All shapes.", "anchors": ["lib/core/tree.c:lisp_tree_dfs", "lib/core/tree.c:30-57"]}
{"id": "C18", "title": "Atoms evaluate to themselves; evaluation is deterministic", "statement": "NIL, T, `_`, characters and numbers evaluate to themselves in every environment and leave the state unchanged; an evaluation that terminates has a single outcome.", "quantifier": "all atoms, environments and global states", "why_tests_cant": "Universally quantified over environments.", "anchors": ["lib/core/eval.c:lisp_eval"]}
{"id": "C19", "title": "Over-application yields NIL without evaluating anything", "statement": "Calling a function with more values than it has arguments (and no catch-all) returns NIL, evaluates none of the values and has no effect.", "quantifier": "all functions, argument lists and value lists of any length", "why_tests_cant": "Arity space is unbounded.", "anchors": ["lib/core/utils.c:lisp_may_apply", "lib/core/eval.c:lisp_eval_func"]}
{"id": "C20", "title": "Partial application and currying", "statement": "Calling a function with fewer values than arguments returns a function; applying that function to the remaining values gives the same result as applying the original function to all values at once, for native and lisp functions alike.", "quantifier": "all functions with any number of arguments, every split of the values", "why_tests_cant": "All arities and splits.", "anchors": ["lib/core/eval.c:lisp_eval_func", "lib/core/eval.c:lisp_eval_args"]}
{"id": "C21", "title": "Argument evaluation order and catch-all", "statement": "Positional values are evaluated left to right, once each, in the caller's environment; a trailing symbol argument receives the remaining values unevaluated.", "quantifier": "all argument lists and value lists", "why_tests_cant": "Any arity.", "anchors": ["lib/core/eval.c:lisp_eval_args"]}
{"id": "C22", "title": "Destructuring binds the corresponding parts", "statement": "A nested argument pattern binds each symbol to the sub-value at the same position (NIL when the value is too short), ignores `_` and other atoms, and binds nothing else.", "quantifier": "all patterns and values", "why_tests_cant": "Unbounded trees.", "anchors": ["lib/core/lisp.c:lisp_bind"]}
{"id": "C23", "title": "Tail calls do not change results", "statement": "Marking self tail calls and executing them as a loop gives the same result as ordinary recursive evaluation.", "quantifier": "all functions, arguments and environments", "why_tests_cant": "Requires all recursion depths and body shapes.", "anchors": ["lib/core/utils.c:lisp_mark_tail_calls", "lib/core/utils.c:lisp_collect_tails", "lib/core/eval.c:lisp_eval_func"]}
{"id": "C24", "title": "Tail position analysis only selects tail positions", "statement": "A call is marked as a tail call only if its value is always the value of the enclosing function body.", "quantifier": "all function bodies", "why_tests_cant": "Unbounded nesting of if/cond/match/prog/|>/when/unless.", "anchors": ["lib/core/utils.c:lisp_collect_tails"]}
{"id": "C25", "title": "LET bindings are sequential and local", "statement": "In `let`, each binding sees the previous ones and the enclosing environment; the body sees all; nothing outside the `let` changes.", "quantifier": "all binding lists, bodies and environments", "why_tests_cant": "Any number of bindings.", "anchors": ["lib/mnml/std/let.c"]}
{"id": "C26", "title": "Conditional selection", "statement": "`if`, `when`, `unless`, `cond`, `match` evaluate exactly the selected branch: the first clause whose test succeeds, or nothing (NIL) when none does; unselected branches are not evaluated.", "quantifier": "all clause lists, environments and states", "why_tests_cant": "Any number of clauses.", "anchors": ["lib/mnml/std/if.c", "lib/mnml/std/cond.c", "lib/mnml/std/match.c", "lib/mnml/std/when.c", "lib/mnml/std/unless.c"]}
{"id": "C27", "title": "Sequencing", "statement": "`prog` (and function bodies) evaluate their expressions left to right once each and return the last value (NIL when empty); splitting a sequence in two and running the parts in order is the same as running the whole.", "quantifier": "all expression sequences", "why_tests_cant": "Any length.", "anchors": ["lib/core/lisp.c:lisp_prog"]}
{"id": "C28", "title": "Boolean connectives", "statement": "`and`, `or`, `not` return T or NIL according to the truth tables of 'is not NIL'; `or` evaluates its second operand only if the first is NIL.", "quantifier": "all operand expressions", "why_tests_cant": "All values.", "anchors": ["lib/mnml/logic/and.c", "lib/mnml/logic/or.c", "lib/mnml/logic/not.c"]}
{"id": "C29", "title": "Arithmetic is exact or undefined", "statement": "+ - * / % on numbers give the exact 64-bit result (division truncating toward zero with the remainder taking the dividend's sign) except precisely when the exact result does not fit or the divisor is zero, where the C operation is undefined.", "quantifier": "all pairs of 64-bit integers", "why_tests_cant": "2^128 pairs.", "anchors": ["lib/mnml/math/add.c", "lib/mnml/math/div.c", "lib/mnml/math/mod.c", "include/mnml/module.h:BINARY_NUMBER_GEN"]}
{"id": "C30", "title": "Comparisons order the integers", "statement": "< <= > >= decide the usual order: exactly one of (< a b), (= a b), (> a b) holds, <= is < or =, etc.", "quantifier": "all pairs/triples of integers", "why_tests_cant": "2^128 pairs.", "anchors": ["lib/mnml/math/lt.c", "lib/mnml/math/le.c", "lib/mnml/math/gt.c", "lib/mnml/math/ge.c"]}
{"id": "C31", "title": "String construction and escapes", "statement": "Turning bytes into a string yields the list of those characters with \\n, \\t and \\c replaced by newline, tab and c, and a trailing lone backslash dropped; bytes without a backslash are preserved exactly.", "quantifier": "all byte strings", "why_tests_cant": "Any length and content.", "anchors": ["lib/core/lisp.c:lisp_make_string", "lib/core/utils.c:lisp_process_escapes"]}
{"id": "C32", "title": "str and sym are inverse", "statement": "`(str (sym S))` is S for every string S of 1 to 16 characters without NUL and backslash; `(sym (str X))` is X for every symbol X whose name is non-empty and contains no backslash. `(chr N)` is the character of the low byte of N, in the range of characters, and leaves characters alone.", "quantifier": "all strings and symbols", "why_tests_cant": "256^16 names.", "anchors": ["lib/mnml/std/str.c", "lib/mnml/std/sym.c"]}
{"id": "C33", "title": "C string conversion stays within its buffer", "statement": "Converting a string to a C string with limit L writes min(n,L) characters and one terminator, i.e. never beyond index L, and is exact when n<=L; therefore a buffer of L+1 bytes is always sufficient.", "quantifier": "all strings and limits", "why_tests_cant": "Off-by-one needs strings of exactly the limit length.", "anchors": ["lib/core/utils.c:lisp_make_cstring", "lib/mnml/io/in.c", "lib/mnml/io/out.c", "lib/mnml/std/load.c", "lib/mnml/std/sym.c"]}
{"id": "C34", "title": "Output buffering loses and reorders nothing, never overflows", "statement": "Printing a value of any size writes to the channel exactly the text of the value, in order, although it is assembled in a 1024 byte buffer that is flushed on the way; no write goes past the buffer.", "quantifier": "all values, all sizes", "why_tests_cant": "Boundary conditions at every multiple of the buffer size.", "anchors": ["lib/core/print.c:lisp_write", "lib/core/print.c:lisp_prin_pair", "lib/core/print.c:lisp_prin_atom"]}
{"id": "C35", "title": "Human-readable printing concatenates", "statement": "`prin` of a list of atoms/strings writes the concatenation of the texts of its elements.", "quantifier": "all values", "why_tests_cant": "All element sequences (including ones containing NIL).", "anchors": ["lib/core/print.c:lisp_prin_atom"]}
{"id": "C36", "title": "Print/read round trip", "statement": "Reading back the text that `print` writes for a value yields an equal value.", "quantifier": "all values built from NIL, T, _, numbers, printable characters, lexable symbols and (dotted) lists, of any size", "why_tests_cant": "Unbounded values; token boundaries depend on neighbours.", "anchors": ["lib/core/print.c", "lib/grammar/lexer.rl", "lib/grammar/parser.y"]}
{"id": "C37", "title": "Reader is whitespace and comment insensitive", "statement": "Inserting spaces, newlines or comments between tokens does not change what is read.", "quantifier": "all token sequences and separators", "why_tests_cant": "Unbounded.", "anchors": ["lib/grammar/lexer.rl"]}
{"id": "C38", "title": "Quoting protects values", "statement": "Evaluating a quoted value 'V returns V unchanged in every environment where quote is not rebound.", "quantifier": "all values", "why_tests_cant": "Unbounded.", "anchors": ["lib/grammar/parser.y", "lib/mnml/std/quote.c"]}
{"id": "C39", "title": "List constructor laws", "statement": "(car (cons A B)) = A, (cdr (cons A B)) = B, car/cdr of anything else is NIL; `list` returns the values of its arguments in order; `len` counts the elements; `conc` of two lists is their concatenation.", "quantifier": "all values and lists of any length", "why_tests_cant": "Unbounded.", "anchors": ["lib/mnml/std/car.c", "lib/mnml/std/cdr.c", "lib/mnml/std/cons.c", "lib/mnml/std/list.c", "lib/mnml/std/len.c", "lib/mnml/std/conc.c", "lib/core/utils.c:lisp_len"]}
{"id": "C40", "title": "Type predicates partition the values", "statement": "Every value satisfies exactly one of nil?, tru?, chr?, num?, sym?, pair, wildcard; atm? is the complement of lst?; str? holds exactly of proper lists of characters.", "quantifier": "all values", "why_tests_cant": "Unbounded.", "anchors": ["lib/mnml/std/isatm.c", "lib/mnml/std/islst.c", "lib/mnml/std/isstr.c", "lib/core/utils.c:lisp_is_string"]}
{"id": "C41", "title": "Assignment", "statement": "`(setq S E)` makes the global value of S the value of E and changes no other global; `(<- S E)` changes exactly the binding visible at that point and returns the previous value.", "quantifier": "all states, names and values", "why_tests_cant": "All environments/histories.", "anchors": ["lib/mnml/std/setq.c", "lib/mnml/std/set.c", "lib/core/lisp.c:lisp_setq"]}
{"id": "C42", "title": "Function definition", "statement": "After `(def F ARGS BODY...)` calling F with values for all ARGS evaluates BODY with ARGS bound to them; the docstring is skipped; other globals are unchanged.", "quantifier": "all names, argument lists, bodies", "why_tests_cant": "Unbounded.", "anchors": ["lib/mnml/std/def.c"]}
{"id": "C43", "title": "Closures capture their environment", "statement": "A lambda remembers the environment at its creation: its free variables evaluate to the captured values wherever it is called.", "quantifier": "all environments at creation and call", "why_tests_cant": "All pairs of environments.", "anchors": ["lib/mnml/std/lambda.c", "lib/core/eval.c:lisp_eval_func"]}
{"id": "C44", "title": "Streams compose", "statement": "`(|> E f1 ... fn)` equals (fn (... (f1 E))), applied to values.", "quantifier": "all expressions and function lists", "why_tests_cant": "Any length.", "anchors": ["lib/mnml/std/stream.c"]}
{"id": "C45", "title": "Input/output channel stack discipline", "statement": "`in`/`out`/`load` restore the previous channel when they finish, for every nesting; values read from a channel are delivered in file order (FIFO).", "quantifier": "all nestings and histories", "why_tests_cant": "Unbounded nesting.", "anchors": ["include/mnml/utils.h:PUSH_IO_CONTEXT", "lib/core/read.c:lisp_read_pop", "lib/mnml/io/in.c"]}
{"id": "C46", "title": "Read a line", "statement": "`readline` returns the successive lines of the channel without their newline, then EOF.", "quantifier": "all file contents", "why_tests_cant": "All contents including a last line without newline.", "anchors": ["lib/mnml/io/readline.c"]}
{"id": "C47", "title": "Path list scanning", "statement": "Scanning a colon-separated search path visits exactly its non-empty segments in order.", "quantifier": "all strings", "why_tests_cant": "Unbounded.", "anchors": ["include/mnml/utils.h:FOR_EACH_TOKEN"]}
{"id": "C48", "title": "Compiled-closure cache", "statement": "Frames taken from the cache are never handed out twice while in use and are always large enough for the number of variables requested.", "quantifier": "all get/put histories", "why_tests_cant": "Histories unbounded.", "anchors": ["lib/core/closure.c"]}
{"id": "C49", "title": "Folds and maps of the lisp library", "statement": "`foldl`, `foldr`, `map`, `map2` and `zip` of the library compute the left fold, right fold and maps of the elements of their list arguments: for every function value that behaves like some effectful function g, the result and the final state are those of the fold or map with g, in the documented order.", "quantifier": "all lists, functions, environments and states", "why_tests_cant": "Lists, functions and the surrounding dynamic environment are unbounded.", "anchors": ["share/mnml/iterators.l"]}
{"id": "C50", "title": "List functions of the lisp library", "statement": "`rev`, `filter`, `has`, `last`, `rep`, `truncl` return the reversed list, the elements rejected by the predicate in their order, membership up to `=`, the last element, n copies, and the first n elements padded with NIL.", "quantifier": "all lists, environments and states", "why_tests_cant": "Lists and environments are unbounded.", "anchors": ["share/mnml/rev.l", "share/mnml/filter.l", "share/mnml/has.l", "share/mnml/last.l", "share/mnml/manips.l"]}
{"id": "C51", "title": "Association lists of the lisp library", "statement": "`assoc` finds the value of the first entry with an equal key, `erase` removes exactly the entries with that key, and `replc` replaces exactly their values; looking up after erasing or replacing obeys the laws of finite maps.", "quantifier": "all keys, values and lists of entries", "why_tests_cant": "Lists are unbounded.", "anchors": ["share/mnml/manips.l:assoc", "share/mnml/erase.l", "share/mnml/replc.l"]}
{"id": "C52", "title": "Converting between strings and numbers", "statement": "`aton` of a string of digits is the number they denote, `ntoa` of a number that is not negative is its decimal text, and `aton` undoes `ntoa`. Negative numbers, numbers above 64 bits, and callers with a variable named `descend` are outside this law.", "quantifier": "all digit strings, all numbers from 0 to 2^63-1, all environments and states", "why_tests_cant": "There are 2^63 numbers and unboundedly many environments under dynamic scope.", "anchors": ["share/mnml/aton.l", "share/mnml/ntoa.l"]}
{"id": "C53", "title": "Sorting", "statement": "`strlt` is the lexicographic order of strings; `isort` returns a permutation of its list in which no element is less than an earlier one and elements of the same rank keep their order, for every comparison that is a strict weak order, unless the caller has a variable named `ins`.", "quantifier": "all lists, comparison functions, environments and states", "why_tests_cant": "Lists, comparison functions and environments are unbounded.", "anchors": ["share/mnml/strlt.l", "share/mnml/isort.l", "share/mnml/insert.l"]}
{"id": "C54", "title": "Trimming strings never returns", "statement": "Contrary to its documentation, `whitespace?` is true (never NIL) for every value, because `or` takes any number of arguments and cannot be partially applied; consequently `triml`, `trimr` and `trim` run for ever, whatever their argument.", "quantifier": "all values", "why_tests_cant": "Non-termination for every input cannot be established by running.", "anchors": ["share/mnml/trim.l"]}
{"id": "C55", "title": "The path that a file name stands for", "statement": "`lisp_get_fullpath` replaces a leading `@lib` by the library directory and a leading `~` by HOME, puts relative names into the given directory, and returns the canonical path of an existing file; for a new file it returns the canonical path of its directory followed by its name; otherwise there is no path. With bounded lengths it stays inside its buffers, unless there is no input channel and the name of a missing file has no `/`. A new file in the root directory has no path.", "quantifier": "all systems, environment variables, directories and names", "why_tests_cant": "File systems, environments and names are unbounded; a write one byte before a buffer goes unnoticed in a run.", "anchors": ["lib/core/utils.c:580-640"]}
{"id": "C56", "title": "The search for a module", "statement": "A module NAME is the file libNAME.so in the first directory of the module path (library directory, user cache, MNML_MODULE_PATH) that lists it, and no module if none does. On Linux the buffer for libNAME.so is one byte too small, so that every search over an existing directory writes past it.", "quantifier": "all systems, paths and names", "why_tests_cant": "Directories and paths are unbounded; the overflow usually lands in padding.", "anchors": ["lib/core/module.c:26-180"]}
{"id": "C57", "title": "Loading binary modules", "statement": "Loading a list of symbols from a module defines exactly those of them that the module exports, with their exported values (the first entry of a name), returns their names in order and changes no other definition; a symbol or T loads all entries. A module that is missing or cannot be opened is NIL and changes nothing. Every module in the cache is open, and loading again has no further effect on definitions.", "quantifier": "all systems, modules, requests and states", "why_tests_cant": "Modules and requests are unbounded.", "anchors": ["lib/core/module.c:182-515"]}
{"id": "C58", "title": "Running scripts", "statement": "Loading a script evaluates exactly the expressions of its text in order, each in the state left by the one before, with relative names standing for files next to the script, returns the last result and restores the directory; `(load E1 ... En)` loads its arguments in order; a missing file is NIL and changes nothing. False in directories with a backslash in their name.", "quantifier": "all systems, texts, evaluators, arguments and states", "why_tests_cant": "Texts, nested scripts and states are unbounded.", "anchors": ["lib/core/utils.c:642-710", "lib/mnml/std/load.c:8-74", "include/mnml/utils.h:135-142"]}
{"id": "C59", "title": "The command line", "statement": "A program starts with exactly `def`, `quote`, `load`, ARGV, CONFIG and ENV defined (nothing with -b); `mnml -e EXPR` evaluates the expressions of the text up to the first that is read as NIL; `mnml FILE` runs the file and ignores -e; the exit status is 0 iff the result is not NIL. Backslashes in arguments start escapes, and an incomplete expression of -e is dropped silently.", "quantifier": "all systems, arguments, environments, texts and evaluators", "why_tests_cant": "Arguments, environments and texts are unbounded.", "anchors": ["bin/mnml.c:80-128", "bin/mnml.c:186-215", "bin/mnml.c:322-387"]}
{"id": "C60", "title": "Loading the lisp library", "statement": "In every state of an installed interpreter that was not started with -b and from every directory, `(load \"@lib/FILE\")` terminates for each of the 24 files of the library, adds exactly the definitions of the file and of the files and modules it names, prints nothing and restores the directory. The functions are then defined as the laws C49 to C54 demand, so that e.g. `mnml -e '(load \"@lib/rev.l\") (rev (quote X…))'` returns the reversed list for every list. isort.l needs iterators.l to be loaded before when there is no compiled module `iterators`.", "quantifier": "all systems with the library installed, states, directories, calls and arguments", "why_tests_cant": "A test sees one installation, one directory and one set of globals.", "anchors": ["share/mnml/iterators.l:1", "share/mnml/rev.l:1", "share/mnml/isort.l:1-4", "lib/core/module.c:242-291", "lib/mnml/std/load.c:8-74", "lib/core/utils.c:643-710", "bin/mnml.c:322-387"]}
{"id": "C61", "title": "Trees describe cells", "statement": "If a program runs to its end without a visible change in place of a cell that may be shared (strict mode of the cell model accepts it), then evaluation on immutable trees ends with the value that the memory holds, the same output and the same global variables, and strict mode has no influence on the run. False without the condition: `conc` changes lists that other names stand for, and `let` marks calls in the body of the function that made a closure, so that later calls of a global function from other closures of it are returned instead of evaluated.", "quantifier": "all programs, sets of natives, fuel bounds and runs", "why_tests_cant": "Programs and memories are unbounded; a test compares single runs.", "anchors": ["lib/core/eval.c:1-288", "lib/core/lisp.c:44-251", "lib/core/lisp.c:137-159", "lib/core/utils.c:394-558", "lib/mnml/std/let.c:46-68", "lib/mnml/std/def.c:6-56"]}
{"id": "C62", "title": "What print and prin write", "statement": "(print E1 … En) evaluates its arguments from left to right, appends the machine readable text of each value to the output as soon as it is known, with one space between two values and none at the end, and returns the last value, or NIL if there are no arguments; prin writes the human readable texts without separator; printl and prinl add a newline at the end.", "quantifier": "all closures, states, argument lists and values whose texts C34 and C35 describe", "why_tests_cant": "Argument lists, values and the output the arguments write themselves are unbounded.", "anchors": ["lib/mnml/io/print.c:6-40", "lib/mnml/io/prin.c:5-37", "lib/mnml/io/printl.c:6-45", "lib/mnml/io/prinl.c:6-42", "lib/core/print.c:1-139"]}
{"id": "C63", "title": "while", "statement": "(while COND BODY…) ends with a value exactly if repeating the body as long as the condition is not NIL does, with the same final state; its value is that of the last run of the body, or NIL if the body is never run. If the condition stays different from NIL under an invariant of the loop, it runs for ever.", "quantifier": "all closures, states, conditions and bodies, any number of rounds", "why_tests_cant": "The number of rounds is unbounded, and no test shows non-termination.", "anchors": ["lib/mnml/std/while.c:5-40", "lib/core/utils.c:lisp_prog"]}
{"id": "C64", "title": "Natives do not lose descriptors", "statement": "listen and connect give the one descriptor that they have created, or NIL after closing exactly the descriptors that they have created; they close nothing else. accept and pipe give every descriptor that they create and close none. dup passes its numbers on and gives the descriptor that it creates.", "quantifier": "all arguments, histories and behaviours of the operating system, with every pattern of failing calls", "why_tests_cant": "Each call can fail at any point; tests cannot make an operating system fail in every way.", "anchors": ["lib/mnml/unix/listen.c:15-79", "lib/mnml/unix/connect.c:15-91", "lib/mnml/unix/accept.c:9-62", "lib/mnml/unix/pipe.c:7-17", "lib/mnml/unix/dup.c:8-33"]}
{"id": "C65", "title": "Strings given to the system", "statement": "exec, unlink and connect pass the characters of their strings to the system unchanged, for every string that fits the limits of the system, and stay within their buffers and arrays for every string and every number of strings. False: unlink and connect write one byte past their buffers for strings of at least 4096 and 1024 characters, and exec drops the arguments after the 126th.", "quantifier": "all strings, numbers of arguments and settings, histories and behaviours of the operating system", "why_tests_cant": "Lengths and numbers are unbounded, and a write of one byte past a buffer need not be visible.", "anchors": ["lib/mnml/unix/exec.c:19-68", "lib/mnml/unix/unlink.c:7-26", "lib/mnml/unix/connect.c:15-91", "lib/core/utils.c:283-300"]}
{"id": "C66", "title": "select", "statement": "(select FDS ON_READ ON_ERROR) waits for the descriptors in FDS. Afterwards each descriptor that is ready is replaced as the value of its callback says: a number keeps it and adds that number, NIL closes and removes it, anything else keeps it. Descriptors that are not ready stay, and no others are closed. False: the list that is watched is the third argument, descriptors from 1024 on are stored outside of the set, and an element that is no number closes a descriptor nobody named.", "quantifier": "all lists of descriptors, ready sets, callbacks, histories and behaviours of the operating system", "why_tests_cant": "Lists, ready sets and callbacks are unbounded.", "anchors": ["lib/mnml/unix/select.c:8-155", "include/mnml/module.h:153-181", "lib/core/lisp.c:165-206", "share/mnml/http.l:129"]}
{"id": "C67", "title": "Success and failure can be told apart", "statement": "From the value of a native of the module unix a program can tell whether its calls succeeded. Holds for listen and connect: NIL exactly if a call failed. False for fork, dup and wait, which give the error number in place of a process, a descriptor or an exit code.", "quantifier": "all arguments, histories and behaviours of the operating system", "why_tests_cant": "The statement compares all possible behaviours of the operating system.", "anchors": ["lib/mnml/unix/listen.c:15-79", "lib/mnml/unix/connect.c:15-91", "lib/mnml/unix/fork.c:7-12", "lib/mnml/unix/dup.c:8-33", "lib/mnml/unix/wait.c:7-28"]}
{"id": "C68", "title": "close and ports", "statement": "close evaluates its arguments in order, closes each descriptor right after its evaluation, goes on after a failure, and gives T exactly if all succeeded. listen binds the port that it is given, for every port from 0 to 65535. False for port 65535, which is refused.", "quantifier": "all argument lists, evaluators, ports, histories and behaviours of the operating system", "why_tests_cant": "Argument lists and failures are unbounded.", "anchors": ["lib/mnml/unix/close.c:6-29", "lib/mnml/unix/listen.c:15-79"]}
{"id": "C69", "title": "wait and time report exactly", "statement": "wait gives the exit code of a child that exits and NIL for one that is ended by a signal. time without argument gives the clock; with an expression it evaluates the expression once and gives the nanoseconds that have passed, also if the counter of 64 bits wraps around.", "quantifier": "all exit codes, signals, clocks with differences below 2^63, expressions and evaluators", "why_tests_cant": "The clock wraps around after centuries; expressions are unbounded.", "anchors": ["lib/mnml/unix/wait.c:7-28", "lib/mnml/sys/time.c:6-21", "lib/core/utils.c:564-574"]}
{"id": "C70", "title": "The prompt answers every expression once", "statement": "mnml without file and expression evaluates the expressions of its input in their order, at top level and with relative names in the current directory. It writes one prompt for every entry, i.e. for the lines up to the one that completes an expression, then one line with the machine-readable text of the value of every expression of the entry, and one prompt at the end of the input. Its exit status is never 0, whatever the last value was.", "quantifier": "all inputs that the lexer and the parser accept, in entries of any number of lines, all evaluators, environments and file systems", "why_tests_cant": "Inputs and the ways in which expressions are spread over lines are unbounded; the prompt depends on what waits in the buffer of the channel.", "anchors": ["bin/mnml.c:33-77", "bin/mnml.c:331-337", "lib/core/read.c:37-75"]}
{"id": "C71", "title": "Source text means what is written", "statement": "A text of expressions (leaves, strings, lists, dotted lists, with the prefixes quote, backquote and tilde) reads as the values of the expressions in their order: 'X as (quote . X), `X as the value of X at the time of reading, ~(...) in a list as the elements of the value of the list. False for 'T, 'NIL, '_ and for negative numbers, which become quoted names, and for ~X where X is a name or a number.", "quantifier": "all expressions of any size and depth, all layouts over lines, all evaluators", "why_tests_cant": "Expressions and layouts are unbounded; the rules of the lexer overlap.", "anchors": ["lib/grammar/lexer.rl:166-218", "lib/grammar/lexer.rl:18", "lib/grammar/parser.y:28-123"]}
{"id": "C72", "title": "Further functions of the lisp library", "statement": "<|> chooses the first value that is not NIL; caar to cdar follow the path in their name; truncr gives the last N elements; iter and iter2 call the function on the elements in order and return the last result; insert puts an element before the first greater one and keeps a list in order; merge inserts the elements of one list into another and applies the dedup function; flatten lists the atoms from left to right; append and $+ concatenate; join puts a character between strings. append is only right for arguments that do not use the names of its own variables.", "quantifier": "all lists and values, all function arguments with a described behaviour (with effects for iter, iter2, merge), all environments of the caller that do not rebind the functions used", "why_tests_cant": "Lists and callers are unbounded; with dynamic scope the result depends on the names of the caller.", "anchors": ["share/mnml/orelse.l:3-5", "share/mnml/manips.l:10-36", "share/mnml/truncr.l:3-5", "share/mnml/iter.l:3-10", "share/mnml/iter2.l:3-13", "share/mnml/insert.l:3-12", "share/mnml/merge.l:3-5", "share/mnml/flatten.l:3-7", "share/mnml/append.l:3-11", "share/mnml/join.l:7-9"]}
{"id": "C73", "title": "The scanner takes texts apart without loss", "statement": "Every text is the concatenation of the words of its tokens and separators and of what is left; each word is the longest possible one and belongs to the first rule that accepts it, there is only one such way to take the text apart, and names are never cut: after a name comes no character of a name, and a name of more than 16 characters is an error instead of two names.", "quantifier": "all byte sequences", "why_tests_cant": "Token boundaries depend on arbitrary following text; no finite set of texts shows that every text is covered.", "anchors": ["lib/grammar/lexer.rl:166-218", "lib/grammar/lexer.rl:244-262"]}
{"id": "C74", "title": "How deep the evaluator nests", "statement": "Calls of lisp_eval nest no deeper in a function that calls itself by marked tail calls than in its deepest round, plus one level, and no deeper in a while loop than in its deepest turn, plus one level, whatever the number of rounds and turns; bounding the depth changes no result. So foldl (with a function of bounded depth) and rev work in constant depth on lists of every length, while foldr and map nest at least 4 and 3 levels per element of the list.", "quantifier": "all functions, loops, states and environments, all lists of any length, any number of rounds", "why_tests_cant": "The stack is exhausted only at lengths that no test reaches; a test of one length says nothing about the growth.", "anchors": ["lib/core/eval.c:161-184", "lib/core/eval.c:260-286", "lib/mnml/std/while.c:27-31", "share/mnml/iterators.l:5-11", "share/mnml/iterators.l:13-19", "share/mnml/iterators.l:21-27", "share/mnml/rev.l:3-5"]}
{"id": "C75", "title": "Using released cells again changes nothing", "statement": "Every session of the interpreter on the slab, which hands out released cells again, has the outcome, the output, the variables and the values of the same session in a memory where no address is used twice and in which at most 2097152 cells can be in use; it is refused a new cell exactly when that one is. Left out are the calls of C04 that pass released cells to a native. In the end the cells that the slab regards as handed out are the cells in use, their number is the difference of the counters of allocations and releases, and after an accepted program that abandons no reference they are the cells that the variables need.", "quantifier": "all programs (lists of expressions), all sets of natives, all numbers of steps", "why_tests_cant": "A stale pointer to a cell that is in use again for something else is silent; whether it occurs depends on the whole history of allocations and releases.", "anchors": ["lib/core/slab.c:127-152", "lib/core/slab.c:154-167", "include/mnml/slab.h:24", "lib/core/eval.c:260-286"]}
{"id": "C76", "title": "Malformed expressions disturb nothing else", "statement": "Every sequence of tokens is read to its end or to a parenthesis too much, however malformed. Wherever the parentheses are balanced after a closing parenthesis or an atom, the parser is as at the start: what was read before does not change what is read afterwards. The values handed over are always those of a well-formed text, made of the given one by leaving out tokens. Each such place gives at most one value, and a well-formed text gives the values of the grammar. A malformed expression is however not rejected: the tokens that do not fit are skipped silently, and what is left may be handed over as a value or belong to another list.", "quantifier": "all sequences of tokens, all evaluators for backtick and tilde", "why_tests_cant": "There is no end of ways in which a text can be malformed, and a wrong state of the parser shows only in the expressions that follow.", "anchors": ["lib/grammar/lexer.rl:22-28", "lib/grammar/lexer.rl:46-164", "lib/grammar/parser.y:18-26", "lib/grammar/parser.y:28-81", "lib/core/utils.c:30-36"]}
{"id": "C77", "title": "slabinfo counts the cells in use", "statement": "After any session on the slab, slabinfo gives a pair of numbers whose difference is the number of cells that were in use when it was called, exactly if fewer than 2^63 cells have been made and modulo 2^64 otherwise; it changes none of these cells and no variable.", "quantifier": "all programs (lists of expressions), all sets of natives, all numbers of steps", "why_tests_cant": "test:slabdelta of share/mnml/test.l offers the difference as a measure of leaks; that it is the number of cells in use has to hold after every history, not after the ones tested.", "anchors": ["lib/mnml/sys/slabinfo.c:7-13", "lib/core/slab.c:127-152", "lib/core/slab.c:154-167", "include/mnml/slab.h:11-18", "share/mnml/test.l:61-63"]}
{"id": "C78", "title": "Laws of term.l, args:skip and dedup", "statement": "Reading and running share/mnml/term.l and args.l in an installed interpreter terminates and adds their definitions. term:esc puts a text between ESC[CODEm and ESC[0m; each of the 22 formats of term.l is defined by its generating loop and gives the sequence of its code; term:left and term:right give a text of exactly the wanted width, filled with spaces at the end or the beginning and otherwise cut to its beginning or end; args:skip drops that many elements; dedup folds the answers of the comparator from the right, and with a comparator that skips related neighbours leaves a sublist without related neighbours in which each element has a representative.", "quantifier": "all lists, texts, widths that fit a number, comparators, argument expressions and environments that leave the needed names alone", "why_tests_cant": "Widths, texts and comparators are unbounded; the formats are defined by code that builds definitions at run time.", "anchors": ["share/mnml/term.l:1-21", "share/mnml/term.l:26-53", "share/mnml/term.l:58-70", "share/mnml/args.l:1-12", "share/mnml/dedup.l:1-19"]}
{"id": "C79", "title": "The assertions of test.l are right", "statement": "(assert:equal X E) answers T exactly if the values of X and E are equal (and prints nothing), NIL otherwise with a report that shows both values; (assert:predicate P E) answers T exactly if P does not give NIL on the value of E. E is evaluated once, in the scope of the caller extended by the variables of the assertion; a variable of the caller with one of their names is hidden. (test:slabdelta) is the difference of the two numbers of (slabinfo).", "quantifier": "all expressions, values, states and scopes that leave the used names alone", "why_tests_cant": "The assertions judge all tests of the project; a wrong verdict for some value would go unnoticed in the tests that use them.", "anchors": ["share/mnml/test.l:61-63", "share/mnml/test.l:65-78", "share/mnml/test.l:80-93"]}
{"id": "C80", "title": "Command lines are parsed flag by flag", "statement": "(args:parse_r SCHEMA W R) and (args:parse SCHEMA) read the words from left to right: the handler of each flag is applied once, to exactly as many of the following words as it has parameters, in order, and the result is the list of the flags found, the last one first. The first flag that is not in the schema, or that has too few words left, ends the parsing: it is reported, the result is NIL, no handler is called for it, and nothing after it is looked at. For bin/mnmlc, -c, -m and -o set SRC, MOD and DST to the next word.", "quantifier": "all schemas with handlers, all lists of words, all states and scopes that leave the used names alone", "why_tests_cant": "There is no test of args.l in the repository, and command lines and schemas are unbounded.", "anchors": ["share/mnml/args.l:14-33", "share/mnml/args.l:35-37", "bin/mnmlc:22-27"]}
{"id": "C81", "title": "test:run runs every test once and tells whether all passed", "statement": "(test:run SUITE (NAME . TEST) ...) without -t, -l and -h prints the suite's name and evaluates the tests in order, each exactly once whatever the others gave, and prints one line per test with its name, filled up to the longest name, and passed, failed or not found; its value is T if every test gives exactly T, and NIL otherwise. With -t, the tests named in TST are run in the order of that list, and a name without a test is reported as not found and makes the value NIL. With -l, only the names are printed; with -h alone, nothing is run. A first argument that is no flag is reported and then all tests are run.", "quantifier": "all suites with string names, all tests whose evaluation yields a value, all states and scopes that leave the used names alone", "why_tests_cant": "Every test suite of the repository is run by this function, so a mistake in it would hide the failures of the others; suites and results are unbounded.", "anchors": ["share/mnml/test.l:25-28", "share/mnml/test.l:30-59"]}
{"id": "C82", "title": "cps:swap, cps:lift and >& compute the continuation-passing form of a program", "statement": "(cps:swap K C W) is, for every list W, the list with each list in it replaced by a placeholder _n, followed by K, and the next number. (cps:lift K C E), for every program E built of atoms, calls of atoms and conditionals if, when, unless, is the form in which the arguments that are not atoms are bound one after the other, from the left, by continuations (\\ (_n) ...), the branches of conditionals are lifted with the same K, and the number that follows the last placeholder made. (>& F) is the function F with one more parameter _n, where n is the number of its parameters, and the lifted body.", "quantifier": "all lists, all programs of the given syntax, all continuations, all numbers up to the limit of 64 bits, all states and scopes that leave the used names alone", "why_tests_cant": "Programs nest without bound, and the numbering of the placeholders is threaded through two mutually recursive traversals; the tests of cps.l compare a few small programs.", "anchors": ["share/mnml/cps.l:15-17", "share/mnml/cps.l:23-32", "share/mnml/cps.l:38-53", "share/mnml/cps.l:58-69", "share/mnml/cps.l:74-94", "share/mnml/cps.l:99-106"]}
{"id": "C83", "title": "Conversion to continuation-passing style preserves the meaning of a function", "statement": "For every function F, the body of (>& F) passes to its external continuation the value that the body of F has, after the same calls with the same arguments in the same order.", "quantifier": "all functions; all meanings of the functions called, in every lawful monad; all values of the variables", "why_tests_cant": "The meaning of the called functions, their effects and the nesting of the program are unbounded, and the tests of cps.l only compare the text of a few results.", "anchors": ["share/mnml/cps.l:23-32", "share/mnml/cps.l:38-53", "share/mnml/cps.l:58-69", "share/mnml/cps.l:74-94", "share/mnml/cps.l:99-106"]}
{"id": "C84", "title": "The natives of unix and sys keep the reference counts", "statement": "A call of accept, close, connect, dup, fork, listen, pipe, time, unlink or wait with a closure made for that call accesses no released cell, leaves all reference counts exact, adds exactly the reference to its value and loses no cell, whatever the operating system answers; exec, which does not return, accesses no released cell either.", "quantifier": "all memories that satisfy the invariant; all arguments; all operating systems; all evaluators that keep the counts and use only what they are given, among them the modelled one; all programs before the call", "why_tests_cant": "The cells released depend on the replies of the operating system (every failing call is a path of its own), on sharing in the memory and on what the evaluated arguments do.", "anchors": ["lib/mnml/unix/accept.c:36-62", "lib/mnml/unix/close.c:6-29", "lib/mnml/unix/connect.c:15-91", "lib/mnml/unix/dup.c:8-33", "lib/mnml/unix/exec.c:19-68", "lib/mnml/unix/fork.c:7-12", "lib/mnml/unix/listen.c:15-79", "lib/mnml/unix/pipe.c:7-17", "lib/mnml/unix/unlink.c:7-26", "lib/mnml/unix/wait.c:7-28", "lib/mnml/sys/time.c:6-21"]}
{"id": "C85", "title": "select keeps the reference counts while it runs callbacks", "statement": "A call of select accesses no released cell, leaves all reference counts exact and adds exactly the reference to its value, whatever the operating system answers and whatever the callbacks do.", "quantifier": "all memories that satisfy the invariant; all lists of descriptors; all callbacks; all operating systems", "why_tests_cant": "The callbacks are arbitrary programs that run while select walks its list, and the ready descriptors are chosen by the operating system.", "anchors": ["lib/mnml/unix/select.c:8-33", "lib/mnml/unix/select.c:35-101", "lib/mnml/unix/select.c:103-112", "lib/mnml/unix/select.c:114-153"]}
{"id": "C86", "title": "The natives of unix make the same calls on cells and on trees", "statement": "If a program that ends with a call of accept, connect, exec, fork, listen, pipe, unlink or wait comes to an end on memory cells, then on trees its arguments have values too, and the native given these values makes the same system calls in the same order and gives the value that the cells represent. The arguments reach the native in the order of its parameters.", "quantifier": "all programs before the call; all parameter lists and argument expressions without flagged cells; all operating systems and all histories of calls; all fuel", "why_tests_cant": "It relates two executions of every program under every behaviour of the operating system; each reply selects another path.", "anchors": ["lib/core/eval.c:102-139", "lib/mnml/unix/accept.c:9-62", "lib/mnml/unix/connect.c:15-91", "lib/mnml/unix/exec.c:19-68", "lib/mnml/unix/fork.c:7-12", "lib/mnml/unix/listen.c:15-79", "lib/mnml/unix/pipe.c:7-17", "lib/mnml/unix/unlink.c:7-26", "lib/mnml/unix/wait.c:7-28", "include/mnml/module.h"]}
{"id": "C87", "title": "Symbols are the same with and without SSE, and contain nothing but their name", "statement": "With SSE two symbols match exactly if all 16 bytes are equal, as without. A symbol made from a C string or from a token of given length has the first 16 bytes of the name, up to a NUL, followed by zeros, whatever the memory contained before and whatever follows the name; nothing behind the name or behind 16 bytes is read. So two names make matching symbols exactly if they agree in that part.", "quantifier": "all symbols; all names and lengths; all contents of the allocated memory; all bytes that follow", "why_tests_cant": "There are 2^256 pairs of symbols, and the contents of fresh memory and the bytes behind a token are not under the control of a test; a build has only one of the two variants.", "anchors": ["include/mnml/types.h:12-17", "include/mnml/types.h:61-71", "include/mnml/lisp.h:128-148", "include/mnml/utils.h:107-116", "lib/grammar/lexer.rl:161", "CMakeLists.txt:148-153"]}
{"id": "C88", "title": "The options of the command line are recognised in every way of writing, and decide the exit status", "statement": "The options -h, -v, -b, -d and -e EXPR are recognised alone or joined in one argument, with the expression in the same argument or the next, up to the operands (after --, or from the first argument that is - or does not begin with -), which are passed on unchanged. Every command line is of this form or has an option that is not known or lacks its argument. The first of -h, -v and a bad option ends everything before anything is run, with status 0 for -h and -v and another for a bad option. Otherwise the program runs without defaults exactly if there is a -b, with the expression of the last -e and the operands as ARGV; the status is 254 if there is a -d and the slab has cells left, else 255 if the result is NIL, else 0.", "quantifier": "all lists of arguments; all environments, evaluators and files", "why_tests_cant": "There are infinitely many ways to join, repeat and order options and operands, and operands that look like options.", "anchors": ["bin/mnml.c:237-243", "bin/mnml.c:251-282", "bin/mnml.c:387", "bin/mnml.c:400-406"]}
{"id": "C89", "title": "The references of a call in continuation-passing style are counted correctly", "statement": "(cps:getrefs A K T W) gives the table T with the count of every symbol increased by the number of times that it is an argument of the call W (or its function, if that is among the arguments A of the converted function); the continuation K is entered but not counted. A table with one entry for each symbol stays one.", "quantifier": "all calls W, lists A, continuations K and tables of counts T that cannot overflow; W without tail call marks, and its counted arguments either not shaped like a function or a list without the symbol params", "why_tests_cant": "Calls and tables are unbounded; the count goes through four library functions and two closures, which share variable names.", "anchors": ["share/mnml/cps.l:113-126"]}
{"id": "C90", "title": "The references of a converted function are counted at every depth", "statement": "(cps:refcount F) of a function F in continuation-passing style gives a table with each symbol mentioned by a call within F once, and the number of its references: in each call the arguments (and the function, if it is an argument of F) other than the current continuation, which is the last argument of F, or within a continuation (\\ (p) b) its argument p. Both branches of a conditional are counted. Whatever >& makes of a function is such a term.", "quantifier": "all terms built from calls, calls with a continuation and conditionals with one or two branches (arguments without tail call marks, without NIL and without the symbol params), in particular the conversions of all expressions of C82", "why_tests_cant": "Terms nest without bound; the functions recurse through each other, a fold with a closure and a match whose clauses are computed while the file is read.", "anchors": ["share/mnml/cps.l:128-132", "share/mnml/cps.l:134-139", "share/mnml/cps.l:141-157", "share/mnml/cps.l:159-163", "share/mnml/cps.l:99-106"]}
{"id": "C91", "title": "Types are added to the entry of their symbol and to no other", "statement": "(cps:type:mark K T L) puts the type T in front of what the table L has for the symbol K, makes an entry if there is none, changes nothing that is found for any other key, leaves L as it is if K is not a symbol, and keeps tables with one entry for each key so. (cps:replace V W) is the list W with V in the place of its last element, or W itself if V is NIL.", "quantifier": "all keys, types and tables without tail call marks and without empty entries (and whose entry for K is not a function); all nonempty lists W and values V", "why_tests_cant": "Tables, keys and lists are unbounded, and the claim is about every key that is not added to.", "anchors": ["share/mnml/cps.l:169-173", "share/mnml/cps.l:185-192"]}
{"id": "C92", "title": "The types found for a symbol are one type or an error", "statement": "(cps:type:fold1 L) of a list of types, the newest first, is T exactly if L is one or more T followed by any number of UNDEF; NIL if L is empty; ERROR otherwise. (cps:type:fold A) keeps the entries of A and their order and gives each symbol that one type. (cps:type:get K A) is NUMBER for numbers, STRING for strings, for symbols the one type that A has for them (ATOM if it has none), and ATOM for everything else.", "quantifier": "all lists of symbols as types, all tables of such lists (keys without tail call marks for cps:type:get), all keys", "why_tests_cant": "Lists of types are unbounded, and the error must be found wherever the types disagree.", "anchors": ["share/mnml/cps.l:359-366", "share/mnml/cps.l:368-373", "share/mnml/cps.l:175-183"]}
{"id": "C93", "title": "The type of what a function gives is collected from all its branches", "statement": "(cps:type:findl K F L), for a term F in continuation-passing style and a table L of types, adds to the types of K, in the order of the branches, the types of what F gives in calls with one argument, and ATOM for each missing branch of a conditional, provided that K itself is not given; the types of all other keys remain as they are. The types are those that L has: NUMBER, STRING, the one type of a symbol, or ATOM.", "quantifier": "all terms in continuation-passing style (two-branch conditionals with if), all symbols K, all tables of types whose keys have no tail call marks, all environments and states where the library is loaded", "why_tests_cant": "Terms nest without bound, and each branch must be followed with the table that the previous one has left.", "anchors": ["share/mnml/cps.l:375-412"]}
