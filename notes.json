{
 "C15": {
  "status": "partial",
  "note": "False as stated: insertion case 2 rotates the wrong node, so alternating insertions give a tree of height n (C15_degenerate_counterexample, for every n) and red-red edges. Proved part: insertions that never meet case 2 (straight growth, e.g. sorted input) keep the red-black invariant."
 },
 "C16": {
  "status": "partial",
  "note": "False as stated: machine-checked refutations (crash, absent key empties the table, red root afterwards breaks the next insertion, answer below the root loses entries). Proved for all tables: whenever the removal of a present key ends, the memory holds a valid search tree with exactly the other entries, of which the answer is a node (C16_entries_partial, by an invariant of the whole repair loop); if the answer is black and without parent it is the table without the key (C16_remove_partial); the removal ends and is correct, and keeps the balance, if the node taken out is red (C16_red_partial). lisp_tree_rem is only called by tests."
 },
 "C20": {
  "note": "Native functions: proved in full. Lisp functions: proved when the residual call does not meet a name already captured; refuted otherwise, and for self tail calls."
 },
 "C23": {
  "note": "False as stated for tail calls marked inside multi-expression when/unless, aliases, and parameters named like the function (counterexamples); the unfolding law is proved for the other programs."
 },
 "C24": {
  "note": "False for multi-expression when/unless and for |> (counterexamples); proved for the positions the analysis handles soundly."
 },
 "C25": {
  "note": "A later binding whose pattern re-binds an earlier name and a binding whose value is a native function break the law (counterexamples); the sequential law is proved outside these."
 },
 "C26": {
  "note": "Selection is proved for all programs. Side finding: the subject of match is evaluated under the environment of the native, so a variable called ANY is captured (C26_match_counterexample)."
 },
 "C32": {
  "note": "C32_backslash_counterexample shows the side condition of the statement is needed."
 },
 "C35": {
  "note": "NIL inside the list drops the text assembled so far (counterexample); proved for lists without NIL."
 },
 "C41": {
  "note": "setq: proved except that a NIL value leaves the variable unchanged (counterexample). <-: global, unbound and local names proved; the local case is a statement about memory cells (PropHeapSet)."
 },
 "C42": {
  "note": "Definition, docstring and call laws proved for all names, arguments and non-empty bodies; C42_def_call joins them for bodies that do not mention F (recursion: C23). An empty body (or docstring only) is undefined behaviour (C42_empty_body_counterexample).",
  "status": "partial"
 },
 "C43": {
  "note": "Proved for the names bound at creation; other free names are looked up dynamically (C43_dynamic_counterexample)."
 },
 "C03": {
  "note": "All sequences of ownership-respecting calls of the makers, cons, car, cdr, dup, conc, append, dup+merge, UP and X; the environment update lisp_sss is covered through lisp_merge on a copy, its only use."
 },
 "C04": {
  "note": "No access to a released cell for all programs, environments and memories, except for the subject of match (match.c:68) and for the argument of <- and let (set.c:14, let.c:46) when they are called through a closure that the program has built by hand. In these cases the model reports a distinct outcome, which does occur (three counterexamples), so the full statement is false. Ordinary calls of <- and let never report it (C04_own)."
 },
 "C05": {
  "status": "partial",
  "note": "False as stated for cycles (conc of a list with itself; a function assigned with <- to a local variable of the environment it captures), for <- and for def of a non-symbol: counterexamples. Proved: every cell left after the result is dropped is reachable from the globals or an abandoned reference, if the memory has no cycle; for the programs that strict mode accepts (C61) it never has one (C05_accepted), and if they abandon no reference the full statement holds (C05_clean)."
 },
 "C36": {
  "note": "Proved for the text (lexer and parser on the whole text). Through the channel the reader cuts lines at 1023 bytes and tokens with them: proved for texts that fit, refuted otherwise (C36_read_counterexample)."
 },
 "C37": {
  "note": "Separators between tokens; inside string literals they are text (C37_string_counterexample)."
 },
 "C46": {
  "note": "A last line without newline is lost and backslashes are processed (counterexamples); proved for the other contents."
 },
 "C48": {
  "note": "Exclusivity proved for all histories. The size claim is false, the cache ignores the requested size (C48_size_counterexample); proved when no earlier request was smaller."
 },
 "C45": {
  "note": "C45_file: order for every file; C45_stack/in/out/load: restoration for every program of the channel language (module Chan). Failing file opens included; errors inside of the reader (syntax errors) are not modelled."
 },
 "C49": {
  "note": "Proved on the evaluator for the function values that evaluating the definitions stores (Lib.lean; LibText.lean checks that the reader makes those definitions from the file text). The names used must have their standard values (Uses)."
 },
 "C50": {
  "note": "`last` of manips.l stops at a NIL element (counterexample) and is proved for the other lists; everything else in full.",
  "status": "partial"
 },
 "C51": {
  "note": "Entries must not be raw tail call records (values with an internal mark)."
 },
 "C54": {
  "note": "The property is false; what is proved is the refutation for every argument: the predicate is never NIL and the three functions do not terminate.",
  "status": "proved"
 },
 "C52": {
  "note": "Stated for numbers from 0 to 2^63-1 and for callers without a variable named descend. The counterexamples show that each of these conditions is needed."
 },
 "C53": {
  "note": "The comparison must not change the state. The caller must not have a variable named ins; a counterexample shows that the condition is needed."
 },
 "C55": {
  "note": "realpath, getenv and the library directory are parameters of the system."
 },
 "C56": {
  "note": "opendir and the slack of alloca are parameters of the system; the positive theorems assume that the block has one spare byte."
 },
 "C57": {
  "note": "A library is its name and its table of entries; entries with effects at load time are not modelled."
 },
 "C58": {
  "note": "load is modelled as a call at the top level of a script or of the command line, not inside other expressions. Texts with a backquote are outside the model."
 },
 "C59": {
  "note": "The prompt, the signals and the options -d, -h, -v are not modelled."
 },
 "C60": {
  "note": "For a build without the compiled module `iterators`, which only isort.l asks for. The system calls (realpath, fopen, opendir, dlopen) are parameters; Installed says what they must return."
 },
 "C61": {
  "note": "Strict mode refuses conc on a list whose last cell may be shared, the assignment of local variables, copies of flagged cells, and the marking of tail calls in code that something else may refer to. The marks that a top-level def sets in its own body are covered (RefineIso, RefineTree, RefineMark)."
 },
 "C62": {
  "note": "For values whose text is described by C34 (numbers in range) and C35 (no NIL inside a list)."
 },
 "C63": {
  "note": ""
 },
 "C64": {
  "note": "connect: for runs that end; C65 says for which strings it does. close counts as giving up the descriptor whatever it returns."
 },
 "C65": {
  "note": "False as stated: C65_*_counterexample. Proved: exec for all strings within its arrays; unlink and connect below the size of their buffers."
 },
 "C66": {
  "note": "False as stated: C66_*_counterexample. Proved for lists of descriptors from 0 to 1023 that reach the functions; the exact result for callbacks without calls of their own, and that no descriptor is forgotten for all callbacks."
 },
 "C67": {
  "status": "partial",
  "note": "False for fork, dup and wait (C67_*_counterexample); proved for listen and connect. accept and pipe: C64, unlink: C65, close: C68."
 },
 "C68": {
  "note": "False for port 65535 (C68_port_counterexample); close and the calls of a successful listen (C68_listen) are proved in full."
 },
 "C69": {
  "note": ""
 },
 "C70": {
  "note": "Signals and the recovery from syntax errors are not modelled."
 },
 "C71": {
  "status": "partial",
  "note": "Proved for prefixes before names, numbers from 0 on and lists (tilde: lists only); false for the others (C71_counterexample). Effects of evaluation while reading are not modelled."
 },
 "C72": {
  "status": "proved",
  "note": "On the tree level (C61 says when the cell level agrees). append with variables of the caller that clash with its own: C72_append_counterexample; iter2.l does not load let: C72_loaded_counterexample."
 },
 "C73": {
  "status": "proved",
  "note": "What happens after a lexical error is not modelled (outcome stuck)."
 },
 "C74": {
  "status": "proved",
  "note": "Depth is the nesting of lisp_eval; the recursion of lisp_eval_args and lisp_prog along the text of the program and of lisp_equ, lisp_prin on data is not counted."
 },
 "C75": {
  "status": "proved",
  "note": "The other run is capped (no address twice, bounded memory), which is the run of the other claims unless it is refused a cell (C75_capped). The cells of the nodes of the global table are not part of the cell model, so the bound of 2097152 counts values only."
 },
 "C76": {
  "status": "proved",
  "note": "The error handling of Lemon (skip a token that does not fit; drop the stack at the end of input) and its unwillingness to reduce the start symbol early are taken from its template, which is not in the repository. What the lexer does after a lexical error is not modelled."
 },
 "C77": {
  "status": "proved",
  "note": "slabinfo is called at the end of a session; it is not among the natives that a session can call. The nodes of the global table are not counted in the model."
 },
 "C78": {
  "status": "proved",
  "note": "On the tree level. args:parse_r and args:parse: C80. The width less the length of the text must be a 64-bit number."
 },
 "C79": {
  "status": "proved",
  "note": "On the tree level. The expression and its value must not have the form of a function (let would mark tail calls in it). Variables of the caller named as those of the assertion: C79_capture_counterexample. test.l is not loaded as a file in the model since slabinfo is not among the natives of the evaluator."
 },
 "C80": {
  "status": "proved",
  "note": "On the tree level. A handler must not call a function named fun (let would mark it as a tail call of the handler) and must keep the used definitions. C80_mnmlc covers command lines without -s and -h, whose handlers use split and usage. A result of NIL does not tell an error from an empty command line."
 },
 "C81": {
  "status": "proved",
  "note": "On the tree level. The tests must yield a value and keep the used definitions (Runs, Runnable). The list TST of -t is a hypothesis, since split builds it by changing cells in place. Equal names are covered: the first test of that name is run for each of them, so the second one never is (C81_same_name_counterexample); with distinct names each test is its own (C81_distinct)."
 },
 "C82": {
  "status": "proved",
  "note": "On the tree level, from the text of cps.l lines 1-106 (cps_text). Atoms are everything but lists; NIL and strings are lists for cps.l. The clauses made by the expression after the tilde are proved to be those of the file (C82_clauses)."
 },
 "C83": {
  "status": "partial",
  "note": "False as stated: a placeholder is left unbound where a conditional with calls as branches stands to the right of another call (C83_crossed_counterexample), a conditional without else branch skips the rest of the expression it is in (C83_escape_counterexample), and NIL and strings are taken for calls (C83_literal_counterexample). Proved for all programs of atoms, calls and conditionals without these (Ex.Ok, Ex.Src, Ex.Aligned, Ex.TotalArgs) with fewer than 10^15 placeholders, for every lawful monad. The order of evaluation of the meaning is from the left to the right. Other special forms count as calls, as they do for cps:lift."
 },
 "C84": {
  "status": "proved",
  "note": "On the cell level, relative to an evaluator given by its specification (EvSpecU, BlindU), met by the evaluator of HeapEval (evU_spec, evU_blind), which itself reports staleArg for the cases of C04. dup reads its argument again after user code; with a closure made for the call (C04_own) a released argument would be useAfterFree (C84_dup), which is excluded. With a binding shared by hand it does happen (C84_dup_counterexample), which is outside the statement. exec abandons its strings; it ends the process."
 },
 "C85": {
  "status": "partial",
  "note": "False as stated: select walks a list that it does not own, and a callback that shares the binding of the list can release it (C85_select_counterexample, outcome staleArg). Proved (C85_select_partial): no other released cell is accessed and the counts are exact, if nothing else refers to the closure, for all evaluators that keep the counts and use only what they are given."
 },
 "C86": {
  "status": "proved",
  "note": "The hypothesis is that the cell model comes to an end in strict mode, which refuses programs that change a value shared with something else (see C61); C86_native and C86_exec also show that the run without strict mode is the same. C86_argument, C86_connect and C86_execArgs give the arguments of the native. close, dup, time and select, which evaluate, are not covered: the tree model of these has an evaluator without a state."
 },
 "C87": {
  "status": "proved",
  "note": "On a machine with the least significant byte first; _mm_xor_si128 and _mm_test_all_zeros as documented, strncpy as in ISO C with reads and writes outside of the memory as undefined (C87_reads says exactly when). C87_match and C87_make, C87_makeN connect this to symMatch and Sym.ofBytes, which all other modules use."
 },
 "C88": {
  "status": "proved",
  "note": "getopt is modelled as glibc has it with + in front of the options (bin/mnml.c:238, Linux only). Whether cells are left in the slab is an arbitrary function of the final state here. C88_run is about runs in which main of Module ends; it says nothing if main does not."
 },
 "C89": {
  "status": "proved",
  "note": "On the value that the reader makes of the text (getrefs_text). The recursion over nested continuations (cps:refcount_r) is not covered."
 },
 "C90": {
  "status": "partial",
  "note": "False as stated: a continuation that is called directly (which is what >& makes of a conditional argument with an atom as branch) is not looked into (C90_head_counterexample), and a NIL argument hides the continuation (C90_nil_counterexample, from last of manips.l, C50). Proved for terms without NIL arguments, which include all conversions (C90_converted_partial), where a continuation in function position counts for nothing; on the values that the reader makes of the text (refcount_text), including the clauses after the tilde (C90_clauses)."
 },
 "C91": {
  "status": "proved",
  "note": "C91_mark gives the table found afterwards for every key j, with Types and Distinct preserved. C91_replace is for nonempty lists. That the entry of K is not a function (a list of parameters, an environment and a body) is a hypothesis because let binds functions with a mark."
 },
 "C92": {
  "status": "proved",
  "note": "C92_fold1, C92_fold and C92_get, with IsType as the specification: it mentions neither the fold nor its step. An UNDEF that is newer than a known type is an error, see the example."
 },
 "C93": {
  "status": "proved",
  "note": "C93_findl with Tm.gives and Gets as the specification, by induction on the term; C93_clauses shows that the expression after the tilde, evaluated by the reader, has the clauses assumed in findlSrc. The terms are those of C90 (Tm.Ok). Any call with one argument counts, whatever its function; calls that pass the last continuation on add nothing."
 }
}