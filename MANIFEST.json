{
 "claims": [
  {
   "property": "C01",
   "status": "proved",
   "theorems": [
    "Mnml.Slab.C01_alloc_fresh",
    "Mnml.Slab.C01_held_distinct",
    "Mnml.Slab.C01_free_isolated"
   ],
   "note": ""
  },
  {
   "property": "C02",
   "status": "proved",
   "theorems": [
    "Mnml.Slab.C02_accounting",
    "Mnml.Slab.C02_abort_iff_full",
    "Mnml.Slab.C02_reuse"
   ],
   "note": ""
  },
  {
   "property": "C03",
   "status": "proved",
   "theorems": [
    "Mnml.Heap.C03_call",
    "Mnml.Heap.C03_calls",
    "Mnml.Heap.C03_from_empty",
    "Mnml.Heap.C03_no_use_after_free",
    "Mnml.Heap.C03_drop"
   ],
   "note": "All sequences of ownership-respecting calls of the makers, cons, car, cdr, dup, conc, append, dup+merge, UP and X; the environment update lisp_sss is covered through lisp_merge on a copy, its only use."
  },
  {
   "property": "C04",
   "status": "partial",
   "theorems": [
    "Mnml.Heap.C04_set_counterexample",
    "Mnml.Heap.C04_let_counterexample",
    "Mnml.Heap.C04_eval_partial",
    "Mnml.Heap.C04_session_partial",
    "Mnml.Heap.C04_drop_partial",
    "Mnml.Heap.C04_match_counterexample",
    "Mnml.Heap.C04_own"
   ],
   "note": "No access to a released cell for all programs, environments and memories, except for the subject of match (match.c:68) and for the argument of <- and let (set.c:14, let.c:46) when they are called through a closure that the program has built by hand. In these cases the model reports a distinct outcome, which does occur (three counterexamples), so the full statement is false. Ordinary calls of <- and let never report it (C04_own)."
  },
  {
   "property": "C05",
   "status": "partial",
   "theorems": [
    "Mnml.Heap.C05_session_partial",
    "Mnml.Heap.C05_eval_partial",
    "Mnml.Heap.C05_set_counterexample",
    "Mnml.Heap.C05_def_counterexample",
    "Mnml.Heap.C05_cycle_counterexample",
    "Mnml.Heap.C05_closure_counterexample",
    "Mnml.Heap.C05_accepted",
    "Mnml.Heap.C05_clean"
   ],
   "note": "False as stated for cycles (conc of a list with itself; a function assigned with <- to a local variable of the environment it captures), for <- and for def of a non-symbol: counterexamples. Proved: every cell left after the result is dropped is reachable from the globals or an abandoned reference, if the memory has no cycle; for the programs that strict mode accepts (C61) it never has one (C05_accepted), and if they abandon no reference the full statement holds (C05_clean)."
  },
  {
   "property": "C06",
   "status": "proved",
   "theorems": [
    "Mnml.C06_equ_iff",
    "Mnml.C06_refl",
    "Mnml.C06_symm",
    "Mnml.C06_trans",
    "Mnml.C06_cons",
    "Mnml.C06_unflagged"
   ],
   "note": ""
  },
  {
   "property": "C07",
   "status": "proved",
   "theorems": [
    "Mnml.C07_neq"
   ],
   "note": ""
  },
  {
   "property": "C08",
   "status": "proved",
   "theorems": [
    "Mnml.C08_symbol_identity",
    "Mnml.C08_trichotomy",
    "Mnml.C08_trans"
   ],
   "note": ""
  },
  {
   "property": "C09",
   "status": "proved",
   "theorems": [
    "Mnml.C09_match_iff",
    "Mnml.C09_match_exact"
   ],
   "note": ""
  },
  {
   "property": "C10",
   "status": "proved",
   "theorems": [
    "Mnml.C10_update",
    "Mnml.C10_merge",
    "Mnml.C10_lookup",
    "Mnml.C10_no_duplicates"
   ],
   "note": ""
  },
  {
   "property": "C11",
   "status": "proved",
   "theorems": [
    "Mnml.C11_lookup",
    "Mnml.C11_shadow"
   ],
   "note": ""
  },
  {
   "property": "C12",
   "status": "proved",
   "theorems": [
    "Mnml.Tree.C12_memo_transparent"
   ],
   "note": ""
  },
  {
   "property": "C13",
   "status": "proved",
   "theorems": [
    "Mnml.Tree.C13_table_is_map",
    "Mnml.Tree.C13_last_write",
    "Mnml.Tree.C13_never_stored"
   ],
   "note": ""
  },
  {
   "property": "C14",
   "status": "proved",
   "theorems": [
    "Mnml.Tree.C14_search_tree"
   ],
   "note": ""
  },
  {
   "property": "C15",
   "status": "partial",
   "theorems": [
    "Mnml.Tree.C15_sorted_partial",
    "Mnml.Tree.C15_straight_partial",
    "Mnml.Tree.C15_degenerate_counterexample",
    "Mnml.Tree.C15_red_red_counterexample"
   ],
   "note": "False as stated: insertion case 2 rotates the wrong node, so alternating insertions give a tree of height n (C15_degenerate_counterexample, for every n) and red-red edges. Proved part: insertions that never meet case 2 (straight growth, e.g. sorted input) keep the red-black invariant."
  },
  {
   "property": "C16",
   "status": "partial",
   "theorems": [
    "Mnml.Tree.C16_crash_counterexample",
    "Mnml.Tree.C16_absent_counterexample",
    "Mnml.Tree.C16_red_root_counterexample",
    "Mnml.Tree.C16_lost_counterexample",
    "Mnml.Tree.C16_entries_partial",
    "Mnml.Tree.C16_remove_partial",
    "Mnml.Tree.C16_red_partial"
   ],
   "note": "False as stated: machine-checked refutations (crash, absent key empties the table, red root afterwards breaks the next insertion, answer below the root loses entries). Proved for all tables: whenever the removal of a present key ends, the memory holds a valid search tree with exactly the other entries, of which the answer is a node (C16_entries_partial, by an invariant of the whole repair loop); if the answer is black and without parent it is the table without the key (C16_remove_partial); the removal ends and is correct, and keeps the balance, if the node taken out is red (C16_red_partial). lisp_tree_rem is only called by tests."
  },
  {
   "property": "C17",
   "status": "proved",
   "theorems": [
    "Mnml.Tree.C17_in_order",
    "Mnml.Tree.C17_successor"
   ],
   "note": ""
  },
  {
   "property": "C18",
   "status": "proved",
   "theorems": [
    "Mnml.C18_atoms",
    "Mnml.C18_deterministic"
   ],
   "note": ""
  },
  {
   "property": "C19",
   "status": "proved",
   "theorems": [
    "Mnml.C19_over_application",
    "Mnml.C19_head_expression"
   ],
   "note": ""
  },
  {
   "property": "C20",
   "status": "partial",
   "theorems": [
    "Mnml.C20_native",
    "Mnml.C20_lisp_partial",
    "Mnml.C20_captured_counterexample",
    "Mnml.C20_tail_counterexample"
   ],
   "note": "Native functions: proved in full. Lisp functions: proved when the residual call does not meet a name already captured; refuted otherwise, and for self tail calls."
  },
  {
   "property": "C21",
   "status": "proved",
   "theorems": [
    "Mnml.C21_positional",
    "Mnml.C21_fewer",
    "Mnml.C21_catch_all",
    "Mnml.C21_call"
   ],
   "note": ""
  },
  {
   "property": "C22",
   "status": "proved",
   "theorems": [
    "Mnml.C22_bind",
    "Mnml.C22_lookup"
   ],
   "note": ""
  },
  {
   "property": "C23",
   "status": "partial",
   "theorems": [
    "Mnml.C23_unfold_partial",
    "Mnml.C23_loop",
    "Mnml.C23_when_counterexample",
    "Mnml.C23_alias_counterexample",
    "Mnml.C23_parameter_counterexample"
   ],
   "note": "False as stated for tail calls marked inside multi-expression when/unless, aliases, and parameters named like the function (counterexamples); the unfolding law is proved for the other programs."
  },
  {
   "property": "C24",
   "status": "partial",
   "theorems": [
    "Mnml.C24_marked_partial",
    "Mnml.C24_only_flags",
    "Mnml.C24_complete",
    "Mnml.C24_value",
    "Mnml.C24_when_counterexample",
    "Mnml.C24_stream_counterexample"
   ],
   "note": "False for multi-expression when/unless and for |> (counterexamples); proved for the positions the analysis handles soundly."
  },
  {
   "property": "C25",
   "status": "partial",
   "theorems": [
    "Mnml.C25_single",
    "Mnml.C25_value",
    "Mnml.C25_bound",
    "Mnml.C25_sequential_partial",
    "Mnml.C25_rebind_counterexample",
    "Mnml.C25_native_counterexample",
    "Mnml.C25_local"
   ],
   "note": "A later binding whose pattern re-binds an earlier name and a binding whose value is a native function break the law (counterexamples); the sequential law is proved outside these."
  },
  {
   "property": "C26",
   "status": "proved",
   "theorems": [
    "Mnml.C26_if",
    "Mnml.C26_if_then",
    "Mnml.C26_when",
    "Mnml.C26_unless",
    "Mnml.C26_cond_select",
    "Mnml.C26_cond_none",
    "Mnml.C26_match",
    "Mnml.C26_match_counterexample"
   ],
   "note": "Selection is proved for all programs. Side finding: the subject of match is evaluated under the environment of the native, so a variable called ANY is captured (C26_match_counterexample)."
  },
  {
   "property": "C27",
   "status": "proved",
   "theorems": [
    "Mnml.C27_prog",
    "Mnml.C27_split",
    "Mnml.C27_prog_split"
   ],
   "note": ""
  },
  {
   "property": "C28",
   "status": "proved",
   "theorems": [
    "Mnml.C28_and",
    "Mnml.C28_or",
    "Mnml.C28_not"
   ],
   "note": ""
  },
  {
   "property": "C29",
   "status": "proved",
   "theorems": [
    "Mnml.C29_add_sub_mul",
    "Mnml.C29_div_mod",
    "Mnml.C29_div_mod_undefined",
    "Mnml.C29_operands"
   ],
   "note": ""
  },
  {
   "property": "C30",
   "status": "proved",
   "theorems": [
    "Mnml.C30_compare",
    "Mnml.C30_trichotomy"
   ],
   "note": ""
  },
  {
   "property": "C31",
   "status": "proved",
   "theorems": [
    "Mnml.C31_makeString",
    "Mnml.C31_plain"
   ],
   "note": ""
  },
  {
   "property": "C32",
   "status": "proved",
   "theorems": [
    "Mnml.C32_str_sym",
    "Mnml.C32_sym_str",
    "Mnml.C32_backslash_counterexample",
    "Mnml.C32_chr"
   ],
   "note": "C32_backslash_counterexample shows the side condition of the statement is needed."
  },
  {
   "property": "C33",
   "status": "proved",
   "theorems": [
    "Mnml.C33_exact",
    "Mnml.C33_fits",
    "Mnml.C33_overflow"
   ],
   "note": ""
  },
  {
   "property": "C34",
   "status": "proved",
   "theorems": [
    "Mnml.C34_print"
   ],
   "note": ""
  },
  {
   "property": "C35",
   "status": "partial",
   "theorems": [
    "Mnml.C35_concat_partial",
    "Mnml.C35_nil_counterexample"
   ],
   "note": "NIL inside the list drops the text assembled so far (counterexample); proved for lists without NIL."
  },
  {
   "property": "C36",
   "status": "partial",
   "theorems": [
    "Mnml.Lex.C36_read_partial",
    "Mnml.Lex.C36_read_counterexample",
    "Mnml.Lex.C36_roundtrip",
    "Mnml.Lex.C36_equal",
    "Mnml.Lex.C36_counterexample"
   ],
   "note": "Proved for the text (lexer and parser on the whole text). Through the channel the reader cuts lines at 1023 bytes and tokens with them: proved for texts that fit, refuted otherwise (C36_read_counterexample)."
  },
  {
   "property": "C37",
   "status": "proved",
   "theorems": [
    "Mnml.Lex.C37_layout",
    "Mnml.Lex.C37_insensitive",
    "Mnml.Lex.C37_newline",
    "Mnml.Lex.C37_string_counterexample"
   ],
   "note": "Separators between tokens; inside string literals they are text (C37_string_counterexample)."
  },
  {
   "property": "C38",
   "status": "proved",
   "theorems": [
    "Mnml.C38_quote",
    "Mnml.C38_quote_standard"
   ],
   "note": ""
  },
  {
   "property": "C39",
   "status": "proved",
   "theorems": [
    "Mnml.C39_car_cons",
    "Mnml.C39_cdr_cons",
    "Mnml.C39_car_cdr_atom",
    "Mnml.C39_list",
    "Mnml.C39_len",
    "Mnml.C39_len_atom",
    "Mnml.C39_conc"
   ],
   "note": ""
  },
  {
   "property": "C40",
   "status": "proved",
   "theorems": [
    "Mnml.C40_predicates",
    "Mnml.C40_partition",
    "Mnml.C40_atom_list",
    "Mnml.C40_string"
   ],
   "note": ""
  },
  {
   "property": "C41",
   "status": "partial",
   "theorems": [
    "Mnml.C41_setq_partial",
    "Mnml.C41_setq_nil_counterexample",
    "Mnml.C41_assign_global_partial",
    "Mnml.C41_assign_unbound_partial",
    "Mnml.Heap.C41_assign_local"
   ],
   "note": "setq: proved except that a NIL value leaves the variable unchanged (counterexample). <-: global, unbound and local names proved; the local case is a statement about memory cells (PropHeapSet)."
  },
  {
   "property": "C42",
   "status": "partial",
   "theorems": [
    "Mnml.C42_def",
    "Mnml.C42_docstring",
    "Mnml.C42_empty_body_counterexample",
    "Mnml.C42_call",
    "Mnml.C42_def_call"
   ],
   "note": "Definition, docstring and call laws proved for all names, arguments and non-empty bodies; C42_def_call joins them for bodies that do not mention F (recursion: C23). An empty body (or docstring only) is undefined behaviour (C42_empty_body_counterexample)."
  },
  {
   "property": "C43",
   "status": "proved",
   "theorems": [
    "Mnml.C43_lambda",
    "Mnml.C43_capture",
    "Mnml.C43_dynamic_counterexample"
   ],
   "note": "Proved for the names bound at creation; other free names are looked up dynamically (C43_dynamic_counterexample)."
  },
  {
   "property": "C44",
   "status": "proved",
   "theorems": [
    "Mnml.C44_stream",
    "Mnml.C44_compose"
   ],
   "note": ""
  },
  {
   "property": "C45",
   "status": "proved",
   "theorems": [
    "Mnml.Lex.C45_fifo",
    "Mnml.Lex.C45_refill",
    "Mnml.Lex.C45_file",
    "Mnml.Lex.C45_order",
    "Mnml.Lex.C45_stack",
    "Mnml.Lex.C45_in",
    "Mnml.Lex.C45_load",
    "Mnml.Lex.C45_out"
   ],
   "note": "C45_file: order for every file; C45_stack/in/out/load: restoration for every program of the channel language (module Chan). Failing file opens included; errors inside of the reader (syntax errors) are not modelled."
  },
  {
   "property": "C46",
   "status": "partial",
   "theorems": [
    "Mnml.Lex.C46_lines_partial",
    "Mnml.Lex.C46_last_line_counterexample",
    "Mnml.Lex.C46_backslash_counterexample"
   ],
   "note": "A last line without newline is lost and backslashes are processed (counterexamples); proved for the other contents."
  },
  {
   "property": "C47",
   "status": "proved",
   "theorems": [
    "Mnml.Path.C47_scan",
    "Mnml.Path.C47_segments"
   ],
   "note": ""
  },
  {
   "property": "C48",
   "status": "partial",
   "theorems": [
    "Mnml.Frame.C48_exclusive",
    "Mnml.Frame.C48_in_use",
    "Mnml.Frame.C48_no_use_after_free",
    "Mnml.Frame.C48_size_partial",
    "Mnml.Frame.C48_size_counterexample"
   ],
   "note": "Exclusivity proved for all histories. The size claim is false, the cache ignores the requested size (C48_size_counterexample); proved when no earlier request was smaller."
  },
  {
   "property": "C49",
   "status": "proved",
   "theorems": [
    "Mnml.Lib.C49_foldl",
    "Mnml.Lib.C49_foldr",
    "Mnml.Lib.C49_map",
    "Mnml.Lib.C49_map2",
    "Mnml.Lib.C49_zip"
   ],
   "note": "Proved on the evaluator for the function values that evaluating the definitions stores (Lib.lean; LibText.lean checks that the reader makes those definitions from the file text). The names used must have their standard values (Uses)."
  },
  {
   "property": "C50",
   "status": "partial",
   "theorems": [
    "Mnml.Lib.C50_rev",
    "Mnml.Lib.C50_filter_run",
    "Mnml.Lib.C50_filter",
    "Mnml.Lib.C50_has",
    "Mnml.Lib.C50_last",
    "Mnml.Lib.C50_last_manips_partial",
    "Mnml.Lib.C50_last_manips_counterexample",
    "Mnml.Lib.C50_rep",
    "Mnml.Lib.C50_truncl",
    "Mnml.Lib.C50_truncl_take"
   ],
   "note": "`last` of manips.l stops at a NIL element (counterexample) and is proved for the other lists; everything else in full."
  },
  {
   "property": "C51",
   "status": "proved",
   "theorems": [
    "Mnml.Lib.C51_assoc",
    "Mnml.Lib.C51_erase",
    "Mnml.Lib.C51_replc",
    "Mnml.Lib.C51_assoc_erase",
    "Mnml.Lib.C51_assoc_replc"
   ],
   "note": "Entries must not be raw tail call records (values with an internal mark)."
  },
  {
   "property": "C52",
   "status": "proved",
   "theorems": [
    "Mnml.Lib.C52_aton",
    "Mnml.Lib.C52_ntoa",
    "Mnml.Lib.C52_roundtrip",
    "Mnml.Lib.C52_negative_counterexample",
    "Mnml.Lib.C52_overflow_counterexample",
    "Mnml.Lib.C52_scope_counterexample"
   ],
   "note": "Stated for numbers from 0 to 2^63-1 and for callers without a variable named descend. The counterexamples show that each of these conditions is needed."
  },
  {
   "property": "C53",
   "status": "proved",
   "theorems": [
    "Mnml.Lib.C53_strlt",
    "Mnml.Lib.C53_isort",
    "Mnml.Lib.C53_isort_numbers",
    "Mnml.Lib.C53_isort_strings",
    "Mnml.Lib.C53_scope_counterexample"
   ],
   "note": "The comparison must not change the state. The caller must not have a variable named ins; a counterexample shows that the condition is needed."
  },
  {
   "property": "C54",
   "status": "proved",
   "theorems": [
    "Mnml.Lib.C54_whitespace_counterexample",
    "Mnml.Lib.C54_triml_counterexample",
    "Mnml.Lib.C54_trimr_counterexample",
    "Mnml.Lib.C54_trim_counterexample"
   ],
   "note": "The property is false; what is proved is the refutation for every argument: the predicate is never NIL and the three functions do not terminate."
  },
  {
   "property": "C55",
   "status": "proved",
   "theorems": [
    "Mnml.Module.C55_existing",
    "Mnml.Module.C55_new",
    "Mnml.Module.C55_missing",
    "Mnml.Module.C55_safe",
    "Mnml.Module.C55_command_counterexample",
    "Mnml.Module.C55_root_counterexample"
   ],
   "note": "realpath, getenv and the library directory are parameters of the system."
  },
  {
   "property": "C56",
   "status": "proved",
   "theorems": [
    "Mnml.Module.C56_first",
    "Mnml.Module.C56_none",
    "Mnml.Module.C56_path",
    "Mnml.Module.C56_overflow_counterexample"
   ],
   "note": "opendir and the slack of alloca are parameters of the system; the positive theorems assume that the block has one spare byte."
  },
  {
   "property": "C57",
   "status": "proved",
   "theorems": [
    "Mnml.Module.C57_list",
    "Mnml.Module.C57_all",
    "Mnml.Module.C57_nothing",
    "Mnml.Module.C57_absent",
    "Mnml.Module.C57_open",
    "Mnml.Module.C57_live",
    "Mnml.Module.C57_again"
   ],
   "note": "A library is its name and its table of entries; entries with effects at load time are not modelled."
  },
  {
   "property": "C58",
   "status": "proved",
   "theorems": [
    "Mnml.Module.C58_script",
    "Mnml.Module.C58_relative",
    "Mnml.Module.C58_library",
    "Mnml.Module.C58_missing",
    "Mnml.Module.C58_load",
    "Mnml.Module.C58_string",
    "Mnml.Module.C58_backslash_counterexample"
   ],
   "note": "load is modelled as a call at the top level of a script or of the command line, not inside other expressions. Texts with a backquote are outside the model."
  },
  {
   "property": "C59",
   "status": "proved",
   "theorems": [
    "Mnml.Module.C59_expr",
    "Mnml.Module.C59_file",
    "Mnml.Module.C59_start",
    "Mnml.Module.C59_bare",
    "Mnml.Module.C59_backslash_counterexample",
    "Mnml.Module.C59_nil_counterexample",
    "Mnml.Module.C59_incomplete_counterexample"
   ],
   "note": "The prompt, the signals and the options -d, -h, -v are not modelled."
  },
  {
   "property": "C60",
   "status": "proved",
   "theorems": [
    "Mnml.Lib.C60_load",
    "Mnml.Lib.C60_uses",
    "Mnml.Lib.C60_start",
    "Mnml.Lib.C60_expr",
    "Mnml.Lib.C60_script",
    "Mnml.Lib.C60_rev",
    "Mnml.Lib.C60_ntoa",
    "Mnml.Lib.C60_aton",
    "Mnml.Lib.C60_strlt",
    "Mnml.Lib.C60_isort",
    "Mnml.Lib.C60_isort_counterexample"
   ],
   "note": "For a build without the compiled module `iterators`, which only isort.l asks for. The system calls (realpath, fopen, opendir, dlopen) are parameters; Installed says what they must return."
  },
  {
   "property": "C61",
   "status": "proved",
   "theorems": [
    "Mnml.Heap.C61_session",
    "Mnml.Heap.C61_initial",
    "Mnml.Heap.C61_agree",
    "Mnml.Heap.C61_conc_counterexample",
    "Mnml.Heap.C61_mark_counterexample"
   ],
   "note": "Strict mode refuses conc on a list whose last cell may be shared, the assignment of local variables, copies of flagged cells, and the marking of tail calls in code that something else may refer to. The marks that a top-level def sets in its own body are covered (RefineIso, RefineTree, RefineMark)."
  },
  {
   "property": "C62",
   "status": "proved",
   "theorems": [
    "Mnml.C62_print",
    "Mnml.C62_prin",
    "Mnml.C62_printl",
    "Mnml.C62_prinl"
   ],
   "note": "For values whose text is described by C34 (numbers in range) and C35 (no NIL inside a list)."
  },
  {
   "property": "C63",
   "status": "proved",
   "theorems": [
    "Mnml.C63_while",
    "Mnml.C63_forever"
   ],
   "note": ""
  },
  {
   "property": "C64",
   "status": "proved",
   "theorems": [
    "Mnml.Unix.C64_listen",
    "Mnml.Unix.C64_connect",
    "Mnml.Unix.C64_accept",
    "Mnml.Unix.C64_pipe",
    "Mnml.Unix.C64_dup"
   ],
   "note": "connect: for runs that end; C65 says for which strings it does. close counts as giving up the descriptor whatever it returns."
  },
  {
   "property": "C65",
   "status": "partial",
   "theorems": [
    "Mnml.Unix.C65_exec",
    "Mnml.Unix.C65_exec_counterexample",
    "Mnml.Unix.C65_unlink_partial",
    "Mnml.Unix.C65_unlink_counterexample",
    "Mnml.Unix.C65_connect_partial",
    "Mnml.Unix.C65_connect_counterexample"
   ],
   "note": "False as stated: C65_*_counterexample. Proved: exec for all strings within its arrays; unlink and connect below the size of their buffers."
  },
  {
   "property": "C66",
   "status": "partial",
   "theorems": [
    "Mnml.Unix.C66_set_partial",
    "Mnml.Unix.C66_set_counterexample",
    "Mnml.Unix.C66_kept_partial",
    "Mnml.Unix.C66_result_partial",
    "Mnml.Unix.C66_select_partial",
    "Mnml.Unix.C66_watch_counterexample",
    "Mnml.Unix.C66_close_counterexample"
   ],
   "note": "False as stated: C66_*_counterexample. Proved for lists of descriptors from 0 to 1023 that reach the functions; the exact result for callbacks without calls of their own, and that no descriptor is forgotten for all callbacks."
  },
  {
   "property": "C67",
   "status": "partial",
   "theorems": [
    "Mnml.Unix.C67_listen_partial",
    "Mnml.Unix.C67_connect_partial",
    "Mnml.Unix.C67_fork_counterexample",
    "Mnml.Unix.C67_dup_counterexample",
    "Mnml.Unix.C67_wait_counterexample"
   ],
   "note": "False for fork, dup and wait (C67_*_counterexample); proved for listen and connect. accept and pipe: C64, unlink: C65, close: C68."
  },
  {
   "property": "C68",
   "status": "partial",
   "theorems": [
    "Mnml.Unix.C68_close",
    "Mnml.Unix.C68_port_partial",
    "Mnml.Unix.C68_listen",
    "Mnml.Unix.C68_port_counterexample"
   ],
   "note": "False for port 65535 (C68_port_counterexample); close and the calls of a successful listen (C68_listen) are proved in full."
  },
  {
   "property": "C69",
   "status": "proved",
   "theorems": [
    "Mnml.Unix.C69_wait",
    "Mnml.Unix.C69_time",
    "Mnml.Unix.C69_now"
   ],
   "note": ""
  },
  {
   "property": "C70",
   "status": "proved",
   "theorems": [
    "Mnml.Module.C70_entries",
    "Mnml.Module.C70_lines",
    "Mnml.Module.C70_values",
    "Mnml.Module.C70_status"
   ],
   "note": "Signals and the recovery from syntax errors are not modelled."
  },
  {
   "property": "C71",
   "status": "partial",
   "theorems": [
    "Mnml.Lex.C71_text",
    "Mnml.Lex.C71_expression",
    "Mnml.Lex.C71_file",
    "Mnml.Lex.C71_counterexample"
   ],
   "note": "Proved for prefixes before names, numbers from 0 on and lists (tilde: lists only); false for the others (C71_counterexample). Effects of evaluation while reading are not modelled."
  },
  {
   "property": "C72",
   "status": "proved",
   "theorems": [
    "Mnml.Lib.C72_orelse",
    "Mnml.Lib.C72_paths",
    "Mnml.Lib.C72_truncr",
    "Mnml.Lib.C72_iter",
    "Mnml.Lib.C72_iter2",
    "Mnml.Lib.C72_insert",
    "Mnml.Lib.C72_merge",
    "Mnml.Lib.C72_flatten",
    "Mnml.Lib.C72_append",
    "Mnml.Lib.C72_strcat",
    "Mnml.Lib.C72_append_counterexample",
    "Mnml.Lib.C72_join",
    "Mnml.Lib.C72_loaded",
    "Mnml.Lib.C72_loaded_truncr",
    "Mnml.Lib.C72_loaded_counterexample"
   ],
   "note": "On the tree level (C61 says when the cell level agrees). append with variables of the caller that clash with its own: C72_append_counterexample; iter2.l does not load let: C72_loaded_counterexample."
  },
  {
   "property": "C73",
   "status": "proved",
   "theorems": [
    "Mnml.Lex.C73_words",
    "Mnml.Lex.C73_scan",
    "Mnml.Lex.C73_unique",
    "Mnml.Lex.C73_done",
    "Mnml.Lex.C73_long_name"
   ],
   "note": "What happens after a lexical error is not modelled (outcome stuck)."
  },
  {
   "property": "C74",
   "status": "proved",
   "theorems": [
    "Mnml.C74_results",
    "Mnml.C74_call",
    "Mnml.C74_while",
    "Mnml.Lib.C74_foldl",
    "Mnml.Lib.C74_rev",
    "Mnml.Lib.C74_foldr",
    "Mnml.Lib.C74_map"
   ],
   "note": "Depth is the nesting of lisp_eval; the recursion of lisp_eval_args and lisp_prog along the text of the program and of lisp_equ, lisp_prin on data is not counted."
  },
  {
   "property": "C75",
   "status": "proved",
   "theorems": [
    "Mnml.Heap.C75_capped",
    "Mnml.Heap.C75_session",
    "Mnml.Heap.C75_abort",
    "Mnml.Heap.C75_ub",
    "Mnml.Heap.C75_ok",
    "Mnml.Heap.C75_trees",
    "Mnml.Heap.C75_counters",
    "Mnml.Heap.C75_clean"
   ],
   "note": "The other run is capped (no address twice, bounded memory), which is the run of the other claims unless it is refused a cell (C75_capped). The cells of the nodes of the global table are not part of the cell model, so the bound of 2097152 counts values only."
  },
  {
   "property": "C76",
   "status": "proved",
   "theorems": [
    "Mnml.Lex.C76_total",
    "Mnml.Lex.C76_local",
    "Mnml.Lex.C76_wellformed",
    "Mnml.Lex.C76_count",
    "Mnml.Lex.C76_values",
    "Mnml.Lex.C76_counterexample"
   ],
   "note": "The error handling of Lemon (skip a token that does not fit; drop the stack at the end of input) and its unwillingness to reduce the start symbol early are taken from its template, which is not in the repository. What the lexer does after a lexical error is not modelled."
  },
  {
   "property": "C77",
   "status": "proved",
   "theorems": [
    "Mnml.Heap.C77_slabinfo"
   ],
   "note": "slabinfo is called at the end of a session; it is not among the natives that a session can call. The nodes of the global table are not counted in the model."
  },
  {
   "property": "C78",
   "status": "proved",
   "theorems": [
    "Mnml.Lib.C78_left",
    "Mnml.Lib.C78_right",
    "Mnml.Lib.C78_skip",
    "Mnml.Lib.C78_esc",
    "Mnml.Lib.C78_dedup",
    "Mnml.Lib.C78_dedup_runs",
    "Mnml.Lib.C78_formats",
    "Mnml.Lib.C78_load",
    "Mnml.Lib.C78_loaded"
   ],
   "note": "On the tree level. args:parse_r and args:parse: C80. The width less the length of the text must be a 64-bit number."
  },
  {
   "property": "C79",
   "status": "proved",
   "theorems": [
    "Mnml.Lib.C79_equal",
    "Mnml.Lib.C79_predicate",
    "Mnml.Lib.C79_slabdelta",
    "Mnml.Lib.C79_capture_counterexample"
   ],
   "note": "On the tree level. The expression and its value must not have the form of a function (let would mark tail calls in it). Variables of the caller named as those of the assertion: C79_capture_counterexample. test.l is not loaded as a file in the model since slabinfo is not among the natives of the evaluator."
  },
  {
   "property": "C80",
   "status": "proved",
   "theorems": [
    "Mnml.Lib.C80_parse_r",
    "Mnml.Lib.C80_parse",
    "Mnml.Lib.C80_mnmlc"
   ],
   "note": "On the tree level. A handler must not call a function named fun (let would mark it as a tail call of the handler) and must keep the used definitions. C80_mnmlc covers command lines without -s and -h, whose handlers use split and usage. A result of NIL does not tell an error from an empty command line."
  },
  {
   "property": "C81",
   "status": "proved",
   "theorems": [
    "Mnml.Lib.C81_run",
    "Mnml.Lib.C81_pick",
    "Mnml.Lib.C81_list",
    "Mnml.Lib.C81_help",
    "Mnml.Lib.C81_all_run",
    "Mnml.Lib.C81_passed",
    "Mnml.Lib.C81_distinct",
    "Mnml.Lib.C81_same_name_counterexample",
    "Mnml.Lib.C81_no_arguments",
    "Mnml.Lib.C81_unknown_argument",
    "Mnml.Lib.C81_list_argument"
   ],
   "note": "On the tree level. The tests must yield a value and keep the used definitions (Runs, Runnable). The list TST of -t is a hypothesis, since split builds it by changing cells in place. Equal names are covered: the first test of that name is run for each of them, so the second one never is (C81_same_name_counterexample); with distinct names each test is its own (C81_distinct)."
  },
  {
   "property": "C82",
   "status": "proved",
   "theorems": [
    "Mnml.Lib.C82_swap",
    "Mnml.Lib.C82_lift",
    "Mnml.Lib.C82_clauses",
    "Mnml.Lib.C82_convert"
   ],
   "note": "On the tree level, from the text of cps.l lines 1-106 (cps_text). Atoms are everything but lists; NIL and strings are lists for cps.l. The clauses made by the expression after the tilde are proved to be those of the file (C82_clauses)."
  },
  {
   "property": "C83",
   "status": "partial",
   "theorems": [
    "Mnml.Lib.C83_meaning_partial",
    "Mnml.Lib.C83_preserved_partial",
    "Mnml.Lib.C83_crossed_counterexample",
    "Mnml.Lib.C83_escape_counterexample",
    "Mnml.Lib.C83_literal_counterexample"
   ],
   "note": "False as stated: a placeholder is left unbound where a conditional with calls as branches stands to the right of another call (C83_crossed_counterexample), a conditional without else branch skips the rest of the expression it is in (C83_escape_counterexample), and NIL and strings are taken for calls (C83_literal_counterexample). Proved for all programs of atoms, calls and conditionals without these (Ex.Ok, Ex.Src, Ex.Aligned, Ex.TotalArgs) with fewer than 10^15 placeholders, for every lawful monad. The order of evaluation of the meaning is from the left to the right. Other special forms count as calls, as they do for cps:lift."
  },
  {
   "property": "C84",
   "status": "proved",
   "theorems": [
    "Mnml.Heap.C84_no_use_after_free",
    "Mnml.Heap.C84_counts",
    "Mnml.Heap.C84_reach",
    "Mnml.Heap.C84_dup",
    "Mnml.Heap.C84_exec",
    "Mnml.Heap.C84_program",
    "Mnml.Heap.C84_clean",
    "Mnml.Heap.C84_dup_counterexample"
   ],
   "note": "On the cell level, relative to an evaluator given by its specification (EvSpecU, BlindU), met by the evaluator of HeapEval (evU_spec, evU_blind), which itself reports staleArg for the cases of C04. dup reads its argument again after user code; with a closure made for the call (C04_own) a released argument would be useAfterFree (C84_dup), which is excluded. With a binding shared by hand it does happen (C84_dup_counterexample), which is outside the statement. exec abandons its strings; it ends the process."
  },
  {
   "property": "C85",
   "status": "partial",
   "theorems": [
    "Mnml.Heap.C85_select_partial",
    "Mnml.Heap.C85_select_counterexample"
   ],
   "note": "False as stated: select walks a list that it does not own, and a callback that shares the binding of the list can release it (C85_select_counterexample, outcome staleArg). Proved (C85_select_partial): no other released cell is accessed and the counts are exact, if nothing else refers to the closure, for all evaluators that keep the counts and use only what they are given."
  },
  {
   "property": "C86",
   "status": "proved",
   "theorems": [
    "Mnml.Heap.C86_native",
    "Mnml.Heap.C86_exec",
    "Mnml.Heap.C86_argument",
    "Mnml.Heap.C86_connect",
    "Mnml.Heap.C86_execArgs"
   ],
   "note": "The hypothesis is that the cell model comes to an end in strict mode, which refuses programs that change a value shared with something else (see C61); C86_native and C86_exec also show that the run without strict mode is the same. C86_argument, C86_connect and C86_execArgs give the arguments of the native. close, dup, time and select, which evaluate, are not covered: the tree model of these has an evaluator without a state."
  },
  {
   "property": "C87",
   "status": "proved",
   "theorems": [
    "Mnml.Sse.C87_union",
    "Mnml.Sse.C87_match",
    "Mnml.Sse.C87_make",
    "Mnml.Sse.C87_makeN",
    "Mnml.Sse.C87_reads",
    "Mnml.Sse.C87_names"
   ],
   "note": "On a machine with the least significant byte first; _mm_xor_si128 and _mm_test_all_zeros as documented, strncpy as in ISO C with reads and writes outside of the memory as undefined (C87_reads says exactly when). C87_match and C87_make, C87_makeN connect this to symMatch and Sym.ofBytes, which all other modules use."
  },
  {
   "property": "C88",
   "status": "proved",
   "theorems": [
    "Mnml.Opts.C88_options",
    "Mnml.Opts.C88_complete",
    "Mnml.Opts.C88_run",
    "Mnml.Opts.C88_stop"
   ],
   "note": "getopt is modelled as glibc has it with + in front of the options (bin/mnml.c:238, Linux only). Whether cells are left in the slab is an arbitrary function of the final state here. C88_run is about runs in which main of Module ends; it says nothing if main does not."
  },
  {
   "property": "C89",
   "status": "proved",
   "theorems": [
    "Mnml.Lib.C89_getrefs"
   ],
   "note": "On the value that the reader makes of the text (getrefs_text). The recursion over nested continuations (cps:refcount_r) is not covered."
  },
  {
   "property": "C90",
   "status": "partial",
   "theorems": [
    "Mnml.Lib.C90_refcount_r_partial",
    "Mnml.Lib.C90_refcount_partial",
    "Mnml.Lib.C90_clauses",
    "Mnml.Lib.C90_converted_partial",
    "Mnml.Lib.C90_head_counterexample",
    "Mnml.Lib.C90_nil_counterexample"
   ],
   "note": "False as stated: a continuation that is called directly (which is what >& makes of a conditional argument with an atom as branch) is not looked into (C90_head_counterexample), and a NIL argument hides the continuation (C90_nil_counterexample, from last of manips.l, C50). Proved for terms without NIL arguments, which include all conversions (C90_converted_partial), where a continuation in function position counts for nothing; on the values that the reader makes of the text (refcount_text), including the clauses after the tilde (C90_clauses)."
  },
  {
   "property": "C91",
   "status": "proved",
   "theorems": [
    "Mnml.Lib.C91_replace",
    "Mnml.Lib.C91_mark"
   ],
   "note": "C91_mark gives the table found afterwards for every key j, with Types and Distinct preserved. C91_replace is for nonempty lists. That the entry of K is not a function (a list of parameters, an environment and a body) is a hypothesis because let binds functions with a mark."
  },
  {
   "property": "C92",
   "status": "proved",
   "theorems": [
    "Mnml.Lib.C92_fold1",
    "Mnml.Lib.C92_fold",
    "Mnml.Lib.C92_get"
   ],
   "note": "C92_fold1, C92_fold and C92_get, with IsType as the specification: it mentions neither the fold nor its step. An UNDEF that is newer than a known type is an error, see the example."
  },
  {
   "property": "C93",
   "status": "proved",
   "theorems": [
    "Mnml.Lib.C93_findl",
    "Mnml.Lib.C93_clauses"
   ],
   "note": "C93_findl with Tm.gives and Gets as the specification, by induction on the term; C93_clauses shows that the expression after the tilde, evaluated by the reader, has the clauses assumed in findlSrc. The terms are those of C90 (Tm.Ok). Any call with one argument counts, whatever its function; calls that pass the last continuation on add nothing."
  }
 ]
}