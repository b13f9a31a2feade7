# minima.l – formal model: design

Source: `/repo` (xguerin/minima.l, C with a Ragel lexer and a Lemon grammar). Nothing
in `/repo` is built, run or modified; it is read as text. Properties are listed in
`properties.jsonl`; the status of each is in `MANIFEST.json`; attempts to break the theorems by
editing the model are in `seeded/LOG.jsonl`.

## 1. Layers

The C code is modelled at the level of abstraction that the property needs. Every
definition cites the file and lines it models and says where it simplifies.

| Lean module(s) | C code | level |
|---|---|---|
| `Basic` | `types.h`, symbols in `lisp.h`/`utils.h` | symbols are the 16 raw bytes; `int64_t` as `Int` with explicit range; outcomes `ok / ub / abort / out of fuel / unsupported` |
| `Slab` | `slab.c` | concrete: entries, free list threaded through cells, expansion, counters |
| `Val`, `Env`, `Tails` | `utils.c`, `lisp.c`, `match.c` | values as immutable trees (read-only functions and freshly built lists) |
| `Str` | `lisp_make_string`, `lisp_process_escapes`, `lisp_make_cstring`, `str`, `sym`, `chr` | byte level, buffer writes explicit |
| `Print` | `print.c` | byte level with the 1024 byte buffer |
| `Eval` | `eval.c`, `lisp.c`, `lib/mnml/{std,logic,math,io}` | fuel-indexed evaluator on tree values, state = globals + output |
| `Depth` | `eval.c` | the same evaluator with a bound for the nesting of `lisp_eval` |
| `EvalMono`, `EvalSem`, `Calls`, `Dsl` | – | fuel independence, the limit `sem`, call laws, notation for examples |
| `Tree*` | `tree.c` | pointer level: node store with left/right/parent/colour, NIL cells with colours |
| `Heap`, `HeapEval` | `lisp.h`, `lisp.c`, `utils.c`, `eval.c`, `module.h`, natives | cell level: addresses, reference counts, flags, destructive updates; access to a released cell is an outcome |
| `HeapInv` … `HeapSpec`, `HeapOwn` | – | ownership invariant and one specification per function of `HeapEval` |
| `Rename`, `Follow`, `Capped` | `slab.c` under `HeapEval` | the cell model on the slab, against runs in which no address is used twice |
| `Refine*`, `Relax` | – | the correspondence between `HeapEval` and `Eval`: what a memory represents (`Refine`), one rule per function |
| `Lex`, `Parse` | `lexer.rl`, `parser.y` | longest-match scanner and grammar actions |
| `Read`, `Chan` | `read.c`, `readline.c`, `PUSH_IO_CONTEXT`, `in.c`, `out.c`, `load.c` | file = byte sequence; `fgets` with its buffer; stacks of channels |
| `Path`, `Frame` | `FOR_EACH_TOKEN`, `closure.c` | a bounded memory block; frames with links |
| `Module`, `ScriptSem` | `lisp_get_fullpath`, `lisp_load_file`, `load.c`, `module.c`, `bin/mnml.c` | byte level paths with their buffers; the operating system (`getenv`, `realpath`, `fopen`, `opendir`, `dlopen`) is a parameter |
| `Unix` | `lib/mnml/unix`, `lib/mnml/sys` | natives make calls to the operating system, an arbitrary function from the history of calls to replies; the history is recorded; values are trees, the evaluator is a parameter |
| `HeapUnix` | `lib/mnml/unix`, `lib/mnml/sys` | the same natives on cells; the evaluator is a parameter |
| `Lib`, `LibText`, `LibSem`, `LibLoad`, `LibTerm`, `LibTest`, `LibCps` | `share/mnml/*.l` | the lisp text, read by the model of the reader, run by the model of the evaluator |

Property theorems are in the modules `Prop*` (and in `Path`, `Frame`) and are called `Cnn_...`.

Undefined behaviour of C (null/forged pointer dereference, use after free, signed
overflow, division by zero, out-of-bounds write) is a separate outcome, never a default value.
Non-termination is "out of fuel for every fuel".

Conventions for names: `_partial` – a part of the property, the doc comment says what is missing; `_counterexample` – a
machine-checked refutation of the property, or of it without one of its side conditions.

## 2. Approach per property

* C01, C02 – `Slab`: invariant (free list = chain of distinct, unheld, in-range cells covering all
  unheld cells) proved by induction over alloc/free/write histories.
* C03 – `Heap`: invariant "refs = in-degree + owned references"; one preservation theorem per primitive,
  then induction over sequences.
* C04, C05 – `HeapEval`: the same invariant as pre/postcondition of evaluation, by induction on fuel;
  use-after-free is a distinct outcome shown unreachable. Three natives keep an argument that they do not own while user code runs
  (`match.c:68`, `set.c:14`, `let.c:46`). Reading it afterwards when it has been released is the separate outcome `staleArg` for `match`,
  and for `<-` and `let` only if something else than the call refers to the binding of the argument, which takes a closure that the program
  has built by hand (`PropForged`). All three happen. For ordinary calls of `<-` and `let` (`C04_own`) it is excluded with the rest:
  evaluation without access to a cell that only the caller refers to leaves the cell alone (`HeapLoc`), and
  keeps the fields of what it does not change (`HeapKeep`, `HeapGuard`). The leaks of `<-`, `def` and cycles are exhibited.
  Without cycles all cells left over are reachable; accepted programs (C61) make none, because `Sim` keeps that every cell, reachable or not, is
  the root of a finite tree (`PropLeak`).
* C06, C07, C09 – `Val`: structural induction against an independent spec (equality of trees with flags erased;
  substitution instances).
* C08 – `Basic`: lexicographic order on 16 bytes.
* C10, C11 – `Env`: refinement to finite maps (`Sym → Option Val`).
* C12 – history machine over the tree with symbol memo; invariant "memo = table entry of that key".
* C13–C17 – `Tree`: pointer store abstracts to an inductive tree; rotations preserve in-order sequence;
  insertion = insertion in sorted association list. C15 and C16 are false for the code: concrete
  counterexamples are proved, and the parts that do hold are kept as `_partial`. For C16 `TreeRem` shows that taking out a node and
  every step of the repair loop keep "the memory holds a valid tree with these cells and these entries".
* C18–C22, C25–C28, C38–C44, C62, C63 – `Eval`. Laws are stated on `sem`, the limit of `evalN n`.
* C23, C24 – `Tails` + `Eval`: false as stated (multi-expression `when`/`unless`; parameter named as the function);
  counterexamples plus partial theorem for the sound fragment.
* C29, C30 – `Eval` arithmetic natives against `Int.tdiv`/`Int.tmod`.
* C31–C33 – `Str`.
* C34, C35 – `Print`: buffered machine = pure text function; C35 false when NIL occurs inside (witness), partial otherwise.
* C36, C37 – `Lex`/`Parse`: `Layout` describes texts made of words and separators; the lexer returns the tokens of the words.
  Round trip by induction on values. Through a channel, tokens are cut at 1023 bytes (`read.c:68` always passes `end = true`).
* C45–C48 – state machines, induction over histories and programs. C46 is false on a last line without newline (witness), the size claim of
  C48 is false (witness).
* C49–C54 – `Lib`: the definitions of `share/mnml/*.l` as values (`Lib`), shown to be what the reader makes of the texts of the
  files (`LibText`), run by the evaluator of `Eval`. `LibSem` has one evaluation rule per native (`ok_*`); a state is described
  by `Uses` (which names the function needs and what they must be bound to, the local scope being free of them).
* C55, C56 – `Module`: names against an independent description (`Expands`, `place`, `Holds`), buffers with their sizes.
* C57 – `Module`: a library is a name and a table of entries; `Defined` says which definitions a load changes.
* C58, C59 – `ScriptSem`: fuel is monotone; what the channel of a file delivers (`Delivers`) is what one pass of the lexer yields; a script is the
  relation `Runs` over these values. The evaluator is a parameter, so that the theorems hold for every evaluator of the other expressions.
* C75 – where new cells are placed is a parameter of the cell model (`Alloc`). `Follow`: a run on the slab is a run in which the `k`-th new cell is placed at `φ k`, for
  the places `φ` that the slab has chosen. `Rename`: such a run is the run in which no address is used twice, with `φ a` in place of `a`, as long as that does not access
  a released cell (C04). `Capped`: bounding the memory changes nothing else. Each is one lemma per function of `HeapEval`.
* C76 – `ParseErr`: stack of the parser and depth of the lexer as separate state, since skipped parentheses make them differ. `Stk.Sound` is the invariant of the
  stacks that occur; `Parse.feed`, which accepts some tokens too early, agrees with it on every run that ends complete (`feed_step`, backwards from the end).
* C91 – `PropMark`: `cps:replace` with C50 (`rev`) and `cps:type:mark` with C51 (`assoc`, `replc`); what is found afterwards by cases on the entry, for every key.
* C92 – `PropTypes`: `cps:type:fold1`, `cps:type:fold` and `cps:type:get` with C49 (`foldr`), C51 (`assoc`) and C72 (`<|>`); the fold against `Agrees`, the form that a list of types must have, by induction on the list.
* C93 – `PropFindl`: `cps:type:findl` on the terms of C90, by induction on the term, with C91 (`cps:type:mark`), C92 (`cps:type:get`) and C50 (`last`); partial applications in a stream with `ok_call_two`. The specification `Tm.gives` lists what is given, not the tables in between.
* C90 – `PropRefcount`: terms as an inductive type, the table as a function of the term (`Tm.count`); evaluation by induction on the term with C89, C49 (`foldr`) and C50 (`last`); the counts by induction on the term.
* C89 – `PropRefs`: `cps:getrefs` by the theorems about `foldl`, `has`, `assoc` and `replc` (C49–C51); the counts by induction on the arguments.
* C88 – `Opts`: `getopt` and the loop over the options in front of `Module.main`, and the exit status. Ways of writing are the type `Word`; `C88_complete` by induction on the number of arguments says that there are no others.
* C87 – `PropSym`: the variant of symbol comparison with SSE and the macros that make symbols, against `symMatch` and `Sym.ofBytes`; xor of 128 bits with `BitVec`, `strncpy` by induction on its count.
* C86 – `HeapUnix` and `Unix`: a native that evaluates nothing makes the same calls and gives the same value on cells and on trees; from C61 and the lemmas of `Refine*` (`PropUnixRefine`).
* C84, C85 – `HeapUnix`, `PropHeapUnix`: the natives of `unix` and `sys` on cells, with the weakest preconditions of `HeapWp` lifted to computations that make calls (`wpU`). `dup` is treated as `<-` and `let` (`wp_own`). `select` runs its callbacks in the rest of its closure; the closure is hidden for that time (`wp_hidden`) and put back (`InvO.unhide1`).
* C83 – `PropCpsDen`: two meanings in an arbitrary lawful monad, `Ex.den` of programs and `den` of the forms that `>&` makes (a function on values, so that the reading of a form is unique), and their equality. The continuation at hand is described by what it means and by the placeholders it does not depend on, not by its text.
* C82 – `LibCps`, `PropCps`: the text of `cps.l` up to `>&`, and the functions in it against `swapped`, `Ex.lift` and `Exs.lifts`, recursive functions on lists and on the syntax `Ex` of programs. Names of placeholders are made by `sym` and `ntoa` (C52) and so are symbols of 16 bytes.
* C81 – `PropRun`: the runner of the test suites against `runTests`, a function on the names; the functions `pad`, `hdr`, `exe` and `|<-` that it binds are proved one by one in the scopes that they capture. `C81_passed` says what the result means.
* C80 – `PropArgs`: the parser against `parse`, a function on the list of words with a table of flags; `handler_lambda` meets the hypothesis for handlers written with `\\`.
* C79 – `LibTest`, `PropTest`: as C78; the scope of the tested expression is explicit (`equalScope`), so that hidden variables are part of the statement.
* C78 – `LibTerm`, `PropTerm`: as C49–C54 and C60; the form that defines the formats is run as code whose definitions the rest of the file follows (`ExprsAdd.then`).
* C77 – `slabinfo` on the cell level, after a session of C75; the free list of `Slab` gives that its three cells are new.
* C74 – `Depth`: `evalD L d` is the evaluator with separate bounds for the nesting of `lisp_eval` and for the rounds of its loops; `Rounds` and `Turns` are the
  rounds of a function and of a `while`, each within a depth.
* C73 – `PropScan`: the relation `Words` describes the words of a text (longest, first rule, names whole); the scanner computes it.
* C72 – `PropMore`: as C49–C54; `append` evaluates its arguments inside of its own scope, which `Sees` describes.
* C71 – `PropSrc`: expressions as they are written (`Src`) with their meaning as a relation (`Means`); induction over the meaning for the parser and for the layout.
* C70 – `PropRepl`: a session is the relation `Talk` over entries; an entry (`Entry`) is described by the lines of the input alone, and one refill of the
  buffer reads exactly one entry (`readLoop_entry`).
* C60 – `LibLoad`: what a file of the library adds to the globals, composed from its expressions (`ExprsAdd`), their arguments of `load` (`ArgAdds`) and the
  files named there (`FileAdds`), for every system with the library and the modules in their places (`Installed`). The tables of the modules are in
  `LibLoad`. Modules made by the compiler (`cc.l`) are not modelled; `isort.l` is the only file that wants one (`iterators`), and is treated as if there is none.
* C61 – `Refine*`: `Sim Γ s st` says that the memory `s` represents the tree state `st` and the owned references `Γ` (values, or private cells under
  construction) with exact reference counts. Every function of `HeapEval` keeps it (`sat_*`), by induction on fuel for the evaluator. In strict mode the cell model
  refuses changes that the tree model cannot show; `Relax` proves that it does nothing else. `def` marks tail calls in place: `loneArg` checks that every cell of the
  definition has one reference, `RefineIso` derives that no other value meets these cells, `RefineTree` and `RefineMark` that the marks are those of the tree model.
* C64–C69 – `Unix`: for every operating system; what a native did is read off the history (`created`, `closed`, `Failed`), independently of its code.

## 3. Trusted base

* Lean 4.33.0 kernel; axioms used by theorems are at most `propext`, `Classical.choice`, `Quot.sound`
  (checked for every theorem and printed by `lean/Verif/Axioms.lean`). No own axioms, no `sorry`, no `native_decide`, no `bv_decide`. Concrete runs are
  evaluated by the kernel (`decide`, `decide +kernel`, `decide_cbv`).
* The correspondence between the model and the C code is by reading; each definition carries its citation.
* Ragel and Lemon are assumed to implement their documented semantics (longest match, earliest rule; LALR on an unambiguous grammar). For C76 also: Lemon
  skips a token that does not fit, drops its stack when that is the end of the input, and reduces to the start symbol only at the end of the input.
* glibc: `fgets`, `getline`, `strstr`, `strncpy`, `memcmp`, `sprintf("%ld")` by their specification.
* Proof automation written for the project (the tactics `res`, `ev` of `LibSem`, the simproc `litToList` of `LibText`, the tactic of `HeapInv`)
  produces proof terms that the kernel checks; it is not trusted.
* x86-64: 64-bit two's complement integers, signed `char`, little endian payload union.

## 4. Not modelled

* What system calls do (they are arbitrary replies; `inet_ntop`, `ntohs` and `htons` are part of the system),
  and the natives of `unix` and `sys` inside other expressions (`Eval` and `HeapEval` do not call them; C84 has them at the end of a program). The texts of `-h` and `-v`, signals, `bin/` otherwise, the
  compiler `share/mnml/cc.l`, the types of `share/mnml/cps.l` (lines 164 on) except `cps:replace`, `cps:type:get`, `cps:type:mark`, `cps:type:fold1`, `cps:type:fold` and `cps:type:findl`, `debug.c`.
* What the lexer does after a lexical error; names of more than 16 characters. Syntax errors are outside `Parse` (outcome `unsupported`) and covered by `ParseErr` (C76).
  The bound on the depth of Lemon's stack (100 entries in many versions, that is about 50 open lists).
* Read errors, two handles on one descriptor, concurrent writers of a file.
* The cells of the nodes of the global table in the cell model (the tree is modelled separately, C13–C17).
* Failure of `mmap`/`mprotect`/`malloc`; the size of the C stack (C74 counts the nesting of `lisp_eval`; the recursion of `lisp_equ`,
  `lisp_prin`, … is unbounded in the model).
* `load` inside other expressions (it is modelled at the top level of scripts and of the command line); a backquote in a script.
* Tree level (`Eval`): values are immutable, so that changes of shared cells (`conc`, marks of tail calls in shared code) have no effect elsewhere. Where
  this matters is said by C61: programs accepted by the strict mode of the cell model behave the same on both levels; others may not.
* Tree level (`Eval`): `<-` on a local variable, which is covered on the cell level only (`PropHeapSet`).

## 5. Findings in the C code

Each is a theorem named `..._counterexample`.

* Red-black insertion, case 2, rotates around the inserted node instead of the parent: trees degenerate (C15).
* Removal loses the new root, crashes on a black leaf on the right, removes everything for an absent key (C16).
* Tail call marking is unsound for `when`/`unless` with several expressions, `|>`, aliases and parameters named as the function (C23, C24).
* `let` and closures mark calls in code that is shared with other functions; calls of another function with the same name are then returned as records (C61).
* `match` reads its argument after user code may have released it (C04).
* `<-`, `def` of a non-symbol, `conc` of a list with itself and `<-` of a function to a captured variable leak (C05).
* `setq` to NIL does nothing (C41); `prin` of NIL drops what is in the buffer (C35).
* `def` with an empty body crashes (C42).
* Lines over 1023 bytes split tokens (C36); `readline` loses the last character of a last line without newline (C46).
* `whitespace?` is always true, `triml`, `trimr`, `trim` never return (C54); `last` of `manips.l` stops at a NIL element (C50).
* The cache of compiled closures ignores the size of the frame (C48).
* `ntoa` of a negative number is garbage; `ntoa` and `isort` fail if the caller has a variable with the name of their inner function (C52, C53).
* The buffer for `libNAME.so` is one byte too small on Linux, in every search for a module (C56).
* `mnml missing.l` writes before the start of a buffer; a new file in `/` has no path (C55).
* The exit status of the prompt is never 0 (C70).
* `'T`, `'NIL`, `'_` and `'-5` are quoted names; `~x` looks for a variable `~x`, `~5` is 0 (C71).
* `foldr` and `map` nest the C function `lisp_eval` at least 4 and 3 times per element of the list (C74; not a counterexample, but a limit on lists).
* `append` takes a variable `x` of the caller for its own first argument; `truncr` keeps the last elements instead of removing them; `iter2.l` does not load `let` (C72).
* A backslash in the directory of a script or in an argument starts an escape (C58, C59).
* `mnml -e` stops at an expression that is read as NIL, drops an incomplete one, and is ignored if a file is given (C59).
* `select` watches its third argument instead of the first, so that the server of `http.l` waits for nothing; it stores descriptors from 1024 on outside of the set, and
  closes descriptor 0 for a NIL in the list (C66).
* `dup` and `select` read an argument that they do not own after user code has run; with bindings shared by hand it has been released by then (C84, C85).
* `unlink` and `connect` overrun their buffers by one byte; `exec` drops arguments after the 126th (C65).
* `fork`, `dup` and `wait` give error numbers that look like results (C67); `listen` refuses port 65535 (C68).
* `isort.l` alone does not work in a build without compiled modules (C60).
* `>&` of `cps.l` leaves a placeholder unbound if a conditional with calls as branches is to the right of another call, skips the rest of an expression after a
  conditional without else branch, and takes NIL and strings for calls (C83).

Seen while reading, without a theorem: `~bob/x` is HOME followed by `bob/x`; `@library` is taken for `@lib`; the user cache needs HOME (`strcpy` of NULL
otherwise); a library without `lisp_module_name` stays open; a cached module is searched on the disk again; `lisp_make_cstring` writes one byte past the buffer
in `in.c`, `out.c` and `lisp_load_file` for names of the full length; `bin/mnmlc` and `test/lisp/fib.l` load
`map.l`, which is not in `share/mnml` (`map` is in `iterators.l`); `usage` in `test.l` and `bin/mnmlc` names the first argument as the program, because ARGV
begins with the script (`bin/mnml.c:324`).
