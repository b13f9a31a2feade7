import Verif.PropTerm

/-!
# `share/mnml/test.l`

The values and the text, as in `Verif.Lib` and `Verif.LibText`.
-/

namespace Mnml
namespace Lib

open Val Lex

/-! ## `share/mnml/test.l` -/

/-- `share/mnml/test.l:1-12`. -/
def testLoad : Val :=
  L [S "load", str "args.l", str "has.l", str "iter.l", str "iterators.l", str "split.l", str "term.l",
    Q (L [S "io", S "prin", S "printl", S "prinl"]), Q (L [S "logic", S "=", S "and"]), Q (L [S "math", S ">"]),
    Q (L [S "std", S "len", S "let", S "if", S "eval", S "cond", S "prog", S "car", S "setq", S "tru?"]),
    Q (L [S "sys", S "slabinfo"])]

/-- `usage` (`share/mnml/test.l:14-23`). -/
def testUsageSrc : Val :=
  L [S "def", S "usage", nil, str "Print out a usage string for the testsuite.", L [S "let",
    L [cons (S "arg0") (L [S "car", L [S "cdr", S "ARGV"]]), cons (S "prgn") (L [S "car", L [S "rev",
    L [S "split", S "arg0", chr 47]]])], L [S "prinl", str "Usage: ", S "prgn",
    str " [-l|-t test1,test2,...|-h] "], L [S "prinl"], L [S "prinl", str "  -l  List available tests"],
    L [S "prinl", str "  -t  Comma-separated list of tests"], L [S "prinl", str "  -h  Print this help"]]]

/-- The value of `usage` once defined: the tail calls are marked. -/
def testUsageV : Val :=
  cons nil (cons nil (L [L [S "let", L [cons (S "arg0") (L [S "car", L [S "cdr", S "ARGV"]]),
    cons (S "prgn") (L [S "car", L [S "rev", L [S "split", S "arg0", chr 47]]])], L [S "prinl", str "Usage: ",
    S "prgn", str " [-l|-t test1,test2,...|-h] "], L [S "prinl"], L [S "prinl",
    str "  -l  List available tests"], L [S "prinl", str "  -t  Comma-separated list of tests"], L [S "prinl",
    str "  -h  Print this help"]]]))

theorem testUsage_def (st : St) (h : st.globals Native.def_.name = some Native.def_.val) :
    sem nil testUsageSrc st = .ok (S "usage", define "usage" testUsageV st) := ok_def h rfl

/-- `share/mnml/test.l:25-28`. -/
def testOptions : Val :=
  L [S "setq", S "options", Q (L [cons (str "-l") (L [S "\\", nil, L [S "setq", S "LST", tru]]),
    cons (str "-t") (L [S "\\", L [S "LST"], L [S "setq", S "TST", L [S "map", L [S "\\", L [S "e"],
    L [S "cons", S "e", nil]], L [S "split", S "LST", chr 44]]]]), cons (str "-h") (S "usage")])]

/-- The three bytes of a tick and a space (`share/mnml/test.l:42`). -/
def tick : Val := L [chr (-30), chr (-100), chr (-109), chr 32]

/-- `test:run` (`share/mnml/test.l:30-59`). -/
def testRunSrc : Val :=
  L [S "def", S "test:run", cons (S "SUITE") (S "TESTS"),
    str "Run all tests specified as a ((NAME . TEST)) list.", L [S "let", L [cons (S "args") (L [S "args:parse",
    S "options"]), cons (S "hdr") (L [S "\\", nil, L [S "prinl", L [S "term:bold", str "["], L [S "term:bold",
    S "SUITE"], L [S "term:bold", str "]"]]]), cons (S "pad") (L [S "\\", L [S "LST"], L [S "foldl", L [S "\\",
    L [S "acc", cons (S "name") wild], L [S "let", L [cons (S "nlen") (L [S "len", S "name"])], L [S "if",
    L [S ">", S "nlen", S "acc"], S "nlen", S "acc"]]], N 0, S "LST"]]), cons (S "exe") (L [S "\\", L [S "acc",
    cons (S "name") wild], L [S "let", L [cons (S "test") (L [S "assoc", S "name", S "TESTS"])], L [S "if",
    S "test", L [S "and", S "acc", L [S "cond", L [S "eval", S "test"], cons (S "tru?") (L [S "prog",
    L [S "prinl", tick, L [S "|<-", S "name"], str ": ", L [S "term:green", str "passed"]], tru]),
    cons wild (L [S "prog", L [S "prinl", str "! ", L [S "|<-", S "name"], str ": ", L [S "term:red",
    str "failed"]], nil])]], L [S "prog", L [S "prinl", str "! ", L [S "|<-", S "name"], str ": ",
    L [S "term:red", str "not found"]], nil]]]])], L [S "if", L [S "has", S "args", str "-t"], L [S "let",
    L [cons (S "|<-") (L [S "term:left", L [S "pad", S "TST"]])], L [S "hdr"], L [S "foldl", S "exe", tru,
    S "TST"]], L [S "let", L [cons (S "|<-") (L [S "term:left", L [S "pad", S "TESTS"]])], L [S "if",
    L [S "has", S "args", str "-l"], L [S "prog", L [S "hdr"], L [S "iter", L [S "\\", L [cons (S "name") wild],
    L [S "prinl", str "- ", L [S "|<-", S "name"]]], S "TESTS"]], L [S "when", L [S "not", L [S "has", S "args",
    str "-h"]], L [S "hdr"], L [S "foldl", S "exe", tru, S "TESTS"]]]]]]]

/-- The value of `test:run` once defined: the tail calls are marked. -/
def testRunV : Val :=
  cons (cons (S "SUITE") (S "TESTS")) (cons nil (L [L [S "let", L [cons (S "args") (L [S "args:parse",
    S "options"]), cons (S "hdr") (L [S "\\", nil, L [S "prinl", L [S "term:bold", str "["], L [S "term:bold",
    S "SUITE"], L [S "term:bold", str "]"]]]), cons (S "pad") (L [S "\\", L [S "LST"], L [S "foldl", L [S "\\",
    L [S "acc", cons (S "name") wild], L [S "let", L [cons (S "nlen") (L [S "len", S "name"])], L [S "if",
    L [S ">", S "nlen", S "acc"], S "nlen", S "acc"]]], N 0, S "LST"]]), cons (S "exe") (L [S "\\", L [S "acc",
    cons (S "name") wild], L [S "let", L [cons (S "test") (L [S "assoc", S "name", S "TESTS"])], L [S "if",
    S "test", L [S "and", S "acc", L [S "cond", L [S "eval", S "test"], cons (S "tru?") (L [S "prog",
    L [S "prinl", tick, L [S "|<-", S "name"], str ": ", L [S "term:green", str "passed"]], tru]),
    cons wild (L [S "prog", L [S "prinl", str "! ", L [S "|<-", S "name"], str ": ", L [S "term:red",
    str "failed"]], nil])]], L [S "prog", L [S "prinl", str "! ", L [S "|<-", S "name"], str ": ",
    L [S "term:red", str "not found"]], nil]]]])], L [S "if", L [S "has", S "args", str "-t"], L [S "let",
    L [cons (S "|<-") (L [S "term:left", L [S "pad", S "TST"]])], L [S "hdr"], L [S "foldl", S "exe", tru,
    S "TST"]], L [S "let", L [cons (S "|<-") (L [S "term:left", L [S "pad", S "TESTS"]])], L [S "if",
    L [S "has", S "args", str "-l"], L [S "prog", L [S "hdr"], L [S "iter", L [S "\\", L [cons (S "name") wild],
    L [S "prinl", str "- ", L [S "|<-", S "name"]]], S "TESTS"]], L [S "when", L [S "not", L [S "has", S "args",
    str "-h"]], L [S "hdr"], L [S "foldl", S "exe", tru, S "TESTS"]]]]]]]))

theorem testRun_def (st : St) (h : st.globals Native.def_.name = some Native.def_.val) :
    sem nil testRunSrc st = .ok (S "test:run", define "test:run" testRunV st) := ok_def h rfl

/-- `test:slabdelta` (`share/mnml/test.l:61-63`). -/
def testSlabdeltaSrc : Val :=
  L [S "def", S "test:slabdelta", nil, str "Return the slab allocator position.", L [S "let",
    L [cons (cons (S "alloc") (S "free")) (L [S "slabinfo"])], L [S "-", S "alloc", S "free"]]]

/-- The value of `test:slabdelta` once defined: the tail calls are marked. -/
def testSlabdeltaV : Val :=
  cons nil (cons nil (L [L [S "let", L [cons (cons (S "alloc") (S "free")) (L [S "slabinfo"])], L [S "-",
    S "alloc", S "free"]]]))

theorem testSlabdelta_def (st : St) (h : st.globals Native.def_.name = some Native.def_.val) :
    sem nil testSlabdeltaSrc st = .ok (S "test:slabdelta", define "test:slabdelta" testSlabdeltaV st) := ok_def h rfl

/-- `assert:equal` (`share/mnml/test.l:65-78`). -/
def assertEqualSrc : Val :=
  L [S "def", S "assert:equal", cons (S "EXPECT") (S "ACTUAL"), str "Assert that EXPECT and ACTUAL are equal.",
    L [S "let", L [cons (S "OP") (L [S "car", S "ACTUAL"]), cons (S "EVAL") (L [S "eval", S "OP"])], L [S "if",
    L [S "=", S "EXPECT", S "EVAL"], tru, L [S "prog", L [S "prinl", L [S "term:red", str "> FAILED "]],
    L [S "prin", str "! ", L [S "term:underlined", str "Expect"], str ": "], L [S "printl", S "EXPECT"],
    L [S "prin", str "! ", L [S "term:underlined", str "Actual"], str ": "], L [S "printl", S "EVAL"], nil]]]]

/-- The value of `assert:equal` once defined: the tail calls are marked. -/
def assertEqualV : Val :=
  cons (cons (S "EXPECT") (S "ACTUAL")) (cons nil (L [L [S "let", L [cons (S "OP") (L [S "car", S "ACTUAL"]),
    cons (S "EVAL") (L [S "eval", S "OP"])], L [S "if", L [S "=", S "EXPECT", S "EVAL"], tru, L [S "prog",
    L [S "prinl", L [S "term:red", str "> FAILED "]], L [S "prin", str "! ", L [S "term:underlined",
    str "Expect"], str ": "], L [S "printl", S "EXPECT"], L [S "prin", str "! ", L [S "term:underlined",
    str "Actual"], str ": "], L [S "printl", S "EVAL"], nil]]]]))

theorem assertEqual_def (st : St) (h : st.globals Native.def_.name = some Native.def_.val) :
    sem nil assertEqualSrc st = .ok (S "assert:equal", define "assert:equal" assertEqualV st) := ok_def h rfl

/-- `assert:predicate` (`share/mnml/test.l:80-93`). -/
def assertPredicateSrc : Val :=
  L [S "def", S "assert:predicate", cons (S "PREDICATE") (S "VALUE"),
    str "Assert that VALUE matches the PREDICATE.", L [S "let", L [cons (S "OP") (L [S "car", S "VALUE"]),
    cons (S "EVAL") (L [S "eval", S "OP"])], L [S "if", L [S "PREDICATE", S "EVAL"], tru, L [S "prog",
    L [S "prinl", L [S "term:red", str "> FAILED "]], L [S "prin", str "! ", L [S "term:underlined",
    str "Predicate"], str ": "], L [S "printl", S "PREDICATE"], L [S "prin", str "! ", L [S "term:underlined",
    str "Value"], str ": "], L [S "printl", S "EVAL"], nil]]]]

/-- The value of `assert:predicate` once defined: the tail calls are marked. -/
def assertPredicateV : Val :=
  cons (cons (S "PREDICATE") (S "VALUE")) (cons nil (L [L [S "let", L [cons (S "OP") (L [S "car", S "VALUE"]),
    cons (S "EVAL") (L [S "eval", S "OP"])], L [S "if", L [S "PREDICATE", S "EVAL"], tru, L [S "prog",
    L [S "prinl", L [S "term:red", str "> FAILED "]], L [S "prin", str "! ", L [S "term:underlined",
    str "Predicate"], str ": "], L [S "printl", S "PREDICATE"], L [S "prin", str "! ", L [S "term:underlined",
    str "Value"], str ": "], L [S "printl", S "EVAL"], nil]]]]))

theorem assertPredicate_def (st : St) (h : st.globals Native.def_.name = some Native.def_.val) :
    sem nil assertPredicateSrc st = .ok (S "assert:predicate", define "assert:predicate" assertPredicateV st) := ok_def h rfl

/-- The text of `share/mnml/test.l`. -/
def testText : List UInt8 :=
  fileText [
      "(load\n",
      "\t\"args.l\"\n",
      "\t\"has.l\"\n",
      "\t\"iter.l\"\n",
      "\t\"iterators.l\"\n",
      "\t\"split.l\"\n",
      "\t\"term.l\"\n",
      "\t'(io prin printl prinl)\n",
      "\t'(logic = and)\n",
      "\t'(math >)\n",
      "\t'(std len let if eval cond prog car setq tru?)\n",
      "\t'(sys slabinfo))\n",
      "\n",
      "(def usage ()\n",
      "  \"Print out a usage string for the testsuite.\"\n",
      "  (let ((arg0 . (car (cdr ARGV)))\n",
      "        (prgn . (car (rev (split arg0 ^/)))))\n",
      "    (prinl \"Usage: \" prgn \" [-l|-t test1,test2,...|-h] \")\n",
      "    (prinl)\n",
      "    (prinl \"  -l  List available tests\")\n",
      "    (prinl \"  -t  Comma-separated list of tests\")\n",
      "    (prinl \"  -h  Print this help\")\n",
      "    ))\n",
      "\n",
      "(setq options\n",
      "  '((\"-l\" . (\\ ()\t\t\t(setq LST T)))\n",
      "    (\"-t\" . (\\ (LST)\t(setq TST (map (\\ (e) (cons e NIL)) (split LST ^,)))))\n",
      "    (\"-h\" . usage)))\n",
      "\n",
      "(def test:run (SUITE . TESTS)\n",
      "\t\"Run all tests specified as a ((NAME . TEST)) list.\"\n",
      "\t(let ((args . (args:parse options))\n",
      "\t\t\t\t(hdr\t. (\\ () (prinl (term:bold \"[\") (term:bold SUITE) (term:bold \"]\"))))\n",
      "\t\t\t\t(pad\t. (\\ (LST) (foldl (\\ (acc (name . _))\n",
      "\t\t\t\t\t\t\t\t\t\t\t\t\t\t\t\t\t(let ((nlen . (len name)))\n",
      "\t\t\t\t\t\t\t\t\t\t\t\t\t\t\t\t\t\t(if (> nlen acc) nlen acc)))\n",
      "\t\t\t\t\t\t\t\t\t\t\t\t\t 0 LST)))\n",
      "\t\t\t\t(exe\t. (\\ (acc (name . _)) (let ((test . (assoc name TESTS)))\n",
      "\t\t\t\t\t\t\t\t\t (if test\n",
      "\t\t\t\t\t\t\t\t\t\t (and acc\n",
      "\t\t\t\t\t\t\t\t\t\t\t (cond (eval test)\n",
      "\t\t\t\t\t\t\t\t\t\t\t\t (tru?\t. (prog (prinl \"\u00e2\u009c\u0093 \" (|<- name) \": \" (term:green \"passed\")) T))\n",
      "\t\t\t\t\t\t\t\t\t\t\t\t (_\t\t\t. (prog (prinl \"! \" (|<- name) \": \" (term:red \"failed\")) NIL))))\n",
      "\t\t\t\t\t\t\t\t\t\t (prog\n",
      "\t\t\t\t\t\t\t\t\t\t\t (prinl \"! \" (|<- name) \": \" (term:red \"not found\"))\n",
      "\t\t\t\t\t\t\t\t\t\t\t NIL))))))\n",
      "\t\t(if (has args \"-t\")\n",
      "\t\t\t(let ((|<- . (term:left (pad TST))))\n",
      "\t\t\t\t(hdr)\n",
      "\t\t\t\t(foldl exe T TST))\n",
      "\t\t\t(let ((|<- . (term:left (pad TESTS))))\n",
      "\t\t\t\t(if (has args \"-l\")\n",
      "\t\t\t\t\t(prog\n",
      "\t\t\t\t\t\t(hdr)\n",
      "\t\t\t\t\t\t(iter (\\ ((name . _)) (prinl \"- \" (|<- name))) TESTS))\n",
      "\t\t\t\t\t(when (not (has args \"-h\"))\n",
      "\t\t\t\t\t\t(hdr)\n",
      "\t\t\t\t\t\t(foldl exe T TESTS))\n",
      "\t\t\t\t\t)))))\n",
      "\n",
      "(def test:slabdelta ()\n",
      "\t\"Return the slab allocator position.\"\n",
      "\t(let (((alloc . free) . (slabinfo))) (- alloc free)))\n",
      "\n",
      "(def assert:equal (EXPECT . ACTUAL)\n",
      "\t\"Assert that EXPECT and ACTUAL are equal.\"\n",
      "\t(let ((OP . (car ACTUAL))\n",
      "\t\t\t\t(EVAL . (eval OP)))\n",
      "\t\t(if (= EXPECT EVAL)\n",
      "\t\t\tT\n",
      "\t\t\t(prog\n",
      "\t\t\t\t(prinl (term:red \"> FAILED \"))\n",
      "\t\t\t\t(prin \"! \" (term:underlined \"Expect\") \": \")\n",
      "\t\t\t\t(printl EXPECT)\n",
      "\t\t\t\t(prin \"! \" (term:underlined \"Actual\") \": \")\n",
      "\t\t\t\t(printl EVAL)\n",
      "\t\t\t\tNIL\n",
      "\t\t\t\t))))\n",
      "\n",
      "(def assert:predicate (PREDICATE . VALUE)\n",
      "\t\"Assert that VALUE matches the PREDICATE.\"\n",
      "\t(let ((OP . (car VALUE))\n",
      "\t\t\t\t(EVAL . (eval OP)))\n",
      "\t\t(if (PREDICATE EVAL)\n",
      "\t\t\tT\n",
      "\t\t\t(prog\n",
      "\t\t\t\t(prinl (term:red \"> FAILED \"))\n",
      "\t\t\t\t(prin \"! \" (term:underlined \"Predicate\") \": \")\n",
      "\t\t\t\t(printl PREDICATE)\n",
      "\t\t\t\t(prin \"! \" (term:underlined \"Value\") \": \")\n",
      "\t\t\t\t(printl EVAL)\n",
      "\t\t\t\tNIL\n",
      "\t\t\t\t))))\n"]

/-- What the reader makes of it. -/
theorem test_text : drain (fun _ => .unsupported) 94 .init testText = .ok ⟨[], [], none,
    [testLoad, testUsageSrc, testOptions, testRunSrc, testSlabdeltaSrc, assertEqualSrc, assertPredicateSrc]⟩ := by
  rw [drain_eq]
  simp only [testText, fileText, List.flatMap_cons, List.flatMap_nil, litToList]
  decide +kernel


end Lib
end Mnml
