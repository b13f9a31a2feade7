import Verif.PropMore

/-!
# `share/mnml/cps.l`: conversion to continuation-passing style

The values and the texts, as in `Verif.Lib` and `Verif.LibText`. Here: lines 1-106, the conversion. The counts of
references are in `PropRefs` and `PropRefcount`, tables of types in `PropMark`, `PropTypes` and `PropFindl`. Not modelled: the rest of the file, which infers types
for the generator of C code (`cc.l`).
-/

namespace Mnml
namespace Lib

open Val Lex

/-- `share/mnml/cps.l:1-10`: the modules and files loaded first. -/
def cpsLoad : Val :=
  L [S "load", str "append.l", str "has.l", str "iterators.l", str "manips.l", str "ntoa.l", str "orelse.l",
    str "replc.l", str "rev.l", Q (S "logic"), Q (S "math"), Q (S "std")]

/-- `cps:symbol` (`share/mnml/cps.l:15-17`). -/
def cpsSymbolSrc : Val :=
  L [S "def", S "cps:symbol", L [S "id"], str "Generate a symbol placeholder using ID.", L [S "sym",
    L [S "cons", chr 95, L [S "ntoa", S "id"]]]]

/-- The value of `cps:symbol` once defined. -/
def cpsSymbolV : Val :=
  cons (L [S "id"]) (cons nil (L [L [S "sym", L [S "cons", chr 95, L [S "ntoa", S "id"]]]]))

theorem cpsSymbol_def (st : St) (h : st.globals Native.def_.name = some Native.def_.val) :
    sem nil cpsSymbolSrc st = .ok (S "cps:symbol", define "cps:symbol" cpsSymbolV st) := ok_def h rfl

/-- `cps:swap` (`share/mnml/cps.l:23-32`). -/
def cpsSwapSrc : Val :=
  L [S "def", S "cps:swap", L [S "kvar", S "counter", S "body"],
    str "Swap BODY funcall arguments with placeholders; append KVAR.", L [S "foldr", L [S "\\", L [S "e",
    cons (S "id") (S "result")], L [S "if", L [S "lst?", S "e"], L [S "let",
    L [cons (S "larg") (L [S "cps:symbol", S "id"]), cons (cons (S "next") wild) (L [S "cps:swap", S "kvar",
    L [S "+", S "id", N 1], S "e"])], L [S "cons", S "next", L [S "cons", S "larg", S "result"]]], L [S "cons",
    S "id", L [S "cons", S "e", S "result"]]]], S "body", L [S "cons", S "counter", S "kvar"]]]

/-- The value of `cps:swap` once defined. -/
def cpsSwapV : Val :=
  cons (L [S "kvar", S "counter", S "body"]) (cons nil (L [L [S "foldr", L [S "\\", L [S "e",
    cons (S "id") (S "result")], L [S "if", L [S "lst?", S "e"], L [S "let",
    L [cons (S "larg") (L [S "cps:symbol", S "id"]), cons (cons (S "next") wild) (L [S "cps:swap", S "kvar",
    L [S "+", S "id", N 1], S "e"])], L [S "cons", S "next", L [S "cons", S "larg", S "result"]]], L [S "cons",
    S "id", L [S "cons", S "e", S "result"]]]], S "body", L [S "cons", S "counter", S "kvar"]]]))

theorem cpsSwap_def (st : St) (h : st.globals Native.def_.name = some Native.def_.val) :
    sem nil cpsSwapSrc st = .ok (S "cps:swap", define "cps:swap" cpsSwapV st) := ok_def h rfl

/-- `cps:lift-ith` (`share/mnml/cps.l:38-44`). -/
def cpsLiftIthSrc : Val :=
  L [S "def", S "cps:lift-ith", L [S "kvar", S "counter", S "body"],
    str "Lift IF-BODY arguments into lambdas; use KVAR as external continuation.", L [S "let",
    L [cons (L [S "op", S "stmt", S "then"]) (S "body"),
    cons (cons (S "then:next") (S "then:body")) (L [S "cps:lift", S "kvar", S "counter", S "then"]),
    cons (S "nbody") (L [S "list", S "then:body"]),
    cons (cons (S "stmt:next") (S "stmt:body")) (L [S "cps:lift", S "nbody", S "then:next", L [S "list", S "op",
    S "stmt"]])], L [S "cons", S "stmt:next", S "stmt:body"]]]

/-- The value of `cps:lift-ith` once defined. -/
def cpsLiftIthV : Val :=
  cons (L [S "kvar", S "counter", S "body"]) (cons nil (L [L [S "let", L [cons (L [S "op", S "stmt",
    S "then"]) (S "body"), cons (cons (S "then:next") (S "then:body")) (L [S "cps:lift", S "kvar", S "counter",
    S "then"]), cons (S "nbody") (L [S "list", S "then:body"]),
    cons (cons (S "stmt:next") (S "stmt:body")) (L [S "cps:lift", S "nbody", S "then:next", L [S "list", S "op",
    S "stmt"]])], L [S "cons", S "stmt:next", S "stmt:body"]]]))

theorem cpsLiftIth_def (st : St) (h : st.globals Native.def_.name = some Native.def_.val) :
    sem nil cpsLiftIthSrc st = .ok (S "cps:lift-ith", define "cps:lift-ith" cpsLiftIthV st) := ok_def h rfl

/-- `cps:lift-ite` (`share/mnml/cps.l:46-53`). -/
def cpsLiftIteSrc : Val :=
  L [S "def", S "cps:lift-ite", L [S "kvar", S "counter", S "body"],
    str "Lift IF-BODY arguments into lambdas; use KVAR as external continuation.", L [S "let", L [cons (L [wild,
    S "stmt", S "then", S "else"]) (S "body"), cons (cons (S "else:next") (S "else:body")) (L [S "cps:lift",
    S "kvar", S "counter", S "else"]), cons (cons (S "then:next") (S "then:body")) (L [S "cps:lift", S "kvar",
    S "else:next", S "then"]), cons (S "nbody") (L [S "list", S "then:body", S "else:body"]),
    cons (cons (S "stmt:next") (S "stmt:body")) (L [S "cps:lift", S "nbody", S "then:next", L [S "list",
    Q (S "if"), S "stmt"]])], L [S "cons", S "stmt:next", S "stmt:body"]]]

/-- The value of `cps:lift-ite` once defined. -/
def cpsLiftIteV : Val :=
  cons (L [S "kvar", S "counter", S "body"]) (cons nil (L [L [S "let", L [cons (L [wild, S "stmt", S "then",
    S "else"]) (S "body"), cons (cons (S "else:next") (S "else:body")) (L [S "cps:lift", S "kvar", S "counter",
    S "else"]), cons (cons (S "then:next") (S "then:body")) (L [S "cps:lift", S "kvar", S "else:next",
    S "then"]), cons (S "nbody") (L [S "list", S "then:body", S "else:body"]),
    cons (cons (S "stmt:next") (S "stmt:body")) (L [S "cps:lift", S "nbody", S "then:next", L [S "list",
    Q (S "if"), S "stmt"]])], L [S "cons", S "stmt:next", S "stmt:body"]]]))

theorem cpsLiftIte_def (st : St) (h : st.globals Native.def_.name = some Native.def_.val) :
    sem nil cpsLiftIteSrc st = .ok (S "cps:lift-ite", define "cps:lift-ite" cpsLiftIteV st) := ok_def h rfl

/-- `cps:lift-any` (`share/mnml/cps.l:58-69`). -/
def cpsLiftAnySrc : Val :=
  L [S "def", S "cps:lift-any", L [S "kvar", S "counter", S "body"],
    str "Lift BODY arguments into lambdas; use KVAR as external continuation.", L [S "let",
    L [cons (cons wild (S "swapped")) (L [S "cps:swap", S "kvar", S "counter", S "body"])], L [S "foldr",
    L [S "\\", L [S "e", cons (S "id") (S "res")], L [S "if", L [S "lst?", S "e"], L [S "let",
    L [cons (S "largs") (L [S "list", L [S "cps:symbol", S "id"]]), cons (S "lfunc") (L [S "list", L [S "list",
    Q (S "\\"), S "largs", S "res"]]), cons (cons (S "next") (S "nbody")) (L [S "cps:lift", S "lfunc", L [S "+",
    S "id", N 1], S "e"])], L [S "cons", S "next", S "nbody"]], L [S "cons", S "id", S "res"]]], L [S "cdr",
    S "body"], L [S "cons", S "counter", S "swapped"]]]]

/-- The value of `cps:lift-any` once defined. -/
def cpsLiftAnyV : Val :=
  cons (L [S "kvar", S "counter", S "body"]) (cons nil (L [L [S "let",
    L [cons (cons wild (S "swapped")) (L [S "cps:swap", S "kvar", S "counter", S "body"])], L [S "foldr",
    L [S "\\", L [S "e", cons (S "id") (S "res")], L [S "if", L [S "lst?", S "e"], L [S "let",
    L [cons (S "largs") (L [S "list", L [S "cps:symbol", S "id"]]), cons (S "lfunc") (L [S "list", L [S "list",
    Q (S "\\"), S "largs", S "res"]]), cons (cons (S "next") (S "nbody")) (L [S "cps:lift", S "lfunc", L [S "+",
    S "id", N 1], S "e"])], L [S "cons", S "next", S "nbody"]], L [S "cons", S "id", S "res"]]], L [S "cdr",
    S "body"], L [S "cons", S "counter", S "swapped"]]]]))

theorem cpsLiftAny_def (st : St) (h : st.globals Native.def_.name = some Native.def_.val) :
    sem nil cpsLiftAnySrc st = .ok (S "cps:lift-any", define "cps:lift-any" cpsLiftAnyV st) := ok_def h rfl

/-- `cps:lift` (`share/mnml/cps.l:74-94`). -/
def cpsLiftSrc : Val :=
  L [S "def", S "cps:lift", L [S "kvar", S "counter", S "body"],
    str "Lift BODY arguments into lambdas; use KVAR as external continuation.", L [S "cond", S "body",
    cons (S "lst?") (L [S "match", S "body", cons (L [S "when", wild, wild]) (L [S "cps:lift-ith", S "kvar",
    S "counter", S "body"]), cons (L [S "unless", wild, wild]) (L [S "cps:lift-ith", S "kvar", S "counter",
    S "body"]), cons (L [S "if", wild, wild]) (L [S "cps:lift-ith", S "kvar", S "counter", S "body"]),
    cons (L [S "if", wild, wild, wild]) (L [S "cps:lift-ite", S "kvar", S "counter", S "body"]),
    cons wild (L [S "cps:lift-any", S "kvar", S "counter", S "body"])]), cons wild (L [S "cons", S "counter",
    L [S "append", S "kvar", L [S "list", S "body"]]])]]

/-- The value of `cps:lift` once defined. -/
def cpsLiftV : Val :=
  cons (L [S "kvar", S "counter", S "body"]) (cons nil (L [L [S "cond", S "body", cons (S "lst?") (L [S "match",
    S "body", cons (L [S "when", wild, wild]) (L [S "cps:lift-ith", S "kvar", S "counter", S "body"]),
    cons (L [S "unless", wild, wild]) (L [S "cps:lift-ith", S "kvar", S "counter", S "body"]), cons (L [S "if",
    wild, wild]) (L [S "cps:lift-ith", S "kvar", S "counter", S "body"]), cons (L [S "if", wild, wild,
    wild]) (L [S "cps:lift-ite", S "kvar", S "counter", S "body"]), cons wild (L [S "cps:lift-any", S "kvar",
    S "counter", S "body"])]), cons wild (L [S "cons", S "counter", L [S "append", S "kvar", L [S "list",
    S "body"]]])]]))

theorem cpsLift_def (st : St) (h : st.globals Native.def_.name = some Native.def_.val) :
    sem nil cpsLiftSrc st = .ok (S "cps:lift", define "cps:lift" cpsLiftV st) := ok_def h rfl

/-- `>&` (`share/mnml/cps.l:99-106`). -/
def toCpsSrc : Val :=
  L [S "def", S ">&", L [S "fsym"], str "Convert FSYM into its continuation-passing style.", L [S "let",
    L [cons (L [S "args", S "closure", S "body"]) (L [S "eval", S "fsym"]), cons (S "arglen") (L [S "len",
    S "args"]), cons (S "kvar") (L [S "list", L [S "sym", L [S "cons", chr 95, L [S "ntoa", S "arglen"]]]]),
    cons (S "fargs") (L [S "append", S "args", S "kvar"]), cons (cons wild (S "lifted")) (L [S "cps:lift",
    S "kvar", L [S "+", S "arglen", N 1], S "body"])], L [S "cons", S "fargs", L [S "cons", S "closure",
    L [S "list", S "lifted"]]]]]

/-- The value of `>&` once defined. -/
def toCpsV : Val :=
  cons (L [S "fsym"]) (cons nil (L [L [S "let", L [cons (L [S "args", S "closure", S "body"]) (L [S "eval",
    S "fsym"]), cons (S "arglen") (L [S "len", S "args"]), cons (S "kvar") (L [S "list", L [S "sym",
    L [S "cons", chr 95, L [S "ntoa", S "arglen"]]]]), cons (S "fargs") (L [S "append", S "args", S "kvar"]),
    cons (cons wild (S "lifted")) (L [S "cps:lift", S "kvar", L [S "+", S "arglen", N 1], S "body"])],
    L [S "cons", S "fargs", L [S "cons", S "closure", L [S "list", S "lifted"]]]]]))

theorem toCps_def (st : St) (h : st.globals Native.def_.name = some Native.def_.val) :
    sem nil toCpsSrc st = .ok (S ">&", define ">&" toCpsV st) := ok_def h rfl

/-- The expression after the tilde (`share/mnml/cps.l:81-85`). -/
def liftTilde : Val :=
  L [S "foldl", L [S "\\", L [S "acc", S "e"], L [S "cons", L [S "cons", L [S "list", S "e", wild, wild],
    Q (L [S "cps:lift-ith", S "kvar", S "counter", S "body"])], S "acc"]], nil, Q (L [S "if", S "unless",
    S "when"])]

/-- Its value: the clauses for `when`, `unless` and `if` without else. -/
def liftTildeV : Val :=
  L [cons (L [S "when", wild, wild]) (L [S "cps:lift-ith", S "kvar", S "counter", S "body"]),
    cons (L [S "unless", wild, wild]) (L [S "cps:lift-ith", S "kvar", S "counter", S "body"]), cons (L [S "if",
    wild, wild]) (L [S "cps:lift-ith", S "kvar", S "counter", S "body"])]

/-- The text of `share/mnml/cps.l`, lines 1-106. -/
def cpsText : List UInt8 :=
  fileText [
      "(load\n",
      "\t\"append.l\"\n",
      "\t\"has.l\"\n",
      "\t\"iterators.l\"\n",
      "\t\"manips.l\"\n",
      "\t\"ntoa.l\"\n",
      "\t\"orelse.l\"\n",
      "\t\"replc.l\"\n",
      "\t\"rev.l\"\n",
      "\t'logic 'math 'std)\n",
      "\n",
      "#\n",
      "# Make a symbol placeholder\n",
      "#\n",
      "(def cps:symbol (id)\n",
      "\t\"Generate a symbol placeholder using ID.\"\n",
      "\t(sym (cons ^_ (ntoa id))))\n",
      "\n",
      "#\n",
      "# Reverse-scan a function body and replace the funcall arguments with\n",
      "# numbered placeholders like _0, _1, or _2.\n",
      "#\n",
      "(def cps:swap (kvar counter body)\n",
      "\t\"Swap BODY funcall arguments with placeholders; append KVAR.\"\n",
      "\t(foldr (\\ (e (id . result))\n",
      "\t\t\t\t\t (if (lst? e)\n",
      "\t\t\t\t\t\t (let ((larg . (cps:symbol id))\n",
      "\t\t\t\t\t\t\t\t\t ((next . _) . (cps:swap kvar (+ id 1) e)))\n",
      "\t\t\t\t\t\t\t (cons next (cons larg result)))\n",
      "\t\t\t\t\t\t (cons id (cons e result))))\n",
      "\t\tbody\n",
      "\t\t(cons counter kvar)))\n",
      "\n",
      "#\n",
      "# Lift an if-then-else funcall into wrapping lambdas for the statement and\n",
      "# the then/else parts separately.\n",
      "#\n",
      "(def cps:lift-ith (kvar counter body)\n",
      "\t\"Lift IF-BODY arguments into lambdas; use KVAR as external continuation.\"\n",
      "\t(let (((op stmt then)\t\t\t\t\t. body)\n",
      "\t\t\t\t((then:next . then:body) . (cps:lift kvar counter then))\n",
      "\t\t\t\t(nbody\t\t\t\t\t\t\t\t\t . (list then:body))\n",
      "\t\t\t\t((stmt:next . stmt:body) . (cps:lift nbody then:next (list op stmt))))\n",
      "\t\t(cons stmt:next stmt:body)))\n",
      "\n",
      "(def cps:lift-ite (kvar counter body)\n",
      "\t\"Lift IF-BODY arguments into lambdas; use KVAR as external continuation.\"\n",
      "\t(let (((_ stmt then else)\t\t\t. body)\n",
      "\t\t\t\t((else:next . else:body) . (cps:lift kvar counter else))\n",
      "\t\t\t\t((then:next . then:body) . (cps:lift kvar else:next then))\n",
      "\t\t\t\t(nbody\t\t\t\t\t\t\t\t\t . (list then:body else:body))\n",
      "\t\t\t\t((stmt:next . stmt:body) . (cps:lift nbody then:next (list 'if stmt))))\n",
      "\t\t(cons stmt:next stmt:body)))\n",
      "\n",
      "#\n",
      "# Lift a generic funcall into wrapping lambdas.\n",
      "#\n",
      "(def cps:lift-any (kvar counter body)\n",
      "\t\"Lift BODY arguments into lambdas; use KVAR as external continuation.\"\n",
      "\t(let (((_ . swapped) . (cps:swap kvar counter body)))\n",
      "\t\t(foldr (\\ (e (id . res))\n",
      "\t\t\t\t\t\t (if (lst? e)\n",
      "\t\t\t\t\t\t\t (let ((largs . (list (cps:symbol id)))\n",
      "\t\t\t\t\t\t\t\t\t\t (lfunc . (list (list '\\ largs res)))\n",
      "\t\t\t\t\t\t\t\t\t\t ((next . nbody) . (cps:lift lfunc (+ id 1) e)))\n",
      "\t\t\t\t\t\t\t\t (cons next nbody))\n",
      "\t\t\t\t\t\t\t (cons id res)))\n",
      "\t\t\t(cdr body)\n",
      "\t\t\t(cons counter swapped))))\n",
      "\n",
      "#\n",
      "# Lift a funcall into wrapping lambdas.\n",
      "#\n",
      "(def cps:lift (kvar counter body)\n",
      "\t\"Lift BODY arguments into lambdas; use KVAR as external continuation.\"\n",
      "\t(cond body\n",
      "\t\t(lst? . (match body\n",
      "\t\t\t\t\t\t\t#\n",
      "\t\t\t\t\t\t\t# IF/THEN forms,\n",
      "\t\t\t\t\t\t\t#\n",
      "\t\t\t\t\t\t\t~(foldl\n",
      "\t\t\t\t\t\t\t\t (\\ (acc e) (cons (cons (list e _ _)\n",
      "\t\t\t\t\t\t\t\t\t\t\t\t\t\t\t\t\t\t'(cps:lift-ith kvar counter body))\n",
      "\t\t\t\t\t\t\t\t\t\t\t\t\t\t\tacc))\n",
      "\t\t\t\t\t\t\t\t NIL '(if unless when))\n",
      "\t\t\t\t\t\t\t#\n",
      "\t\t\t\t\t\t\t# IF/THEN/ELSE form.\n",
      "\t\t\t\t\t\t\t#\n",
      "\t\t\t\t\t\t\t((if _ _ _) . (cps:lift-ite kvar counter body))\n",
      "\t\t\t\t\t\t\t#\n",
      "\t\t\t\t\t\t\t# Generic form.\n",
      "\t\t\t\t\t\t\t#\n",
      "\t\t\t\t\t\t\t(_ . (cps:lift-any kvar counter body))))\n",
      "\t\t(_\t. (cons counter (append kvar (list body))))))\n",
      "\n",
      "#\n",
      "# Convert a function in direct style into CPS.\n",
      "#\n",
      "(def >& (fsym)\n",
      "\t\"Convert FSYM into its continuation-passing style.\"\n",
      "\t(let (((args closure body)\t. (eval fsym))\n",
      "\t\t\t\t(arglen\t\t\t\t\t\t\t\t. (len args))\n",
      "\t\t\t\t(kvar\t\t\t\t\t\t\t\t\t. (list (sym (cons ^_ (ntoa arglen)))))\n",
      "\t\t\t\t(fargs\t\t\t\t\t\t\t\t. (append args kvar))\n",
      "\t\t\t\t((_ . lifted)\t\t\t\t\t. (cps:lift kvar (+ arglen 1) body)))\n",
      "\t\t(cons fargs (cons closure (list lifted)))))\n"]

/-- What the reader makes of it, where evaluating the expression after the tilde gives `liftTildeV` (`C82_clauses`). -/
theorem cps_text : drain (fun v => if v = liftTilde then .ok liftTildeV else .unsupported) 107 .init cpsText = .ok ⟨[], [], none,
    [cpsLoad, cpsSymbolSrc, cpsSwapSrc, cpsLiftIthSrc, cpsLiftIteSrc, cpsLiftAnySrc, cpsLiftSrc, toCpsSrc]⟩ := by
  rw [drain_eq]
  simp only [cpsText, fileText, List.flatMap_cons, List.flatMap_nil, litToList]
  decide +kernel

end Lib
end Mnml
