import Verif.PropMore

/-!
# `share/mnml/args.l` and `share/mnml/term.l`

The values and the texts, as in `Verif.Lib` and `Verif.LibText`.
-/

namespace Mnml
namespace Lib

open Val Lex

/-! ## `share/mnml/args.l` -/

/-- `share/mnml/args.l:1-6`. -/
def argsLoad : Val :=
  L [S "load", str "manips.l", Q (L [S "logic", S "or", S "="]), Q (L [S "io", S "prinl"]), Q (L [S "math",
    S "-", S ">"]), Q (L [S "std", S "if", S "nil?", S "cdr", S "cons", S "car", S "eval", S "len", S "let",
    S "prog"])]

/-- `args:skip` (`share/mnml/args.l:8-12`). -/
def argsSkipSrc : Val :=
  L [S "def", S "args:skip", L [S "LST", S "LEN"], str "Extract sublist of LEN from LST.", L [S "if", L [S "or",
    L [S "=", N 0, S "LEN"], L [S "nil?", S "LST"]], S "LST", L [S "args:skip", L [S "cdr", S "LST"], L [S "-",
    S "LEN", N 1]]]]

/-- The value of `args:skip` once defined: the tail calls are marked. -/
def argsSkipV : Val :=
  cons (L [S "LST", S "LEN"]) (cons nil (L [L [S "if", L [S "or", L [S "=", N 0, S "LEN"], L [S "nil?",
    S "LST"]], S "LST", L [T "args:skip", L [S "cdr", S "LST"], L [S "-", S "LEN", N 1]]]]))

theorem argsSkip_def (st : St) (h : st.globals Native.def_.name = some Native.def_.val) :
    sem nil argsSkipSrc st = .ok (S "args:skip", define "args:skip" argsSkipV st) := ok_def h rfl

/-- `args:parse_r` (`share/mnml/args.l:14-33`). -/
def argsParseRSrc : Val :=
  L [S "def", S "args:parse_r", L [S "SCHEMA", S "LST", S "RES"],
    str "Recursively match flags in LST with SCHEMA.", L [S "if", L [S "nil?", S "LST"], S "RES", L [S "let",
    L [cons (cons (S "hd") (S "tl")) (S "LST"), cons (S "fun") (L [S "eval", L [S "assoc", S "hd",
    S "SCHEMA"]]), cons (S "sze") (L [S "len", L [S "car", S "fun"]]), cons (S "nxt") (L [S "args:skip", S "tl",
    S "sze"])], L [S "if", L [S "nil?", S "fun"], L [S "prog", L [S "prinl", str "Unknown flag: ", S "hd"],
    nil], L [S "if", L [S ">", S "sze", L [S "len", S "tl"]], L [S "prog", L [S "prinl",
    str "Not enough values for flag: ", S "hd"], nil], L [S "prog", L [S "eval", L [S "cons", L [S "cons",
    Q (S "quote"), S "fun"], L [S "truncl", S "sze", S "tl"]]], L [S "args:parse_r", S "SCHEMA", S "nxt",
    L [S "cons", S "hd", S "RES"]]]]]]]]

/-- The value of `args:parse_r` once defined: the tail calls are marked. -/
def argsParseRV : Val :=
  cons (L [S "SCHEMA", S "LST", S "RES"]) (cons nil (L [L [S "if", L [S "nil?", S "LST"], S "RES", L [S "let",
    L [cons (cons (S "hd") (S "tl")) (S "LST"), cons (S "fun") (L [S "eval", L [S "assoc", S "hd",
    S "SCHEMA"]]), cons (S "sze") (L [S "len", L [S "car", S "fun"]]), cons (S "nxt") (L [S "args:skip", S "tl",
    S "sze"])], L [S "if", L [S "nil?", S "fun"], L [S "prog", L [S "prinl", str "Unknown flag: ", S "hd"],
    nil], L [S "if", L [S ">", S "sze", L [S "len", S "tl"]], L [S "prog", L [S "prinl",
    str "Not enough values for flag: ", S "hd"], nil], L [S "prog", L [S "eval", L [S "cons", L [S "cons",
    Q (S "quote"), S "fun"], L [S "truncl", S "sze", S "tl"]]], L [S "args:parse_r", S "SCHEMA", S "nxt",
    L [S "cons", S "hd", S "RES"]]]]]]]]))

theorem argsParseR_def (st : St) (h : st.globals Native.def_.name = some Native.def_.val) :
    sem nil argsParseRSrc st = .ok (S "args:parse_r", define "args:parse_r" argsParseRV st) := ok_def h rfl

/-- `args:parse` (`share/mnml/args.l:35-37`). -/
def argsParseSrc : Val :=
  L [S "def", S "args:parse", L [S "SCHEMA"], str "Parse ARGV according to SCHEMA.", L [S "args:parse_r",
    S "SCHEMA", L [S "cdr", S "ARGV"], nil]]

/-- The value of `args:parse` once defined: the tail calls are marked. -/
def argsParseV : Val :=
  cons (L [S "SCHEMA"]) (cons nil (L [L [S "args:parse_r", S "SCHEMA", L [S "cdr", S "ARGV"], nil]]))

theorem argsParse_def (st : St) (h : st.globals Native.def_.name = some Native.def_.val) :
    sem nil argsParseSrc st = .ok (S "args:parse", define "args:parse" argsParseV st) := ok_def h rfl

/-- The text of `share/mnml/args.l`. -/
def argsText : List UInt8 :=
  fileText [
      "(load\n",
      "\t\"manips.l\"\n",
      "\t'(logic or =)\n",
      "\t'(io prinl)\n",
      "\t'(math - >)\n",
      "\t'(std if nil? cdr cons car eval len let prog))\n",
      "\n",
      "(def args:skip (LST LEN)\n",
      "\t\"Extract sublist of LEN from LST.\"\n",
      "\t(if (or (= 0 LEN) (nil? LST))\n",
      "\t\tLST\n",
      "\t\t(args:skip (cdr LST) (- LEN 1))))\n",
      "\n",
      "(def args:parse_r (SCHEMA LST RES)\n",
      "\t\"Recursively match flags in LST with SCHEMA.\"\n",
      "\t(if (nil? LST)\n",
      "\t\tRES\n",
      "\t\t(let (((hd . tl) . LST)\n",
      "\t\t\t\t\t(fun . (eval (assoc hd SCHEMA)))\n",
      "\t\t\t\t\t(sze . (len (car fun)))\n",
      "\t\t\t\t\t(nxt . (args:skip tl sze)))\n",
      "\t\t\t(if (nil? fun)\n",
      "\t\t\t\t(prog\n",
      "\t\t\t\t\t(prinl \"Unknown flag: \" hd)\n",
      "\t\t\t\t\tNIL)\n",
      "\t\t\t\t(if (> sze (len tl))\n",
      "\t\t\t\t\t(prog\n",
      "\t\t\t\t\t\t(prinl \"Not enough values for flag: \" hd)\n",
      "\t\t\t\t\t\tNIL)\n",
      "\t\t\t\t\t(prog\n",
      "\t\t\t\t\t\t(eval (cons (cons 'quote fun) (truncl sze tl)))\n",
      "\t\t\t\t\t\t(args:parse_r SCHEMA nxt (cons hd RES)))\n",
      "\t\t\t\t\t)))))\n",
      "\n",
      "(def args:parse (SCHEMA)\n",
      "\t\"Parse ARGV according to SCHEMA.\"\n",
      "\t(args:parse_r SCHEMA (cdr ARGV) NIL))\n"]

/-- What the reader makes of it. -/
theorem args_text : drain (fun _ => .unsupported) 38 .init argsText = .ok ⟨[], [], none,
    [argsLoad, argsSkipSrc, argsParseRSrc, argsParseSrc]⟩ := by
  rw [drain_eq]
  simp only [argsText, fileText, List.flatMap_cons, List.flatMap_nil, litToList]
  decide +kernel

/-! ## `share/mnml/term.l` -/

/-- `share/mnml/term.l:1-7`. -/
def termLoad : Val :=
  L [S "load", str "append.l", str "iter.l", str "manips.l", str "truncr.l", Q (L [S "math", S ">=", S "-"]),
    Q (L [S "std", S "|>", S "if", S "sym", S "len", S "list", S "eval", S "cons", S "chr", S "\\"])]

/-- `term:esc` (`share/mnml/term.l:12-21`). -/
def termEscSrc : Val :=
  L [S "def", S "term:esc", L [S "CODE", S "STR"], str "Escape STR with CODE.", L [S "|>", str "[0m",
    L [S "cons", L [S "chr", N 27]], L [S "$+", S "STR"], L [S "cons", chr 109], L [S "$+", S "CODE"],
    L [S "cons", chr 91], L [S "cons", L [S "chr", N 27]]]]

/-- The value of `term:esc` once defined: the tail calls are marked. -/
def termEscV : Val :=
  cons (L [S "CODE", S "STR"]) (cons nil (L [L [S "|>", str "[0m", L [S "cons", L [S "chr", N 27]], L [S "$+",
    S "STR"], L [S "cons", chr 109], L [S "$+", S "CODE"], L [S "cons", chr 91], L [S "cons", L [S "chr",
    N 27]]]]))

theorem termEsc_def (st : St) (h : st.globals Native.def_.name = some Native.def_.val) :
    sem nil termEscSrc st = .ok (S "term:esc", define "term:esc" termEscV st) := ok_def h rfl

/-- `share/mnml/term.l:26-53`. -/
def termIter : Val :=
  L [S "iter", L [S "\\", L [cons (S "name") (S "code")], L [S "let", L [cons (S "symb") (L [S "sym",
    L [S "append", str "term:", S "name"]]), cons (S "body") (L [S "list", Q (S "term:esc"), S "code",
    Q (S "STR")])], L [S "eval", L [S "list", Q (S "def"), S "symb", Q (L [S "STR"]), S "body"]]]],
    Q (L [cons (str "normal") (str "0"), cons (str "bold") (str "1"), cons (str "italic") (str "3"),
    cons (str "underlined") (str "4"), cons (str "reversed") (str "7"), cons (str "striked") (str "9"),
    cons (str "black") (str "0;30"), cons (str "red") (str "0;31"), cons (str "green") (str "0;32"),
    cons (str "orange") (str "0;33"), cons (str "blue") (str "0;34"), cons (str "purple") (str "0;35"),
    cons (str "cyan") (str "0;36"), cons (str "gray+") (str "0;37"), cons (str "gray-") (str "1;30"),
    cons (str "red+") (str "1;31"), cons (str "green+") (str "1;32"), cons (str "yellow") (str "1;33"),
    cons (str "blue+") (str "1;34"), cons (str "purple+") (str "1;35"), cons (str "cyan+") (str "1;36"),
    cons (str "white") (str "1;37")])]

/-- `term:left` (`share/mnml/term.l:58-63`). -/
def termLeftSrc : Val :=
  L [S "def", S "term:left", L [S "WLEN", S "STR"], str "Pad STR to the left using WLEN length.", L [S "let",
    L [cons (S "delta") (L [S "-", S "WLEN", L [S "len", S "STR"]])], L [S "if", L [S ">=", S "delta", N 0],
    L [S "$+", S "STR", L [S "rep", S "delta", chr 32]], L [S "truncl", S "WLEN", S "STR"]]]]

/-- The value of `term:left` once defined: the tail calls are marked. -/
def termLeftV : Val :=
  cons (L [S "WLEN", S "STR"]) (cons nil (L [L [S "let", L [cons (S "delta") (L [S "-", S "WLEN", L [S "len",
    S "STR"]])], L [S "if", L [S ">=", S "delta", N 0], L [S "$+", S "STR", L [S "rep", S "delta", chr 32]],
    L [S "truncl", S "WLEN", S "STR"]]]]))

theorem termLeft_def (st : St) (h : st.globals Native.def_.name = some Native.def_.val) :
    sem nil termLeftSrc st = .ok (S "term:left", define "term:left" termLeftV st) := ok_def h rfl

/-- `term:right` (`share/mnml/term.l:65-70`). -/
def termRightSrc : Val :=
  L [S "def", S "term:right", L [S "WLEN", S "STR"], str "Pad STR to the right using WLEN length.", L [S "let",
    L [cons (S "delta") (L [S "-", S "WLEN", L [S "len", S "STR"]])], L [S "if", L [S ">=", S "delta", N 0],
    L [S "$+", L [S "rep", S "delta", chr 32], S "STR"], L [S "truncr", S "WLEN", S "STR"]]]]

/-- The value of `term:right` once defined: the tail calls are marked. -/
def termRightV : Val :=
  cons (L [S "WLEN", S "STR"]) (cons nil (L [L [S "let", L [cons (S "delta") (L [S "-", S "WLEN", L [S "len",
    S "STR"]])], L [S "if", L [S ">=", S "delta", N 0], L [S "$+", L [S "rep", S "delta", chr 32], S "STR"],
    L [S "truncr", S "WLEN", S "STR"]]]]))

theorem termRight_def (st : St) (h : st.globals Native.def_.name = some Native.def_.val) :
    sem nil termRightSrc st = .ok (S "term:right", define "term:right" termRightV st) := ok_def h rfl

/-- The text of `share/mnml/term.l`. -/
def termText : List UInt8 :=
  fileText [
      "(load\n",
      "\t\"append.l\"\n",
      "\t\"iter.l\"\n",
      "\t\"manips.l\"\n",
      "\t\"truncr.l\"\n",
      "\t'(math >= -)\n",
      "\t'(std |> if sym len list eval cons chr \\))\n",
      "\n",
      "#\n",
      "# Escape STR with CODE.\n",
      "#\n",
      "(def term:esc (CODE STR)\n",
      "\t\"Escape STR with CODE.\"\n",
      "\t(|>\n",
      "\t\t\"[0m\"\n",
      "\t\t(cons (chr 27))\n",
      "\t\t($+ STR)\n",
      "\t\t(cons ^m)\n",
      "\t\t($+ CODE)\n",
      "\t\t(cons ^[)\n",
      "\t\t(cons (chr 27))))\n",
      "\n",
      "#\n",
      "# Generate formatting escape definitions.\n",
      "#\n",
      "(iter (\\ ((name . code))\n",
      "\t\t\t\t(let ((symb . (sym (append \"term:\" name)))\n",
      "\t\t\t\t\t\t\t(body . (list 'term:esc code 'STR)))\n",
      "\t\t\t\t\t(eval (list 'def symb '(STR) body))))\n",
      "\t'((\"normal\"\t\t\t. \"0\")\n",
      "\t\t(\"bold\"\t\t\t \t. \"1\")\n",
      "\t\t(\"italic\"\t\t \t. \"3\")\n",
      "\t\t(\"underlined\"\t. \"4\")\n",
      "\t\t(\"reversed\"\t\t. \"7\")\n",
      "\t\t(\"striked\"\t\t. \"9\")\n",
      "\t\t#\n",
      "\t\t(\"black\"\t\t. \"0;30\")\n",
      "\t\t(\"red\"\t\t\t. \"0;31\")\n",
      "\t\t(\"green\"\t\t. \"0;32\")\n",
      "\t\t(\"orange\"\t\t. \"0;33\")\n",
      "\t\t(\"blue\"\t\t\t. \"0;34\")\n",
      "\t\t(\"purple\"\t\t. \"0;35\")\n",
      "\t\t(\"cyan\"\t\t\t. \"0;36\")\n",
      "\t\t(\"gray+\"\t\t. \"0;37\")\n",
      "\t\t(\"gray-\"\t\t. \"1;30\")\n",
      "\t\t(\"red+\"\t\t\t. \"1;31\")\n",
      "\t\t(\"green+\"\t\t. \"1;32\")\n",
      "\t\t(\"yellow\"\t\t. \"1;33\")\n",
      "\t\t(\"blue+\"\t\t. \"1;34\")\n",
      "\t\t(\"purple+\"\t. \"1;35\")\n",
      "\t\t(\"cyan+\"\t \t. \"1;36\")\n",
      "\t\t(\"white\"\t \t. \"1;37\")\n",
      "\t\t))\n",
      "\n",
      "#\n",
      "# Padding operations.\n",
      "#\n",
      "(def term:left (WLEN STR)\n",
      "\t\"Pad STR to the left using WLEN length.\"\n",
      "\t(let ((delta . (- WLEN (len STR))))\n",
      "\t\t(if (>= delta 0)\n",
      "\t\t\t($+ STR (rep delta ^ ))\n",
      "\t\t\t(truncl WLEN STR))))\n",
      "\n",
      "(def term:right (WLEN STR)\n",
      "\t\"Pad STR to the right using WLEN length.\"\n",
      "\t(let ((delta . (- WLEN (len STR))))\n",
      "\t\t(if (>= delta 0)\n",
      "\t\t\t($+ (rep delta ^ ) STR)\n",
      "\t\t\t(truncr WLEN STR))))\n"]

/-- What the reader makes of it. -/
theorem term_text : drain (fun _ => .unsupported) 71 .init termText = .ok ⟨[], [], none,
    [termLoad, termEscSrc, termIter, termLeftSrc, termRightSrc]⟩ := by
  rw [drain_eq]
  simp only [termText, fileText, List.flatMap_cons, List.flatMap_nil, litToList]
  decide +kernel

end Lib
end Mnml
