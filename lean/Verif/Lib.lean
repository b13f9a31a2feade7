import Verif.LibSem

/-!
# The lisp library

The definitions of `share/mnml/*.l` as lisp values, and for every function a theorem that evaluating its
definition stores the function value used in the properties (C49 and on). `Verif.LibText` checks that the
reader makes these values from the text of the files.

The properties of the functions assume that the names they use have their standard values. That loading the file provides them
is C60 (`Verif.PropLoad`).
-/

namespace Mnml
namespace Lib

open Val

/-- A marked name: the head of a tail call. -/
def T (s : String) : Val := sym true (n s)
/-- A string literal. -/
def str (s : String) : Val := ofList (s.toList.map fun c => chr c.toNat)

/-- The state after defining a name. -/
def define (s : String) (v : Val) (st : St) : St :=
  { st with globals := fun t => if t = n s then some v else st.globals t }

theorem ok_def {st : St} {s : String} {any v : Val} (h : st.globals Native.def_.name = some Native.def_.val)
    (hd : defV any = (do setGlobal (n s) v; pure (S s))) :
    sem nil (cons (S "def") any) st = .ok (S s, define s v st) := by
  have hr : Resolves nil st (n "def") Native.def_.val :=
    resolves_global (l := []) rfl (by rw [← h]; congr 1)
  show sem nil (pair false (sym false (n "def")) any) st = _
  rw [sem_any _ hr rfl]
  simp only [semAny, nativeAny]
  rw [hd]
  rfl

/-! ## `share/mnml/iterators.l` -/

/-- `share/mnml/iterators.l:1-3`: the modules and files loaded first. -/
def iteratorsLoad : Val :=
  L [S "load", Q (L [S "logic", S "and", S "not"]), Q (L [S "std", S "if", S "lst?", S "nil?", S "car", S "cdr",
    S "cons"])]

/-- `foldl` (`share/mnml/iterators.l:5-11`). -/
def foldlSrc : Val :=
  L [S "def", S "foldl", L [S "fun", S "acc", S "lst"],
    str "Left-fold FUN over LST with ACC as the default accumulator value.", L [S "if", L [S "lst?", S "lst"],
    L [S "if", L [S "nil?", S "lst"], S "acc", L [S "foldl", S "fun", L [S "fun", S "acc", L [S "car",
    S "lst"]], L [S "cdr", S "lst"]]], L [S "fun", S "acc", S "lst"]]]

/-- The value of `foldl` once defined: the tail calls are marked. -/
def foldlV : Val :=
  cons (L [S "fun", S "acc", S "lst"]) (cons nil (L [L [S "if", L [S "lst?", S "lst"], L [S "if", L [S "nil?",
    S "lst"], S "acc", L [T "foldl", S "fun", L [S "fun", S "acc", L [S "car", S "lst"]], L [S "cdr",
    S "lst"]]], L [S "fun", S "acc", S "lst"]]]))

theorem foldl_def (st : St) (h : st.globals Native.def_.name = some Native.def_.val) :
    sem nil foldlSrc st = .ok (S "foldl", define "foldl" foldlV st) := ok_def h rfl

/-- `foldr` (`share/mnml/iterators.l:13-19`). -/
def foldrSrc : Val :=
  L [S "def", S "foldr", L [S "fun", S "lst", S "acc"],
    str "Right-fold FUN over LST with ACC as the default accumulator value.", L [S "if", L [S "lst?", S "lst"],
    L [S "if", L [S "nil?", S "lst"], S "acc", L [S "fun", L [S "car", S "lst"], L [S "foldr", S "fun",
    L [S "cdr", S "lst"], S "acc"]]], L [S "fun", S "lst", S "acc"]]]

/-- The value of `foldr` once defined: the tail calls are marked. -/
def foldrV : Val :=
  cons (L [S "fun", S "lst", S "acc"]) (cons nil (L [L [S "if", L [S "lst?", S "lst"], L [S "if", L [S "nil?",
    S "lst"], S "acc", L [S "fun", L [S "car", S "lst"], L [S "foldr", S "fun", L [S "cdr", S "lst"],
    S "acc"]]], L [S "fun", S "lst", S "acc"]]]))

theorem foldr_def (st : St) (h : st.globals Native.def_.name = some Native.def_.val) :
    sem nil foldrSrc st = .ok (S "foldr", define "foldr" foldrV st) := ok_def h rfl

/-- `map` (`share/mnml/iterators.l:21-27`). -/
def mapSrc : Val :=
  L [S "def", S "map", L [S "fun", S "lst"], str "Sequentially apply FUN to all elements of LST.", L [S "if",
    L [S "and", L [S "not", L [S "nil?", S "lst"]], L [S "lst?", S "lst"]], L [S "cons", L [S "fun", L [S "car",
    S "lst"]], L [S "map", S "fun", L [S "cdr", S "lst"]]], S "lst"]]

/-- The value of `map` once defined: the tail calls are marked. -/
def mapV : Val :=
  cons (L [S "fun", S "lst"]) (cons nil (L [L [S "if", L [S "and", L [S "not", L [S "nil?", S "lst"]],
    L [S "lst?", S "lst"]], L [S "cons", L [S "fun", L [S "car", S "lst"]], L [S "map", S "fun", L [S "cdr",
    S "lst"]]], S "lst"]]))

theorem map_def (st : St) (h : st.globals Native.def_.name = some Native.def_.val) :
    sem nil mapSrc st = .ok (S "map", define "map" mapV st) := ok_def h rfl

/-- `map2` (`share/mnml/iterators.l:29-34`). -/
def map2Src : Val :=
  L [S "def", S "map2", L [S "fun", S "lst1", S "lst2"], str "Apply FUN to all elements of both LST1 and LST2.",
    L [S "if", L [S "and", L [S "and", L [S "not", L [S "nil?", S "lst1"]], L [S "lst?", S "lst1"]], L [S "and",
    L [S "not", L [S "nil?", S "lst2"]], L [S "lst?", S "lst2"]]], L [S "cons", L [S "fun", L [S "car",
    S "lst1"], L [S "car", S "lst2"]], L [S "map2", S "fun", L [S "cdr", S "lst1"], L [S "cdr", S "lst2"]]]]]

/-- The value of `map2` once defined: the tail calls are marked. -/
def map2V : Val :=
  cons (L [S "fun", S "lst1", S "lst2"]) (cons nil (L [L [S "if", L [S "and", L [S "and", L [S "not",
    L [S "nil?", S "lst1"]], L [S "lst?", S "lst1"]], L [S "and", L [S "not", L [S "nil?", S "lst2"]],
    L [S "lst?", S "lst2"]]], L [S "cons", L [S "fun", L [S "car", S "lst1"], L [S "car", S "lst2"]],
    L [S "map2", S "fun", L [S "cdr", S "lst1"], L [S "cdr", S "lst2"]]]]]))

theorem map2_def (st : St) (h : st.globals Native.def_.name = some Native.def_.val) :
    sem nil map2Src st = .ok (S "map2", define "map2" map2V st) := ok_def h rfl

/-- `zip` (`share/mnml/iterators.l:36-38`). -/
def zipSrc : Val :=
  L [S "def", S "zip", L [S "lst1", S "lst2"], str "Sequentially pair-up elements from LST1 and LST2.",
    L [S "map2", S "cons", S "lst1", S "lst2"]]

/-- The value of `zip` once defined: the tail calls are marked. -/
def zipV : Val :=
  cons (L [S "lst1", S "lst2"]) (cons nil (L [L [S "map2", S "cons", S "lst1", S "lst2"]]))

theorem zip_def (st : St) (h : st.globals Native.def_.name = some Native.def_.val) :
    sem nil zipSrc st = .ok (S "zip", define "zip" zipV st) := ok_def h rfl

/-! ## `share/mnml/rev.l` -/

/-- `share/mnml/rev.l:1`: the modules and files loaded first. -/
def revLoad : Val :=
  L [S "load", str "iterators.l", Q (L [S "std", S "\\", S "cons"])]

/-- `rev` (`share/mnml/rev.l:3-5`). -/
def revSrc : Val :=
  L [S "def", S "rev", L [S "lst"], str "Reverse LST.", L [S "foldl", L [S "\\", L [S "acc", S "e"],
    L [S "cons", S "e", S "acc"]], nil, S "lst"]]

/-- The value of `rev` once defined: the tail calls are marked. -/
def revV : Val :=
  cons (L [S "lst"]) (cons nil (L [L [S "foldl", L [S "\\", L [S "acc", S "e"], L [S "cons", S "e", S "acc"]],
    nil, S "lst"]]))

theorem rev_def (st : St) (h : st.globals Native.def_.name = some Native.def_.val) :
    sem nil revSrc st = .ok (S "rev", define "rev" revV st) := ok_def h rfl

/-! ## `share/mnml/filter.l` -/

/-- `share/mnml/filter.l:1`: the modules and files loaded first. -/
def filterLoad : Val :=
  L [S "load", str "iterators.l", Q (L [S "std", S "\\", S "if", S "cons"])]

/-- `filter` (`share/mnml/filter.l:3-7`). -/
def filterSrc : Val :=
  L [S "def", S "filter", L [S "fun", S "lst"], str "Filter out element of LST that match FUN.", L [S "foldr",
    L [S "\\", L [S "e", S "acc"], L [S "if", L [S "fun", S "e"], S "acc", L [S "cons", S "e", S "acc"]]],
    S "lst", nil]]

/-- The value of `filter` once defined: the tail calls are marked. -/
def filterV : Val :=
  cons (L [S "fun", S "lst"]) (cons nil (L [L [S "foldr", L [S "\\", L [S "e", S "acc"], L [S "if", L [S "fun",
    S "e"], S "acc", L [S "cons", S "e", S "acc"]]], S "lst", nil]]))

theorem filter_def (st : St) (h : st.globals Native.def_.name = some Native.def_.val) :
    sem nil filterSrc st = .ok (S "filter", define "filter" filterV st) := ok_def h rfl

/-! ## `share/mnml/has.l` -/

/-- `share/mnml/has.l:1`: the modules and files loaded first. -/
def hasLoad : Val :=
  L [S "load", str "iterators.l", Q (L [S "logic", S "=", S "or"]), Q (L [S "std", S "\\"])]

/-- `has` (`share/mnml/has.l:3-5`). -/
def hasSrc : Val :=
  L [S "def", S "has", L [S "LST", S "X"], str "Check if X is in LST", L [S "foldl", L [S "\\", L [S "acc",
    S "e"], L [S "or", L [S "=", S "e", S "X"], S "acc"]], nil, S "LST"]]

/-- The value of `has` once defined: the tail calls are marked. -/
def hasV : Val :=
  cons (L [S "LST", S "X"]) (cons nil (L [L [S "foldl", L [S "\\", L [S "acc", S "e"], L [S "or", L [S "=",
    S "e", S "X"], S "acc"]], nil, S "LST"]]))

theorem has_def (st : St) (h : st.globals Native.def_.name = some Native.def_.val) :
    sem nil hasSrc st = .ok (S "has", define "has" hasV st) := ok_def h rfl

/-! ## `share/mnml/append.l` -/

/-- `share/mnml/append.l:1`: the modules and files loaded first. -/
def appendLoad : Val :=
  L [S "load", str "iterators.l", Q (L [S "std", S "\\", S "eval", S "cons"])]

/-- `append` (`share/mnml/append.l:3-7`). -/
def appendSrc : Val :=
  L [S "def", S "append", cons (S "x") (S "@"), str "Non-destructively concatenate multiple strings.",
    L [S "foldl", L [S "\\", L [S "acc0", S "e0"], L [S "foldr", L [S "\\", L [S "e1", S "acc1"], L [S "cons",
    S "e1", S "acc1"]], S "acc0", L [S "eval", S "e0"]]], S "x", S "@"]]

/-- The value of `append` once defined: the tail calls are marked. -/
def appendV : Val :=
  cons (cons (S "x") (S "@")) (cons nil (L [L [S "foldl", L [S "\\", L [S "acc0", S "e0"], L [S "foldr",
    L [S "\\", L [S "e1", S "acc1"], L [S "cons", S "e1", S "acc1"]], S "acc0", L [S "eval", S "e0"]]], S "x",
    S "@"]]))

theorem append_def (st : St) (h : st.globals Native.def_.name = some Native.def_.val) :
    sem nil appendSrc st = .ok (S "append", define "append" appendV st) := ok_def h rfl

/-- `$+` (`share/mnml/append.l:9-11`). -/
def strcatSrc : Val :=
  L [S "def", S "$+", L [S "x", S "y"], str "Non-destructively concatenate two strings.", L [S "append", S "x",
    S "y"]]

/-- The value of `$+` once defined: the tail calls are marked. -/
def strcatV : Val :=
  cons (L [S "x", S "y"]) (cons nil (L [L [S "append", S "x", S "y"]]))

theorem strcat_def (st : St) (h : st.globals Native.def_.name = some Native.def_.val) :
    sem nil strcatSrc st = .ok (S "$+", define "$+" strcatV st) := ok_def h rfl

/-! ## `share/mnml/aton.l` -/

/-- `share/mnml/aton.l:1`: the modules and files loaded first. -/
def atonLoad : Val :=
  L [S "load", str "iterators.l", Q (L [S "math", S "+", S "-", S "*"]), Q (L [S "std", S "\\"])]

/-- `aton` (`share/mnml/aton.l:3-5`). -/
def atonSrc : Val :=
  L [S "def", S "aton", L [S "STR"], str "Convert a string STR to a (positive) number.", L [S "foldl",
    L [S "\\", L [S "acc", S "v"], L [S "+", L [S "*", N 10, S "acc"], L [S "-", S "v", chr 48]]], N 0,
    S "STR"]]

/-- The value of `aton` once defined: the tail calls are marked. -/
def atonV : Val :=
  cons (L [S "STR"]) (cons nil (L [L [S "foldl", L [S "\\", L [S "acc", S "v"], L [S "+", L [S "*", N 10,
    S "acc"], L [S "-", S "v", chr 48]]], N 0, S "STR"]]))

theorem aton_def (st : St) (h : st.globals Native.def_.name = some Native.def_.val) :
    sem nil atonSrc st = .ok (S "aton", define "aton" atonV st) := ok_def h rfl

/-! ## `share/mnml/ntoa.l` -/

/-- `share/mnml/ntoa.l:1`: the modules and files loaded first. -/
def ntoaLoad : Val :=
  L [S "load", Q (L [S "logic", S "="]), Q (L [S "math", S "+", S "%", S "/"]), Q (L [S "std", S "let", S "\\",
    S "if", S "cons", S "chr"])]

/-- `ntoa` (`share/mnml/ntoa.l:3-9`). -/
def ntoaSrc : Val :=
  L [S "def", S "ntoa", L [S "n"], str "Convert a number N into a list of character.", L [S "let",
    L [cons (S "descend") (L [S "\\", L [S "n", S "res"], L [S "if", L [S "=", S "n", N 0], S "res",
    L [S "descend", L [S "/", S "n", N 10], L [S "cons", L [S "chr", L [S "+", L [S "%", S "n", N 10], chr 48]],
    S "res"]]]])], L [S "if", L [S "=", S "n", N 0], str "0", L [S "descend", S "n", nil]]]]

/-- The value of `ntoa` once defined: the tail calls are marked. -/
def ntoaV : Val :=
  cons (L [S "n"]) (cons nil (L [L [S "let", L [cons (S "descend") (L [S "\\", L [S "n", S "res"], L [S "if",
    L [S "=", S "n", N 0], S "res", L [S "descend", L [S "/", S "n", N 10], L [S "cons", L [S "chr", L [S "+",
    L [S "%", S "n", N 10], chr 48]], S "res"]]]])], L [S "if", L [S "=", S "n", N 0], str "0", L [S "descend",
    S "n", nil]]]]))

theorem ntoa_def (st : St) (h : st.globals Native.def_.name = some Native.def_.val) :
    sem nil ntoaSrc st = .ok (S "ntoa", define "ntoa" ntoaV st) := ok_def h rfl

/-! ## `share/mnml/last.l` -/

/-- `share/mnml/last.l:1`: the modules and files loaded first. -/
def lastLoad : Val :=
  L [S "load", Q (L [S "std", S "if", S "car", S "cdr"])]

/-- `last` (`share/mnml/last.l:3-7`). -/
def lastSrc : Val :=
  L [S "def", S "last", L [S "LST"], str "Return the last element of a list.", L [S "if", L [S "cdr", S "LST"],
    L [S "last", L [S "cdr", S "LST"]], L [S "car", S "LST"]]]

/-- The value of `last` once defined: the tail calls are marked. -/
def lastV : Val :=
  cons (L [S "LST"]) (cons nil (L [L [S "if", L [S "cdr", S "LST"], L [T "last", L [S "cdr", S "LST"]],
    L [S "car", S "LST"]]]))

theorem last_def (st : St) (h : st.globals Native.def_.name = some Native.def_.val) :
    sem nil lastSrc st = .ok (S "last", define "last" lastV st) := ok_def h rfl

/-! ## `share/mnml/manips.l` -/

/-- `share/mnml/manips.l:1`: the modules and files loaded first. -/
def manipsLoad : Val :=
  L [S "load", str "rev.l", Q (L [S "logic", S "=", S "not"]), Q (L [S "math", S ">", S "-"]), Q (L [S "std",
    S "|>", S "car", S "cdr", S "cons", S "if", S "nil?", S "when"])]

/-- `assoc` (`share/mnml/manips.l:3-8`). -/
def assocSrc : Val :=
  L [S "def", S "assoc", L [S "k", S "lst"], str "Return the value for K in the association list LST.",
    L [S "if", L [S "not", L [S "nil?", S "lst"]], L [S "if", L [S "=", L [S "caar", S "lst"], S "k"],
    L [S "cdar", S "lst"], L [S "assoc", S "k", L [S "cdr", S "lst"]]]]]

/-- The value of `assoc` once defined: the tail calls are marked. -/
def assocV : Val :=
  cons (L [S "k", S "lst"]) (cons nil (L [L [S "if", L [S "not", L [S "nil?", S "lst"]], L [S "if", L [S "=",
    L [S "caar", S "lst"], S "k"], L [S "cdar", S "lst"], L [T "assoc", S "k", L [S "cdr", S "lst"]]]]]))

theorem assoc_def (st : St) (h : st.globals Native.def_.name = some Native.def_.val) :
    sem nil assocSrc st = .ok (S "assoc", define "assoc" assocV st) := ok_def h rfl

/-- `caar` (`share/mnml/manips.l:10-12`). -/
def caarSrc : Val :=
  L [S "def", S "caar", L [S "x"], str "Call CAR CAR on X.", L [S "car", L [S "car", S "x"]]]

/-- The value of `caar` once defined: the tail calls are marked. -/
def caarV : Val :=
  cons (L [S "x"]) (cons nil (L [L [S "car", L [S "car", S "x"]]]))

theorem caar_def (st : St) (h : st.globals Native.def_.name = some Native.def_.val) :
    sem nil caarSrc st = .ok (S "caar", define "caar" caarV st) := ok_def h rfl

/-- `cddr` (`share/mnml/manips.l:14-16`). -/
def cddrSrc : Val :=
  L [S "def", S "cddr", L [S "x"], str "Call CDR CDR on X.", L [S "cdr", L [S "cdr", S "x"]]]

/-- The value of `cddr` once defined: the tail calls are marked. -/
def cddrV : Val :=
  cons (L [S "x"]) (cons nil (L [L [S "cdr", L [S "cdr", S "x"]]]))

theorem cddr_def (st : St) (h : st.globals Native.def_.name = some Native.def_.val) :
    sem nil cddrSrc st = .ok (S "cddr", define "cddr" cddrV st) := ok_def h rfl

/-- `cadar` (`share/mnml/manips.l:18-20`). -/
def cadarSrc : Val :=
  L [S "def", S "cadar", L [S "x"], str "Call CAR CDR CAR on X.", L [S "car", L [S "cdr", L [S "car", S "x"]]]]

/-- The value of `cadar` once defined: the tail calls are marked. -/
def cadarV : Val :=
  cons (L [S "x"]) (cons nil (L [L [S "car", L [S "cdr", L [S "car", S "x"]]]]))

theorem cadar_def (st : St) (h : st.globals Native.def_.name = some Native.def_.val) :
    sem nil cadarSrc st = .ok (S "cadar", define "cadar" cadarV st) := ok_def h rfl

/-- `caddr` (`share/mnml/manips.l:22-24`). -/
def caddrSrc : Val :=
  L [S "def", S "caddr", L [S "x"], str "Call CDR CDR CAR on X.", L [S "car", L [S "cdr", L [S "cdr", S "x"]]]]

/-- The value of `caddr` once defined: the tail calls are marked. -/
def caddrV : Val :=
  cons (L [S "x"]) (cons nil (L [L [S "car", L [S "cdr", L [S "cdr", S "x"]]]]))

theorem caddr_def (st : St) (h : st.globals Native.def_.name = some Native.def_.val) :
    sem nil caddrSrc st = .ok (S "caddr", define "caddr" caddrV st) := ok_def h rfl

/-- `cadddr` (`share/mnml/manips.l:26-28`). -/
def cadddrSrc : Val :=
  L [S "def", S "cadddr", L [S "x"], str "Call CDR CDR CDR CAR on X.", L [S "car", L [S "cdr", L [S "cdr",
    L [S "cdr", S "x"]]]]]

/-- The value of `cadddr` once defined: the tail calls are marked. -/
def cadddrV : Val :=
  cons (L [S "x"]) (cons nil (L [L [S "car", L [S "cdr", L [S "cdr", L [S "cdr", S "x"]]]]]))

theorem cadddr_def (st : St) (h : st.globals Native.def_.name = some Native.def_.val) :
    sem nil cadddrSrc st = .ok (S "cadddr", define "cadddr" cadddrV st) := ok_def h rfl

/-- `cadr` (`share/mnml/manips.l:30-32`). -/
def cadrSrc : Val :=
  L [S "def", S "cadr", L [S "x"], str "Call CDR CAR on X.", L [S "car", L [S "cdr", S "x"]]]

/-- The value of `cadr` once defined: the tail calls are marked. -/
def cadrV : Val :=
  cons (L [S "x"]) (cons nil (L [L [S "car", L [S "cdr", S "x"]]]))

theorem cadr_def (st : St) (h : st.globals Native.def_.name = some Native.def_.val) :
    sem nil cadrSrc st = .ok (S "cadr", define "cadr" cadrV st) := ok_def h rfl

/-- `cdar` (`share/mnml/manips.l:34-36`). -/
def cdarSrc : Val :=
  L [S "def", S "cdar", L [S "x"], str "Call CAR CDR on X.", L [S "cdr", L [S "car", S "x"]]]

/-- The value of `cdar` once defined: the tail calls are marked. -/
def cdarV : Val :=
  cons (L [S "x"]) (cons nil (L [L [S "cdr", L [S "car", S "x"]]]))

theorem cdar_def (st : St) (h : st.globals Native.def_.name = some Native.def_.val) :
    sem nil cdarSrc st = .ok (S "cdar", define "cdar" cdarV st) := ok_def h rfl

/-- `last` (`share/mnml/manips.l:38-42`). -/
def last2Src : Val :=
  L [S "def", S "last", L [S "lst"], str "Return the last item of LST.", L [S "if", L [S "nil?", L [S "cadr",
    S "lst"]], L [S "car", S "lst"], L [S "last", L [S "cdr", S "lst"]]]]

/-- The value of `last` once defined: the tail calls are marked. -/
def last2V : Val :=
  cons (L [S "lst"]) (cons nil (L [L [S "if", L [S "nil?", L [S "cadr", S "lst"]], L [S "car", S "lst"],
    L [T "last", L [S "cdr", S "lst"]]]]))

theorem last2_def (st : St) (h : st.globals Native.def_.name = some Native.def_.val) :
    sem nil last2Src st = .ok (S "last", define "last" last2V st) := ok_def h rfl

/-- `rep` (`share/mnml/manips.l:44-47`). -/
def repSrc : Val :=
  L [S "def", S "rep", L [S "n", S "atm"], str "Create a list of ATM repeated N times", L [S "if", L [S ">",
    S "n", N 0], L [S "cons", S "atm", L [S "rep", L [S "-", S "n", N 1], S "atm"]]]]

/-- The value of `rep` once defined: the tail calls are marked. -/
def repV : Val :=
  cons (L [S "n", S "atm"]) (cons nil (L [L [S "if", L [S ">", S "n", N 0], L [S "cons", S "atm", L [S "rep",
    L [S "-", S "n", N 1], S "atm"]]]]))

theorem rep_def (st : St) (h : st.globals Native.def_.name = some Native.def_.val) :
    sem nil repSrc st = .ok (S "rep", define "rep" repV st) := ok_def h rfl

/-- `truncl` (`share/mnml/manips.l:49-52`). -/
def trunclSrc : Val :=
  L [S "def", S "truncl", L [S "n", S "lst"], str "Truncate a list LST by N elements from the left.",
    L [S "when", L [S ">", S "n", N 0], L [S "cons", L [S "car", S "lst"], L [S "truncl", L [S "-", S "n", N 1],
    L [S "cdr", S "lst"]]]]]

/-- The value of `truncl` once defined: the tail calls are marked. -/
def trunclV : Val :=
  cons (L [S "n", S "lst"]) (cons nil (L [L [S "when", L [S ">", S "n", N 0], L [S "cons", L [S "car", S "lst"],
    L [S "truncl", L [S "-", S "n", N 1], L [S "cdr", S "lst"]]]]]))

theorem truncl_def (st : St) (h : st.globals Native.def_.name = some Native.def_.val) :
    sem nil trunclSrc st = .ok (S "truncl", define "truncl" trunclV st) := ok_def h rfl

/-! ## `share/mnml/trim.l` -/

/-- `share/mnml/trim.l:1-5`: the modules and files loaded first. -/
def trimLoad : Val :=
  L [S "load", str "iterators.l", str "rev.l", Q (L [S "logic", S "=", S "or"]), Q (L [S "std", S "\\", S "|>",
    S "car", S "cdr", S "cons", S "if"])]

/-- `whitespace?` (`share/mnml/trim.l:7-9`). -/
def isspaceSrc : Val :=
  L [S "def", S "whitespace?", L [S "chr"], str "Return T if CHR is a white space.", L [S "|>", L [S "=",
    S "chr", chr 32], L [S "or", L [S "=", S "chr", chr 9]], L [S "or", L [S "=", S "chr", chr 10]], L [S "or",
    L [S "=", S "chr", chr 13]]]]

/-- The value of `whitespace?` once defined: the tail calls are marked. -/
def isspaceV : Val :=
  cons (L [S "chr"]) (cons nil (L [L [S "|>", L [S "=", S "chr", chr 32], L [S "or", L [S "=", S "chr", chr 9]],
    L [S "or", L [S "=", S "chr", chr 10]], L [S "or", L [S "=", S "chr", chr 13]]]]))

theorem isspace_def (st : St) (h : st.globals Native.def_.name = some Native.def_.val) :
    sem nil isspaceSrc st = .ok (S "whitespace?", define "whitespace?" isspaceV st) := ok_def h rfl

/-- `triml` (`share/mnml/trim.l:11-15`). -/
def trimlSrc : Val :=
  L [S "def", S "triml", L [S "strn"], str "Trim STRN of leading white spaces.", L [S "if", L [S "whitespace?",
    L [S "car", S "strn"]], L [S "triml", L [S "cdr", S "strn"]], S "strn"]]

/-- The value of `triml` once defined: the tail calls are marked. -/
def trimlV : Val :=
  cons (L [S "strn"]) (cons nil (L [L [S "if", L [S "whitespace?", L [S "car", S "strn"]], L [T "triml",
    L [S "cdr", S "strn"]], S "strn"]]))

theorem triml_def (st : St) (h : st.globals Native.def_.name = some Native.def_.val) :
    sem nil trimlSrc st = .ok (S "triml", define "triml" trimlV st) := ok_def h rfl

/-- `trimr` (`share/mnml/trim.l:17-19`). -/
def trimrSrc : Val :=
  L [S "def", S "trimr", L [S "strn"], str "Trim STRN of trailing white spaces.", L [S "rev", L [S "triml",
    L [S "rev", S "strn"]]]]

/-- The value of `trimr` once defined: the tail calls are marked. -/
def trimrV : Val :=
  cons (L [S "strn"]) (cons nil (L [L [S "rev", L [S "triml", L [S "rev", S "strn"]]]]))

theorem trimr_def (st : St) (h : st.globals Native.def_.name = some Native.def_.val) :
    sem nil trimrSrc st = .ok (S "trimr", define "trimr" trimrV st) := ok_def h rfl

/-- `trim` (`share/mnml/trim.l:21-23`). -/
def trimSrc : Val :=
  L [S "def", S "trim", L [S "strn"], str "Trim STRN of leading and trailing white spaces.", L [S "trimr",
    L [S "triml", S "strn"]]]

/-- The value of `trim` once defined: the tail calls are marked. -/
def trimV : Val :=
  cons (L [S "strn"]) (cons nil (L [L [S "trimr", L [S "triml", S "strn"]]]))

theorem trim_def (st : St) (h : st.globals Native.def_.name = some Native.def_.val) :
    sem nil trimSrc st = .ok (S "trim", define "trim" trimV st) := ok_def h rfl

/-! ## `share/mnml/strlt.l` -/

/-- `share/mnml/strlt.l:1-4`: the modules and files loaded first. -/
def strltLoad : Val :=
  L [S "load", Q (L [S "logic", S "=", S "and", S "not", S "or"]), Q (L [S "math", S "<"]), Q (L [S "std",
    S "car", S "cdr", S "let", S "nil?"])]

/-- `strlt` (`share/mnml/strlt.l:6-18`). -/
def strltSrc : Val :=
  L [S "def", S "strlt", L [S "STRA", S "STRB"], str "Strict less operator for strings", L [S "and", L [S "not",
    L [S "nil?", S "STRB"]], L [S "or", L [S "nil?", S "STRA"], L [S "let", L [cons (S "A") (L [S "car",
    S "STRA"]), cons (S "B") (L [S "car", S "STRB"])], L [S "or", L [S "<", S "A", S "B"], L [S "and", L [S "=",
    S "A", S "B"], L [S "strlt", L [S "cdr", S "STRA"], L [S "cdr", S "STRB"]]]]]]]]

/-- The value of `strlt` once defined: the tail calls are marked. -/
def strltV : Val :=
  cons (L [S "STRA", S "STRB"]) (cons nil (L [L [S "and", L [S "not", L [S "nil?", S "STRB"]], L [S "or",
    L [S "nil?", S "STRA"], L [S "let", L [cons (S "A") (L [S "car", S "STRA"]), cons (S "B") (L [S "car",
    S "STRB"])], L [S "or", L [S "<", S "A", S "B"], L [S "and", L [S "=", S "A", S "B"], L [S "strlt",
    L [S "cdr", S "STRA"], L [S "cdr", S "STRB"]]]]]]]]))

theorem strlt_def (st : St) (h : st.globals Native.def_.name = some Native.def_.val) :
    sem nil strltSrc st = .ok (S "strlt", define "strlt" strltV st) := ok_def h rfl

/-! ## `share/mnml/insert.l` -/

/-- `share/mnml/insert.l:1`: the modules and files loaded first. -/
def insertLoad : Val :=
  L [S "load", Q (L [S "std", S "if", S "nil?", S "list", S "let", S "car", S "cdr", S "cons"])]

/-- `insert` (`share/mnml/insert.l:3-12`). -/
def insertSrc : Val :=
  L [S "def", S "insert", L [S "cmp", S "a", S "lst"],
    str "Insert A into ordered list LST using comparator CMP.", L [S "if", L [S "nil?", S "lst"], L [S "list",
    S "a"], L [S "let", L [cons (S "cur") (L [S "car", S "lst"]), cons (S "nxt") (L [S "cdr", S "lst"])],
    L [S "if", L [S "cmp", S "a", S "cur"], L [S "cons", S "a", L [S "cons", S "cur", S "nxt"]], L [S "cons",
    S "cur", L [S "insert", S "cmp", S "a", S "nxt"]]]]]]

/-- The value of `insert` once defined: the tail calls are marked. -/
def insertV : Val :=
  cons (L [S "cmp", S "a", S "lst"]) (cons nil (L [L [S "if", L [S "nil?", S "lst"], L [S "list", S "a"],
    L [S "let", L [cons (S "cur") (L [S "car", S "lst"]), cons (S "nxt") (L [S "cdr", S "lst"])], L [S "if",
    L [S "cmp", S "a", S "cur"], L [S "cons", S "a", L [S "cons", S "cur", S "nxt"]], L [S "cons", S "cur",
    L [S "insert", S "cmp", S "a", S "nxt"]]]]]]))

theorem insert_def (st : St) (h : st.globals Native.def_.name = some Native.def_.val) :
    sem nil insertSrc st = .ok (S "insert", define "insert" insertV st) := ok_def h rfl

/-! ## `share/mnml/isort.l` -/

/-- `share/mnml/isort.l:1-4`: the modules and files loaded first. -/
def isortLoad : Val :=
  L [S "load", Q (L [S "iterators", S "foldl"]), Q (L [S "logic", S "or"]), Q (L [S "std", S "\\", S "car",
    S "cdr", S "cons", S "if", S "let", S "nil?"])]

/-- `isort` (`share/mnml/isort.l:6-13`). -/
def isortSrc : Val :=
  L [S "def", S "isort", L [S "LESS", S "LST"], str "Insertion-sort of list LST using comparator LESS",
    L [S "let", L [cons (S "ins") (L [S "\\", L [S "LST", S "E"], str "Insert E in LST using LESS", L [S "if",
    L [S "or", L [S "nil?", S "LST"], L [S "LESS", S "E", L [S "car", S "LST"]]], L [S "cons", S "E", S "LST"],
    L [S "cons", L [S "car", S "LST"], L [S "ins", L [S "cdr", S "LST"], S "E"]]]])], L [S "foldl", S "ins",
    nil, S "LST"]]]

/-- The value of `isort` once defined: the tail calls are marked. -/
def isortV : Val :=
  cons (L [S "LESS", S "LST"]) (cons nil (L [L [S "let", L [cons (S "ins") (L [S "\\", L [S "LST", S "E"],
    str "Insert E in LST using LESS", L [S "if", L [S "or", L [S "nil?", S "LST"], L [S "LESS", S "E",
    L [S "car", S "LST"]]], L [S "cons", S "E", S "LST"], L [S "cons", L [S "car", S "LST"], L [S "ins",
    L [S "cdr", S "LST"], S "E"]]]])], L [S "foldl", S "ins", nil, S "LST"]]]))

theorem isort_def (st : St) (h : st.globals Native.def_.name = some Native.def_.val) :
    sem nil isortSrc st = .ok (S "isort", define "isort" isortV st) := ok_def h rfl

/-! ## `share/mnml/erase.l` -/

/-- `share/mnml/erase.l:1`: the modules and files loaded first. -/
def eraseLoad : Val :=
  L [S "load", str "iterators.l", Q (L [S "logic", S "="]), Q (L [S "std", S "\\", S "if", S "cons"])]

/-- `erase` (`share/mnml/erase.l:3-7`). -/
def eraseSrc : Val :=
  L [S "def", S "erase", L [S "k", S "lst"], L [S "foldr", L [S "\\", L [cons (S "_k") (S "_v"), S "acc"],
    L [S "if", L [S "=", S "k", S "_k"], S "acc", L [S "cons", L [S "cons", S "_k", S "_v"], S "acc"]]],
    S "lst", nil]]

/-- The value of `erase` once defined: the tail calls are marked. -/
def eraseV : Val :=
  cons (L [S "k", S "lst"]) (cons nil (L [L [S "foldr", L [S "\\", L [cons (S "_k") (S "_v"), S "acc"],
    L [S "if", L [S "=", S "k", S "_k"], S "acc", L [S "cons", L [S "cons", S "_k", S "_v"], S "acc"]]],
    S "lst", nil]]))

theorem erase_def (st : St) (h : st.globals Native.def_.name = some Native.def_.val) :
    sem nil eraseSrc st = .ok (S "erase", define "erase" eraseV st) := ok_def h rfl

/-! ## `share/mnml/replc.l` -/

/-- `share/mnml/replc.l:1`: the modules and files loaded first. -/
def replcLoad : Val :=
  L [S "load", str "iterators.l", Q (L [S "logic", S "="]), Q (L [S "std", S "\\", S "if", S "cons"])]

/-- `replc` (`share/mnml/replc.l:3-7`). -/
def replcSrc : Val :=
  L [S "def", S "replc", L [S "k", S "v", S "lst"], L [S "foldr", L [S "\\", L [cons (S "_k") (S "_v"),
    S "acc"], L [S "if", L [S "=", S "k", S "_k"], L [S "cons", L [S "cons", S "k", S "v"], S "acc"],
    L [S "cons", L [S "cons", S "_k", S "_v"], S "acc"]]], S "lst", nil]]

/-- The value of `replc` once defined: the tail calls are marked. -/
def replcV : Val :=
  cons (L [S "k", S "v", S "lst"]) (cons nil (L [L [S "foldr", L [S "\\", L [cons (S "_k") (S "_v"), S "acc"],
    L [S "if", L [S "=", S "k", S "_k"], L [S "cons", L [S "cons", S "k", S "v"], S "acc"], L [S "cons",
    L [S "cons", S "_k", S "_v"], S "acc"]]], S "lst", nil]]))

theorem replc_def (st : St) (h : st.globals Native.def_.name = some Native.def_.val) :
    sem nil replcSrc st = .ok (S "replc", define "replc" replcV st) := ok_def h rfl

/-! ## `share/mnml/flatten.l` -/

/-- `share/mnml/flatten.l:1`: the modules and files loaded first. -/
def flattenLoad : Val :=
  L [S "load", str "iterators.l", Q (L [S "logic", S "and"]), Q (L [S "std", S "if", S "lst?", S "\\", S "conc",
    S "list"])]

/-- `flatten` (`share/mnml/flatten.l:3-7`). -/
def flattenSrc : Val :=
  L [S "def", S "flatten", L [S "lst"], str "Flatten k-deep LST into a 1-deep list.", L [S "if", L [S "and",
    S "lst", L [S "lst?", S "lst"]], L [S "foldr", L [S "\\", L [S "lst", S "acc"], L [S "conc", L [S "flatten",
    S "lst"], S "acc"]], S "lst", nil], L [S "list", S "lst"]]]

/-- The value of `flatten` once defined: the tail calls are marked. -/
def flattenV : Val :=
  cons (L [S "lst"]) (cons nil (L [L [S "if", L [S "and", S "lst", L [S "lst?", S "lst"]], L [S "foldr",
    L [S "\\", L [S "lst", S "acc"], L [S "conc", L [S "flatten", S "lst"], S "acc"]], S "lst", nil],
    L [S "list", S "lst"]]]))

theorem flatten_def (st : St) (h : st.globals Native.def_.name = some Native.def_.val) :
    sem nil flattenSrc st = .ok (S "flatten", define "flatten" flattenV st) := ok_def h rfl

/-! ## `share/mnml/split.l` -/

/-- `share/mnml/split.l:1`: the modules and files loaded first. -/
def splitLoad : Val :=
  L [S "load", Q (L [S "logic", S "="]), Q (L [S "std", S "let", S "\\", S "if", S "car", S "cdr", S "conc",
    S "list", S "cons"])]

/-- `split` (`share/mnml/split.l:3-16`). -/
def splitSrc : Val :=
  L [S "def", S "split", L [S "lst", S "chr"], L [S "let", L [cons (S "spliN") (L [S "\\", L [S "lst", S "chr",
    S "end"], L [S "if", S "lst", L [S "if", L [S "=", L [S "car", S "lst"], S "chr"], L [S "cdr", S "lst"],
    L [S "spliN", L [S "cdr", S "lst"], S "chr", L [S "cdr", L [S "conc", S "end", L [S "list", L [S "car",
    S "lst"]]]]]]]])], L [S "if", S "lst", L [S "if", L [S "=", L [S "car", S "lst"], S "chr"], L [S "split",
    L [S "cdr", S "lst"], S "chr"], L [S "let", L [cons (S "beg") (L [S "list", L [S "car", S "lst"]]),
    cons (S "nxt") (L [S "spliN", L [S "cdr", S "lst"], S "chr", S "beg"])], L [S "cons", S "beg", L [S "split",
    S "nxt", S "chr"]]]]]]]

/-- The value of `split` once defined: the tail calls are marked. -/
def splitV : Val :=
  cons (L [S "lst", S "chr"]) (cons nil (L [L [S "let", L [cons (S "spliN") (L [S "\\", L [S "lst", S "chr",
    S "end"], L [S "if", S "lst", L [S "if", L [S "=", L [S "car", S "lst"], S "chr"], L [S "cdr", S "lst"],
    L [S "spliN", L [S "cdr", S "lst"], S "chr", L [S "cdr", L [S "conc", S "end", L [S "list", L [S "car",
    S "lst"]]]]]]]])], L [S "if", S "lst", L [S "if", L [S "=", L [S "car", S "lst"], S "chr"], L [S "split",
    L [S "cdr", S "lst"], S "chr"], L [S "let", L [cons (S "beg") (L [S "list", L [S "car", S "lst"]]),
    cons (S "nxt") (L [S "spliN", L [S "cdr", S "lst"], S "chr", S "beg"])], L [S "cons", S "beg", L [S "split",
    S "nxt", S "chr"]]]]]]]))

theorem split_def (st : St) (h : st.globals Native.def_.name = some Native.def_.val) :
    sem nil splitSrc st = .ok (S "split", define "split" splitV st) := ok_def h rfl

/-! ## `share/mnml/dedup.l` -/

/-- `share/mnml/dedup.l:1`: the modules and files loaded first. -/
def dedupLoad : Val :=
  L [S "load", str "iterators.l", Q (L [S "std", S "\\", S "if", S "nil?", S "cons", S "let", S "car",
    S "match", S "cons", S "cdr"])]

/-- `dedup` (`share/mnml/dedup.l:9-19`). -/
def dedupSrc : Val :=
  L [S "def", S "dedup", L [S "cmp", S "lst"], str "Deduplicate list LST using comparator CMP.", L [S "foldr",
    L [S "\\", L [S "elt", S "acc"], L [S "if", L [S "nil?", S "acc"], L [S "cons", S "elt", S "acc"],
    L [S "let", L [cons (cons (S "cmd") (S "val")) (L [S "cmp", S "elt", L [S "car", S "acc"]])], L [S "match",
    S "cmd", cons (S "APPEND") (L [S "cons", S "val", S "acc"]), cons (S "REPLACE") (L [S "cons", S "val",
    L [S "cdr", S "acc"]]), cons (S "SKIP") (S "acc")]]]], S "lst", nil]]

/-- The value of `dedup` once defined: the tail calls are marked. -/
def dedupV : Val :=
  cons (L [S "cmp", S "lst"]) (cons nil (L [L [S "foldr", L [S "\\", L [S "elt", S "acc"], L [S "if",
    L [S "nil?", S "acc"], L [S "cons", S "elt", S "acc"], L [S "let",
    L [cons (cons (S "cmd") (S "val")) (L [S "cmp", S "elt", L [S "car", S "acc"]])], L [S "match", S "cmd",
    cons (S "APPEND") (L [S "cons", S "val", S "acc"]), cons (S "REPLACE") (L [S "cons", S "val", L [S "cdr",
    S "acc"]]), cons (S "SKIP") (S "acc")]]]], S "lst", nil]]))

theorem dedup_def (st : St) (h : st.globals Native.def_.name = some Native.def_.val) :
    sem nil dedupSrc st = .ok (S "dedup", define "dedup" dedupV st) := ok_def h rfl

/-! ## `share/mnml/join.l` -/

/-- `share/mnml/join.l:1-5`: the modules and files loaded first. -/
def joinLoad : Val :=
  L [S "load", str "append.l", str "iterators.l", str "rev.l", Q (L [S "std", S "let", S "\\", S "car", S "cdr",
    S "list"])]

/-- `join` (`share/mnml/join.l:7-9`). -/
def joinSrc : Val :=
  L [S "def", S "join", L [S "lst", S "chr"], L [S "let", L [cons (S "rlst") (L [S "rev", S "lst"])],
    L [S "foldl", L [S "\\", L [S "acc", S "e"], L [S "append", S "e", L [S "list", S "chr"], S "acc"]],
    L [S "car", S "rlst"], L [S "cdr", S "rlst"]]]]

/-- The value of `join` once defined: the tail calls are marked. -/
def joinV : Val :=
  cons (L [S "lst", S "chr"]) (cons nil (L [L [S "let", L [cons (S "rlst") (L [S "rev", S "lst"])],
    L [S "foldl", L [S "\\", L [S "acc", S "e"], L [S "append", S "e", L [S "list", S "chr"], S "acc"]],
    L [S "car", S "rlst"], L [S "cdr", S "rlst"]]]]))

theorem join_def (st : St) (h : st.globals Native.def_.name = some Native.def_.val) :
    sem nil joinSrc st = .ok (S "join", define "join" joinV st) := ok_def h rfl

/-! ## `share/mnml/merge.l` -/

/-- `share/mnml/merge.l:1`: the modules and files loaded first. -/
def mergeLoad : Val :=
  L [S "load", str "iterators.l", Q (L [S "std", S "\\"])]

/-- `merge` (`share/mnml/merge.l:3-5`). -/
def mergeSrc : Val :=
  L [S "def", S "merge", L [S "ded", S "ins", S "lstA", S "lstB"],
    str "Merge list A into list B using dedup function DED and insert function INS.", L [S "ded", L [S "foldl",
    L [S "\\", L [S "acc", S "e"], L [S "ins", S "e", S "acc"]], S "lstB", S "lstA"]]]

/-- The value of `merge` once defined: the tail calls are marked. -/
def mergeV : Val :=
  cons (L [S "ded", S "ins", S "lstA", S "lstB"]) (cons nil (L [L [S "ded", L [S "foldl", L [S "\\", L [S "acc",
    S "e"], L [S "ins", S "e", S "acc"]], S "lstB", S "lstA"]]]))

theorem merge_def (st : St) (h : st.globals Native.def_.name = some Native.def_.val) :
    sem nil mergeSrc st = .ok (S "merge", define "merge" mergeV st) := ok_def h rfl

/-! ## `share/mnml/orelse.l` -/

/-- `share/mnml/orelse.l:1`: the modules and files loaded first. -/
def orelseLoad : Val :=
  L [S "load", Q (L [S "std", S "if"])]

/-- `<|>` (`share/mnml/orelse.l:3-5`). -/
def orelseSrc : Val :=
  L [S "def", S "<|>", L [S "VAL", S "DEF"], str "If VAL then return VAL or return DEF.", L [S "if", S "VAL",
    S "VAL", S "DEF"]]

/-- The value of `<|>` once defined: the tail calls are marked. -/
def orelseV : Val :=
  cons (L [S "VAL", S "DEF"]) (cons nil (L [L [S "if", S "VAL", S "VAL", S "DEF"]]))

theorem orelse_def (st : St) (h : st.globals Native.def_.name = some Native.def_.val) :
    sem nil orelseSrc st = .ok (S "<|>", define "<|>" orelseV st) := ok_def h rfl

/-! ## `share/mnml/iter.l` -/

/-- `share/mnml/iter.l:1`: the modules and files loaded first. -/
def iterLoad : Val :=
  L [S "load", Q (L [S "std", S "if", S "let", S "car", S "cdr"])]

/-- `iter` (`share/mnml/iter.l:3-10`). -/
def iterSrc : Val :=
  L [S "def", S "iter", L [S "fun", S "lst"], str "Iterate over list LST and call FUN on each item.", L [S "if",
    S "lst", L [S "let", L [cons (S "rslt") (L [S "fun", L [S "car", S "lst"]]), cons (S "tail") (L [S "cdr",
    S "lst"])], L [S "if", S "tail", L [S "iter", S "fun", L [S "cdr", S "lst"]], S "rslt"]]]]

/-- The value of `iter` once defined: the tail calls are marked. -/
def iterV : Val :=
  cons (L [S "fun", S "lst"]) (cons nil (L [L [S "if", S "lst", L [S "let", L [cons (S "rslt") (L [S "fun",
    L [S "car", S "lst"]]), cons (S "tail") (L [S "cdr", S "lst"])], L [S "if", S "tail", L [S "iter", S "fun",
    L [S "cdr", S "lst"]], S "rslt"]]]]))

theorem iter_def (st : St) (h : st.globals Native.def_.name = some Native.def_.val) :
    sem nil iterSrc st = .ok (S "iter", define "iter" iterV st) := ok_def h rfl

/-! ## `share/mnml/iter2.l` -/

/-- `share/mnml/iter2.l:1`: the modules and files loaded first. -/
def iter2Load : Val :=
  L [S "load", Q (L [S "logic", S "and"]), Q (L [S "std", S "if", S "car", S "cdr"])]

/-- `iter2` (`share/mnml/iter2.l:3-13`). -/
def iter2Src : Val :=
  L [S "def", S "iter2", L [S "fun", S "lst1", S "lst2"],
    str "Iterate over list LST1 and LST1 and call FUN on each pair of item.", L [S "if", L [S "and", S "lst1",
    S "lst2"], L [S "let", L [cons (S "car1") (L [S "car", S "lst1"]), cons (S "car2") (L [S "car", S "lst2"]),
    cons (S "cdr1") (L [S "cdr", S "lst1"]), cons (S "cdr2") (L [S "cdr", S "lst2"]),
    cons (S "rslt") (L [S "fun", S "car1", S "car2"])], L [S "if", L [S "and", S "cdr1", S "cdr2"],
    L [S "iter2", S "fun", S "cdr1", S "cdr2"], S "rslt"]]]]

/-- The value of `iter2` once defined: the tail calls are marked. -/
def iter2V : Val :=
  cons (L [S "fun", S "lst1", S "lst2"]) (cons nil (L [L [S "if", L [S "and", S "lst1", S "lst2"], L [S "let",
    L [cons (S "car1") (L [S "car", S "lst1"]), cons (S "car2") (L [S "car", S "lst2"]),
    cons (S "cdr1") (L [S "cdr", S "lst1"]), cons (S "cdr2") (L [S "cdr", S "lst2"]),
    cons (S "rslt") (L [S "fun", S "car1", S "car2"])], L [S "if", L [S "and", S "cdr1", S "cdr2"],
    L [S "iter2", S "fun", S "cdr1", S "cdr2"], S "rslt"]]]]))

theorem iter2_def (st : St) (h : st.globals Native.def_.name = some Native.def_.val) :
    sem nil iter2Src st = .ok (S "iter2", define "iter2" iter2V st) := ok_def h rfl

/-! ## `share/mnml/truncr.l` -/

/-- `share/mnml/truncr.l:1`: the modules and files loaded first. -/
def truncrLoad : Val :=
  L [S "load", str "manips.l", str "rev.l", Q (L [S "std", S "|>"])]

/-- `truncr` (`share/mnml/truncr.l:3-5`). -/
def truncrSrc : Val :=
  L [S "def", S "truncr", L [S "n", S "lst"], str "Truncate a list LST by N elements from the right.",
    L [S "|>", S "lst", S "rev", L [S "truncl", S "n"], S "rev"]]

/-- The value of `truncr` once defined: the tail calls are marked. -/
def truncrV : Val :=
  cons (L [S "n", S "lst"]) (cons nil (L [L [S "|>", S "lst", S "rev", L [S "truncl", S "n"], S "rev"]]))

theorem truncr_def (st : St) (h : st.globals Native.def_.name = some Native.def_.val) :
    sem nil truncrSrc st = .ok (S "truncr", define "truncr" truncrV st) := ok_def h rfl

end Lib
end Mnml
