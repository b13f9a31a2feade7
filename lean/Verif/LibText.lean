import Verif.Lib
import Verif.PropRead
import Verif.LexFast
import Lean.Meta.Tactic.Simp.BuiltinSimprocs

/-!
# The texts of the lisp library

For every modelled file of `share/mnml`: the reader (`Verif.Lex`, `Verif.Parse`) makes the values of `Verif.Lib` from the
text of the file.
-/

namespace Mnml
namespace Lib

open Val Lex

/-- The bytes of the lines of a file. -/
def fileText (ls : List String) : List UInt8 := ls.flatMap fun s => ascii s.toList

open Lean Meta in
/-- Proof automation: rewrites `"…".toList` to the list of the characters, by `String.toList_ofList`. -/
simproc_decl litToList (String.toList _) := fun e => do
  let some s := (match e.appArg! with | .lit (.strVal s) => some s | _ => none) | return .continue
  let l := toExpr s.toList
  return .done { expr := l, proof? := some (mkApp (mkConst ``String.toList_ofList) l) }

/-- The text of `share/mnml/iterators.l`. -/
def iteratorsText : List UInt8 :=
  fileText [
      "(load\n",
      "\t'(logic and not)\n",
      "\t'(std if lst? nil? car cdr cons))\n",
      "\n",
      "(def foldl (fun acc lst)\n",
      "\t\"Left-fold FUN over LST with ACC as the default accumulator value.\"\n",
      "\t(if (lst? lst)\n",
      "\t\t(if (nil? lst)\n",
      "\t\t\tacc\n",
      "\t\t\t(foldl fun (fun acc (car lst)) (cdr lst)))\n",
      "\t\t(fun acc lst)))\n",
      "\n",
      "(def foldr (fun lst acc)\n",
      "\t\"Right-fold FUN over LST with ACC as the default accumulator value.\"\n",
      "\t(if (lst? lst)\n",
      "\t\t(if (nil? lst)\n",
      "\t\t\tacc\n",
      "\t\t\t(fun (car lst) (foldr fun (cdr lst) acc)))\n",
      "\t\t(fun lst acc)))\n",
      "\n",
      "(def map (fun lst)\n",
      "\t\"Sequentially apply FUN to all elements of LST.\"\n",
      "\t(if (and (not (nil? lst)) (lst? lst))\n",
      "\t\t(cons\n",
      "\t\t\t(fun (car lst))\n",
      "\t\t\t(map fun (cdr lst)))\n",
      "\t\tlst))\n",
      "\n",
      "(def map2 (fun lst1 lst2)\n",
      "\t\"Apply FUN to all elements of both LST1 and LST2.\"\n",
      "\t(if (and (and (not (nil? lst1)) (lst? lst1)) (and (not (nil? lst2)) (lst? lst2)))\n",
      "\t\t(cons\n",
      "\t\t\t(fun (car lst1) (car lst2))\n",
      "\t\t\t(map2 fun (cdr lst1) (cdr lst2)))))\n",
      "\n",
      "(def zip (lst1 lst2)\n",
      "\t\"Sequentially pair-up elements from LST1 and LST2.\"\n",
      "\t(map2 cons lst1 lst2))\n"]

/-- What the reader makes of it. -/
theorem iterators_text : drain (fun _ => .unsupported) 39 .init iteratorsText = .ok ⟨[], [], none,
    [iteratorsLoad, foldlSrc, foldrSrc, mapSrc, map2Src, zipSrc]⟩ := by
  rw [drain_eq]
  simp only [iteratorsText, fileText, List.flatMap_cons, List.flatMap_nil, litToList]
  decide +kernel

/-- The text of `share/mnml/rev.l`. -/
def revText : List UInt8 :=
  fileText [
      "(load \"iterators.l\" '(std \\ cons))\n",
      "\n",
      "(def rev (lst)\n",
      "\t\"Reverse LST.\"\n",
      "\t(foldl (\\ (acc e) (cons e acc)) NIL lst))\n"]

/-- What the reader makes of it. -/
theorem rev_text : drain (fun _ => .unsupported) 6 .init revText = .ok ⟨[], [], none,
    [revLoad, revSrc]⟩ := by
  rw [drain_eq]
  simp only [revText, fileText, List.flatMap_cons, List.flatMap_nil, litToList]
  decide +kernel

/-- The text of `share/mnml/filter.l`. -/
def filterText : List UInt8 :=
  fileText [
      "(load \"iterators.l\" '(std \\ if cons))\n",
      "\n",
      "(def filter (fun lst)\n",
      "\t\"Filter out element of LST that match FUN.\"\n",
      "\t(foldr\n",
      "\t\t(\\ (e acc) (if (fun e) acc (cons e acc)))\n",
      "\t\tlst NIL))\n"]

/-- What the reader makes of it. -/
theorem filter_text : drain (fun _ => .unsupported) 8 .init filterText = .ok ⟨[], [], none,
    [filterLoad, filterSrc]⟩ := by
  rw [drain_eq]
  simp only [filterText, fileText, List.flatMap_cons, List.flatMap_nil, litToList]
  decide +kernel

/-- The text of `share/mnml/has.l`. -/
def hasText : List UInt8 :=
  fileText [
      "(load \"iterators.l\" '(logic = or) '(std \\))\n",
      "\n",
      "(def has (LST X)\n",
      "\t\"Check if X is in LST\"\n",
      "\t(foldl (\\ (acc e) (or (= e X) acc)) NIL LST))\n"]

/-- What the reader makes of it. -/
theorem has_text : drain (fun _ => .unsupported) 6 .init hasText = .ok ⟨[], [], none,
    [hasLoad, hasSrc]⟩ := by
  rw [drain_eq]
  simp only [hasText, fileText, List.flatMap_cons, List.flatMap_nil, litToList]
  decide +kernel

/-- The text of `share/mnml/append.l`. -/
def appendText : List UInt8 :=
  fileText [
      "(load \"iterators.l\" '(std \\ eval cons))\n",
      "\n",
      "(def append (x . @)\n",
      "\t\"Non-destructively concatenate multiple strings.\"\n",
      "\t(foldl (\\ (acc0 e0)\n",
      "\t\t\t\t\t (foldr (\\ (e1 acc1) (cons e1 acc1)) acc0 (eval e0)))\n",
      "\t\tx @))\n",
      "\n",
      "(def $+ (x y)\n",
      "\t\"Non-destructively concatenate two strings.\"\n",
      "\t(append x y))\n"]

/-- What the reader makes of it. -/
theorem append_text : drain (fun _ => .unsupported) 12 .init appendText = .ok ⟨[], [], none,
    [appendLoad, appendSrc, strcatSrc]⟩ := by
  rw [drain_eq]
  simp only [appendText, fileText, List.flatMap_cons, List.flatMap_nil, litToList]
  decide +kernel

/-- The text of `share/mnml/aton.l`. -/
def atonText : List UInt8 :=
  fileText [
      "(load \"iterators.l\" '(math + - *) '(std \\))\n",
      "\n",
      "(def aton (STR)\n",
      "\t\"Convert a string STR to a (positive) number.\"\n",
      "\t(foldl (\\ (acc v) (+ (* 10 acc) (- v ^0))) 0 STR))\n"]

/-- What the reader makes of it. -/
theorem aton_text : drain (fun _ => .unsupported) 6 .init atonText = .ok ⟨[], [], none,
    [atonLoad, atonSrc]⟩ := by
  rw [drain_eq]
  simp only [atonText, fileText, List.flatMap_cons, List.flatMap_nil, litToList]
  decide +kernel

/-- The text of `share/mnml/ntoa.l`. -/
def ntoaText : List UInt8 :=
  fileText [
      "(load '(logic =) '(math + % /) '(std let \\ if cons chr))\n",
      "\n",
      "(def ntoa (n)\n",
      "\t\"Convert a number N into a list of character.\"\n",
      "\t(let ((descend . (\\ (n res)\n",
      "\t\t\t\t\t\t\t\t\t\t (if (= n 0)\n",
      "\t\t\t\t\t\t\t\t\t\t\t res\n",
      "\t\t\t\t\t\t\t\t\t\t\t (descend (/ n 10) (cons (chr (+ (% n 10) ^0)) res))))))\n",
      "\t\t(if (= n 0) \"0\" (descend n NIL))))\n"]

/-- What the reader makes of it. -/
theorem ntoa_text : drain (fun _ => .unsupported) 10 .init ntoaText = .ok ⟨[], [], none,
    [ntoaLoad, ntoaSrc]⟩ := by
  rw [drain_eq]
  simp only [ntoaText, fileText, List.flatMap_cons, List.flatMap_nil, litToList]
  decide +kernel

/-- The text of `share/mnml/last.l`. -/
def lastText : List UInt8 :=
  fileText [
      "(load '(std if car cdr))\n",
      "\n",
      "(def last (LST)\n",
      "\t\"Return the last element of a list.\"\n",
      "\t(if (cdr LST)\n",
      "\t\t(last (cdr LST))\n",
      "\t\t(car LST)))\n"]

/-- What the reader makes of it. -/
theorem last_text : drain (fun _ => .unsupported) 8 .init lastText = .ok ⟨[], [], none,
    [lastLoad, lastSrc]⟩ := by
  rw [drain_eq]
  simp only [lastText, fileText, List.flatMap_cons, List.flatMap_nil, litToList]
  decide +kernel

/-- The text of `share/mnml/manips.l`. -/
def manipsText : List UInt8 :=
  fileText [
      "(load \"rev.l\" '(logic = not) '(math > -) '(std |> car cdr cons if nil? when))\n",
      "\n",
      "(def assoc (k lst)\n",
      "\t\"Return the value for K in the association list LST.\"\n",
      "\t(if (not (nil? lst))\n",
      "\t\t(if (= (caar lst) k)\n",
      "\t\t\t(cdar lst)\n",
      "\t\t\t(assoc k (cdr lst)))))\n",
      "\n",
      "(def caar (x)\n",
      "\t\"Call CAR CAR on X.\"\n",
      "\t(car (car x)))\n",
      "\n",
      "(def cddr (x)\n",
      "\t\"Call CDR CDR on X.\"\n",
      "\t(cdr (cdr x)))\n",
      "\n",
      "(def cadar (x)\n",
      "\t\"Call CAR CDR CAR on X.\"\n",
      "\t(car (cdr (car x))))\n",
      "\n",
      "(def caddr (x)\n",
      "\t\"Call CDR CDR CAR on X.\"\n",
      "\t(car (cdr (cdr x))))\n",
      "\n",
      "(def cadddr (x)\n",
      "\t\"Call CDR CDR CDR CAR on X.\"\n",
      "\t(car (cdr (cdr (cdr x)))))\n",
      "\n",
      "(def cadr (x)\n",
      "\t\"Call CDR CAR on X.\"\n",
      "\t(car (cdr x)))\n",
      "\n",
      "(def cdar (x)\n",
      "\t\"Call CAR CDR on X.\"\n",
      "\t(cdr (car x)))\n",
      "\n",
      "(def last (lst)\n",
      "\t\"Return the last item of LST.\"\n",
      "\t(if (nil? (cadr lst))\n",
      "\t\t(car lst)\n",
      "\t\t(last (cdr lst))))\n",
      "\n",
      "(def rep (n atm)\n",
      "\t\"Create a list of ATM repeated N times\"\n",
      "\t(if (> n 0)\n",
      "\t\t(cons atm (rep (- n 1) atm))))\n",
      "\n",
      "(def truncl (n lst)\n",
      "\t\"Truncate a list LST by N elements from the left.\"\n",
      "\t(when (> n 0)\n",
      "\t\t(cons (car lst) (truncl (- n 1) (cdr lst)))))\n"]

/-- What the reader makes of it. -/
theorem manips_text : drain (fun _ => .unsupported) 53 .init manipsText = .ok ⟨[], [], none,
    [manipsLoad, assocSrc, caarSrc, cddrSrc, cadarSrc, caddrSrc, cadddrSrc, cadrSrc, cdarSrc, last2Src, repSrc, trunclSrc]⟩ := by
  rw [drain_eq]
  simp only [manipsText, fileText, List.flatMap_cons, List.flatMap_nil, litToList]
  decide +kernel

/-- The text of `share/mnml/trim.l`. -/
def trimText : List UInt8 :=
  fileText [
      "(load\n",
      "\t\"iterators.l\"\n",
      "\t\"rev.l\"\n",
      "\t'(logic = or)\n",
      "\t'(std \\ |> car cdr cons if))\n",
      "\n",
      "(def whitespace? (chr)\n",
      "\t\"Return T if CHR is a white space.\"\n",
      "\t(|> (= chr ^ ) (or (= chr ^\\t)) (or (= chr ^\\n)) (or (= chr ^\\r))))\n",
      "\n",
      "(def triml (strn)\n",
      "\t\"Trim STRN of leading white spaces.\"\n",
      "\t(if (whitespace? (car strn))\n",
      "\t\t(triml (cdr strn))\n",
      "\t\tstrn))\n",
      "\n",
      "(def trimr (strn)\n",
      "\t\"Trim STRN of trailing white spaces.\"\n",
      "\t(rev (triml (rev strn))))\n",
      "\n",
      "(def trim (strn)\n",
      "\t\"Trim STRN of leading and trailing white spaces.\"\n",
      "\t(trimr (triml strn)))\n"]

/-- What the reader makes of it. -/
theorem trim_text : drain (fun _ => .unsupported) 24 .init trimText = .ok ⟨[], [], none,
    [trimLoad, isspaceSrc, trimlSrc, trimrSrc, trimSrc]⟩ := by
  rw [drain_eq]
  simp only [trimText, fileText, List.flatMap_cons, List.flatMap_nil, litToList]
  decide +kernel

/-- The text of `share/mnml/strlt.l`. -/
def strltText : List UInt8 :=
  fileText [
      "(load\n",
      "\t'(logic = and not or)\n",
      "\t'(math <)\n",
      "\t'(std car cdr let nil?))\n",
      "\n",
      "(def strlt (STRA STRB)\n",
      "\t\"Strict less operator for strings\"\n",
      "\t(and\n",
      "\t\t(not (nil? STRB))\n",
      "\t\t(or\n",
      "\t\t\t(nil? STRA)\n",
      "\t\t\t(let ((A . (car STRA))\n",
      "\t\t\t\t\t\t(B . (car STRB)))\n",
      "\t\t\t\t(or\n",
      "\t\t\t\t\t(< A B)\n",
      "\t\t\t\t\t(and\n",
      "\t\t\t\t\t\t(= A B)\n",
      "\t\t\t\t\t\t(strlt (cdr STRA) (cdr STRB))))))))\n"]

/-- What the reader makes of it. -/
theorem strlt_text : drain (fun _ => .unsupported) 19 .init strltText = .ok ⟨[], [], none,
    [strltLoad, strltSrc]⟩ := by
  rw [drain_eq]
  simp only [strltText, fileText, List.flatMap_cons, List.flatMap_nil, litToList]
  decide +kernel

/-- The text of `share/mnml/insert.l`. -/
def insertText : List UInt8 :=
  fileText [
      "(load '(std if nil? list let car cdr cons))\n",
      "\n",
      "(def insert (cmp a lst)\n",
      "\t\"Insert A into ordered list LST using comparator CMP.\"\n",
      "\t(if (nil? lst)\n",
      "\t\t(list a)\n",
      "\t\t(let ((cur . (car lst))\n",
      "\t\t\t\t\t(nxt . (cdr lst)))\n",
      "\t\t\t(if (cmp a cur)\n",
      "\t\t\t\t(cons a (cons cur nxt))\n",
      "\t\t\t\t(cons cur (insert cmp a nxt))\n",
      "\t\t\t\t))))\n"]

/-- What the reader makes of it. -/
theorem insert_text : drain (fun _ => .unsupported) 13 .init insertText = .ok ⟨[], [], none,
    [insertLoad, insertSrc]⟩ := by
  rw [drain_eq]
  simp only [insertText, fileText, List.flatMap_cons, List.flatMap_nil, litToList]
  decide +kernel

/-- The text of `share/mnml/isort.l`. -/
def isortText : List UInt8 :=
  fileText [
      "(load\n",
      "\t'(iterators foldl)\n",
      "\t'(logic or)\n",
      "\t'(std \\ car cdr cons if let nil?))\n",
      "\n",
      "(def isort (LESS LST)\n",
      "\t\"Insertion-sort of list LST using comparator LESS\"\n",
      "\t(let ((ins . (\\ (LST E)\n",
      "\t\t\t\t\t\t\t\t \"Insert E in LST using LESS\"\n",
      "\t\t\t\t\t\t\t\t (if (or (nil? LST) (LESS E (car LST)))\n",
      "\t\t\t\t\t\t\t\t\t (cons E LST)\n",
      "\t\t\t\t\t\t\t\t\t (cons (car LST) (ins (cdr LST) E))))))\n",
      "\t\t(foldl ins NIL LST)))\n"]

/-- What the reader makes of it. -/
theorem isort_text : drain (fun _ => .unsupported) 14 .init isortText = .ok ⟨[], [], none,
    [isortLoad, isortSrc]⟩ := by
  rw [drain_eq]
  simp only [isortText, fileText, List.flatMap_cons, List.flatMap_nil, litToList]
  decide +kernel

/-- The text of `share/mnml/erase.l`. -/
def eraseText : List UInt8 :=
  fileText [
      "(load \"iterators.l\" '(logic =) '(std \\ if cons))\n",
      "\n",
      "(def erase (k lst)\n",
      "\t(foldr\n",
      "\t\t(\\ ((_k . _v) acc)\n",
      "\t\t\t(if (= k _k) acc (cons (cons _k _v) acc)))\n",
      "\t\tlst NIL))\n"]

/-- What the reader makes of it. -/
theorem erase_text : drain (fun _ => .unsupported) 8 .init eraseText = .ok ⟨[], [], none,
    [eraseLoad, eraseSrc]⟩ := by
  rw [drain_eq]
  simp only [eraseText, fileText, List.flatMap_cons, List.flatMap_nil, litToList]
  decide +kernel

/-- The text of `share/mnml/replc.l`. -/
def replcText : List UInt8 :=
  fileText [
      "(load \"iterators.l\" '(logic =) '(std \\ if cons))\n",
      "\n",
      "(def replc (k v lst)\n",
      "\t(foldr\n",
      "\t\t(\\ ((_k . _v) acc)\n",
      "\t\t\t(if (= k _k) (cons (cons k v) acc) (cons (cons _k _v) acc)))\n",
      "\t\tlst NIL))\n"]

/-- What the reader makes of it. -/
theorem replc_text : drain (fun _ => .unsupported) 8 .init replcText = .ok ⟨[], [], none,
    [replcLoad, replcSrc]⟩ := by
  rw [drain_eq]
  simp only [replcText, fileText, List.flatMap_cons, List.flatMap_nil, litToList]
  decide +kernel

/-- The text of `share/mnml/flatten.l`. -/
def flattenText : List UInt8 :=
  fileText [
      "(load \"iterators.l\" '(logic and) '(std if lst? \\ conc list))\n",
      "\n",
      "(def flatten (lst)\n",
      "\t\"Flatten k-deep LST into a 1-deep list.\"\n",
      "\t(if (and lst (lst? lst))\n",
      "\t\t(foldr (\\ (lst acc) (conc (flatten lst) acc)) lst NIL)\n",
      "\t\t(list lst)))\n"]

/-- What the reader makes of it. -/
theorem flatten_text : drain (fun _ => .unsupported) 8 .init flattenText = .ok ⟨[], [], none,
    [flattenLoad, flattenSrc]⟩ := by
  rw [drain_eq]
  simp only [flattenText, fileText, List.flatMap_cons, List.flatMap_nil, litToList]
  decide +kernel

/-- The text of `share/mnml/split.l`. -/
def splitText : List UInt8 :=
  fileText [
      "(load '(logic =) '(std let \\ if car cdr conc list cons))\n",
      "\n",
      "(def split (lst chr)\n",
      "\t(let ((spliN . (\\ (lst chr end)\n",
      "\t\t\t\t\t\t\t\t\t (if lst\n",
      "\t\t\t\t\t\t\t\t\t\t (if (= (car lst) chr)\n",
      "\t\t\t\t\t\t\t\t\t\t\t (cdr lst)\n",
      "\t\t\t\t\t\t\t\t\t\t\t (spliN (cdr lst) chr (cdr (conc end (list (car lst)))))\n",
      "\t\t\t\t\t\t\t\t\t\t\t )))))\n",
      "\t\t(if lst\n",
      "\t\t\t(if (= (car lst) chr)\n",
      "\t\t\t\t(split (cdr lst) chr)\n",
      "\t\t\t\t(let ((beg . (list (car lst)))\n",
      "\t\t\t\t\t\t\t(nxt . (spliN (cdr lst) chr beg)))\n",
      "\t\t\t\t\t(cons beg (split nxt chr))\n",
      "\t\t\t\t\t)))))\n"]

/-- What the reader makes of it. -/
theorem split_text : drain (fun _ => .unsupported) 17 .init splitText = .ok ⟨[], [], none,
    [splitLoad, splitSrc]⟩ := by
  rw [drain_eq]
  simp only [splitText, fileText, List.flatMap_cons, List.flatMap_nil, litToList]
  decide +kernel

/-- The text of `share/mnml/dedup.l`. -/
def dedupText : List UInt8 :=
  fileText [
      "(load \"iterators.l\" '(std \\ if nil? cons let car match cons cdr))\n",
      "\n",
      "#\n",
      "# The comparator is expected to return a pair (CMD . VAL) where CMD is:\n",
      "# * APPEND: append VAL to the accumulator\n",
      "# * REPLACE: replace the head of the accumulator by VAL\n",
      "# * SKIP: skip VAL\n",
      "#\n",
      "(def dedup (cmp lst)\n",
      "\t\"Deduplicate list LST using comparator CMP.\"\n",
      "\t(foldr (\\ (elt acc)\n",
      "\t\t\t\t\t (if (nil? acc)\n",
      "\t\t\t\t\t\t (cons elt acc)\n",
      "\t\t\t\t\t\t (let (((cmd . val) . (cmp elt (car acc))))\n",
      "\t\t\t\t\t\t\t (match cmd\n",
      "\t\t\t\t\t\t\t\t (APPEND\t. (cons val acc))\n",
      "\t\t\t\t\t\t\t\t (REPLACE . (cons val (cdr acc)))\n",
      "\t\t\t\t\t\t\t\t (SKIP\t\t. acc)))))\n",
      "\t\tlst NIL))\n"]

/-- What the reader makes of it. -/
theorem dedup_text : drain (fun _ => .unsupported) 20 .init dedupText = .ok ⟨[], [], none,
    [dedupLoad, dedupSrc]⟩ := by
  rw [drain_eq]
  simp only [dedupText, fileText, List.flatMap_cons, List.flatMap_nil, litToList]
  decide +kernel

/-- The text of `share/mnml/join.l`. -/
def joinText : List UInt8 :=
  fileText [
      "(load\n",
      "\t\"append.l\"\n",
      "\t\"iterators.l\"\n",
      "\t\"rev.l\"\n",
      "\t'(std let \\ car cdr list))\n",
      "\n",
      "(def join (lst chr)\n",
      "\t(let ((rlst . (rev lst)))\n",
      "\t\t(foldl (\\ (acc e) (append e (list chr) acc)) (car rlst) (cdr rlst))))\n"]

/-- What the reader makes of it. -/
theorem join_text : drain (fun _ => .unsupported) 10 .init joinText = .ok ⟨[], [], none,
    [joinLoad, joinSrc]⟩ := by
  rw [drain_eq]
  simp only [joinText, fileText, List.flatMap_cons, List.flatMap_nil, litToList]
  decide +kernel

/-- The text of `share/mnml/merge.l`. -/
def mergeText : List UInt8 :=
  fileText [
      "(load \"iterators.l\" '(std \\))\n",
      "\n",
      "(def merge (ded ins lstA lstB)\n",
      "\t\"Merge list A into list B using dedup function DED and insert function INS.\"\n",
      "\t(ded (foldl (\\ (acc e) (ins e acc)) lstB lstA)))\n"]

/-- What the reader makes of it. -/
theorem merge_text : drain (fun _ => .unsupported) 6 .init mergeText = .ok ⟨[], [], none,
    [mergeLoad, mergeSrc]⟩ := by
  rw [drain_eq]
  simp only [mergeText, fileText, List.flatMap_cons, List.flatMap_nil, litToList]
  decide +kernel

/-- The text of `share/mnml/orelse.l`. -/
def orelseText : List UInt8 :=
  fileText [
      "(load '(std if))\n",
      "\n",
      "(def <|> (VAL DEF)\n",
      "\t\"If VAL then return VAL or return DEF.\"\n",
      "\t(if VAL VAL DEF))\n"]

/-- What the reader makes of it. -/
theorem orelse_text : drain (fun _ => .unsupported) 6 .init orelseText = .ok ⟨[], [], none,
    [orelseLoad, orelseSrc]⟩ := by
  rw [drain_eq]
  simp only [orelseText, fileText, List.flatMap_cons, List.flatMap_nil, litToList]
  decide +kernel

/-- The text of `share/mnml/iter.l`. -/
def iterText : List UInt8 :=
  fileText [
      "(load '(std if let car cdr))\n",
      "\n",
      "(def iter (fun lst)\n",
      "\t\"Iterate over list LST and call FUN on each item.\"\n",
      "\t(if lst\n",
      "\t\t(let ((rslt . (fun (car lst)))\n",
      "\t\t\t\t\t(tail . (cdr lst)))\n",
      "\t\t\t(if tail\n",
      "\t\t\t\t(iter fun (cdr lst))\n",
      "\t\t\t\trslt))))\n"]

/-- What the reader makes of it. -/
theorem iter_text : drain (fun _ => .unsupported) 11 .init iterText = .ok ⟨[], [], none,
    [iterLoad, iterSrc]⟩ := by
  rw [drain_eq]
  simp only [iterText, fileText, List.flatMap_cons, List.flatMap_nil, litToList]
  decide +kernel

/-- The text of `share/mnml/iter2.l`. -/
def iter2Text : List UInt8 :=
  fileText [
      "(load '(logic and) '(std if car cdr))\n",
      "\n",
      "(def iter2 (fun lst1 lst2)\n",
      "\t\"Iterate over list LST1 and LST1 and call FUN on each pair of item.\"\n",
      "\t(if (and lst1 lst2)\n",
      "\t\t(let ((car1 . (car lst1))\n",
      "\t\t\t\t\t(car2 . (car lst2))\n",
      "\t\t\t\t\t(cdr1 . (cdr lst1))\n",
      "\t\t\t\t\t(cdr2 . (cdr lst2))\n",
      "\t\t\t\t\t(rslt . (fun car1 car2)))\n",
      "\t\t\t(if (and cdr1 cdr2)\n",
      "\t\t\t\t(iter2 fun cdr1 cdr2)\n",
      "\t\t\t\trslt))))\n"]

/-- What the reader makes of it. -/
theorem iter2_text : drain (fun _ => .unsupported) 14 .init iter2Text = .ok ⟨[], [], none,
    [iter2Load, iter2Src]⟩ := by
  rw [drain_eq]
  simp only [iter2Text, fileText, List.flatMap_cons, List.flatMap_nil, litToList]
  decide +kernel

/-- The text of `share/mnml/truncr.l`. -/
def truncrText : List UInt8 :=
  fileText [
      "(load \"manips.l\" \"rev.l\" '(std |>))\n",
      "\n",
      "(def truncr (n lst)\n",
      "\t\"Truncate a list LST by N elements from the right.\"\n",
      "\t(|> lst rev (truncl n) rev))\n"]

/-- What the reader makes of it. -/
theorem truncr_text : drain (fun _ => .unsupported) 6 .init truncrText = .ok ⟨[], [], none,
    [truncrLoad, truncrSrc]⟩ := by
  rw [drain_eq]
  simp only [truncrText, fileText, List.flatMap_cons, List.flatMap_nil, litToList]
  decide +kernel

end Lib
end Mnml
