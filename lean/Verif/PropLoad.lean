import Verif.LibLoad
import Verif.PropLib
import Verif.PropSort
import Verif.PropAssoc
import Verif.PropTrim

/-!
# C60: loading the lisp library gives its functions
-/

namespace Mnml
namespace Lib

open Val Lex Module

/-! ## The installation -/

/-- The files of the library. -/
def libFiles : List (String × List UInt8) :=
  [("iterators.l", iteratorsText), ("rev.l", revText), ("filter.l", filterText), ("has.l", hasText), ("append.l", appendText),
   ("aton.l", atonText), ("ntoa.l", ntoaText), ("last.l", lastText), ("manips.l", manipsText), ("trim.l", trimText),
   ("strlt.l", strltText), ("insert.l", insertText), ("isort.l", isortText), ("erase.l", eraseText), ("replc.l", replcText),
   ("flatten.l", flattenText), ("split.l", splitText), ("dedup.l", dedupText), ("join.l", joinText), ("merge.l", mergeText),
   ("orelse.l", orelseText), ("iter.l", iterText), ("iter2.l", iter2Text), ("truncr.l", truncrText)]

/-- The system has the modules and the library in their places. -/
structure Installed (os : Os) : Prop where
  mods : ∀ m ∈ modules, ∃ p, Available os m.1 p (natTable m.2)
  env : os.getenv (lit "MNML_SCRIPT_PATH".toList) = none
  root : os.home.head? = some 47
  plain : Plain os.home
  size : os.home.length + 64 < pathMax
  files : ∀ f ∈ libFiles, os.realpath (share os ++ 47 :: lit f.1.toList) = some (share os ++ 47 :: lit f.1.toList) ∧
    os.fopen (share os ++ 47 :: lit f.1.toList) = some f.2

/-- The names of the files are unremarkable. -/
theorem libFiles_names : ∀ f ∈ libFiles.map Prod.fst, lit f.toList ≠ [] ∧ (47 : UInt8) ∉ lit f.toList ∧ (lit f.toList).length ≤ 16 ∧
    (lit f.toList).head? ≠ some 126 ∧ (lit f.toList).take 4 ≠ lit "@lib".toList ∧ ∀ x ∈ lit f.toList, x ≠ 92 ∧ x ≠ 0 := by
  decide +kernel

theorem share_plain {os : Os} (hi : Installed os) : Plain (share os) := by
  intro x hx
  rcases List.mem_append.1 hx with h | h
  · exact hi.plain x h
  · have : ∀ x ∈ lit "/share/mnml".toList, x ≠ 92 ∧ x ≠ 0 := by rw [lit_share]; decide
    exact this x h

theorem share_length (os : Os) : (share os).length = os.home.length + 11 := by
  rw [share, lit_share, List.length_append]; rfl

theorem share_last (os : Os) : (share os) ≠ [] ∧ (share os).getLast? ≠ some 47 := by
  rw [share, lit_share]
  constructor
  · simp [lit]
  · rw [List.getLast?_append]
    show some (108 : UInt8) ≠ some 47
    decide

/-- Files of the library find each other. -/
theorem installed_finds {os : Os} (hi : Installed os) {f : String} {t : List UInt8} (hf : (f, t) ∈ libFiles) (s : SSt)
    (hc : curdir os s = .ok (share os)) (hd : s.dirs ≠ []) : Finds os s (lit f.toList) (share os) (lit f.toList) t := by
  obtain ⟨h1, h2, h3, h4, h5, -⟩ := libFiles_names f (List.mem_map.2 ⟨_, hf, rfl⟩)
  obtain ⟨h6, h7⟩ := hi.files _ hf
  have hsz := hi.size
  have hsl := share_length os
  have hh : (lit f.toList).head? ≠ some 47 := by
    intro h
    cases hl : lit f.toList with
    | nil => exact h1 hl
    | cons b l =>
      rw [hl] at h h2
      simp only [List.head?_cons, Option.some.injEq] at h
      exact h2 (by simp [h])
  have he : s.dirs.isEmpty = false := by simpa using hd
  have e : Module.place (!s.dirs.isEmpty) (share os) (lit f.toList) = share os ++ 47 :: lit f.toList := by simp [Module.place, hh, he]
  exact {
    path := ⟨share os, lit f.toList, _, hc, .other h5 h4, by omega, by rw [e, List.length_append, List.length_cons]; omega, by rw [e]; exact h6,
      ⟨⟨h1, h2⟩, .inr ⟨(share_last os).1, (share_last os).2, rfl⟩⟩, h7⟩ }

/-- `@lib/FILE` from anywhere. -/
theorem at_finds {os : Os} (hi : Installed os) {f : String} {t : List UInt8} (hf : (f, t) ∈ libFiles) (s : SSt) {cwd : List UInt8}
    (hc : curdir os s = .ok cwd) : Finds os s (lit "@lib".toList ++ 47 :: lit f.toList) (share os) (lit f.toList) t := by
  obtain ⟨h1, h2, h3, h4, h5, -⟩ := libFiles_names f (List.mem_map.2 ⟨_, hf, rfl⟩)
  obtain ⟨h6, h7⟩ := hi.files _ hf
  have hsz := hi.size
  have hsl := share_length os
  exact C58_library hc hi.env (by show (share os ++ 47 :: lit f.toList).length < _; rw [List.length_append, List.length_cons]; omega)
    hi.root h6 ⟨⟨h1, h2⟩, .inr ⟨(share_last os).1, (share_last os).2, rfl⟩⟩ h7

/-- What the file `f` of the library contains adds the definitions `tbl`. -/
def LibAdds (os : Os) (f : String) (tbl : List (Sym × Val)) : Prop :=
  ∃ t k vs, (f, t) ∈ libFiles ∧ drain (fun _ => .unsupported) k .init t = .ok ⟨[], [], none, vs⟩ ∧ ExprsAdd os (share os) vs tbl

/-- A file of the library that is named in another one. -/
theorem LibAdds.file {os : Os} (hi : Installed os) {f : String} {tbl : List (Sym × Val)} (h : LibAdds os f tbl) :
    FileAdds os (share os) (lit f.toList) tbl := by
  obtain ⟨t, k, vs, hf, ht, h⟩ := h
  have hsz := hi.size
  exact .of (share_plain hi) (by rw [share_length]; omega) (installed_finds hi hf) ht h

/-- A file of the library that is named in the argument of `load` in another one. -/
theorem ArgAdds.lib {os : Os} (hi : Installed os) {f : String} {tbl : List (Sym × Val)} (h : LibAdds os f tbl) :
    ArgAdds os (share os) (strVal ((lit f.toList).map charOf)) tbl := by
  obtain ⟨h1, -, h3, -, -, h6⟩ := libFiles_names f (by
    obtain ⟨t, k, vs, hf, -⟩ := h
    exact List.mem_map.2 ⟨_, hf, rfl⟩)
  exact .file (h.file hi) h6 h1 (by have : 16 ≤ pathMax := by decide
                                    omega)

theorem ExprsAdd.eq {os : Os} {d : List UInt8} {es : List Val} {t u : List (Sym × Val)} (h : ExprsAdd os d es t) (e : t = u) : ExprsAdd os d es u := e ▸ h

/-- There is no binary module of this name. -/
def Absent (os : Os) (m : Sym) : Prop := Module.find os m = .ok none

theorem ArgAdds.absent {os : Os} {d : List UInt8} {m : Sym} (h : Absent os m) (v : Val) : ArgAdds os d (Q (Val.cons (ofSym m) v)) [] := by
  intro s hr _ _
  have hq : Resolves (envVal []) s.st sQuote Native.quote.val := resolves_global rfl (by
    have : sQuote = Native.quote.name := by decide +kernel
    rw [this]; exact hr.squote)
  have hm : moduleLoad os (Val.cons (ofSym m) v) s = .ok (nil, s) := by
    show (do
      match ← Module.find os m with
      | none => Res.ok (nil, s)
      | some p => .ok (loadBinary os p m v s)) = _
    rw [h]
    rfl
  exact ⟨1, _, s.st, nil, s, ok_quote hq, hm, hr, rfl, (over_nil _).symm⟩

/-- The definitions that `share/mnml/iterators.l` adds, the last one first. -/
def iteratorsT : List (Sym × Val) :=
  [(n "zip", zipV), (n "map2", map2V), (n "map", mapV), (n "foldr", foldrV), (n "foldl", foldlV)] ++
    (nats [.if_, .islst, .isnil, .car, .cdr, .cons]) ++ (nats [.and, .not])

theorem iterators_adds {os : Os} (_hi : Installed os) : LibAdds os "iterators.l" iteratorsT :=
  ⟨_, _, _, by simp [libFiles], iterators_text,
    .eq (.cons (.load (.more (.natives (m := (n "logic", logicNatives)) (by simp [modules]) (ns := [.and, .not]) (by decide)) (by simp) (.one
      (.natives (m := (n "std", stdNatives)) (by simp [modules]) (ns := [.if_, .islst, .isnil, .car, .cdr, .cons]) (by decide))))) (.cons
      (.def_ foldl_def (by decide +kernel)) (.cons (.def_ foldr_def (by decide +kernel)) (.cons (.def_ map_def (by decide +kernel)) (.cons
      (.def_ map2_def (by decide +kernel)) (.cons (.def_ zip_def (by decide +kernel)) (.nil _ _))))))) (by rfl)⟩

/-- The definitions that `share/mnml/rev.l` adds, the last one first. -/
def revT : List (Sym × Val) :=
  [(n "rev", revV)] ++ (nats [.lambda, .cons]) ++ iteratorsT

theorem rev_adds {os : Os} (hi : Installed os) : LibAdds os "rev.l" revT :=
  ⟨_, _, _, by simp [libFiles], rev_text,
    .eq (.cons (.load (.more (.lib hi (iterators_adds hi)) (by simp) (.one
      (.natives (m := (n "std", stdNatives)) (by simp [modules]) (ns := [.lambda, .cons]) (by decide))))) (.cons
      (.def_ rev_def (by decide +kernel)) (.nil _ _))) (by rfl)⟩

/-- The definitions that `share/mnml/filter.l` adds, the last one first. -/
def filterT : List (Sym × Val) :=
  [(n "filter", filterV)] ++ (nats [.lambda, .if_, .cons]) ++ iteratorsT

theorem filter_adds {os : Os} (hi : Installed os) : LibAdds os "filter.l" filterT :=
  ⟨_, _, _, by simp [libFiles], filter_text,
    .eq (.cons (.load (.more (.lib hi (iterators_adds hi)) (by simp) (.one
      (.natives (m := (n "std", stdNatives)) (by simp [modules]) (ns := [.lambda, .if_, .cons]) (by decide))))) (.cons
      (.def_ filter_def (by decide +kernel)) (.nil _ _))) (by rfl)⟩

/-- The definitions that `share/mnml/has.l` adds, the last one first. -/
def hasT : List (Sym × Val) :=
  [(n "has", hasV)] ++ (nats [.lambda]) ++ (nats [.equ, .or]) ++ iteratorsT

theorem has_adds {os : Os} (hi : Installed os) : LibAdds os "has.l" hasT :=
  ⟨_, _, _, by simp [libFiles], has_text,
    .eq (.cons (.load (.more (.lib hi (iterators_adds hi)) (by simp) (.more
      (.natives (m := (n "logic", logicNatives)) (by simp [modules]) (ns := [.equ, .or]) (by decide)) (by simp) (.one
      (.natives (m := (n "std", stdNatives)) (by simp [modules]) (ns := [.lambda]) (by decide)))))) (.cons (.def_ has_def (by decide +kernel))
      (.nil _ _))) (by rfl)⟩

/-- The definitions that `share/mnml/append.l` adds, the last one first. -/
def appendT : List (Sym × Val) :=
  [(n "$+", strcatV), (n "append", appendV)] ++ (nats [.lambda, .eval, .cons]) ++ iteratorsT

theorem append_adds {os : Os} (hi : Installed os) : LibAdds os "append.l" appendT :=
  ⟨_, _, _, by simp [libFiles], append_text,
    .eq (.cons (.load (.more (.lib hi (iterators_adds hi)) (by simp) (.one
      (.natives (m := (n "std", stdNatives)) (by simp [modules]) (ns := [.lambda, .eval, .cons]) (by decide))))) (.cons
      (.def_ append_def (by decide +kernel)) (.cons (.def_ strcat_def (by decide +kernel)) (.nil _ _)))) (by rfl)⟩

/-- The definitions that `share/mnml/aton.l` adds, the last one first. -/
def atonT : List (Sym × Val) :=
  [(n "aton", atonV)] ++ (nats [.lambda]) ++ (nats [.add, .sub, .mul]) ++ iteratorsT

theorem aton_adds {os : Os} (hi : Installed os) : LibAdds os "aton.l" atonT :=
  ⟨_, _, _, by simp [libFiles], aton_text,
    .eq (.cons (.load (.more (.lib hi (iterators_adds hi)) (by simp) (.more
      (.natives (m := (n "math", mathNatives)) (by simp [modules]) (ns := [.add, .sub, .mul]) (by decide)) (by simp) (.one
      (.natives (m := (n "std", stdNatives)) (by simp [modules]) (ns := [.lambda]) (by decide)))))) (.cons (.def_ aton_def (by decide +kernel))
      (.nil _ _))) (by rfl)⟩

/-- The definitions that `share/mnml/ntoa.l` adds, the last one first. -/
def ntoaT : List (Sym × Val) :=
  [(n "ntoa", ntoaV)] ++ (nats [.let_, .lambda, .if_, .cons, .chr]) ++ (nats [.add, .mod, .div]) ++ (nats [.equ])

theorem ntoa_adds {os : Os} (_hi : Installed os) : LibAdds os "ntoa.l" ntoaT :=
  ⟨_, _, _, by simp [libFiles], ntoa_text,
    .eq (.cons (.load (.more (.natives (m := (n "logic", logicNatives)) (by simp [modules]) (ns := [.equ]) (by decide)) (by simp) (.more
      (.natives (m := (n "math", mathNatives)) (by simp [modules]) (ns := [.add, .mod, .div]) (by decide)) (by simp) (.one
      (.natives (m := (n "std", stdNatives)) (by simp [modules]) (ns := [.let_, .lambda, .if_, .cons, .chr]) (by decide)))))) (.cons
      (.def_ ntoa_def (by decide +kernel)) (.nil _ _))) (by rfl)⟩

/-- The definitions that `share/mnml/last.l` adds, the last one first. -/
def lastT : List (Sym × Val) :=
  [(n "last", lastV)] ++ (nats [.if_, .car, .cdr])

theorem last_adds {os : Os} (_hi : Installed os) : LibAdds os "last.l" lastT :=
  ⟨_, _, _, by simp [libFiles], last_text,
    .eq (.cons (.load (.one (.natives (m := (n "std", stdNatives)) (by simp [modules]) (ns := [.if_, .car, .cdr]) (by decide)))) (.cons
      (.def_ last_def (by decide +kernel)) (.nil _ _))) (by rfl)⟩

/-- The definitions that `share/mnml/manips.l` adds, the last one first. -/
def manipsT : List (Sym × Val) :=
  [(n "truncl", trunclV), (n "rep", repV), (n "last", last2V), (n "cdar", cdarV), (n "cadr", cadrV), (n "cadddr", cadddrV), (n "caddr", caddrV), (n "cadar", cadarV), (n "cddr", cddrV), (n "caar", caarV), (n "assoc", assocV)] ++ (nats [.stream, .car, .cdr, .cons, .if_, .isnil, .when_]) ++ (nats [.gt, .sub]) ++ (nats [.equ, .not]) ++ revT

theorem manips_adds {os : Os} (hi : Installed os) : LibAdds os "manips.l" manipsT :=
  ⟨_, _, _, by simp [libFiles], manips_text,
    .eq (.cons (.load (.more (.lib hi (rev_adds hi)) (by simp) (.more
      (.natives (m := (n "logic", logicNatives)) (by simp [modules]) (ns := [.equ, .not]) (by decide)) (by simp) (.more
      (.natives (m := (n "math", mathNatives)) (by simp [modules]) (ns := [.gt, .sub]) (by decide)) (by simp) (.one
      (.natives (m := (n "std", stdNatives)) (by simp [modules]) (ns := [.stream, .car, .cdr, .cons, .if_, .isnil, .when_]) (by decide)))))))
      (.cons (.def_ assoc_def (by decide +kernel)) (.cons (.def_ caar_def (by decide +kernel)) (.cons (.def_ cddr_def (by decide +kernel)) (.cons
      (.def_ cadar_def (by decide +kernel)) (.cons (.def_ caddr_def (by decide +kernel)) (.cons (.def_ cadddr_def (by decide +kernel)) (.cons
      (.def_ cadr_def (by decide +kernel)) (.cons (.def_ cdar_def (by decide +kernel)) (.cons (.def_ last2_def (by decide +kernel)) (.cons
      (.def_ rep_def (by decide +kernel)) (.cons (.def_ truncl_def (by decide +kernel)) (.nil _ _))))))))))))) (by rfl)⟩

/-- The definitions that `share/mnml/trim.l` adds, the last one first. -/
def trimT : List (Sym × Val) :=
  [(n "trim", trimV), (n "trimr", trimrV), (n "triml", trimlV), (n "whitespace?", isspaceV)] ++
    (nats [.lambda, .stream, .car, .cdr, .cons, .if_]) ++ (nats [.equ, .or]) ++ revT ++ iteratorsT

theorem trim_adds {os : Os} (hi : Installed os) : LibAdds os "trim.l" trimT :=
  ⟨_, _, _, by simp [libFiles], trim_text,
    .eq (.cons (.load (.more (.lib hi (iterators_adds hi)) (by simp) (.more (.lib hi (rev_adds hi)) (by simp) (.more
      (.natives (m := (n "logic", logicNatives)) (by simp [modules]) (ns := [.equ, .or]) (by decide)) (by simp) (.one
      (.natives (m := (n "std", stdNatives)) (by simp [modules]) (ns := [.lambda, .stream, .car, .cdr, .cons, .if_]) (by decide))))))) (.cons
      (.def_ isspace_def (by decide +kernel)) (.cons (.def_ triml_def (by decide +kernel)) (.cons (.def_ trimr_def (by decide +kernel)) (.cons
      (.def_ trim_def (by decide +kernel)) (.nil _ _)))))) (by rfl)⟩

/-- The definitions that `share/mnml/strlt.l` adds, the last one first. -/
def strltT : List (Sym × Val) :=
  [(n "strlt", strltV)] ++ (nats [.car, .cdr, .let_, .isnil]) ++ (nats [.lt]) ++ (nats [.equ, .and, .not, .or])

theorem strlt_adds {os : Os} (_hi : Installed os) : LibAdds os "strlt.l" strltT :=
  ⟨_, _, _, by simp [libFiles], strlt_text,
    .eq (.cons (.load (.more
      (.natives (m := (n "logic", logicNatives)) (by simp [modules]) (ns := [.equ, .and, .not, .or]) (by decide)) (by simp) (.more
      (.natives (m := (n "math", mathNatives)) (by simp [modules]) (ns := [.lt]) (by decide)) (by simp) (.one
      (.natives (m := (n "std", stdNatives)) (by simp [modules]) (ns := [.car, .cdr, .let_, .isnil]) (by decide)))))) (.cons
      (.def_ strlt_def (by decide +kernel)) (.nil _ _))) (by rfl)⟩

/-- The definitions that `share/mnml/insert.l` adds, the last one first. -/
def insertT : List (Sym × Val) :=
  [(n "insert", insertV)] ++ (nats [.if_, .isnil, .list, .let_, .car, .cdr, .cons])

theorem insert_adds {os : Os} (_hi : Installed os) : LibAdds os "insert.l" insertT :=
  ⟨_, _, _, by simp [libFiles], insert_text,
    .eq (.cons (.load (.one
      (.natives (m := (n "std", stdNatives)) (by simp [modules]) (ns := [.if_, .isnil, .list, .let_, .car, .cdr, .cons]) (by decide)))) (.cons
      (.def_ insert_def (by decide +kernel)) (.nil _ _))) (by rfl)⟩

/-- The definitions that `share/mnml/isort.l` adds, the last one first. -/
def isortT : List (Sym × Val) :=
  [(n "isort", isortV)] ++ (nats [.lambda, .car, .cdr, .cons, .if_, .let_, .isnil]) ++ (nats [.or])

theorem isort_adds {os : Os} (_hi : Installed os) (habs : Absent os (n "iterators")) : LibAdds os "isort.l" isortT :=
  ⟨_, _, _, by simp [libFiles], isort_text,
    .eq (.cons (.load (.more (.absent habs _) (by simp) (.more
      (.natives (m := (n "logic", logicNatives)) (by simp [modules]) (ns := [.or]) (by decide)) (by simp) (.one
      (.natives (m := (n "std", stdNatives)) (by simp [modules]) (ns := [.lambda, .car, .cdr, .cons, .if_, .let_, .isnil]) (by decide))))))
      (.cons (.def_ isort_def (by decide +kernel)) (.nil _ _))) (by rfl)⟩

/-- The definitions that `share/mnml/erase.l` adds, the last one first. -/
def eraseT : List (Sym × Val) :=
  [(n "erase", eraseV)] ++ (nats [.lambda, .if_, .cons]) ++ (nats [.equ]) ++ iteratorsT

theorem erase_adds {os : Os} (hi : Installed os) : LibAdds os "erase.l" eraseT :=
  ⟨_, _, _, by simp [libFiles], erase_text,
    .eq (.cons (.load (.more (.lib hi (iterators_adds hi)) (by simp) (.more
      (.natives (m := (n "logic", logicNatives)) (by simp [modules]) (ns := [.equ]) (by decide)) (by simp) (.one
      (.natives (m := (n "std", stdNatives)) (by simp [modules]) (ns := [.lambda, .if_, .cons]) (by decide)))))) (.cons
      (.def_ erase_def (by decide +kernel)) (.nil _ _))) (by rfl)⟩

/-- The definitions that `share/mnml/replc.l` adds, the last one first. -/
def replcT : List (Sym × Val) :=
  [(n "replc", replcV)] ++ (nats [.lambda, .if_, .cons]) ++ (nats [.equ]) ++ iteratorsT

theorem replc_adds {os : Os} (hi : Installed os) : LibAdds os "replc.l" replcT :=
  ⟨_, _, _, by simp [libFiles], replc_text,
    .eq (.cons (.load (.more (.lib hi (iterators_adds hi)) (by simp) (.more
      (.natives (m := (n "logic", logicNatives)) (by simp [modules]) (ns := [.equ]) (by decide)) (by simp) (.one
      (.natives (m := (n "std", stdNatives)) (by simp [modules]) (ns := [.lambda, .if_, .cons]) (by decide)))))) (.cons
      (.def_ replc_def (by decide +kernel)) (.nil _ _))) (by rfl)⟩

/-- The definitions that `share/mnml/flatten.l` adds, the last one first. -/
def flattenT : List (Sym × Val) :=
  [(n "flatten", flattenV)] ++ (nats [.if_, .islst, .lambda, .conc, .list]) ++ (nats [.and]) ++ iteratorsT

theorem flatten_adds {os : Os} (hi : Installed os) : LibAdds os "flatten.l" flattenT :=
  ⟨_, _, _, by simp [libFiles], flatten_text,
    .eq (.cons (.load (.more (.lib hi (iterators_adds hi)) (by simp) (.more
      (.natives (m := (n "logic", logicNatives)) (by simp [modules]) (ns := [.and]) (by decide)) (by simp) (.one
      (.natives (m := (n "std", stdNatives)) (by simp [modules]) (ns := [.if_, .islst, .lambda, .conc, .list]) (by decide)))))) (.cons
      (.def_ flatten_def (by decide +kernel)) (.nil _ _))) (by rfl)⟩

/-- The definitions that `share/mnml/split.l` adds, the last one first. -/
def splitT : List (Sym × Val) :=
  [(n "split", splitV)] ++ (nats [.let_, .lambda, .if_, .car, .cdr, .conc, .list, .cons]) ++ (nats [.equ])

theorem split_adds {os : Os} (_hi : Installed os) : LibAdds os "split.l" splitT :=
  ⟨_, _, _, by simp [libFiles], split_text,
    .eq (.cons (.load (.more (.natives (m := (n "logic", logicNatives)) (by simp [modules]) (ns := [.equ]) (by decide)) (by simp) (.one
      (.natives (m := (n "std", stdNatives)) (by simp [modules]) (ns := [.let_, .lambda, .if_, .car, .cdr, .conc, .list, .cons]) (by decide)))))
      (.cons (.def_ split_def (by decide +kernel)) (.nil _ _))) (by rfl)⟩

/-- The definitions that `share/mnml/dedup.l` adds, the last one first. -/
def dedupT : List (Sym × Val) :=
  [(n "dedup", dedupV)] ++ (nats [.lambda, .if_, .isnil, .cons, .let_, .car, .match_, .cons, .cdr]) ++ iteratorsT

theorem dedup_adds {os : Os} (hi : Installed os) : LibAdds os "dedup.l" dedupT :=
  ⟨_, _, _, by simp [libFiles], dedup_text,
    .eq (.cons (.load (.more (.lib hi (iterators_adds hi)) (by simp) (.one
      (.natives (m := (n "std", stdNatives)) (by simp [modules]) (ns := [.lambda, .if_, .isnil, .cons, .let_, .car, .match_, .cons, .cdr]) (by decide))))) (.cons (.def_ dedup_def (by decide +kernel)) (.nil _ _))) (by rfl)⟩

/-- The definitions that `share/mnml/join.l` adds, the last one first. -/
def joinT : List (Sym × Val) :=
  [(n "join", joinV)] ++ (nats [.let_, .lambda, .car, .cdr, .list]) ++ revT ++ iteratorsT ++ appendT

theorem join_adds {os : Os} (hi : Installed os) : LibAdds os "join.l" joinT :=
  ⟨_, _, _, by simp [libFiles], join_text,
    .eq (.cons (.load (.more (.lib hi (append_adds hi)) (by simp) (.more (.lib hi (iterators_adds hi)) (by simp) (.more
      (.lib hi (rev_adds hi)) (by simp) (.one
      (.natives (m := (n "std", stdNatives)) (by simp [modules]) (ns := [.let_, .lambda, .car, .cdr, .list]) (by decide))))))) (.cons
      (.def_ join_def (by decide +kernel)) (.nil _ _))) (by rfl)⟩

/-- The definitions that `share/mnml/merge.l` adds, the last one first. -/
def mergeT : List (Sym × Val) :=
  [(n "merge", mergeV)] ++ (nats [.lambda]) ++ iteratorsT

theorem merge_adds {os : Os} (hi : Installed os) : LibAdds os "merge.l" mergeT :=
  ⟨_, _, _, by simp [libFiles], merge_text,
    .eq (.cons (.load (.more (.lib hi (iterators_adds hi)) (by simp) (.one
      (.natives (m := (n "std", stdNatives)) (by simp [modules]) (ns := [.lambda]) (by decide))))) (.cons (.def_ merge_def (by decide +kernel))
      (.nil _ _))) (by rfl)⟩

/-- The definitions that `share/mnml/orelse.l` adds, the last one first. -/
def orelseT : List (Sym × Val) :=
  [(n "<|>", orelseV)] ++ (nats [.if_])

theorem orelse_adds {os : Os} (_hi : Installed os) : LibAdds os "orelse.l" orelseT :=
  ⟨_, _, _, by simp [libFiles], orelse_text,
    .eq (.cons (.load (.one (.natives (m := (n "std", stdNatives)) (by simp [modules]) (ns := [.if_]) (by decide)))) (.cons
      (.def_ orelse_def (by decide +kernel)) (.nil _ _))) (by rfl)⟩

/-- The definitions that `share/mnml/iter.l` adds, the last one first. -/
def iterT : List (Sym × Val) :=
  [(n "iter", iterV)] ++ (nats [.if_, .let_, .car, .cdr])

theorem iter_adds {os : Os} (_hi : Installed os) : LibAdds os "iter.l" iterT :=
  ⟨_, _, _, by simp [libFiles], iter_text,
    .eq (.cons (.load (.one (.natives (m := (n "std", stdNatives)) (by simp [modules]) (ns := [.if_, .let_, .car, .cdr]) (by decide)))) (.cons
      (.def_ iter_def (by decide +kernel)) (.nil _ _))) (by rfl)⟩

/-- The definitions that `share/mnml/iter2.l` adds, the last one first. -/
def iter2T : List (Sym × Val) :=
  [(n "iter2", iter2V)] ++ (nats [.if_, .car, .cdr]) ++ (nats [.and])

theorem iter2_adds {os : Os} (_hi : Installed os) : LibAdds os "iter2.l" iter2T :=
  ⟨_, _, _, by simp [libFiles], iter2_text,
    .eq (.cons (.load (.more (.natives (m := (n "logic", logicNatives)) (by simp [modules]) (ns := [.and]) (by decide)) (by simp) (.one
      (.natives (m := (n "std", stdNatives)) (by simp [modules]) (ns := [.if_, .car, .cdr]) (by decide))))) (.cons
      (.def_ iter2_def (by decide +kernel)) (.nil _ _))) (by rfl)⟩

/-- The definitions that `share/mnml/truncr.l` adds, the last one first. -/
def truncrT : List (Sym × Val) :=
  [(n "truncr", truncrV)] ++ (nats [.stream]) ++ revT ++ manipsT

theorem truncr_adds {os : Os} (hi : Installed os) : LibAdds os "truncr.l" truncrT :=
  ⟨_, _, _, by simp [libFiles], truncr_text,
    .eq (.cons (.load (.more (.lib hi (manips_adds hi)) (by simp) (.more (.lib hi (rev_adds hi)) (by simp) (.one
      (.natives (m := (n "std", stdNatives)) (by simp [modules]) (ns := [.stream]) (by decide)))))) (.cons (.def_ truncr_def (by decide +kernel))
      (.nil _ _))) (by rfl)⟩

/-! ## C60 -/

/-- The files of the library with the definitions that they add. -/
def libTables : List (String × List (Sym × Val)) :=
  [("iterators.l", iteratorsT), ("rev.l", revT), ("filter.l", filterT), ("has.l", hasT), ("append.l", appendT), ("aton.l", atonT), ("ntoa.l", ntoaT),
   ("last.l", lastT), ("manips.l", manipsT), ("trim.l", trimT), ("strlt.l", strltT), ("insert.l", insertT), ("isort.l", isortT), ("erase.l", eraseT),
   ("replc.l", replcT), ("flatten.l", flattenT), ("split.l", splitT), ("dedup.l", dedupT), ("join.l", joinT), ("merge.l", mergeT),
   ("orelse.l", orelseT), ("iter.l", iterT), ("iter2.l", iter2T), ("truncr.l", truncrT)]

theorem libTables_adds {os : Os} (hi : Installed os) (ha : Absent os (n "iterators")) : ∀ p ∈ libTables, LibAdds os p.1 p.2 := by
  simp only [libTables, List.forall_mem_cons]
  exact ⟨iterators_adds hi, rev_adds hi, filter_adds hi, has_adds hi, append_adds hi, aton_adds hi, ntoa_adds hi, last_adds hi, manips_adds hi,
    trim_adds hi, strlt_adds hi, insert_adds hi, isort_adds hi ha, erase_adds hi, replc_adds hi, flatten_adds hi, split_adds hi, dedup_adds hi,
    join_adds hi, merge_adds hi, orelse_adds hi, iter_adds hi, iter2_adds hi, truncr_adds hi, by simp⟩

/-- The string `"@lib/FILE"`. -/
def atLib (f : String) : Val := strVal ((lit "@lib".toList ++ 47 :: lit f.toList).map charOf)

/-- **C60.** `(load "@lib/FILE")` in a script or on the command line terminates for every file of the library, in every state of an installed
interpreter and every directory. It adds the definitions of the file and of what it loads; it changes nothing else of the globals, prints nothing,
and the current directory is the one from before. -/
theorem C60_load {os : Os} (hi : Installed os) (ha : Absent os (n "iterators")) {p : String × List (Sym × Val)} (hp : p ∈ libTables) {s : SSt}
    {cwd : List UInt8} (hr : Ready os s) (hc : curdir os s = .ok cwd) :
    ∃ k w s', evalTop os (sem nil) k (L [S "load", atLib p.1]) s = .ok (w, s') ∧ Ready os s' ∧ s'.dirs = s.dirs ∧ s'.st = over p.2 s.st := by
  obtain ⟨t, k, vs, hf, ht, h⟩ := libTables_adds hi ha p hp
  have hsz := hi.size
  have hr' : Ready os (push (share os) s) := ⟨hr.mods, hr.live, hr.sdef, hr.squote, hr.sload⟩
  obtain ⟨w, q, h1, h2⟩ := h nil (push (share os) s) hr' (curdir_push os s (share_plain hi) (by rw [share_length]; omega)) (by simp [push])
  obtain ⟨m, hm⟩ := (C58_script (ev := sem nil) (w := w) (s' := { q with dirs := s.dirs }) (at_finds hi hf s hc) ht).2 ⟨q, h1, rfl⟩
  obtain ⟨-, -, n3, -, -, n6⟩ := libFiles_names p.1 (List.mem_map.2 ⟨_, hf, rfl⟩)
  have hpl : Plain (lit "@lib".toList ++ 47 :: lit p.1.toList) := by
    intro x hx
    rcases List.mem_append.1 hx with h | h
    · have : ∀ x ∈ lit "@lib".toList, x ≠ 92 ∧ x ≠ 0 := by decide +kernel
      exact this x h
    · rcases List.mem_cons.1 h with rfl | h
      · decide
      · exact n6 x h
  have hne : lit "@lib".toList ++ 47 :: lit p.1.toList ≠ [] := by simp
  have hle : (lit "@lib".toList ++ 47 :: lit p.1.toList).length ≤ pathMax := by
    have h4 : (lit "@lib".toList).length = 4 := by decide +kernel
    have h5 : 64 ≤ pathMax := by decide
    rw [List.length_append, List.length_cons, h4]
    omega
  obtain ⟨j, hj⟩ := (C58_string hpl hne hle s w _).2 ⟨m, hm⟩
  have hn : n "load" = Native.load.name := by decide +kernel
  have hl : Loads os (sem nil) [atLib p.1] s w { q with dirs := s.dirs } := by
    refine .one (a := atLib p.1) (st := s.st) ?_ hj
    obtain ⟨b, l, h⟩ := List.exists_cons_of_ne_nil hne
    rw [atLib, h]
    exact ok_string
  obtain ⟨i, hi'⟩ := (C58_load (by simp) s w _ false false hr.sload).2 hl
  refine ⟨i, w, { q with dirs := s.dirs }, ?_, ⟨h2.1.mods, h2.1.live, h2.1.sdef, h2.1.squote, h2.1.sload⟩, rfl, h2.2.2⟩
  rw [← hi', ← hn]
  rfl

/-- The functions of the library whose laws are proved, by file: what each relies on. -/
def libUses : List (String × List (Sym × Val)) :=
  [("iterators.l", foldlUses), ("iterators.l", foldrUses), ("iterators.l", mapUses), ("iterators.l", map2Uses), ("iterators.l", zipUses),
   ("rev.l", revUses), ("filter.l", filterUses), ("has.l", hasUses), ("aton.l", atonUses), ("ntoa.l", ntoaUses), ("last.l", lastUses),
   ("manips.l", last2Uses), ("manips.l", repUses), ("manips.l", trunclUses), ("manips.l", assocUses), ("trim.l", trimUses), ("strlt.l", strltUses),
   ("erase.l", eraseUses), ("replc.l", replcUses)]

theorem libUses_find : ∀ q ∈ libUses, ∀ p ∈ libTables, p.1 = q.1 → ∀ r ∈ q.2, p.2.find? (fun x => x.1 = r.1) = some r := by decide +kernel

/-- **C60.** After a file has been loaded, its functions are defined as their laws (C49 to C54) demand. -/
theorem C60_uses {q p : String × List (Sym × Val)} (hq : q ∈ libUses) (hp : p ∈ libTables) (h : p.1 = q.1) (st : St) : Uses q.2 [] (over p.2 st) :=
  uses_over st (libUses_find q hq p hp h)

/-- **C60.** A program that was not started with `-b` can load the library. -/
theorem C60_start {os : Os} (hi : Installed os) (b : Build) {c : Call} (hb : c.bare = false) :
    ∃ s, prepare os b c = .ok s ∧ Ready os s ∧ s.dirs = [] := by
  have hk : ∀ m ∈ modules, Known os startSt m.1 (natTable m.2) := fun m hm => by
    obtain ⟨p, hp⟩ := hi.mods m hm
    exact .inl ⟨p, hp, rfl⟩
  have hl : Live startSt := by intro m p l h; cases h
  obtain ⟨w, s0, h1, h2, h3, h4, h5⟩ := load_natives0 hk hl (m := (n "std", stdNatives)) (by simp [modules]) (ns := [.def_, .quote, .load]) (by decide)
  have e : symLit ['s', 't', 'd'] = n "std" := by decide +kernel
  have h1' : loadDefaults os startSt = .ok (w, s0) := by rw [loadDefaults, e]; exact h1
  refine ⟨buildEnv c.environ (buildConfig b (buildArgv c.args s0)), by simp [prepare, hb, h1'], ?_, ?_⟩
  · have hg : ∀ a ∈ [Native.def_, .quote, .load], (buildEnv c.environ (buildConfig b (buildArgv c.args s0))).st.globals a.name = some a.val := by
      intro a ha
      have hne : a.name ≠ sArgv ∧ a.name ≠ sConfig ∧ a.name ≠ sEnv := by
        have : ∀ a ∈ [Native.def_, .quote, .load], a.name ≠ sArgv ∧ a.name ≠ sConfig ∧ a.name ≠ sEnv := by decide
        exact this a ha
      rw [buildEnv, setVar_other _ _ _ hne.2.2, buildConfig, setVar_other _ _ _ hne.2.1, buildArgv, setVar_other _ _ _ hne.1, h5]
      simp only [over, nats_find ha]
    have hc : (buildEnv c.environ (buildConfig b (buildArgv c.args s0))).cache = s0.cache := by
      simp only [buildEnv, buildConfig, buildArgv, (setVar_rest _ _ _).2.1]
    have hf : (buildEnv c.environ (buildConfig b (buildArgv c.args s0))).refs = s0.refs := by
      simp only [buildEnv, buildConfig, buildArgv, (setVar_rest _ _ _).2.2.1]
    exact ⟨fun m hm => by simpa only [Known, Open, hc, hf] using h2 m hm, by simpa only [Live, hc, hf] using h3, hg _ (by simp), hg _ (by simp), hg _ (by simp)⟩
  · simp only [buildEnv, buildConfig, buildArgv, (setVar_rest _ _ _).1, h4]; rfl

/-- An expression evaluates to `v` wherever the definitions `U` and `quote` are there; it is neither NIL nor a call of `load`. -/
structure Computes (U : List (Sym × Val)) (e v : Val) : Prop where
  eval : ∀ st, Uses ((sQuote, Native.quote.val) :: U) [] st → ∃ st', sem nil e st = .ok (v, st')
  call : e.isNil = false ∧ ∀ s, isLoad s e = none

/-- Loading a file of the library and using it. -/
theorem lib_runs {os : Os} (hi : Installed os) (ha : Absent os (n "iterators")) {f : String} {U : List (Sym × Val)} (hU : (f, U) ∈ libUses) {s : SSt}
    {cwd : List UInt8} (hr : Ready os s) (hc : curdir os s = .ok cwd) {e v : Val} (he : Computes U e v) (r : Val) :
    ∃ s', Runs os (sem nil) [L [S "load", atLib f], e] r s v s' := by
  have hm : ∀ q ∈ libUses, q.1 ∈ libTables.map Prod.fst := by decide +kernel
  obtain ⟨p, hp, hpf⟩ := List.mem_map.1 (hm _ hU)
  obtain ⟨k, w, s1, h1, h2, -, h4⟩ := C60_load hi ha hp hr hc
  have hu := C60_uses hU hp hpf s.st
  have hq : Uses ((sQuote, Native.quote.val) :: U) [] s1.st := by
    intro x hx
    rcases List.mem_cons.1 hx with rfl | hx
    · have : sQuote = Native.quote.name := by decide +kernel
      exact ⟨rfl, by rw [this]; exact h2.squote⟩
    · rw [h4]; exact hu x hx
  obtain ⟨st', h5⟩ := he.eval _ hq
  refine ⟨{ s1 with st := st' }, .cons (n := k) (by rw [show f = p.1 from hpf.symm]; exact h1) (.cons (n := 1) ?_ .nil)⟩
  simp only [evalTop, he.call.2, h5, Res.ok_bind]

/-- **C60.** `mnml -e '(load "@lib/FILE") E'` returns the value of `E` in the library, with the status that belongs to it. -/
theorem C60_expr {os : Os} (hi : Installed os) (ha : Absent os (n "iterators")) {f : String} {U : List (Sym × Val)} (hU : (f, U) ∈ libUses) (b : Build)
    {c : Call} {t : List UInt8} {fin : LSt} {e v : Val} (hb : c.bare = false) (h0 : c.args = []) (ht : c.expr = some t)
    (hp : lexerParse (fun _ => .unsupported) .init t = .ok fin) (hv : fin.ps.vals = [L [S "load", atLib f], e]) (he : Computes U e v)
    (hw : Plain c.cwd) (hl : c.cwd.length < pathMax) : ∃ k s', main os (sem nil) k b c = .ok (status v, v, s') := by
  obtain ⟨s, h1, h2, -⟩ := C60_start hi b hb
  have hr' : Ready os (push c.cwd s) := ⟨h2.mods, h2.live, h2.sdef, h2.squote, h2.sload⟩
  obtain ⟨q, hq⟩ := lib_runs hi ha hU hr' (curdir_push os s hw hl) he nil
  have htw : fin.ps.vals.takeWhile (fun v => !v.isNil) = [L [S "load", atLib f], e] := by
    rw [hv]
    have : (L [S "load", atLib f]).isNil = false := rfl
    simp [this, he.call.1]
  obtain ⟨k, hk⟩ := (C59_expr (ev := sem nil) h0 ht h1 hp (status v) v { q with dirs := s.dirs }).2 ⟨q, by rw [htw]; exact hq, rfl, rfl⟩
  exact ⟨k, _, hk⟩

/-- **C60.** The same for a script `FILE` that is given by an absolute name, `mnml FILE`. -/
theorem C60_script {os : Os} (hi : Installed os) (ha : Absent os (n "iterators")) {f : String} {U : List (Sym × Val)} (hU : (f, U) ∈ libUses) (b : Build)
    {c : Call} {file d base t : List UInt8} {as : List (List UInt8)} {k : Nat} {fin : LSt} {e v : Val} (hb : c.bare = false)
    (h0 : c.args = file :: as) (hf : ∀ s : SSt, s.dirs = [] → Finds os s file d base t)
    (hp : drain (fun _ => .unsupported) k .init t = .ok fin) (hv : fin.ps.vals = [L [S "load", atLib f], e]) (he : Computes U e v)
    (hw : Plain d) (hl : d.length < pathMax) : ∃ k s', main os (sem nil) k b c = .ok (status v, v, s') := by
  obtain ⟨s, h1, h2, h3⟩ := C60_start hi b hb
  have hr' : Ready os (push d s) := ⟨h2.mods, h2.live, h2.sdef, h2.squote, h2.sload⟩
  obtain ⟨q, hq⟩ := lib_runs hi ha hU hr' (curdir_push os s hw hl) he nil
  obtain ⟨m, hm⟩ := (C58_script (ev := sem nil) (w := v) (s' := { q with dirs := s.dirs }) (hf s h3) hp).2 ⟨q, by rw [hv]; exact hq, rfl⟩
  obtain ⟨j, hj⟩ := (C59_file (ev := sem nil) (b := b) h0 h1 (status v) v _).2 ⟨⟨m, hm⟩, rfl⟩
  exact ⟨j, _, hj⟩

/-! Some of the functions. -/

theorem not_load (t : String) (vs : List Val) (h : n t ≠ Native.load.name) (s : SSt) : isLoad s (L (S t :: vs)) = none := by
  show (if n t = Native.load.name ∧ _ then some _ else none) = none
  exact if_neg fun hh => h hh.1

/-- **C60.** With `rev.l`, `(rev 'LIST)` is the reversed list. -/
theorem C60_rev (xs : List Val) : Computes revUses (L [S "rev", Q (ofList xs)]) (ofList xs.reverse) where
  eval st hu := by
    have h := hu.sub (T' := revUses) fun p hp => by simp [hp]
    have := C50_rev (l := []) List.Pairwise.nil h h (ok_quote (r := ofList xs) (tc := false) (f := false) (hu.at 0 rfl))
    rw [elems_ofList] at this
    exact ⟨st, this⟩
  call := ⟨rfl, not_load _ _ (by decide +kernel)⟩

/-- **C60.** With `ntoa.l`, `(ntoa N)` is the decimal form of a number that is not negative. -/
theorem C60_ntoa (k : Nat) (hk : (k : Int) ≤ i64max) : Computes ntoaUses (L [S "ntoa", num k]) (str (toString k)) where
  eval st hu := by
    have h := hu.sub (T' := ntoaUses) fun p hp => by simp [hp]
    exact ⟨st, C52_ntoa (l := []) List.Pairwise.nil h h rfl hk (ok_num _)⟩
  call := ⟨rfl, not_load _ _ (by decide +kernel)⟩

/-- **C60.** With `aton.l`, `(aton "DIGITS")` is the number. -/
theorem C60_aton (d : String) (hd : ∀ x ∈ d.toList, x.isDigit = true) (hf : (decVal d.toList : Int) ≤ i64max) :
    Computes atonUses (L [S "aton", str d]) (num (decVal d.toList)) where
  eval st hu := by
    have h := hu.sub (T' := atonUses) fun p hp => by simp [hp]
    have hs : sem (envVal []) (str d) st = .ok (str d, st) := by
      unfold str
      cases d.toList with
      | nil => exact ok_nil
      | cons a l => exact ok_string
    exact ⟨st, C52_aton (l := []) List.Pairwise.nil h h hd hf hs⟩
  call := ⟨rfl, not_load _ _ (by decide +kernel)⟩

/-- **C60.** With `strlt.l`, `(strlt A B)` is the order of the strings. -/
theorem C60_strlt (xs ys : List Int) : Computes strltUses (L [S "strlt", codes xs, codes ys]) (ofBool (decide (xs < ys))) where
  eval st hu := by
    have h := hu.sub (T' := strltUses) fun p hp => by simp [hp]
    have hs : ∀ xs : List Int, sem (envVal []) (codes xs) st = .ok (codes xs, st) := by
      intro xs
      cases xs with
      | nil => exact ok_nil
      | cons a l => exact ok_string
    exact ⟨st, C53_strlt (l := []) List.Pairwise.nil h h (okSeq_cons (hs _) (okSeq_cons (hs _) okSeq_nil))⟩
  call := ⟨rfl, not_load _ _ (by decide +kernel)⟩

/-- **C60.** `isort.l` takes `foldl` from a binary module `iterators`. If there is none, it works after `iterators.l` has been loaded … -/
theorem C60_isort (st : St) : Uses isortUses [] (over isortT (over iteratorsT st)) := by
  rw [← over_append]
  exact uses_over st (by decide +kernel)

/-- **C60.** … and not alone: loading it succeeds and leaves `foldl` undefined, so that `(isort < '(2 1))` does not sort. -/
theorem C60_isort_counterexample : (over isortT ⟨fun _ => none, []⟩).globals (n "foldl") = none ∧ (n "foldl", foldlV) ∈ isortUses :=
  ⟨by decide +kernel, by simp [isortUses, foldlUses]⟩

/-! ### Examples for C60 -/

/-- A system with the modules and the library installed under `/u`, and a script `/w/a`. -/
def box : Os where
  home := [47, 117]
  getenv := fun v => if v = lit ['P', 'W', 'D'] then some [47, 119] else if v = lit ['H', 'O', 'M', 'E'] then some [47, 104] else none
  realpath := some
  fopen := fun p =>
    if p = [47, 119, 47, 97] then some (lit "(load \"@lib/rev.l\")\n(rev (quote 1 2 3))\n".toList)
    else (libFiles.find? fun f => p = [47, 117] ++ lit "/share/mnml".toList ++ 47 :: lit f.1.toList).map (·.2)
  opendir := fun d => if d = lit "/u/lib/mnml".toList then some (modules.map fun m => lit "lib".toList ++ m.1.name ++ lit ".so".toList) else none
  dlopen := fun p => (modules.find? fun m => p = lit "/u/lib/mnml/lib".toList ++ m.1.name ++ lit ".so".toList).map fun m =>
    ⟨some m.1.name, some (natTable m.2)⟩
  slack := 10

theorem box_installed : Installed box where
  mods := by
    intro m hm
    refine ⟨lit "/u/lib/mnml/lib".toList ++ m.1.name ++ lit ".so".toList, ?_, ?_⟩
    · have : ∀ m ∈ modules, Module.find box m.1 = .ok (some (lit "/u/lib/mnml/lib".toList ++ m.1.name ++ lit ".so".toList)) := by decide +kernel
      exact this m hm
    · have : ∀ m ∈ modules, box.dlopen (lit "/u/lib/mnml/lib".toList ++ m.1.name ++ lit ".so".toList) = some ⟨some m.1.name, some (natTable m.2)⟩ := by
        decide +kernel
      exact this m hm
  env := by decide +kernel
  root := rfl
  plain := by unfold Plain; decide
  size := by decide
  files := by
    refine fun f hf => ⟨rfl, ?_⟩
    have hinj : ∀ f ∈ libFiles.map Prod.fst, ∀ g ∈ libFiles.map Prod.fst, lit f.toList = lit g.toList → f = g := by decide +kernel
    have hnd : (libFiles.map Prod.fst).Nodup := by decide +kernel
    have key : ∀ l : List (String × List UInt8), (∀ x ∈ l, x ∈ libFiles) → (l.map Prod.fst).Nodup → f ∈ l →
        l.find? (fun g => share box ++ 47 :: lit f.1.toList = share box ++ 47 :: lit g.1.toList) = some f := by
      intro l hs hn hm
      induction l with
      | nil => simp at hm
      | cons g l ih =>
        simp only [List.map_cons, List.nodup_cons] at hn
        rcases List.mem_cons.1 hm with rfl | hm
        · simp
        · have hne : ¬(share box ++ 47 :: lit f.1.toList = share box ++ 47 :: lit g.1.toList) := by
            intro h
            have h1 := List.append_cancel_left h
            simp only [List.cons.injEq, true_and] at h1
            have h2 := hinj _ (List.mem_map.2 ⟨f, hf, rfl⟩) _ (List.mem_map.2 ⟨g, hs g (by simp), rfl⟩) h1
            exact hn.1 (List.mem_map.2 ⟨f, hm, h2⟩)
          rw [List.find?_cons_of_neg (by simpa using hne)]
          exact ih (fun x hx => hs x (by simp [hx])) hn.2 hm
    have h0 : ¬(share box ++ 47 :: lit f.1.toList = [47, 119, 47, 97]) := by
      intro h
      have : (117 : UInt8) = 119 := (List.cons.inj (List.cons.inj h).2).1
      exact absurd this (by decide)
    exact (if_neg (t := some (lit "(load \"@lib/rev.l\")\n(rev (quote 1 2 3))\n".toList)) h0).trans (congrArg (Option.map (fun g : String × List UInt8 => g.2)) (key libFiles (fun _ h => h) hnd hf))

theorem box_absent : Absent box (n "iterators") := by unfold Absent; decide +kernel

/-- The call `mnml -e TEXT` in `/w`. -/
def boxCall (t : List UInt8) : Call := ⟨false, some t, [], [], [47, 119], []⟩

/-- `mnml -e '(load "@lib/rev.l") (rev (quote 1 2 3))'` returns `(3 2 1)` with status 0: the hypotheses of `C60_expr`, `C60_load` and `C60_start`. -/
example (b : Build) : ∃ k s', main box (sem nil) k b (boxCall (lit "(load \"@lib/rev.l\") (rev (quote 1 2 3))".toList)) = .ok (0, L [N 3, N 2, N 1], s') :=
  C60_expr box_installed box_absent (f := "rev.l") (by simp [libUses]) b rfl rfl rfl
    (fin := ⟨[], [], none, [L [S "load", atLib "rev.l"], L [S "rev", Q (L [N 1, N 2, N 3])]]⟩) (by decide +kernel) rfl (C60_rev _) (by unfold Plain; decide) (by decide)

/-- The same for `mnml /w/a`: the hypotheses of `C60_script`. -/
example (b : Build) : ∃ k s', main box (sem nil) k b ⟨false, none, [[47, 119, 47, 97]], [], [47, 119], []⟩ = .ok (0, L [N 3, N 2, N 1], s') :=
  C60_script box_installed box_absent (f := "rev.l") (U := revUses) (by simp [libUses]) b (file := [47, 119, 47, 97]) (d := [47, 119]) (base := [97])
    (t := lit "(load \"@lib/rev.l\")\n(rev (quote 1 2 3))\n".toList) rfl rfl
    (fun s hs => ⟨⟨[47, 119], [47, 119, 47, 97], [47, 119, 47, 97], by rw [curdir, hs]; decide +kernel, .other (by rw [lit_lib]; decide) (by decide), by decide,
      by rw [hs]; decide, by rw [hs]; rfl, ⟨by decide, .inr ⟨by decide, by decide, rfl⟩⟩, rfl⟩⟩)
    (k := 10) (fin := ⟨[], [], none, [L [S "load", atLib "rev.l"], L [S "rev", Q (L [N 1, N 2, N 3])]]⟩) (by decide +kernel) rfl (C60_rev _)
    (by unfold Plain; decide) (by decide)

end Lib
end Mnml
