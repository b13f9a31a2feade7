import Verif.PropScript

/-!
# C59: the command line
-/

namespace Mnml
namespace Module

open Val Lex

/-! ## The expression of `-e` -/

theorem evalLoop_runs {os : Os} {ev : Val → M Val} (vs : List Val) (r : Val) (s : SSt) (w : Val) (s' : SSt) :
    (∃ n, evalLoop os ev n vs r s = .ok (w, s')) ↔ Runs os ev (vs.takeWhile fun v => !v.isNil) r s w s' := by
  induction vs generalizing r s with
  | nil =>
    constructor
    · rintro ⟨n, h⟩; cases h; exact .nil
    · intro h; cases h; exact ⟨0, rfl⟩
  | cons v vs ih =>
    by_cases hv : v.isNil
    · rw [List.takeWhile_cons_of_neg (by simp [hv])]
      constructor
      · rintro ⟨n, h⟩; simp only [evalLoop, hv, if_true] at h; cases h; exact .nil
      · intro h; cases h; exact ⟨0, by simp [evalLoop, hv]⟩
    · rw [List.takeWhile_cons_of_pos (by simp [hv])]
      constructor
      · rintro ⟨n, h⟩
        simp only [evalLoop, hv, Bool.false_eq_true, if_false] at h
        obtain ⟨⟨u, s1⟩, h1, h2⟩ := Res.bind_eq_ok.1 h
        exact .cons h1 ((ih u s1).1 ⟨n, h2⟩)
      · intro h
        cases h with
        | @cons k _ _ u _ _ _ s1 _ h1 h2 =>
          obtain ⟨m, hm⟩ := (ih u s1).2 h2
          refine ⟨max k m, ?_⟩
          have a1 := ((script_le os ev k (max k m) (by omega)).1 v s).ok h1
          have a2 : ∀ (l : List Val) (x : Val) (q : SSt) (z : Val × SSt), evalLoop os ev m l x q = .ok z → evalLoop os ev (max k m) l x q = .ok z := by
            intro l
            induction l with
            | nil => intro x q z h; exact h
            | cons y l ihl =>
              intro x q z h
              simp only [evalLoop] at h ⊢
              split at h
              · next hy => rw [if_pos hy]; exact h
              · next hy =>
                rw [if_neg hy]
                obtain ⟨⟨u, s1⟩, h1, h2⟩ := Res.bind_eq_ok.1 h
                rw [((script_le os ev m (max k m) (by omega)).1 y q).ok h1]
                exact ihl _ _ _ h2
          simp [evalLoop, hv, a1, a2 _ _ _ _ hm]

/-- The exit status: success iff the result is not NIL. -/
def status (r : Val) : Int := if r.isNil then -1 else 0

/-- **C59.** `mnml -e EXPR` evaluates the expressions of the text, in their order and up to the first that is read as NIL, with relative names in
the current directory; the exit status is 0 iff the last result is not NIL. -/
theorem C59_expr {os : Os} {ev : Val → M Val} {b : Build} {c : Call} {e : List UInt8} {s : SSt} {fin : LSt} (ha : c.args = [])
    (he : c.expr = some e) (hs : prepare os b c = .ok s) (hp : lexerParse (fun _ => .unsupported) .init e = .ok fin) (k : Int) (w : Val) (s' : SSt) :
    (∃ n, main os ev n b c = .ok (k, w, s')) ↔
      ∃ q, Runs os ev (fin.ps.vals.takeWhile fun v => !v.isNil) nil (push c.cwd s) w q ∧ s' = { q with dirs := s.dirs } ∧ k = status w := by
  simp only [main, hs, ha, he, Res.ok_bind, evalString, hp]
  constructor
  · rintro ⟨n, h⟩
    obtain ⟨⟨r, q⟩, h1, h2⟩ := Res.bind_eq_ok.1 h
    have hr := (evalLoop_runs _ _ _ _ _).1 ⟨n, h1⟩
    cases h2
    refine ⟨q, hr, ?_, rfl⟩
    rw [hr.dirs]; rfl
  · rintro ⟨q, hr, rfl, rfl⟩
    obtain ⟨n, hn⟩ := (evalLoop_runs _ _ _ _ _).2 hr
    have e : q.dirs.tail = s.dirs := by rw [hr.dirs]; rfl
    exact ⟨n, by rw [hn]; simp only [Res.ok_bind, e]; rfl⟩

/-- **C59.** `mnml FILE ARG…` runs the file, also if `-e` is given. -/
theorem C59_file {os : Os} {ev : Val → M Val} {b : Build} {c : Call} {f : List UInt8} {as : List (List UInt8)} {s : SSt} (ha : c.args = f :: as)
    (hs : prepare os b c = .ok s) (k : Int) (w : Val) (s' : SSt) :
    (∃ n, main os ev n b c = .ok (k, w, s')) ↔ (∃ n, loadFile os ev n f s = .ok (w, s')) ∧ k = status w := by
  simp only [main, hs, ha, Res.ok_bind]
  constructor
  · rintro ⟨n, h⟩
    obtain ⟨⟨r, s1⟩, h1, h2⟩ := Res.bind_eq_ok.1 h
    cases h2
    exact ⟨⟨n, h1⟩, rfl⟩
  · rintro ⟨⟨n, h⟩, rfl⟩
    exact ⟨n, by rw [h]; rfl⟩

/-! ## The variables -/

theorem append_ofList (l : List Val) (v : Val) : Val.append (ofList l) v = ofList (l ++ [v]) := by
  induction l with
  | nil => rfl
  | cons x l ih =>
    cases l with
    | nil => rfl
    | cons y l =>
      show cons x ((ofList (y :: l)).append v) = cons x (ofList (y :: l ++ [v]))
      rw [ih]

theorem argv_list (args : List (List UInt8)) (l : List Val) :
    args.foldl (fun l a => Val.append l (cstrVal a)) (ofList l) = ofList (l ++ args.map cstrVal) := by
  induction args generalizing l with
  | nil => simp
  | cons a args ih => simp only [List.foldl_cons, append_ofList, ih]; simp

/-- The text of a variable or argument is a string of its bytes. -/
theorem cstrVal_plain {a : List UInt8} (h : ∀ x ∈ a, x ≠ 92) : cstrVal a = strVal (a.map charOf) := by rw [cstrVal, makeString_plain a h]

theorem splitEq_eq {k v : List UInt8} (h : (61 : UInt8) ∉ k) : splitEq (k ++ 61 :: v) = some (k, v) := by
  induction k with
  | nil => simp [splitEq]
  | cons b k ih =>
    have hb : b ≠ 61 := fun e => h (by simp [e])
    rw [List.cons_append, splitEq, if_neg hb, ih fun h' => h (by simp [h'])]
    rfl

theorem splitEq_none {e : List UInt8} (h : (61 : UInt8) ∉ e) : splitEq e = none := by
  induction e with
  | nil => rfl
  | cons b e ih =>
    have hb : b ≠ 61 := fun e => h (by simp [e])
    rw [splitEq, if_neg hb, ih fun h' => h (by simp [h'])]
    rfl

/-- The entry of the variable `k` with the value `v` in the list of the environment. -/
def envEntry (q : List UInt8 × List UInt8) : Val := cons (cstrVal q.1) (cstrVal q.2)

theorem envPairs_eq (kvs : List (List UInt8 × List UInt8)) (h : ∀ q ∈ kvs, (61 : UInt8) ∉ q.1) (l : List Val) :
    envPairs (kvs.map fun q => q.1 ++ 61 :: q.2) (ofList l) = ofList (l ++ (kvs.filter fun q => !q.2.isEmpty).map envEntry) := by
  induction kvs generalizing l with
  | nil => simp [envPairs]
  | cons q kvs ih =>
    obtain ⟨k, v⟩ := q
    have h1 := ih fun x hx => h x (by simp [hx])
    rw [List.map_cons, envPairs, splitEq_eq (h (k, v) (by simp))]
    cases v with
    | nil => simp only [h1]; simp
    | cons x v => simp only [append_ofList, h1]; simp [envEntry]

/-- A list as the value of a variable: a variable without value is not defined. -/
def listVar (l : List Val) : Option Val := if l = [] then none else some (ofList l)

theorem setVar_same (n : List Char) (l : List Val) (s : SSt) (h : s.st.globals (symLit n) = none) :
    (setVar n (ofList l) s).st.globals (symLit n) = listVar l := by
  cases l with
  | nil => simpa [setVar, ofList, isNil, listVar] using h
  | cons x l => simp [setVar, ofList, isNil, listVar]

theorem setVar_other (n : List Char) (v : Val) (s : SSt) {t : Sym} (h : t ≠ symLit n) : (setVar n v s).st.globals t = s.st.globals t := by
  unfold setVar
  split
  · rfl
  · simp [h]

theorem setVar_rest (n : List Char) (v : Val) (s : SSt) : (setVar n v s).dirs = s.dirs ∧ (setVar n v s).cache = s.cache ∧ (setVar n v s).refs = s.refs ∧
    (setVar n v s).st.out = s.st.out := by
  unfold setVar
  split <;> exact ⟨rfl, rfl, rfl, rfl⟩

/-- The symbols that every program finds defined (`-b` not given). -/
def defaults : List Sym := [Native.def_.name, Native.quote.name, Native.load.name]

def sArgv : Sym := symLit ['A', 'R', 'G', 'V']
def sConfig : Sym := symLit ['C', 'O', 'N', 'F', 'I', 'G']
def sEnv : Sym := symLit ['E', 'N', 'V']

/-- `CONFIG` is an association list of five properties of the build. -/
def IsConfig (b : Build) (v : Val) : Prop :=
  ∃ l, v = ofList l ∧ l.length = 5 ∧
    cons (ofSym (symLit ['V', 'E', 'R', 'S', 'I', 'O', 'N'])) (cstrVal b.version) ∈ l ∧
    cons (ofSym (symLit ['P', 'R', 'E', 'F', 'I', 'X'])) (cstrVal b.root) ∈ l ∧
    cons (ofSym (symLit ['C', 'O', 'M', 'P', 'V', 'E', 'R'])) (cstrVal b.compver) ∈ l ∧
    cons (ofSym (symLit ['C', 'O', 'M', 'P', 'I', 'D'])) (cstrVal b.compid) ∈ l ∧
    cons (ofSym (symLit ['B', 'U', 'I', 'L', 'D', '_', 'T', 'S'])) (cstrVal b.buildts) ∈ l

/-- **C59.** What a program starts with: `def`, `quote` and `load` with their values in the module `std`; the list of the arguments under `ARGV`; the
list of the variables of the environment that are not empty under `ENV`, in their order, a name is what is before the first `=`; the properties
of the build under `CONFIG`; nothing else. -/
theorem C59_start {os : Os} {b : Build} {c : Call} {es : List (List UInt8 × Val)} {kvs : List (List UInt8 × List UInt8)} (hb : c.bare = false)
    (hk : Known os startSt (symLit ['s', 't', 'd']) es) (he : c.environ = kvs.map fun q => q.1 ++ 61 :: q.2) (h1 : ∀ q ∈ kvs, (61 : UInt8) ∉ q.1) :
    ∃ s, prepare os b c = .ok s ∧ s.dirs = [] ∧ s.st.out = [] ∧
      (∀ t ∈ defaults, ∀ v, Exports es t v → s.st.globals t = some v) ∧
      s.st.globals sArgv = listVar (c.args.map cstrVal) ∧
      s.st.globals sEnv = listVar ((kvs.filter fun q => !q.2.isEmpty).map envEntry) ∧
      (∃ v, s.st.globals sConfig = some v ∧ IsConfig b v) ∧
      ∀ t, t ∉ defaults → t ≠ sArgv → t ≠ sConfig → t ≠ sEnv → s.st.globals t = none := by
  obtain ⟨s0, h2, h3, h4⟩ := C57_list hk false false (defaults.map ofSym) (by
    have : ∀ t ∈ defaults, t.Canonical := by unfold Sym.Canonical; decide
    simpa [defaults, symbols, ofSym] using this)
  have h2' : loadDefaults os startSt = .ok _ := h2
  have hsy : symbols (defaults.map ofSym) = defaults := by decide
  rw [hsy] at h3
  have hA : s0.st.globals sArgv = none := by
    rw [h3.old _ fun hm => absurd hm (by decide)]; rfl
  have hC : s0.st.globals sConfig = none := by
    rw [h3.old _ fun hm => absurd hm (by decide)]; rfl
  have hE : s0.st.globals sEnv = none := by
    rw [h3.old _ fun hm => absurd hm (by decide)]; rfl
  refine ⟨buildEnv c.environ (buildConfig b (buildArgv c.args s0)), by simp [prepare, hb, h2'], ?_, ?_, ?_, ?_, ?_, ?_, ?_⟩
  · simp only [buildEnv, buildConfig, buildArgv, (setVar_rest _ _ _).1, h4]; rfl
  · simp only [buildEnv, buildConfig, buildArgv, (setVar_rest _ _ _).2.2.2, h3.out]; rfl
  · intro t ht v hv
    have hne : t ≠ sArgv ∧ t ≠ sConfig ∧ t ≠ sEnv := by
      have : ∀ t ∈ defaults, t ≠ sArgv ∧ t ≠ sConfig ∧ t ≠ sEnv := by decide
      exact this t ht
    rw [buildEnv, setVar_other _ _ _ hne.2.2, buildConfig, setVar_other _ _ _ hne.2.1, buildArgv, setVar_other _ _ _ hne.1]
    exact h3.new t v ht hv
  · have hne : sArgv ≠ sConfig ∧ sArgv ≠ sEnv := by decide
    rw [buildEnv, setVar_other _ _ _ hne.2, buildConfig, setVar_other _ _ _ hne.1, buildArgv]
    have := argv_list c.args []
    rw [List.nil_append] at this
    rw [show (nil : Val) = ofList [] from rfl, this]
    exact setVar_same _ _ _ hA
  · have hne : sEnv ≠ sConfig ∧ sEnv ≠ sArgv := by decide
    have := envPairs_eq kvs h1 []
    rw [List.nil_append] at this
    rw [buildEnv, he, show (nil : Val) = ofList [] from rfl, this]
    refine setVar_same _ _ _ ?_
    show (buildConfig b (buildArgv c.args s0)).st.globals sEnv = none
    rw [buildConfig, setVar_other _ _ _ hne.1, buildArgv, setVar_other _ _ _ hne.2]
    exact hE
  · have hne : sConfig ≠ sEnv := by decide
    rw [buildEnv, setVar_other _ _ _ hne, buildConfig]
    exact ⟨_, setVar_same _ _ _ (by rw [buildArgv, setVar_other _ _ _ (by decide)]; exact hC), _, rfl, rfl, by simp, by simp, by simp, by simp, by simp⟩
  · intro t h5 h6 h7 h8
    rw [buildEnv, setVar_other _ _ _ h8, buildConfig, setVar_other _ _ _ h7, buildArgv, setVar_other _ _ _ h6,
      h3.old _ fun hm => absurd hm h5]
    rfl

/-- **C59.** With `-b` nothing is defined. -/
theorem C59_bare {os : Os} {b : Build} {c : Call} (hb : c.bare = true) : prepare os b c = .ok startSt ∧ ∀ t, startSt.st.globals t = none := by
  simp [prepare, hb, startSt]

/-- **C59.** The arguments are not always what was given: a backslash in an argument starts an escape, so that the argument `a\nb` of four characters
is the string of three characters with a line feed. -/
theorem C59_backslash_counterexample : cstrVal [97, 92, 110, 98] = strVal [97, 10, 98] := by decide

/-- **C59.** Not every expression of `-e` is evaluated: those after one that is read as NIL are not. The text `1 () (prin 2)` has three expressions,
and `mnml -e` evaluates the first. -/
theorem C59_nil_counterexample : ∃ fin, lexerParse (fun _ => .unsupported) .init (lit ['1', ' ', '(', ')', ' ', '(', 'p', 'r', 'i', 'n', ' ', '2', ')']) = .ok fin ∧
    fin.ps.vals.length = 3 ∧ fin.ps.vals.takeWhile (fun v => !v.isNil) = [num 1] :=
  ⟨⟨[], ⟨[], none, [num 1, nil, ofList [ofSym Native.prin.name, num 2]]⟩⟩, by decide +kernel, rfl, rfl⟩

/-- **C59.** What is incomplete at the end of the text of `-e` is dropped without a message: `mnml -e '1 (prin 2'` is `mnml -e 1`. -/
theorem C59_incomplete_counterexample :
    (lexerParse (fun _ => .unsupported) .init (lit ['1', ' ', '(', 'p', 'r', 'i', 'n', ' ', '2'])).bind (fun q => .ok q.ps.vals) = .ok [num 1] := by
  decide +kernel

/-! ### Examples -/

/-- A module `std` with the three defaults. -/
def demoStd : Os := { demo with
  opendir := fun d => if d = lit ['/', 'm'] then some [lit ['l', 'i', 'b', 's', 't', 'd', '.', 's', 'o']] else none
  dlopen := fun _ => some ⟨some (lit ['s', 't', 'd']),
    some [(lit ['d', 'e', 'f'], Native.def_.val), (lit ['l', 'o', 'a', 'd'], Native.load.val), (lit ['q', 'u', 'o', 't', 'e'], Native.quote.val)]⟩ }

/-- The hypotheses of `C59_start`. -/
example : Known demoStd startSt (symLit ['s', 't', 'd'])
      [(lit ['d', 'e', 'f'], Native.def_.val), (lit ['l', 'o', 'a', 'd'], Native.load.val), (lit ['q', 'u', 'o', 't', 'e'], Native.quote.val)] ∧
    [lit ['A', '=', '='], lit ['B', '=']] = [(lit ['A'], lit ['=']), (lit ['B'], [])].map fun q => q.1 ++ 61 :: q.2 :=
  ⟨.inl ⟨lit ['/', 'm', '/', 'l', 'i', 'b', 's', 't', 'd', '.', 's', 'o'], ⟨by decide +kernel, by decide +kernel⟩, rfl⟩, by decide⟩

def demoCall (e : Option (List UInt8)) (args : List (List UInt8)) : Call := ⟨false, e, args, [lit ['A', '=', '='], lit ['B', '=']], lit ['/', 'w'], []⟩
def demoBuild : Build := ⟨[49], [47], [49], [97], [50]⟩

/-- `mnml -e '(quote 5) ENV'` returns `(("A" . "="))` with status 0. -/
example : (main demoStd (evalN 10 nil) 10 demoBuild (demoCall (some (lit ['(', 'q', 'u', 'o', 't', 'e', ' ', '5', ')', ' ', 'E', 'N', 'V'])) [])).bind
    (fun q => .ok (q.1, q.2.1, q.2.2.dirs)) = .ok (0, ofList [cons (strVal [65]) (strVal [61])], []) := by
  decide +kernel

/-- `mnml -e 7 /w/a.l x` returns the result of the file, 2. -/
example : (main demoStd (evalN 10 nil) 10 demoBuild (demoCall (some [55]) [lit ['/', 'w', '/', 'a', '.', 'l'], lit ['x']])).bind
    (fun q => .ok (q.1, q.2.1, q.2.2.st.globals sArgv)) =
    .ok (0, num 2, some (ofList [strVal [47, 119, 47, 97, 46, 108], strVal [120]])) := by
  decide +kernel

end Module
end Mnml
