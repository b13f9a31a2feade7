import Verif.Calls
import Verif.PropEnv

/-!
# C25–C28: let, conditionals, sequencing, boolean connectives
-/

namespace Mnml

open Val

/-! ## C27: sequencing -/

/-- Run expressions one after the other; the result is the last value, NIL if there is none. -/
def runSeq (ev : Ev) (c : Val) : List Val → M Val
  | [] => pure nil
  | [e] => ev c e
  | e :: es => do
    let _ ← ev c e
    runSeq ev c es

theorem progV_runSeq (ev : Ev) (c : Val) (es : List Val) (h : es ≠ []) (r : Val) :
    progV ev c (ofList es) r = runSeq ev c es := by
  induction es generalizing r with
  | nil => exact absurd rfl h
  | cons e es ih =>
    cases es with
    | nil => simp only [ofList, progV, runSeq, M.bind_pure]
    | cons e' es' =>
      simp only [runSeq]
      rw [ofList, progV]
      congr 1
      funext x
      exact ih (by simp) x

theorem progV_nil_runSeq (ev : Ev) (c : Val) (es : List Val) :
    progV ev c (ofList es) nil = runSeq ev c es := by
  cases es with
  | nil => rfl
  | cons e es => exact progV_runSeq ev c _ (by simp) nil

/-- **C27.** `prog` evaluates its expressions left to right, once each, in the environment of the `prog`,
and returns the last value. -/
theorem C27_prog (c : Val) (st : St) (s : Sym) (es : List Val)
    (h : Resolves c st s Native.prog.val) :
    sem c (cons (ofSym s) (ofList es)) st = runSeq sem c es st := by
  rw [sem_any _ h rfl, ← progV_nil_runSeq]; rfl

/-- **C27.** A sequence can be split: running a first part and then a non-empty second part is running the
whole. -/
theorem C27_split (ev : Ev) (c : Val) (as bs : List Val) (hb : bs ≠ []) :
    runSeq ev c (as ++ bs) = (do let _ ← runSeq ev c as; runSeq ev c bs) := by
  induction as with
  | nil => rfl
  | cons a as ih =>
    have hne : as ++ bs ≠ [] := by simp [hb]
    have h1 : runSeq ev c (a :: (as ++ bs)) = (do let _ ← ev c a; runSeq ev c (as ++ bs)) := by
      cases hx : as ++ bs with
      | nil => exact absurd hx hne
      | cons y ys => rfl
    rw [List.cons_append, h1]
    cases as with
    | nil => rfl
    | cons a' as' =>
      rw [ih]
      simp only [runSeq, M.bind_assoc]

/-- **C27.** Splitting a `prog`, as an equation between programs: `(prog A... B...)` is
`(prog (prog A...) B...)`, if `prog` is the native. -/
theorem C27_prog_split (c : Val) (st : St) (s : Sym) (as bs : List Val) (hb : bs ≠ [])
    (h : Resolves c st s Native.prog.val) :
    sem c (cons (ofSym s) (ofList (as ++ bs))) st =
      sem c (cons (ofSym s) (ofList (cons (ofSym s) (ofList as) :: bs))) st := by
  rw [C27_prog c st s _ h, C27_prog c st s _ h, C27_split _ _ _ _ hb]
  cases bs with
  | nil => exact absurd rfl hb
  | cons b bs =>
    simp only [runSeq, M.bind_apply]
    rw [C27_prog c st s _ h]

example : runOut 9 [L [S "prog", L [S "prin", tru], L [S "prin", wild], N 3]] = .ok (N 3, [84, 95]) := by
  decide

/-! ## C26: conditionals -/

/-- **C26.** `if` evaluates the condition and then exactly one of the branches: the second unless the
condition is NIL. -/
theorem C26_if (c : Val) (st : St) (s : Sym) (cnd thn els : Val) (h : Resolves c st s Native.if_.val) :
    sem c (cons (ofSym s) (ofList [cnd, thn, els])) st =
      (do let v ← sem c cnd; if v = nil then sem c els else sem c thn) st := by
  simp only [ofList]
  rw [sem_rem _ _ _ h rfl]
  refine M.bind_ext fun v => ?_
  cases v <;> rfl

/-- **C26.** `if` without else branch is NIL when the condition is NIL. -/
theorem C26_if_then (c : Val) (st : St) (s : Sym) (cnd thn : Val) (h : Resolves c st s Native.if_.val) :
    sem c (cons (ofSym s) (ofList [cnd, thn])) st =
      (do let v ← sem c cnd; if v = nil then pure nil else sem c thn) st := by
  simp only [ofList]
  rw [sem_rem _ _ _ h rfl]
  refine M.bind_ext fun v => ?_
  cases v <;> first | rfl | exact sem_atom _ _ rfl rfl

/-- **C26.** `when` runs its body exactly if the condition is not NIL. -/
theorem C26_when (c : Val) (st : St) (s : Sym) (cnd : Val) (es : List Val)
    (h : Resolves c st s Native.when_.val) :
    sem c (cons (ofSym s) (ofList (cnd :: es))) st =
      (do let v ← sem c cnd; if v = nil then pure nil else runSeq sem c es) st := by
  simp only [ofList]
  rw [sem_rem _ _ _ h rfl, ← progV_nil_runSeq]
  refine M.bind_ext fun v => ?_
  cases v <;> rfl

/-- **C26.** `unless` runs its body exactly if the condition is NIL. -/
theorem C26_unless (c : Val) (st : St) (s : Sym) (cnd : Val) (es : List Val)
    (h : Resolves c st s Native.unless_.val) :
    sem c (cons (ofSym s) (ofList (cnd :: es))) st =
      (do let v ← sem c cnd; if v = nil then runSeq sem c es else pure nil) st := by
  simp only [ofList]
  rw [sem_rem _ _ _ h rfl, ← progV_nil_runSeq]
  refine M.bind_ext fun v => ?_
  cases v <;> rfl

/-- A list of clauses `(TEST . BODY)`. -/
def clauses (cls : List (Val × Val)) : Val := ofList (cls.map fun p => cons p.1 p.2)

/-- The tests of all these clauses, applied to the subject one after the other, give something other than
T, leading from the first state to the second. -/
inductive AllFail (c subj : Val) : List (Val × Val) → St → St → Prop where
  | nil (st : St) : AllFail c subj [] st st
  | cons {t b v : Val} {rest : List (Val × Val)} {st st1 st2 : St} :
      t ≠ wild → sem c (ofList [t, subj]) st = .ok (v, st1) → v ≠ tru →
      AllFail c subj rest st1 st2 → AllFail c subj ((t, b) :: rest) st st2

theorem condV_allFail {c subj : Val} {cls : List (Val × Val)} {st st' : St}
    (h : AllFail c subj cls st st') (rest : Val) :
    condV sem c subj ((cls.map fun p => cons p.1 p.2).foldr cons rest) st =
      condV sem c subj rest st' := by
  induction h with
  | nil => rfl
  | @cons t b v cs st0 st1 st2 hw hs hv _ ih =>
    have hw' : t.isWild = false := by cases t <;> first | rfl | exact absurd rfl hw
    have hv' : v.isTrue = false := by cases v <;> first | rfl | exact absurd rfl hv
    simp only [List.map_cons, List.foldr_cons, condV, hw', Bool.false_eq_true, if_false]
    refine (M.bind_congr_ok hs).trans ?_
    rw [hv', if_neg (by simp), ih]

/-- **C26.** `cond` evaluates the body of the first clause whose test answers T (or is `_`), after the tests
of the clauses before it and none after it. -/
theorem C26_cond_select (c : Val) (st st1 st2 : St) (s : Sym) (subj t b : Val)
    (pre post : List (Val × Val)) (h : Resolves c st s Native.cond.val)
    (hpre : AllFail c subj pre st st1)
    (ht : t = wild ∧ st2 = st1 ∨ t ≠ wild ∧ sem c (ofList [t, subj]) st1 = .ok (tru, st2)) :
    sem c (cons (ofSym s) (cons subj (clauses (pre ++ (t, b) :: post)))) st = sem c b st2 := by
  rw [sem_any _ h rfl]
  simp only [semAny, nativeAny, car, cdr, clauses, List.map_append, List.map_cons]
  rw [ofList_append_foldr, condV_allFail hpre]
  simp only [ofList, condV]
  rcases ht with ⟨rfl, rfl⟩ | ⟨hw, hs⟩
  · rfl
  · have hw' : t.isWild = false := by cases t <;> first | rfl | exact absurd rfl hw
    simp only [hw', Bool.false_eq_true, if_false]
    exact M.bind_congr_ok hs
where
  ofList_append_foldr {as bs : List Val} : ofList (as ++ bs) = as.foldr cons (ofList bs) := by
    induction as with
    | nil => rfl
    | cons a as ih => simp [ofList, ih]

/-- **C26.** `cond` is NIL when no test answers T. -/
theorem C26_cond_none (c : Val) (st st1 : St) (s : Sym) (subj : Val) (cls : List (Val × Val))
    (h : Resolves c st s Native.cond.val) (hpre : AllFail c subj cls st st1) :
    sem c (cons (ofSym s) (cons subj (clauses cls))) st = .ok (nil, st1) := by
  rw [sem_any _ h rfl]
  simp only [semAny, nativeAny, car, cdr, clauses]
  have h0 : ∀ l : List Val, ofList l = l.foldr cons nil := by
    intro l; induction l with
    | nil => rfl
    | cons a as ih => simp [ofList, ih]
  rw [h0, condV_allFail hpre]; rfl

/-- **C26.** `match` evaluates its subject and then the body of the first clause whose pattern accepts the
value, and nothing else; NIL if there is none. (The subject is evaluated in the environment extended with
the name `ANY`, see `C26_match_counterexample`.) -/
theorem C26_match (c : Val) (st : St) (s : Sym) (subj : Val) (cls : List (Val × Val))
    (h : Resolves c st s Native.match_.val) :
    sem c (cons (ofSym s) (cons subj (clauses cls))) st = (do
      let v ← sem (cons (cons (ofSym aANY) (cons subj (clauses cls))) c) subj
      match cls.find? (fun p : Val × Val => atomMatch p.1 v) with
      | some p => sem c p.2
      | none => pure nil) st := by
  rw [sem_any _ h rfl]
  simp only [semAny, nativeAny, car, cdr]
  refine M.bind_ext fun v => ?_
  induction cls with
  | nil => rfl
  | cons p ps ih =>
    simp only [clauses, List.map_cons, ofList, matchV, List.find?_cons]
    cases hm : atomMatch p.1 v with
    | true => simp
    | false =>
      simp only [Bool.false_eq_true, if_false]
      exact ih

/-- **C26.** The subject of `match` is not always evaluated in the environment of the `match`: a variable
called `ANY` is captured. With `ANY` bound to 1, `(match ANY (1 . T) (_ . NIL))` is NIL. -/
theorem C26_match_counterexample :
    run 20 [L [S "let", L [cons (S "ANY") (N 1)],
      L [S "match", S "ANY", cons (N 1) tru, cons wild nil]]] = .ok nil := by decide

/-- `(cond 5 ((< 9) . 'a) ((< 3) . 'b) (_ . 'c))` -/
example : run 20 [L [S "cond", N 5, cons (L [S "<", N 9]) (Q (S "a")), cons (L [S "<", N 3]) (Q (S "b")),
      cons wild (Q (S "c"))]] = .ok (S "b") ∧
    run 20 [L [S "match", Q (L [N 1, N 2]), cons (L [N 1, N 3]) (Q (S "a")),
      cons (L [wild, N 2]) (Q (S "b"))]] = .ok (S "b") ∧
    runOut 20 [L [S "if", nil, L [S "prin", tru], N 4]] = .ok (N 4, []) := by
  refine ⟨?_, ?_, ?_⟩ <;> decide

example (st : St) (h : st.globals Native.lt.name = some Native.lt.val) :
    AllFail nil (N 5) [(L [S "<", N 9], Q (S "a"))] st st := by
  refine .cons (v := nil) (st1 := st) (by decide) ?_ (by decide) (.nil _)
  have hr : Resolves nil st Native.lt.name Native.lt.val := by
    simp [Resolves, lookup, assq, h]
  have h1 : sem nil (L [S "<", N 9]) st =
      .ok (cons (ofList [ofSym aY]) (cons (cons (cons (ofSym aX) (N 9)) nil) (num Native.lt.addr)), st) := by
    show sem nil (pair false (sym false Native.lt.name) (pair false (N 9) nil)) st = _
    rw [sem_call hr (Native.isFunc_val _)]
    simp only [semFunc, Native.val, car, cdr, Native.args, Native.shape, mayApply, evalArgs, Val.bind, ofList,
      M.pure_bind, isNil, conc, isPair, N, sem_atom nil (num 9) rfl rfl,
      Bool.not_true, Bool.false_eq_true, if_false, if_true]
    rfl
  simp only [ofList]
  rw [sem_pair, M.bind_congr_ok h1, if_pos (by rfl)]
  simp only [semFunc, car, cdr, mayApply, evalArgs, Val.bind, ofList, M.pure_bind, isNil, N,
    nativeOfAddr_addr, conc, isPair, sem_atom nil (num 5) rfl rfl, semNative, Native.shape, popArg,
    M.lift_ok, Bool.not_true, Bool.false_eq_true, if_false, if_true]
  rfl

/-! ## C28: booleans -/

/-- **C28.** `and` evaluates both operands and is T exactly if neither is NIL. -/
theorem C28_and (c : Val) (st : St) (s : Sym) (a b : Val) (h : Resolves c st s Native.and.val) :
    sem c (cons (ofSym s) (ofList [a, b])) st =
      (do let x ← sem c a; let y ← sem c b
          pure (if x ≠ nil ∧ y ≠ nil then tru else nil)) st := by
  simp only [ofList]
  rw [sem_two _ _ _ _ h rfl]
  refine M.bind_ext fun x => M.bind_congr fun y => ?_
  cases x <;> cases y <;> rfl

/-- **C28.** `or` is T exactly if one of the operands is not NIL; the second one is only evaluated if the
first is NIL. -/
theorem C28_or (c : Val) (st : St) (s : Sym) (a b : Val) (h : Resolves c st s Native.or.val) :
    sem c (cons (ofSym s) (ofList [a, b])) st =
      (do let x ← sem c a
          if x ≠ nil then pure tru
          else do
            let y ← sem c b
            pure (if y ≠ nil then tru else nil)) st := by
  simp only [ofList]
  rw [sem_any _ h rfl]
  simp only [semAny, nativeAny, orV, car, cdr]
  refine M.bind_ext fun x => ?_
  cases x <;> try rfl
  simp only [isNil, Bool.not_true, Bool.false_eq_true, if_false, ne_eq, not_true]
  congr 1; funext y
  cases y <;> rfl

/-- **C28.** `not` is T exactly on NIL. -/
theorem C28_not (c : Val) (st : St) (s : Sym) (a : Val) (h : Resolves c st s Native.not.val) :
    sem c (cons (ofSym s) (ofList [a])) st =
      (do let x ← sem c a; pure (if x = nil then tru else nil)) st := by
  simp only [ofList]
  rw [sem_one _ _ h rfl]
  refine M.bind_ext fun x => ?_
  cases x <;> rfl

example : runOut 9 [L [S "or", N 0, L [S "prin", tru]]] = .ok (tru, []) ∧
    runOut 9 [L [S "and", nil, L [S "prin", tru]]] = .ok (nil, [84]) ∧
    runOut 9 [L [S "not", N 0]] = .ok (nil, []) := by
  refine ⟨?_, ?_, ?_⟩ <;> decide

/-! ## C25: let -/

/-- A list of bindings `(PATTERN . EXPR)`. -/
def bindings (bs : List (Val × Val)) : Val := ofList (bs.map fun p => cons p.1 p.2)

/-- **C25.** A `let` with a single binding evaluates its expression in the enclosing environment and its body
in the enclosing environment extended with the binding (a function gets its tail calls marked). -/
theorem C25_single (l : List Entry) (st : St) (s : Sym) (p e : Val) (body : List Val)
    (h : Resolves (envVal l) st s Native.let_.val) :
    sem (envVal l) (cons (ofSym s) (cons (bindings [(p, e)]) (ofList body))) st = (do
      let v ← sem (envVal l) e
      let v' ← M.lift (letMark (envVal l) p v)
      runSeq sem (envVal (mergeEnv l (bindList p v').reverse)) body) st := by
  rw [sem_any _ h rfl]
  simp only [semAny, nativeAny, letV, car, cdr, bindings, List.map_cons, List.map_nil, ofList, letBind,
    isPair, if_true, M.bind_assoc, merge, M.lift_ok, M.pure_bind]
  refine M.bind_ext fun v => M.bind_congr fun v' => ?_
  have h0 := bind_eq [] p v'
  simp only [envVal_nil, List.append_nil] at h0
  rw [h0, merge_envVal, M.lift_ok, M.pure_bind, progV_nil_runSeq]

/-- A value that is not a function is bound as it is. -/
theorem letMark_of_not_func (tmp p v : Val) (h : v.isFunc = false) : letMark tmp p v = .ok v := by
  unfold letMark
  split
  · rw [if_neg]; rw [h]; simp
  · rfl

/-- **C25.** A single binding of a value that is not a function: the body sees the pattern bound to the
corresponding parts of the value, and every other name as outside. -/
theorem C25_value (l : List Entry) (hl : Sorted l) (st st1 : St) (s : Sym) (p e v : Val)
    (body : List Val) (h : Resolves (envVal l) st s Native.let_.val)
    (he : sem (envVal l) e st = .ok (v, st1)) (hv : v.isFunc = false) :
    ∃ l', Sorted l' ∧
      sem (envVal l) (cons (ofSym s) (cons (bindings [(p, e)]) (ofList body))) st =
        runSeq sem (envVal l') body st1 ∧
      (∀ t, t ∉ patSyms p → getEnv l' t = getEnv l t) ∧
      ((patSyms p).Nodup → ∀ path tc t, p.sub path = some (sym tc t) →
        getEnv l' t = some (v.at path)) := by
  refine ⟨mergeEnv l (bindList p v).reverse, sorted_mergeEnv _ hl, ?_, ?_, ?_⟩
  · rw [C25_single l st s p e body h, M.bind_congr_ok he, letMark_of_not_func _ _ _ hv, M.lift_ok,
      M.pure_bind]
  · intro t ht
    rw [getEnv_mergeEnv _ hl, List.reverse_reverse]
    have : getEnv (bindList p v) t = none := by
      simp only [getEnv, Option.map_eq_none_iff, List.find?_eq_none, decide_eq_true_eq]
      intro x hx hc
      exact ht (by rw [← bindList_keys p v, ← hc]; exact List.mem_map_of_mem hx)
    rw [this]; rfl
  · intro hn path tc t hp
    rw [getEnv_mergeEnv _ hl, List.reverse_reverse]
    have hm : (⟨tc, t, v.at path⟩ : Entry) ∈ bindList p v := (mem_bindList p v _).2 ⟨path, hp, rfl⟩
    have := getEnv_of_mem (by rw [bindList_keys]; exact hn) hm
    rw [this]; rfl

/-- **C25.** A name that is already bound outside is rebound to the value as it is, even if this is a function that calls
itself: nothing in it is marked as a tail call. -/
theorem C25_bound (l : List Entry) (hl : Sorted l) (st st1 : St) (s f : Sym) (t : Bool) (e v w : Val)
    (body : List Val) (h : Resolves (envVal l) st s Native.let_.val) (hf : getEnv l f = some w)
    (he : sem (envVal l) e st = .ok (v, st1)) :
    ∃ l', Sorted l' ∧
      sem (envVal l) (cons (ofSym s) (cons (bindings [(sym t f, e)]) (ofList body))) st =
        runSeq sem (envVal l') body st1 ∧
      getEnv l' f = some v ∧ ∀ k, k ≠ f → getEnv l' k = getEnv l k := by
  have hm : letMark (envVal l) (sym t f) v = .ok v := by
    unfold letMark
    split
    · rename_i heq
      injection heq with _ e1
      subst e1
      split
      · rw [assq_envVal, hf]; rfl
      · rfl
    · rfl
  refine ⟨mergeEnv l (bindList (sym t f) v).reverse, sorted_mergeEnv _ hl, ?_, ?_, ?_⟩
  · rw [C25_single l st s _ e body h, M.bind_congr_ok he, hm, M.lift_ok, M.pure_bind]
  · rw [getEnv_mergeEnv _ hl, List.reverse_reverse]
    simp [bindList, getEnv]
  · intro k hk
    rw [getEnv_mergeEnv _ hl, List.reverse_reverse]
    have : getEnv (bindList (sym t f) v) k = none := by
      simp [bindList, getEnv, Ne.symm hk]
    rw [this]; rfl

theorem letBind_split (l : List Entry) (hl : Sorted l) (e1 : List Entry) (rest : List (Val × Val))
    (hd : ∀ q ∈ rest, ∀ t ∈ patSyms q.1, ∀ x ∈ e1, x.key ≠ t) (env : List Entry)
    (henv : ∀ x ∈ env, ∀ y ∈ e1, x.key ≠ y.key) :
    (do
      let next ← letBind sem (envVal l) (bindings rest) (envVal (env ++ e1))
      M.lift (merge (envVal l) next)) =
    (do
      let next ← letBind sem (envVal (mergeEnv l e1)) (bindings rest) (envVal env)
      M.lift (merge (envVal (mergeEnv l e1)) next)) := by
  have hm : ∀ env : List Entry, (∀ x ∈ env, ∀ y ∈ e1, x.key ≠ y.key) →
      merge (envVal l) (envVal (env ++ e1)) = merge (envVal (mergeEnv l e1)) (envVal env) := by
    intro env hx
    rw [merge_envVal, merge_envVal, mergeEnv_comm hl env e1 hx, mergeEnv_append]
  induction rest generalizing env with
  | nil =>
    simp only [bindings, List.map_nil, ofList, letBind, M.pure_bind]
    rw [hm env henv]
  | cons q qs ih =>
    simp only [bindings, List.map_cons, ofList, letBind, isPair, if_true, car, cdr, M.bind_assoc]
    rw [hm env henv]
    congr 1; funext tmp; congr 1; funext v; congr 1; funext v'
    rw [bind_eq, bind_eq, ← List.append_assoc]
    refine ih (fun q' h' => hd q' (by simp [h'])) _ ?_
    intro x hx y hy
    rcases List.mem_append.1 hx with r | r
    · have : x.key ∈ patSyms q.1 := by
        rw [← bindList_keys q.1 v']
        exact List.mem_map_of_mem (List.mem_reverse.1 r)
      exact fun hc => hd q (by simp) x.key this y hy hc.symm
    · exact henv x r y hy

/-- **C25.** Bindings are sequential: `(let (B1 B2 ...) BODY)` is `(let (B1) (let (B2 ...) BODY))`. Each
binding sees the ones before it. Missing: a name bound twice by the same `let` keeps its *first* value, so the
names must be distinct (`C25_rebind_counterexample`). -/
theorem C25_sequential_partial (l : List Entry) (hl : Sorted l) (st : St) (s : Sym) (p e : Val)
    (rest : List (Val × Val)) (body : List Val)
    (hdist : ∀ q ∈ rest, ∀ t ∈ patSyms q.1, t ∉ patSyms p)
    (hs : s ∉ patSyms p) (h : Resolves (envVal l) st s Native.let_.val)
    (h1 : ∀ v st1, sem (envVal l) e st = .ok (v, st1) →
      Resolves (envVal l) st1 s Native.let_.val) :
    sem (envVal l) (cons (ofSym s) (cons (bindings ((p, e) :: rest)) (ofList body))) st =
      sem (envVal l) (cons (ofSym s) (cons (bindings [(p, e)])
        (ofList [cons (ofSym s) (cons (bindings rest) (ofList body))]))) st := by
  rw [C25_single l st s p e _ h, sem_any _ h rfl]
  simp only [semAny, nativeAny, letV, car, cdr, bindings, List.map_cons, ofList, letBind,
    isPair, if_true, M.bind_assoc, merge, M.lift_ok, M.pure_bind, runSeq]
  simp only [M.bind_apply]
  cases he : sem (envVal l) e st with
  | ok r =>
    obtain ⟨v, st1⟩ := r
    simp only [Res.ok_bind, M.lift_apply]
    cases hv : letMark (envVal l) p v with
    | ok v' =>
      simp only [Res.ok_bind]
      have hkeys : ∀ x ∈ (bindList p v').reverse, x.key ∈ patSyms p := by
        intro x hx
        rw [← bindList_keys p v']
        exact List.mem_map_of_mem (List.mem_reverse.1 hx)
      have hr : Resolves (envVal (mergeEnv l (bindList p v').reverse)) st1 s Native.let_.val := by
        have h2 := h1 v st1 he
        simp only [Resolves, lookup, assq_envVal, Res.ok_bind] at h2 ⊢
        rw [getEnv_mergeEnv _ hl]
        have hnone : getEnv (bindList p v').reverse.reverse s = none := by
          rw [List.reverse_reverse]
          simp only [getEnv, Option.map_eq_none_iff, List.find?_eq_none, decide_eq_true_eq]
          intro x hx hc
          exact hs (hc ▸ hkeys x (List.mem_reverse.2 hx))
        rw [hnone]
        exact h2
      rw [sem_any _ hr rfl]
      simp only [semAny, nativeAny, letV, car, cdr]
      have h0 := bind_eq [] p v'
      simp only [envVal_nil, List.append_nil] at h0
      have hsp := letBind_split l hl (bindList p v').reverse rest
        (fun q hq t ht x hx hc => hdist q hq t ht (hc ▸ hkeys x hx)) [] (by simp)
      simp only [List.nil_append, envVal_nil] at hsp
      rw [h0]
      simp only [bindings] at hsp
      have := congrArg (fun m => (m >>= fun clos => progV sem clos (ofList body) nil) st1) hsp
      simp only [M.bind_assoc] at this
      simpa only [M.bind_apply, M.lift_apply] using this
    | _ => rfl
  | _ => rfl

/-- **C25.** A name bound twice keeps its first value: `(let ((x . 1) (x . (+ x 1))) x)` is 1. -/
theorem C25_rebind_counterexample :
    run 20 [L [S "let", L [cons (S "x") (N 1), cons (S "x") (L [S "+", S "x", N 1])], S "x"]] =
      .ok (N 1) := by decide

/-- **C25.** Binding a name to a native function with `let` is undefined behaviour (the address of the
native is traversed as if it was a body): `(let ((f . +)) (f 1 2))`. -/
theorem C25_native_counterexample :
    run 20 [L [S "let", L [cons (S "f") (S "+")], L [S "f", N 1, N 2]]] = .ub .badPointer := by decide

/-- **C25.** The scope of a `let` is local: the meaning of an expression after it, in the enclosing
environment, depends on the `let` only through the global state. -/
theorem C25_local (c : Val) (st : St) (s : Sym) (letexp e : Val) (h : Resolves c st s Native.prog.val) :
    sem c (cons (ofSym s) (ofList [letexp, e])) st =
      (do let _ ← sem c letexp; sem c e) st := by
  rw [C27_prog c st s _ h]; rfl

/-- `(let ((x . 1) (y . (+ x 1))) (+ x y))`, and `x` is unbound after it. -/
example : run 20 [L [S "let", L [cons (S "x") (N 1), cons (S "y") (L [S "+", S "x", N 1])],
      L [S "+", S "x", S "y"]]] = .ok (N 3) ∧
    run 20 [L [S "prog", L [S "let", L [cons (S "x") (N 1)], S "x"], S "x"]] = .ok nil := by
  refine ⟨?_, ?_⟩ <;> decide

example : sem nil (L [S "let", L [cons (S "x") (N 1), cons (S "y") (S "x")], S "y"]) initSt =
    sem nil (L [S "let", L [cons (S "x") (N 1)], L [S "let", L [cons (S "y") (S "x")], S "y"]]) initSt :=
  C25_sequential_partial [] List.Pairwise.nil initSt Native.let_.name (S "x") (N 1) [(S "y", S "x")] [S "y"]
    (by decide) (by decide) rfl (by
      intro v st1 h
      simp only [envVal_nil, N, sem_atom nil (num 1) rfl rfl, M.pure_apply] at h
      cases h; rfl)

end Mnml
