import Verif.PropEval
import Verif.PropCtl
import Verif.PropList

/-!
# C20, C41–C44: partial application, assignment, definitions, closures, streams
-/

namespace Mnml

open Val

/-! ## C20 -/

/-- **C20.** Currying of the natives with two arguments: `((F A) B)` is `(F A B)`, with the same effects. -/
theorem C20_native (c : Val) (st : St) (s : Sym) (op : Native) (a b : Val) (hop : op.shape = .two)
    (h : Resolves c st s op.val) :
    sem c (ofList [ofList [ofSym s, a], b]) st = sem c (ofList [ofSym s, a, b]) st := by
  simp only [ofList]
  rw [sem_two _ _ _ _ h hop, sem_pair]
  have h1 : sem c (pair false (sym false s) (pair false a nil)) st =
      (do let x ← sem c a
          pure (cons (ofList [ofSym aY]) (cons (cons (cons (ofSym aX) x) nil) (num op.addr)))) st := by
    rw [sem_call h op.isFunc_val]
    simp only [semFunc, Native.val, car, cdr, Native.args, hop, mayApply, evalArgs, Val.bind, ofList,
      M.bind_assoc, M.pure_bind, isNil, conc, isPair, Bool.not_true, Bool.false_eq_true, if_false,
      if_true]
  rw [M.bind_congr_left h1]
  simp only [M.bind_assoc, M.pure_bind]
  refine M.bind_ext fun x => ?_
  rw [if_pos (by rfl)]
  simp only [semFunc, car, cdr, mayApply, evalArgs, Val.bind, ofList, M.bind_assoc, M.pure_bind, isNil,
    nativeOfAddr_addr, conc, isPair, semNative, hop, popArg, M.lift_ok, Bool.not_true,
    Bool.false_eq_true, if_false, if_true]

example : run 9 [L [L [S "-", N 7], N 2]] = .ok (N 5) := by decide

theorem bindAll_append (as1 as2 xs1 xs2 : List Val) (acc : List Entry) (h : xs1.length = as1.length) :
    bindAll (as1 ++ as2) (xs1 ++ xs2) acc = bindAll as2 xs2 (bindAll as1 xs1 acc) := by
  induction as1 generalizing xs1 acc with
  | nil =>
    cases xs1 with
    | nil => rfl
    | cons x xs => simp at h
  | cons a as ih =>
    cases xs1 with
    | nil => simp at h
    | cons x xs =>
      simp only [List.cons_append, bindAll]
      exact ih xs _ (by simpa using h)

theorem bindAll_acc (as xs : List Val) (acc : List Entry) :
    bindAll as xs acc = bindAll as xs [] ++ acc := by
  induction as generalizing xs acc with
  | nil => rfl
  | cons a as ih =>
    cases xs with
    | nil => rfl
    | cons x xs => simp only [bindAll, List.append_nil]; rw [ih, ih xs (List.reverse _)]; simp

theorem bindAll_keys (as xs : List Val) : ∀ x ∈ bindAll as xs [], ∃ a ∈ as, x.key ∈ patSyms a := by
  induction as generalizing xs with
  | nil => simp [bindAll]
  | cons a as ih =>
    cases xs with
    | nil => simp [bindAll]
    | cons v vs =>
      intro x hx
      simp only [bindAll, List.append_nil] at hx
      rw [bindAll_acc] at hx
      rcases List.mem_append.1 hx with r | r
      · obtain ⟨a', h1, h2⟩ := ih vs x r
        exact ⟨a', by simp [h1], h2⟩
      · refine ⟨a, by simp, ?_⟩
        rw [← bindList_keys a v]
        exact List.mem_map_of_mem (List.mem_reverse.1 r)

theorem evalSeq_append (ev : Ev) (c : Val) (as bs : List Val) :
    evalSeq ev c (as ++ bs) = (do
      let xs ← evalSeq ev c as; let ys ← evalSeq ev c bs; pure (xs ++ ys)) := by
  induction as with
  | nil => simp [evalSeq]
  | cons a as ih => simp only [List.cons_append, evalSeq, ih, M.bind_assoc, M.pure_bind]

theorem evalSeq_bind_length {ev : Ev} {c : Val} {es : List Val} {β : Type} {f g : List Val → M β}
    (h : ∀ xs, xs.length = es.length → f xs = g xs) :
    (evalSeq ev c es >>= f) = (evalSeq ev c es >>= g) := by
  induction es generalizing f g with
  | nil => simp only [evalSeq, M.pure_bind]; exact h [] rfl
  | cons e es ih =>
    simp only [evalSeq, M.bind_assoc, M.pure_bind]
    refine M.bind_congr fun x => ih fun xs hx => h _ (by simp [hx])

/-- A loop whose body does not end in a tail call of the function is one run of the body. -/
theorem loopSem_once (symb body cls0 b cls1 : Val) (hm : merge cls0 b = .ok cls1)
    (hres : ∀ st r st', progV sem cls1 body nil st = .ok (r, st') → r.isTailCall = false) :
    loopSem symb body cls0 b = progV sem cls1 body nil := by
  rw [loopSem_eq, hm, M.lift_ok, M.pure_bind]
  funext st
  rw [M.bind_apply]
  cases hp : progV sem cls1 body nil st with
  | ok p =>
    obtain ⟨r, st'⟩ := p
    have ht := hres st r st' hp
    have : isSelfTail symb r = .ok false := by
      cases r with
      | sym t s => cases t <;> first | rfl | (simp [isTailCall] at ht)
      | pair t a d => cases t <;> first | rfl | (simp [isTailCall] at ht)
      | _ => rfl
    simp [this]
  | _ => rfl

/-- **C20.** Currying of lisp functions: calling `F` with values for its first arguments and the resulting
function with values for the others is calling `F` with all of them; the effects are the same too. Missing: an
argument name must not occur twice nor be bound in the closure of the function
(`C20_captured_counterexample`), and the body must not end in a tail call of the function itself
(`C20_tail_counterexample`). -/
theorem C20_lisp_partial (l d : List Entry) (hl : Sorted l) (st : St) (s : Sym)
    (as1 as2 vs1 vs2 : List Val) (body : Val) (hbody : body.isPair = true)
    (h1 : vs1.length = as1.length) (h2 : vs2.length = as2.length) (hne : as2 ≠ [])
    (hdist : ∀ a ∈ as1, ∀ t ∈ patSyms a, (∀ a' ∈ as2, t ∉ patSyms a') ∧ (∀ e ∈ d, e.key ≠ t))
    (hres : ∀ l' st r st', progV sem (envVal l') body nil st = .ok (r, st') → r.isTailCall = false)
    (h : Resolves (envVal l) st s (cons (ofList (as1 ++ as2)) (cons (envVal d) body))) :
    sem (envVal l) (cons (cons (ofSym s) (ofList vs1)) (ofList vs2)) st =
      sem (envVal l) (cons (ofSym s) (ofList (vs1 ++ vs2))) st := by
  have hd : (envVal d).isList = true := by cases d <;> rfl
  rw [C21_call (envVal l) st s (as1 ++ as2) (vs1 ++ vs2) (envVal d) body h hd hbody (by simp [h1, h2])]
  have hf : isFunc (cons (ofList (as1 ++ as2)) (cons (envVal d) body)) = true := by
    have ha : (ofList (as1 ++ as2)).isList = true := by cases (as1 ++ as2) <;> rfl
    simp only [isFunc, ha, hd, hbody, Bool.true_or, Bool.and_true]
  have hm1 : mayApply (ofList (as1 ++ as2)) (ofList vs1) = true := by
    rw [mayApply_ofList]; exact decide_eq_true (by simp; omega)
  have hm2 : mayApply (ofList as2) (ofList vs2) = true := by
    rw [mayApply_ofList]; exact decide_eq_true (by omega)
  have hnil : (ofList as2).isNil = false := by cases as2 <;> first | rfl | exact absurd rfl hne
  -- the partial application
  have hp : sem (envVal l) (cons (ofSym s) (ofList vs1)) st =
      (do let xs ← evalSeq sem (envVal l) vs1
          pure (cons (ofList as2) (cons (envVal (bindAll as1 xs [] ++ d)) body))) st := by
    rw [sem_call h hf]
    simp only [semFunc, car, cdr, hm1, Bool.not_true, Bool.false_eq_true, if_false]
    rw [C21_fewer (envVal l) as1 as2 vs1 h1]
    simp only [M.bind_assoc, M.pure_bind, hnil, Bool.false_eq_true, if_false]
    refine M.bind_ext fun xs => ?_
    congr 1
    simp only [envVal, conc_ofList]
    rw [List.map_append, C26_cond_select.ofList_append_foldr]
  rw [sem_pair, M.bind_congr_left hp, evalSeq_append]
  simp only [M.bind_assoc, M.pure_bind]
  refine congrFun (evalSeq_bind_length fun xs hx => ?_) st
  have ha2 : (ofList as2).isList = true := by cases as2 <;> rfl
  have hc2 : (envVal (bindAll as1 xs [] ++ d)).isList = true := by
    cases (bindAll as1 xs [] ++ d) <;> rfl
  rw [if_pos (by simp only [isFunc, ha2, hc2, hbody, Bool.true_or, Bool.and_true])]
  simp only [semFunc, car, cdr, hm2, Bool.not_true, Bool.false_eq_true, if_false]
  rw [C21_positional (envVal l) as2 vs2 h2]
  cases body with
  | pair tc b0 d0 =>
    simp only [M.bind_assoc, M.pure_bind, isNil, if_true, isTailCall, Bool.false_eq_true, if_false]
    refine evalSeq_bind_length fun ys hy => ?_
    rw [merge_envVal, merge_envVal, M.lift_ok, M.lift_ok, M.pure_bind, M.pure_bind]
    have hb : bindAll (as1 ++ as2) (xs ++ ys) [] = bindAll as2 ys [] ++ bindAll as1 xs [] := by
      rw [bindAll_append _ _ _ _ _ (by omega), bindAll_acc]
    have hk1 : ∀ x ∈ bindAll as1 xs [], ∀ y ∈ d, x.key ≠ y.key := by
      intro x hx y hy hc
      obtain ⟨a, ha, hk⟩ := bindAll_keys as1 xs x hx
      exact (hdist a ha _ hk).2 y hy hc.symm
    have hk2 : ∀ x ∈ bindAll as1 xs [], ∀ y ∈ bindAll as2 ys [], x.key ≠ y.key := by
      intro x hx y hy hc
      obtain ⟨a, ha, hk⟩ := bindAll_keys as1 xs x hx
      obtain ⟨a', ha', hk'⟩ := bindAll_keys as2 ys y hy
      exact (hdist a ha _ hk).1 a' ha' (hc ▸ hk')
    have hmerge : mergeEnv (mergeEnv l (bindAll as1 xs [] ++ d)) (bindAll as2 ys []) =
        mergeEnv (mergeEnv l d) (bindAll (as1 ++ as2) (xs ++ ys) []) := by
      rw [hb, ← mergeEnv_append, ← mergeEnv_append, List.append_assoc, ← List.append_assoc d]
      refine mergeEnv_comm hl _ _ ?_
      intro x hx y hy
      rcases List.mem_append.1 hy with r | r
      · exact hk1 x hx y r
      · exact hk2 x hx y r
    rw [loopSem_once _ _ _ _ _ (merge_envVal _ _) (fun st r st' => hres _ st r st'),
      loopSem_once _ _ _ _ _ (merge_envVal _ _) (fun st r st' => hres _ st r st'), hmerge]
  | _ => simp [isPair] at hbody

/-- **C20.** A name bound in the closure wins over a curried argument of the same name. With `g` defined by
`(let ((x . 1)) (setq g (\ (x y) (cons x y))))`, `((g 5) 6)` is `(1 . 6)` but `(g 5 6)` is `(5 . 6)`. -/
theorem C20_captured_counterexample :
    let g : Val := L [S "let", L [cons (S "x") (N 1)],
      L [S "setq", S "g", L [S "\\", L [S "x", S "y"], L [S "cons", S "x", S "y"]]]]
    run 20 [g, L [L [S "g", N 5], N 6]] = .ok (cons (N 1) (N 6)) ∧
    run 20 [g, L [S "g", N 5, N 6]] = .ok (cons (N 5) (N 6)) := by
  intro g; exact ⟨by decide +kernel, by decide +kernel⟩

/-- **C20.** Currying a function that calls itself in tail position exposes the internal tail call record:
with `(def f (a b) (if (= a 0) b (f (- a 1) b)))`, `(f 1 7)` is 7 but `((f 1) 7)` is the list
`(f (b . 7) (a . 0))`. -/
theorem C20_tail_counterexample :
    let f : Val := L [S "def", S "f", L [S "a", S "b"],
      L [S "if", L [S "=", S "a", N 0], S "b", L [S "f", L [S "-", S "a", N 1], S "b"]]]
    run 20 [f, L [S "f", N 1, N 7]] = .ok (N 7) ∧
    (run 20 [f, L [L [S "f", N 1], N 7]] >>= fun v => .ok v.erase) =
      .ok (L [S "f", cons (S "b") (N 7), cons (S "a") (N 0)]) := by
  intro f; exact ⟨by decide +kernel, by decide +kernel⟩

/-- The hypotheses of `C20_lisp_partial` hold of `(def f (a b) b)`. -/
example (st : St) (h : st.globals (Sym.ofChars ['f']) =
      some (cons (ofList [S "a", S "b"]) (cons nil (L [N 7])))) :
    sem nil (L [L [S "f", N 1], N 2]) st = sem nil (L [S "f", N 1, N 2]) st :=
  C20_lisp_partial [] [] List.Pairwise.nil st (Sym.ofChars ['f']) [S "a"] [S "b"] [N 1] [N 2] (L [N 7])
    rfl rfl rfl (by simp) (by decide)
    (by
      intro l' st r st' h
      simp only [L, ofList, N, progV, sem_atom _ (num 7) rfl rfl, M.pure_bind, M.pure_apply] at h
      cases h; rfl)
    (by simp [Resolves, lookup, assq, h])

/-! ## C41 -/

/-- **C41.** `(setq S E)`: E is evaluated, then the global value of S is that value, unless it is NIL (see
`C41_setq_nil_counterexample`), and no other global changes. -/
theorem C41_setq_partial (c : Val) (st st1 : St) (s k : Sym) (e v : Val)
    (h : Resolves c st s Native.setq.val) (he : sem c e st = .ok (v, st1)) (hv : v ≠ nil) :
    ∃ st2, sem c (ofList [ofSym s, ofSym k, e]) st = .ok (v, st2) ∧ st2.globals k = some v ∧
      (∀ t, t ≠ k → st2.globals t = st1.globals t) ∧ st2.out = st1.out := by
  have hv' : v.isNil = false := by cases v <;> first | rfl | exact absurd rfl hv
  refine ⟨{ st1 with globals := fun t => if t = k then some v else st1.globals t }, ?_, ?_, ?_, rfl⟩
  · simp only [ofList]
    rw [sem_any _ h rfl]
    simp only [semAny, nativeAny, setqV, car, cdr]
    rw [M.bind_congr_ok he, hv']
    rfl
  · simp
  · intro t ht; simp [ht]

/-- **C41.** `(setq S NIL)` does not change S: after `(setq x 1)` and `(setq x NIL)`, `x` is still 1. -/
theorem C41_setq_nil_counterexample :
    run 9 [L [S "setq", S "x", N 1], L [S "setq", S "x", nil], S "x"] = .ok (N 1) := by decide

/-- **C41.** `(<- S E)` when the value of S is a symbol that names a global and no local variable: that global
gets the value of E, no other global changes, and the result is `(NAME . PREVIOUS VALUE)`. -/
theorem C41_assign_global_partial (l : List Entry) (st st1 st2 : St) (s k : Sym) (tc : Bool) (es e v old : Val)
    (h : Resolves (envVal l) st s Native.set.val)
    (hs : sem (envVal l) es st = .ok (sym tc k, st1)) (he : sem (envVal l) e st1 = .ok (v, st2))
    (hl : getEnv l k = none) (hg : st2.globals k = some old) :
    ∃ st3, sem (envVal l) (ofList [ofSym s, es, e]) st = .ok (cons (sym tc k) old, st3) ∧
      st3.globals k = some v ∧ (∀ t, t ≠ k → st3.globals t = st2.globals t) ∧ st3.out = st2.out := by
  refine ⟨{ st2 with globals := fun t => if t = k then some v else st2.globals t }, ?_, ?_, ?_, rfl⟩
  · simp only [ofList]
    rw [sem_any _ h rfl]
    simp only [semAny, nativeAny, setV, car, cdr]
    rw [M.bind_congr_ok hs, M.bind_congr_ok he]
    simp only [assq_envVal, hl, M.lift_ok, M.pure_bind, hg]
    rfl
  · simp
  · intro t ht; simp [ht]

/-- **C41.** `(<- S E)` for a name that is bound nowhere changes nothing and is NIL. -/
theorem C41_assign_unbound_partial (l : List Entry) (st st1 st2 : St) (s k : Sym) (tc : Bool) (es e v : Val)
    (h : Resolves (envVal l) st s Native.set.val)
    (hs : sem (envVal l) es st = .ok (sym tc k, st1)) (he : sem (envVal l) e st1 = .ok (v, st2))
    (hl : getEnv l k = none) (hg : st2.globals k = none) :
    sem (envVal l) (ofList [ofSym s, es, e]) st = .ok (nil, st2) := by
  simp only [ofList]
  rw [sem_any _ h rfl]
  simp only [semAny, nativeAny, setV, car, cdr]
  rw [M.bind_congr_ok hs, M.bind_congr_ok he]
  simp only [assq_envVal, hl, M.lift_ok, M.pure_bind, hg]

example : run 9 [L [S "setq", S "x", N 1], L [S "<-", Q (S "x"), N 2]] = .ok (cons (S "x") (N 1)) ∧
    run 9 [L [S "setq", S "x", N 1], L [S "<-", Q (S "x"), N 2], S "x"] = .ok (N 2) := by
  refine ⟨?_, ?_⟩ <;> decide

/-! ## C42 -/

/-- **C42.** `(def F ARGS BODY...)` stores the function with the given arguments and body (whose tail calls of
F are marked) under the name F, changes no other global, prints nothing and returns F. -/
theorem C42_def (c : Val) (st : St) (s f : Sym) (args : Val) (body : List Val)
    (h : Resolves c st s Native.def_.val)
    (ha : args = nil ∨ (∃ t a d, args = pair t a d) ∨ ∃ t a, args = sym t a)
    (hb : ∃ e es, body = e :: es ∧ ¬ (e.isPair = true ∧ e.car.isChr = true)) :
    ∃ st', sem c (cons (ofSym s) (cons (ofSym f) (cons args (ofList body)))) st = .ok (ofSym f, st') ∧
      st'.globals f = some (cons args (cons nil (markLast f args (ofList body)))) ∧
      (∀ t, t ≠ f → st'.globals t = st.globals t) ∧ st'.out = st.out := by
  obtain ⟨e, es, rfl, he⟩ := hb
  have ha' : (args.isNil || args.isPair || args.isSym) = true := by
    rcases ha with rfl | ⟨t, a, d, rfl⟩ | ⟨t, a, rfl⟩ <;> rfl
  have he' : (e.isPair && e.car.isChr) = false := by
    cases hx : e.isPair && e.car.isChr with
    | false => rfl
    | true => exact absurd (by simpa using hx) he
  refine ⟨{ st with globals := fun t => if t = f
      then (some (cons args (cons nil (markLast f args (ofList (e :: es))))))
      else st.globals t }, ?_, ?_, ?_, rfl⟩
  · rw [sem_any _ h rfl]
    have hc : ∀ a d : Val, (cons a d).car = a := fun _ _ => rfl
    have hd : ∀ a d : Val, (cons a d).cdr = d := fun _ _ => rfl
    simp only [semAny, nativeAny, defV, hc, hd, ha', if_true, ofList, he', Bool.false_eq_true, if_false,
      markBody, M.lift_ok, M.pure_bind, setq]
    rfl
  · simp
  · intro t ht; simp [ht]

/-- **C42.** A docstring in front of the body is skipped. -/
theorem C42_docstring (c : Val) (st : St) (s f : Sym) (args : Val) (doc : Val) (body : List Val)
    (h : Resolves c st s Native.def_.val) (hdoc : ∃ t x r, doc = pair t (chr x) r)
    (hb : ∃ e es, body = e :: es ∧ ¬ (e.isPair = true ∧ e.car.isChr = true)) :
    sem c (cons (ofSym s) (cons (ofSym f) (cons args (ofList (doc :: body))))) st =
      sem c (cons (ofSym s) (cons (ofSym f) (cons args (ofList body)))) st := by
  obtain ⟨e, es, rfl, he⟩ := hb
  obtain ⟨t, x, r, rfl⟩ := hdoc
  have he' : (e.isPair && e.car.isChr) = false := by
    cases hx : e.isPair && e.car.isChr with
    | false => rfl
    | true => exact absurd (by simpa using hx) he
  rw [sem_any _ h rfl, sem_any _ h rfl]
  have h1 : ∀ r : Val, (pair t (chr x) r).isPair = true := fun _ => rfl
  have h2 : ∀ r : Val, (pair t (chr x) r).car.isChr = true := fun _ => rfl
  have hc : ∀ a d : Val, (cons a d).car = a := fun _ _ => rfl
  have hd : ∀ a d : Val, (cons a d).cdr = d := fun _ _ => rfl
  simp only [semAny, nativeAny, defV, ofList, hc, hd, h1, h2, he', Bool.and_self, if_true,
    Bool.false_eq_true, if_false]

/-- **C42.** An empty body, or one that only has a docstring, is undefined behaviour: `(def f (x))`. -/
theorem C42_empty_body_counterexample :
    run 9 [L [S "def", S "f", L [S "x"]]] = .ub .badPointer ∧
    run 9 [L [S "def", S "f", L [S "x"], L [chr 97]]] = .ub .badPointer := by
  refine ⟨?_, ?_⟩ <;> decide

/-- **C42.** Calling a function without closure (as `def` makes them) with values for all its arguments: the
values are evaluated left to right in the environment of the call, then the body runs with the arguments bound
on top of that environment, again as long as the result is a tail call of the function. -/
theorem C42_call (l : List Entry) (st : St) (f : Sym) (as vs : List Val) (es : List Val) (hes : es ≠ [])
    (h : Resolves (envVal l) st f (cons (ofList as) (cons nil (ofList es))))
    (hlen : vs.length = as.length) :
    sem (envVal l) (cons (ofSym f) (ofList vs)) st = (do
      let xs ← evalSeq sem (envVal l) vs
      let r ← runSeq sem (envVal (mergeEnv l (bindAll as xs []))) es
      let again ← M.lift (isSelfTail (ofSym f) r)
      if again then loopSem (ofSym f) (ofList es) (envVal l) r.cdr else pure r) st := by
  have hb : (ofList es).isPair = true := by cases es <;> first | rfl | exact absurd rfl hes
  rw [C21_call (envVal l) st f as vs nil (ofList es) h rfl hb hlen]
  refine M.bind_ext fun xs => ?_
  simp only [merge, M.lift_ok, M.pure_bind]
  rw [loopSem_eq, merge_envVal, M.lift_ok, M.pure_bind, progV_nil_runSeq]

mutual
theorem markTails_id {f : Sym} {args : Val} : (v : Val) → f ∉ patSyms v → markTails f args v = v
  | pair tc (sym st s) rest, h => by
    have hs : s ≠ f := by intro hc; apply h; simp [patSyms, hc]
    have hr : f ∉ patSyms rest := by intro hc; apply h; simp [patSyms, hc]
    rw [markTails]
    simp only [markIf_id rest hr, markClauses_id rest hr, markLast_id rest hr, markSecond_id rest hr,
      markCall, symMatch_eq_decide, hs, decide_false, Bool.false_and, Bool.false_eq_true, if_false, ite_self]
  | pair _ nil _, _ => by rw [markTails] <;> simp
  | pair _ tru _, _ => by rw [markTails] <;> simp
  | pair _ wild _, _ => by rw [markTails] <;> simp
  | pair _ (chr _) _, _ => by rw [markTails] <;> simp
  | pair _ (num _) _, _ => by rw [markTails] <;> simp
  | pair _ (pair ..) _, _ => by rw [markTails] <;> simp
  | nil, _ => by rw [markTails] <;> simp
  | tru, _ => by rw [markTails] <;> simp
  | wild, _ => by rw [markTails] <;> simp
  | chr _, _ => by rw [markTails] <;> simp
  | num _, _ => by rw [markTails] <;> simp
  | sym .., _ => by rw [markTails] <;> simp
theorem markIf_id {f : Sym} {args : Val} : (v : Val) → f ∉ patSyms v → markIf f args v = v
  | pair _ c r, h => by
    rw [markIf, markThen_id r (fun hc => h (by simp [patSyms, hc]))]
  | nil, _ | tru, _ | wild, _ | chr _, _ | num _, _ | sym .., _ => by rw [markIf] <;> simp
theorem markThen_id {f : Sym} {args : Val} : (v : Val) → f ∉ patSyms v → markThen f args v = v
  | pair _ c r, h => by
    rw [markThen, markTails_id c (fun hc => h (by simp [patSyms, hc])),
      markElse_id r (fun hc => h (by simp [patSyms, hc]))]
  | nil, _ | tru, _ | wild, _ | chr _, _ | num _, _ | sym .., _ => by rw [markThen] <;> simp
theorem markElse_id {f : Sym} {args : Val} : (v : Val) → f ∉ patSyms v → markElse f args v = v
  | pair _ c r, h => by
    rw [markElse, markTails_id c (fun hc => h (by simp [patSyms, hc]))]
  | nil, _ | tru, _ | wild, _ | chr _, _ | num _, _ | sym .., _ => by rw [markElse] <;> simp
theorem markClauses_id {f : Sym} {args : Val} : (v : Val) → f ∉ patSyms v → markClauses f args v = v
  | pair _ c r, h => by
    rw [markClauses, markAssoc_id r (fun hc => h (by simp [patSyms, hc]))]
  | nil, _ | tru, _ | wild, _ | chr _, _ | num _, _ | sym .., _ => by rw [markClauses] <;> simp
theorem markAssoc_id {f : Sym} {args : Val} : (v : Val) → f ∉ patSyms v → markAssoc f args v = v
  | pair _ c r, h => by
    rw [markAssoc, markClause_id c (fun hc => h (by simp [patSyms, hc])),
      markAssoc_id r (fun hc => h (by simp [patSyms, hc]))]
  | nil, _ | tru, _ | wild, _ | chr _, _ | num _, _ | sym .., _ => by rw [markAssoc] <;> simp
theorem markClause_id {f : Sym} {args : Val} : (v : Val) → f ∉ patSyms v → markClause f args v = v
  | pair _ c r, h => by
    rw [markClause, markTails_id r (fun hc => h (by simp [patSyms, hc]))]
  | nil, _ | tru, _ | wild, _ | chr _, _ | num _, _ | sym .., _ => by rw [markClause] <;> simp
theorem markLast_id {f : Sym} {args : Val} : (v : Val) → f ∉ patSyms v → markLast f args v = v
  | pair _ c r, h => by
    rw [markLast, markTails_id c (fun hc => h (by simp [patSyms, hc])),
      markLast_id r (fun hc => h (by simp [patSyms, hc])), ite_self]
  | nil, _ | tru, _ | wild, _ | chr _, _ | num _, _ | sym .., _ => by rw [markLast] <;> simp
theorem markSecond_id {f : Sym} {args : Val} : (v : Val) → f ∉ patSyms v → markSecond f args v = v
  | pair _ c r, h => by
    rw [markSecond, markElse_id r (fun hc => h (by simp [patSyms, hc]))]
  | nil, _ | tru, _ | wild, _ | chr _, _ | num _, _ | sym .., _ => by rw [markSecond] <;> simp
end

/-- **C42.** Definition followed by a call, for a function whose body does not mention its own name: the call
evaluates the given body with the arguments bound. (For recursive functions see C23.) The hypothesis `hres`
says that running the body does not yield a raw tail call record. -/
theorem C42_def_call (l : List Entry) (st : St) (sdef f : Sym) (as : List Val) (body vs : List Val)
    (hd : Resolves (envVal l) st sdef Native.def_.val) (hf : getEnv l f = none)
    (hb : ∃ e es, body = e :: es ∧ ¬ (e.isPair = true ∧ e.car.isChr = true))
    (hself : f ∉ patSyms (ofList body)) (hlen : vs.length = as.length)
    (hres : ∀ l' st r st', runSeq sem (envVal l') body st = .ok (r, st') → r.isTailCall = false) :
    ∃ st', sem (envVal l) (cons (ofSym sdef) (cons (ofSym f) (cons (ofList as) (ofList body)))) st =
        .ok (ofSym f, st') ∧
      sem (envVal l) (cons (ofSym f) (ofList vs)) st' = (do
        let xs ← evalSeq sem (envVal l) vs
        runSeq sem (envVal (mergeEnv l (bindAll as xs []))) body) st' := by
  have ha : ofList as = nil ∨ (∃ t a d, ofList as = pair t a d) ∨ ∃ t a, ofList as = sym t a := by
    cases as with
    | nil => exact .inl rfl
    | cons a as => exact .inr (.inl ⟨_, _, _, rfl⟩)
  obtain ⟨st', h1, h2, _, _⟩ := C42_def (envVal l) st sdef f (ofList as) body hd ha hb
  refine ⟨st', h1, ?_⟩
  rw [markLast_id _ hself] at h2
  have hne : body ≠ [] := by obtain ⟨e, es, rfl, _⟩ := hb; simp
  rw [C42_call l st' f as vs body hne (by simp [Resolves, lookup, assq_envVal, hf, h2]) hlen]
  refine M.bind_ext fun xs => ?_
  funext st1
  rw [M.bind_apply]
  cases hr : runSeq sem (envVal (mergeEnv l (bindAll as xs []))) body st1 with
  | ok p =>
    obtain ⟨r, st2⟩ := p
    have ht := hres _ _ _ _ hr
    have : isSelfTail (ofSym f) r = .ok false := by
      cases r with
      | sym t s => cases t <;> first | rfl | (simp [isTailCall] at ht)
      | pair t a d => cases t <;> first | rfl | (simp [isTailCall] at ht)
      | _ => rfl
    simp [this]
  | _ => rfl

example : run 20 [L [S "def", S "f", L [S "x", S "y"], L [chr 97], L [S "-", S "y", S "x"]],
    L [S "f", N 1, N 5]] = .ok (N 4) := by decide

/-! ## C43 -/

/-- **C43.** A lambda evaluates to a function that holds the environment of its creation. -/
theorem C43_lambda (c : Val) (st : St) (s : Sym) (args body : Val)
    (h : Resolves c st s Native.lambda.val) :
    sem c (cons (ofSym s) (cons args body)) st = .ok (cons args (cons c body), st) := by
  rw [sem_any _ h rfl]; rfl

/-- **C43.** Calling a closure created in the environment `l1` from any other environment `l2`: the body runs
in an environment where an argument has its value, any other name bound at the creation has the value it had
there, whatever it means at the call, and the remaining names mean what they mean at the call. -/
theorem C43_capture (l1 l2 : List Entry) (h1 : Sorted l1) (h2 : Sorted l2) (st : St) (s : Sym)
    (as vs es : List Val) (hes : es ≠ []) (hlen : vs.length = as.length)
    (h : Resolves (envVal l2) st s (cons (ofList as) (cons (envVal l1) (ofList es))))
    (hres : ∀ l' st r st', runSeq sem (envVal l') es st = .ok (r, st') → r.isTailCall = false) :
    ∃ env : List Val → List Entry,
      sem (envVal l2) (cons (ofSym s) (ofList vs)) st = (do
        let xs ← evalSeq sem (envVal l2) vs
        runSeq sem (envVal (env xs)) es) st ∧
      ∀ xs, Sorted (env xs) ∧ ∀ t, getEnv (env xs) t =
        ((getEnv (bindAll as xs []).reverse t).or (getEnv l1 t)).or (getEnv l2 t) := by
  refine ⟨fun xs => mergeEnv (mergeEnv l2 l1) (bindAll as xs []), ?_, ?_⟩
  · have hb : (ofList es).isPair = true := by cases es <;> first | rfl | exact absurd rfl hes
    have hd : (envVal l1).isList = true := by cases l1 <;> rfl
    rw [C21_call (envVal l2) st s as vs (envVal l1) (ofList es) h hd hb hlen]
    refine M.bind_ext fun xs => ?_
    rw [merge_envVal, M.lift_ok, M.pure_bind,
      loopSem_once _ _ _ _ _ (merge_envVal _ _), progV_nil_runSeq]
    intro st r st' hr
    rw [progV_nil_runSeq] at hr
    exact hres _ _ _ _ hr
  · intro xs
    refine ⟨sorted_mergeEnv _ (sorted_mergeEnv _ h2), fun t => ?_⟩
    rw [getEnv_mergeEnv _ (sorted_mergeEnv _ h2), getEnv_mergeEnv _ h2]
    have hrev : getEnv l1.reverse t = getEnv l1 t := by
      have hn := C10_no_duplicates h1
      cases hg : getEnv l1 t with
      | none =>
        simp only [getEnv, Option.map_eq_none_iff, List.find?_eq_none, decide_eq_true_eq] at hg ⊢
        exact fun x hx => hg x (List.mem_reverse.1 hx)
      | some v =>
        obtain ⟨e, he, hv⟩ : ∃ e ∈ l1, e.key = t ∧ e.val = v := by
          simp only [getEnv, Option.map_eq_some_iff] at hg
          obtain ⟨e, he, hv⟩ := hg
          exact ⟨e, List.mem_of_find?_eq_some he, by simpa using List.find?_some he, hv⟩
        obtain ⟨rfl, rfl⟩ := hv
        refine getEnv_of_mem ?_ (List.mem_reverse.2 he)
        rw [List.map_reverse]
        exact ((List.reverse_perm _).nodup_iff).2 hn
    rw [hrev]
    cases getEnv (bindAll as xs []).reverse t <;> rfl

/-- **C43.** Names that are not bound at the creation are looked up in the environment of the call
(dynamic scoping): `y` is 5 in `(let ((g . (\ (a) y))) (let ((y . 5)) (g 1)))`. -/
theorem C43_dynamic_counterexample :
    run 20 [L [S "let", L [cons (S "g") (L [S "\\", L [S "a"], S "y"])],
      L [S "let", L [cons (S "y") (N 5)], L [S "g", N 1]]]] = .ok (N 5) := by decide

/-- A counter that captures `x = 1`, called where `x = 2`. -/
example : run 20 [L [S "let", L [cons (S "x") (N 1)], L [S "setq", S "g", L [S "\\", L [S "y"], L [S "+", S "x", S "y"]]]],
    L [S "let", L [cons (S "x") (N 2)], L [S "g", N 10]]] = .ok (N 11) := by decide +kernel

/-! ## C44 -/

/-- Apply the functions given by expressions one after the other to a (quoted) value. -/
noncomputable def pipe (c : Val) : List Val → Val → M Val
  | [], v => pure v
  | f :: fs, v => do
    let w ← sem c (ofList [f, Q v])
    pipe c fs w

theorem streamV_pipe (c : Val) (fs : List Val) (e : Val) :
    streamV sem c (ofList fs) e = (do let v ← sem c e; pipe c fs v) := by
  induction fs generalizing e with
  | nil => simp only [ofList, streamV, pipe, M.bind_pure]
  | cons f fs ih =>
    simp only [ofList, streamV, pipe]
    refine M.bind_congr fun v => ?_
    rw [ih]; rfl

/-- **C44.** `(|> E f1 ... fn)` evaluates E and applies `f1`, ..., `fn` in this order, each to the value of
the previous one. -/
theorem C44_stream (c : Val) (st : St) (s : Sym) (e : Val) (fs : List Val)
    (h : Resolves c st s Native.stream.val) :
    sem c (cons (ofSym s) (cons e (ofList fs))) st = (do let v ← sem c e; pipe c fs v) st := by
  rw [sem_any _ h rfl, ← streamV_pipe]; rfl

/-- The nested calls `(fn (... (f1 E)))`. -/
def nest (e : Val) : List Sym → Val
  | [] => e
  | f :: fs => nest (ofList [ofSym f, e]) fs

/-- A function takes its first argument by value. -/
def ByValue (fv : Val) : Prop := fv.isFunc = true ∧ ∃ t a r, fv.car = pair t a r

theorem sem_by_value {c : Val} {st st1 : St} {f : Sym} {fv e v : Val} (hv : ByValue fv)
    (h : Resolves c st f fv) (h1 : Resolves c st1 f fv) (hq : Resolves c st1 sQuote Native.quote.val)
    (he : sem c e st = .ok (v, st1)) :
    sem c (ofList [ofSym f, e]) st = sem c (ofList [ofSym f, Q v]) st1 := by
  obtain ⟨hf, t, a, r, hcar⟩ := hv
  simp only [ofList]
  rw [sem_call h hf, sem_call h1 hf]
  have hm : ∀ x, mayApply (pair t a r) (pair false x nil) = mayApply r nil := fun _ => rfl
  have hm2 : mayApply r nil = true := by cases r <;> rfl
  simp only [semFunc, hcar, hm, hm2, Bool.not_true, Bool.false_eq_true, if_false, evalArgs, isNil_pair,
    car_pair, cdr_pair, M.bind_assoc]
  have hqv : sem c (Q v) st1 = .ok (v, st1) := C38_quote c v st1 sQuote hq
  rw [M.bind_congr_ok he, M.bind_congr_ok hqv]

/-- **C44.** Streams compose: `(|> E f1 ... fn)` is `(fn (... (f1 E)))`, for functions given by names that
take their argument by value, as long as the evaluation does not redefine these names (`P` is any property of
the state that it preserves and that fixes their meaning). -/
theorem C44_compose (c : Val) (st : St) (s : Sym) (e : Val) (fs : List Sym) (P : St → Prop)
    (h : Resolves c st s Native.stream.val) (hP : P st)
    (hq : ∀ st, P st → Resolves c st sQuote Native.quote.val)
    (hfs : ∀ f ∈ fs, ∃ fv, ByValue fv ∧ ∀ st, P st → Resolves c st f fv)
    (he : ∀ v st1, sem c e st = .ok (v, st1) → P st1)
    (hf : ∀ f ∈ fs, ∀ v w st st1, P st → sem c (ofList [ofSym f, Q v]) st = .ok (w, st1) → P st1) :
    sem c (cons (ofSym s) (cons e (ofList (fs.map ofSym)))) st = sem c (nest e fs) st := by
  rw [C44_stream c st s e _ h]
  clear h
  induction fs generalizing e with
  | nil => simp only [List.map_nil, pipe, nest, M.bind_pure]
  | cons f fs ih =>
    obtain ⟨fv, hv, hr⟩ := hfs f (by simp)
    simp only [List.map_cons, pipe, nest]
    have key : sem c (ofList [ofSym f, e]) st = (do let v ← sem c e; sem c (ofList [ofSym f, Q v])) st := by
      rw [M.bind_apply]
      cases hes : sem c e st with
      | ok p =>
        obtain ⟨v, st1⟩ := p
        exact sem_by_value hv (hr st hP) (hr st1 (he v st1 hes)) (hq st1 (he v st1 hes)) hes
      | _ =>
        obtain ⟨hf, t, a, r, hcar⟩ := hv
        simp only [ofList]
        rw [sem_call (hr st hP) hf]
        have hm : mayApply (pair t a r) (pair false e nil) = mayApply r nil := rfl
        have hm2 : mayApply r nil = true := by cases r <;> rfl
        simp only [semFunc, hcar, hm, hm2, Bool.not_true, Bool.false_eq_true, if_false, evalArgs,
          isNil_pair, car_pair, M.bind_assoc]
        rw [M.bind_apply, hes]; rfl
    have he' : ∀ v st1, sem c (ofList [ofSym f, e]) st = .ok (v, st1) → P st1 := by
      intro w st2 hw
      rw [key, M.bind_apply] at hw
      cases hes : sem c e st with
      | ok p =>
        obtain ⟨v, st1⟩ := p
        rw [hes] at hw
        exact hf f (by simp) v w st1 st2 (he v st1 hes) hw
      | _ => rw [hes] at hw; cases hw
    rw [← ih _ (fun g hg => hfs g (by simp [hg])) he' (fun g hg => hf g (by simp [hg]))]
    rw [M.bind_congr_left key]
    simp only [M.bind_assoc]

/-- `(|> '(1 2 3) cdr car)` is 2. -/
example : run 20 [L [S "|>", Q (L [N 1, N 2, N 3]), S "cdr", S "car"]] = .ok (N 2) := by decide

/-- The hypotheses of `C44_compose` hold of this stream in an environment that binds the natives used. -/
example (st : St) (e : Val) :
    let c : Val := ofList [cons (S "car") Native.car.val, cons (S "cdr") Native.cdr.val,
      cons (ofSym sQuote) Native.quote.val, cons (ofSym sStream) Native.stream.val]
    sem c (L [ofSym sStream, e, S "cdr", S "car"]) st = sem c (L [S "car", L [S "cdr", e]]) st := by
  intro c
  refine C44_compose c st sStream e [Sym.ofChars ['c', 'd', 'r'], Sym.ofChars ['c', 'a', 'r']] (fun _ => True)
    rfl trivial (fun _ _ => rfl) ?_ (fun _ _ _ => trivial) (fun _ _ _ _ _ _ _ _ => trivial)
  intro f hf
  simp only [List.mem_cons, List.not_mem_nil, or_false] at hf
  rcases hf with rfl | rfl
  · exact ⟨Native.cdr.val, ⟨rfl, _, _, _, rfl⟩, fun _ _ => rfl⟩
  · exact ⟨Native.car.val, ⟨rfl, _, _, _, rfl⟩, fun _ _ => rfl⟩

end Mnml
