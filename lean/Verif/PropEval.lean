import Verif.Calls
import Verif.PropEnv

/-!
# C11, C18, C19, C21, C38: evaluation of atoms, names, quotes and arguments
-/

namespace Mnml

open Val

/-! ## C11 -/

/-- **C11.** A symbol evaluates to its binding in the local environment when there is one, otherwise to its
current global value, otherwise to NIL; evaluation of a symbol has no effect. -/
theorem C11_lookup (l : List Entry) (tc : Bool) (s : Sym) (st : St) :
    sem (envVal l) (sym tc s) st =
      .ok (match getEnv l s with
        | some v => v
        | none => match st.globals s with
          | some v => v
          | none => nil, st) := by
  rw [sem_sym]
  simp only [lookup, assq_envVal, Res.ok_bind]
  cases getEnv l s with
  | some v => rfl
  | none => cases st.globals s <;> rfl

/-- **C11.** Entering a scope with new bindings shadows the enclosing ones: in the merged environment a name
bound by the new list has its last value there, any other name means what it meant outside. -/
theorem C11_shadow (l add : List Entry) (hl : Sorted l) (tc : Bool) (s : Sym) (st : St) :
    ∃ c, merge (envVal l) (envVal add) = .ok c ∧
      sem c (sym tc s) st = match getEnv add.reverse s with
        | some v => .ok (v, st)
        | none => sem (envVal l) (sym tc s) st := by
  refine ⟨_, merge_envVal l add, ?_⟩
  rw [C11_lookup, C11_lookup, getEnv_mergeEnv add hl]
  cases getEnv add.reverse s <;> rfl

/-- `x` is local with value 1 although there is a global `x`; `car` is global; `zz` is unbound. -/
example : run 5 [L [S "setq", S "x", N 7], L [S "let", L [Val.cons (S "x") (N 1)], S "x"]] = .ok (N 1) ∧
    run 5 [S "car"] = .ok Native.car.val ∧ run 5 [S "zz"] = .ok nil := by
  refine ⟨?_, ?_, ?_⟩ <;> decide

/-! ## C18 -/

/-- **C18.** NIL, T, `_`, characters and numbers evaluate to themselves in every environment and state. -/
theorem C18_atoms (c : Val) (st : St) :
    sem c nil st = .ok (nil, st) ∧ sem c tru st = .ok (tru, st) ∧ sem c wild st = .ok (wild, st) ∧
    (∀ x, sem c (chr x) st = .ok (chr x, st)) ∧ ∀ n, sem c (num n) st = .ok (num n, st) := by
  refine ⟨?_, ?_, ?_, fun x => ?_, fun n => ?_⟩ <;> rw [sem_atom _ _ rfl rfl] <;> rfl

/-- **C18.** Evaluation is deterministic: two runs of the evaluator on the same expression, environment and
state, with any amounts of fuel, that both finish have the same outcome (value, state, or undefined
behaviour). -/
theorem C18_deterministic (n m : Nat) (c e : Val) (st : St) (h1 : evalN n c e st ≠ .oof)
    (h2 : evalN m c e st ≠ .oof) : evalN n c e st = evalN m c e st := by
  rw [← sem_of_evalN rfl h1, ← sem_of_evalN rfl h2]

example : evalN 3 nil (L [S "+", N 1, N 2]) initSt ≠ .oof ∧
    evalN 3 nil (L [S "+", N 1, N 2]) initSt = evalN 30 nil (L [S "+", N 1, N 2]) initSt :=
  have h : evalN 3 nil (L [S "+", N 1, N 2]) initSt ≠ .oof := by
    intro h
    have h2 : (evalN 3 nil (L [S "+", N 1, N 2]) initSt >>= fun p => Res.ok p.1) = .ok (N 3) := by decide
    rw [h] at h2; cases h2
  ⟨h, C18_deterministic _ _ _ _ _ h (by
    have := evalN_of_le (show 3 ≤ 30 by omega) rfl h
    rw [this]; exact h)⟩

/-! ## C19 -/

theorem mayApply_ofList (as vs : List Val) :
    mayApply (ofList as) (ofList vs) = decide (vs.length ≤ as.length) := by
  induction as generalizing vs with
  | nil => cases vs <;> simp [ofList, mayApply]
  | cons a as ih => cases vs <;> simp [ofList, mayApply, ih]

/-- **C19.** Calling a function that has the argument list `as` (native or not, under any name) with more
values than arguments returns NIL and leaves the state as it was: no value is evaluated. -/
theorem C19_over_application (c : Val) (st : St) (s : Sym) (as vs : List Val) (clos body : Val)
    (h : Resolves c st s (cons (ofList as) (cons clos body)))
    (hf : isFunc (cons (ofList as) (cons clos body)) = true) (hlen : as.length < vs.length) :
    sem c (cons (ofSym s) (ofList vs)) st = .ok (nil, st) := by
  rw [sem_call h hf]
  have hm : mayApply (ofList as) (ofList vs) = false := by
    rw [mayApply_ofList]; exact decide_eq_false (by omega)
  simp only [semFunc, car, hm, Bool.not_false, if_true]; rfl

/-- **C19.** The same when the function is given by an expression: only the head is evaluated. -/
theorem C19_head_expression (c e : Val) (st st1 : St) (as vs : List Val) (clos body : Val)
    (h : sem c e st = .ok (cons (ofList as) (cons clos body), st1))
    (hf : isFunc (cons (ofList as) (cons clos body)) = true) (hlen : as.length < vs.length) :
    sem c (cons e (ofList vs)) st = .ok (nil, st1) := by
  rw [sem_pair, M.bind_congr_ok h, if_pos hf]
  have hm : mayApply (ofList as) (ofList vs) = false := by
    rw [mayApply_ofList]; exact decide_eq_false (by omega)
  simp only [semFunc, car, hm, Bool.not_false, if_true]; rfl

/-- `(car (prinl 1) 2)` prints nothing and is NIL. -/
example : sem nil (L [S "car", L [S "prinl", N 1], N 2]) initSt = .ok (nil, initSt) :=
  C19_over_application nil initSt Native.car.name [ofSym aX] [L [S "prinl", N 1], N 2] nil
    (num Native.car.addr) (by rfl) (by decide) (by decide)

/-! ## C21 -/

/-- The bindings of a list of patterns to a list of values, the last one in front. -/
def bindAll : List Val → List Val → List Entry → List Entry
  | a :: as, v :: vs, acc => bindAll as vs ((bindList a v).reverse ++ acc)
  | _, _, acc => acc

theorem evalArgs_ofList (c tail : Val) (as vs : List Val) (acc : List Entry) (rest : Val)
    (hlen : vs.length = as.length) :
    evalArgs sem c (as.foldr cons tail) (envVal acc) (vs.foldr cons rest) = (do
      let xs ← evalSeq sem c vs
      evalArgs sem c tail (envVal (bindAll as xs acc)) rest) := by
  induction as generalizing vs acc with
  | nil =>
    cases vs with
    | nil => rfl
    | cons v vs => simp at hlen
  | cons a as ih =>
    cases vs with
    | nil => simp at hlen
    | cons v vs =>
      simp only [List.length_cons, Nat.add_right_cancel_iff] at hlen
      simp only [List.foldr_cons, evalArgs, isNil, car, cdr, evalSeq, M.bind_assoc,
        Bool.false_eq_true, if_false, M.pure_bind, bindAll]
      congr 1
      funext x
      rw [bind_eq, ih vs _ hlen]

theorem ofList_eq_foldr (vs : List Val) : ofList vs = vs.foldr cons nil := by
  induction vs with
  | nil => rfl
  | cons v vs ih => simp [ofList, ih]

/-- **C21.** The values of a call are evaluated left to right, once each, in the caller's environment, and
bound to the arguments. -/
theorem C21_positional (c : Val) (as vs : List Val) (hlen : vs.length = as.length) :
    evalArgs sem c (ofList as) nil (ofList vs) = (do
      let xs ← evalSeq sem c vs
      pure (envVal (bindAll as xs []), nil)) := by
  rw [ofList_eq_foldr, ofList_eq_foldr]
  exact evalArgs_ofList c nil as vs [] nil hlen

/-- **C21.** With fewer values than arguments, the values given are evaluated left to right and bound, and
the arguments left over are returned. -/
theorem C21_fewer (c : Val) (as bs vs : List Val) (hlen : vs.length = as.length) :
    evalArgs sem c (ofList (as ++ bs)) nil (ofList vs) = (do
      let xs ← evalSeq sem c vs
      pure (envVal (bindAll as xs []), ofList bs)) := by
  rw [ofList_eq_foldr, ofList_eq_foldr, List.foldr_append, ← ofList_eq_foldr bs]
  have := evalArgs_ofList c (ofList bs) as vs [] nil hlen
  simp only [envVal_nil] at this
  rw [this]
  congr 1
  funext xs
  cases bs <;> rfl

/-- **C21.** A trailing symbol argument is bound to the remaining values, unevaluated. -/
theorem C21_catch_all (c : Val) (as vs : List Val) (s : Sym) (rest : Val)
    (hlen : vs.length = as.length) :
    evalArgs sem c (as.foldr cons (ofSym s)) nil (vs.foldr cons rest) = (do
      let xs ← evalSeq sem c vs
      pure (envVal (⟨false, s, rest⟩ :: bindAll as xs []), nil)) := by
  have := evalArgs_ofList c (ofSym s) as vs [] rest hlen
  simp only [envVal_nil] at this
  rw [this]
  rfl

/-- **C21.** A call of a lisp function given values for all its arguments evaluates them left to right in
the caller's environment and then runs the body with the arguments bound. -/
theorem C21_call (c : Val) (st : St) (s : Sym) (as vs : List Val) (clos body : Val)
    (h : Resolves c st s (cons (ofList as) (cons clos body)))
    (hclos : clos.isList = true) (hbody : body.isPair = true) (hlen : vs.length = as.length) :
    sem c (cons (ofSym s) (ofList vs)) st = (do
      let xs ← evalSeq sem c vs
      let cls0 ← M.lift (merge c clos)
      loopSem (ofSym s) body cls0 (envVal (bindAll as xs []))) st := by
  have hf : isFunc (cons (ofList as) (cons clos body)) = true := by
    have ha : (ofList as).isList = true := by cases as <;> rfl
    simp only [isFunc, ha, hclos, hbody, Bool.true_or, Bool.and_true]
  rw [sem_call h hf]
  have hm : mayApply (ofList as) (ofList vs) = true := by
    rw [mayApply_ofList]; exact decide_eq_true (by omega)
  cases body with
  | pair tc b d =>
    simp only [semFunc, car, cdr, hm, Bool.not_true, C21_positional c as vs hlen, isTailCall,
      M.bind_assoc, M.pure_bind, isNil, Bool.false_eq_true, if_false, if_true]
  | _ => simp [isPair] at hbody

/-- `((\ (a . r) (list a (quote . r))) 1 2)`: the first value is evaluated, the rest kept as is. -/
example : run 9 [L [S "def", S "f", cons (S "a") (S "r"), L [S "cons", S "a", S "r"]],
      L [S "f", L [S "+", N 1, N 1], L [S "+", N 1, N 2], S "z"]] =
    .ok (L [N 2, L [S "+", N 1, N 2], S "z"]) := by decide

example : runOut 9 [L [S "cons", L [S "prin", tru], L [S "prin", wild]]] =
    .ok (cons tru wild, [84, 95]) := by decide

/-! ## C38 -/

/-- **C38.** A quoted value evaluates to itself, whatever it contains and whatever the environment, as
long as the name used for quoting stands for the native `quote`. -/
theorem C38_quote (c v : Val) (st : St) (s : Sym) (h : Resolves c st s Native.quote.val) :
    sem c (cons (ofSym s) v) st = .ok (v, st) := by
  rw [sem_any _ h rfl]; rfl

/-- **C38.** In an environment that does not bind `quote`, with the initial definition of `quote`, `'V` is
`V`. -/
theorem C38_quote_standard (l : List Entry) (v : Val) (st : St) (hl : getEnv l sQuote = none)
    (hg : st.globals sQuote = some Native.quote.val) : sem (envVal l) (Q v) st = .ok (v, st) := by
  refine C38_quote _ _ _ _ ?_
  simp [Resolves, lookup, assq_envVal, hl, hg]

example : sem (envVal [⟨false, Sym.ofChars ['x'], num 1⟩]) (Q (L [S "x", N 2])) initSt =
    .ok (L [S "x", N 2], initSt) :=
  C38_quote_standard _ _ _ (by decide) (by decide)

end Mnml
