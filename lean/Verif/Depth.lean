import Verif.PropFold

/-!
# How deep the evaluator nests

`lisp_eval` calls itself for the parts of an expression; every level takes stack of the C program. The loops of the evaluator (`lib/core/eval.c:161-184` for
tail calls, `lib/mnml/std/while.c:27-31`) do not nest. `evalD L d` is the evaluator of `Verif.Eval` with separate bounds for the two: at most `d` nested
calls of `lisp_eval`, at most `L` rounds of each loop.

A level of `lisp_eval` is a bounded number of C functions, apart from `lisp_eval_args` and `lisp_prog`, whose recursion is bounded by the length of the lists in the
text of the program; the recursion of `lisp_X` and `lisp_equ` on data is not counted.
-/

namespace Mnml

open Val

/-- `lisp_eval` (`lib/core/eval.c:260-286`) with at most `d` nested calls of itself and at most `L` rounds of every loop. -/
def evalD (L : Nat) : Nat → Ev
  | 0 => fun _ _ => M.oof
  | d + 1 => evalStep L (evalD L d)

theorem evalD_le {L L' d d' : Nat} (hL : L ≤ L') (hd : d ≤ d') : EvLe (evalD L d) (evalD L' d') := by
  induction d generalizing d' with
  | zero => exact fun c e => Le.oof _
  | succ d ih =>
    cases d' with
    | zero => omega
    | succ d' => exact le_evalStep (ih (by omega)) hL

theorem evalN_evalD (n : Nat) : EvLe (evalN n) (evalD n n) := by
  induction n with
  | zero => exact fun c e => Le.oof _
  | succ n ih =>
    exact le_evalStep (fun c e => Le.trans (ih c e) (evalD_le (by omega) (Nat.le_refl _) c e)) (by omega)

theorem evalD_evalN (L d : Nat) : EvLe (evalD L d) (evalN (L + d)) := by
  induction d with
  | zero => exact fun c e => Le.oof _
  | succ d ih => exact le_evalStep ih (Nat.le_add_right L d)

theorem le_ok {α : Type} {x y : M α} (h : Le x y) {st : St} {r : α × St} (e : x st = .ok r) : y st = .ok r := by
  rcases h st with h1 | h1
  · rw [e] at h1; cases h1
  · rw [← h1, e]

theorem le_cases {α : Type} {x y : M α} (h : Le x y) {st : St} {r : Res (α × St)} (e : y st = r) : x st = .oof ∨ x st = r := by
  rw [← e]; exact h st

theorem evalD_le_sem (L d : Nat) : EvLe (evalD L d) sem := by
  intro c e
  refine Le.trans (evalD_evalN L d c e) ?_
  intro st
  cases h : evalN (L + d) c e st with
  | oof => exact .inl rfl
  | _ => exact .inr (sem_of_evalN h (by simp)).symm

/-! ## Evaluation within a depth -/

/-- `e` evaluates to `v` with at most `d` nested calls of `lisp_eval`, whatever the number of rounds of the loops. -/
def InDepth (d : Nat) (c e : Val) (st : St) (v : Val) (st' : St) : Prop := ∃ L, evalD L d c e st = .ok (v, st')

/-- The same for a sequence of expressions of which the last gives the value. -/
def InProg (d : Nat) (c e : Val) (st : St) (v : Val) (st' : St) : Prop := ∃ L, progV (evalD L d) c e nil st = .ok (v, st')

/-- The same for arguments. -/
def InSeq (d : Nat) (c : Val) (es : List Val) (st : St) (vs : List Val) (st' : St) : Prop :=
  ∃ L, evalSeq (evalD L d) c es st = .ok (vs, st')

theorem le_evalSeq {ev ev' : Ev} (h : EvLe ev ev') (c : Val) (es : List Val) : Le (evalSeq ev c es) (evalSeq ev' c es) := by
  induction es with
  | nil => exact Le.refl _
  | cons e es ih => exact Le.bind (h _ _) fun _ => Le.bind ih fun _ => Le.refl _

section
variable {L L' d d' : Nat} {c e r v : Val} {es vs : List Val} {st st' st1 st2 : St}

theorem evalD_up (h : evalD L d c e st = .ok (v, st')) (hL : L ≤ L') (hd : d ≤ d') : evalD L' d' c e st = .ok (v, st') :=
  le_ok (evalD_le hL hd c e) h

theorem progD_up (h : progV (evalD L d) c e r st = .ok (v, st')) (hL : L ≤ L') (hd : d ≤ d') : progV (evalD L' d') c e r st = .ok (v, st') :=
  le_ok (le_progV (evalD_le hL hd) c e r) h

theorem seqD_up (h : evalSeq (evalD L d) c es st = .ok (vs, st')) (hL : L ≤ L') (hd : d ≤ d') : evalSeq (evalD L' d') c es st = .ok (vs, st') :=
  le_ok (le_evalSeq (evalD_le hL hd) c es) h

theorem InDepth.mono (h : InDepth d c e st v st') (hd : d ≤ d') : InDepth d' c e st v st' := by
  obtain ⟨L, h⟩ := h
  exact ⟨L, evalD_up h (Nat.le_refl _) hd⟩

theorem InProg.mono (h : InProg d c e st v st') (hd : d ≤ d') : InProg d' c e st v st' := by
  obtain ⟨L, h⟩ := h
  exact ⟨L, progD_up h (Nat.le_refl _) hd⟩

theorem InDepth.sem (h : InDepth d c e st v st') : sem c e st = .ok (v, st') := by
  obtain ⟨L, h⟩ := h
  exact le_ok (evalD_le_sem L d c e) h

theorem bind_ok {α β : Type} {x : M α} {f : α → M β} {st : St} {r : β × St} (h : (x >>= f) st = .ok r) :
    ∃ a st1, x st = .ok (a, st1) ∧ f a st1 = .ok r := by
  rw [M.bind_apply] at h
  cases hx : x st with
  | ok p => rw [hx] at h; exact ⟨p.1, p.2, rfl, h⟩
  | _ => rw [hx] at h; cases h

theorem lift_ok_inv {α : Type} {x : Res α} {st : St} {r : α × St} (h : M.lift x st = .ok r) : x = .ok r.1 ∧ r.2 = st := by
  cases x with
  | ok a => cases h; exact ⟨rfl, rfl⟩
  | _ => cases h

/-! ## Calls with any evaluator of the parts -/

variable {ev : Ev} {k : Nat} {tc f t1 t2 t3 : Bool} {s : Sym} {op : Native} {x y z a b fv vals : Val}

theorem step_call (hs : ev c (sym f s) st = .ok (fv, st)) (hf : fv.isFunc = true) :
    evalStep k ev c (pair tc (sym f s) vals) st = evalFunc k ev c (sym f s) fv vals st := by
  show (ev c (sym f s) >>= _) st = _
  rw [M.bind_congr_ok hs, if_pos hf]

theorem step_any (hs : ev c (sym f s) st = .ok (op.val, st)) (ho : op.shape = .any) :
    evalStep k ev c (pair tc (sym f s) vals) st = nativeAny k ev op (cons (cons (ofSym aANY) vals) c) c vals st := by
  rw [step_call hs op.isFunc_val]
  simp only [evalFunc, Native.val, car, cdr, Native.args, ho, mayApply, evalArgs, Val.bind,
    M.pure_bind, isNil, nativeOfAddr_addr, conc_cons_nil, callNative, popArg, M.lift_ok,
    Bool.not_true, Bool.false_eq_true, if_false, if_true]

theorem step_one (hs : ev c (sym f s) st = .ok (op.val, st)) (ho : op.shape = .one) :
    evalStep k ev c (pair tc (sym f s) (pair t1 x nil)) st =
      (do let v ← ev c x; if op = Native.eval then ev c v else M.lift (unary op v)) st := by
  rw [step_call hs op.isFunc_val]
  simp only [evalFunc, Native.val, car, cdr, Native.args, ho, mayApply, evalArgs, Val.bind, ofList,
    M.pure_bind, isNil, nativeOfAddr_addr, conc_cons_nil, callNative, popArg, M.lift_ok,
    Bool.not_true, Bool.false_eq_true, if_false, if_true, M.bind_assoc]

theorem step_two (hs : ev c (sym f s) st = .ok (op.val, st)) (ho : op.shape = .two) :
    evalStep k ev c (pair tc (sym f s) (pair t1 x (pair t2 y nil))) st =
      (do let a ← ev c x; let b ← ev c y; M.lift (binary op a b)) st := by
  rw [step_call hs op.isFunc_val]
  simp only [evalFunc, Native.val, car, cdr, Native.args, ho, mayApply, evalArgs, Val.bind, ofList,
    M.pure_bind, isNil, nativeOfAddr_addr, conc, isPair, callNative, popArg, M.lift_ok,
    Bool.not_true, Bool.false_eq_true, if_false, if_true, M.bind_assoc]

theorem step_rem (hs : ev c (sym f s) st = .ok (op.val, st)) (ho : op.shape = .rem) :
    evalStep k ev c (pair tc (sym f s) (pair t1 x r)) st = (do let v ← ev c x; nativeRem ev op c v r) st := by
  rw [step_call hs op.isFunc_val]
  have hop : op.args = Val.cons (ofSym aCHAN) (ofSym aREM) ∨ op.args = Val.cons (ofSym aCOND) (ofSym aREM) := by
    cases op <;> simp [Native.shape] at ho <;> decide
  have hb : ∀ q : Sym, op.args = Val.cons (ofSym q) (ofSym aREM) →
      evalFunc k ev c (sym f s) op.val (pair t1 x r) = (do let v ← ev c x; nativeRem ev op c v r) := by
    intro q hk
    simp only [evalFunc, Native.val, car, cdr, hk, ho, mayApply, evalArgs, Val.bind,
      M.pure_bind, isNil, nativeOfAddr_addr, conc, isPair, callNative, popArg, M.lift_ok,
      Bool.not_true, Bool.false_eq_true, if_false, if_true, M.bind_assoc]
  rcases hop with hop | hop <;> rw [hb _ hop]

theorem args_seq (c tail : Val) (as vs : List Val) (acc : List Entry) (rest : Val) (hlen : vs.length = as.length) :
    evalArgs ev c (as.foldr cons tail) (envVal acc) (vs.foldr cons rest) = (do
      let xs ← evalSeq ev c vs
      evalArgs ev c tail (envVal (bindAll as xs acc)) rest) := by
  induction as generalizing vs acc with
  | nil =>
    cases vs with
    | nil => rfl
    | cons v vs => simp at hlen
  | cons a as ih =>
    cases vs with
    | nil => simp at hlen
    | cons v vs =>
      simp only [List.length_cons, Nat.add_right_cancel_iff] at hlen
      simp only [List.foldr_cons, evalArgs, isNil, car, cdr, evalSeq, M.bind_assoc,
        Bool.false_eq_true, if_false, M.pure_bind, bindAll]
      congr 1
      funext x
      rw [bind_eq, ih vs _ hlen]

theorem args_positional (c : Val) (as vs : List Val) (hlen : vs.length = as.length) :
    evalArgs ev c (ofList as) nil (ofList vs) = (do
      let xs ← evalSeq ev c vs
      pure (envVal (bindAll as xs []), nil)) := by
  rw [ofList_eq_foldr, ofList_eq_foldr]
  exact args_seq c nil as vs [] nil hlen

/-- A call of a lisp function. -/
theorem step_lisp {l dcl : List Entry} {as vs : List Val} {body : Val}
    (hs : ev (envVal l) (sym f s) st = .ok (cons (ofList as) (cons (envVal dcl) body), st)) (hb : body.isPair = true) (hlen : vs.length = as.length) :
    evalStep k ev (envVal l) (pair tc (sym f s) (ofList vs)) st = (do
      let xs ← evalSeq ev (envVal l) vs
      if f then pure (pair true (sym f s) (envVal (bindAll as xs [])))
      else tailLoop ev (sym f s) body (envVal (mergeEnv l dcl)) k (envVal (bindAll as xs []))) st := by
  have hd : (envVal dcl).isList = true := by cases dcl <;> rfl
  have hf : isFunc (cons (ofList as) (cons (envVal dcl) body)) = true := by
    have ha : (ofList as).isList = true := by cases as <;> rfl
    simp only [isFunc, ha, hd, hb, Bool.true_or, Bool.and_true]
  rw [step_call hs hf]
  have hm : mayApply (ofList as) (ofList vs) = true := by
    rw [mayApply_ofList]; exact decide_eq_true (by omega)
  cases body with
  | pair tc b d =>
    simp only [evalFunc, car, cdr, hm, Bool.not_true, args_positional _ as vs hlen, M.bind_assoc, M.pure_bind, isNil, Bool.false_eq_true, if_false,
      if_true, isTailCall]
    cases f <;> simp [merge_envVal]
  | _ => simp [isPair] at hb

/-! ## Rules -/

theorem evalD_sym (h : Resolves c st s v) : evalD L (d + 1) c (sym f s) st = .ok (v, st) := h

theorem d_sym (h : Resolves c st s v) : InDepth (d + 1) c (sym f s) st v st := ⟨0, h⟩
theorem d_nil : InDepth (d + 1) c nil st nil st := ⟨0, rfl⟩
theorem d_tru : InDepth (d + 1) c tru st tru st := ⟨0, rfl⟩
theorem d_num (n : Int) : InDepth (d + 1) c (num n) st (num n) st := ⟨0, rfl⟩
theorem d_chr (n : Int) : InDepth (d + 1) c (chr n) st (chr n) st := ⟨0, rfl⟩

theorem d_one (h : Resolves c st s op.val) (hx : InDepth (d + 1) c x st a st1) (ho : op.shape = .one)
    (he : op ≠ .eval) (hu : unary op a = .ok v) : InDepth (d + 2) c (pair tc (sym f s) (pair t1 x nil)) st v st1 := by
  obtain ⟨L, hx⟩ := hx
  refine ⟨L, ?_⟩
  rw [evalD, step_one (evalD_sym h) ho, M.bind_congr_ok hx, if_neg he, hu]; rfl

theorem d_two (h : Resolves c st s op.val) (hx : InDepth (d + 1) c x st a st1) (hy : InDepth (d + 1) c y st1 b st2) (ho : op.shape = .two)
    (hu : binary op a b = .ok v) : InDepth (d + 2) c (pair tc (sym f s) (pair t1 x (pair t2 y nil))) st v st2 := by
  obtain ⟨L, hx⟩ := hx
  obtain ⟨L', hy⟩ := hy
  refine ⟨max L L', ?_⟩
  rw [evalD, step_two (evalD_sym h) ho, M.bind_congr_ok (evalD_up hx (by omega) (Nat.le_refl _)),
    M.bind_congr_ok (evalD_up hy (by omega) (Nat.le_refl _)), hu]; rfl

theorem d_if_then (h : Resolves c st s Native.if_.val) (hx : InDepth (d + 1) c x st a st1) (ha : a.isNil = false)
    (hy : InDepth (d + 1) c y st1 v st2) : InDepth (d + 2) c (pair tc (sym f s) (pair t1 x (pair t2 y r))) st v st2 := by
  obtain ⟨L, hx⟩ := hx
  obtain ⟨L', hy⟩ := hy
  refine ⟨max L L', ?_⟩
  rw [evalD, step_rem (evalD_sym h) rfl, M.bind_congr_ok (evalD_up hx (by omega) (Nat.le_refl _))]
  simp only [nativeRem, ha, Bool.false_eq_true, if_false, car]
  exact evalD_up hy (by omega) (Nat.le_refl _)

theorem d_if_else (h : Resolves c st s Native.if_.val) (hx : InDepth (d + 1) c x st nil st1)
    (hz : InDepth (d + 1) c z st1 v st2) : InDepth (d + 2) c (pair tc (sym f s) (pair t1 x (pair t2 y (pair t3 z r)))) st v st2 := by
  obtain ⟨L, hx⟩ := hx
  obtain ⟨L', hz⟩ := hz
  refine ⟨max L L', ?_⟩
  rw [evalD, step_rem (evalD_sym h) rfl, M.bind_congr_ok (evalD_up hx (by omega) (Nat.le_refl _))]
  exact evalD_up hz (by omega) (Nat.le_refl _)

theorem d_lambda {args : Val} (h : Resolves c st s Native.lambda.val) :
    InDepth (d + 2) c (pair tc (sym f s) (pair t1 args r)) st (cons args (cons c r)) st := by
  refine ⟨0, ?_⟩
  rw [evalD, step_any (evalD_sym h) rfl]; rfl

theorem d_quote (h : Resolves c st s Native.quote.val) : InDepth (d + 2) c (pair tc (sym f s) r) st r st := by
  refine ⟨0, ?_⟩
  rw [evalD, step_any (evalD_sym h) rfl]; rfl

theorem d_prog1 (h : InDepth d c x st v st1) : InProg d c (pair t1 x nil) st v st1 := by
  obtain ⟨L, h⟩ := h
  refine ⟨L, ?_⟩
  simp only [progV]
  rw [M.bind_congr_ok h]; rfl

theorem dSeq_nil : InSeq d c [] st [] st := ⟨0, rfl⟩

theorem dSeq_cons (hx : InDepth d c x st a st1) (hs : InSeq d c es st1 vs st2) : InSeq d c (x :: es) st (a :: vs) st2 := by
  obtain ⟨L, hx⟩ := hx
  obtain ⟨L', hs⟩ := hs
  refine ⟨max L L', ?_⟩
  simp only [evalSeq]
  rw [M.bind_congr_ok (evalD_up hx (by omega) (Nat.le_refl _)), M.bind_congr_ok (seqD_up hs (by omega) (Nat.le_refl _))]; rfl

theorem dSeq_inv (h : InSeq d c (x :: es) st vs st2) : ∃ a ws st1, vs = a :: ws ∧ InDepth d c x st a st1 ∧ InSeq d c es st1 ws st2 := by
  obtain ⟨L, h⟩ := h
  simp only [evalSeq] at h
  obtain ⟨a, st1, h1, h⟩ := bind_ok h
  obtain ⟨ws, st3, h2, h⟩ := bind_ok h
  cases h
  exact ⟨a, ws, st1, rfl, ⟨L, h1⟩, ⟨L, h2⟩⟩

end

end Mnml
