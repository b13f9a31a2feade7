import Verif.PropTail
import Lean.Elab.Tactic

/-!
# Rules for running lisp programs

The library of minima.l (`share/mnml/*.l`) is written in the language itself. This file has the rules with
which its functions are run symbolically: each says that an expression evaluates normally (outcome `ok`), given
that its parts do.
-/

namespace Mnml

open Val

instance : LawfulMonad M := LawfulMonad.mk' M
  (id_map := fun x => M.bind_pure x)
  (pure_bind := fun _ _ => rfl)
  (bind_assoc := fun x f g => M.bind_assoc x f g)

/-! ## Names -/

/-- The definitions a program relies on: each name has the given global value and is not bound locally. -/
def Uses (T : List (Sym × Val)) (l : List Entry) (st : St) : Prop :=
  ∀ p ∈ T, getEnv l p.1 = none ∧ st.globals p.1 = some p.2

theorem Uses.sub {T T' : List (Sym × Val)} {l : List Entry} {st : St} (h : Uses T l st)
    (hs : ∀ p ∈ T', p ∈ T) : Uses T' l st := fun p hp => h p (hs p hp)

theorem resolves_local {l : List Entry} {st : St} {s : Sym} {v : Val} (h : getEnv l s = some v) :
    Resolves (envVal l) st s v := by
  simp [Resolves, lookup, assq_envVal, h]

theorem resolves_global {l : List Entry} {st : St} {s : Sym} {v : Val} (h : getEnv l s = none)
    (hg : st.globals s = some v) : Resolves (envVal l) st s v := by
  simp [Resolves, lookup, assq_envVal, h, hg]

theorem Uses.resolves {T : List (Sym × Val)} {l : List Entry} {st : St} (h : Uses T l st) {s : Sym} {v : Val}
    (hm : (s, v) ∈ T) : Resolves (envVal l) st s v :=
  resolves_global (h _ hm).1 (h _ hm).2

theorem Uses.at {T : List (Sym × Val)} {l : List Entry} {st : St} (h : Uses T l st) {s : Sym} {v : Val}
    (i : Nat) (hm : T[i]? = some (s, v)) : Resolves (envVal l) st s v :=
  h.resolves (List.mem_of_getElem? hm)

theorem getEnv_eq_none {b : List Entry} {s : Sym} (h : s ∉ b.map Entry.key) : getEnv b s = none := by
  induction b with
  | nil => rfl
  | cons e es ih =>
    simp only [List.map_cons, List.mem_cons, not_or] at h
    rw [getEnv_cons, if_neg (Ne.symm h.1), ih h.2]

/-- A name not bound by `b` keeps its binding. -/
theorem getEnv_merge_out {l b : List Entry} (hl : Sorted l) {s : Sym} (h : s ∉ b.map Entry.key) :
    getEnv (mergeEnv l b) s = getEnv l s := by
  rw [getEnv_mergeEnv _ hl, getEnv_eq_none (b := b.reverse) (by simpa using h)]
  rfl

/-- A name bound by `b` has that binding. -/
theorem getEnv_merge_in {l b : List Entry} (hl : Sorted l) {s : Sym} {v : Val}
    (h : getEnv b.reverse s = some v) : getEnv (mergeEnv l b) s = some v := by
  rw [getEnv_mergeEnv _ hl, h]
  rfl

/-- A name not bound by `b` has its outer binding. -/
theorem getEnv_merge_skip {l b : List Entry} (hl : Sorted l) {s : Sym} {o : Option Val}
    (h : getEnv b.reverse s = none) (hi : getEnv l s = o) : getEnv (mergeEnv l b) s = o := by
  rw [getEnv_mergeEnv _ hl, h, hi]
  rfl

theorem getEnv_reverse {d : List Entry} (hd : Sorted d) (s : Sym) : getEnv d.reverse s = getEnv d s := by
  induction d with
  | nil => rfl
  | cons e es ih =>
    obtain ⟨h1, h2⟩ := sorted_cons.1 hd
    rw [List.reverse_cons, getEnv_append, ih h2, getEnv_cons, getEnv_cons]
    by_cases hk : e.key = s
    · subst hk
      simp [getEnv_of_lt h1]
    · simp [hk]

/-- A name bound in a sorted environment `b`. -/
theorem getEnv_merge_cap {l b : List Entry} (hl : Sorted l) (hb : Sorted b) {s : Sym} {v : Val}
    (h : getEnv b s = some v) : getEnv (mergeEnv l b) s = some v := by
  rw [getEnv_mergeEnv _ hl, getEnv_reverse hb, h]
  rfl

theorem Uses.merge {T : List (Sym × Val)} {l b : List Entry} {st : St} (h : Uses T l st) (hl : Sorted l)
    (hb : ∀ p ∈ T, p.1 ∉ b.map Entry.key) : Uses T (mergeEnv l b) st :=
  fun p hp => ⟨by rw [getEnv_merge_out hl (hb p hp)]; exact (h p hp).1, (h p hp).2⟩

/-! ## Rules -/

section
variable {c : Val} {st st1 st2 st3 : St} {s : Sym} {tc f t1 t2 t3 : Bool} {op : Native} {x y z a b v : Val}

theorem ok_sym (h : Resolves c st s v) : sem c (sym tc s) st = .ok (v, st) := by rw [sem_sym]; exact h

theorem ok_nil : sem c nil st = .ok (nil, st) := by rw [sem_atom _ _ rfl rfl]; rfl
theorem ok_tru : sem c tru st = .ok (tru, st) := by rw [sem_atom _ _ rfl rfl]; rfl
theorem ok_num (n : Int) : sem c (num n) st = .ok (num n, st) := by rw [sem_atom _ _ rfl rfl]; rfl
theorem ok_chr (n : Int) : sem c (chr n) st = .ok (chr n, st) := by rw [sem_atom _ _ rfl rfl]; rfl

theorem ok_one (h : Resolves c st s op.val) (hx : sem c x st = .ok (a, st1)) (hs : op.shape = .one)
    (he : op ≠ .eval) (hu : unary op a = .ok v) :
    sem c (pair tc (sym f s) (pair t1 x nil)) st = .ok (v, st1) := by
  rw [sem_one _ _ h hs, M.bind_congr_ok hx, if_neg he, hu]; rfl

theorem ok_eval (h : Resolves c st s Native.eval.val) (hx : sem c x st = .ok (a, st1))
    (ha : sem c a st1 = .ok (v, st2)) :
    sem c (pair tc (sym f s) (pair t1 x nil)) st = .ok (v, st2) := by
  rw [sem_one _ _ h rfl, M.bind_congr_ok hx, if_pos rfl, ha]

theorem ok_two (h : Resolves c st s op.val) (hx : sem c x st = .ok (a, st1))
    (hy : sem c y st1 = .ok (b, st2)) (hs : op.shape = .two) (hu : binary op a b = .ok v) :
    sem c (pair tc (sym f s) (pair t1 x (pair t2 y nil))) st = .ok (v, st2) := by
  rw [sem_two _ _ _ _ h hs, M.bind_congr_ok hx, M.bind_congr_ok hy, hu]; rfl

theorem ok_if_then {r : Val} (h : Resolves c st s Native.if_.val) (hx : sem c x st = .ok (a, st1))
    (ha : a.isNil = false) (hy : sem c y st1 = .ok (v, st2)) :
    sem c (pair tc (sym f s) (pair t1 x (pair t2 y r))) st = .ok (v, st2) := by
  rw [sem_rem _ _ _ h rfl, M.bind_congr_ok hx]
  simp only [nativeRem, ha, Bool.false_eq_true, if_false, car]
  exact hy

theorem ok_if_else {r : Val} (h : Resolves c st s Native.if_.val) (hx : sem c x st = .ok (nil, st1))
    (hz : sem c z st1 = .ok (v, st2)) :
    sem c (pair tc (sym f s) (pair t1 x (pair t2 y (pair t3 z r)))) st = .ok (v, st2) := by
  rw [sem_rem _ _ _ h rfl, M.bind_congr_ok hx]
  exact hz

/-- `(if C A)` with a false condition. -/
theorem ok_if_none (h : Resolves c st s Native.if_.val) (hx : sem c x st = .ok (nil, st1)) :
    sem c (pair tc (sym f s) (pair t1 x (pair t2 y nil))) st = .ok (nil, st1) := by
  rw [sem_rem _ _ _ h rfl, M.bind_congr_ok hx]
  exact ok_nil

theorem ok_when {r : Val} (h : Resolves c st s Native.when_.val) (hx : sem c x st = .ok (a, st1))
    (ha : a.isNil = false) (hy : progV sem c r nil st1 = .ok (v, st2)) :
    sem c (pair tc (sym f s) (pair t1 x r)) st = .ok (v, st2) := by
  rw [sem_rem _ _ _ h rfl, M.bind_congr_ok hx]
  simp only [nativeRem, ha, Bool.not_false, if_true]
  exact hy

theorem ok_when_none {r : Val} (h : Resolves c st s Native.when_.val) (hx : sem c x st = .ok (nil, st1)) :
    sem c (pair tc (sym f s) (pair t1 x r)) st = .ok (nil, st1) := by
  rw [sem_rem _ _ _ h rfl, M.bind_congr_ok hx]; rfl

theorem ok_or_left {r : Val} (h : Resolves c st s Native.or.val) (hx : sem c x st = .ok (a, st1))
    (ha : a.isNil = false) : sem c (pair tc (sym f s) (pair t1 x r)) st = .ok (tru, st1) := by
  rw [sem_any _ h rfl]
  simp only [semAny, nativeAny, orV, car]
  rw [M.bind_congr_ok hx]
  simp [ha]

theorem ok_or_right {r : Val} (h : Resolves c st s Native.or.val) (hx : sem c x st = .ok (nil, st1))
    (hy : sem c y st1 = .ok (b, st2)) :
    sem c (pair tc (sym f s) (pair t1 x (pair t2 y r))) st = .ok (ofBool (!b.isNil), st2) := by
  rw [sem_any _ h rfl]
  simp only [semAny, nativeAny, orV, car, cdr]
  rw [M.bind_congr_ok hx]
  show (do let ra1 ← sem c y; if ra1.isNil then pure ra1 else pure tru) st1 = _
  rw [M.bind_congr_ok hy]
  cases b <;> rfl

/-- `(or A)` with a false A: the missing second operand is NIL. -/
theorem ok_or_single (h : Resolves c st s Native.or.val) (hx : sem c x st = .ok (nil, st1)) :
    sem c (pair tc (sym f s) (pair t1 x nil)) st = .ok (nil, st1) := by
  rw [sem_any _ h rfl]
  simp only [semAny, nativeAny, orV, car, cdr]
  rw [M.bind_congr_ok hx]
  show (do let ra1 ← sem c nil; if ra1.isNil then pure ra1 else pure tru) st1 = _
  rw [M.bind_congr_ok ok_nil]
  rfl

theorem ok_lambda {r args : Val} (h : Resolves c st s Native.lambda.val) :
    sem c (pair tc (sym f s) (pair t1 args r)) st = .ok (cons args (cons c r), st) := by
  rw [sem_any _ h rfl]; rfl

theorem ok_quote {r : Val} (h : Resolves c st s Native.quote.val) :
    sem c (pair tc (sym f s) r) st = .ok (r, st) := by
  rw [sem_any _ h rfl]; rfl

theorem ok_list {r : Val} (h : Resolves c st s Native.list.val) (hr : listV sem c r st = .ok (v, st1)) :
    sem c (pair tc (sym f s) r) st = .ok (v, st1) := by
  rw [sem_any _ h rfl]
  simp only [semAny, nativeAny]
  exact hr

theorem ok_list_nil : listV sem c nil st = .ok (nil, st) := rfl

theorem ok_list_cons {r : Val} (hr : listV sem c r st = .ok (v, st1)) (hx : sem c x st1 = .ok (a, st2)) :
    listV sem c (pair t1 x r) st = .ok (cons a v, st2) := by
  simp only [listV]
  rw [M.bind_congr_ok hr, M.bind_congr_ok hx]; rfl

theorem ok_match {r : Val} (h : Resolves c st s Native.match_.val)
    (hx : sem (cons (cons (ofSym aANY) (pair t1 x r)) c) x st = .ok (a, st1))
    (hr : matchV sem c a r st1 = .ok (v, st2)) :
    sem c (pair tc (sym f s) (pair t1 x r)) st = .ok (v, st2) := by
  rw [sem_any _ h rfl]
  simp only [semAny, nativeAny, car, cdr]
  rw [M.bind_congr_ok hx]
  exact hr

theorem ok_stream {r : Val} (h : Resolves c st s Native.stream.val)
    (hr : streamV sem c r x st = .ok (v, st2)) :
    sem c (pair tc (sym f s) (pair t1 x r)) st = .ok (v, st2) := by
  rw [sem_any _ h rfl]
  simp only [semAny, nativeAny, car, cdr]
  exact hr

theorem ok_stream_nil : streamV sem c nil x st = sem c x st := rfl

theorem ok_stream_cons {f' r : Val} (hx : sem c x st = .ok (a, st1))
    (hr : streamV sem c r (cons f' (cons (cons (ofSym sQuote) a) nil)) st1 = .ok (v, st2)) :
    streamV sem c (pair t1 f' r) x st = .ok (v, st2) := by
  simp only [streamV]
  rw [M.bind_congr_ok hx]
  exact hr

/-- The head is an expression whose value is NIL or T: the list is recomposed. -/
theorem ok_head_bool {h d : Val} {p : Bool} (hp : h.isPair = true) (hx : sem c h st = .ok (ofBool p, st1)) :
    sem c (pair tc h d) st = .ok (cons (ofBool p) d, st1) := by
  rw [sem_pair, M.bind_congr_ok hx]
  cases h with
  | pair t a d => cases p <;> rfl
  | _ => simp [isPair] at hp

theorem ok_let {r bs : Val} (h : Resolves c st s Native.let_.val)
    (hr : letV sem c (pair t1 bs r) st = .ok (v, st2)) :
    sem c (pair tc (sym f s) (pair t1 bs r)) st = .ok (v, st2) := by
  rw [sem_any _ h rfl]
  exact hr

theorem ok_prog1 : progV sem c (pair t1 x nil) nil st = sem c x st := by
  simp only [progV]
  exact congrFun (M.bind_pure _) st

/-- A sequence of values evaluated from left to right. -/
theorem okSeq_nil : evalSeq sem c [] st = .ok ([], st) := rfl

theorem okSeq_cons {es vs : List Val} (hx : sem c x st = .ok (a, st1))
    (hs : evalSeq sem c es st1 = .ok (vs, st2)) : evalSeq sem c (x :: es) st = .ok (a :: vs, st2) := by
  simp only [evalSeq]
  rw [M.bind_congr_ok hx, M.bind_congr_ok hs]; rfl

theorem oofSeq_cons {es : List Val} (hx : sem c x st = .oof) : evalSeq sem c (x :: es) st = .oof := by
  simp only [evalSeq]
  rw [M.bind_apply, hx]; rfl

end

/-! ## Calls of lisp functions -/

section
variable {l : List Entry} {st st1 st2 : St} {s : Sym} {v : Val}

/-- Entering a call: the values are evaluated, then the loop of the function starts. -/
theorem ok_call {as vs xs : List Val} {d : List Entry} {body : Val}
    (h : Resolves (envVal l) st s (cons (ofList as) (cons (envVal d) body))) (hb : body.isPair = true)
    (hlen : vs.length = as.length) (hx : evalSeq sem (envVal l) vs st = .ok (xs, st1))
    (hr : loopSem (ofSym s) body (envVal (mergeEnv l d)) (envVal (bindAll as xs [])) st1 = .ok (v, st2)) :
    sem (envVal l) (cons (ofSym s) (ofList vs)) st = .ok (v, st2) := by
  have hd : (envVal d).isList = true := by cases d <;> rfl
  rw [C21_call _ _ _ _ _ _ _ h hd hb hlen, M.bind_congr_ok hx, merge_envVal, M.lift_ok, M.pure_bind, hr]

/-- A marked call yields a tail call record. -/
theorem ok_tail {as vs xs : List Val} {d : List Entry} {body : Val}
    (h : Resolves (envVal l) st s (cons (ofList as) (cons (envVal d) body))) (hb : body.isPair = true)
    (hlen : vs.length = as.length) (hx : evalSeq sem (envVal l) vs st = .ok (xs, st1)) :
    sem (envVal l) (cons (sym true s) (ofList vs)) st =
      .ok (pair true (sym true s) (envVal (bindAll as xs [])), st1) := by
  have hd : (envVal d).isList = true := by cases d <;> rfl
  have hf : isFunc (cons (ofList as) (cons (envVal d) body)) = true := by
    have ha : (ofList as).isList = true := by cases as <;> rfl
    simp only [isFunc, ha, hd, hb, Bool.true_or, Bool.and_true]
  rw [sem_call h hf]
  have hm : mayApply (ofList as) (ofList vs) = true := by
    rw [mayApply_ofList]; exact decide_eq_true (by omega)
  cases body with
  | pair tc b d =>
    simp only [semFunc, car, cdr, hm, Bool.not_true, C21_positional _ as vs hlen, isTailCall,
      M.bind_assoc, M.pure_bind, isNil, Bool.false_eq_true, if_false, if_true]
    rw [M.bind_congr_ok hx]; rfl
  | _ => simp [isPair] at hb

/-- The body ends without a tail call. -/
theorem loop_done {body : Val} {b : List Entry}
    (h : progV sem (envVal (mergeEnv l b)) body nil st = .ok (v, st1)) (hv : v.isTailCall = false) :
    loopSem (ofSym s) body (envVal l) (envVal b) st = .ok (v, st1) := by
  rw [loopSem_eq, merge_envVal, M.lift_ok, M.pure_bind, M.bind_congr_ok h]
  have : isSelfTail (ofSym s) v = .ok false := by
    cases v with
    | sym t s => cases t <;> first | rfl | (simp [isTailCall] at hv)
    | pair t a d => cases t <;> first | rfl | (simp [isTailCall] at hv)
    | _ => rfl
  rw [this]; rfl

/-- The body ends in a tail call of the function. -/
theorem loop_step {body : Val} {b b' : List Entry} {r : Res (Val × St)}
    (h : progV sem (envVal (mergeEnv l b)) body nil st = .ok (pair true (sym true s) (envVal b'), st1))
    (hr : loopSem (ofSym s) body (envVal l) (envVal b') st1 = r) :
    loopSem (ofSym s) body (envVal l) (envVal b) st = r := by
  rw [loopSem_eq, merge_envVal, M.lift_ok, M.pure_bind, M.bind_congr_ok h]
  have : isSelfTail (ofSym s) (pair true (sym true s) (envVal b')) = .ok true := by
    simp [isSelfTail, tag, symIs, symMatch_eq_decide]
  rw [this]
  exact hr

theorem progV_le (n : Nat) (c e r : Val) : Le (progV (evalN n) c e r) (progV sem c e r) := by
  intro st
  obtain ⟨N, hN⟩ := lim_progV c e r st
  rw [← hN (max n N) (by omega)]
  exact le_progV (evalN_le (by omega)) c e r st

/-- A loop that never leaves a set of bindings for which the body makes another tail call does not
terminate. -/
theorem loop_diverge {body : Val} (inv : List Entry → St → Prop)
    (h : ∀ b st, inv b st → ∃ b' st', progV sem (envVal (mergeEnv l b)) body nil st =
      .ok (pair true (sym true s) (envVal b'), st') ∧ inv b' st') {b : List Entry} (hi : inv b st) :
    loopSem (ofSym s) body (envVal l) (envVal b) st = .oof := by
  have key : ∀ k n b st, inv b st → tailLoop (evalN n) (ofSym s) body (envVal l) k (envVal b) st = .oof := by
    intro k n
    induction k with
    | zero => intro b st _; rfl
    | succ k ih =>
      intro b st hi
      obtain ⟨b', st', hp, hi'⟩ := h b st hi
      simp only [tailLoop]
      rw [merge_envVal, M.lift_ok, M.pure_bind, M.bind_apply]
      rcases progV_le n (envVal (mergeEnv l b)) body nil st with h1 | h1
      · rw [h1]; rfl
      · rw [h1, hp, Res.ok_bind]
        have : isSelfTail (ofSym s) (pair true (sym true s) (envVal b')) = .ok true := by
          simp [isSelfTail, tag, symIs, symMatch_eq_decide]
        show (do let again ← M.lift (isSelfTail (ofSym s) (pair true (sym true s) (envVal b')))
                 if again then tailLoop (evalN n) (ofSym s) body (envVal l) k (envVal b')
                 else pure (pair true (sym true s) (envVal b')) : M Val) st' = _
        rw [this]
        exact ih b' st' hi'
  obtain ⟨N, hN⟩ := lim_tailLoop (ofSym s) body (envVal l) (envVal b) st
  rw [← hN N (by omega)]
  exact key _ _ _ _ hi

/-- A call whose loop does not terminate. -/
theorem oof_call {as vs xs : List Val} {d : List Entry} {body : Val}
    (h : Resolves (envVal l) st s (cons (ofList as) (cons (envVal d) body))) (hb : body.isPair = true)
    (hlen : vs.length = as.length) (hx : evalSeq sem (envVal l) vs st = .ok (xs, st1))
    (hr : loopSem (ofSym s) body (envVal (mergeEnv l d)) (envVal (bindAll as xs [])) st1 = .oof) :
    sem (envVal l) (cons (ofSym s) (ofList vs)) st = .oof := by
  have hd : (envVal d).isList = true := by cases d <;> rfl
  rw [C21_call _ _ _ _ _ _ _ h hd hb hlen, M.bind_congr_ok hx, merge_envVal, M.lift_ok, M.pure_bind, hr]

/-- A call whose arguments do not terminate. -/
theorem oof_args {as vs : List Val} {d : List Entry} {body : Val}
    (h : Resolves (envVal l) st s (cons (ofList as) (cons (envVal d) body))) (hb : body.isPair = true)
    (hlen : vs.length = as.length) (hx : evalSeq sem (envVal l) vs st = .oof) :
    sem (envVal l) (cons (ofSym s) (ofList vs)) st = .oof := by
  have hd : (envVal d).isList = true := by cases d <;> rfl
  rw [C21_call _ _ _ _ _ _ _ h hd hb hlen, M.bind_apply, hx]; rfl

/-- A body that does not terminate. -/
theorem oof_loop {body : Val} {b : List Entry}
    (h : progV sem (envVal (mergeEnv l b)) body nil st = .oof) :
    loopSem (ofSym s) body (envVal l) (envVal b) st = .oof := by
  rw [loopSem_eq, merge_envVal, M.lift_ok, M.pure_bind, M.bind_apply, h]; rfl

/-! ### `let` -/

theorem okBind_nil {env : Val} : letBind sem (envVal l) nil env st = .ok (env, st) := rfl

/-- One binding of a `let`. -/
theorem okBind_cons {b : List Entry} {t1 t2 f : Bool} {e r a a' w : Val}
    (hx : sem (envVal (mergeEnv l b)) e st = .ok (a, st1))
    (hm : letMark (envVal (mergeEnv l b)) (sym f s) a = .ok a')
    (hr : letBind sem (envVal l) r (envVal (⟨f, s, a'⟩ :: b)) st1 = .ok (w, st2)) :
    letBind sem (envVal l) (pair t1 (pair t2 (sym f s) e) r) (envVal b) st = .ok (w, st2) := by
  have e0 : letBind sem (envVal l) (pair t1 (pair t2 (sym f s) e) r) (envVal b) = (do
      let tmp ← M.lift (merge (envVal l) (envVal b))
      let val ← sem tmp e
      let val' ← M.lift (letMark tmp (sym f s) val)
      letBind sem (envVal l) r (Val.bind (envVal b) (sym f s) val')) := rfl
  rw [e0]
  rw [merge_envVal, M.lift_ok, M.pure_bind, M.bind_congr_ok hx, hm, M.lift_ok, M.pure_bind]
  exact hr

/-- A `let` whose bindings give `b`. -/
theorem ok_let_env {b : List Entry} {tc f t1 : Bool} {bs r : Val}
    (h : Resolves (envVal l) st s Native.let_.val)
    (hb : letBind sem (envVal l) bs (envVal []) st = .ok (envVal b, st1))
    (hr : progV sem (envVal (mergeEnv l b)) r nil st1 = .ok (v, st2)) :
    sem (envVal l) (pair tc (sym f s) (pair t1 bs r)) st = .ok (v, st2) := by
  refine ok_let h ?_
  simp only [letV, car, cdr]
  have hb' : letBind sem (envVal l) bs nil st = .ok (envVal b, st1) := hb
  rw [M.bind_congr_ok hb', merge_envVal, M.lift_ok, M.pure_bind, hr]

/-- A function bound by `let` to a new name gets its tail calls marked. -/
theorem letMark_fun {d : List Entry} {f : Bool} {args body : Val} (h : getEnv l s = none) (ha : args.isList = true)
    (hb : body.isPair = true) :
    letMark (envVal l) (sym f s) (cons args (cons (envVal d) body)) =
      .ok (cons args (cons (envVal d) (markLast s args body))) := by
  have hd : (envVal d).isList = true := by cases d <;> rfl
  have hf : isFunc (cons args (cons (envVal d) body)) = true := by
    simp only [isFunc, ha, hd, hb, Bool.true_or, Bool.and_true]
  simp only [letMark]
  rw [if_pos hf, assq_envVal, h]
  cases body with
  | pair => rfl
  | _ => simp [isPair] at hb

/-- The environment after a call of a function with captured environment `d` whose arguments are bound to
`b`: the captured names that are not arguments keep the captured value. -/
theorem getEnv_call {l d b : List Entry} (hl : Sorted l) (s : Sym) :
    getEnv (mergeEnv (mergeEnv l d) b) s = (getEnv b.reverse s).or ((getEnv d.reverse s).or (getEnv l s)) := by
  rw [getEnv_mergeEnv _ (sorted_mergeEnv _ hl), getEnv_mergeEnv _ hl]

end

/-! ## Tactics -/

/-- Proves that an environment made by calls is sorted. -/
syntax "sorted" : tactic
macro_rules
  | `(tactic| sorted) => `(tactic| first | assumption | exact sorted_mergeEnv _ (by sorted))

/-- A name. -/
def Lib.n (s : String) : Sym := Sym.ofChars s.toList

open Lean Meta Elab Tactic in
/-- The string of a name given by a literal. -/
def symString? (e : Expr) : MetaM (Option String) := do
  let e ← instantiateMVars e
  match e.getAppFnArgs with
  | (``Lib.n, #[.lit (.strVal s)]) => return some s
  | (``Sym.ofChars, #[l]) =>
    match l.getAppFnArgs with
    | (``String.toList, #[.lit (.strVal s)]) => return some s
    | _ => return none
  | _ => return none

open Lean Meta in
/-- The elements of a list, evaluated as far as necessary. -/
def listElems (e : Expr) : Nat → MetaM (List Expr)
  | 0 => return []
  | k + 1 => do
    let e ← whnf e
    match e.getAppFnArgs with
    | (``List.cons, #[_, a, d]) => return a :: (← listElems d k)
    | _ => return []

open Lean Meta Elab Tactic in
/-- Proves `getEnv ENV NAME = some V` for a name bound in an environment made by calls. -/
def findLocal (name : String) (env : Expr) : Nat → TacticM (Option Term)
  | 0 => return none
  | k + 1 => do
    -- a known binding
    for decl in ← getLCtx do
      if decl.isImplementationDetail then continue
      if let (``Eq, #[_, lhs, rhs]) := (← instantiateMVars decl.type).getAppFnArgs then
        if let (``getEnv, #[env', s']) := lhs.getAppFnArgs then
          if rhs.isAppOf ``some then
            if (← symString? s') == some name then
              if ← isDefEq env env' then
                return some (← Term.exprToSyntax decl.toExpr)
    match env.getAppFnArgs with
    | (``mergeEnv, #[inner, b]) =>
      for x in ← listElems b 99 do
        let x ← whnf x
        if let (``Entry.mk, #[_, key, _]) := x.getAppFnArgs then
          if (← symString? key) == some name then
            return some (← `(getEnv_merge_in (by sorted) rfl))
      if let some t ← findLocal name b k then
        return some (← `(getEnv_merge_cap (by sorted) (by sorted) $t))
      match ← findLocal name inner k with
      | some t => return some (← `(getEnv_merge_skip (by sorted) rfl $t))
      | none => return none
    | _ => return none

open Lean Meta Elab Tactic in
/-- Finds what a name stands for: a local variable, or one of the used definitions. -/
elab "res" : tactic => withMainContext do
  let goal ← getMainGoal
  let type ← instantiateMVars (← goal.getType)
  let (``Resolves, #[c, st, s, _]) := type.getAppFnArgs | throwError "res: not a name {type}"
  let some name ← symString? s | throwError "res: no literal {s}"
  let c ← instantiateMVars c
  let (``envVal, #[env]) := c.getAppFnArgs | throwError "res: environment {c}"
  if let some t ← findLocal name env 99 then
    evalTactic (← `(tactic| exact resolves_local $t))
    return
  for decl in ← getLCtx do
    if decl.isImplementationDetail then continue
    if let (``Uses, #[table, env', st']) := (← instantiateMVars decl.type).getAppFnArgs then
      if (← isDefEq env env') && (← isDefEq st st') then
        let mut i := 0
        for x in ← listElems table 99 do
          let x ← whnf x
          if let (``Prod.mk, #[_, _, k, _]) := x.getAppFnArgs then
            if (← symString? k) == some name then
              let stx ← Term.exprToSyntax decl.toExpr
              evalTactic (← `(tactic| exact Uses.at $stx $(quote i) rfl))
              return
          i := i + 1
  throwError "res: {name} not found in {env}"

/-- Runs an expression made of variables, atoms and natives with one or two arguments. -/
syntax "ev" : tactic
macro_rules
  | `(tactic| ev) => `(tactic| first
    | assumption
    | exact ok_sym (by res)
    | exact ok_nil | exact ok_tru | exact ok_num _ | exact ok_chr _
    | exact ok_one (by res) (by ev) rfl (by decide) rfl
    | exact ok_two (by res) (by ev) (by ev) rfl rfl)

end Mnml
