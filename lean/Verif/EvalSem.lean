import Verif.EvalMono

/-!
# Meaning of expressions

`sem c e st` is the outcome of evaluating `e` in the environment `c` and the state `st` with as much
fuel as it takes; `oof` now means that the evaluation does not terminate. `sem` satisfies the
equations of the C code without fuel.
-/

namespace Mnml

open Val

/-- The outcome that a family of computations settles on; `oof` if there is none. -/
noncomputable def limM {α : Type} (F : Nat → M α) : M α := fun st =>
  open Classical in
  if h : ∃ n, F n st ≠ .oof then F (Classical.choose h) st else .oof

/-- `F n` agrees with `G` from some `n` on (which may depend on the state). -/
def Lim {α : Type} (F : Nat → M α) (G : M α) : Prop := ∀ st, ∃ N, ∀ n, N ≤ n → F n st = G st

/-- A family with growing fuel. -/
def Mono {α : Type} (F : Nat → M α) : Prop := ∀ n m, n ≤ m → Le (F n) (F m)

theorem lim_limM {α : Type} {F : Nat → M α} (h : Mono F) : Lim F (limM F) := by
  intro st
  by_cases hx : ∃ n, F n st ≠ .oof
  · refine ⟨Classical.choose hx, fun n hn => ?_⟩
    have hc := Classical.choose_spec hx
    simp only [limM, hx, dif_pos]
    rcases h _ n hn st with e | e
    · exact absurd e hc
    · exact e.symm
  · refine ⟨0, fun n _ => ?_⟩
    simp only [limM, hx, dif_neg, not_false_eq_true]
    exact Classical.byContradiction fun hne => hx ⟨n, hne⟩

theorem Lim.unique {α : Type} {F : Nat → M α} {G G' : M α} (h : Lim F G) (h' : Lim F G') : G = G' := by
  funext st
  obtain ⟨N, hN⟩ := h st
  obtain ⟨N', hN'⟩ := h' st
  rw [← hN (max N N') (by omega), hN' (max N N') (by omega)]

theorem Lim.shift {α : Type} {F : Nat → M α} {G : M α} (h : Lim F G) (k : Nat) :
    Lim (fun n => F (n + k)) G := by
  intro st
  obtain ⟨N, hN⟩ := h st
  exact ⟨N, fun n hn => hN (n + k) (by omega)⟩

theorem Lim.const {α : Type} (x : M α) : Lim (fun _ => x) x := fun _ => ⟨0, fun _ _ => rfl⟩

theorem Lim.bind {α β : Type} {F : Nat → M α} {G : M α} {f : Nat → α → M β} {g : α → M β}
    (h1 : Lim F G) (h2 : ∀ a, Lim (fun n => f n a) (g a)) :
    Lim (fun n => F n >>= f n) (G >>= g) := by
  intro st
  obtain ⟨N, hN⟩ := h1 st
  simp only [M.bind_apply]
  cases hG : G st with
  | ok p =>
    obtain ⟨N', hN'⟩ := h2 p.1 p.2
    refine ⟨max N N', fun n hn => ?_⟩
    rw [hN n (by omega), hG]
    exact hN' n (by omega)
  | _ => refine ⟨N, fun n hn => ?_⟩; rw [hN n hn, hG]; rfl

theorem Lim.ite {α : Type} {c : Prop} [Decidable c] {F F' : Nat → M α} {G G' : M α} (h1 : Lim F G)
    (h2 : Lim F' G') : Lim (fun n => if c then F n else F' n) (if c then G else G') := by
  split
  · exact h1
  · exact h2

/-- The meaning of an expression. -/
noncomputable def sem : Ev := fun c e => limM (fun n => evalN n c e)

theorem lim_evalN (c e : Val) : Lim (fun n => evalN n c e) (sem c e) :=
  lim_limM (fun _ _ h => evalN_le h c e)

/-- `Evals` is `sem` with a normal outcome. -/
theorem evals_iff (c e : Val) (st : St) (v : Val) (st' : St) :
    Evals c e st v st' ↔ sem c e st = .ok (v, st') := by
  constructor
  · rintro ⟨n, hn⟩
    obtain ⟨N, hN⟩ := lim_evalN c e st
    rw [← hN (max n N) (by omega)]
    exact evalN_of_le (by omega) hn (by simp)
  · intro h
    obtain ⟨N, hN⟩ := lim_evalN c e st
    exact ⟨N, (hN N (by omega)).trans h⟩

/-- Every definite outcome of the evaluator is the meaning. -/
theorem sem_of_evalN {n : Nat} {c e : Val} {st : St} {r : Res (Val × St)}
    (h : evalN n c e st = r) (ho : r ≠ .oof) : sem c e st = r := by
  obtain ⟨N, hN⟩ := lim_evalN c e st
  rw [← hN (max n N) (by omega)]
  exact evalN_of_le (by omega) h ho

/-! ## The helpers with `sem` -/

theorem lim_progV (c e r : Val) : Lim (fun n => progV (evalN n) c e r) (progV sem c e r) := by
  induction e generalizing r with
  | pair tc a d _ ihd => exact Lim.bind (lim_evalN _ _) (fun r => ihd r)
  | _ => exact Lim.const _

theorem lim_evalArgs (c args acc vals : Val) :
    Lim (fun n => evalArgs (evalN n) c args acc vals) (evalArgs sem c args acc vals) := by
  induction args generalizing acc vals with
  | pair tc a d _ ihd =>
    simp only [evalArgs]
    exact Lim.ite (Lim.const _) (Lim.bind (lim_evalN _ _) (fun v => ihd _ _))
  | nil => exact Lim.const _
  | sym => exact Lim.const _
  | _ =>
    simp only [evalArgs]
    exact Lim.ite (Lim.const _) (Lim.bind (lim_evalN _ _) (fun v => Lim.const _))

/-- The meaning of the tail call loop. -/
noncomputable def loopSem (symb body cls0 b : Val) : M Val :=
  limM (fun n => tailLoop (evalN n) symb body cls0 n b)

theorem lim_tailLoop (symb body cls0 b : Val) :
    Lim (fun n => tailLoop (evalN n) symb body cls0 n b) (loopSem symb body cls0 b) :=
  lim_limM (fun _ _ h => le_tailLoop (evalN_le h) _ _ _ _ _ h _)

theorem lim_tailLoop' (symb body cls0 b : Val) :
    Lim (fun n => tailLoop (evalN (n + 1)) symb body cls0 n b) (loopSem symb body cls0 b) := by
  intro st
  obtain ⟨N, hN⟩ := lim_tailLoop symb body cls0 b st
  refine ⟨N, fun n hn => ?_⟩
  have h1 := hN n hn
  have h2 := hN (n + 1) (by omega)
  have l1 := le_tailLoop (evalN_le (Nat.le_succ n)) symb body cls0 n n (Nat.le_refl n) b st
  have l2 := le_tailLoop (evalN_le (Nat.le_refl (n + 1))) symb body cls0 n (n + 1) (by omega) b st
  rcases l1 with l1 | l1
  · rcases l2 with l2 | l2
    · exact l2.trans (l1.symm.trans h1)
    · exact l2.trans h2
  · exact l1.symm.trans h1

/-- The loop runs the body with the new bindings and goes on if the result is a tail call of the
function. -/
theorem loopSem_eq (symb body cls0 b : Val) :
    loopSem symb body cls0 b = (do
      let cls1 ← M.lift (merge cls0 b)
      let res ← progV sem cls1 body nil
      let again ← M.lift (isSelfTail symb res)
      if again then loopSem symb body cls0 res.cdr else pure res) := by
  apply Lim.unique ((lim_tailLoop symb body cls0 b).shift 1)
  simp only [tailLoop]
  refine Lim.bind (Lim.const _) fun cls1 => Lim.bind ((lim_progV _ _ _).shift 1) fun res =>
    Lim.bind (Lim.const _) fun again => Lim.ite (lim_tailLoop' _ _ _ _) (Lim.const _)

theorem lim_condV (c cell e : Val) :
    Lim (fun n => condV (evalN n) c cell e) (condV sem c cell e) := by
  induction e with
  | pair tc a d _ ihd =>
    cases a with
    | pair tc' args prog =>
      simp only [condV]
      exact Lim.ite (lim_evalN _ _) (Lim.bind (lim_evalN _ _) fun r => Lim.ite (lim_evalN _ _) ihd)
    | _ => exact Lim.const _
  | _ => exact Lim.const _

theorem lim_matchV (c any e : Val) :
    Lim (fun n => matchV (evalN n) c any e) (matchV sem c any e) := by
  induction e with
  | pair tc a d _ ihd =>
    cases a with
    | pair tc' args prog =>
      simp only [matchV]
      exact Lim.ite (lim_evalN _ _) ihd
    | _ => exact Lim.const _
  | _ => exact Lim.const _

theorem lim_listV (c e : Val) : Lim (fun n => listV (evalN n) c e) (listV sem c e) := by
  induction e with
  | pair tc a d _ ihd => exact Lim.bind ihd fun r => Lim.bind (lim_evalN _ _) fun x => Lim.const _
  | _ => exact Lim.const _

theorem lim_streamV (c any e : Val) :
    Lim (fun n => streamV (evalN n) c any e) (streamV sem c any e) := by
  induction any generalizing e with
  | nil => exact lim_evalN _ _
  | pair tc a d _ ihd => exact Lim.bind (lim_evalN _ _) fun r => ihd _
  | _ => exact Lim.bind (lim_evalN _ _) fun r => lim_evalN _ _

theorem lim_letBind (c cell env : Val) :
    Lim (fun n => letBind (evalN n) c cell env) (letBind sem c cell env) := by
  induction cell generalizing env with
  | pair tc a d _ ihd =>
    simp only [letBind]
    exact Lim.ite (Lim.bind (Lim.const _) fun tmp => Lim.bind (lim_evalN _ _) fun val =>
      Lim.bind (Lim.const _) fun val' => ihd _) (Lim.const _)
  | _ => exact Lim.const _

theorem lim_letV (c cell : Val) : Lim (fun n => letV (evalN n) c cell) (letV sem c cell) := by
  simp only [letV]
  exact Lim.bind (lim_letBind _ _ _) fun next => Lim.bind (Lim.const _) fun clos => lim_progV _ _ _

/-- The meaning of the loop of `while`. -/
noncomputable def whileSem (c cnd prg r : Val) : M Val :=
  limM (fun n => whileV (evalN n) c cnd prg n r)

theorem lim_whileV (c cnd prg r : Val) :
    Lim (fun n => whileV (evalN n) c cnd prg n r) (whileSem c cnd prg r) :=
  lim_limM (fun _ _ h => le_whileV (evalN_le h) _ _ _ _ _ h _)

theorem lim_whileV' (c cnd prg r : Val) :
    Lim (fun n => whileV (evalN (n + 1)) c cnd prg n r) (whileSem c cnd prg r) := by
  intro st
  obtain ⟨N, hN⟩ := lim_whileV c cnd prg r st
  refine ⟨N, fun n hn => ?_⟩
  have h1 := hN n hn
  have h2 := hN (n + 1) (by omega)
  have l1 := le_whileV (evalN_le (Nat.le_succ n)) c cnd prg n n (Nat.le_refl n) r st
  have l2 := le_whileV (evalN_le (Nat.le_refl (n + 1))) c cnd prg n (n + 1) (by omega) r st
  rcases l1 with l1 | l1
  · rcases l2 with l2 | l2
    · exact l2.trans (l1.symm.trans h1)
    · exact l2.trans h2
  · exact l1.symm.trans h1

theorem whileSem_eq (c cnd prg r : Val) :
    whileSem c cnd prg r = (do
      let x ← sem c cnd
      if x.isNil then pure r
      else do
        let r' ← progV sem c prg nil
        whileSem c cnd prg r') := by
  apply Lim.unique ((lim_whileV c cnd prg r).shift 1)
  simp only [whileV]
  exact Lim.bind ((lim_evalN _ _).shift 1) fun x => Lim.ite (Lim.const _)
    (Lim.bind ((lim_progV _ _ _).shift 1) fun r' => lim_whileV' _ _ _ _)

theorem lim_prinAll (c : Val) (s : Bool) (e r : Val) :
    Lim (fun n => prinAll (evalN n) c s e r) (prinAll sem c s e r) := by
  induction e generalizing r with
  | nil => exact Lim.const _
  | pair tc a d _ ihd =>
    exact Lim.bind (lim_evalN _ _) fun car => Lim.bind (Lim.const _) fun _ =>
      Lim.bind (Lim.const _) fun _ => ihd _
  | _ => exact Lim.bind (lim_evalN _ _) fun car => Lim.const _

/-- The natives with unevaluated arguments, without fuel. -/
noncomputable def semAny (op : Native) (full c any : Val) : M Val :=
  match op with
  | .while_ => whileSem c any.car any.cdr nil
  | op => nativeAny 0 sem op full c any

theorem lim_nativeAny (op : Native) (full c any : Val) :
    Lim (fun n => nativeAny n (evalN n) op full c any) (semAny op full c any) := by
  cases op <;> simp only [nativeAny, semAny]
  case cond => exact lim_condV _ _ _
  case let_ => exact lim_letV _ _
  case list => exact lim_listV _ _
  case match_ => exact Lim.bind (lim_evalN _ _) fun _ => lim_matchV _ _ _
  case prog => exact lim_progV _ _ _
  case set => exact Lim.bind (lim_evalN _ _) fun _ => Lim.bind (lim_evalN _ _) fun _ => Lim.const _
  case setq => exact Lim.bind (lim_evalN _ _) fun _ => Lim.const _
  case stream => exact lim_streamV _ _ _
  case while_ => exact lim_whileV _ _ _ _
  case or =>
    exact Lim.bind (lim_evalN _ _) fun _ => Lim.ite (Lim.const _)
      (Lim.bind (lim_evalN _ _) fun _ => Lim.const _)
  case prin => exact lim_prinAll _ _ _ _
  case prinl => exact Lim.bind (lim_prinAll _ _ _ _) fun _ => Lim.const _
  case print => exact lim_prinAll _ _ _ _
  case printl => exact Lim.bind (lim_prinAll _ _ _ _) fun _ => Lim.const _
  all_goals exact Lim.const _

theorem lim_nativeRem (op : Native) (c cnd rem : Val) :
    Lim (fun n => nativeRem (evalN n) op c cnd rem) (nativeRem sem op c cnd rem) := by
  cases op <;> simp only [nativeRem]
  case if_ => exact Lim.ite (lim_evalN _ _) (lim_evalN _ _)
  case when_ => exact Lim.ite (lim_progV _ _ _) (Lim.const _)
  case unless_ => exact Lim.ite (lim_progV _ _ _) (Lim.const _)
  all_goals exact Lim.const _

/-- The call of a native, without fuel. -/
noncomputable def semNative (op : Native) (closure : Val) : M Val :=
  match op.shape with
  | .one => do
    let (x, c) ← M.lift (popArg closure)
    if op = .eval then sem c x else M.lift (unary op x)
  | .two => do
    let (y, c) ← M.lift (popArg closure)
    let (x, _) ← M.lift (popArg c)
    M.lift (binary op x y)
  | .any => do
    let (any, c) ← M.lift (popArg closure)
    semAny op closure c any
  | .rem => do
    let (rem, c) ← M.lift (popArg closure)
    let (cnd, c) ← M.lift (popArg c)
    nativeRem sem op c cnd rem
  | .none => M.unsupported

theorem lim_callNative (op : Native) (c : Val) :
    Lim (fun n => callNative n (evalN n) op c) (semNative op c) := by
  simp only [callNative, semNative]
  cases op.shape with
  | one => exact Lim.bind (Lim.const _) fun p => Lim.ite (lim_evalN _ _) (Lim.const _)
  | two => exact Lim.const _
  | any => exact Lim.bind (Lim.const _) fun p => lim_nativeAny _ _ _ _
  | rem => exact Lim.bind (Lim.const _) fun p => Lim.bind (Lim.const _) fun q =>
      lim_nativeRem _ _ _ _
  | none => exact Lim.const _

/-- `lisp_eval_func` without fuel. -/
noncomputable def semFunc (closure symb func vals : Val) : M Val :=
  let args := func.car
  if !mayApply args vals then pure nil
  else do
    let dscl := func.cdr.car
    let body := func.cdr.cdr
    let (bscl, narg) ← evalArgs sem closure args nil vals
    if narg.isNil then
      match body with
      | num a =>
        let clos := if dscl.isNil then bscl else conc bscl dscl
        match nativeOfAddr a with
        | some op => semNative op (conc clos closure)
        | none => M.ub .badCall
      | _ =>
        if symb.isTailCall then pure (pair true symb bscl)
        else do
          let cls0 ← M.lift (merge closure dscl)
          loopSem symb body cls0 bscl
    else pure (cons narg (cons (conc bscl dscl) body))

theorem lim_evalFunc (c symb func vals : Val) :
    Lim (fun n => evalFunc n (evalN n) c symb func vals) (semFunc c symb func vals) := by
  simp only [evalFunc, semFunc]
  refine Lim.ite (Lim.const _) (Lim.bind (lim_evalArgs _ _ _ _) fun p => ?_)
  refine Lim.ite ?_ (Lim.const _)
  generalize func.cdr.cdr = body
  cases body with
  | num a =>
    dsimp only
    cases nativeOfAddr a with
    | some op => exact lim_callNative _ _
    | none => exact Lim.const _
  | _ => exact Lim.ite (Lim.const _) (Lim.bind (Lim.const _) fun cls0 => lim_tailLoop _ _ _ _)

/-- Evaluation of a pair: evaluate the head, call it if it is a function. -/
theorem sem_pair (c : Val) (tc : Bool) (car cdr : Val) :
    sem c (pair tc car cdr) = (do
      let nxt ← sem c car
      if nxt.isFunc then semFunc c car nxt cdr
      else if equ car nxt then pure (cons nxt cdr)
      else if nxt.isSym || nxt.isPair then sem c (cons nxt cdr)
      else pure (cons nxt cdr)) := by
  apply Lim.unique ((lim_evalN c (pair tc car cdr)).shift 1)
  have : ∀ n, evalN (n + 1) c (pair tc car cdr) = evalPair n (evalN n) c car cdr := fun _ => rfl
  simp only [this, evalPair]
  exact Lim.bind (lim_evalN _ _) fun nxt => Lim.ite (lim_evalFunc _ _ _ _)
    (Lim.ite (Lim.const _) (Lim.ite (lim_evalN _ _) (Lim.const _)))

/-- Evaluation of a symbol is lookup. -/
theorem sem_sym (c : Val) (tc : Bool) (s : Sym) : sem c (sym tc s) = lookup c s := by
  apply Lim.unique ((lim_evalN c (sym tc s)).shift 1)
  exact Lim.const _

/-- Other atoms evaluate to themselves. -/
theorem sem_atom (c v : Val) (h1 : v.isSym = false) (h2 : v.isPair = false) :
    sem c v = pure v := by
  apply Lim.unique ((lim_evalN c v).shift 1)
  cases v <;> simp [isSym, isPair] at h1 h2 <;> exact Lim.const _

end Mnml
