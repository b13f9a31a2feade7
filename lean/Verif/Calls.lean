import Verif.EvalSem
import Verif.Dsl

/-!
# Calls of natives

Equations for the meaning of calls whose head is a name that resolves to a native.
-/

namespace Mnml

open Val

/-- In environment `c` and state `st`, the name `s` stands for the value `v`. -/
def Resolves (c : Val) (st : St) (s : Sym) (v : Val) : Prop := lookup c s st = .ok (v, st)

theorem M.bind_congr_ok {α β : Type} {x : M α} {f : α → M β} {st : St} {a : α} {st' : St}
    (h : x st = .ok (a, st')) : (x >>= f) st = f a st' := by
  simp [h]

@[simp] theorem M.pure_bind {α β : Type} (a : α) (f : α → M β) :
    ((Pure.pure a : M α) >>= f) = f a := rfl

@[simp] theorem M.bind_pure {α : Type} (x : M α) : (x >>= fun a => (Pure.pure a : M α)) = x := by
  funext st
  simp only [M.bind_apply, M.pure_apply]
  cases x st <;> rfl

@[simp] theorem M.bind_assoc {α β γ : Type} (x : M α) (f : α → M β) (g : β → M γ) :
    (x >>= f) >>= g = x >>= fun a => f a >>= g := by
  funext st
  simp only [M.bind_apply]
  cases x st <;> rfl

@[simp] theorem M.lift_ok {α : Type} (a : α) : M.lift (.ok a) = (Pure.pure a : M α) := rfl
@[simp] theorem M.lift_ub {α : Type} (u : UB) : (M.lift (.ub u) : M α) = M.ub u := rfl
@[simp] theorem M.ub_bind {α β : Type} (u : UB) (f : α → M β) : ((M.ub u : M α) >>= f) = M.ub u := rfl

theorem M.bind_congr {α β : Type} {x : M α} {f g : α → M β} (h : ∀ a, f a = g a) :
    (x >>= f) = (x >>= g) := by
  have : f = g := funext h
  rw [this]

theorem M.bind_ext {α β : Type} {x : M α} {f g : α → M β} {st : St} (h : ∀ a, f a = g a) :
    (x >>= f) st = (x >>= g) st := by
  rw [M.bind_congr h]

theorem M.bind_congr_left {α β : Type} {x y : M α} {f : α → M β} {st : St} (h : x st = y st) :
    (x >>= f) st = (y >>= f) st := by
  rw [M.bind_apply, h]; rfl

theorem car_pair (t : Bool) (a d : Val) : (pair t a d).car = a := rfl
theorem cdr_pair (t : Bool) (a d : Val) : (pair t a d).cdr = d := rfl
theorem isNil_pair (t : Bool) (a d : Val) : (pair t a d).isNil = false := rfl

theorem nativeOfAddr_addr (op : Native) : nativeOfAddr op.addr = some op := by
  cases op <;> decide

theorem Native.isFunc_val (op : Native) : op.val.isFunc = true := by
  cases op <;> decide

/-- A call whose head is a name bound to a function. -/
theorem sem_call {c : Val} {st : St} {tc f : Bool} {s : Sym} {fv vals : Val}
    (h : Resolves c st s fv) (hf : fv.isFunc = true) :
    sem c (pair tc (sym f s) vals) st = semFunc c (sym f s) fv vals st := by
  rw [sem_pair, sem_sym, M.bind_congr_ok h, if_pos hf]

theorem conc_cons_nil (a c : Val) : conc (cons a nil) c = cons a c := rfl

/-- A native that takes its arguments unevaluated. -/
theorem sem_any {c : Val} {st : St} {tc f : Bool} {s : Sym} {op : Native} (vals : Val)
    (h : Resolves c st s op.val) (hs : op.shape = .any) :
    sem c (pair tc (sym f s) vals) st =
      semAny op (cons (cons (ofSym aANY) vals) c) c vals st := by
  rw [sem_call h op.isFunc_val]
  simp only [semFunc, Native.val, car, cdr, Native.args, hs, mayApply, evalArgs, Val.bind,
    M.pure_bind, isNil, nativeOfAddr_addr, conc_cons_nil, semNative, popArg, M.lift_ok,
    Bool.not_true, Bool.false_eq_true, if_false, if_true]

/-- A native with one evaluated argument. -/
theorem sem_one {c : Val} {st : St} {tc f : Bool} {s : Sym} {op : Native} (t1 : Bool) (x : Val)
    (h : Resolves c st s op.val) (hs : op.shape = .one) :
    sem c (pair tc (sym f s) (pair t1 x nil)) st =
      (do let v ← sem c x; if op = Native.eval then sem c v else M.lift (unary op v)) st := by
  rw [sem_call h op.isFunc_val]
  simp only [semFunc, Native.val, car, cdr, Native.args, hs, mayApply, evalArgs, Val.bind, ofList,
    M.pure_bind, isNil, nativeOfAddr_addr, conc_cons_nil, semNative, popArg, M.lift_ok,
    Bool.not_true, Bool.false_eq_true, if_false, if_true, M.bind_assoc]

/-- A native with two evaluated arguments. -/
theorem sem_two {c : Val} {st : St} {tc f : Bool} {s : Sym} {op : Native} (t1 t2 : Bool) (x y : Val)
    (h : Resolves c st s op.val) (hs : op.shape = .two) :
    sem c (pair tc (sym f s) (pair t1 x (pair t2 y nil))) st =
      (do let a ← sem c x; let b ← sem c y; M.lift (binary op a b)) st := by
  rw [sem_call h op.isFunc_val]
  simp only [semFunc, Native.val, car, cdr, Native.args, hs, mayApply, evalArgs, Val.bind, ofList,
    M.pure_bind, isNil, nativeOfAddr_addr, conc, isPair, semNative, popArg, M.lift_ok,
    Bool.not_true, Bool.false_eq_true, if_false, if_true, M.bind_assoc]

/-- A native with one evaluated argument and the rest unevaluated. -/
theorem sem_rem {c : Val} {st : St} {tc f : Bool} {s : Sym} {op : Native} (t1 : Bool) (x r : Val)
    (h : Resolves c st s op.val) (hs : op.shape = .rem) :
    sem c (pair tc (sym f s) (pair t1 x r)) st =
      (do let v ← sem c x; nativeRem sem op c v r) st := by
  rw [sem_call h op.isFunc_val]
  have hop : op.args = Val.cons (ofSym aCHAN) (ofSym aREM) ∨
      op.args = Val.cons (ofSym aCOND) (ofSym aREM) := by
    cases op <;> simp [Native.shape] at hs <;> decide
  have hb : ∀ k : Sym, op.args = Val.cons (ofSym k) (ofSym aREM) →
      semFunc c (sym f s) op.val (pair t1 x r) =
        (do let v ← sem c x; nativeRem sem op c v r) := by
    intro k hk
    simp only [semFunc, Native.val, car, cdr, hk, hs, mayApply, evalArgs, Val.bind,
      M.pure_bind, isNil, nativeOfAddr_addr, conc, isPair, semNative, popArg, M.lift_ok,
      Bool.not_true, Bool.false_eq_true, if_false, if_true, M.bind_assoc]
  rcases hop with hop | hop <;> rw [hb _ hop]

/-- Evaluation of expressions from left to right. -/
def evalSeq (ev : Ev) (c : Val) : List Val → M (List Val)
  | [] => pure []
  | e :: es => do
    let v ← ev c e
    let vs ← evalSeq ev c es
    pure (v :: vs)

end Mnml
