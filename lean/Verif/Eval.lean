import Verif.Env
import Verif.Str
import Verif.Print
import Verif.Tails

/-!
# The evaluator

Models `lib/core/eval.c`, `lisp_lookup`, `lisp_setq`, `lisp_prog` of `lib/core/lisp.c` and the native
functions of `lib/mnml/std`, `lib/mnml/logic`, `lib/mnml/math` and the output functions of
`lib/mnml/io` on tree values.

The C functions recurse through `lisp_eval`; here every function takes the evaluator `ev` to use
for nested evaluations, and `evalN (n+1)` uses `evalN n`, so `n` bounds the nesting depth of
`lisp_eval` (and the number of iterations of the two C loops). Running out is the separate outcome
`oof`; results do not depend on `n` otherwise (`Verif.EvalMono`).

Simplifications with respect to the C code, beyond those of `Verif.Val` and `Verif.Tails`:
* values are immutable trees. `<-` on a *local* variable (which mutates a binding shared by
  all environments that contain it) is `unsupported` here; `conc` and the marking of tail calls change
  only the value at hand, not other values that share cells with it (`Verif.PropRefine` compares this with
  the cell level, where they do);
* the global table is a map from names to values (justified by `Verif.PropTree`);
* the symbol cache of `lisp_lookup` is left out (justified by the cache theorems, C12);
* output goes to a single byte sequence; `in`, `out`, `load`, `read`, `readline`, `quit` are
  `unsupported` (channels are modelled in `Verif.Chan`).
-/

namespace Mnml

open Val

/-- The part of the interpreter state (`struct lisp`, `include/mnml/lisp.h:28-39`) that evaluation on
tree values depends on. -/
structure St where
  globals : Sym → Option Val
  out : List UInt8

/-- State-passing computations. -/
def M (α : Type) : Type := St → Res (α × St)

namespace M
/-- Return without effect. -/
def pure {α : Type} (a : α) : M α := fun st => .ok (a, st)
/-- Sequencing. -/
def bind {α β : Type} (x : M α) (f : α → M β) : M β := fun st => x st >>= fun p => f p.1 p.2
instance : Monad M where
  pure := pure
  bind := bind
/-- A computation that does not look at the state. -/
def lift {α : Type} (r : Res α) : M α := fun st => r >>= fun a => .ok (a, st)
/-- Out of fuel. -/
def oof {α : Type} : M α := fun _ => .oof
/-- Outside of the model. -/
def unsupported {α : Type} : M α := fun _ => .unsupported
/-- Undefined behaviour. -/
def ub {α : Type} (u : UB) : M α := fun _ => .ub u

@[simp] theorem pure_apply {α : Type} (a : α) (st : St) : (Pure.pure a : M α) st = .ok (a, st) := rfl
@[simp] theorem bind_apply {α β : Type} (x : M α) (f : α → M β) (st : St) :
    (x >>= f) st = (x st >>= fun p => f p.1 p.2) := rfl
@[simp] theorem lift_apply {α : Type} (r : Res α) (st : St) :
    (lift r) st = (r >>= fun a => .ok (a, st)) := rfl
@[simp] theorem oof_apply {α : Type} (st : St) : (oof : M α) st = .oof := rfl
@[simp] theorem unsupported_apply {α : Type} (st : St) : (unsupported : M α) st = .unsupported := rfl
@[simp] theorem ub_apply {α : Type} (u : UB) (st : St) : (ub u : M α) st = .ub u := rfl
end M

/-- The type of `lisp_eval`: environment, expression. -/
abbrev Ev := Val → Val → M Val

/-- `lisp_lookup` (`lib/core/lisp.c:91-131`) without the cache: the local environment, then the global
table, then NIL. -/
def lookup (closure : Val) (s : Sym) : M Val := fun st => do
  match ← assq closure s with
  | some v => .ok (v, st)
  | none => .ok ((st.globals s).getD nil, st)

/-- Store in the global table. -/
def setGlobal (s : Sym) (v : Val) : M Unit := fun st =>
  .ok ((), { st with globals := fun t => if t = s then some v else st.globals t })

/-- `lisp_setq` (`lib/core/lisp.c:212-226`) on the global table with `pair = (K . V)`: ignored unless
`K` is a symbol. -/
def setq (k v : Val) : M Unit :=
  match k with
  | sym _ s => setGlobal s v
  | _ => pure ()

/-- Append to the output. -/
def emit (bytes : List UInt8) : M Unit := fun st => .ok ((), { st with out := st.out ++ bytes })

/-- `lisp_prin` (`lib/core/print.c:130-137`) to the current output. -/
def prinM (v : Val) (s : Bool) : M Unit := do
  let bytes ← M.lift (Print.prin v s)
  emit bytes

/-- `lisp_prog` (`lib/core/lisp.c:232-251`). -/
def progV (ev : Ev) (closure : Val) : Val → Val → M Val
  | pair _ a d, _ => do
    let r ← ev closure a
    progV ev closure d r
  | _, result => pure result

/-- `lisp_eval_args` (`lib/core/eval.c:14-74`): returns the bindings and the remaining arguments. -/
def evalArgs (ev : Ev) (closure : Val) : Val → Val → Val → M (Val × Val)
  | nil, acc, _ => pure (acc, nil)
  | sym tc s, acc, vals => pure (Val.bind acc (sym tc s) vals, nil)
  | pair tc arg oth, acc, vals =>
    if vals.isNil then pure (acc, pair tc arg oth)
    else do
      let val ← ev closure vals.car
      evalArgs ev closure oth (Val.bind acc arg val) vals.cdr
  | a, acc, vals =>
    if vals.isNil then pure (acc, a)
    else do
      let _ ← ev closure vals.car
      pure (acc, nil)

/-- Is `res` the tail call of the function called as `symb` (`lib/core/eval.c:174`)? The head of a
flagged symbol cell would be read through its payload. -/
def isSelfTail (symb res : Val) : Res Bool :=
  match res with
  | pair true a _ =>
    match symb.tag with
    | some t => .ok (a.symIs t)
    | none => .ok false
  | sym true _ => .ub .badPointer
  | _ => .ok false

/-- The loop of `lisp_eval_func` (`lib/core/eval.c:161-184`). -/
def tailLoop (ev : Ev) (symb body cls0 : Val) : Nat → Val → M Val
  | 0, _ => M.oof
  | k + 1, bscl => do
    let cls1 ← M.lift (merge cls0 bscl)
    let res ← progV ev cls1 body nil
    let again ← M.lift (isSelfTail symb res)
    if again then tailLoop ev symb body cls0 k res.cdr
    else pure res

/-- The native functions of the modelled modules: `lib/mnml/std/lib.c:3-36`, `lib/mnml/logic/lib.c:3-7`,
`lib/mnml/math/lib.c:3-11`, `lib/mnml/io/lib.c:3-10`. -/
inductive Native where
  | car | cdr | chr | conc | cond | cons | def_ | eval | if_ | isatm | ischr | islst | isnil | isnum
  | isstr | issym | istru | lambda | len | let_ | list | load | match_ | prog | quit | quote | set
  | setq | str | stream | sym | unless_ | when_ | while_
  | and | equ | neq | not | or
  | add | div | ge | gt | le | lt | mod | mul | sub
  | in_ | out | prin | prinl | print | printl | read | readline
deriving DecidableEq, Repr

/-- Pop one argument of a native (`LISP_ARGS`, `include/mnml/module.h:153-181`): the value of the first
binding and the rest of the closure. -/
def popArg (closure : Val) : Res (Val × Val) :=
  match closure with
  | pair _ (pair _ _ v) rest => .ok (v, rest)
  | _ => .ub .badPointer

/-- Truth values made by the natives. -/
def ofBool (b : Bool) : Val := if b then tru else nil

/-- An arithmetic result: undefined unless it fits. -/
def arith (n : Int) : Res Val := if inI64 n then .ok (num n) else .ub .overflow

/-- `lisp_cond` (`lib/mnml/std/cond.c:5-54`). -/
def condV (ev : Ev) (closure cell : Val) : Val → M Val
  | pair _ (pair _ args prog) cdr =>
    if args.isWild then ev closure prog
    else do
      let res ← ev closure (cons args (cons cell nil))
      if res.isTrue then ev closure prog
      else condV ev closure cell cdr
  | _ => pure nil

/-- `lisp_match` (`lib/mnml/std/match.c:27-61`). -/
def matchV (ev : Ev) (closure any : Val) : Val → M Val
  | pair _ (pair _ args prog) cdr =>
    if atomMatch args any then ev closure prog
    else matchV ev closure any cdr
  | _ => pure nil

/-- `lisp_list` (`lib/mnml/std/list.c:6-28`): the elements are evaluated from the last to the first. -/
def listV (ev : Ev) (closure : Val) : Val → M Val
  | pair _ car cdr => do
    let res ← listV ev closure cdr
    let evl ← ev closure car
    pure (cons evl res)
  | v => pure v

/-- `lisp_stream` (`lib/mnml/std/stream.c:6-37`). -/
def streamV (ev : Ev) (closure : Val) : Val → Val → M Val
  | nil, expr => ev closure expr
  | pair _ f rest, expr => do
    let res ← ev closure expr
    streamV ev closure rest (cons f (cons (cons (ofSym sQuote) res) nil))
  | _, expr => do
    let res ← ev closure expr
    ev closure (cons nil (cons (cons (ofSym sQuote) res) nil))

/-- Mark the tail calls of a let-bound function (`lib/mnml/std/let.c:46-68`): only if the name is not
already in the environment in which the value was evaluated. -/
def letMark (tmp arg val : Val) : Res Val :=
  match arg, val with
  | sym _ s, pair t1 args (pair t2 clos body) =>
    if isFunc (pair t1 args (pair t2 clos body)) then do
      match ← assq tmp s with
      | some _ => .ok val
      | none => do
        let body' ← markBody s args body
        .ok (pair t1 args (pair t2 clos body'))
    else .ok val
  | _, _ => .ok val

/-- `lisp_let_bind` (`lib/mnml/std/let.c:7-74`). -/
def letBind (ev : Ev) (closure : Val) : Val → Val → M Val
  | pair _ car cdr, env =>
    if car.isPair then do
      let tmp ← M.lift (merge closure env)
      let val ← ev tmp car.cdr
      let val' ← M.lift (letMark tmp car.car val)
      letBind ev closure cdr (Val.bind env car.car val')
    else pure env
  | _, env => pure env

/-- `lisp_let` (`lib/mnml/std/let.c:76-100`). -/
def letV (ev : Ev) (closure cell : Val) : M Val := do
  let next ← letBind ev closure cell.car nil
  let clos ← M.lift (merge closure next)
  progV ev clos cell.cdr nil

/-- The loop of `while` (`lib/mnml/std/while.c:27-31`). -/
def whileV (ev : Ev) (closure cnd prg : Val) : Nat → Val → M Val
  | 0, _ => M.oof
  | k + 1, res => do
    let c ← ev closure cnd
    if c.isNil then pure res
    else do
      let r ← progV ev closure prg nil
      whileV ev closure cnd prg k r

/-- The space written between values by `print` (`lib/mnml/io/print.c:28-30`). -/
def sepM (b : Bool) : M Unit := if b then emit [32] else pure ()

/-- `lisp_prin_all`, `lisp_print_all` (`lib/mnml/io/prin.c:5-28`, `print.c:6-32`, the same code in
`prinl.c` and `printl.c`): `s` selects the format, and `print`/`printl` put a space between values. -/
def prinAll (ev : Ev) (closure : Val) (s : Bool) : Val → Val → M Val
  | nil, result => pure result
  | pair _ a d, _ => do
    let car ← ev closure a
    prinM car s
    sepM (s && !d.isNil)
    prinAll ev closure s d car
  | _, _ => do
    let car ← ev closure nil
    prinM car s
    pure car

/-- The native `def` (`lib/mnml/std/def.c:6-56`). -/
def defV (any : Val) : M Val :=
  let symb := any.car
  match symb with
  | sym _ s =>
    let args := any.cdr.car
    if args.isNil || args.isPair || args.isSym then
      let prog0 := any.cdr.cdr
      let doc := prog0.car
      let prog := if doc.isPair && doc.car.isChr then prog0.cdr else prog0
      do
        let body ← M.lift (markBody s args prog)
        setq symb (cons args (cons nil body))
        pure symb
    else pure nil
  | _ => pure nil

/-- The native `<-` (`lib/mnml/std/set.c:6-51`). Updating a local binding is not modelled here. For a
global variable the result is the entry `(S . OLD)` (`lisp_tree_upd`, `lib/core/tree.c:400-406`). -/
def setV (ev : Ev) (closure any : Val) : M Val := do
  let symb ← ev closure any.car
  let val ← ev closure any.cdr.car
  match symb with
  | sym _ s => do
    match ← M.lift (assq closure s) with
    | some _ => M.unsupported
    | none => fun st =>
      match st.globals s with
      | some old => do
        let (_, st') ← setGlobal s val st
        .ok (cons symb old, st')
      | none => .ok (nil, st)
  | _ => pure nil

/-- The native `setq` (`lib/mnml/std/setq.c:5-29`). -/
def setqV (ev : Ev) (closure any : Val) : M Val := do
  let res ← ev closure any.cdr.car
  if res.isNil then pure res
  else do
    setq any.car res
    pure res

/-- The native `or` (`lib/mnml/logic/or.c:5-38`). -/
def orV (ev : Ev) (closure any : Val) : M Val := do
  let ra0 ← ev closure any.car
  if !ra0.isNil then pure tru
  else do
    let ra1 ← ev closure any.cdr.car
    if ra1.isNil then pure ra1 else pure tru

/-- `+ - * / %` (`BINARY_NUMBER_GEN`, `include/mnml/module.h:202-207`, `lib/mnml/math/*.c`): C arithmetic
on `int64_t`; overflow, division by zero and `INT64_MIN / -1` are undefined. -/
def mathV (op : Native) (x y : Val) : Res Val := do
  let a ← x.number
  let b ← y.number
  match op with
  | .add => arith (a + b)
  | .sub => arith (a - b)
  | .mul => arith (a * b)
  | .div => if b = 0 then .ub .divZero else arith (a.tdiv b)
  | .mod => if b = 0 then .ub .divZero
            else if inI64 (a.tdiv b) then arith (a.tmod b) else .ub .overflow
  | _ => .unsupported

/-- `< <= > >=` (`BINARY_COMPARE_GEN`, `include/mnml/module.h:209-214`, `lib/mnml/math/{lt,le,gt,ge}.c`). -/
def compareV (op : Native) (x y : Val) : Res Val := do
  let a ← x.number
  let b ← y.number
  match op with
  | .lt => .ok (ofBool (decide (a < b)))
  | .le => .ok (ofBool (decide (a ≤ b)))
  | .gt => .ok (ofBool (decide (a > b)))
  | .ge => .ok (ofBool (decide (a ≥ b)))
  | _ => .unsupported

/-- A native with one argument `X` and no evaluation (`PREDICATE_GEN` in `include/mnml/module.h:187-192`;
`car.c:5-10`, `cdr.c:5-10`, `len.c:7-15`, `lib/mnml/logic/not.c:5-10`, `str.c`, `sym.c`, `chr.c`). -/
def unary (op : Native) (x : Val) : Res Val :=
  match op with
  | .car => .ok x.car
  | .cdr => .ok x.cdr
  | .chr => natChr x
  | .len => .ok (if x.isList then num x.len else nil)
  | .isatm => .ok (ofBool x.isAtom)
  | .ischr => .ok (ofBool x.isChr)
  | .islst => .ok (ofBool x.isList)
  | .isnil => .ok (ofBool x.isNil)
  | .isnum => .ok (ofBool x.isNum)
  | .isstr => .ok (ofBool x.isString)
  | .issym => .ok (ofBool x.isSym)
  | .istru => .ok (ofBool x.isTrue)
  | .not => .ok (ofBool x.isNil)
  | .str => natStr x
  | .sym => natSym x
  | _ => .unsupported

/-- A native with two arguments `X Y` and no evaluation (`cons.c:5-10`, `conc.c:5-10`, `lib/mnml/logic/equ.c:6-11`,
`lib/mnml/logic/neq.c:5-10`, `BINARY_BOOLEAN_GEN` in `module.h:194-200` for `and`, arithmetic and comparisons). -/
def binary (op : Native) (x y : Val) : Res Val :=
  match op with
  | .cons => .ok (cons x y)
  | .conc => .ok (conc x y)
  | .equ => .ok (ofBool (equ x y))
  | .neq => .ok (ofBool (neq x y))
  | .and => .ok (ofBool (!x.isNil && !y.isNil))
  | .add | .sub | .mul | .div | .mod => mathV op x y
  | .lt | .le | .gt | .ge => compareV op x y
  | _ => .unsupported

/-- How a native takes its arguments (`LISP_MODULE_SETUP` in each file). -/
inductive Shape where
  /-- `X, NIL`: one evaluated argument -/
  | one
  /-- `X, Y, NIL`: two evaluated arguments -/
  | two
  /-- `ANY`: all arguments, unevaluated -/
  | any
  /-- `COND, REM`: one evaluated argument and the rest unevaluated -/
  | rem
  /-- no argument list given: a catch-all with an empty name -/
  | none
deriving DecidableEq

/-- The shape of each native. -/
def Native.shape : Native → Shape
  | .car | .cdr | .chr | .eval | .isatm | .ischr | .islst | .isnil | .isnum | .isstr | .issym
  | .istru | .len | .str | .sym | .not => .one
  | .conc | .cons | .and | .equ | .neq | .add | .div | .ge | .gt | .le | .lt | .mod | .mul
  | .sub => .two
  | .cond | .def_ | .lambda | .let_ | .list | .load | .match_ | .prog | .quote | .set | .setq
  | .stream | .while_ | .or | .prin | .prinl | .print | .printl => .any
  | .if_ | .unless_ | .when_ | .in_ | .out => .rem
  | .quit | .read | .readline => .none

/-- The natives that get all their arguments unevaluated, `any`; `full` is the closure including the
binding of `ANY` and `c` the closure after popping it. -/
def nativeAny (fuel : Nat) (ev : Ev) (op : Native) (full c any : Val) : M Val :=
  match op with
  | .cond => condV ev c any.car any.cdr
  | .def_ => defV any
  | .lambda => pure (cons any.car (cons c any.cdr))
  | .let_ => letV ev c any
  | .list => listV ev c any
  | .match_ => do
    -- `lib/mnml/std/match.c:63-70`: the subject is evaluated in the full closure
    let car ← ev full any.car
    matchV ev c car any.cdr
  | .prog => progV ev c any nil
  | .quote => pure any
  | .set => setV ev c any
  | .setq => setqV ev c any
  | .stream => streamV ev c any.cdr any.car
  | .while_ => whileV ev c any.car any.cdr fuel nil
  | .or => orV ev c any
  | .prin => prinAll ev c false any nil
  | .prinl => do
    let r ← prinAll ev c false any nil
    emit [10]
    pure r
  | .print => prinAll ev c true any nil
  | .printl => do
    let r ← prinAll ev c true any nil
    emit [10]
    pure r
  | _ => M.unsupported

/-- `if`, `when`, `unless` (`lib/mnml/std/{if,when,unless}.c`). -/
def nativeRem (ev : Ev) (op : Native) (c cnd rem : Val) : M Val :=
  match op with
  | .if_ => if cnd.isNil then ev c rem.cdr.car else ev c rem.car
  | .when_ => if !cnd.isNil then progV ev c rem nil else pure nil
  | .unless_ => if cnd.isNil then progV ev c rem nil else pure nil
  | _ => M.unsupported

/-- The call of a native with its closure: the arguments are the first bindings of the closure, the last
argument first (`LISP_ARGS`, `include/mnml/module.h:153-181`). -/
def callNative (fuel : Nat) (ev : Ev) (op : Native) (closure : Val) : M Val :=
  match op.shape with
  | .one => do
    let (x, c) ← M.lift (popArg closure)
    if op = .eval then ev c x else M.lift (unary op x)
  | .two => do
    let (y, c) ← M.lift (popArg closure)
    let (x, _) ← M.lift (popArg c)
    M.lift (binary op x y)
  | .any => do
    let (any, c) ← M.lift (popArg closure)
    nativeAny fuel ev op closure c any
  | .rem => do
    let (rem, c) ← M.lift (popArg closure)
    let (cnd, c) ← M.lift (popArg c)
    nativeRem ev op c cnd rem
  | .none => M.unsupported

/-- All natives of the model. -/
def Native.all : List Native :=
  [.car, .cdr, .chr, .conc, .cond, .cons, .def_, .eval, .if_, .isatm, .ischr, .islst, .isnil, .isnum,
   .isstr, .issym, .istru, .lambda, .len, .let_, .list, .load, .match_, .prog, .quit, .quote, .set,
   .setq, .str, .stream, .sym, .unless_, .when_, .while_,
   .and, .equ, .neq, .not, .or,
   .add, .div, .ge, .gt, .le, .lt, .mod, .mul, .sub,
   .in_, .out, .prin, .prinl, .print, .printl, .read, .readline]

/-- The address of the C function of a native (`LISP_MODULE_SETUP`, `include/mnml/module.h:111-130`).
Simplification: the linker's addresses are replaced by distinct small numbers. -/
def Native.addr (n : Native) : Int := 4096 + 16 * (n.ctorIdx : Int)

/-- The native at an address. -/
def nativeOfAddr (a : Int) : Option Native := Native.all.find? (fun n => n.addr = a)

/-- `lisp_eval_func` (`lib/core/eval.c:81-204`). -/
def evalFunc (fuel : Nat) (ev : Ev) (closure symb func vals : Val) : M Val :=
  let args := func.car
  if !mayApply args vals then pure nil
  else do
    let dscl := func.cdr.car
    let body := func.cdr.cdr
    let (bscl, narg) ← evalArgs ev closure args nil vals
    if narg.isNil then
      match body with
      | num a =>
        let clos := if dscl.isNil then bscl else conc bscl dscl
        match nativeOfAddr a with
        | some op => callNative fuel ev op (conc clos closure)
        | none => M.ub .badCall
      | _ =>
        if symb.isTailCall then pure (pair true symb bscl)
        else do
          let cls0 ← M.lift (merge closure dscl)
          tailLoop ev symb body cls0 fuel bscl
    else pure (cons narg (cons (conc bscl dscl) body))

/-- `lisp_eval_pair` (`lib/core/eval.c:210-254`). -/
def evalPair (fuel : Nat) (ev : Ev) (closure car cdr : Val) : M Val := do
  let nxt ← ev closure car
  if nxt.isFunc then evalFunc fuel ev closure car nxt cdr
  else if equ car nxt then pure (cons nxt cdr)
  else if nxt.isSym || nxt.isPair then ev closure (cons nxt cdr)
  else pure (cons nxt cdr)

/-- The body of `lisp_eval` (`lib/core/eval.c:260-286`), with `ev` for the nested calls. -/
def evalStep (fuel : Nat) (ev : Ev) : Ev := fun closure cell =>
  match cell with
  | pair _ car cdr => evalPair fuel ev closure car cdr
  | sym _ s => lookup closure s
  | v => pure v

/-- `lisp_eval` with at most `n` nested calls. -/
def evalN : Nat → Ev
  | 0 => fun _ _ => M.oof
  | n + 1 => evalStep n (evalN n)

/-- The name under which a native is registered (`LISP_MODULE_SETUP`, second argument). -/
def Native.name : Native → Sym
  | .car => symLit ['c', 'a', 'r'] | .cdr => symLit ['c', 'd', 'r'] | .chr => symLit ['c', 'h', 'r']
  | .conc => symLit ['c', 'o', 'n', 'c'] | .cond => sCond | .cons => symLit ['c', 'o', 'n', 's']
  | .def_ => symLit ['d', 'e', 'f'] | .eval => symLit ['e', 'v', 'a', 'l'] | .if_ => sIf
  | .isatm => symLit ['a', 't', 'm', '?'] | .ischr => symLit ['c', 'h', 'r', '?']
  | .islst => symLit ['l', 's', 't', '?'] | .isnil => symLit ['n', 'i', 'l', '?']
  | .isnum => symLit ['n', 'u', 'm', '?'] | .isstr => symLit ['s', 't', 'r', '?']
  | .issym => symLit ['s', 'y', 'm', '?'] | .istru => symLit ['t', 'r', 'u', '?']
  | .lambda => symLit ['\\'] | .len => symLit ['l', 'e', 'n'] | .let_ => symLit ['l', 'e', 't']
  | .list => symLit ['l', 'i', 's', 't'] | .load => symLit ['l', 'o', 'a', 'd'] | .match_ => sMatch
  | .prog => sProg | .quit => symLit ['q', 'u', 'i', 't'] | .quote => sQuote
  | .set => symLit ['<', '-'] | .setq => symLit ['s', 'e', 't', 'q'] | .str => symLit ['s', 't', 'r']
  | .stream => sStream | .sym => symLit ['s', 'y', 'm'] | .unless_ => sUnless | .when_ => sWhen
  | .while_ => symLit ['w', 'h', 'i', 'l', 'e']
  | .and => symLit ['a', 'n', 'd'] | .equ => symLit ['='] | .neq => symLit ['<', '>']
  | .not => symLit ['n', 'o', 't'] | .or => symLit ['o', 'r']
  | .add => symLit ['+'] | .div => symLit ['/'] | .ge => symLit ['>', '='] | .gt => symLit ['>']
  | .le => symLit ['<', '='] | .lt => symLit ['<'] | .mod => symLit ['%'] | .mul => symLit ['*']
  | .sub => symLit ['-']
  | .in_ => symLit ['i', 'n'] | .out => symLit ['o', 'u', 't'] | .prin => symLit ['p', 'r', 'i', 'n']
  | .prinl => symLit ['p', 'r', 'i', 'n', 'l'] | .print => symLit ['p', 'r', 'i', 'n', 't']
  | .printl => symLit ['p', 'r', 'i', 'n', 't', 'l'] | .read => symLit ['r', 'e', 'a', 'd']
  | .readline => symLit ['r', 'e', 'a', 'd', 'l', 'i', 'n', 'e']

/-- The argument names used by the natives. -/
def aX : Sym := symLit ['X']
def aY : Sym := symLit ['Y']
def aANY : Sym := symLit ['A', 'N', 'Y']
def aCOND : Sym := symLit ['C', 'O', 'N', 'D']
def aREM : Sym := symLit ['R', 'E', 'M']
def aCHAN : Sym := symLit ['C', 'H', 'A', 'N']

/-- The argument list of a native (`LISP_CONS`, `include/mnml/module.h:36-97`). -/
def Native.args (n : Native) : Val :=
  match n.shape with
  | .one => ofList [ofSym aX]
  | .two => ofList [ofSym aX, ofSym aY]
  | .any => ofSym aANY
  | .rem => if n = .in_ || n = .out then Val.cons (ofSym aCHAN) (ofSym aREM)
            else Val.cons (ofSym aCOND) (ofSym aREM)
  | .none => ofSym (symLit [])

/-- The value of a native: `(ARGS NIL . ADDRESS)` (`LISP_MODULE_SETUP`, `include/mnml/module.h:111-130`). -/
def Native.val (n : Native) : Val := Val.cons n.args (Val.cons nil (num n.addr))

/-- The global table after loading the modelled modules. -/
def initGlobals : Sym → Option Val := fun s =>
  (Native.all.find? (fun n => n.name = s)).map Native.val

/-- The initial state. -/
def initSt : St := ⟨initGlobals, []⟩

/-- Evaluate expressions one after the other at top level, as `lisp_load_file` does
(`lib/core/utils.c:698-703`); returns the last value and the final state. -/
def runTop (n : Nat) : List Val → M Val
  | [] => pure nil
  | [e] => evalN n nil e
  | e :: es => do
    let _ ← evalN n nil e
    runTop n es

/-- Value of a program from the initial state, for examples. -/
def run (n : Nat) (es : List Val) : Res Val := runTop n es initSt >>= fun p => .ok p.1

end Mnml
