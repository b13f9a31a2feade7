import Verif.Heap

/-!
# The cell level model: evaluator and natives

`lib/core/eval.c`, `lisp_lookup`, `lisp_setq`, `lisp_prog` of `lib/core/lisp.c` and the natives of
`lib/mnml/{std,logic,math}` and the output functions of `lib/mnml/io` on memory cells, statement by
statement, with every `UP` and `X` in its place. Local updates by `<-` are modelled here.

Three natives read an argument that they do not own after user code has run: `match` (`match.c:68`),
`<-` (`set.c:14`) and `let` (`let.c:46`). When that argument has been released in between, the outcome of `match` is
`staleArg` instead of `useAfterFree`, so that the theorems can tell this place from all the others. The other two
give `useAfterFree`, except if the binding of their argument is shared with the program (`ownH`), which only
happens to a native whose closure has been forged by the program.

Not modelled: the natives that are `unsupported` in `Verif.Eval`, and natives whose
argument list has been forged by the program so that the number of bindings differs from what the C function expects
(the environment `C` it sees is then not the one of its caller): `unsupported`.

In strict mode (`HSt.strict`) the model also refuses changes in place that the evaluator on trees
cannot show; this is only used to compare the two (`Verif.PropRefine`).
-/

namespace Mnml
namespace Heap

section
variable [Alloc]

/-- The type of `lisp_eval`: environment (borrowed), expression (consumed). -/
abbrev HEv := Addr → Addr → HM Addr

/-- `IS_FUNC` (`include/mnml/types.h:127-132`). -/
def isFuncH (a : Addr) : HM Bool := do
  let d ← dataOf a
  match d with
  | .pair x y => do
    let dx ← dataOf x
    let dy ← dataOf y
    match dy with
    | .pair z b => do
      let dz ← dataOf z
      let db ← dataOf b
      pure ((dx.isList || dx.isSym) && dz.isList && (db.isPair || db.isNum))
    | _ => pure false
  | _ => pure false

/-! ## Lookup and the global table -/

/-- The loop of `lisp_lookup` (`lib/core/lisp.c:98-106`), `<-` (`set.c:26-36`) and `let` (`let.c:54-61`): the
first binding whose key has the payload `s`. -/
def findH : Nat → Addr → Sym → HM (Option Addr)
  | 0, _, _ => HM.oof
  | n + 1, a, s => do
    let (kv, y) ← pairOf a
    let (k, _) ← pairOf kv
    let dk ← dataOf k
    if dk.symIs s then pure (some kv)
    else do
      let dy ← dataOf y
      if dy.isPair then findH n y s else pure none

/-- The same with the test of `FOREACH`. -/
def assocH (n : Nat) (closure : Addr) (s : Sym) : HM (Option Addr) := do
  let d ← dataOf closure
  if d.isNil then pure none else findH n closure s

/-- The entry of a global variable. -/
def globalOf (s : Sym) : HM (Option Addr) := fun st =>
  .ok ((st.globals.find? fun e => e.1 = s).map Prod.snd, st)

/-- Add an entry. -/
def pushGlobal (s : Sym) (d : Addr) : HM Unit := fun st =>
  .ok ((), { st with globals := st.globals ++ [(s, d)] })

/-- `lisp_tree_get` (`lib/core/tree.c:452-457`). -/
def treeGetH (s : Sym) : HM (Addr × Bool) := do
  let g ← globalOf s
  match g with
  | some d => do
    up d
    pure (d, true)
  | none => do
    let r ← mkNil
    pure (r, false)

/-- Set the cache of a symbol. -/
def setCache (a d : Addr) : HM Unit := modify a fun c => { c with cache := some d }

/-- `lisp_lookup` (`lib/core/lisp.c:91-131`) of a symbol cell with name `s`. -/
def lookupH (n : Nat) (closure atom : Addr) (s : Sym) : HM Addr := do
  let b ← assocH n closure s
  match b with
  | some kv => do
    let (_, v) ← pairOf kv
    up v
    pure v
  | none => do
    let c ← cell atom
    match c.cache with
    | some d => do
      let (_, v) ← pairOf d
      up v
      pure v
    | none => do
      let (elt, found) ← treeGetH s
      let res ← cdrH elt
      if found then do
        setCache atom elt
        X elt
        pure res
      else do
        X elt
        pure res

/-- The key and the value of the entry of `s`. The traversal of the tree has compared the key with `s`
(`lib/core/tree.c:220`, `377`). -/
def entryH (s : Sym) (e : Addr) : HM (Addr × Addr) := do
  let (k, v) ← pairOf e
  let dk ← dataOf k
  if dk.symIs s then pure (k, v) else HM.unsupported

/-- `lisp_setq` (`lib/core/lisp.c:212-226`) on the global table, with `lisp_tree_add` (`lib/core/tree.c:331-358`):
an existing entry swaps its value with the one of the new pair, which is released. -/
def setqH (pair : Addr) : HM Unit := do
  let d ← dataOf pair
  match d with
  | .pair k v => do
    let dk ← dataOf k
    match dk with
    | .sym s => do
      let g ← globalOf s
      match g with
      | some e => do
        let (k0, old) ← entryH s e
        setData e (.pair k0 v)
        setData pair (.pair k old)
        X pair
      | none => pushGlobal s pair
    | _ => X pair
  | _ => X pair

/-! ## The evaluator -/

/-- `lisp_prog` (`lib/core/lisp.c:232-251`); consumes `cell` and `result`. -/
def progH (ev : HEv) : Nat → Addr → Addr → Addr → HM Addr
  | 0, _, _, _ => HM.oof
  | n + 1, closure, a, result => do
    let d ← dataOf a
    if d.isPair then do
      let e ← carH a
      let res ← ev closure e
      let cdr ← cdrH a
      Xs [a, result]
      progH ev n closure cdr res
    else do
      X a
      pure result

/-- `lisp_eval_args` (`lib/core/eval.c:14-74`); consumes `atom`, `args` and `vals`. -/
def evalArgsH (ev : HEv) : Nat → Addr → Addr → Addr → Addr → HM Addr
  | 0, _, _, _, _ => HM.oof
  | n + 1, closure, atom, args, vals => do
    let da ← dataOf args
    if da.isNil then do
      let rslt ← consH atom args
      X vals
      pure rslt
    else if da.isSym then do
      let head ← bindH n atom args vals
      let nl ← mkNil
      consH head nl
    else do
      let dv ← dataOf vals
      if dv.isNil then do
        let rslt ← consH atom args
        X vals
        pure rslt
      else do
        let arg ← carH args
        let oth ← cdrH args
        X args
        let v ← carH vals
        let val ← ev closure v
        let rem ← cdrH vals
        X vals
        let bind ← bindH n atom arg val
        evalArgsH ev n closure bind oth rem

/-- The test of the loop of `lisp_eval_func` (`lib/core/eval.c:174`). -/
def isSelfTailH (symb res : Addr) : HM Bool := do
  let c ← cell res
  if c.tc then do
    let (x, _) ← pairOf res
    let dx ← dataOf x
    let ds ← dataOf symb
    match ds.tag with
    | some t => pure (dx.symIs t)
    | none => pure false
  else pure false

/-- The loop of `lisp_eval_func` (`lib/core/eval.c:161-184`); gives the result and the last bindings. -/
def tailLoopH (ev : HEv) (symb body cls0 : Addr) : Nat → Addr → HM (Addr × Addr)
  | 0, _ => HM.oof
  | n + 1, bscl => do
    let d0 ← dupH n cls0
    let cls1 ← mergeH n d0 bscl
    up body
    let nl ← mkNil
    let res ← progH ev n cls1 body nl
    X cls1
    let again ← isSelfTailH symb res
    if again then do
      X bscl
      let bscl' ← cdrH res
      X res
      tailLoopH ev symb body cls0 n bscl'
    else pure (res, bscl)

/-! ## Natives -/

/-- `LISP_ARGS` for one argument (`include/mnml/module.h:153-181`). -/
def popH (p : Addr) : HM (Addr × Addr) := do
  let (kv, rest) ← pairOf p
  let (_, v) ← pairOf kv
  pure (v, rest)

/-- Record that the reference to `a` is abandoned (no effect on the execution). -/
def leak (a : Addr) : HM Unit := fun st => .ok ((), { st with leaked := a :: st.leaked })

/-- Record that the reference to `a` is abandoned and that the references it contains
are going to be released (no effect on the execution). -/
def abandon (a : Addr) : HM Unit := fun st =>
  .ok ((), { st with leaked := a :: st.leaked, zombies := a :: st.zombies })

/-- Reading an argument that is not owned, after user code has run: `u` is the outcome if it has been released. A cell whose
content has been released (`abandon`) counts as released. -/
def fresh (u : UB) (a : Addr) : HM Unit := fun st =>
  if (st.mem a).isSome ∧ a ∉ Alloc.watch st.zombies then .ok ((), st) else .ub u

/-- How a native reports that its argument has been released (no effect on the execution): as any other
access to a released cell, unless something else refers to the first binding of its closure. -/
def ownH (clos : Addr) : HM UB := do
  let c ← cell clos
  let (kv, _) ← pairOf clos
  let k ← cell kv
  pure (if c.refs = 1 ∧ k.refs = 1 then .useAfterFree else .staleArg)

/-- `lisp_cond` (`lib/mnml/std/cond.c:5-54`). -/
def condH (ev : HEv) : Nat → Addr → Addr → Addr → HM Addr
  | 0, _, _, _ => HM.oof
  | n + 1, closure, a, m => do
    let d ← dataOf m
    match d with
    | .pair x _ => do
      let dx ← dataOf x
      if dx.isPair then do
        let car ← carH m
        let cdr ← cdrH m
        X m
        let args ← carH car
        let prog ← cdrH car
        X car
        let da ← dataOf args
        if da.isWild then do
          Xs [args, cdr, a]
          ev closure prog
        else do
          up a
          let nl ← mkNil
          let con ← consH a nl
          let evl ← consH args con
          let res ← ev closure evl
          let dr ← dataOf res
          if dr.isTrue then do
            Xs [cdr, a, res]
            ev closure prog
          else do
            Xs [prog, res]
            condH ev n closure a cdr
      else do
        Xs [a, m]
        mkNil
    | _ => do
      Xs [a, m]
      mkNil

/-- `lisp_match` (`lib/mnml/std/match.c:27-61`). -/
def matchLoopH (ev : HEv) : Nat → Addr → Addr → Addr → HM Addr
  | 0, _, _, _ => HM.oof
  | n + 1, closure, a, m => do
    let d ← dataOf m
    match d with
    | .pair x _ => do
      let dx ← dataOf x
      if dx.isPair then do
        let car ← carH m
        let cdr ← cdrH m
        X m
        let args ← carH car
        let prog ← cdrH car
        X car
        let b ← matchH n args a
        if b then do
          Xs [args, cdr, a]
          ev closure prog
        else do
          Xs [args, prog]
          matchLoopH ev n closure a cdr
      else do
        Xs [a, m]
        mkNil
    | _ => do
      Xs [a, m]
      mkNil

/-- `lisp_list` (`lib/mnml/std/list.c:6-28`). -/
def listH (ev : HEv) : Nat → Addr → Addr → HM Addr
  | 0, _, _ => HM.oof
  | n + 1, closure, a => do
    let d ← dataOf a
    if d.isPair then do
      let car ← carH a
      let cdr ← cdrH a
      X a
      let res ← listH ev n closure cdr
      let evl ← ev closure car
      consH evl res
    else pure a

/-- `lisp_stream` (`lib/mnml/std/stream.c:6-37`). -/
def streamH (ev : HEv) : Nat → Addr → Addr → Addr → HM Addr
  | 0, _, _, _ => HM.oof
  | n + 1, closure, any, expr => do
    let res ← ev closure expr
    let d ← dataOf any
    if d.isNil then do
      X any
      pure res
    else do
      let car ← carH any
      let cdr ← cdrH any
      X any
      let q ← mkSym sQuote
      let cn0 ← consH q res
      let nl ← mkNil
      let cn1 ← consH cn0 nl
      let nxt ← consH car cn1
      streamH ev n closure cdr nxt

/-- The marking of a let-bound function (`lib/mnml/std/let.c:46-68`). -/
def letMarkH (u : UB) (n : Nat) (tmp arg val : Addr) : HM Unit := do
  fresh u arg
  let da ← dataOf arg
  match da with
  | .sym s => do
    let f ← isFuncH val
    if f then do
      let b ← assocH n tmp s
      match b with
      | some _ => pure ()
      | none => do
        let (args, y) ← pairOf val
        let (_, body) ← pairOf y
        markTailCallsH false n s args body
    else pure ()
  | _ => pure ()

/-- `lisp_let_bind` (`lib/mnml/std/let.c:7-74`); consumes `env` and `cell`. -/
def letBindH (ev : HEv) (u : UB) : Nat → Addr → Addr → Addr → HM Addr
  | 0, _, _, _ => HM.oof
  | n + 1, closure, env, a => do
    let d ← dataOf a
    if d.isPair then do
      let car ← carH a
      let cdr ← cdrH a
      X a
      let dc ← dataOf car
      if dc.isPair then do
        let d0 ← dupH n closure
        let tmp ← mergeH n d0 env
        let arg ← carH car
        let nvl ← cdrH car
        X car
        let val ← ev tmp nvl
        let nxt ← bindH n env arg val
        letMarkH u n tmp arg val
        X tmp
        letBindH ev u n closure nxt cdr
      else do
        Xs [car, cdr]
        pure env
    else do
      X a
      pure env

/-- `lisp_let` (`lib/mnml/std/let.c:76-100`). -/
def letH (ev : HEv) (u : UB) (n : Nat) (closure a : Addr) : HM Addr := do
  let bind ← carH a
  let prog ← cdrH a
  X a
  let nl ← mkNil
  let next ← letBindH ev u n closure nl bind
  let d0 ← dupH n closure
  let clos ← mergeH n d0 next
  X next
  let nl ← mkNil
  let res ← progH ev n clos prog nl
  X clos
  pure res

/-- The loop of `while` (`lib/mnml/std/while.c:5-13`, `27-31`). -/
def whileH (ev : HEv) (closure cnd prg : Addr) : Nat → Addr → HM Addr
  | 0, _ => HM.oof
  | n + 1, res => do
    up cnd
    let evl ← ev closure cnd
    let d ← dataOf evl
    X evl
    if d.isNil then pure res
    else do
      X res
      up prg
      let nl ← mkNil
      let r ← progH ev n closure prg nl
      whileH ev closure cnd prg n r

/-- The tree value of a cell, for printing. -/
def viewH : Nat → Addr → HM Val
  | 0, _ => HM.oof
  | n + 1, a => do
    let c ← cell a
    match c.data with
    | .pair x y => do
      let u ← viewH n x
      let v ← viewH n y
      pure (.pair c.tc u v)
    | .sym s => pure (.sym c.tc s)
    | d => HM.lift (match d.atom with | some v => .ok v | none => .unsupported)

/-- Append to the output. -/
def emitH (bytes : List UInt8) : HM Unit := fun st => .ok ((), { st with out := st.out ++ bytes })

/-- `lisp_prin` (`lib/core/print.c:130-137`); it only reads the value. -/
def prinH (n : Nat) (a : Addr) (s : Bool) : HM Unit := do
  let v ← viewH n a
  let bytes ← HM.lift (Print.prin v s)
  emitH bytes

/-- The space written between values by `print` (`lib/mnml/io/print.c:28-30`). -/
def sepH (b : Bool) : HM Unit := if b then emitH [32] else pure ()

/-- `lisp_prin_all`, `lisp_print_all` (`lib/mnml/io/prin.c:5-28`, `print.c:6-32` and the copies in
`prinl.c` and `printl.c`); consumes `cell` and `result`. -/
def prinAllH (ev : HEv) (s : Bool) : Nat → Addr → Addr → Addr → HM Addr
  | 0, _, _, _ => HM.oof
  | n + 1, closure, a, result => do
    let d ← dataOf a
    if d.isNil then do
      X a
      pure result
    else do
      X result
      let e ← carH a
      let car ← ev closure e
      let cdr ← cdrH a
      X a
      prinH n car s
      let dc ← dataOf cdr
      sepH (s && !dc.isNil)
      prinAllH ev s n closure cdr car

/-- The body without its documentation (`lib/mnml/std/def.c:31-40`); consumes `prog`. -/
def docH (prog : Addr) : HM Addr := do
  let doc ← carH prog
  let d ← dataOf doc
  match d with
  | .pair x _ => do
    let dx ← dataOf x
    if dx.isChr then do
      let nxt ← cdrH prog
      X prog
      X doc
      pure nxt
    else do
      X doc
      pure prog
  | _ => do
    X doc
    pure prog

/-- The native `def` (`lib/mnml/std/def.c:6-56`). -/
def defH (n : Nat) (full any : Addr) : HM Addr := do
  let p ← loneH n full any
  let symb ← carH any
  let ds ← dataOf symb
  match ds with
  | .sym s => do
    let cdr0 ← cdrH any
    let args ← carH cdr0
    let da ← dataOf args
    if da.isNil || da.isPair || da.isSym then do
      let prog0 ← cdrH cdr0
      X cdr0
      let prog ← docH prog0
      markTailCallsH p n s args prog
      let nl ← mkNil
      let con0 ← consH nl prog
      let con1 ← consH args con0
      up symb
      let elt ← consH symb con1
      setqH elt
      pure symb
    else do
      Xs [symb, cdr0, args]
      mkNil
  | _ => do
    leak symb
    mkNil

/-- The end of `<-` (`lib/mnml/std/set.c:16-50`) with `lisp_tree_upd` (`lib/core/tree.c:364-407`): a local binding, a
global variable, or nothing; in the last case `elt` is never released, but its content is. -/
def assignH (n : Nat) (c sym val : Addr) : HM Addr := do
  let ds ← dataOf sym
  match ds with
  | .sym s => do
    let b ← assocH n c s
    match b with
    | some kv => do
      guard false
      let (k, old) ← pairOf kv
      setData kv (.pair k val)
      X sym
      pure old
    | none => do
      let elt ← consH sym val
      let g ← globalOf s
      match g with
      | some e => do
        let (k0, old) ← entryH s e
        setData e (.pair k0 val)
        setData elt (.pair sym old)
        pure elt
      | none => do
        let res ← mkNil
        X res
        abandon elt
        Xs [sym, val]
        mkNil
  | _ => do
    Xs [sym, val]
    mkNil

/-- The native `<-` (`lib/mnml/std/set.c:6-51`): the reference to `cdr` is never released. -/
def setH (ev : HEv) (u : UB) (n : Nat) (c any : Addr) : HM Addr := do
  let a0 ← carH any
  let sym ← ev c a0
  fresh u any
  let cdr ← cdrH any
  let a1 ← carH cdr
  leak cdr
  let val ← ev c a1
  assignH n c sym val

/-- The native `setq` (`lib/mnml/std/setq.c:5-29`). -/
def setqNatH (ev : HEv) (c any : Addr) : HM Addr := do
  let sym ← carH any
  let cdr ← cdrH any
  let a1 ← carH cdr
  let res ← ev c a1
  X cdr
  let d ← dataOf res
  if d.isNil then do
    X sym
    pure res
  else do
    up res
    let elt ← consH sym res
    setqH elt
    pure res

/-- The native `or` (`lib/mnml/logic/or.c:5-38`). -/
def orH (ev : HEv) (c any : Addr) : HM Addr := do
  let ar0 ← carH any
  let cdr ← cdrH any
  let ar1 ← carH cdr
  X cdr
  let ra0 ← ev c ar0
  let d0 ← dataOf ra0
  if d0.isNil then do
    X ra0
    let ra1 ← ev c ar1
    let d1 ← dataOf ra1
    if d1.isNil then pure ra1
    else do
      X ra1
      mkTrue
  else do
    Xs [ra0, ar1]
    mkTrue

/-- The value made by a pure native on atoms. -/
def ofAtom (v : Val) : HM Addr :=
  match v with
  | .nil => mkNil
  | .tru => mkTrue
  | .num n => mkNum n
  | .chr c => mkChr c
  | .sym _ s => mkSym s
  | _ => HM.unsupported

/-- The native `sym` (`lib/mnml/std/sym.c:6-26`) on a pair. -/
def symNatH (n : Nat) (x : Addr) : HM Addr := do
  let b ← isStringH n x
  if b then do
    let (bytes, len) ← cstringH n x 16 0
    let buffer ← HM.lift (store 17 bytes)
    if len = 0 then mkNil else mkSym (Sym.ofBytes buffer)
  else mkNil

/-- The natives with one argument (see `unary`). The argument is borrowed. -/
def unaryH (n : Nat) (op : Native) (x : Addr) : HM Addr := do
  let d ← dataOf x
  match op with
  | .car => carH x
  | .cdr => cdrH x
  | .chr => do
    let k ← HM.lift d.number
    mkChr (toChar k)
  | .len =>
    if d.isList then do
      let k ← lenH n x
      mkNum k
    else mkNil
  | .isatm => mkBool (!d.isList)
  | .ischr => mkBool d.isChr
  | .islst => mkBool d.isList
  | .isnil => mkBool d.isNil
  | .isnum => mkBool d.isNum
  | .isstr => do
    let b ← isStringH n x
    mkBool b
  | .issym => mkBool d.isSym
  | .istru => mkBool d.isTrue
  | .not => mkBool d.isNil
  | .str =>
    match d.tag with
    | some s => makeStringH n s.name
    | none => HM.ub .pairAsNumber
  | .sym => if d.isPair then symNatH n x else mkNil
  | _ => HM.unsupported

/-- The natives with two arguments (see `binary`). The arguments are borrowed. -/
def binaryH (n : Nat) (op : Native) (x y : Addr) : HM Addr := do
  let dx ← dataOf x
  let dy ← dataOf y
  match op with
  | .cons => do
    up x
    up y
    consH x y
  | .conc => do
    guard (!dx.isPair)
    up x
    up y
    concH n x y
  | .equ => do
    let b ← equH n x y
    mkBool b
  | .neq => do
    let b ← neqH n x y
    mkBool b
  | .and => mkBool (!dx.isNil && !dy.isNil)
  | .add | .sub | .mul | .div | .mod => do
    let a ← HM.lift dx.number
    let b ← HM.lift dy.number
    let v ← HM.lift (mathV op (.num a) (.num b))
    ofAtom v
  | .lt | .le | .gt | .ge => do
    let a ← HM.lift dx.number
    let b ← HM.lift dy.number
    let v ← HM.lift (compareV op (.num a) (.num b))
    ofAtom v
  | _ => HM.unsupported

/-- The natives with unevaluated arguments (see `nativeAny`). `any` is borrowed. -/
def nativeAnyH (n : Nat) (ev : HEv) (op : Native) (u : UB) (full c any : Addr) : HM Addr :=
  match op with
  | .cond => do
    let car ← carH any
    let cdr ← cdrH any
    condH ev n c car cdr
  | .def_ => defH n full any
  | .lambda => do
    let args ← carH any
    let prog ← cdrH any
    let clos ← dupH n c
    let con0 ← consH clos prog
    consH args con0
  | .let_ => do
    up any
    letH ev u n c any
  | .list => do
    up any
    listH ev n c any
  | .match_ => do
    let a0 ← carH any
    let car ← ev full a0
    fresh .staleArg any
    let cdr ← cdrH any
    matchLoopH ev n c car cdr
  | .prog => do
    up any
    let nl ← mkNil
    progH ev n c any nl
  | .quote => do
    up any
    pure any
  | .set => setH ev u n c any
  | .setq => setqNatH ev c any
  | .stream => do
    let car ← carH any
    let cdr ← cdrH any
    streamH ev n c cdr car
  | .while_ => do
    let cnd ← carH any
    let prg ← cdrH any
    let nl ← mkNil
    let res ← whileH ev c cnd prg n nl
    Xs [cnd, prg]
    pure res
  | .or => orH ev c any
  | .prin => do
    up any
    let nl ← mkNil
    prinAllH ev false n c any nl
  | .prinl => do
    up any
    let nl ← mkNil
    let r ← prinAllH ev false n c any nl
    emitH [10]
    pure r
  | .print => do
    up any
    let nl ← mkNil
    prinAllH ev true n c any nl
  | .printl => do
    up any
    let nl ← mkNil
    let r ← prinAllH ev true n c any nl
    emitH [10]
    pure r
  | _ => HM.unsupported

/-- `if`, `when`, `unless`; `cnd` and `rem` are borrowed. -/
def nativeRemH (n : Nat) (ev : HEv) (op : Native) (c cnd rem : Addr) : HM Addr := do
  let d ← dataOf cnd
  match op with
  | .if_ =>
    if d.isNil then do
      let cd1 ← cdrH rem
      let els ← carH cd1
      X cd1
      ev c els
    else do
      let thn ← carH rem
      ev c thn
  | .when_ =>
    if d.isNil then mkNil
    else do
      up rem
      let nl ← mkNil
      progH ev n c rem nl
  | .unless_ =>
    if d.isNil then do
      up rem
      let nl ← mkNil
      progH ev n c rem nl
    else mkNil
  | _ => HM.unsupported

/-- The environment seen by a native must be the one of its caller. -/
def expectEnv (c closure : Addr) : HM Unit := if c = closure then pure () else HM.unsupported

/-- The call of a native with its closure `clos`, in the environment `closure` of the caller. -/
def callNativeH (n : Nat) (ev : HEv) (op : Native) (clos closure : Addr) : HM Addr :=
  match op.shape with
  | .one => do
    let (x, c) ← popH clos
    expectEnv c closure
    if op = .eval then do
      up x
      ev c x
    else unaryH n op x
  | .two => do
    let (y, c) ← popH clos
    let (x, c) ← popH c
    expectEnv c closure
    binaryH n op x y
  | .any => do
    let (any, c) ← popH clos
    expectEnv c closure
    let u ← ownH clos
    nativeAnyH n ev op u clos c any
  | .rem => do
    let (rem, c) ← popH clos
    let (cnd, c) ← popH c
    expectEnv c closure
    nativeRemH n ev op c cnd rem
  | .none => HM.unsupported

/-- The closure of a native call (`lib/core/eval.c:131-136`); consumes `bscl` and `dscl`. -/
def nativeClosH (n : Nat) (closure bscl dscl : Addr) : HM Addr := do
  let dd ← dataOf dscl
  if dd.isNil then do
    up closure
    let clos ← concH n bscl closure
    X dscl
    pure clos
  else do
    let d0 ← dupH n dscl
    let c0 ← concH n bscl d0
    up closure
    let clos ← concH n c0 closure
    X dscl
    pure clos

/-- The application of a function to all its arguments (`lib/core/eval.c:122-187`). -/
def applyH (n : Nat) (ev : HEv) (closure symb dscl body bscl narg : Addr) : HM Addr := do
  let db ← dataOf body
  match db with
  | .num a => do
    let clos ← nativeClosH n closure bscl dscl
    match nativeOfAddr a with
    | some op => do
      let rslt ← callNativeH n ev op clos closure
      Xs [body, narg, clos]
      pure rslt
    | none => HM.ub .badCall
  | _ => do
    let cs ← cell symb
    if cs.tc then do
      up symb
      let rslt ← consH symb bscl
      setTail rslt
      Xs [body, dscl, narg]
      pure rslt
    else do
      let d0 ← dupH n closure
      let cls0 ← mergeH n d0 dscl
      X dscl
      let (rslt, bscl') ← tailLoopH ev symb body cls0 n bscl
      Xs [body, bscl', narg, cls0]
      pure rslt

/-- `lisp_eval_func` (`lib/core/eval.c:81-204`); consumes `func` and `vals`. -/
def evalFuncH (n : Nat) (ev : HEv) (closure symb func vals : Addr) : HM Addr := do
  let args ← carH func
  let ok ← mayApplyH n args vals
  if ok then do
    let cdr0 ← cdrH func
    let dscl ← carH cdr0
    let body ← cdrH cdr0
    Xs [func, cdr0]
    let nl ← mkNil
    let bind ← evalArgsH ev n closure nl args vals
    let bscl ← carH bind
    let narg ← cdrH bind
    X bind
    let dn ← dataOf narg
    if dn.isNil then applyH n ev closure symb dscl body bscl narg
    else do
      let clos ← concH n bscl dscl
      let con0 ← consH clos body
      consH narg con0
  else do
    Xs [func, vals, args]
    mkNil

/-- The end of `lisp_eval_pair` (`lib/core/eval.c:224-248`). -/
def evalNextH (n : Nat) (ev : HEv) (closure car nxt cdr : Addr) : HM Addr := do
  let f ← isFuncH nxt
  if f then evalFuncH n ev closure car nxt cdr
  else do
    let e ← equH n car nxt
    if e then consH nxt cdr
    else do
      let d ← dataOf nxt
      if d.isSym || d.isPair then do
        let cell ← consH nxt cdr
        ev closure cell
      else consH nxt cdr

/-- `lisp_eval_pair` (`lib/core/eval.c:210-254`); consumes `cell`. -/
def evalPairH (n : Nat) (ev : HEv) (closure a : Addr) : HM Addr := do
  let car ← carH a
  let cdr ← cdrH a
  X a
  up car
  let nxt ← ev closure car
  let rslt ← evalNextH n ev closure car nxt cdr
  X car
  pure rslt

/-- The body of `lisp_eval` (`lib/core/eval.c:260-286`); consumes `cell`. -/
def evalStepH (n : Nat) (ev : HEv) : HEv := fun closure a => do
  let d ← dataOf a
  match d with
  | .pair .. => evalPairH n ev closure a
  | .sym s => do
    let rslt ← lookupH n closure a s
    X a
    pure rslt
  | _ => pure a

/-- `lisp_eval` with at most `n` nested calls. -/
def evalNH : Nat → HEv
  | 0 => fun _ _ => HM.oof
  | n + 1 => evalStepH n (evalNH n)

/-! ## Programs -/

/-- A value as the reader builds it (`lib/core/lexer.rl`): fresh cells, no flags. -/
def buildH : Val → HM Addr
  | .pair _ a d => do
    let x ← buildH a
    let y ← buildH d
    consH x y
  | .nil => mkNil
  | .tru => mkTrue
  | .wild => alloc .wild
  | .chr c => mkChr c
  | .num n => mkNum n
  | .sym _ s => mkSym s

/-- The registration of a native (`LISP_MODULE_SETUP`, `include/mnml/module.h:111-130`); the caller releases the
name that it returns (`lib/core/module.c:532-533`). -/
def loadNativeH (op : Native) : HM Unit := do
  let sym ← mkSym op.name
  let arg ← buildH op.args
  let adr ← mkNum op.addr
  let nl ← mkNil
  let cn0 ← consH nl adr
  let val ← consH arg cn0
  up sym
  let cns ← consH sym val
  setqH cns
  X sym

/-- The registration of several natives. -/
def loadH : List Native → HM Unit
  | [] => pure ()
  | op :: ops => do
    loadNativeH op
    loadH ops

/-- The main loop of `lisp_load_file` (`lib/core/utils.c:698-703`) on the expressions of a file: `nl` is the empty environment
and `res` the last result. -/
def topLoopH (n : Nat) (nl : Addr) : List Val → Addr → HM Addr
  | [], res => pure res
  | e :: es, res => do
    let input ← buildH e
    X res
    let r ← evalNH n nl input
    topLoopH n nl es r

/-- A session: load natives, then evaluate a program; the last value remains. -/
def sessionH (n : Nat) (ops : List Native) (es : List Val) : HM Addr := do
  loadH ops
  let nl ← mkNil
  let res ← mkNil
  let r ← topLoopH n nl es res
  X nl
  pure r

/-- The empty memory. -/
def emptyH : HSt := ⟨fun _ => none, 0, [], [], [], [], false, Slab.new⟩

end

theorem fresh_apart (u : UB) (a : Addr) (s : HSt) : fresh u a s = if (s.mem a).isSome ∧ a ∉ s.zombies then .ok ((), s) else .ub u := rfl

theorem alloc_apart (d : Data) (s : HSt) :
    alloc d s = .ok (s.next, { s with mem := upd s.mem s.next (some ⟨1, false, none, d⟩), next := s.next + 1 }) := rfl

theorem free_apart (a : Addr) (s : HSt) : free a s =
    match s.mem a with
    | some _ => .ok ((), { s with mem := upd s.mem a none })
    | none => .ub .useAfterFree := rfl

end Heap
end Mnml
