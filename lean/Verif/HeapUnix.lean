import Verif.HeapEval
import Verif.Unix

/-!
# The natives of the modules `unix` and `sys` on memory cells

The natives of `Verif.Unix` statement by statement on cells, with every `UP` and `X` in its place. The operating system is, as there, an
arbitrary function from the history of calls to replies. The evaluator is a parameter, and may make calls itself.

`dup` and `select` read their argument, which they do not own, after user code has run (`dup.c:16`, `select.c:73-97`). If it has been
released in between, the outcome is `u`, as for `<-` and `let` in `Verif.HeapEval`.

Not modelled: the copies made by `strdup` in `exec` (they are not cells); `slabinfo`, which is in `Verif.PropSlabinfo`.
-/

namespace Mnml
namespace Heap

open Unix (Sys Trace Call int32 int64 fdCheck)

/-- Computations with cells and calls. -/
def HU (α : Type) := Sys → Trace → HM (α × Trace)

instance : Monad HU where
  pure a := fun _ t => pure (a, t)
  bind x f := fun os t => x os t >>= fun p => f p.1 os p.2

/-- A computation with cells only. -/
def onCells {α : Type} (m : HM α) : HU α := fun _ t => m >>= fun a => pure (a, t)
/-- Make a call. -/
def callH (c : Call) : HU Unix.Rep := fun os t => pure (os t c, (c, os t c) :: t)

/-- The type of `lisp_eval`: environment (borrowed), expression (consumed). -/
abbrev UEv := Addr → Addr → HU Addr

section
variable [Alloc]

/-- `fork` (`lib/mnml/unix/fork.c:7-12`). -/
def forkH : HU Addr := do
  let r ← callH .fork
  onCells (mkNum (if r.ret < 0 then r.errno else r.ret))

/-- `pipe` (`lib/mnml/unix/pipe.c:7-17`). -/
def pipeH : HU Addr := do
  let r ← callH .pipe
  if r.ret ≠ 0 then onCells mkNil
  else do
    let car ← onCells (mkNum r.fds.1)
    let cdr ← onCells (mkNum r.fds.2)
    onCells (consH car cdr)

/-- The C string in a buffer of `cap` bytes that `lisp_make_cstring` fills with at most `len` characters; the length it returns. -/
def cbufferH (n : Nat) (a : Addr) (len cap : Nat) : HM (List UInt8 × Nat) := do
  let (bytes, k) ← cstringH n a len 0
  let b ← HM.lift (store cap bytes)
  pure (b.takeWhile (· ≠ 0), k)

/-- `unlink` (`lib/mnml/unix/unlink.c:7-26`). The argument is borrowed. -/
def unlinkH (n : Nat) (name : Addr) : HU Addr := do
  let b ← onCells (isStringH n name)
  if !b then onCells mkNil
  else do
    let p ← onCells (cbufferH n name Module.pathMax Module.pathMax)
    let r ← callH (.unlink p.1)
    onCells (mkBool (r.ret = 0))

/-- `wait` (`lib/mnml/unix/wait.c:7-28`). The argument is borrowed. -/
def waitH (x : Addr) : HU Addr := do
  let d ← onCells (dataOf x)
  let k ← onCells (HM.lift d.number)
  let r ← callH (.waitpid (int32 k))
  if r.ret < 0 then onCells (mkNum r.errno)
  else if r.status % 128 = 0 then onCells (mkNum (r.status / 256 % 256))
  else onCells mkNil

/-- `convert` (`lib/mnml/unix/accept.c:9-33`). -/
def peerH (n : Nat) (peer : Option (List UInt8 × Nat)) : HM Addr :=
  match peer with
  | none => mkNil
  | some (name, p) => do
    let host ← makeStringH n name
    let port ← mkNum p
    consH host port

/-- `accept` (`lib/mnml/unix/accept.c:35-62`). The argument is borrowed. -/
def acceptH (n : Nat) (x : Addr) : HU Addr := do
  let d ← onCells (dataOf x)
  match d with
  | .num k =>
    if k < 0 ∨ 4294967295 ≤ k then onCells mkNil
    else do
      let r ← callH (.accept (int32 k))
      if r.ret < 0 then onCells mkNil
      else do
        let clfd ← onCells (mkNum r.ret)
        let clad ← onCells (peerH n r.peer)
        onCells (consH clfd clad)
  | _ => onCells mkNil

/-- The way out of `listen` and `connect` after an error. -/
def failH (fd : Int) : HU Addr := do
  let _ ← callH (.close fd)
  onCells mkNil

/-- `listen` (`lib/mnml/unix/listen.c:15-79`). The argument is borrowed. -/
def listenH (x : Addr) : HU Addr := do
  let d ← onCells (dataOf x)
  match d with
  | .num k =>
    if k < 0 ∨ 65535 ≤ k then onCells mkNil
    else do
      let s ← callH .socket
      if s.ret < 0 then onCells mkNil
      else do
        let r ← callH (.noDelay s.ret)
        if r.ret < 0 then failH s.ret
        else do
          let r ← callH (.reusePort s.ret)
          if r.ret < 0 then failH s.ret
          else do
            let r ← callH (.bind s.ret k.toNat)
            if r.ret < 0 then failH s.ret
            else do
              let r ← callH (.listen s.ret 5)
              if r.ret < 0 then failH s.ret
              else onCells (mkNum s.ret)
  | _ => onCells mkNil

/-- `connect` from the creation of the socket on (`lib/mnml/unix/connect.c:47-90`). -/
def connectTo (host service : List UInt8) : HU Addr := do
  let s ← callH .socket
  if s.ret < 0 then onCells mkNil
  else do
    let r ← callH (.noDelay s.ret)
    if r.ret < 0 then failH s.ret
    else do
      let a ← callH (.getaddrinfo host service)
      if a.ret ≠ 0 then failH s.ret
      else do
        let r ← callH (.connect s.ret a.addr)
        if r.ret ≠ 0 then failH s.ret
        else onCells (mkNum s.ret)

/-- `connect` (`lib/mnml/unix/connect.c:15-91`). The arguments are borrowed. -/
def connectH (n : Nat) (address port : Addr) : HU Addr := do
  let b ← onCells (isStringH n address)
  let c ← onCells (if b then isStringH n port else pure false)
  if !c then onCells mkNil
  else do
    let h ← onCells (cbufferH n address 1024 1024)
    if h.2 = 0 then onCells mkNil
    else do
      let p ← onCells (cbufferH n port 1024 1024)
      if p.2 = 0 then onCells mkNil else connectTo h.1 p.1

/-- `lisp_exec_make_strings` (`lib/mnml/unix/exec.c:19-38`); consumes `cell`. -/
def makeStringsH (n cap len : Nat) : Nat → Addr → Nat → HM (List (List UInt8))
  | 0, _, _ => HM.oof
  | m + 1, a, idx => do
    let d ← dataOf a
    if d.isNil ∨ idx = len then do
      X a
      if idx < cap then pure [] else HM.ub .outOfBounds
    else do
      let car ← carH a
      let cdr ← cdrH a
      X a
      let p ← cbufferH n car Module.pathMax (Module.pathMax + 1)
      leak car
      if idx < cap then do
        let rest ← makeStringsH n cap len m cdr (idx + 1)
        pure (p.1 :: rest)
      else HM.ub .outOfBounds

/-- `exec` (`lib/mnml/unix/exec.c:40-68`), which does not return. The arguments are borrowed. -/
def execH (n : Nat) (path args envp : Addr) : HU Unit := do
  let p ← onCells (cbufferH n path Module.pathMax (Module.pathMax + 1))
  onCells (up args)
  let argv ← onCells (makeStringsH n 129 127 n args 1)
  onCells (up envp)
  let env ← onCells (makeStringsH n 129 128 n envp 0)
  let r ← callH (.execve p.1 (p.1 :: argv) (if env.length = 0 then none else some env))
  if r.ret = 0 then pure ()
  else do
    let _ ← callH (.printError r.errno)
    let _ ← callH (.exit r.errno)
    pure ()

/-- `lisp_close` (`lib/mnml/unix/close.c:6-21`); consumes `cell`. -/
def closeAllH (ev : UEv) : Nat → Addr → Addr → Bool → HU Bool
  | 0, _, _, _ => onCells HM.oof
  | n + 1, c, a, res => do
    let d ← onCells (dataOf a)
    if d.isNil then do
      onCells (X a)
      pure res
    else do
      let e ← onCells (carH a)
      let car ← ev c e
      let cdr ← onCells (cdrH a)
      let dc ← onCells (dataOf car)
      let k ← onCells (HM.lift dc.number)
      let r ← callH (.close (int32 k))
      onCells (Xs [car, a])
      closeAllH ev n c cdr (res && r.ret = 0)

/-- `close` (`lib/mnml/unix/close.c:23-29`). `any` is borrowed. -/
def closeH (ev : UEv) (n : Nat) (c any : Addr) : HU Addr := do
  onCells (up any)
  let res ← closeAllH ev n c any true
  onCells (mkBool res)

/-- `dup` (`lib/mnml/unix/dup.c:8-33`). `any` is borrowed. -/
def dupFdH (ev : UEv) (u : UB) (c any : Addr) : HU Addr := do
  let e ← onCells (carH any)
  let car ← ev c e
  onCells (fresh u any)
  let cdr ← onCells (cdrH any)
  let e ← onCells (carH cdr)
  let tgt ← ev c e
  onCells (X cdr)
  let dt ← onCells (dataOf tgt)
  let dc ← onCells (dataOf car)
  let k ← onCells (HM.lift dc.number)
  if dt.isNil then do
    let r ← callH (.dup (int32 k))
    onCells (Xs [tgt, car])
    onCells (mkNum (if r.ret < 0 then r.errno else r.ret))
  else do
    let m ← onCells (HM.lift dt.number)
    let r ← callH (.dup2 (int32 k) (int32 m))
    onCells (Xs [tgt, car])
    onCells (mkNum (if r.ret < 0 then r.errno else r.ret))

/-- `convert` (`lib/mnml/unix/select.c:8-33`): the largest descriptor and the set. The list is borrowed. -/
def selectSetH : Nat → Addr → HM (Int × List Int)
  | 0, _ => HM.oof
  | n + 1, a => do
    let d ← dataOf a
    match d with
    | .pair x y => do
      let dx ← dataOf x
      match dx with
      | .num k =>
        if 0 ≤ k ∧ k < 4294967295 then do
          HM.lift (fdCheck k)
          let (nxt, l) ← selectSetH n y
          pure (if k > nxt then k else nxt, k :: l)
        else do
          let (nxt, l) ← selectSetH n y
          pure (if 0 > nxt then 0 else nxt, l)
      | _ => do
        let (nxt, l) ← selectSetH n y
        pure (if 0 > nxt then 0 else nxt, l)
    | _ => pure (-1, [])

/-- The action for the first descriptor of `fds` (`lib/mnml/unix/select.c:39-65`). `fds` and the symbol `cb` are borrowed. -/
def actionH (ev : UEv) (cb : Addr) (set : List Int) (c fds x act : Addr) : HU Addr := do
  let dx ← onCells (dataOf x)
  match dx with
  | .num k => do
    onCells (X act)
    let act ← onCells mkTrue
    onCells (HM.lift (fdCheck k))
    if k ∈ set then do
      let fdn ← onCells (carH fds)
      let nl ← onCells mkNil
      let cn0 ← onCells (consH fdn nl)
      onCells (up cb)
      let cn1 ← onCells (consH cb cn0)
      onCells (X act)
      ev c cn1
    else pure act
  | _ => pure act

/-- `process_r` (`lib/mnml/unix/select.c:35-101`). `fds` and the symbol `cb` are borrowed; user code runs before `fds` is
read again, and the release of what it gives can be the last release of a cell of `fds`. -/
def processRH (ev : UEv) (cb : Addr) (set : List Int) : Nat → Addr → Addr → HU Addr
  | 0, _, _ => onCells HM.oof
  | n + 1, c, fds => do
    let nl ← onCells mkNil
    let d ← onCells (dataOf fds)
    match d with
    | .pair x _ => do
      let act ← actionH ev cb set c fds x nl
      onCells (fresh .staleArg fds)
      let da ← onCells (dataOf act)
      match da with
      | .num m => do
        let car ← onCells (carH fds)
        let p ← onCells (pairOf fds)
        let nxt ← processRH ev cb set n c p.2
        let cn0 ← onCells (consH car nxt)
        let dc ← onCells (dataOf car)
        let k ← onCells (HM.lift dc.number)
        if k ≠ m then do
          onCells (up act)
          let cn0 ← onCells (consH act cn0)
          onCells (X act)
          pure cn0
        else do
          onCells (X act)
          pure cn0
      | .nil => do
        onCells (X act)
        onCells (fresh .staleArg fds)
        let p ← onCells (pairOf fds)
        let dc ← onCells (dataOf p.1)
        let k ← onCells (HM.lift dc.number)
        let _ ← callH (.close (int32 k))
        processRH ev cb set n c p.2
      | _ => do
        onCells (X act)
        onCells (fresh .staleArg fds)
        let car ← onCells (carH fds)
        let p ← onCells (pairOf fds)
        let nxt ← processRH ev cb set n c p.2
        onCells (consH car nxt)
    | _ => pure nl

/-- `process` (`lib/mnml/unix/select.c:103-112`). -/
def processH (ev : UEv) (n : Nat) (cb : Sym) (set : List Int) (c fds : Addr) : HU Addr := do
  let cbk ← onCells (mkSym cb)
  let res ← processRH ev cbk set n c fds
  onCells (X cbk)
  pure res

/-- `select` (`lib/mnml/unix/select.c:114-153`). `fds` is borrowed; it is read again after user code has run, by the second call of
`process`. -/
def selectH (ev : UEv) (n : Nat) (c fds : Addr) : HU Addr := do
  let d ← onCells (dataOf fds)
  if !d.isList then onCells mkNil
  else do
    let p ← onCells (selectSetH n fds)
    let r ← callH (.select (p.1 + 1) p.2 p.2)
    if r.ret < 0 then onCells mkNil
    else do
      let rres ← processH ev n Unix.onRead r.rd c fds
      onCells (fresh .staleArg fds)
      let eres ← processH ev n Unix.onError r.er c fds
      let nl ← onCells mkNil
      let cn0 ← onCells (consH eres nl)
      onCells (consH rres cn0)

/-- `time` (`lib/mnml/sys/time.c:6-21`). `any` is borrowed. -/
def timeH (ev : UEv) (c any : Addr) : HU Addr := do
  let b ← callH .clock
  let d ← onCells (dataOf any)
  if d.isNil then onCells (mkNum (int64 b.now))
  else do
    let car ← onCells (carH any)
    let res ← ev c car
    let e ← callH .clock
    onCells (X res)
    onCells (mkNum (int64 ((e.now % 2 ^ 64 + 2 ^ 64 - b.now % 2 ^ 64) % 2 ^ 64)))

/-- The natives of `unix` and `sys` that give a value and leave their closure as it is; `select` and `exec` are apart. -/
inductive UnixOp
  | accept | close | connect | dup | fork | listen | pipe | time | unlink | wait
deriving DecidableEq

/-- The call of a native with its closure `clos`, in the environment `closure` of the caller: the arguments are the values of the first
bindings, the last argument first (`LISP_ARGS`, `include/mnml/module.h`). The environment that is left must be the one of the
caller, as in `callNativeH`. -/
def callUnixH (n : Nat) (ev : UEv) (op : UnixOp) (clos closure : Addr) : HU Addr :=
  match op with
  | .fork => forkH
  | .pipe => pipeH
  | .connect => do
    let p ← onCells (popH clos)
    let q ← onCells (popH p.2)
    connectH n q.1 p.1
  | .accept => do
    let p ← onCells (popH clos)
    acceptH n p.1
  | .listen => do
    let p ← onCells (popH clos)
    listenH p.1
  | .unlink => do
    let p ← onCells (popH clos)
    unlinkH n p.1
  | .wait => do
    let p ← onCells (popH clos)
    waitH p.1
  | .close => do
    let p ← onCells (popH clos)
    onCells (expectEnv p.2 closure)
    closeH ev n p.2 p.1
  | .time => do
    let p ← onCells (popH clos)
    onCells (expectEnv p.2 closure)
    timeH ev p.2 p.1
  | .dup => do
    let p ← onCells (popH clos)
    onCells (expectEnv p.2 closure)
    let u ← onCells (ownH clos)
    dupFdH ev u p.2 p.1

/-- The call of `exec` with its closure `clos`. -/
def callExecH (n : Nat) (clos : Addr) : HU Unit := do
  let p ← onCells (popH clos)
  let q ← onCells (popH p.2)
  let r ← onCells (popH q.2)
  execH n r.1 q.1 p.1

/-- The call of `select` with its closure `clos`: only one argument is taken, and the callbacks run in what is left. -/
def callSelectH (n : Nat) (ev : UEv) (clos : Addr) : HU Addr := do
  let p ← onCells (popH clos)
  selectH ev n p.2 p.1

/-- The evaluator of `Verif.HeapEval`, which makes no call. -/
def evU (n : Nat) : UEv := fun c a => onCells (evalNH n c a)

/-- A whole program that ends with the call of a native `call`, given the closure and the environment: load `ops`, evaluate `es`, evaluate
the bindings `bs` of the arguments and the bindings `ds` that come with the native, make the closure as `lisp_eval_func` does
(`lib/core/eval.c:131-136`), and release it afterwards (`lib/core/eval.c:137-142`). The value remains. -/
def trialH {α : Type} (n : Nat) (ops : List Native) (es : List Val) (bs ds : Val) (call : Addr → Addr → HU α) : HU α := do
  onCells (loadH ops)
  let nl ← onCells mkNil
  let r ← onCells mkNil
  let r ← onCells (topLoopH n nl es r)
  onCells (X r)
  let e ← onCells (buildH bs)
  let bscl ← onCells (evalNH n nl e)
  let e ← onCells (buildH ds)
  let dscl ← onCells (evalNH n nl e)
  let clos ← onCells (nativeClosH n nl bscl dscl)
  let r ← call clos nl
  onCells (Xs [clos, nl])
  pure r

end
end Heap
end Mnml
