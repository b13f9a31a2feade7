import Verif.Module

/-!
# The natives of the modules `unix` and `sys`

The operating system is an arbitrary function from the history of calls to replies. A native is a computation that makes
calls and records them. Values are trees; the release of cells is the subject of `HeapEval`.
-/

namespace Mnml
namespace Unix

open Val

/-- System and library calls, with what the code passes. -/
inductive Call where
  | accept (fd : Int)
  | bind (fd : Int) (port : Nat)
  | clock
  | close (fd : Int)
  | connect (fd : Int) (addr : Nat)
  | dup (fd : Int)
  | dup2 (fd tgt : Int)
  | execve (path : List UInt8) (argv : List (List UInt8)) (env : Option (List (List UInt8)))
  | exit (code : Int)
  | fork
  | getaddrinfo (host service : List UInt8)
  | listen (fd backlog : Int)
  | pipe
  | printError (errno : Int)
  | select (nfds : Int) (rd er : List Int)
  | reusePort (fd : Int)
  | noDelay (fd : Int)
  | socket
  | unlink (path : List UInt8)
  | waitpid (pid : Int)
deriving DecidableEq, Repr

/-- What a call gives back: the result, `errno`, and what is stored through pointers. `inet_ntop` and `ntohs` belong to the
system: the peer is given as text and number. -/
structure Rep where
  ret : Int := 0
  errno : Int := 0
  /-- descriptors stored by `pipe` -/
  fds : Int × Int := (0, 0)
  /-- status stored by `waitpid` -/
  status : Nat := 0
  /-- address stored by `accept`; none if the family is not `AF_INET` -/
  peer : Option (List UInt8 × Nat) := none
  /-- first result of `getaddrinfo` -/
  addr : Nat := 0
  /-- descriptors left in the sets by `select` -/
  rd : List Int := []
  er : List Int := []
  /-- nanoseconds of the clock -/
  now : Nat := 0

/-- The calls so far, latest first, with the replies. -/
abbrev Trace := List (Call × Rep)
/-- An operating system: any reaction to any history. -/
abbrev Sys := Trace → Call → Rep
/-- Computations with calls. -/
def U (α : Type) := Sys → Trace → Res (α × Trace)

instance : Monad U where
  pure a := fun _ t => .ok (a, t)
  bind x f := fun os t => x os t >>= fun p => f p.1 os p.2

/-- A computation without calls. -/
def U.lift {α : Type} (r : Res α) : U α := fun _ t => r >>= fun a => .ok (a, t)
/-- Make a call. -/
def sys (c : Call) : U Rep := fun os t => .ok (os t c, (c, os t c) :: t)

/-- `(int)n` for a 64-bit `n`. -/
def int32 (n : Int) : Int := (n + 2 ^ 31) % 2 ^ 32 - 2 ^ 31

/-- Success as a value. -/
def truth (b : Bool) : Val := if b then tru else nil

/-- `fork` (`lib/mnml/unix/fork.c:7-12`). -/
def natFork : U Val := do
  let r ← sys .fork
  pure (num (if r.ret < 0 then r.errno else r.ret))

/-- `pipe` (`lib/mnml/unix/pipe.c:7-17`). -/
def natPipe : U Val := do
  let r ← sys .pipe
  if r.ret ≠ 0 then pure nil else pure (cons (num r.fds.1) (num r.fds.2))

/-- `unlink` (`lib/mnml/unix/unlink.c:7-26`); the buffer has `PATH_MAX` bytes. -/
def natUnlink (name : Val) : U Val :=
  if !name.isString then pure nil
  else do
    let path ← U.lift (Module.cbuffer name Module.pathMax Module.pathMax)
    let r ← sys (.unlink path)
    pure (truth (r.ret = 0))

/-- `wait` (`lib/mnml/unix/wait.c:7-28`), with the encoding of the status in Linux (`WIFEXITED`, `WEXITSTATUS`). -/
def natWait (x : Val) : U Val := do
  let n ← U.lift x.number
  let r ← sys (.waitpid (int32 n))
  if r.ret < 0 then pure (num r.errno)
  else if r.status % 128 = 0 then pure (num (r.status / 256 % 256))
  else pure nil

/-- `lisp_close` (`lib/mnml/unix/close.c:6-21`). `ev` evaluates in the environment of the call. -/
def closeAll (ev : Val → U Val) : Val → Bool → U Bool
  | nil, res => pure res
  | pair _ a d, res => do
    let car ← ev a
    let n ← U.lift car.number
    let r ← sys (.close (int32 n))
    closeAll ev d (res && r.ret = 0)
  | _, res => do
    let car ← ev nil
    let n ← U.lift car.number
    let r ← sys (.close (int32 n))
    pure (res && r.ret = 0)

/-- `close` (`lib/mnml/unix/close.c:23-29`). -/
def natClose (ev : Val → U Val) (any : Val) : U Val := do
  let res ← closeAll ev any true
  pure (truth res)

/-- `dup` (`lib/mnml/unix/dup.c:8-33`). -/
def natDup (ev : Val → U Val) (any : Val) : U Val := do
  let car ← ev any.car
  let tgt ← ev any.cdr.car
  if tgt.isNil then do
    let n ← U.lift car.number
    let r ← sys (.dup (int32 n))
    pure (num (if r.ret < 0 then r.errno else r.ret))
  else do
    let n ← U.lift car.number
    let m ← U.lift tgt.number
    let r ← sys (.dup2 (int32 n) (int32 m))
    pure (num (if r.ret < 0 then r.errno else r.ret))

/-- `accept` (`lib/mnml/unix/accept.c:9-62`). -/
def natAccept (x : Val) : U Val :=
  match x with
  | num n =>
    if n < 0 ∨ 4294967295 ≤ n then pure nil
    else do
      let r ← sys (.accept (int32 n))
      if r.ret < 0 then pure nil
      else
        match r.peer with
        | none => pure (cons (num r.ret) nil)
        | some (host, port) => pure (cons (num r.ret) (cons (Module.cstrVal host) (num port)))
  | _ => pure nil

/-- `listen` (`lib/mnml/unix/listen.c:15-79`). -/
def natListen (x : Val) : U Val :=
  match x with
  | num n =>
    if n < 0 ∨ 65535 ≤ n then pure nil
    else do
      let s ← sys .socket
      if s.ret < 0 then pure nil
      else do
        let r ← sys (.noDelay s.ret)
        if r.ret < 0 then do
          let _ ← sys (.close s.ret)
          pure nil
        else do
          let r ← sys (.reusePort s.ret)
          if r.ret < 0 then do
            let _ ← sys (.close s.ret)
            pure nil
          else do
            let r ← sys (.bind s.ret n.toNat)
            if r.ret < 0 then do
              let _ ← sys (.close s.ret)
              pure nil
            else do
              let r ← sys (.listen s.ret 5)
              if r.ret < 0 then do
                let _ ← sys (.close s.ret)
                pure nil
              else pure (num s.ret)
  | _ => pure nil

/-- A buffer of 1024 bytes (`lib/mnml/unix/connect.c:29-43`): the C string and the length that `lisp_make_cstring` returns. -/
def buf1024 (v : Val) : Res (List UInt8 × Nat) := do
  let (bytes, len) ← makeCString v 1024 0
  let b ← store 1024 bytes
  .ok (b.takeWhile (· ≠ 0), len)

/-- `connect` (`lib/mnml/unix/connect.c:15-91`). -/
def natConnect (address port : Val) : U Val :=
  if !(address.isString && port.isString) then pure nil
  else do
    let (host, len) ← U.lift (buf1024 address)
    if len = 0 then pure nil
    else do
      let (service, len) ← U.lift (buf1024 port)
      if len = 0 then pure nil
      else do
        let s ← sys .socket
        if s.ret < 0 then pure nil
        else do
          let r ← sys (.noDelay s.ret)
          if r.ret < 0 then do
            let _ ← sys (.close s.ret)
            pure nil
          else do
            let a ← sys (.getaddrinfo host service)
            if a.ret ≠ 0 then do
              let _ ← sys (.close s.ret)
              pure nil
            else do
              let r ← sys (.connect s.ret a.addr)
              if r.ret ≠ 0 then do
                let _ ← sys (.close s.ret)
                pure nil
              else pure (num s.ret)

/-- `lisp_exec_make_strings` (`lib/mnml/unix/exec.c:19-38`): the strings stored from index `idx` of an array with `cap` entries, the last
of which is followed by NULL. CAR and CDR of an atom are NIL. -/
def makeStrings (cap len : Nat) : Val → Nat → Res (List (List UInt8))
  | pair _ a d, idx =>
    if idx = len then (if idx < cap then .ok [] else .ub .outOfBounds)
    else do
      let s ← Module.cbuffer a Module.pathMax (Module.pathMax + 1)
      if idx < cap then do
        let rest ← makeStrings cap len d (idx + 1)
        .ok (s :: rest)
      else .ub .outOfBounds
  | nil, idx => if idx < cap then .ok [] else .ub .outOfBounds
  | _, idx =>
    if idx = len then (if idx < cap then .ok [] else .ub .outOfBounds)
    else if idx + 1 < cap then .ok [[]] else .ub .outOfBounds

/-- `exec` (`lib/mnml/unix/exec.c:40-68`). It never returns: the last call is `execve`, which replaces the program if it
succeeds (result 0), or `exit`. -/
def natExec (path args envp : Val) : U Unit := do
  let p ← U.lift (Module.cbuffer path Module.pathMax (Module.pathMax + 1))
  let argv ← U.lift (makeStrings 129 127 args 1)
  let env ← U.lift (makeStrings 129 128 envp 0)
  let r ← sys (.execve p (p :: argv) (if env.length = 0 then none else some env))
  if r.ret = 0 then pure ()
  else do
    let _ ← sys (.printError r.errno)
    let _ ← sys (.exit r.errno)
    pure ()

/-- Size of an `fd_set`. -/
def fdSetSize : Int := 1024

/-- `FD_SET` and `FD_ISSET` on a descriptor: outside of the set they access other memory. -/
def fdCheck (n : Int) : Res Unit := if 0 ≤ n ∧ n < fdSetSize then .ok () else .ub .outOfBounds

/-- `convert` (`lib/mnml/unix/select.c:8-33`): the largest descriptor and the set. -/
def selectSet : Val → Res (Int × List Int)
  | pair _ a d =>
    match a with
    | num n =>
      if 0 ≤ n ∧ n < 4294967295 then do
        fdCheck n
        let (nxt, l) ← selectSet d
        .ok (if n > nxt then n else nxt, n :: l)
      else do
        let (nxt, l) ← selectSet d
        .ok (if 0 > nxt then 0 else nxt, l)
    | _ => do
      let (nxt, l) ← selectSet d
      .ok (if 0 > nxt then 0 else nxt, l)
  | _ => .ok (-1, [])

/-- The action for one descriptor (`lib/mnml/unix/select.c:46-65`). -/
def action (ev : Val → U Val) (cb : Sym) (set : List Int) (a : Val) : U Val :=
  match a with
  | num n => do
    U.lift (fdCheck n)
    if n ∈ set then ev (cons (ofSym cb) (cons a nil)) else pure tru
  | _ => pure nil

/-- `process_r` (`lib/mnml/unix/select.c:35-101`). -/
def processR (ev : Val → U Val) (cb : Sym) (set : List Int) : Val → U Val
  | pair _ a d => do
    let act ← action ev cb set a
    match act with
    | num m => do
      let nxt ← processR ev cb set d
      let n ← U.lift a.number
      pure (if n ≠ m then cons act (cons a nxt) else cons a nxt)
    | nil => do
      let n ← U.lift a.number
      let _ ← sys (.close (int32 n))
      processR ev cb set d
    | _ => do
      let nxt ← processR ev cb set d
      pure (cons a nxt)
  | _ => pure nil

/-- The names of the callbacks. -/
def onRead : Sym := symLit ['O', 'N', '_', 'R', 'E', 'A', 'D']
/-- … -/
def onError : Sym := symLit ['O', 'N', '_', 'E', 'R', 'R', 'O', 'R']

/-- `select` (`lib/mnml/unix/select.c:114-153`) with its environment: `LISP_ARGS(closure, C, FDS)` takes the value of the first
binding. -/
def natSelect (ev : Val → Val → U Val) (closure : Val) : U Val :=
  match closure with
  | pair _ (pair _ _ fds) c =>
    if !(fds.isNil || fds.isPair) then pure nil
    else do
      let (mx, l) ← U.lift (selectSet fds)
      let r ← sys (.select (mx + 1) l l)
      if r.ret < 0 then pure nil
      else do
        let rres ← processR (ev c) onRead r.rd fds
        let eres ← processR (ev c) onError r.er fds
        pure (cons rres (cons eres nil))
  | _ => U.lift (.ub .badPointer)

/-- The parameters of `select` (`lib/mnml/unix/select.c:155`). -/
def selectArgs : Val := ofList [ofSym (symLit ['F', 'D', 'S']), ofSym onRead, ofSym onError]

/-- `(int64_t)u` for an unsigned number. -/
def int64 (u : Nat) : Int := if u % 2 ^ 64 < 2 ^ 63 then (u % 2 ^ 64 : Nat) else ((u % 2 ^ 64 : Nat) : Int) - 2 ^ 64

/-- `time` (`lib/mnml/sys/time.c:6-21`) with `lisp_timestamp` (`lib/core/utils.c:564-574`): unsigned arithmetic of 64 bits. -/
def natTime (ev : Val → U Val) (any : Val) : U Val := do
  let b ← sys .clock
  if any.isNil then pure (num (int64 b.now))
  else do
    let _ ← ev any.car
    let e ← sys .clock
    pure (num (int64 ((e.now % 2 ^ 64 + 2 ^ 64 - b.now % 2 ^ 64) % 2 ^ 64)))

end Unix
end Mnml
