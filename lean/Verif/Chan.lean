import Verif.Read

/-!
# The channel stacks

Models what `in`, `out`, `load`, `read`, `readline` and the printing natives do to the stacks of channels `lisp->ichan` and `lisp->ochan`. What a
program does between these operations does not matter to them: a program is an arbitrary tree of such operations, that may continue
depending on what it reads.
-/

namespace Mnml
namespace Lex

open Val

/-- The operations of a program on its channels. A file that cannot be opened is `none` (`false` for output): `in`, `out` and `load` then return before
they push a channel (`lib/mnml/io/in.c:43-79`, `lib/mnml/io/out.c:48-74`, `lib/core/utils.c:661-689`). -/
inductive Act where
  | skip
  | seq (a b : Act)
  /-- `read`; `none` is the end of the file -/
  | read (k : Option Val → Act)
  | readline (k : Val → Act)
  /-- one of the printing natives -/
  | print (bytes : List UInt8)
  | inn (file : Option (List UInt8)) (body : Act)
  | out (ok : Bool) (body : Act)
  /-- `load` of a script: every value read is evaluated, which performs the operations `k` -/
  | load (file : Option (List UInt8)) (k : Val → Act)

/-- The stacks (top first); `next` is the handle of the next file opened; `log` has everything written, with its handle. -/
structure IOSt where
  ich : List (Nat × IChan)
  och : List Nat
  next : Nat
  log : List (Nat × List UInt8)

/-- `PUSH_IO_CONTEXT` (`include/mnml/utils.h:135-142`) on the input stack; the directory is not modelled. -/
def pushIn (file : List UInt8) (s : IOSt) : IOSt :=
  ⟨(s.next, ⟨file, []⟩) :: s.ich, s.och, s.next + 1, s.log⟩

/-- `PUSH_IO_CONTEXT` on the output stack. -/
def pushOut (s : IOSt) : IOSt := ⟨s.ich, s.next :: s.och, s.next + 1, s.log⟩

/-- `POP_IO_CONTEXT` (`include/mnml/utils.h:144-149`) on the input stack. -/
def popIn (s : IOSt) : IOSt := ⟨s.ich.tail, s.och, s.next, s.log⟩

/-- `POP_IO_CONTEXT` on the output stack. -/
def popOut (s : IOSt) : IOSt := ⟨s.ich, s.och.tail, s.next, s.log⟩

/-- `lisp_read` on the top of the stack; reading without a channel dereferences NIL. -/
def readTop (ev : Val → Res Val) (n : Nat) (s : IOSt) : Res (Option Val × IOSt) :=
  match s.ich with
  | [] => .ub .badPointer
  | (h, c) :: cs => do
    let (v, c') ← readCh ev n c
    .ok (v, ⟨(h, c') :: cs, s.och, s.next, s.log⟩)

mutual
/-- Running a program. -/
def run (ev : Val → Res Val) : Nat → Act → IOSt → Res IOSt
  | 0, _, _ => .oof
  | _ + 1, .skip, s => .ok s
  | n + 1, .seq a b, s => do
    let s ← run ev n a s
    run ev n b s
  | n + 1, .read k, s => do
    let (v, s) ← readTop ev n s
    run ev n (k v) s
  | n + 1, .readline k, s =>
    match s.ich with
    | [] => .ub .badPointer
    | (h, c) :: cs => run ev n (k (natReadline c).1) ⟨(h, (natReadline c).2) :: cs, s.och, s.next, s.log⟩
  | _ + 1, .print bytes, s =>
    match s.och with
    | [] => .ub .badPointer
    | h :: _ => .ok ⟨s.ich, s.och, s.next, s.log ++ [(h, bytes)]⟩
  | _ + 1, .inn none _, s => .ok s
  | n + 1, .inn (some f) body, s => do
    let s ← run ev n body (pushIn f s)
    .ok (popIn s)
  | _ + 1, .out false _, s => .ok s
  | n + 1, .out true body, s => do
    let s ← run ev n body (pushOut s)
    .ok (popOut s)
  | _ + 1, .load none _, s => .ok s
  | n + 1, .load (some f) k, s => do
    let s ← loadLoop ev n k (pushIn f s)
    .ok (popIn s)
/-- The loop of `lisp_load_file` (`lib/core/utils.c:699-702`). -/
def loadLoop (ev : Val → Res Val) : Nat → (Val → Act) → IOSt → Res IOSt
  | 0, _, _ => .oof
  | n + 1, k, s => do
    let (v, s) ← readTop ev n s
    match v with
    | none => .ok s
    | some v => do
      let s ← run ev n (k v) s
      loadLoop ev n k s
end

end Lex
end Mnml
