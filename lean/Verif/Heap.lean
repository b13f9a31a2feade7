import Verif.Eval
import Verif.Slab

/-!
# The cell level model: memory

The interpreter at the level of memory cells: addresses, reference counts, sharing and updates in
place. This file models the memory itself, the atom makers and the list primitives of
`include/mnml/lisp.h`, `lib/core/lisp.c` and `lib/core/utils.c`; `Verif.HeapEval` models the evaluator and
the natives on top of it.

Every access to a cell goes through `cell`, `modify` or `free`, which give the outcome
`useAfterFree` when the cell is not allocated. Simplifications:
* where new cells are placed is a parameter (`Alloc`). The theorems about memory are for a memory in which no address is ever
  used twice (`apart`), which makes every access to a released cell visible; `Verif.PropReuse` shows that the memory of the C code, where `Verif.Slab`
  hands out released cells again, behaves the same;
* the reference count is a natural number instead of 32 bits;
* the recursions of the C code on lists that may be cyclic take a bound `n` (outcome `oof`);
* the global table is a list of its entries `(K . V)` with their keys, without the cells of the
  tree's nodes (justified by `Verif.PropTree`: the tree is a map whose entries stay in place).
-/

namespace Mnml
namespace Heap

/-- The address of a cell is a number. -/
scoped macro "Addr" : term => `(Nat)

/-- Type and payload of a cell (`include/mnml/types.h:30-40`, `83-88`). -/
inductive Data where
  | nil
  | tru
  | wild
  | chr (c : Int)
  | num (n : Int)
  | sym (s : Sym)
  | pair (car cdr : Addr)
deriving DecidableEq

namespace Data
/-- The value of an atom that is not a pair. -/
def atom : Data → Option Val
  | nil => some .nil
  | tru => some .tru
  | wild => some .wild
  | chr c => some (.chr c)
  | num n => some (.num n)
  | sym s => some (.sym false s)
  | pair .. => none

/-- `IS_NULL` (`types.h:94`). -/
def isNil : Data → Bool | nil => true | _ => false
/-- `IS_TRUE` (`types.h:95`). -/
def isTrue : Data → Bool | tru => true | _ => false
/-- `IS_WILD` (`types.h:96`). -/
def isWild : Data → Bool | wild => true | _ => false
/-- `IS_CHAR` (`types.h:97`). -/
def isChr : Data → Bool | chr _ => true | _ => false
/-- `IS_NUMB` (`types.h:98`). -/
def isNum : Data → Bool | num _ => true | _ => false
/-- `IS_PAIR` (`types.h:99`). -/
def isPair : Data → Bool | pair .. => true | _ => false
/-- `IS_SYMB` (`types.h:100`). -/
def isSym : Data → Bool | sym _ => true | _ => false
/-- `IS_LIST` (`types.h:102`). -/
def isList (d : Data) : Bool := d.isPair || d.isNil

/-- The type tag (`types.h:30-40`). -/
def type : Data → Nat
  | nil => 1 | tru => 2 | chr _ => 3 | num _ => 4 | pair .. => 5 | sym _ => 6 | wild => 7

/-- The payload read as a symbol, see `Val.tag`. -/
def tag (d : Data) : Option Sym := d.atom.bind Val.tag

/-- `lisp_symbol_match(a, s)` (`include/mnml/utils.h:107-116`), see `Val.symIs`. -/
def symIs (d : Data) (s : Sym) : Bool :=
  match d.tag with
  | some t => symMatch t s
  | none => false

/-- The payload read as a number, see `Val.number`. -/
def number (d : Data) : Res Int :=
  match d.atom with
  | some v => v.number
  | none => .ub .pairAsNumber
end Data

/-- A cell (`struct atom`, `include/mnml/types.h:73-89`): reference count, tail-call flag, cache,
payload. The colour and weak flags are only used by the tree (`Verif.Tree`). -/
structure Cell where
  refs : Nat
  tc : Bool
  cache : Option Addr
  data : Data

/-- The state: the memory, the next address, the entries of the global table, the output. The next two
components record, for the proofs only, what the code has abandoned: references that
nobody will release (`leaked`) and cells whose content has been released although the cell has not (`zombies`);
they do not influence the execution, except that reading a stale argument is reported (`fresh`). The last one
but one selects the strict mode, which refuses to change cells that other values may share (`guard`); the C code
corresponds to the value `false`. The last one is the slab: its free list and its counters; the contents of the cells in use are in `mem`. -/
structure HSt where
  mem : Addr → Option Cell
  next : Addr
  globals : List (Sym × Addr)
  out : List UInt8
  leaked : List Addr
  zombies : List Addr
  strict : Bool
  pool : Slab.Slab

/-- State-passing computations on the heap. -/
def HM (α : Type) : Type := HSt → Res (α × HSt)

namespace HM
/-- Return without effect. -/
def pure {α : Type} (a : α) : HM α := fun s => .ok (a, s)
/-- Sequencing. -/
def bind {α β : Type} (x : HM α) (f : α → HM β) : HM β := fun s => x s >>= fun p => f p.1 p.2
instance : Monad HM where
  pure := pure
  bind := bind
/-- A computation that does not look at the state. -/
def lift {α : Type} (r : Res α) : HM α := fun s => r >>= fun a => .ok (a, s)
/-- Out of fuel. -/
def oof {α : Type} : HM α := fun _ => .oof
/-- Outside of the model. -/
def unsupported {α : Type} : HM α := fun _ => .unsupported
/-- Undefined behaviour. -/
def ub {α : Type} (u : UB) : HM α := fun _ => .ub u
end HM

/-- Update of a memory. -/
def upd (m : Addr → Option Cell) (a : Addr) (v : Option Cell) : Addr → Option Cell :=
  fun x => if x = a then v else m x

/-- Where new cells are placed, what happens to the slab when a cell is released, and which of the abandoned cells are watched (`fresh`). -/
class Alloc where
  place : HSt → Res (Addr × Slab.Slab)
  give : Slab.Slab → Addr → Slab.Slab
  watch : List Addr → List Addr

/-- No address is used twice. -/
instance apart : Alloc := ⟨fun s => .ok (s.next, s.pool), fun p _ => p, fun l => l⟩

/-- `slab_allocate` (`lib/core/slab.c:127-152`) and `slab_deallocate` (`lib/core/slab.c:154-167`). -/
@[instance_reducible] def slabs : Alloc where
  place s :=
    match Slab.allocate s.pool with
    | some r => .ok r
    | none => .abort
  give := Slab.deallocate
  watch _ := []

variable [Alloc]

/-- Read a cell. -/
def cell (a : Addr) : HM Cell := fun s =>
  match s.mem a with
  | some c => .ok (c, s)
  | none => .ub .useAfterFree

/-- Write a cell. -/
def modify (a : Addr) (f : Cell → Cell) : HM Unit := fun s =>
  match s.mem a with
  | some c => .ok ((), { s with mem := upd s.mem a (some (f c)) })
  | none => .ub .useAfterFree

/-- `slab_deallocate` (`lib/core/slab.c:158-186`): releasing a released cell is an error. -/
def free (a : Addr) : HM Unit := fun s =>
  match s.mem a with
  | some _ => .ok ((), { s with mem := upd s.mem a none, pool := Alloc.give s.pool a })
  | none => .ub .useAfterFree

/-- `lisp_allocate` (`lib/core/lisp.c:44-48`) and the initialisation done by the makers
(`include/mnml/lisp.h:154-227`, `319-329`): one reference, no flag, no cache. -/
def alloc (d : Data) : HM Addr := fun s => do
  let (a, p) ← Alloc.place s
  .ok (a, { s with mem := upd s.mem a (some ⟨1, false, none, d⟩), next := s.next + 1, pool := p })

/-- Before a change of cells in place: in strict mode the change is refused unless `ok` says that nothing else
refers to the cells. No effect otherwise. -/
def guard (ok : Bool) : HM Unit := fun s => if s.strict && !ok then .unsupported else .ok ((), s)

/-- The cells of the value at `a`, in order; none if it has more levels than the bound. -/
def cellsOf (m : Addr → Option Cell) : Nat → Addr → Option (List Addr)
  | 0, _ => none
  | n + 1, a =>
    match m a with
    | some c =>
      match c.data with
      | .pair x y =>
        match cellsOf m n x, cellsOf m n y with
        | some l, some r => some (a :: (l ++ r))
        | _, _ => none
      | _ => some [a]
    | none => none

/-- The cell has a single reference. -/
def single (m : Addr → Option Cell) (a : Addr) : Bool :=
  match m a with
  | some c => c.refs == 1
  | none => false

/-- Nothing else refers to the value `a` of the first binding of the environment `full`, nor to a part of it. -/
def loneArg (m : Addr → Option Cell) (n : Nat) (full a : Addr) : Bool :=
  match m full with
  | some c =>
    match c.data with
    | .pair b _ =>
      match m b with
      | some cb =>
        match cb.data with
        | .pair _ x =>
          match cellsOf m n a with
          | some l => x == a && decide (full :: b :: l).Nodup && (full :: b :: l).all (single m)
          | none => false
        | _ => false
      | none => false
    | _ => false
  | none => false

/-- The first `n` levels of the value at `a` are there. -/
def there (m : Addr → Option Cell) : Nat → Addr → Bool
  | 0, _ => true
  | n + 1, a =>
    match m a with
    | some c =>
      match c.data with
      | .pair x y => there m n x && there m n y
      | _ => true
    | none => false

/-- Is the argument of a native unshared? The answer only matters in strict mode. -/
def loneH (n : Nat) (full a : Addr) : HM Bool := fun s =>
  if there s.mem 2 full && there s.mem n a then .ok (loneArg s.mem n full a, s) else .ub .useAfterFree

/-- `UP` (`include/mnml/slab.h:44`). -/
def up (a : Addr) : HM Unit := modify a fun c => { c with refs := c.refs + 1 }

/-- The type and payload of a cell. -/
def dataOf (a : Addr) : HM Data := do
  let c ← cell a
  pure c.data

/-- `CAR` and `CDR` (`include/mnml/types.h:91-92`): the payload of anything but a pair is not a pointer. -/
def pairOf (a : Addr) : HM (Addr × Addr) := do
  let d ← dataOf a
  match d with
  | .pair x y => pure (x, y)
  | _ => HM.ub .badPointer

/-- Assign the payload. -/
def setData (a : Addr) (d : Data) : HM Unit := modify a fun c => { c with data := d }

/-- `SET_TAIL_CALL` (`include/mnml/types.h:113`). -/
def setTail (a : Addr) : HM Unit := modify a fun c => { c with tc := true }

/-- The macro `X` (`include/mnml/lisp.h:66-72`) with `lisp_deallocate` (`lib/core/lisp.c:50-70`): one
reference less; without references a cell releases its content and itself. A count of zero would wrap around. The weak
flag is only used by the tree. -/
def release : Nat → Addr → HM Unit
  | 0, _ => HM.oof
  | n + 1, a => do
    let c ← cell a
    if c.refs = 0 then HM.ub .useAfterFree
    else do
      modify a fun c => { c with refs := c.refs - 1 }
      if c.refs = 1 then
        match c.data with
        | .pair x y => do
          release n x
          release n y
          free a
        | _ => free a
      else pure ()

/-- `X` on one cell. The bound of `release` is never reached (`Verif.HeapInv`). -/
def X (a : Addr) : HM Unit := fun s => release (s.next + 1) a s

/-- `X` on several cells, in order (`include/mnml/lisp.h:74-122`). -/
def Xs : List Addr → HM Unit
  | [] => pure ()
  | a :: as => do
    X a
    Xs as

/-! ## Atom makers (`include/mnml/lisp.h:154-241`) -/

/-- `lisp_make_nil`. -/
def mkNil : HM Addr := alloc .nil
/-- `lisp_make_true`. -/
def mkTrue : HM Addr := alloc .tru
/-- `lisp_make_number`. -/
def mkNum (n : Int) : HM Addr := alloc (.num n)
/-- `lisp_make_char`. -/
def mkChr (n : Int) : HM Addr := alloc (.chr n)
/-- `lisp_make_symbol`. -/
def mkSym (s : Sym) : HM Addr := alloc (.sym s)
/-- Truth values made by the natives. -/
def mkBool (b : Bool) : HM Addr := if b then mkTrue else mkNil

/-- `lisp_cons` (`include/mnml/lisp.h:319-329`); consumes its arguments. -/
def consH (x y : Addr) : HM Addr := alloc (.pair x y)

/-- `lisp_car` (`include/mnml/lisp.h:296-303`). -/
def carH (a : Addr) : HM Addr := do
  let d ← dataOf a
  match d with
  | .pair x _ => do
    up x
    pure x
  | _ => mkNil

/-- `lisp_cdr` (`include/mnml/lisp.h:305-312`). -/
def cdrH (a : Addr) : HM Addr := do
  let d ← dataOf a
  match d with
  | .pair _ y => do
    up y
    pure y
  | _ => mkNil

/-- The loop `FOREACH(c, p) { NEXT(p); }` (`include/mnml/lisp.h:14-22`): the last pair of a list. -/
def lastPair : Nat → Addr → HM Addr
  | 0, _ => HM.oof
  | n + 1, a => do
    let (_, y) ← pairOf a
    let d ← dataOf y
    if d.isPair then lastPair n y else pure a

/-- `lisp_conc` (`lib/core/lisp.c:137-159`): the last CDR of the first list is overwritten in place. -/
def concH (n : Nat) (car cdr : Addr) : HM Addr := do
  let d ← dataOf car
  if d.isPair then do
    let p ← lastPair n car
    let (_, y) ← pairOf p
    X y
    let (x, _) ← pairOf p
    setData p (.pair x cdr)
    pure car
  else do
    X car
    pure cdr

/-- `lisp_append` (`lib/core/utils.c:106-111`). -/
def appendH (n : Nat) (lst elt : Addr) : HM Addr := do
  let nl ← mkNil
  let con ← consH elt nl
  concH n lst con

/-- In strict mode, refuse a cell with the tail-call flag. -/
def noFlag (a : Addr) : HM Unit := do
  let c ← cell a
  guard (!c.tc)

/-- `lisp_dup` (`lib/core/utils.c:177-185`): the copies have no flags. Strict mode refuses to copy a flagged cell. -/
def dupH : Nat → Addr → HM Addr
  | 0, _ => HM.oof
  | n + 1, a => do
    let d ← dataOf a
    match d with
    | .pair x y => do
      noFlag a
      let rem ← dupH n y
      up x
      consH x rem
    | _ => do
      up a
      pure a

/-- `lisp_symbol_compare` on the payloads of two cells (`include/mnml/utils.h:125-129`). -/
def compareH (a b : Addr) : HM Ordering := do
  let x ← dataOf a
  let y ← dataOf b
  match x.tag, y.tag with
  | some s, some t => pure (symCompare s t)
  | _, _ => HM.ub .pairAsNumber

/-- `lisp_sss` (`lib/core/utils.c:191-230`); consumes both arguments. -/
def sssH : Nat → Addr → Addr → HM Addr
  | 0, _, _ => HM.oof
  | n + 1, root, kvp => do
    let d ← dataOf root
    if d.isNil then consH kvp root
    else do
      let (car, cdr) ← pairOf root
      let (k, _) ← pairOf car
      let (k', _) ← pairOf kvp
      let o ← compareH k k'
      match o with
      | .lt => do
        let r ← sssH n cdr kvp
        let (x, _) ← pairOf root
        setData root (.pair x r)
        pure root
      | .eq => do
        setData root (.pair kvp cdr)
        X car
        pure root
      | .gt => consH kvp root

/-- The loop of `lisp_merge`. -/
def mergeLoop : Nat → Addr → Addr → HM Addr
  | 0, _, _ => HM.oof
  | n + 1, root, a => do
    let (kvp, _) ← pairOf a
    up kvp
    let root' ← sssH n root kvp
    let (_, y) ← pairOf a
    let d ← dataOf y
    if d.isPair then mergeLoop n root' y else pure root'

/-- `lisp_merge` (`lib/core/utils.c:236-246`); consumes `root`. -/
def mergeH (n : Nat) (root alst : Addr) : HM Addr := do
  let d ← dataOf alst
  if d.isNil then pure root else mergeLoop n root alst

/-- `lisp_equ` (`lib/core/utils.c:117-144`). -/
def equH : Nat → Addr → Addr → HM Bool
  | 0, _, _ => HM.oof
  | n + 1, a, b => do
    let x ← dataOf a
    let y ← dataOf b
    match x, y with
    | .nil, .nil => pure true
    | .tru, .tru => pure true
    | .wild, .wild => pure true
    | .chr p, .chr q => pure (p == q)
    | .num p, .num q => pure (p == q)
    | .sym p, .sym q => pure (symMatch p q)
    | .pair p q, .pair p' q' => do
      let r ← equH n p p'
      if r then equH n q q' else pure false
    | _, _ => pure false

/-- `lisp_neq` (`lib/core/utils.c:150-171`). -/
def neqH : Nat → Addr → Addr → HM Bool
  | 0, _, _ => HM.oof
  | n + 1, a, b => do
    let x ← dataOf a
    let y ← dataOf b
    match x, y with
    | .chr p, .chr q => pure (p != q)
    | .num p, .num q => pure (p != q)
    | .sym p, .sym q => pure (!symMatch p q)
    | .pair p q, .pair p' q' => do
      let r ← neqH n p p'
      if r then pure true else neqH n q q'
    | x, y => pure (x.type != y.type)

/-- `atom_match` (`lib/mnml/std/match.c:5-25`). -/
def matchH : Nat → Addr → Addr → HM Bool
  | 0, _, _ => HM.oof
  | n + 1, a, b => do
    let x ← dataOf a
    if x.isWild then pure true
    else do
      let y ← dataOf b
      match x, y with
      | .nil, .nil => pure true
      | .tru, .tru => pure true
      | .chr p, .chr q => pure (p == q)
      | .num p, .num q => pure (p == q)
      | .sym p, .sym q => pure (symMatch p q)
      | .pair p q, .pair p' q' => do
        let r ← matchH n p p'
        if r then matchH n q q' else pure false
      | _, _ => pure false

/-- `lisp_len` (`lib/core/utils.c:90-100`) on a pair. -/
def lenH : Nat → Addr → HM Nat
  | 0, _ => HM.oof
  | n + 1, a => do
    let d ← dataOf a
    match d with
    | .pair _ y => do
      let r ← lenH n y
      pure (r + 1)
    | _ => pure 0

/-- `lisp_is_string` (`lib/core/utils.c:252-277`). -/
def isStringH : Nat → Addr → HM Bool
  | 0, _ => HM.oof
  | n + 1, a => do
    let d ← dataOf a
    match d with
    | .nil => pure true
    | .pair x y => do
      let c ← dataOf x
      if c.isChr then isStringH n y else pure false
    | _ => pure false

/-- `lisp_make_cstring` (`lib/core/utils.c:283-300`), see `makeCString`: the bytes stored and the index. -/
def cstringH : Nat → Addr → Nat → Nat → HM (List UInt8 × Nat)
  | 0, _, _, _ => HM.oof
  | n + 1, a, len, idx => do
    let d ← dataOf a
    if d.isNil || idx == len then pure ([0], idx)
    else do
      let (x, y) ← pairOf a
      let (rest, res) ← cstringH n y len (idx + 1)
      let c ← dataOf x
      let k ← HM.lift c.number
      pure (byteOf k :: rest, res)

/-- `lisp_process_escapes` (`lib/core/utils.c:306-351`); consumes `cell` and `res`. -/
def escapesH : Nat → Addr → Bool → Addr → HM Addr
  | 0, _, _, _ => HM.oof
  | n + 1, a, esc, res => do
    let d ← dataOf a
    if d.isNil then do
      X a
      pure res
    else do
      let car ← carH a
      let cdr ← cdrH a
      X a
      let c ← dataOf car
      let k ← HM.lift c.number
      if esc then
        if toChar k = chN then do
          X car
          let car' ← mkChr 10
          let nxt ← appendH n res car'
          escapesH n cdr false nxt
        else if toChar k = chT then do
          X car
          let car' ← mkChr 9
          let nxt ← appendH n res car'
          escapesH n cdr false nxt
        else do
          let nxt ← appendH n res car
          escapesH n cdr false nxt
      else if k = chBackslash then do
        X car
        escapesH n cdr true res
      else do
        let nxt ← appendH n res car
        escapesH n cdr false nxt

/-- The list of the given characters (`lib/core/lisp.c:79-83`), consed from the last to the first. -/
def charsH : List Int → HM Addr
  | [] => mkNil
  | k :: ks => do
    let res ← charsH ks
    let c ← mkChr k
    consH c res

/-- `lisp_make_string` (`lib/core/lisp.c:76-85`). -/
def makeStringH (n : Nat) (bytes : List UInt8) : HM Addr := do
  let res ← charsH (bytes.map charOf)
  let nl ← mkNil
  escapesH n res false nl

/-- `lisp_may_apply` (`lib/core/utils.c:357-388`). -/
def mayApplyH : Nat → Addr → Addr → HM Bool
  | 0, _, _ => HM.oof
  | n + 1, args, vals => do
    let x ← dataOf args
    let y ← dataOf vals
    match x, y with
    | .nil, .nil => pure true
    | .sym _, _ => pure true
    | .nil, _ => pure false
    | _, .nil => pure true
    | .pair _ p, .pair _ q => mayApplyH n p q
    | _, _ => pure false

/-- `lisp_bind` (`lib/core/lisp.c:165-206`); consumes all its arguments. -/
def bindH : Nat → Addr → Addr → Addr → HM Addr
  | 0, _, _, _ => HM.oof
  | n + 1, closure, arg, val => do
    let d ← dataOf arg
    match d with
    | .pair .. => do
      let sym ← carH arg
      let vl0 ← carH val
      let oth ← cdrH arg
      let rem ← cdrH val
      Xs [arg, val]
      let cl0 ← bindH n closure sym vl0
      bindH n cl0 oth rem
    | .sym _ => do
      let kvp ← consH arg val
      consH kvp closure
    | _ => do
      Xs [arg, val]
      pure closure

/-! ## Tail calls (`lib/core/utils.c:394-558`) -/

mutual
/-- `lisp_collect_tails_assoc` (`lib/core/utils.c:396-431`); consumes `cell`. -/
def tailsAssocH (n : Nat) (a : Addr) : HM Addr :=
  match n with
  | 0 => HM.oof
  | n + 1 => do
    let d ← dataOf a
    if d.isNil then pure a
    else if !d.isPair then do
      X a
      mkNil
    else do
      let car ← carH a
      let cdr ← cdrH a
      X a
      let e ← cdrH car
      let head ← tailsH n e
      X car
      let tail ← tailsAssocH n cdr
      concH n head tail
/-- `lisp_collect_tails` (`lib/core/utils.c:433-518`); consumes `cell`. -/
def tailsH (n : Nat) (a : Addr) : HM Addr :=
  match n with
  | 0 => HM.oof
  | n + 1 => do
    let d ← dataOf a
    match d with
    | .pair x _ => do
      let h ← dataOf x
      match h with
      | .sym s =>
        if s = sIf then do
          let cd0 ← cdrH a
          let cd1 ← cdrH cd0
          let e1 ← carH cd1
          let thn ← tailsH n e1
          let cd2 ← cdrH cd1
          let e2 ← carH cd2
          let els ← tailsH n e2
          Xs [a, cd0, cd1, cd2]
          concH n thn els
        else if s = sCond || s = sMatch then do
          let cd0 ← cdrH a
          let cd1 ← cdrH cd0
          let res ← tailsAssocH n cd1
          Xs [a, cd0]
          pure res
        else if s = sProg || s = sStream then do
          let p ← lastPair n a
          let (last, _) ← pairOf p
          up last
          let res ← tailsH n last
          X a
          pure res
        else if s = sUnless || s = sWhen then do
          let cd0 ← cdrH a
          let cd1 ← cdrH cd0
          let e1 ← carH cd1
          let res ← tailsH n e1
          Xs [a, cd0, cd1]
          pure res
        else do
          let nl ← mkNil
          consH a nl
      | _ => do
        let nl ← mkNil
        consH a nl
    | .nil => pure a
    | _ => do
      let nl ← mkNil
      consH a nl
end

/-- Set the flag of a head; in strict mode only if nothing else refers to it (`p`) or the flag is set already. -/
def markH (p : Bool) (x : Addr) : HM Unit := do
  let c ← cell x
  guard (p || c.tc)
  setTail x

/-- The marking of one tail (`lib/core/utils.c:545-551`). -/
def markOneH (p : Bool) (n : Nat) (s : Sym) (args t : Addr) : HM Unit := do
  let d ← dataOf t
  match d with
  | .pair x y => do
    let h ← dataOf x
    if h.symIs s then do
      let b ← mayApplyH n args y
      if b then markH p x else pure ()
    else pure ()
  | _ => pure ()

/-- The marking loop (`lib/core/utils.c:543-553`). -/
def markLoopH (p : Bool) : Nat → Sym → Addr → Addr → HM Unit
  | 0, _, _, _ => HM.oof
  | n + 1, s, args, a => do
    let (t, y) ← pairOf a
    markOneH p n s args t
    let d ← dataOf y
    if d.isPair then markLoopH p n s args y else pure ()

/-- `lisp_mark_tail_calls` (`lib/core/utils.c:520-558`), with the payload `s` of the name. `FOREACH` on a
body that is not a pair reads a pointer from its payload. -/
def markTailCallsH (p : Bool) (n : Nat) (s : Sym) (args body : Addr) : HM Unit := do
  let l ← lastPair n body
  let (last, _) ← pairOf l
  up last
  let tails ← tailsH n last
  let d ← dataOf tails
  if d.isNil then X tails
  else do
    markLoopH p n s args tails
    X tails

end Heap
end Mnml
