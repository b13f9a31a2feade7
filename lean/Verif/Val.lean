import Verif.Basic

/-!
# Values as immutable trees

Models the read-only helpers of `lib/core/utils.c`, `lib/core/lisp.c` and
`lib/mnml/std/match.c` on values seen as finite trees of atoms. The cell level view (addresses, reference
counts, sharing) is in `Verif.Heap`.
-/

namespace Mnml

/-- A lisp value (`struct atom`, `include/mnml/types.h:73-89`) seen as a tree. The `tc` component of
symbols and pairs is the `F_TAIL_CALL` flag (`types.h:44`), which evaluation looks at. Characters and
numbers carry the `number` member. Simplification: the tail-call flag of the other types is never
read by the code and is not represented; neither are the cache and the reference count. -/
inductive Val where
  | nil
  | tru
  | wild
  | chr (c : Int)
  | num (n : Int)
  | sym (tc : Bool) (s : Sym)
  | pair (tc : Bool) (car cdr : Val)
deriving DecidableEq

instance : Inhabited Val := ⟨.nil⟩

namespace Val

/-- `atom_type_t` (`include/mnml/types.h:30-40`). -/
def type : Val → Nat
  | nil => 1
  | tru => 2
  | chr _ => 3
  | num _ => 4
  | pair .. => 5
  | sym .. => 6
  | wild => 7

/-- `lisp_cons` (`include/mnml/lisp.h:319-329`). -/
abbrev cons (a d : Val) : Val := pair false a d

/-- A symbol atom without flag. -/
abbrev ofSym (s : Sym) : Val := sym false s

/-- `lisp_car` (`include/mnml/lisp.h:296-303`): NIL on anything but a pair. -/
def car : Val → Val
  | pair _ a _ => a
  | _ => nil

/-- `lisp_cdr` (`include/mnml/lisp.h:305-312`): NIL on anything but a pair. -/
def cdr : Val → Val
  | pair _ _ d => d
  | _ => nil

/-- `IS_NULL` (`types.h:94`). -/
def isNil : Val → Bool | nil => true | _ => false
/-- `IS_TRUE` (`types.h:95`). -/
def isTrue : Val → Bool | tru => true | _ => false
/-- `IS_WILD` (`types.h:96`). -/
def isWild : Val → Bool | wild => true | _ => false
/-- `IS_CHAR` (`types.h:97`). -/
def isChr : Val → Bool | chr _ => true | _ => false
/-- `IS_NUMB` (`types.h:98`). -/
def isNum : Val → Bool | num _ => true | _ => false
/-- `IS_PAIR` (`types.h:99`). -/
def isPair : Val → Bool | pair .. => true | _ => false
/-- `IS_SYMB` (`types.h:100`). -/
def isSym : Val → Bool | sym .. => true | _ => false
/-- `IS_LIST` (`types.h:102`). -/
def isList (v : Val) : Bool := v.isPair || v.isNil
/-- `IS_ATOM` (`types.h:103`). -/
def isAtom (v : Val) : Bool := !v.isList

/-- `IS_TAIL_CALL` (`types.h:109`). -/
def isTailCall : Val → Bool
  | sym tc _ => tc
  | pair tc _ _ => tc
  | _ => false

/-- `IS_FUNC` with `IS_ARGS`, `IS_CLOS`, `IS_BODY` (`include/mnml/types.h:127-132`):
`(ARGS CLOSURE . BODY)` where ARGS is a list or a symbol, CLOSURE a list and BODY a pair or a
number. -/
def isFunc : Val → Bool
  | pair _ args (pair _ clos body) =>
    (args.isList || args.isSym) && clos.isList && (body.isPair || body.isNum)
  | _ => false

/-- Little-endian bytes of an `int64_t`. -/
def leBytes (n : Int) : List UInt8 :=
  (List.range 8).map fun i => UInt8.ofNat ((n / (256 ^ i : Nat)) % 256).toNat

/-- The 16 bytes of the payload union read as a symbol (`a->symbol`, `types.h:83-88`), which is what
`lisp_symbol_match`/`lisp_symbol_compare` do without checking the type. Numbers and characters
occupy the first 8 bytes, the payload of NIL, T and `_` is zero (the allocator zeroes cells and the
makers do not write it). The payload of a pair is two addresses, which are not modelled. -/
def tag : Val → Option Sym
  | sym _ s => some s
  | nil => some ⟨List.replicate 16 0, rfl⟩
  | tru => some ⟨List.replicate 16 0, rfl⟩
  | wild => some ⟨List.replicate 16 0, rfl⟩
  | chr n => some ⟨leBytes n ++ List.replicate 8 0, by simp [leBytes]⟩
  | num n => some ⟨leBytes n ++ List.replicate 8 0, by simp [leBytes]⟩
  | pair .. => none

/-- `lisp_symbol_match(a, s)` (`include/mnml/utils.h:107-116`) on an arbitrary atom. Simplification:
the two addresses stored in a pair are assumed never to spell the name `s` (user-space
addresses have zero top bytes, symbol names have no byte after a NUL). -/
def symIs (a : Val) (s : Sym) : Bool :=
  match a.tag with
  | some t => symMatch t s
  | none => false

/-- Equality of values, `lisp_equ` (`lib/core/utils.c:117-144`). -/
def equ : Val → Val → Bool
  | nil, nil => true
  | tru, tru => true
  | wild, wild => true
  | chr a, chr b => a == b
  | num a, num b => a == b
  | pair _ a d, pair _ a' d' => equ a a' && equ d d'
  | sym _ a, sym _ b => symMatch a b
  | _, _ => false

/-- Inequality, `lisp_neq` (`lib/core/utils.c:150-171`): a separate recursion in the C code. -/
def neq (a b : Val) : Bool :=
  let mismatch := a.type != b.type
  match a, b with
  | chr x, chr y => mismatch || x != y
  | num x, num y => mismatch || x != y
  | pair _ x y, pair _ x' y' => mismatch || neq x x' || neq y y'
  | sym _ x, sym _ y => mismatch || !symMatch x y
  | _, _ => mismatch

/-- `atom_match` (`lib/mnml/std/match.c:5-25`); the pattern is the first argument. -/
def atomMatch : Val → Val → Bool
  | wild, _ => true
  | nil, nil => true
  | tru, tru => true
  | chr a, chr b => a == b
  | num a, num b => a == b
  | pair _ a d, pair _ a' d' => atomMatch a a' && atomMatch d d'
  | sym _ a, sym _ b => symMatch a b
  | _, _ => false

/-- `lisp_len` (`lib/core/utils.c:90-100`): the number of pairs along the CDRs. Only called on
lists (`lib/mnml/std/len.c:11`). -/
def len : Val → Nat
  | pair _ _ d => len d + 1
  | _ => 0

/-- `lisp_is_string` (`lib/core/utils.c:252-277`). -/
def isString : Val → Bool
  | nil => true
  | pair _ a d => a.isChr && isString d
  | _ => false

/-- `lisp_conc` (`lib/core/lisp.c:137-159`) by value. Simplification: the C function overwrites the
last CDR of its first argument in place, so other references to that list see the change too; the
cell level model (`Verif.Heap`) has that effect. -/
def conc : Val → Val → Val
  | pair tc a d, e => if d.isPair then pair tc a (conc d e) else pair tc a e
  | _, e => e

/-- `lisp_append` (`lib/core/utils.c:106-111`). -/
def append (l e : Val) : Val := conc l (cons e nil)

/-- `lisp_may_apply` (`lib/core/utils.c:357-388`). -/
def mayApply : Val → Val → Bool
  | nil, nil => true
  | sym .., _ => true
  | nil, _ => false
  | _, nil => true
  | pair _ _ args, pair _ _ vals => mayApply args vals
  | _, _ => false

/-- `lisp_bind` (`lib/core/lisp.c:165-206`): destructure `val` along `arg`, pushing the bindings in
front of `closure`. -/
def bind (closure : Val) : Val → Val → Val
  | pair _ a d, val => bind (bind closure a val.car) d val.cdr
  | sym tc s, val => cons (cons (sym tc s) val) closure
  | _, _ => closure

/-- `lisp_sss` (`lib/core/utils.c:191-230`): set `kvp = (K . V)` in the sorted association list
`root`. Dereferencing a non-pair as a pair is undefined. -/
def sss : Val → Val → Res Val
  | nil, kvp => .ok (cons kvp nil)
  | pair tc car cdr, kvp =>
    match car, kvp with
    | pair _ k _, pair _ k' _ =>
      match k.tag, k'.tag with
      | some t, some t' =>
        match symCompare t t' with
        | .lt => do let r ← sss cdr kvp; .ok (pair tc car r)
        | .eq => .ok (pair tc kvp cdr)
        | .gt => .ok (cons kvp (pair tc car cdr))
      | _, _ => .ub .pairAsNumber
    | _, _ => .ub .badPointer
  | _, _ => .ub .badPointer

/-- `lisp_merge` (`lib/core/utils.c:236-246`): set every binding of `alst`, head first. -/
def merge (root : Val) : Val → Res Val
  | nil => .ok root
  | pair _ kvp rest => do
    let root' ← sss root kvp
    match rest with
    | pair .. => merge root' rest
    | _ => .ok root'
  | _ => .ub .badPointer

/-- The search of a local environment in `lisp_lookup` (`lib/core/lisp.c:98-106`). -/
def assq : Val → Sym → Res (Option Val)
  | nil, _ => .ok none
  | pair _ kv rest, s =>
    match kv with
    | pair _ k v =>
      if k.symIs s then .ok (some v)
      else
        match rest with
        | pair .. => assq rest s
        | _ => .ok none
    | _ => .ub .badPointer
  | _, _ => .ub .badPointer

/-- Little-endian signed 64-bit integer of 8 bytes. -/
def leInt (bs : List UInt8) : Int :=
  let u : Nat := (bs.take 8).foldr (fun b acc => b.toNat + 256 * acc) 0
  if u < 2 ^ 63 then u else (u : Int) - 2 ^ 64

/-- `a->number` (`types.h:85`) on an arbitrary atom, as the arithmetic natives do without checking
the type. NIL, T and `_` have a zeroed payload; a symbol gives its first 8 bytes; the
address inside a pair is not modelled and counts as undefined. -/
def number : Val → Res Int
  | num n => .ok n
  | chr n => .ok n
  | nil => .ok 0
  | tru => .ok 0
  | wild => .ok 0
  | sym _ s => .ok (leInt s.bytes)
  | pair .. => .ub .pairAsNumber

/-- Clearing the flags: what remains is the content of the value. -/
def erase : Val → Val
  | sym _ s => sym false s
  | pair _ a d => pair false (erase a) (erase d)
  | v => v

/-- Proper lists from Lean lists, for specifications. -/
def ofList : List Val → Val
  | [] => nil
  | v :: vs => cons v (ofList vs)

end Val
end Mnml
