import Verif.Val

/-!
# Printing

Models `lib/core/print.c`: the text of a value is assembled in a 1024 byte buffer which is
flushed to the channel on the way.
-/

namespace Mnml

open Val

/-- The decimal digits of a natural number, most significant first. -/
def decNat (n : Nat) : List UInt8 :=
  if n < 10 then [UInt8.ofNat (48 + n)] else decNat (n / 10) ++ [UInt8.ofNat (48 + n % 10)]

/-- `sprintf(buffer, "%ld", n)` (`lib/core/print.c:112-118`). -/
def decInt (n : Int) : List UInt8 :=
  if n < 0 then 45 :: decNat n.natAbs else decNat n.natAbs

namespace Print

/-- `IO_BUFFER_LEN` (`lib/core/print.c:5`). -/
def bufLen : Nat := 1024

/-- What the printer works on: `out` is what has been handed to `fwrite`, `buf` the first `idx` bytes
of the buffer. The bytes of the buffer from `idx` on are never read. -/
structure PB where
  out : List UInt8
  buf : List UInt8
deriving DecidableEq, Repr

/-- `lisp_write` (`lib/core/print.c:10-27`); the `memcpy` must stay inside the buffer. -/
def write (st : PB) (data : List UInt8) : Res PB :=
  let st' := if st.buf.length + data.length ≥ bufLen then ⟨st.out ++ st.buf, []⟩ else st
  if st'.buf.length + data.length ≤ bufLen then .ok ⟨st'.out, st'.buf ++ data⟩
  else .ub .outOfBounds

/-- The escape of a character in `lisp_prin_atom` (`lib/core/print.c:79-95`), without the `^`. -/
def charText (c : Int) : List UInt8 :=
  let c := toChar c
  if c = 27 then [92, 101]
  else if c = 10 then [92, 110]
  else if c = 13 then [92, 114]
  else if c = 9 then [92, 116]
  else [byteOf c]

/-- The cases of `lisp_prin_atom` (`lib/core/print.c:66-128`) other than pairs. With `s = false`, NIL
returns index 0, i.e. it drops the content of the buffer. -/
def prinLeaf (s : Bool) (v : Val) (st : PB) : Res PB :=
  match v with
  | nil => if s then write st [78, 73, 76] else .ok ⟨st.out, []⟩
  | tru => write st [84]
  | chr c => if s then do let st ← write st [94]; write st (charText c)
             else write st [byteOf (toChar c)]
  | num n => write st (decInt n)
  | sym _ x => write st x.name
  | wild => write st [95]
  | pair .. => .ok st

mutual
/-- `lisp_prin_atom` (`lib/core/print.c:66-128`). -/
def prinAtom (s : Bool) (v : Val) (st : PB) : Res PB :=
  match v with
  | pair _ a d => do
    let st ← if s then write st [40] else .ok st
    let st ← prinAtom s a st
    let st ← prinTail s d st
    if s then write st [41] else .ok st
  | v => prinLeaf s v st
/-- The part of `lisp_prin_pair` (`lib/core/print.c:36-64`) after the CAR; its tail call on a pair
continues with that pair's CAR. -/
def prinTail (s : Bool) (v : Val) (st : PB) : Res PB :=
  match v with
  | nil => .ok st
  | pair _ a d => do
    let st ← if s then write st [32] else .ok st
    let st ← prinAtom s a st
    prinTail s d st
  | v => do
    let st ← if s then write st [32, 46, 32] else .ok st
    prinLeaf s v st
end

/-- `lisp_prin` (`lib/core/print.c:130-137`): the bytes handed to the channel. -/
def prin (v : Val) (s : Bool) : Res (List UInt8) := do
  let st ← prinAtom s v ⟨[], []⟩
  .ok (st.out ++ st.buf)

end Print

/-- The C invariant on payloads: numbers fit `int64_t` and characters fit `char`. -/
def Val.InRange : Val → Prop
  | num n => inI64 n = true
  | chr c => -128 ≤ c ∧ c ≤ 127
  | pair _ a d => a.InRange ∧ d.InRange
  | _ => True

end Mnml
