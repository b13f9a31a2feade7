import Verif.Val

/-!
# Strings: escapes, C strings, `str`, `sym`, `chr`
-/

namespace Mnml

open Val

/-- `'\\'` -/
def chBackslash : Int := 92
/-- `'n'` -/
def chN : Int := 110
/-- `'t'` -/
def chT : Int := 116

/-- `lisp_process_escapes` (`lib/core/utils.c:306-351`). `cell` is the remaining list of characters
(only called by `lisp_make_string` on a proper list of characters, so a Lean list of their numbers),
`esc` says whether the previous character was an unescaped backslash and `res` accumulates by
`lisp_append`. -/
def processEscapes (cell : List Int) (esc : Bool) (res : List Int) : List Int :=
  match cell with
  | [] => res
  | car :: cdr =>
    if esc then
      let car' := if toChar car = chN then 10 else if toChar car = chT then 9 else car
      processEscapes cdr false (res ++ [car'])
    else if car = chBackslash then processEscapes cdr true res
    else processEscapes cdr false (res ++ [car])

/-- `lisp_make_string(str, len)` (`lib/core/lisp.c:76-85`): the characters `str[0..len)`, consed
from the last to the first, then the escapes are processed. -/
def makeString (str : List UInt8) (len : Nat) : List Int :=
  processEscapes ((str.take len).map charOf) false []

/-- A list of characters as a value. -/
def strVal (cs : List Int) : Val := ofList (cs.map chr)

/-- `lisp_make_cstring(cell, buffer, len, idx)` (`lib/core/utils.c:283-300`). Returns the bytes that are
stored at `buffer[0], buffer[1], ...` (one write each; the recursion writes the end first) and the
resulting index. Taking CAR/CDR of a non-pair is undefined. -/
def makeCString : Val → Nat → Nat → Res (List UInt8 × Nat)
  | nil, _, idx => .ok ([0], idx)
  | pair _ car cdr, len, idx =>
    if idx = len then .ok ([0], idx)
    else do
      let (rest, res) ← makeCString cdr len (idx + 1)
      let n ← car.number
      .ok (byteOf n :: rest, res)
  | _, len, idx => if idx = len then .ok ([0], idx) else .ub .badPointer

/-- Storing `bytes` at the start of a buffer of `cap` bytes: undefined if it does not fit. -/
def store (cap : Nat) (bytes : List UInt8) : Res (List UInt8) :=
  if bytes.length ≤ cap then .ok bytes else .ub .outOfBounds

/-- The native `str` (`lib/mnml/std/str.c:6-13`): the payload read as a symbol, up to the first NUL,
then through `lisp_make_string`. A pair's payload (addresses) is not modelled. -/
def natStr (x : Val) : Res Val :=
  match x.tag with
  | some s => .ok (strVal (makeString s.name s.name.length))
  | none => .ub .pairAsNumber

/-- The native `sym` (`lib/mnml/std/sym.c:6-26`). The buffer has 17 bytes. -/
def natSym (x : Val) : Res Val :=
  if x.isPair && x.isString then do
    let (bytes, len) ← makeCString x 16 0
    let buffer ← store 17 bytes
    if len = 0 then .ok nil
    else .ok (ofSym (Sym.ofBytes buffer))
  else .ok nil

/-- The native `chr` (`lib/mnml/std/chr.c:6-12`). -/
def natChr (x : Val) : Res Val := do
  let n ← x.number
  .ok (chr (toChar n))

end Mnml
