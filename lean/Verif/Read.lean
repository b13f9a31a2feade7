import Verif.Parse

/-!
# Reading from a channel

Models `lib/core/read.c` and `lib/mnml/io/readline.c`. A channel is the part of its file that has not been read and the values that are
buffered in the channel (`((HANDLE PWD V1 V2) ...)`, `lib/core/read.c:24`).

Simplifications: a file is a finite sequence of bytes that nobody else reads or writes (two handles on one descriptor, as `(in 0 ..)`
makes them, are not modelled); read errors do not occur.
-/

namespace Mnml
namespace Lex

open Val

/-- An input channel. -/
structure IChan where
  rest : List UInt8
  buf : List Val
deriving DecidableEq

/-- At most `n` bytes up to and including the first newline. -/
def takeLine : Nat → List UInt8 → List UInt8 × List UInt8
  | 0, l => ([], l)
  | _ + 1, [] => ([], [])
  | n + 1, b :: l =>
    if b == 10 then ([b], l)
    else
      let q := takeLine n l
      (b :: q.1, q.2)

/-- `fgets(p, n, handle)`: `none` is NULL. With `n = 1` glibc stores an empty string without reading. -/
def fgets (n : Nat) (l : List UInt8) : Option (List UInt8 × List UInt8) :=
  if n ≤ 1 then some ([], l)
  else if l.isEmpty then none
  else some (takeLine (n - 1) l)

/-- `RBUFLEN` (`lib/core/read.c:10`). -/
def rbufLen : Nat := 1024

/-- A lexer with its parser: the bytes at the start of the buffer that were kept (`lexer->rem` of them). -/
structure LSt where
  rem : List UInt8
  ps : PSt
deriving DecidableEq

/-- `lexer_create` (`lib/grammar/lexer.rl:224-235`). -/
def LSt.init : LSt := ⟨[], .init⟩

/-- `lexer_parse` (`lib/grammar/lexer.rl:244-262`) on `len` new bytes, with `end` true. -/
def lexerParse (ev : Val → Res Val) (st : LSt) (chunk : List UInt8) : Res LSt :=
  match lex (st.rem ++ chunk) with
  | (_, .stuck) => .unsupported
  | (ts, .done) => do
    let ps ← feedAll ev st.ps ts
    .ok ⟨[], ps⟩
  | (ts, .pending r) => do
    let ps ← feedAll ev st.ps ts
    .ok ⟨r, ps⟩

/-- `lexer_pending` (`lib/grammar/lexer.rl:264-268`). -/
def LSt.pending (st : LSt) : Bool := !st.ps.frames.isEmpty || !st.rem.isEmpty

/-- The loop of `lisp_read` (`lib/core/read.c:62-69`); `strlen` ends a chunk at a NUL byte. -/
def readLoop (ev : Val → Res Val) : Nat → LSt → List UInt8 → Res (LSt × List UInt8)
  | 0, _, _ => .oof
  | n + 1, st, l =>
    match fgets (rbufLen - st.rem.length) l with
    | none => .ok (st, l)
    | some (chunk, l') => do
      let st' ← lexerParse ev st (chunk.takeWhile (· ≠ 0))
      if st'.ps.vals.isEmpty || st'.pending then readLoop ev n st' l' else .ok (st', l')

/-- `lisp_read_pop` (`lib/core/read.c:19-35`); `none` when there is nothing (NULL, `lib/core/read.c:74`). -/
def readPop (c : IChan) : Option Val × IChan :=
  match c.buf with
  | [] => (none, c)
  | v :: vs => (some v, ⟨c.rest, vs⟩)

/-- `lisp_read` (`lib/core/read.c:37-75`). -/
def readCh (ev : Val → Res Val) (n : Nat) (c : IChan) : Res (Option Val × IChan) :=
  if c.buf.isEmpty then do
    let (st, l) ← readLoop ev n .init c.rest
    .ok (readPop ⟨l, st.ps.vals⟩)
  else .ok (readPop c)

/-- The symbol `EOF`. -/
def sEof : Sym := Sym.ofBytes [69, 79, 70]

/-- The native `readline` (`lib/mnml/io/readline.c:7-34`). It removes the last character of what `getline` delivers, whatever it is (unless it
is NUL), and processes escapes. -/
def natReadline (c : IChan) : Val × IChan :=
  if c.rest.isEmpty then (ofSym sEof, c)
  else
    let (line, l) := takeLine c.rest.length c.rest
    let len := if line.getLast? = some 0 then line.length else line.length - 1
    (strVal (makeString line len), ⟨l, c.buf⟩)

end Lex
end Mnml
