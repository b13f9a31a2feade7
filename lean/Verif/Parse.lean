import Verif.Lex

/-!
# The parser

Models `lib/grammar/parser.y`: the grammar is unambiguous, so that the LALR automaton is modelled by a stack of open lists.

Not modelled: error recovery after syntax errors (outcome `unsupported`). Backtick and tilde evaluate while reading
(`lib/grammar/parser.y:58-64`, `76-81`); the evaluator is a parameter `ev`, whose effects on the state are left out.
-/

namespace Mnml
namespace Lex

/-- The prefixes of an item. -/
inductive Pre where
  | quote
  | back
  | tilde
deriving DecidableEq

/-- An open list: the items so far (`items`), `dot` after a dot with the item that follows it, and the
prefix of the next item. -/
structure Frame where
  items : Option Val
  dot : Option (Option Val)
  pre : Option Pre
deriving DecidableEq

/-- The parser: the open lists, the prefix of the next expression, the values handed to the
consumer (`lib/grammar/parser.y:28-31`). -/
structure PSt where
  frames : List Frame
  pre : Option Pre
  vals : List Val
deriving DecidableEq

/-- `prefix` (`lib/grammar/parser.y:66-81`); tilde is not a prefix of the grammar. -/
def applyPre (ev : Val → Res Val) : Option Pre → Val → Res Val
  | none, v => .ok v
  | some .quote, v => .ok (.cons (.ofSym sQuote) v)
  | some .back, v => ev v
  | some .tilde, _ => .unsupported

/-- The next item of a list (`lib/grammar/parser.y:43-64`). -/
def Frame.add (ev : Val → Res Val) (f : Frame) (v : Val) : Res Frame :=
  match f.dot with
  | none =>
    match f.pre, f.items with
    | some .tilde, some l => do
      let x ← ev v
      .ok ⟨some (l.conc x), none, none⟩
    | p, none => do
      let x ← applyPre ev p v
      .ok ⟨some (.cons x .nil), none, none⟩
    | p, some l => do
      let x ← applyPre ev p v
      .ok ⟨some (l.append x), none, none⟩
  | some none => do
    let x ← applyPre ev f.pre v
    .ok ⟨f.items, some (some x), none⟩
  | some (some _) => .unsupported

/-- A complete item. -/
def complete (ev : Val → Res Val) (st : PSt) (v : Val) : Res PSt :=
  match st.frames with
  | [] => do
    let x ← applyPre ev st.pre v
    .ok ⟨[], none, st.vals ++ [x]⟩
  | f :: fs => do
    let f' ← f.add ev v
    .ok ⟨f' :: fs, st.pre, st.vals⟩

/-- The end of a list (`lib/grammar/parser.y:33-46`). -/
def Frame.close (f : Frame) : Res Val :=
  match f.pre, f.items, f.dot with
  | none, none, none => .ok .nil
  | none, some l, none => .ok l
  | none, some l, some (some x) => .ok (l.conc x)
  | _, _, _ => .unsupported

/-- A prefix. -/
def setPre (st : PSt) (p : Pre) : Res PSt :=
  match st.frames with
  | [] => if st.pre.isNone then .ok ⟨[], some p, st.vals⟩ else .unsupported
  | f :: fs => if f.pre.isNone then .ok ⟨⟨f.items, f.dot, some p⟩ :: fs, st.pre, st.vals⟩ else .unsupported

/-- One token. -/
def feed (ev : Val → Res Val) (st : PSt) : Token → Res PSt
  | .popen => .ok ⟨⟨none, none, none⟩ :: st.frames, st.pre, st.vals⟩
  | .pclose =>
    match st.frames with
    | [] => .unsupported
    | f :: fs => do
      let v ← f.close
      complete ev ⟨fs, st.pre, st.vals⟩ v
  | .dot =>
    match st.frames with
    | ⟨some l, none, none⟩ :: fs => .ok ⟨⟨some l, some none, none⟩ :: fs, st.pre, st.vals⟩
    | _ => .unsupported
  | .quote => setPre st .quote
  | .backt => setPre st .back
  | .tilde => setPre st .tilde
  | .num n => complete ev st (.num n)
  | .chr c => complete ev st (.chr c)
  | .str b => complete ev st (strVal (makeString (b.takeWhile (· ≠ 0)) (b.takeWhile (· ≠ 0)).length))
  | .nil => complete ev st .nil
  | .tru => complete ev st .tru
  | .wild => complete ev st .wild
  | .sym s => complete ev st (.ofSym s)

/-- Several tokens. -/
def feedAll (ev : Val → Res Val) (st : PSt) : List Token → Res PSt
  | [] => .ok st
  | t :: ts => do
    let st' ← feed ev st t
    feedAll ev st' ts

/-- The parser at the start. -/
def PSt.init : PSt := ⟨[], none, []⟩

/-- Reading a text in one piece: the values of the text. -/
def readText (ev : Val → Res Val) (l : List UInt8) : Res (List Val) :=
  match lex l with
  | (ts, .done) => do
    let st ← feedAll ev .init ts
    if st.frames.isEmpty && st.pre.isNone then .ok st.vals else .unsupported
  | _ => .unsupported

end Lex
end Mnml
