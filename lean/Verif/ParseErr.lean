import Verif.Parse

/-!
# The parser on malformed input

Models what the actions of `lib/grammar/lexer.rl:22-28`, `46-164` and the parser that Lemon makes from `lib/grammar/parser.y` do with any sequence of tokens.

Taken from Lemon's template, which is not in the repository: the grammar has no error symbol, so that a token that the parser cannot use is reported, thrown away, and
the parser goes on; if that token is the end of the input, the whole stack is thrown away as well. Reductions are made without looking at the next token, except the one of the start
symbol (`lib/grammar/parser.y:28-31`), which Lemon makes only at the end of the input. The reports call `syntax_error`
(`lib/grammar/parser.y:18-26`), which does nothing without a handler (`lib/core/utils.c:30-36`), and `lisp_set_syntax_error_handler` has no caller in the repository.

Simplifications: `lib/grammar/parser.y:15` declares `syntax_error` without its argument and the calls pass none; with no handler set the argument is not used. The
depth of Lemon's stack is not bounded. Values on a stack that is thrown away are leaked; the model has values, not cells.
-/

namespace Mnml
namespace Lex

/-- The stack of the parser: open lists with the prefix of the expression, or a complete expression. -/
inductive Stk where
  | part (frames : List Frame) (pre : Option Pre)
  | full (v : Val)
deriving DecidableEq

/-- The empty stack. -/
def Stk.start : Stk := .part [] none

/-- Can an item begin here? Not after the item that follows a dot. -/
def wants : List Frame → Bool
  | ⟨_, some (some _), _⟩ :: _ => false
  | _ => true

/-- A complete item (`lib/grammar/parser.y:28-81`). -/
def Stk.item (ev : Val → Res Val) (fs : List Frame) (pre : Option Pre) (v : Val) : Res Stk :=
  match fs with
  | [] => do
    let x ← applyPre ev pre v
    .ok (.full x)
  | f :: fs => do
    let f' ← f.add ev v
    .ok (.part (f' :: fs) pre)

/-- The prefixes `'` and the backtick (`lib/grammar/parser.y:71-81`); `none` is a syntax error. -/
def Stk.prefixed (fs : List Frame) (pre : Option Pre) (p : Pre) : Option Stk :=
  match fs with
  | [] => if pre.isNone then some (.part [] (some p)) else none
  | f :: fs' => if f.pre.isNone && wants fs then some (.part (⟨f.items, f.dot, some p⟩ :: fs') pre) else none

/-- One token; `none` is a syntax error. -/
def Stk.shift (ev : Val → Res Val) : Stk → Token → Option (Res Stk)
  | .full _, _ => none
  | .part fs pre, .popen => if wants fs then some (.ok (.part (⟨none, none, none⟩ :: fs) pre)) else none
  | .part fs pre, .pclose =>
    match fs with
    | [] => none
    | f :: fs =>
      match f.close with
      | .ok v => some (Stk.item ev fs pre v)
      | _ => none
  | .part fs pre, .dot =>
    match fs with
    | ⟨some l, none, none⟩ :: fs => some (.ok (.part (⟨some l, some none, none⟩ :: fs) pre))
    | _ => none
  | .part fs pre, .quote => (Stk.prefixed fs pre .quote).map .ok
  | .part fs pre, .backt => (Stk.prefixed fs pre .back).map .ok
  | .part fs pre, .tilde =>
    match fs with
    | ⟨some l, none, none⟩ :: fs => some (.ok (.part (⟨some l, none, some .tilde⟩ :: fs) pre))
    | _ => none
  | .part fs pre, .num n => if wants fs then some (Stk.item ev fs pre (.num n)) else none
  | .part fs pre, .chr c => if wants fs then some (Stk.item ev fs pre (.chr c)) else none
  | .part fs pre, .str b =>
    if wants fs then some (Stk.item ev fs pre (strVal (makeString (b.takeWhile (· ≠ 0)) (b.takeWhile (· ≠ 0)).length))) else none
  | .part fs pre, .nil => if wants fs then some (Stk.item ev fs pre .nil) else none
  | .part fs pre, .tru => if wants fs then some (Stk.item ev fs pre .tru) else none
  | .part fs pre, .wild => if wants fs then some (Stk.item ev fs pre .wild) else none
  | .part fs pre, .sym s => if wants fs then some (Stk.item ev fs pre (.ofSym s)) else none

/-- Lexer and parser: the depth that the lexer counts, the stack, the values handed to the consumer. -/
structure Rd where
  depth : Nat
  stk : Stk
  vals : List Val
deriving DecidableEq

/-- At the start (`lib/grammar/lexer.rl:224-235`). -/
def Rd.init : Rd := ⟨0, .start, []⟩

/-- `Parse` of a token other than the end: a token that does not fit is thrown away. -/
def Rd.eat (ev : Val → Res Val) (s : Rd) (t : Token) : Res Rd :=
  match s.stk.shift ev t with
  | none => .ok s
  | some r => do
    let k ← r
    .ok ⟨s.depth, k, s.vals⟩

/-- `lisp_consume_token` (`lib/grammar/lexer.rl:22-28`): `Parse` of the end. -/
def Rd.consume (s : Rd) : Rd :=
  if s.depth = 0 then
    match s.stk with
    | .full v => ⟨0, .start, s.vals ++ [v]⟩
    | .part .. => ⟨0, .start, s.vals⟩
  else s

/-- The action of the lexer for a token (`lib/grammar/lexer.rl:46-164`); `none` is the error of a parenthesis too much, after which the rest of the buffer is
skipped. -/
def Rd.step (ev : Val → Res Val) (s : Rd) (t : Token) : Res (Option Rd) :=
  match t with
  | .popen => do
    let s' ← s.eat ev t
    .ok (some ⟨s'.depth + 1, s'.stk, s'.vals⟩)
  | .pclose =>
    if s.depth = 0 then .ok none
    else do
      let s' ← s.eat ev t
      .ok (some (Rd.consume ⟨s'.depth - 1, s'.stk, s'.vals⟩))
  | .dot | .quote | .backt | .tilde => do
    let s' ← s.eat ev t
    .ok (some s')
  | _ => do
    let s' ← s.eat ev t
    .ok (some s'.consume)

/-- Several tokens; `true` if a parenthesis too much has ended the reading. -/
def Rd.run (ev : Val → Res Val) (s : Rd) : List Token → Res (Rd × Bool)
  | [] => .ok (s, false)
  | t :: ts => do
    match ← s.step ev t with
    | none => .ok (s, true)
    | some s' => s'.run ev ts

end Lex
end Mnml
