import Verif.Str
import Verif.Tails

/-!
# The lexer

Models `lib/grammar/lexer.rl`. A Ragel scanner takes the longest prefix of the input that one of its rules accepts;
when several rules accept it, the first one wins. The model is written in these terms, not in terms of the generated
automaton. Every call of `lexer_parse` in the interpreter passes `end = true` (`lib/core/read.c:68`: the length of what is in the
buffer is always less than `RBUFLEN`; `bin/mnml.c:348`), so that the end of the buffer ends a token.

Not modelled: what happens after lexical errors (`parse_error`, `fgoto purge`); these are the outcome `stuck`. A name of more than
16 characters counts as such an error: it depends on the interplay of the error action with the longest match.
-/

namespace Mnml
namespace Lex

/-! ## Character classes (ASCII) -/

/-- `digit`. -/
def isDigit (b : UInt8) : Bool := 48 ≤ b && b ≤ 57
/-- `alpha`. -/
def isAlpha (b : UInt8) : Bool := (65 ≤ b && b ≤ 90) || (97 ≤ b && b ≤ 122)
/-- `marks` (`lib/grammar/lexer.rl:175`). -/
def isMark (b : UInt8) : Bool :=
  [33, 64, 36, 37, 38, 42, 95, 43, 45, 61, 123, 125, 91, 93, 58, 59, 124, 92, 60, 62, 63, 44, 46, 47].contains b
/-- The characters of a name after the first one. -/
def isSymChar (b : UInt8) : Bool := isAlpha b || isDigit b || isMark b
/-- `print`. -/
def isPrint (b : UInt8) : Bool := 32 ≤ b && b ≤ 126
/-- `space`. -/
def isSpace (b : UInt8) : Bool := b == 32 || (9 ≤ b && b ≤ 13)

/-! ## Tokens and rules -/

/-- The tokens handed to the parser (`lib/grammar/parser.y`). -/
inductive Token where
  | popen
  | pclose
  | dot
  | quote
  | backt
  | tilde
  | num (n : Int)
  | chr (c : Int)
  | str (bytes : List UInt8)
  | nil
  | tru
  | wild
  | sym (s : Sym)
deriving DecidableEq

/-- The rules of the scanner in their order (`lib/grammar/lexer.rl:181-218`). -/
inductive Rule where
  | popen
  | pclose
  | dot
  | number
  | char
  | string
  | nil
  | tru
  | wild
  | symbol
  | qpopen
  | bpopen
  | tpopen
  | qsymbol
  | bsymbol
  | tsymbol
  | qnumber
  | bnumber
  | tnumber
  | comment
  | space
deriving DecidableEq

/-- The order of the rules. -/
def rules : List Rule :=
  [.popen, .pclose, .dot, .number, .char, .string, .nil, .tru, .wild, .symbol, .qpopen, .bpopen, .tpopen,
   .qsymbol, .bsymbol, .tsymbol, .qnumber, .bnumber, .tnumber, .comment, .space]

/-- `digit+`. -/
def isDigits (w : List UInt8) : Bool := !w.isEmpty && w.all isDigit

/-- `number = '-'? digit+` (`lib/grammar/lexer.rl:172`). -/
def isNumber : List UInt8 → Bool
  | [] => false
  | b :: w => if b == 45 then isDigits w else isDigits (b :: w)

/-- `char` (`lib/grammar/lexer.rl:173`). -/
def isChar : List UInt8 → Bool
  | [94, b] => isPrint b && b != 92
  | [94, 92, b] => b == 92 || b == 101 || b == 110 || b == 114 || b == 116
  | _ => false

/-- The part of `string` (`lib/grammar/lexer.rl:174`) after the opening quote: a quote inside must follow a backslash; `bs`
says whether the previous character is one. -/
def isStrRest (bs : Bool) : List UInt8 → Bool
  | [] => false
  | b :: w => if b == 34 then w.isEmpty || (bs && isStrRest false w) else isStrRest (b == 92) w

/-- `string`. -/
def isString : List UInt8 → Bool
  | [] => false
  | b :: w => b == 34 && isStrRest false w

/-- `symbol` (`lib/grammar/lexer.rl:176`). -/
def isSymbol : List UInt8 → Bool
  | [] => false
  | b :: w => (isAlpha b || isMark b) && w.all isSymChar && w.length ≤ 15

/-- A prefix character followed by something. -/
def prefixed (p : UInt8) (f : List UInt8 → Bool) : List UInt8 → Bool
  | [] => false
  | b :: w => b == p && f w

/-- The language of a rule. -/
def Rule.accepts : Rule → List UInt8 → Bool
  | popen, w => w == [40]
  | pclose, w => w == [41]
  | dot, w => w == [46]
  | number, w => isNumber w
  | char, w => isChar w
  | string, w => isString w
  | nil, w => w == [78, 73, 76]
  | tru, w => w == [84]
  | wild, w => w == [95]
  | symbol, w => isSymbol w
  | qpopen, w => w == [39, 40]
  | bpopen, w => w == [96, 40]
  | tpopen, w => w == [126, 40]
  | qsymbol, w => prefixed 39 isSymbol w
  | bsymbol, w => prefixed 96 isSymbol w
  | tsymbol, w => prefixed 126 isSymbol w
  | qnumber, w => prefixed 39 isNumber w
  | bnumber, w => prefixed 96 isNumber w
  | tnumber, w => prefixed 126 isNumber w
  | comment, w => prefixed 35 (fun w => w.all (· != 10)) w
  | space, w => match w with
    | [b] => isSpace b
    | _ => false

/-- The value of a sequence of digits. -/
def digitsVal (w : List UInt8) : Nat := w.foldl (fun n b => 10 * n + (b.toNat - 48)) 0

/-- `strtoll(val, NULL, 10)` (`lib/grammar/lexer.rl:90`) on the text of a number; saturates at the
bounds of `long long`. -/
def strtoll : List UInt8 → Int
  | [] => 0
  | b :: w =>
    let n : Int := if b == 45 then -(digitsVal w : Int) else (digitsVal (b :: w) : Int)
    if n < i64min then i64min else if i64max < n then i64max else n

/-- The value of a character token (`lib/grammar/lexer.rl:95-125`, `lib/grammar/parser.y:88-91`). -/
def charVal : List UInt8 → Int
  | [_, b] => toChar (charOf b)
  | [_, _, b] => if b == 101 then 27 else if b == 110 then 10 else if b == 114 then 13
    else if b == 116 then 9 else toChar (charOf b)
  | _ => 0

/-- The text of a string token, without the quotes. -/
def stringBody (w : List UInt8) : List UInt8 := (w.drop 1).dropLast

/-- The tokens that the action of a rule hands to the parser (`lib/grammar/lexer.rl:46-164`). `UNPREFIX` does not remove a
tilde (`lib/grammar/lexer.rl:18`): the name keeps it and a number becomes 0. -/
def Rule.tokens : Rule → List UInt8 → List Token
  | popen, _ => [.popen]
  | pclose, _ => [.pclose]
  | dot, _ => [.dot]
  | number, w => [.num (strtoll w)]
  | char, w => [.chr (charVal w)]
  | string, w => [.str (stringBody w)]
  | nil, _ => [.nil]
  | tru, _ => [.tru]
  | wild, _ => [.wild]
  | symbol, w => [.sym (Sym.ofBytes w)]
  | qpopen, _ => [.quote, .popen]
  | bpopen, _ => [.backt, .popen]
  | tpopen, _ => [.tilde, .popen]
  | qsymbol, w => [.quote, .sym (Sym.ofBytes (w.drop 1))]
  | bsymbol, w => [.backt, .sym (Sym.ofBytes (w.drop 1))]
  | tsymbol, w => [.tilde, .sym (Sym.ofBytes w)]
  | qnumber, w => [.quote, .num (strtoll (w.drop 1))]
  | bnumber, w => [.backt, .num (strtoll (w.drop 1))]
  | tnumber, _ => [.tilde, .num 0]
  | comment, _ => []
  | space, _ => []

/-- The first rule that accepts a word. -/
def accept (w : List UInt8) : Option Rule := rules.find? fun r => r.accepts w

/-- The longest prefix of at most `n` bytes that is accepted. -/
def longest (l : List UInt8) : Nat → Option (Nat × Rule)
  | 0 => none
  | n + 1 =>
    match accept (l.take (n + 1)) with
    | some r => some (n + 1, r)
    | none => longest l n

/-- How the scan of a buffer ends: at its end, inside of a string (the text from the opening quote on stays in the buffer,
`lib/grammar/lexer.rl:252-261`), or with an error. -/
inductive End where
  | done
  | pending (rest : List UInt8)
  | stuck
deriving DecidableEq

/-- A name of 16 characters (after its prefix) that goes on. -/
def overlong (r : Rule) (k : Nat) (rest : List UInt8) : Bool :=
  match rest with
  | [] => false
  | b :: _ =>
    isSymChar b && match r with
      | .symbol => k == 16
      | .qsymbol => k == 17
      | .bsymbol => k == 17
      | .tsymbol => k == 17
      | _ => false

/-- The scanner (`lib/grammar/lexer.rl:181-218`, `244-262`) on the content of the buffer; `n` bounds the number of tokens. -/
def lexN : Nat → List UInt8 → List Token × End
  | _, [] => ([], .done)
  | 0, _ :: _ => ([], .stuck)
  | n + 1, b :: l =>
    match longest (b :: l) (b :: l).length with
    | none => ([], if b == 34 then .pending (b :: l) else .stuck)
    | some (k, r) =>
      if overlong r k ((b :: l).drop k) then ([], .stuck)
      else
        let q := lexN n ((b :: l).drop k)
        (r.tokens ((b :: l).take k) ++ q.1, q.2)

/-- The scanner. -/
def lex (l : List UInt8) : List Token × End := lexN l.length l

end Lex
end Mnml
