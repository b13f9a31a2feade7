import Verif.Eval

/-!
# Notation for lisp terms in examples
-/

namespace Mnml

/-- A symbol. -/
def S (s : String) : Val := .ofSym (Sym.ofChars s.toList)
/-- A proper list. -/
def L (vs : List Val) : Val := .ofList vs
/-- A quoted value. -/
def Q (v : Val) : Val := .cons (.ofSym sQuote) v
/-- A number. -/
def N (n : Int) : Val := .num n
/-- Value and output of a program from the initial state. -/
def runOut (n : Nat) (es : List Val) : Res (Val × List UInt8) :=
  runTop n es initSt >>= fun p => .ok (p.1, p.2.out)

end Mnml
