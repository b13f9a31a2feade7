import Verif.Val

/-!
# Tail call marking

Models `lisp_collect_tails`, `lisp_collect_tails_assoc` and `lisp_mark_tail_calls`
(`lib/core/utils.c:394-558`). The C code first collects the tail expressions of a function body in a
list and then sets the flag on the head symbol of those that call the function; here both steps are
fused: the function returns the body with the flags set. Simplification: the C code sets the flags in
the cells of the body, which may be shared with other values; the model only flags the body given.
-/

namespace Mnml

open Val

/-- Symbol literal. -/
abbrev symLit (cs : List Char) : Sym := Sym.ofChars cs

def sIf : Sym := symLit ['i', 'f']
def sCond : Sym := symLit ['c', 'o', 'n', 'd']
def sMatch : Sym := symLit ['m', 'a', 't', 'c', 'h']
def sProg : Sym := symLit ['p', 'r', 'o', 'g']
def sStream : Sym := symLit ['|', '>']
def sUnless : Sym := symLit ['u', 'n', 'l', 'e', 's', 's']
def sWhen : Sym := symLit ['w', 'h', 'e', 'n']
def sQuote : Sym := symLit ['q', 'u', 'o', 't', 'e']

/-- Marking of a collected tail expression (`lib/core/utils.c:543-553`): a pair whose head matches the
function's name and whose arguments can be applied gets its head flagged. A head that is not a
symbol cell but has the same payload would be flagged as well; the flag is only looked at on heads of
calls that evaluate to functions, so it is not represented for other types. -/
def markCall (f : Sym) (args : Val) : Val → Val
  | pair tc (sym st s) rest =>
    if symMatch s f && mayApply args rest then pair tc (sym true s) rest
    else pair tc (sym st s) rest
  | v => v

mutual
/-- `lisp_collect_tails` (`lib/core/utils.c:433-518`) followed by the marking. -/
def markTails (f : Sym) (args : Val) (v : Val) : Val :=
  match v with
  | pair tc (sym st s) rest =>
    if s = sIf then pair tc (sym st s) (markIf f args rest)
    else if s = sCond || s = sMatch then pair tc (sym st s) (markClauses f args rest)
    else if s = sProg || s = sStream then pair tc (sym st s) (markLast f args rest)
    else if s = sUnless || s = sWhen then pair tc (sym st s) (markSecond f args rest)
    else markCall f args (pair tc (sym st s) rest)
  | v => v
/-- The arguments of `if` (`lib/core/utils.c:453-462`): THEN is the second, ELSE the third. -/
def markIf (f : Sym) (args : Val) (v : Val) : Val :=
  match v with
  | pair t1 c r => pair t1 c (markThen f args r)
  | v => v
/-- The THEN branch, then the ELSE branch. -/
def markThen (f : Sym) (args : Val) (v : Val) : Val :=
  match v with
  | pair t2 x r => pair t2 (markTails f args x) (markElse f args r)
  | v => v
/-- The ELSE branch. -/
def markElse (f : Sym) (args : Val) (v : Val) : Val :=
  match v with
  | pair t3 x r => pair t3 (markTails f args x) r
  | v => v
/-- The arguments of `cond`/`match` (`lib/core/utils.c:466-473`): clauses from the second on. -/
def markClauses (f : Sym) (args : Val) (v : Val) : Val :=
  match v with
  | pair t1 c r => pair t1 c (markAssoc f args r)
  | v => v
/-- `lisp_collect_tails_assoc` (`lib/core/utils.c:396-431`): the CDR of each clause. -/
def markAssoc (f : Sym) (args : Val) (v : Val) : Val :=
  match v with
  | pair t1 c r => pair t1 (markClause f args c) (markAssoc f args r)
  | v => v
/-- The CDR of a clause. -/
def markClause (f : Sym) (args : Val) (v : Val) : Val :=
  match v with
  | pair t1 p x => pair t1 p (markTails f args x)
  | v => v
/-- The last element of a list (`lib/core/utils.c:477-487` and `528-538`). -/
def markLast (f : Sym) (args : Val) (v : Val) : Val :=
  match v with
  | pair t1 x r => if r.isPair then pair t1 x (markLast f args r) else pair t1 (markTails f args x) r
  | v => v
/-- The arguments of `unless`/`when` (`lib/core/utils.c:491-498`): the second argument. -/
def markSecond (f : Sym) (args : Val) (v : Val) : Val :=
  match v with
  | pair t1 c r => pair t1 c (markElse f args r)
  | v => v
end

/-- `lisp_mark_tail_calls` (`lib/core/utils.c:520-558`). `FOREACH` over a body that is not a pair
reads the payload of an atom as a pair: the CAR of NIL is a null pointer, and the CDR of a number is
one, so both crash. -/
def markBody (f : Sym) (args body : Val) : Res Val :=
  match body with
  | pair .. => .ok (markLast f args body)
  | _ => .ub .badPointer

end Mnml
