import Verif.PropHeap

/-!
# C04: natives called through closures that the program has built by hand
-/

set_option maxRecDepth 100000

namespace Mnml
namespace Heap

set_option cbv.maxSteps 10000000 in
/-- **C04**: `<-` has the same defect (`set.c:14`) when its argument is bound by a closure that the program has built by hand.
`F` and `G` share the list of bindings `D`; evaluating the value that `F` is to assign calls `G`, which replaces the binding
that holds the argument of `F`. -/
theorem C04_set_counterexample :
    sessionH 40 [.set, .quote, .setq, .cons, .list, .cdr]
      [L [S "setq", S "D", L [S "list", L [S "cons", Q (S "ANY"), Q (L [L [S "G"], N 7])]]],
       L [S "setq", S "G", L [S "cons", .nil, L [S "cons", S "D", Q (L [L [S "<-", Q (S "ANY"), N 5], Q (S "x")])]]],
       L [S "setq", S "F", L [S "cons", .nil, L [S "cons", S "D", L [S "cdr", L [S "cdr", S "<-"]]]]],
       L [S "F"]]
      emptyH = .ub .staleArg := isStale_eq (by decide_cbv)

set_option cbv.maxSteps 10000000 in
/-- **C04**: and so has `let` (`let.c:46`). -/
theorem C04_let_counterexample :
    sessionH 40 [.let_, .set, .quote, .setq, .cons, .list, .cdr]
      [L [S "setq", S "D", L [S "list", L [S "cons", Q (S "ANY"), Q (L [L [.cons (N 1) (L [S "G"])], N 7])]]],
       L [S "setq", S "G", L [S "cons", .nil, L [S "cons", S "D", Q (L [L [S "<-", Q (S "ANY"), N 5], Q (L [S "x"])])]]],
       L [S "setq", S "F", L [S "cons", .nil, L [S "cons", S "D", L [S "cdr", L [S "cdr", S "let"]]]]],
       L [S "F"]]
      emptyH = .ub .staleArg := isStale_eq (by decide_cbv)

end Heap
end Mnml
