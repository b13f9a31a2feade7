import Verif.RefineTop
import Verif.Relax
import Verif.Dsl

/-!
# C61: the tree model and the cell model agree where no shared cell is changed

The evaluator on trees (`Verif.Eval`) treats values as immutable; the C code, and the model on cells with reference counts
(`Verif.HeapEval`), changes cells in place: `conc` links the last cell of its first argument, and `def`, `let` and closures mark
calls in the body of a function. In strict mode the model on cells refuses (`unsupported`) such a change when it is visible and
the cell may be shared. A program that is not refused has the same value, output and global variables in
both models, and strict mode does not influence it. Without the condition this is false.
-/

namespace Mnml
namespace Heap

/-- What `viewH` returns is the value in memory. -/
theorem viewH_rep {n : Nat} : ∀ {a : Addr} {s s' : HSt} {v : Val}, viewH n a s = .ok (v, s') → s' = s ∧ Rep s.mem a v := by
  induction n with
  | zero => intro a s s' v e; cases e
  | succ n ih =>
    intro a s s' v e
    have e1 : (cell a s >>= fun p => (match p.1.data with
      | .pair x y => do
        let u ← viewH n x
        let v ← viewH n y
        pure (.pair p.1.tc u v)
      | .sym s => pure (.sym p.1.tc s)
      | d => HM.lift (match d.atom with | some v => .ok v | none => .unsupported) : HM Val) p.2) = .ok (v, s') := e
    unfold cell at e1
    cases hm : s.mem a with
    | none => rw [hm] at e1; cases e1
    | some c =>
      rw [hm] at e1
      have e2 : (match c.data with
        | .pair x y => do
          let u ← viewH n x
          let v ← viewH n y
          pure (.pair c.tc u v)
        | .sym s => pure (.sym c.tc s)
        | d => HM.lift (match d.atom with | some v => .ok v | none => .unsupported) : HM Val) s = .ok (v, s') := e1
      cases hd : c.data with
      | pair x y =>
        rw [hd] at e2
        have e3 : (viewH n x s >>= fun p => viewH n y p.2 >>= fun q => .ok (Val.pair c.tc p.1 q.1, q.2)) = .ok (v, s') := e2
        cases h1 : viewH n x s with
        | ok p =>
          rw [h1] at e3
          have e4 : (viewH n y p.2 >>= fun q => .ok (Val.pair c.tc p.1 q.1, q.2)) = Res.ok (v, s') := e3
          cases h2 : viewH n y p.2 with
          | ok q =>
            rw [h2] at e4
            obtain ⟨p1, p2⟩ := p
            obtain ⟨q1, q2⟩ := q
            obtain ⟨rfl, r1⟩ := ih h1
            obtain ⟨rfl, r2⟩ := ih h2
            cases e4
            exact ⟨rfl, .pair (by simp) hm hd r1 r2⟩
          | _ => rw [h2] at e4; cases e4
        | _ => rw [h1] at e3; cases e3
      | sym k => rw [hd] at e2; cases e2; exact ⟨rfl, .atom (by simp) hm (by unfold Cell.val; rw [hd])⟩
      | _ => rw [hd] at e2; cases e2; exact ⟨rfl, .atom (by simp) hm (by unfold Cell.val; rw [hd]; rfl)⟩

/-- The value of a program on cells, if it finishes. -/
def cellsV (n : Nat) (ops : List Native) (es : List Val) : Option (Val × List UInt8) :=
  match (sessionH n ops es >>= viewH n) emptyH with
  | .ok (v, s) => some (v, s.out)
  | _ => none

/-- The value of a program on trees, if it finishes. -/
def treesV (n : Nat) (ops : List Native) (es : List Val) : Option (Val × List UInt8) :=
  match runTop n es (startSt ops) with
  | .ok (v, st) => some (v, st.out)
  | _ => none

/-- The program is not refused. -/
def accepted (n : Nat) (ops : List Native) (es : List Val) : Bool :=
  match sessionH n ops es strictH with
  | .ok _ => true
  | _ => false

/-- A program that strict mode accepts ends on trees with the value that the memory holds, the same output and the
same global variables; and it runs in the same way without strict mode. -/
theorem C61_session {n : Nat} {ops : List Native} {es : List Val} (hp : ∀ e ∈ es, plain e = true) {r : Addr} {s' : HSt}
    (h : sessionH n ops es strictH = .ok (r, s')) :
    sessionH n ops es emptyH = .ok (r, { s' with strict := false }) ∧
    ∃ v st', runTop n es (startSt ops) = .ok (v, st') ∧ Rep s'.mem r v ∧ st'.out = s'.out ∧
      (∀ k, st'.globals k = none ↔ k ∉ s'.globals.map Prod.fst) ∧
      ∀ k d, (k, d) ∈ s'.globals → ∃ c x y u, s'.mem d = some c ∧ c.data = .pair x y ∧ Rep s'.mem y u ∧ st'.globals k = some u := by
  refine ⟨rlx_sessionH _ _ _ h, ?_⟩
  obtain ⟨v, st', e, G, g⟩ := sat_session hp _ _ h
  refine ⟨v, st', e, (g.ok _ (List.mem_cons_self ..)).1.rep, g.out, ?_, ?_⟩
  · intro k
    rw [g.vals, g.glob, List.map_map]
    constructor
    · intro hn hm
      obtain ⟨x, hx, hk⟩ := List.mem_map.1 hm
      have := List.find?_eq_none.1 (Option.map_eq_none_iff.1 hn) x hx
      exact this (decide_eq_true hk)
    · intro hn
      refine Option.map_eq_none_iff.2 (List.find?_eq_none.2 fun x hx hk => hn ?_)
      exact List.mem_map.2 ⟨x, hx, of_decide_eq_true hk⟩
  · intro k d hd
    rw [g.glob] at hd
    obtain ⟨x, hx, ex⟩ := List.mem_map.1 hd
    cases ex
    obtain ⟨⟨c, hc, hcd⟩, _, hv⟩ := g.ent x hx
    refine ⟨c, x.kc, x.vc, x.val, hc, hcd, hv.rep, ?_⟩
    rw [g.vals]
    have : ∀ l : List Ent, (l.map Ent.key).Nodup → x ∈ l → l.find? (fun e => e.key = x.key) = some x := by
      intro l
      induction l with
      | nil => intro _ h; cases h
      | cons y l ih =>
        intro hn hm
        rw [List.map_cons, List.nodup_cons] at hn
        rcases List.mem_cons.1 hm with e | e
        · subst e; exact List.find?_cons_of_pos (by simp)
        · rw [List.find?_cons_of_neg]
          · exact ih hn.2 e
          · intro hk
            exact hn.1 ((of_decide_eq_true hk) ▸ List.mem_map_of_mem e)
    rw [this G g.keys hx]; rfl

/-- With all natives, the tree model starts in its initial state. -/
theorem C61_initial : startSt Native.all = initSt := startSt_all

/-- In terms of results: what an accepted program shows on cells is what it shows on trees. -/
theorem C61_agree {n : Nat} {ops : List Native} {es : List Val} (hp : ∀ e ∈ es, plain e = true)
    (h : accepted n ops es = true) {v : Val} {out : List UInt8} (hv : cellsV n ops es = some (v, out)) :
    treesV n ops es = some (v, out) := by
  unfold accepted at h
  cases hs : sessionH n ops es strictH with
  | ok p =>
    obtain ⟨r, s'⟩ := p
    obtain ⟨hl, w, st', e, hr, ho, _⟩ := C61_session hp hs
    unfold cellsV at hv
    have hb : (sessionH n ops es >>= viewH n) emptyH = viewH n r { s' with strict := false } := by
      show (sessionH n ops es emptyH >>= fun p => viewH n p.1 p.2) = _
      rw [hl]; rfl
    rw [hb] at hv
    cases hw : viewH n r { s' with strict := false } with
    | ok q =>
      obtain ⟨q1, q2⟩ := q
      rw [hw] at hv
      cases hv
      obtain ⟨rfl, hq⟩ := viewH_rep hw
      unfold treesV
      rw [e]
      have hr' : Rep { s' with strict := false }.mem r w := hr
      show some (w, st'.out) = some (v, s'.out)
      rw [hr'.det hq, ho]
    | _ => rw [hw] at hv; cases hv
  | _ => rw [hs] at h; cases h

/-- A program that is accepted: `(def twice (f x) (f (f x)))`, `(print (twice (\ (n) (* n 2)) 5))`. -/
def progTwice : List Val :=
  [L [S "def", S "twice", L [S "f", S "x"], L [S "f", L [S "f", S "x"]]],
   L [S "print", L [S "twice", L [S "\\", L [S "n"], L [S "*", S "n", N 2]], N 5]]]

set_option maxRecDepth 100000 in
set_option cbv.maxSteps 10000000 in
example : (∀ e ∈ progTwice, plain e = true) ∧ accepted 40 [.def_, .lambda, .print, .mul] progTwice = true ∧
    cellsV 40 [.def_, .lambda, .print, .mul] progTwice = some (.num 20, [50, 48]) :=
  ⟨by decide, by decide_cbv, by decide_cbv⟩

/-- A recursive function is accepted, although `def` marks its tail call: nothing else refers to the cells of the definition.
`(def sum (n a) (if (= n 0) a (sum (- n 1) (+ a n))))`, `(sum 3 0)`. -/
def progSum : List Val :=
  [L [S "def", S "sum", L [S "n", S "a"], L [S "if", L [S "=", S "n", N 0], S "a",
      L [S "sum", L [S "-", S "n", N 1], L [S "+", S "a", S "n"]]]],
   L [S "sum", N 3, N 0]]

set_option maxRecDepth 100000 in
set_option cbv.maxSteps 10000000 in
example : (∀ e ∈ progSum, plain e = true) ∧ accepted 40 [.def_, .if_, .equ, .add, .sub] progSum = true ∧
    cellsV 40 [.def_, .if_, .equ, .add, .sub] progSum = some (.num 6, []) :=
  ⟨by decide, by decide_cbv, by decide_cbv⟩

/-- Without the condition the models differ: `conc` changes the list that another name stands for.
`(def g (l) (conc l '(3)) l)`, `(g '(1))` is `(1 3)` on cells and `(1)` on trees. -/
def progConc : List Val :=
  [L [S "def", S "g", L [S "l"], L [S "conc", S "l", Q (L [N 3])], S "l"], L [S "g", Q (L [N 1])]]

set_option maxRecDepth 100000 in
set_option cbv.maxSteps 10000000 in
theorem C61_conc_counterexample : (∀ e ∈ progConc, plain e = true) ∧
    cellsV 40 [.def_, .quote, .conc] progConc = some (L [N 1, N 3], []) ∧
    treesV 40 [.def_, .quote, .conc] progConc = some (L [N 1], []) :=
  ⟨by decide, by decide_cbv, by decide +kernel⟩

/-- The same for the marks of tail calls, which is an error of the C code (`let.c:46-68`, `utils.c:545-551`): a `let` that
binds a closure to the name `f` marks the calls of `f` in the body of the function that made the closure. Later calls
of the global function `f` from other closures of this function are not evaluated.
`(def mk () (\ (x) (f x)))`, `(let ((f . (mk))) 1)`, `(def f (x) (+ x 1))`, `((mk) 3)` is the record `(f (x . 3))` of a tail call on
cells, and 4 on trees. -/
def progMark : List Val :=
  [L [S "def", S "mk", .nil, L [S "\\", L [S "x"], L [S "f", S "x"]]],
   L [S "let", L [.cons (S "f") (L [S "mk"])], N 1],
   L [S "def", S "f", L [S "x"], L [S "+", S "x", N 1]],
   L [L [S "mk"], N 3]]

set_option maxRecDepth 100000 in
set_option cbv.maxSteps 10000000 in
theorem C61_mark_counterexample : (∀ e ∈ progMark, plain e = true) ∧
    cellsV 40 [.def_, .lambda, .let_, .add] progMark =
      some (.pair true (.sym true (symLit ['f'])) (L [.cons (S "x") (N 3)]), []) ∧
    treesV 40 [.def_, .lambda, .let_, .add] progMark = some (N 4, []) :=
  ⟨by decide, by decide_cbv, by decide +kernel⟩

end Heap
end Mnml
