import Verif.PropCtl
import Verif.PropPrint
import Verif.PropList

/-!
# C62, C63: output natives and loops
-/

namespace Mnml

open Val Print

/-! ## C62: `print`, `prin` and their variants with a newline -/

/-- Evaluating the expressions from left to right and writing `show` of every value as soon as it is known, with `sep` between
two values, leads from `st` to the state `st'`; the last value is `r`, or `r0` if there are no expressions. -/
inductive Shows (c : Val) (shw : Val → List UInt8) (sep : List UInt8) (good : Val → Prop) :
    List Val → Val → St → Val → St → Prop where
  | done (r : Val) (st : St) : Shows c shw sep good [] r st r st
  | last {e r0 v : Val} {st st1 : St} : sem c e st = .ok (v, st1) → good v →
      Shows c shw sep good [e] r0 st v { st1 with out := st1.out ++ shw v }
  | more {e e' r0 v r : Val} {es : List Val} {st st1 st' : St} : sem c e st = .ok (v, st1) → good v →
      Shows c shw sep good (e' :: es) v { st1 with out := st1.out ++ shw v ++ sep } r st' →
      Shows c shw sep good (e :: e' :: es) r0 st r st'

theorem prinAll_shows {c : Val} {s : Bool} {shw : Val → List UInt8} {good : Val → Prop}
    (hg : ∀ v, good v → Print.prin v s = .ok (shw v)) {es : List Val} {r0 r : Val} {st st' : St}
    (h : Shows c shw (if s then [32] else []) good es r0 st r st') :
    prinAll sem c s (ofList es) r0 st = .ok (r, st') := by
  induction h with
  | done => rfl
  | @last e r0 v st st1 he hv =>
    simp only [ofList, prinAll, isNil, Bool.not_true, Bool.and_false, sepM, Bool.false_eq_true, if_false]
    rw [M.bind_congr_ok he]
    simp only [prinM, M.bind_apply, M.lift_apply, hg v hv, Res.ok_bind]
    rfl
  | @more e e' r0 v r es st st1 st' he hv _ ih =>
    have h1 : prinM v s st1 = .ok ((), { st1 with out := st1.out ++ shw v }) := by
      simp only [prinM, M.bind_apply, M.lift_apply, hg v hv, Res.ok_bind]
      rfl
    have h2 : sepM (s && !(ofList (e' :: es)).isNil) { st1 with out := st1.out ++ shw v } =
        .ok ((), { st1 with out := st1.out ++ shw v ++ (if s then [32] else []) }) := by
      cases s
      · simp only [Bool.false_and, Bool.false_eq_true, if_false, List.append_nil]; rfl
      · rfl
    show prinAll sem c s (pair false e (ofList (e' :: es))) r0 st = _
    rw [prinAll, M.bind_congr_ok he, M.bind_congr_ok h1, M.bind_congr_ok h2]
    exact ih

/-- **C62.** `(print E1 ... En)` evaluates its arguments from left to right, appends the text of each value to the output,
separated by single spaces, and returns the last value (NIL if there is none). -/
theorem C62_print (c : Val) (st st' : St) (s : Sym) (es : List Val) (r : Val) (h : Resolves c st s Native.print.val)
    (hs : Shows c text [32] InRange es nil st r st') :
    sem c (cons (ofSym s) (ofList es)) st = .ok (r, st') := by
  rw [sem_any _ h rfl]
  exact prinAll_shows (s := true) (fun v hv => C34_print v hv) hs

/-- **C62.** `(prin E1 ... En)` writes the human readable texts without separator. -/
theorem C62_prin (c : Val) (st st' : St) (s : Sym) (es : List Val) (r : Val) (h : Resolves c st s Native.prin.val)
    (hs : Shows c plain [] (fun v => InRange v ∧ nilElement v = false) es nil st r st') :
    sem c (cons (ofSym s) (ofList es)) st = .ok (r, st') := by
  rw [sem_any _ h rfl]
  exact prinAll_shows (s := false) (fun v hv => C35_concat_partial v hv.1 hv.2) hs

/-- **C62.** `printl` is `print` followed by a newline. -/
theorem C62_printl (c : Val) (st st' : St) (s : Sym) (es : List Val) (r : Val) (h : Resolves c st s Native.printl.val)
    (hs : Shows c text [32] InRange es nil st r st') :
    sem c (cons (ofSym s) (ofList es)) st = .ok (r, { st' with out := st'.out ++ [10] }) := by
  rw [sem_any _ h rfl]
  show (prinAll sem c true (ofList es) nil >>= _) st = _
  rw [M.bind_congr_ok (prinAll_shows (s := true) (fun v hv => C34_print v hv) hs)]
  rfl

/-- **C62.** `prinl` is `prin` followed by a newline. -/
theorem C62_prinl (c : Val) (st st' : St) (s : Sym) (es : List Val) (r : Val) (h : Resolves c st s Native.prinl.val)
    (hs : Shows c plain [] (fun v => InRange v ∧ nilElement v = false) es nil st r st') :
    sem c (cons (ofSym s) (ofList es)) st = .ok (r, { st' with out := st'.out ++ [10] }) := by
  rw [sem_any _ h rfl]
  show (prinAll sem c false (ofList es) nil >>= _) st = _
  rw [M.bind_congr_ok (prinAll_shows (s := false) (fun v hv => C35_concat_partial v hv.1 hv.2) hs)]
  rfl

/-- `(print 1 T)` writes `1 T` and returns T; `(prinl 1 T)` writes `1T` and a newline. -/
example : Shows nil text [32] InRange [N 1, tru] nil initSt tru { initSt with out := [] ++ text (N 1) ++ [32] ++ text tru } :=
  .more (v := N 1) (st1 := initSt) (by rw [N, sem_atom nil (num 1) rfl rfl]; rfl) (by unfold N InRange; decide)
    (.last (st1 := { initSt with out := [] ++ text (N 1) ++ [32] }) (by rw [sem_atom nil tru rfl rfl]; rfl) trivial)
example : runOut 9 [L [S "print", N 1, tru]] = .ok (tru, [49, 32, 84]) ∧
    runOut 9 [L [S "prinl", N 1, tru]] = .ok (tru, [49, 84, 10]) ∧ runOut 9 [L [S "print"]] = .ok (nil, []) := by
  refine ⟨?_, ?_, ?_⟩ <;> decide +kernel

/-! ## C63: `while` -/

/-- The runs of a loop: as long as the condition is not NIL, the body is run; the result is the last value of the
body, or `r` if it never runs. -/
inductive Loops (c cnd : Val) (body : List Val) : Val → St → Val → St → Prop where
  | stop {r : Val} {st st1 : St} : sem c cnd st = .ok (nil, st1) → Loops c cnd body r st r st1
  | go {r x r1 r2 : Val} {st st1 st2 st3 : St} : sem c cnd st = .ok (x, st1) → x ≠ nil →
      runSeq sem c body st1 = .ok (r1, st2) → Loops c cnd body r1 st2 r2 st3 → Loops c cnd body r st r2 st3

theorem whileSem_of_loops {c cnd : Val} {body : List Val} {r v : Val} {st st' : St} (h : Loops c cnd body r st v st') :
    whileSem c cnd (ofList body) r st = .ok (v, st') := by
  induction h with
  | stop h => rw [whileSem_eq, M.bind_congr_ok h]; rfl
  | @go r x r1 r2 st st1 st2 st3 h hx hb _ ih =>
    have hn : x.isNil = false := by cases x <;> first | rfl | exact absurd rfl hx
    rw [whileSem_eq, M.bind_congr_ok h, hn]
    simp only [Bool.false_eq_true, if_false]
    rw [progV_nil_runSeq, M.bind_congr_ok hb]
    exact ih

theorem loops_of_whileV {n : Nat} {c cnd : Val} {body : List Val} (k : Nat) : ∀ {r v : Val} {st st' : St},
    whileV (evalN n) c cnd (ofList body) k r st = .ok (v, st') → Loops c cnd body r st v st' := by
  induction k with
  | zero => intro r v st st' e; cases e
  | succ k ih =>
    intro r v st st' e
    rw [whileV, M.bind_apply] at e
    cases hc : evalN n c cnd st with
    | ok p =>
      rw [hc, Res.ok_bind] at e
      obtain ⟨x, st1⟩ := p
      have h1 := sem_of_evalN hc (by simp)
      cases hx : x.isNil with
      | true =>
        have : x = nil := by cases x <;> first | rfl | cases hx
        subst this
        cases e
        exact .stop h1
      | false =>
        simp only [hx, Bool.false_eq_true, if_false, M.bind_apply] at e
        cases hp : progV (evalN n) c (ofList body) nil st1 with
        | ok q =>
          rw [hp, Res.ok_bind] at e
          have h2 : progV sem c (ofList body) nil st1 = .ok q := by
            obtain ⟨N, hN⟩ := lim_progV c (ofList body) nil st1
            rw [← hN (max n N) (by omega)]
            rcases le_progV (evalN_le (Nat.le_max_left n N)) c (ofList body) nil st1 with l | l
            · rw [hp] at l; cases l
            · exact l.symm.trans hp
          rw [progV_nil_runSeq] at h2
          exact .go h1 (by intro e0; rw [e0] at hx; cases hx) h2 (ih e)
        | _ => rw [hp] at e; cases e
    | _ => rw [hc] at e; cases e

/-- **C63.** `(while COND BODY...)` ends with a value exactly if repeating the body while the condition is not NIL
does, with the same value and the same state. -/
theorem C63_while (c : Val) (st st' : St) (s : Sym) (cnd : Val) (body : List Val) (v : Val)
    (h : Resolves c st s Native.while_.val) :
    sem c (cons (ofSym s) (cons cnd (ofList body))) st = .ok (v, st') ↔ Loops c cnd body nil st v st' := by
  rw [sem_any _ h rfl]
  show whileSem c cnd (ofList body) nil st = _ ↔ _
  constructor
  · intro e
    obtain ⟨N, hN⟩ := lim_whileV c cnd (ofList body) nil st
    exact loops_of_whileV N ((hN N (Nat.le_refl N)).trans e)
  · exact whileSem_of_loops

/-- **C63.** A loop whose condition never becomes NIL runs for ever. -/
theorem C63_forever (c : Val) (st : St) (s : Sym) (cnd : Val) (body : List Val) (h : Resolves c st s Native.while_.val)
    (I : St → Prop) (h0 : I st) (hi : ∀ st, I st → ∃ x st1 r st2, sem c cnd st = .ok (x, st1) ∧ x ≠ nil ∧
      runSeq sem c body st1 = .ok (r, st2) ∧ I st2) :
    sem c (cons (ofSym s) (cons cnd (ofList body))) st = .oof := by
  rw [sem_any _ h rfl]
  show whileSem c cnd (ofList body) nil st = _
  have key : ∀ n k st r, I st → whileV (evalN n) c cnd (ofList body) k r st = .oof := by
    intro n k
    induction k with
    | zero => intro st r _; rfl
    | succ k ih =>
      intro st r hI
      obtain ⟨x, st1, r1, st2, h1, hx, h2, hI2⟩ := hi st hI
      rw [whileV, M.bind_apply]
      have e1 : evalN n c cnd st = .oof ∨ evalN n c cnd st = .ok (x, st1) := by
        by_cases ho : evalN n c cnd st = .oof
        · exact .inl ho
        · exact .inr ((sem_of_evalN rfl ho).symm.trans h1)
      rcases e1 with e1 | e1
      · rw [e1]; rfl
      · rw [e1, Res.ok_bind]
        have hn : x.isNil = false := by cases x <;> first | rfl | exact absurd rfl hx
        simp only [hn, Bool.false_eq_true, if_false, M.bind_apply]
        rw [← progV_nil_runSeq] at h2
        obtain ⟨N, hN⟩ := lim_progV c (ofList body) nil st1
        rcases le_progV (evalN_le (Nat.le_max_left n N)) c (ofList body) nil st1 with l | l
        · rw [l]; rfl
        · have l2 : progV (evalN n) c (ofList body) nil st1 = .ok (r1, st2) :=
            l.trans ((hN _ (Nat.le_max_right n N)).trans h2)
          rw [l2, Res.ok_bind]
          exact ih st2 r1 hI2
  obtain ⟨N, hN⟩ := lim_whileV c cnd (ofList body) nil st
  exact (hN N (Nat.le_refl N)).symm.trans (key N N st nil h0)

/-- `(while NIL 1)` is NIL; `(while T)` runs for ever. -/
example : Loops nil nil [num 1] nil initSt nil initSt := .stop (by rw [sem_atom nil nil rfl rfl]; rfl)
example : sem nil (cons (ofSym Native.while_.name) (cons tru (ofList []))) initSt = .oof :=
  C63_forever nil initSt _ tru [] rfl (fun _ => True) trivial fun st _ =>
    ⟨tru, st, nil, st, by rw [sem_atom nil tru rfl rfl]; rfl, by simp, rfl, trivial⟩
/-- `(setq x 3)`, `(while (< 0 x) (setq x (- x 1)) (prin x))` writes `210`. -/
example : runOut 30 [L [S "setq", S "x", N 3],
    L [S "while", L [S "<", N 0, S "x"], L [S "setq", S "x", L [S "-", S "x", N 1]], L [S "prin", S "x"]]] =
    .ok (N 0, [50, 49, 48]) := by decide +kernel

end Mnml
