import Verif.Depth
import Verif.PropOut

/-!
# C74: how deep the evaluator nests
-/

namespace Mnml

open Val

/-- **C74.** Bounding the depth does not change results: an expression has a value exactly if it has it within some depth. -/
theorem C74_results (c e : Val) (st : St) (v : Val) (st' : St) : (∃ d, InDepth d c e st v st') ↔ Evals c e st v st' := by
  constructor
  · rintro ⟨d, L, h⟩
    exact ⟨L + d, le_ok (evalD_evalN L d c e) h⟩
  · rintro ⟨n, h⟩
    exact ⟨n, n, le_ok (evalN_evalD n c e) h⟩

/-! ## Tail calls -/

/-- The rounds of a function: in each the body is run with the bindings of the round, and either gives the result, or a tail call record with the bindings of the
next round. Every round stays within the depth `d`; there is no bound for their number. -/
inductive Rounds (d : Nat) (s : Sym) (body : Val) (l : List Entry) : Val → St → Val → St → Prop where
  | done {b : Val} {v c : Val} {st st' : St} : merge (envVal l) b = .ok c → InProg d c body st v st' → isSelfTail (ofSym s) v = .ok false →
      Rounds d s body l b st v st'
  | next {b r v c : Val} {st st1 st' : St} : merge (envVal l) b = .ok c → InProg d c body st r st1 → isSelfTail (ofSym s) r = .ok true →
      Rounds d s body l r.cdr st1 v st' → Rounds d s body l b st v st'

theorem Rounds.mono {d d' : Nat} {s : Sym} {body b v : Val} {l : List Entry} {st st' : St} (h : Rounds d s body l b st v st') (hd : d ≤ d') :
    Rounds d' s body l b st v st' := by
  induction h with
  | done h1 h2 h3 => exact .done h1 (h2.mono hd) h3
  | next h1 h2 h3 _ ih => exact .next h1 (h2.mono hd) h3 ih

theorem loop_of_rounds {d : Nat} {s : Sym} {body : Val} {l : List Entry} {b : Val} {st st' : St} {v : Val}
    (h : Rounds d s body l b st v st') : ∃ L k, tailLoop (evalD L d) (ofSym s) body (envVal l) k b st = .ok (v, st') := by
  induction h with
  | done h1 h2 h3 =>
    obtain ⟨L, h2⟩ := h2
    refine ⟨L, 1, ?_⟩
    simp only [tailLoop, h1, M.lift_ok, M.pure_bind]
    rw [M.bind_congr_ok h2, h3]; rfl
  | next h1 h2 h3 _ ih =>
    obtain ⟨L, h2⟩ := h2
    obtain ⟨L', k, ih⟩ := ih
    refine ⟨max L L', k + 1, ?_⟩
    simp only [tailLoop, h1, M.lift_ok, M.pure_bind]
    rw [M.bind_congr_ok (progD_up h2 (Nat.le_max_left L L') (Nat.le_refl d)), h3]
    simp only [M.lift_ok, M.pure_bind, if_true]
    exact le_ok (le_tailLoop (evalD_le (Nat.le_max_right L L') (Nat.le_refl d)) _ _ _ _ _ (Nat.le_refl k) _) ih

theorem rounds_of_loop {d L : Nat} {s : Sym} {body : Val} {l : List Entry} (k : Nat) : ∀ {b : Val} {st st' : St} {v : Val},
    tailLoop (evalD L d) (ofSym s) body (envVal l) k b st = .ok (v, st') → Rounds d s body l b st v st' := by
  induction k with
  | zero => intro b st st' v h; cases h
  | succ k ih =>
    intro b st st' v h
    simp only [tailLoop] at h
    obtain ⟨c, st1, h1, h5⟩ := bind_ok h
    obtain ⟨h6, h7⟩ := lift_ok_inv h1
    simp only at h6 h7
    subst h7
    obtain ⟨r, st2, h2, h8⟩ := bind_ok h5
    obtain ⟨again, st3, h9, h10⟩ := bind_ok h8
    obtain ⟨h3, h4⟩ := lift_ok_inv h9
    simp only at h3 h4
    subst h4
    cases again with
    | true => exact .next h6 ⟨L, h2⟩ h3 (ih h10)
    | false => cases h10; exact .done h6 ⟨L, h2⟩ h3

/-- **C74.** The depth of a call of a lisp function: one more than the depth that its arguments and each of its rounds need; the number of rounds does
not matter. -/
theorem C74_call {l dcl : List Entry} {s : Sym} {as vs : List Val} {body v : Val} {st st' : St} (d : Nat)
    (h : Resolves (envVal l) st s (cons (ofList as) (cons (envVal dcl) body))) (hb : body.isPair = true) (hlen : vs.length = as.length) :
    InDepth (d + 2) (envVal l) (cons (ofSym s) (ofList vs)) st v st' ↔
      ∃ xs st1, InSeq (d + 1) (envVal l) vs st xs st1 ∧
        Rounds (d + 1) s body (mergeEnv l dcl) (envVal (bindAll as xs [])) st1 v st' := by
  constructor
  · rintro ⟨L, e⟩
    rw [evalD, ofSym, step_lisp (evalD_sym h) hb hlen] at e
    obtain ⟨xs, st1, h1, e⟩ := bind_ok e
    exact ⟨xs, st1, ⟨L, h1⟩, rounds_of_loop _ e⟩
  · rintro ⟨xs, st1, ⟨L, h1⟩, h2⟩
    obtain ⟨L', k, h2⟩ := loop_of_rounds h2
    refine ⟨max L (max L' k), ?_⟩
    rw [evalD, ofSym, step_lisp (evalD_sym h) hb hlen, M.bind_congr_ok (seqD_up h1 (by omega) (Nat.le_refl _))]
    exact le_ok (le_tailLoop (evalD_le (L := L') (by omega) (Nat.le_refl _)) _ _ _ _ _ (by omega) _) h2

/-- The last round. -/
theorem round_done {d : Nat} {s : Sym} {body v : Val} {l b : List Entry} {st st' : St}
    (h : InProg d (envVal (mergeEnv l b)) body st v st') (hv : v.isTailCall = false) : Rounds d s body l (envVal b) st v st' := by
  refine .done (merge_envVal _ _) h ?_
  cases v with
  | sym t s => cases t <;> first | rfl | (simp [isTailCall] at hv)
  | pair t a d => cases t <;> first | rfl | (simp [isTailCall] at hv)
  | _ => rfl

/-- A round that ends in a tail call. -/
theorem round_next {d : Nat} {s : Sym} {body v : Val} {l b b' : List Entry} {st st1 st' : St}
    (h : InProg d (envVal (mergeEnv l b)) body st (pair true (sym true s) (envVal b')) st1) (hr : Rounds d s body l (envVal b') st1 v st') :
    Rounds d s body l (envVal b) st v st' :=
  .next (merge_envVal _ _) h (by simp [isSelfTail, tag, symIs, symMatch_eq_decide]) hr

/-- A marked call needs the depth of its arguments only. -/
theorem d_tail {d : Nat} {l dcl : List Entry} {s : Sym} {as vs xs : List Val} {body : Val} {st st1 : St}
    (h : Resolves (envVal l) st s (cons (ofList as) (cons (envVal dcl) body))) (hb : body.isPair = true) (hlen : vs.length = as.length)
    (hx : InSeq (d + 1) (envVal l) vs st xs st1) :
    InDepth (d + 2) (envVal l) (cons (sym true s) (ofList vs)) st (pair true (sym true s) (envVal (bindAll as xs []))) st1 := by
  obtain ⟨L, hx⟩ := hx
  refine ⟨L, ?_⟩
  rw [evalD, step_lisp (evalD_sym h) hb hlen, M.bind_congr_ok hx]
  rfl

/-! ## `while` -/

/-- The runs of a loop, each within a depth. -/
inductive Turns (d : Nat) (c cnd body : Val) : Val → St → Val → St → Prop where
  | stop {r : Val} {st st1 : St} : InDepth d c cnd st nil st1 → Turns d c cnd body r st r st1
  | go {r x r1 r2 : Val} {st st1 st2 st3 : St} : InDepth d c cnd st x st1 → x ≠ nil →
      InProg d c body st1 r1 st2 → Turns d c cnd body r1 st2 r2 st3 → Turns d c cnd body r st r2 st3

theorem while_of_turns {d : Nat} {c cnd body r v : Val} {st st' : St} (h : Turns d c cnd body r st v st') :
    ∃ L k, whileV (evalD L d) c cnd body k r st = .ok (v, st') := by
  induction h with
  | stop h1 =>
    obtain ⟨L, h1⟩ := h1
    refine ⟨L, 1, ?_⟩
    simp only [whileV]
    rw [M.bind_congr_ok h1]; rfl
  | @go r x r1 r2 st st1 st2 st3 h1 h2 h3 _ ih =>
    obtain ⟨L, h1⟩ := h1
    obtain ⟨L', h3⟩ := h3
    obtain ⟨L'', k, ih⟩ := ih
    have hn : x.isNil = false := by cases x <;> first | rfl | exact absurd rfl h2
    refine ⟨max L (max L' L''), k + 1, ?_⟩
    simp only [whileV]
    rw [M.bind_congr_ok (evalD_up h1 (by omega) (Nat.le_refl d)), hn]
    simp only [Bool.false_eq_true, if_false]
    rw [M.bind_congr_ok (progD_up h3 (by omega) (Nat.le_refl d))]
    exact le_ok (le_whileV (evalD_le (L := L'') (by omega) (Nat.le_refl d)) _ _ _ _ _ (Nat.le_refl k) _) ih

theorem turns_of_while {d L : Nat} {c cnd body : Val} (k : Nat) : ∀ {r v : Val} {st st' : St},
    whileV (evalD L d) c cnd body k r st = .ok (v, st') → Turns d c cnd body r st v st' := by
  induction k with
  | zero => intro r v st st' h; cases h
  | succ k ih =>
    intro r v st st' h
    simp only [whileV] at h
    obtain ⟨x, st1, h1, h⟩ := bind_ok h
    cases hx : x.isNil with
    | true =>
      have : x = nil := by cases x <;> first | rfl | cases hx
      subst this
      cases h
      exact .stop ⟨L, h1⟩
    | false =>
      simp only [hx, Bool.false_eq_true, if_false] at h
      obtain ⟨r1, st2, h2, h⟩ := bind_ok h
      exact .go ⟨L, h1⟩ (by intro e; rw [e] at hx; cases hx) ⟨L, h2⟩ (ih h)

/-- **C74.** The depth of a `while`: one more than the depth that each evaluation of the condition and of the body needs; the number of turns does not matter. -/
theorem C74_while {c : Val} {st st' : St} {s : Sym} {cnd body v : Val} (d : Nat) (h : Resolves c st s Native.while_.val) :
    InDepth (d + 2) c (cons (ofSym s) (cons cnd body)) st v st' ↔ Turns (d + 1) c cnd body nil st v st' := by
  constructor
  · rintro ⟨L, e⟩
    rw [evalD, ofSym, step_any (evalD_sym h) rfl] at e
    exact turns_of_while _ e
  · intro h2
    obtain ⟨L, k, h2⟩ := while_of_turns h2
    refine ⟨max L k, ?_⟩
    rw [evalD, ofSym, step_any (evalD_sym h) rfl]
    exact le_ok (le_whileV (evalD_le (L := L) (by omega) (Nat.le_refl _)) _ _ _ _ _ (Nat.le_max_right L k) _) h2

end Mnml
