import Verif.PropTail

/-!
# C24: the tail position analysis only selects tail positions
-/

namespace Mnml

open Val

/-! ## Specification: tail positions

Positions in an expression are paths: `false` for CAR and `true` for CDR (`Val.sub`). -/

/-- The path to element `i` of a list. -/
def nth (i : Nat) : List Bool := List.replicate i true ++ [false]

/-- Element `i` is the last one of the list `v`. -/
def IsLast (v : Val) (i : Nat) : Prop :=
  ∃ t x y, v.sub (List.replicate i true) = some (pair t x y) ∧ y.isPair = false

/-- `TailStep e k`: the sub-expression of `e` at `k` is one whose value is the value of `e` when it is
reached: the branches of `if`, the bodies of the clauses of `cond` and `match`, the last expression of `prog`, and
the last body expression of `when` and `unless`. -/
inductive TailStep : Val → List Bool → Prop where
  | thn (t0 t1 : Bool) (r : Val) : TailStep (pair t0 (sym t1 sIf) r) (nth 2)
  | els (t0 t1 : Bool) (r : Val) : TailStep (pair t0 (sym t1 sIf) r) (nth 3)
  | clause (t0 t1 : Bool) (s : Sym) (r : Val) (i : Nat) (h : s = sCond ∨ s = sMatch) :
      TailStep (pair t0 (sym t1 s) r) (nth (i + 2) ++ [true])
  | prog (t0 t1 : Bool) (r : Val) (i : Nat) (h : IsLast r i) :
      TailStep (pair t0 (sym t1 sProg) r) (nth (i + 1))
  | body (t0 t1 : Bool) (s : Sym) (r : Val) (i : Nat) (h : s = sWhen ∨ s = sUnless) (hl : IsLast r (i + 1)) :
      TailStep (pair t0 (sym t1 s) r) (nth (i + 2))

/-- `TailPos e p`: the sub-expression of `e` at `p` is in tail position. -/
inductive TailPos : Val → List Bool → Prop where
  | here (e : Val) : TailPos e []
  | step (e x : Val) (k p : List Bool) (hk : TailStep e k) (hx : e.sub k = some x) (hp : TailPos x p) :
      TailPos e (k ++ p)

/-- The expressions for which the analysis is wrong: `|>`, and `when` or `unless` with more than one
body expression. -/
def Misjudged : Val → Prop
  | pair _ (sym _ s) r =>
    s = sStream ∨ (s = sWhen ∨ s = sUnless) ∧ ∃ t1 c t2 x t3 y z, r = pair t1 c (pair t2 x (pair t3 y z))
  | _ => False

/-- The position is inside of a misjudged expression that is in tail position. -/
def Excluded (e : Val) (p : List Bool) : Prop :=
  ∃ q q' x, p = q ++ q' ∧ TailPos e q ∧ e.sub q = some x ∧ Misjudged x

/-! ## Proofs -/

theorem sub_append (v : Val) (p q : List Bool) : v.sub (p ++ q) = (v.sub p).bind (·.sub q) := by
  induction p generalizing v with
  | nil => simp [Val.sub]
  | cons b p ih =>
    cases v with
    | pair t a d => cases b <;> simp only [List.cons_append, Val.sub, ih]
    | _ => simp [Val.sub]

theorem Excluded.step {e x : Val} {k p : List Bool} (hk : TailStep e k) (hx : e.sub k = some x)
    (h : Excluded x p) : Excluded e (k ++ p) := by
  obtain ⟨q, q', y, rfl, h1, h2, h3⟩ := h
  exact ⟨k ++ q, q', y, by simp, .step e x k q hk hx h1, by rw [sub_append, hx]; exact h2, h3⟩

/-- The flags set in `v'` and not in `v` are on the heads of calls of `f` at positions with `P`. -/
def Flagged (f : Sym) (args v v' : Val) (P : List Bool → Prop) : Prop :=
  ∀ p s, v.sub p = some (sym false s) → v'.sub p = some (sym true s) →
    ∃ q, p = q ++ [false] ∧ s = f ∧
      (∃ t rest, v.sub q = some (pair t (sym false f) rest) ∧ mayApply args rest = true) ∧ P q

theorem Flagged.refl (f : Sym) (args v : Val) (P : List Bool → Prop) : Flagged f args v v P := by
  intro p s h h'
  rw [h] at h'
  cases h'

theorem Flagged.pair {f : Sym} {args a a' d d' : Val} {P Q R : List Bool → Prop} (t : Bool)
    (ha : Flagged f args a a' P) (hd : Flagged f args d d' Q) (h1 : ∀ q, P q → R (false :: q))
    (h2 : ∀ q, Q q → R (true :: q)) : Flagged f args (pair t a d) (pair t a' d') R := by
  intro p s h h'
  cases p with
  | nil => cases h
  | cons b p =>
    cases b with
    | false =>
      obtain ⟨q, rfl, hs, hc, hp⟩ := ha p s h h'
      exact ⟨false :: q, rfl, hs, hc, h1 q hp⟩
    | true =>
      obtain ⟨q, rfl, hs, hc, hp⟩ := hd p s h h'
      exact ⟨true :: q, rfl, hs, hc, h2 q hp⟩

theorem Flagged.mono {f : Sym} {args v v' : Val} {P Q : List Bool → Prop} (h : Flagged f args v v' P)
    (hpq : ∀ q, P q → Q q) : Flagged f args v v' Q := by
  intro p s h1 h2
  obtain ⟨q, a, b, c, d⟩ := h p s h1 h2
  exact ⟨q, a, b, c, hpq q d⟩

/-- A judged position: in tail position or inside of a misjudged expression. -/
def Judged (e : Val) (q : List Bool) : Prop := TailPos e q ∨ Excluded e q

theorem Judged.step {e x : Val} {k p : List Bool} (hk : TailStep e k) (hx : e.sub k = some x)
    (h : Judged x p) : Judged e (k ++ p) := by
  rcases h with h | h
  · exact .inl (.step e x k p hk hx h)
  · exact .inr (Excluded.step hk hx h)

theorem flagged_markCall (f : Sym) (args v : Val) :
    Flagged f args v (markCall f args v) (fun q => q = []) := by
  match v with
  | pair t (sym b s) rest =>
    simp only [markCall]
    by_cases hc : (symMatch s f && mayApply args rest) = true
    · rw [if_pos hc]
      simp only [symMatch_eq_decide, Bool.and_eq_true, decide_eq_true_eq] at hc
      obtain ⟨rfl, hm⟩ := hc
      intro p s' h h'
      match p with
      | [] => cases h
      | [false] =>
        simp only [Val.sub] at h h'
        cases h
        exact ⟨[], rfl, rfl, ⟨t, rest, rfl, hm⟩, rfl⟩
      | false :: c :: p => cases c <;> cases h
      | true :: p =>
        simp only [Val.sub] at h h'
        rw [h] at h'; cases h'
    · rw [if_neg hc]; exact Flagged.refl _ _ _ _
  | nil | tru | wild | chr _ | num _ | sym _ _ => exact Flagged.refl _ _ _ _
  | pair t nil _ | pair t tru _ | pair t wild _ | pair t (chr _) _ | pair t (num _) _
  | pair t (pair ..) _ => exact Flagged.refl _ _ _ _

theorem sub_nth {v x : Val} {i : Nat} {t : Bool} {y : Val}
    (h : v.sub (List.replicate i true) = some (pair t x y)) : v.sub (nth i) = some x := by
  rw [nth, sub_append, h]; simp [Val.sub]

mutual
theorem flagged_markTails (f : Sym) (args v : Val) : Flagged f args v (markTails f args v) (Judged v) := by
  match v with
  | pair t0 (sym t1 s) rest =>
    rw [markTails]
    by_cases h1 : s = sIf
    · subst h1
      rw [if_pos rfl]
      refine Flagged.pair t0 (Flagged.refl _ _ _ (fun _ => False)) (flagged_markIf f args rest) (fun _ h => h.elim) ?_
      rintro q (⟨x, q', hq, rfl, hj⟩ | ⟨x, q', hq, rfl, hj⟩)
      · exact Judged.step (.thn t0 t1 rest) hq hj
      · exact Judged.step (.els t0 t1 rest) hq hj
    · rw [if_neg h1]
      by_cases h2 : (decide (s = sCond) || decide (s = sMatch)) = true
      · rw [if_pos h2]
        have h2' : s = sCond ∨ s = sMatch := by simpa using h2
        refine Flagged.pair t0 (Flagged.refl _ _ _ (fun _ => False)) (flagged_markClauses f args rest)
          (fun _ h => h.elim) ?_
        rintro q ⟨i, x, q', hq, rfl, hj⟩
        have := Judged.step (.clause t0 t1 s rest i h2') (x := x) (p := q')
          (by
            have e : nth (i + 2) ++ [true] = true :: (nth (i + 1) ++ [true]) := by
              simp [nth, List.replicate_succ]
            rw [e]; exact hq) hj
        simpa [nth, List.replicate_succ] using this
      · rw [if_neg h2]
        by_cases h3 : (decide (s = sProg) || decide (s = sStream)) = true
        · rw [if_pos h3]
          refine Flagged.pair t0 (Flagged.refl _ _ _ (fun _ => False)) (flagged_markLast f args rest)
            (fun _ h => h.elim) ?_
          rintro q ⟨i, x, q', hl, hq, rfl, hj⟩
          rcases (by simpa using h3 : s = sProg ∨ s = sStream) with rfl | rfl
          · have := Judged.step (.prog t0 t1 rest i hl) (x := x) (p := q')
              (by
                have e : nth (i + 1) = true :: nth i := by simp [nth, List.replicate_succ]
                rw [e]; exact hq) hj
            simpa [nth, List.replicate_succ] using this
          · exact .inr ⟨[], _, _, rfl, .here _, rfl, .inl rfl⟩
        · rw [if_neg h3]
          by_cases h4 : (decide (s = sUnless) || decide (s = sWhen)) = true
          · rw [if_pos h4]
            have h4' : s = sWhen ∨ s = sUnless := by
              rcases (by simpa using h4 : s = sUnless ∨ s = sWhen) with h | h
              · exact .inr h
              · exact .inl h
            refine Flagged.pair t0 (Flagged.refl _ _ _ (fun _ => False)) (flagged_markSecond f args rest)
              (fun _ h => h.elim) ?_
            rintro q ⟨t1', c, t2, x, r, q', rfl, rfl, hj⟩
            by_cases hr : r.isPair = true
            · obtain ⟨t3, y, z, rfl⟩ : ∃ t3 y z, r = pair t3 y z := by
                cases r <;> simp [isPair] at hr
                exact ⟨_, _, _, rfl⟩
              exact .inr ⟨[], _, _, rfl, .here _, rfl, .inr ⟨h4', t1', c, t2, x, t3, y, z, rfl⟩⟩
            · exact Judged.step (.body t0 t1 s _ 0 h4' ⟨t2, x, r, rfl, by simpa using hr⟩) (x := x) (p := q')
                (by simp [nth, List.replicate, Val.sub]) hj
          · rw [if_neg h4]
            exact (flagged_markCall f args _).mono (fun q h => h ▸ .inl (.here _))
  | nil | tru | wild | chr _ | num _ | sym _ _ => rw [markTails]; exact Flagged.refl _ _ _ _; all_goals simp
  | pair t nil _ | pair t tru _ | pair t wild _ | pair t (chr _) _ | pair t (num _) _
  | pair t (pair ..) _ => rw [markTails]; exact Flagged.refl _ _ _ _; all_goals simp

theorem flagged_markIf (f : Sym) (args v : Val) : Flagged f args v (markIf f args v)
    (fun q => (∃ x q', v.sub (nth 1) = some x ∧ q = nth 1 ++ q' ∧ Judged x q') ∨
      (∃ x q', v.sub (nth 2) = some x ∧ q = nth 2 ++ q' ∧ Judged x q')) := by
  match v with
  | pair t1 c r =>
    rw [markIf]
    refine Flagged.pair t1 (Flagged.refl _ _ _ (fun _ => False)) (flagged_markThen f args r) (fun _ h => h.elim) ?_
    rintro q (⟨x, q', hq, rfl, hj⟩ | ⟨x, q', hq, rfl, hj⟩)
    · exact .inl ⟨x, q', hq, rfl, hj⟩
    · exact .inr ⟨x, q', hq, rfl, hj⟩
  | nil | tru | wild | chr _ | num _ | sym _ _ => rw [markIf]; exact Flagged.refl _ _ _ _; all_goals simp

theorem flagged_markThen (f : Sym) (args v : Val) : Flagged f args v (markThen f args v)
    (fun q => (∃ x q', v.sub (nth 0) = some x ∧ q = nth 0 ++ q' ∧ Judged x q') ∨
      (∃ x q', v.sub (nth 1) = some x ∧ q = nth 1 ++ q' ∧ Judged x q')) := by
  match v with
  | pair t1 c r =>
    rw [markThen]
    refine Flagged.pair t1 (flagged_markTails f args c) (flagged_markElse f args r) ?_ ?_
    · exact fun q h => .inl ⟨c, q, by simp [nth, Val.sub], rfl, h⟩
    · rintro q ⟨t, x, r', q', rfl, rfl, hj⟩
      exact .inr ⟨x, q', by simp [nth, List.replicate, Val.sub], rfl, hj⟩
  | nil | tru | wild | chr _ | num _ | sym _ _ => rw [markThen]; exact Flagged.refl _ _ _ _; all_goals simp

theorem flagged_markElse (f : Sym) (args v : Val) : Flagged f args v (markElse f args v)
    (fun q => ∃ t x r q', v = pair t x r ∧ q = false :: q' ∧ Judged x q') := by
  match v with
  | pair t1 c r =>
    rw [markElse]
    exact Flagged.pair t1 (flagged_markTails f args c) (Flagged.refl _ _ _ (fun _ => False))
      (fun q h => ⟨t1, c, r, q, rfl, rfl, h⟩) (fun _ h => h.elim)
  | nil | tru | wild | chr _ | num _ | sym _ _ => rw [markElse]; exact Flagged.refl _ _ _ _; all_goals simp

theorem flagged_markClauses (f : Sym) (args v : Val) : Flagged f args v (markClauses f args v)
    (fun q => ∃ i x q', v.sub (nth (i + 1) ++ [true]) = some x ∧ q = nth (i + 1) ++ true :: q' ∧ Judged x q') := by
  match v with
  | pair t1 c r =>
    rw [markClauses]
    refine Flagged.pair t1 (Flagged.refl _ _ _ (fun _ => False)) (flagged_markAssoc f args r) (fun _ h => h.elim) ?_
    rintro q ⟨i, x, q', hq, rfl, hj⟩
    exact ⟨i, x, q', by simpa [nth, List.replicate_succ, Val.sub] using hq, by simp [nth, List.replicate_succ], hj⟩
  | nil | tru | wild | chr _ | num _ | sym _ _ => rw [markClauses]; exact Flagged.refl _ _ _ _; all_goals simp

theorem flagged_markAssoc (f : Sym) (args v : Val) : Flagged f args v (markAssoc f args v)
    (fun q => ∃ i x q', v.sub (nth i ++ [true]) = some x ∧ q = nth i ++ true :: q' ∧ Judged x q') := by
  match v with
  | pair t1 c r =>
    rw [markAssoc]
    refine Flagged.pair t1 (flagged_markClause f args c) (flagged_markAssoc f args r) ?_ ?_
    · rintro q ⟨t, p, x, q', rfl, rfl, hj⟩
      exact ⟨0, x, q', by simp [nth, Val.sub], rfl, hj⟩
    · rintro q ⟨i, x, q', hq, rfl, hj⟩
      exact ⟨i + 1, x, q', by simpa [nth, List.replicate_succ, Val.sub] using hq,
        by simp [nth, List.replicate_succ], hj⟩
  | nil | tru | wild | chr _ | num _ | sym _ _ => rw [markAssoc]; exact Flagged.refl _ _ _ _; all_goals simp

theorem flagged_markClause (f : Sym) (args v : Val) : Flagged f args v (markClause f args v)
    (fun q => ∃ t p x q', v = pair t p x ∧ q = true :: q' ∧ Judged x q') := by
  match v with
  | pair t1 p x =>
    rw [markClause]
    exact Flagged.pair t1 (Flagged.refl _ _ _ (fun _ => False)) (flagged_markTails f args x) (fun _ h => h.elim)
      (fun q h => ⟨t1, p, x, q, rfl, rfl, h⟩)
  | nil | tru | wild | chr _ | num _ | sym _ _ => rw [markClause]; exact Flagged.refl _ _ _ _; all_goals simp

theorem flagged_markLast (f : Sym) (args v : Val) : Flagged f args v (markLast f args v)
    (fun q => ∃ i x q', IsLast v i ∧ v.sub (nth i) = some x ∧ q = nth i ++ q' ∧ Judged x q') := by
  match v with
  | pair t1 x r =>
    rw [markLast]
    by_cases hr : r.isPair = true
    · rw [if_pos hr]
      refine Flagged.pair t1 (Flagged.refl _ _ _ (fun _ => False)) (flagged_markLast f args r) (fun _ h => h.elim) ?_
      rintro q ⟨i, x', q', ⟨t, y, z, h1, h2⟩, hq, rfl, hj⟩
      exact ⟨i + 1, x', q', ⟨t, y, z, by simpa [List.replicate_succ, Val.sub] using h1, h2⟩,
        by simpa [nth, List.replicate_succ, Val.sub] using hq, by simp [nth, List.replicate_succ], hj⟩
    · rw [if_neg hr]
      exact Flagged.pair t1 (flagged_markTails f args x) (Flagged.refl _ _ _ (fun _ => False))
        (fun q h => ⟨0, x, q, ⟨t1, x, r, rfl, by simpa using hr⟩, by simp [nth, Val.sub], rfl, h⟩) (fun _ h => h.elim)
  | nil | tru | wild | chr _ | num _ | sym _ _ => rw [markLast]; exact Flagged.refl _ _ _ _; all_goals simp

theorem flagged_markSecond (f : Sym) (args v : Val) : Flagged f args v (markSecond f args v)
    (fun q => ∃ t1 c t2 x r q', v = pair t1 c (pair t2 x r) ∧ q = true :: false :: q' ∧ Judged x q') := by
  match v with
  | pair t1 c r =>
    rw [markSecond]
    refine Flagged.pair t1 (Flagged.refl _ _ _ (fun _ => False)) (flagged_markElse f args r) (fun _ h => h.elim) ?_
    rintro q ⟨t, x, r', q', rfl, rfl, hj⟩
    exact ⟨t1, c, t, x, r', q', rfl, rfl, hj⟩
  | nil | tru | wild | chr _ | num _ | sym _ _ => rw [markSecond]; exact Flagged.refl _ _ _ _; all_goals simp
end

/-- **C24.** The analysis of a function body (a list of expressions) only marks calls of the function itself, with
arguments it can be applied to, in tail position. Missing with respect to the full claim: the expressions `|>`,
and `when`/`unless` with several body expressions, inside of which the code marks calls that are not in tail
position (`C24_when_counterexample`, `C24_stream_counterexample`). -/
theorem C24_marked_partial (f : Sym) (args : Val) (pre : List Val) (e : Val) (p : List Bool) (s : Sym)
    (h : (ofList (pre ++ [e])).sub p = some (sym false s))
    (h' : (markLast f args (ofList (pre ++ [e]))).sub p = some (sym true s)) :
    ∃ q, p = nth pre.length ++ q ++ [false] ∧ s = f ∧
      (∃ t rest, e.sub q = some (pair t (sym false f) rest) ∧ mayApply args rest = true) ∧
      (TailPos e q ∨ Excluded e q) := by
  rw [markLast_append] at h'
  have hsub : ∀ (l : List Val) (x : Val) (r : List Bool), (ofList (l ++ [x])).sub (nth l.length ++ r) = x.sub r := by
    intro l x r
    induction l with
    | nil => simp [nth, ofList, Val.sub]
    | cons y l ih => simpa [nth, ofList, Val.sub, List.replicate_succ] using ih
  -- the flagged position is inside of the last expression
  have hp : ∃ r, p = nth pre.length ++ r := by
    clear hsub
    induction pre generalizing p with
    | nil =>
      cases p with
      | nil => simp [Val.sub, ofList] at h
      | cons b p =>
        cases b with
        | false => exact ⟨p, rfl⟩
        | true =>
          simp only [List.nil_append, ofList, Val.sub] at h
          cases p <;> simp [Val.sub] at h
    | cons x pre ih =>
      cases p with
      | nil => simp [Val.sub, ofList] at h
      | cons b p =>
        cases b with
        | false =>
          simp only [List.cons_append, ofList, Val.sub] at h h'
          rw [h] at h'; cases h'
        | true =>
          simp only [List.cons_append, ofList, Val.sub] at h h'
          obtain ⟨r, rfl⟩ := ih p h h'
          exact ⟨r, by simp [nth, List.replicate_succ]⟩
  obtain ⟨r, rfl⟩ := hp
  rw [hsub] at h
  rw [hsub] at h'
  obtain ⟨q, rfl, hs, hc, hj⟩ := flagged_markTails f args e r s h h'
  exact ⟨q, by simp, hs, hc, hj⟩

theorem markTails_erase (f : Sym) (args v : Val) : (markTails f args v).erase = v.erase := by
  have hc : ∀ v, (markCall f args v).erase = v.erase := by
    intro v
    match v with
    | pair t (sym b s) rest =>
      simp only [markCall]
      split <;> simp [erase]
    | nil | tru | wild | chr _ | num _ | sym _ _ => rfl
    | pair t nil _ | pair t tru _ | pair t wild _ | pair t (chr _) _ | pair t (num _) _
    | pair t (pair ..) _ => rfl
  apply markTails.induct
    (motive_1 := fun v => (markTails f args v).erase = v.erase)
    (motive_2 := fun v => (markSecond f args v).erase = v.erase)
    (motive_3 := fun v => (markElse f args v).erase = v.erase)
    (motive_4 := fun v => (markLast f args v).erase = v.erase)
    (motive_5 := fun v => (markClauses f args v).erase = v.erase)
    (motive_6 := fun v => (markAssoc f args v).erase = v.erase)
    (motive_7 := fun v => (markClause f args v).erase = v.erase)
    (motive_8 := fun v => (markIf f args v).erase = v.erase)
    (motive_9 := fun v => (markThen f args v).erase = v.erase) <;> intros <;>
    simp_all [markTails, markIf, markThen, markElse, markClauses, markAssoc, markClause, markLast, markSecond, erase]

/-- **C24.** Marking changes nothing but flags. -/
theorem C24_only_flags (f : Sym) (args : Val) (pre : List Val) (e : Val) :
    (markLast f args (ofList (pre ++ [e]))).erase = (ofList (pre ++ [e])).erase := by
  rw [markLast_append]
  induction pre with
  | nil => simp [ofList, erase, markTails_erase]
  | cons x pre ih => simpa [ofList, erase] using ih

theorem markLast_last {f : Sym} {args v x : Val} {i : Nat} (hl : IsLast v i) (hx : v.sub (nth i) = some x) :
    (markLast f args v).sub (nth i) = some (markTails f args x) := by
  induction i generalizing v with
  | zero =>
    obtain ⟨t, a, y, h1, h2⟩ := hl
    simp only [List.replicate, Val.sub, Option.some.injEq] at h1
    subst h1
    simp only [nth, List.replicate, List.nil_append, Val.sub, Option.some.injEq] at hx
    subst hx
    rw [markLast, if_neg (by simp [h2])]
    simp [nth, Val.sub]
  | succ i ih =>
    obtain ⟨t, a, y, h1, h2⟩ := hl
    cases v with
    | pair t1 b r =>
      have h1' : r.sub (List.replicate i true) = some (pair t a y) := by
        simpa [List.replicate_succ, Val.sub] using h1
      have hr : r.isPair = true := by
        cases r with
        | pair => rfl
        | _ => cases i <;> simp [List.replicate_succ, Val.sub] at h1'
      rw [markLast, if_pos hr]
      have := ih (v := r) ⟨t, a, y, h1', h2⟩ (by simpa [nth, List.replicate_succ, Val.sub] using hx)
      simpa [nth, List.replicate_succ, Val.sub] using this
    | _ => simp [List.replicate_succ, Val.sub] at h1

theorem markAssoc_clause {f : Sym} {args v x : Val} {i : Nat} (hx : v.sub (nth i ++ [true]) = some x) :
    (markAssoc f args v).sub (nth i ++ [true]) = some (markTails f args x) := by
  induction i generalizing v with
  | zero =>
    cases v with
    | pair t1 b r =>
      cases b with
      | pair t2 p y =>
        simp only [nth, List.replicate, List.nil_append, List.cons_append, Val.sub, Option.some.injEq] at hx
        subst hx
        simp [markAssoc, markClause, nth, Val.sub]
      | _ => simp [nth, Val.sub] at hx
    | _ => simp [nth, Val.sub] at hx
  | succ i ih =>
    cases v with
    | pair t1 b r =>
      rw [markAssoc]
      have := ih (v := r) (by simpa [nth, List.replicate_succ, Val.sub] using hx)
      simpa [nth, List.replicate_succ, Val.sub] using this
    | _ => simp [nth, List.replicate_succ, Val.sub] at hx

theorem markTails_step {f : Sym} {args e x : Val} {k : List Bool} (hk : TailStep e k) (hx : e.sub k = some x)
    (hm : ¬ Misjudged e) : (markTails f args e).sub k = some (markTails f args x) := by
  cases hk with
  | thn t0 t1 r =>
    rw [markTails, if_pos rfl]
    match r with
    | pair _ c (pair _ y z) =>
      simp only [nth, List.replicate, List.cons_append, List.nil_append, Val.sub, Option.some.injEq] at hx
      subst hx
      simp [markIf, markThen, nth, List.replicate, Val.sub]
    | pair _ c nil | pair _ c tru | pair _ c wild | pair _ c (chr _) | pair _ c (num _) | pair _ c (sym _ _) =>
      simp [nth, List.replicate, Val.sub] at hx
    | nil | tru | wild | chr _ | num _ | sym _ _ => simp [nth, List.replicate, Val.sub] at hx
  | els t0 t1 r =>
    rw [markTails, if_pos rfl]
    match r with
    | pair _ c (pair _ y (pair _ z w)) =>
      simp only [nth, List.replicate, List.cons_append, List.nil_append, Val.sub, Option.some.injEq] at hx
      subst hx
      simp [markIf, markThen, markElse, nth, List.replicate, Val.sub]
    | pair _ c (pair _ y nil) | pair _ c (pair _ y tru) | pair _ c (pair _ y wild) | pair _ c (pair _ y (chr _))
    | pair _ c (pair _ y (num _)) | pair _ c (pair _ y (sym _ _)) => simp [nth, List.replicate, Val.sub] at hx
    | pair _ c nil | pair _ c tru | pair _ c wild | pair _ c (chr _) | pair _ c (num _) | pair _ c (sym _ _) =>
      simp [nth, List.replicate, Val.sub] at hx
    | nil | tru | wild | chr _ | num _ | sym _ _ => simp [nth, List.replicate, Val.sub] at hx
  | clause t0 t1 s r i h =>
    have h1 : s ≠ sIf := by rcases h with rfl | rfl <;> decide
    rw [markTails, if_neg h1, if_pos (by simpa using h)]
    cases r with
    | pair t2 c cs =>
      have := markAssoc_clause (f := f) (args := args) (v := cs) (i := i) (x := x)
        (by simpa [nth, List.replicate_succ, Val.sub] using hx)
      simpa [nth, List.replicate_succ, Val.sub, markClauses] using this
    | _ => simp [nth, List.replicate_succ, Val.sub] at hx
  | prog t0 t1 r i h =>
    have c1 : sProg ≠ sIf := by decide
    have c2 : ¬ (decide (sProg = sCond) || decide (sProg = sMatch)) = true := by decide
    have c3 : (decide (sProg = sProg) || decide (sProg = sStream)) = true := by decide
    rw [markTails, if_neg c1, if_neg c2, if_pos c3]
    have := markLast_last (f := f) (args := args) h (x := x)
      (by simpa [nth, List.replicate_succ, Val.sub] using hx)
    simpa [nth, List.replicate_succ, Val.sub] using this
  | body t0 t1 s r i h hl =>
    have h1 : s ≠ sIf := by rcases h with rfl | rfl <;> decide
    have h2 : ¬ (decide (s = sCond) || decide (s = sMatch)) = true := by rcases h with rfl | rfl <;> decide
    have h3 : ¬ (decide (s = sProg) || decide (s = sStream)) = true := by rcases h with rfl | rfl <;> decide
    have h4 : (decide (s = sUnless) || decide (s = sWhen)) = true := by rcases h with rfl | rfl <;> decide
    rw [markTails, if_neg h1, if_neg h2, if_neg h3, if_pos h4]
    obtain ⟨t, a, y, e1, e2⟩ := hl
    cases r with
    | pair t2 c bs =>
      cases bs with
      | pair t3 b rest =>
        cases i with
        | zero =>
          simp only [nth, List.replicate, List.cons_append, List.nil_append, Val.sub, Option.some.injEq] at hx
          subst hx
          simp [markSecond, markElse, nth, List.replicate, Val.sub]
        | succ i =>
          cases rest with
          | pair t4 b2 z => exact absurd (.inr ⟨h, t2, c, t3, b, t4, b2, z, rfl⟩) hm
          | _ => cases i <;> simp [List.replicate_succ, Val.sub] at e1
      | _ => cases i <;> simp [List.replicate_succ, Val.sub] at e1
    | _ => simp [List.replicate_succ, Val.sub] at e1

/-- **C24.** Conversely, every call of the function in tail position to which it can be applied is marked (so the
loop runs in place of the recursion), except inside of the misjudged expressions. -/
theorem C24_complete (f : Sym) (args : Val) (e : Val) (q : List Bool) (t t1 : Bool) (rest : Val)
    (hspecial : f ∉ [sIf, sCond, sMatch, sProg, sStream, sUnless, sWhen])
    (hq : TailPos e q) (hn : ¬ Excluded e q)
    (he : e.sub q = some (pair t (sym t1 f) rest)) (ha : mayApply args rest = true) :
    (markTails f args e).sub q = some (pair t (sym true f) rest) := by
  induction hq with
  | here e =>
    simp only [Val.sub, Option.some.injEq] at he
    subst he
    simp only [List.mem_cons, List.not_mem_nil, or_false, not_or] at hspecial
    obtain ⟨n1, n2, n3, n4, n5, n6, n7⟩ := hspecial
    rw [markTails]
    simp only [n1, n2, n3, n4, n5, n6, n7, decide_false, Bool.or_false, Bool.false_eq_true, if_false]
    simp [markCall, symMatch_eq_decide, ha, Val.sub]
  | step e x k p hk hx hp ih =>
    have hm : ¬ Misjudged e := fun h => hn ⟨[], _, e, rfl, .here e, by simp [Val.sub], h⟩
    rw [sub_append, markTails_step hk hx hm]
    refine ih (fun h => hn (Excluded.step hk hx h)) ?_
    rw [sub_append, hx] at he
    exact he

/-! ## Meaning of tail positions -/

/-- `Reaches c e st q st'`: evaluating `e` in the environment `c` from state `st` selects the tail position `q`,
whose expression is then evaluated from state `st'`. -/
inductive Reaches (c : Val) : Val → St → List Bool → St → Prop where
  | here (e : Val) (st : St) : Reaches c e st [] st
  | thn {cnd t e v : Val} {st st1 st2 : St} {q : List Bool} (hf : Resolves c st sIf Native.if_.val)
      (hc : sem c cnd st = .ok (v, st1)) (hv : v ≠ nil) (hq : Reaches c t st1 q st2) :
      Reaches c (ofList [ofSym sIf, cnd, t, e]) st (nth 2 ++ q) st2
  | els {cnd t e : Val} {st st1 st2 : St} {q : List Bool} (hf : Resolves c st sIf Native.if_.val)
      (hc : sem c cnd st = .ok (nil, st1)) (hq : Reaches c e st1 q st2) :
      Reaches c (ofList [ofSym sIf, cnd, t, e]) st (nth 3 ++ q) st2
  | prog {es : List Val} {e : Val} {xs : List Val} {st st1 st2 : St} {q : List Bool}
      (hf : Resolves c st sProg Native.prog.val)
      (hes : evalSeq sem c es st = .ok (xs, st1)) (hq : Reaches c e st1 q st2) :
      Reaches c (cons (ofSym sProg) (ofList (es ++ [e]))) st (nth (es.length + 1) ++ q) st2
  | when_ {cnd v e : Val} {es xs : List Val} {st st1 st2 st3 : St} {q : List Bool}
      (hf : Resolves c st sWhen Native.when_.val) (hc : sem c cnd st = .ok (v, st1)) (hv : v ≠ nil)
      (hes : evalSeq sem c es st1 = .ok (xs, st2)) (hq : Reaches c e st2 q st3) :
      Reaches c (cons (ofSym sWhen) (ofList (cnd :: (es ++ [e])))) st (nth (es.length + 2) ++ q) st3
  | unless_ {cnd e : Val} {es xs : List Val} {st st1 st2 st3 : St} {q : List Bool}
      (hf : Resolves c st sUnless Native.unless_.val) (hc : sem c cnd st = .ok (nil, st1))
      (hes : evalSeq sem c es st1 = .ok (xs, st2)) (hq : Reaches c e st2 q st3) :
      Reaches c (cons (ofSym sUnless) (ofList (cnd :: (es ++ [e])))) st (nth (es.length + 2) ++ q) st3
  | cond {subj t b : Val} {pre post : List (Val × Val)} {st st1 st2 st3 : St} {q : List Bool}
      (hf : Resolves c st sCond Native.cond.val) (hpre : AllFail c subj pre st st1)
      (ht : t = wild ∧ st2 = st1 ∨ t ≠ wild ∧ sem c (ofList [t, subj]) st1 = .ok (tru, st2))
      (hq : Reaches c b st2 q st3) :
      Reaches c (cons (ofSym sCond) (cons subj (clauses (pre ++ (t, b) :: post)))) st
        (nth (pre.length + 2) ++ [true] ++ q) st3
  | match_ {subj v t b : Val} {pre post : List (Val × Val)} {st st1 st2 : St} {q : List Bool}
      (hf : Resolves c st sMatch Native.match_.val)
      (hs : sem (cons (cons (ofSym aANY) (cons subj (clauses (pre ++ (t, b) :: post)))) c) subj st = .ok (v, st1))
      (hpre : ∀ p ∈ pre, atomMatch p.1 v = false) (ht : atomMatch t v = true)
      (hq : Reaches c b st1 q st2) :
      Reaches c (cons (ofSym sMatch) (cons subj (clauses (pre ++ (t, b) :: post)))) st
        (nth (pre.length + 2) ++ [true] ++ q) st2

theorem sub_ofList_nth (l : List Val) (i : Nat) : (ofList l).sub (nth i) = l[i]? := by
  induction l generalizing i with
  | nil => cases i <;> simp [nth, ofList, Val.sub, List.replicate_succ]
  | cons x l ih =>
    cases i with
    | zero => simp [nth, ofList, Val.sub]
    | succ i => simpa [nth, ofList, Val.sub, List.replicate_succ] using ih i

theorem isLast_ofList (l : List Val) (e : Val) : IsLast (ofList (l ++ [e])) l.length := by
  induction l with
  | nil => exact ⟨false, e, nil, by simp [ofList, Val.sub], rfl⟩
  | cons x l ih =>
    obtain ⟨t, a, y, h1, h2⟩ := ih
    exact ⟨t, a, y, by simpa [ofList, List.replicate_succ, Val.sub] using h1, h2⟩

theorem runSeq_evalSeq {c : Val} {es xs : List Val} {e : Val} {st st1 : St}
    (h : evalSeq sem c es st = .ok (xs, st1)) : runSeq sem c (es ++ [e]) st = sem c e st1 := by
  induction es generalizing xs st with
  | nil => cases h; rfl
  | cons x es ih =>
    have h1 : runSeq sem c (x :: es ++ [e]) = (do let _ ← sem c x; runSeq sem c (es ++ [e])) := by
      cases es <;> rfl
    rw [h1, M.bind_apply]
    simp only [evalSeq, M.bind_apply] at h
    cases hx : sem c x st with
    | ok p =>
      rw [hx] at h
      simp only [Res.ok_bind] at h ⊢
      cases hr : evalSeq sem c es p.2 with
      | ok p2 =>
        rw [hr] at h
        simp only [Res.ok_bind, M.pure_apply] at h
        cases h
        exact ih hr
      | _ => rw [hr] at h; cases h
    | _ => rw [hx] at h; cases h

/-- **C24.** The value of an expression is the value of the tail position its evaluation selects: the positions
called tail positions here are those where nothing remains to be done after the call. -/
theorem C24_value (c e : Val) (st st' : St) (q : List Bool) (h : Reaches c e st q st') :
    ∃ x, e.sub q = some x ∧ TailPos e q ∧ sem c e st = sem c x st' := by
  have clause_sub : ∀ (s : Sym) (subj t b : Val) (pre post : List (Val × Val)),
      (cons (ofSym s) (cons subj (clauses (pre ++ (t, b) :: post)))).sub (nth (pre.length + 2) ++ [true]) =
        some b := by
    intro s subj t b pre post
    have : cons (ofSym s) (cons subj (clauses (pre ++ (t, b) :: post))) =
        ofList (ofSym s :: subj :: (pre ++ (t, b) :: post).map fun p => cons p.1 p.2) := rfl
    rw [this, sub_append, sub_ofList_nth]
    simp [Val.sub]
  induction h with
  | here e st => exact ⟨e, by simp [Val.sub], .here e, rfl⟩
  | @thn cnd t e v st st1 st2 q hf hc hv hq ih =>
    obtain ⟨x, h1, h2, h3⟩ := ih
    have hs : (ofList [ofSym sIf, cnd, t, e]).sub (nth 2) = some t := by rw [sub_ofList_nth]; rfl
    refine ⟨x, by rw [sub_append, hs]; exact h1, .step _ _ _ _ (.thn _ _ _) hs h2, ?_⟩
    refine (C26_if c st sIf cnd t e hf).trans ?_
    rw [M.bind_congr_ok hc, if_neg hv, h3]
  | @els cnd t e st st1 st2 q hf hc hq ih =>
    obtain ⟨x, h1, h2, h3⟩ := ih
    have hs : (ofList [ofSym sIf, cnd, t, e]).sub (nth 3) = some e := by rw [sub_ofList_nth]; rfl
    refine ⟨x, by rw [sub_append, hs]; exact h1, .step _ _ _ _ (.els _ _ _) hs h2, ?_⟩
    refine (C26_if c st sIf cnd t e hf).trans ?_
    rw [M.bind_congr_ok hc, if_pos rfl, h3]
  | @prog es e xs st st1 st2 q hf hes hq ih =>
    obtain ⟨x, h1, h2, h3⟩ := ih
    have hs : (cons (ofSym sProg) (ofList (es ++ [e]))).sub (nth (es.length + 1)) = some e := by
      have := sub_ofList_nth (ofSym sProg :: (es ++ [e])) (es.length + 1)
      rw [ofList] at this
      rw [this]; simp
    refine ⟨x, by rw [sub_append, hs]; exact h1, .step _ _ _ _ (.prog _ _ _ _ (isLast_ofList es e)) hs h2, ?_⟩
    rw [C27_prog c st sProg _ hf, runSeq_evalSeq hes, h3]
  | @when_ cnd v e es xs st st1 st2 st3 q hf hc hv hes hq ih =>
    obtain ⟨x, h1, h2, h3⟩ := ih
    have hs : (cons (ofSym sWhen) (ofList (cnd :: (es ++ [e])))).sub (nth (es.length + 2)) = some e := by
      have := sub_ofList_nth (ofSym sWhen :: cnd :: (es ++ [e])) (es.length + 2)
      rw [ofList] at this
      rw [this]; simp
    refine ⟨x, by rw [sub_append, hs]; exact h1,
      .step _ _ _ _ (.body _ _ _ _ _ (.inl rfl) (isLast_ofList (cnd :: es) e)) hs h2, ?_⟩
    rw [C26_when c st sWhen cnd _ hf, M.bind_congr_ok hc, if_neg hv, runSeq_evalSeq hes, h3]
  | @unless_ cnd e es xs st st1 st2 st3 q hf hc hes hq ih =>
    obtain ⟨x, h1, h2, h3⟩ := ih
    have hs : (cons (ofSym sUnless) (ofList (cnd :: (es ++ [e])))).sub (nth (es.length + 2)) = some e := by
      have := sub_ofList_nth (ofSym sUnless :: cnd :: (es ++ [e])) (es.length + 2)
      rw [ofList] at this
      rw [this]; simp
    refine ⟨x, by rw [sub_append, hs]; exact h1,
      .step _ _ _ _ (.body _ _ _ _ _ (.inr rfl) (isLast_ofList (cnd :: es) e)) hs h2, ?_⟩
    rw [C26_unless c st sUnless cnd _ hf, M.bind_congr_ok hc, if_pos rfl, runSeq_evalSeq hes, h3]
  | @cond subj t b pre post st st1 st2 st3 q hf hpre ht hq ih =>
    obtain ⟨x, h1, h2, h3⟩ := ih
    have hs := clause_sub sCond subj t b pre post
    refine ⟨x, by rw [sub_append, hs]; exact h1, .step _ _ _ _ (.clause _ _ _ _ _ (.inl rfl)) hs h2, ?_⟩
    rw [C26_cond_select c st st1 st2 sCond subj t b pre post hf hpre ht, h3]
  | @match_ subj v t b pre post st st1 st2 q hf hsub hpre ht hq ih =>
    obtain ⟨x, h1, h2, h3⟩ := ih
    have hs := clause_sub sMatch subj t b pre post
    refine ⟨x, by rw [sub_append, hs]; exact h1, .step _ _ _ _ (.clause _ _ _ _ _ (.inr rfl)) hs h2, ?_⟩
    rw [C26_match c st sMatch subj _ hf, M.bind_congr_ok hsub]
    have hfind : (pre ++ (t, b) :: post).find? (fun p : Val × Val => atomMatch p.1 v) = some (t, b) := by
      rw [List.find?_append]
      have : pre.find? (fun p : Val × Val => atomMatch p.1 v) = none := by
        rw [List.find?_eq_none]
        intro p hp
        simp [hpre p hp]
      simp [this, ht]
    rw [hfind]
    exact h3

/-- **C24.** In `(when C (f x) T)` the call `(f x)` is marked although it is not in tail position. -/
theorem C24_when_counterexample :
    let e : Val := L [S "when", S "c", L [S "f", S "x"], tru]
    (markTails (Sym.ofChars ['f']) (L [S "x"]) e).sub (nth 2 ++ [false]) = some (sym true (Sym.ofChars ['f'])) ∧
    ¬ TailPos e (nth 2) := by
  intro e
  refine ⟨by decide, ?_⟩
  intro h
  generalize hq : nth 2 = q at h
  cases h with
  | here => cases hq
  | step _ x k p hk hx hp =>
    generalize he : e = e' at hk
    cases hk with
    | thn t0 t1 r => injection he with _ h1 _; injection h1 with _ h2; exact absurd h2 (by decide)
    | els t0 t1 r => injection he with _ h1 _; injection h1 with _ h2; exact absurd h2 (by decide)
    | prog t0 t1 r i h => injection he with _ h1 _; injection h1 with _ h2; exact absurd h2 (by decide)
    | clause t0 t1 s r i h =>
      injection he with _ h1 _; injection h1 with _ h2; subst h2; exact absurd h (by decide)
    | body t0 t1 s r i h hl =>
      injection he with _ _ h3
      subst h3
      obtain ⟨t, a, y, e1, e2⟩ := hl
      match i with
      | 0 =>
        have e3 : (pair false tru nil : Val) = y := by
          simp [ofList, Val.sub, List.replicate] at e1
          exact e1.2.2
        subst e3; cases e2
      | i + 1 =>
        have h2 := congrArg (fun l => l[2]?) hq
        simp [nth, List.replicate_succ] at h2

/-- **C24.** In `(|> x (f y))` the expression `(f y)`, which yields the function to be applied, is marked. -/
theorem C24_stream_counterexample :
    let e : Val := L [S "|>", S "x", L [S "f", S "y"]]
    (markTails (Sym.ofChars ['f']) (L [S "y"]) e).sub (nth 2 ++ [false]) = some (sym true (Sym.ofChars ['f'])) ∧
    ¬ TailPos e (nth 2) := by
  intro e
  refine ⟨by decide, ?_⟩
  intro h
  generalize hq : nth 2 = q at h
  cases h with
  | here => cases hq
  | step _ x k p hk hx hp =>
    generalize he : e = e' at hk
    cases hk with
    | thn t0 t1 r => injection he with _ h1 _; injection h1 with _ h2; exact absurd h2 (by decide)
    | els t0 t1 r => injection he with _ h1 _; injection h1 with _ h2; exact absurd h2 (by decide)
    | prog t0 t1 r i h => injection he with _ h1 _; injection h1 with _ h2; exact absurd h2 (by decide)
    | clause t0 t1 s r i h =>
      injection he with _ h1 _; injection h1 with _ h2; subst h2; exact absurd h (by decide)
    | body t0 t1 s r i h hl =>
      injection he with _ h1 _; injection h1 with _ h2; subst h2; exact absurd h (by decide)

/-- The hypotheses of `C24_marked_partial` and `C24_complete` hold of `(if c 1 (prog 2 (f x)))`. -/
example :
    let e : Val := L [S "if", S "c", N 1, L [S "prog", N 2, L [S "f", S "x"]]]
    (ofList ([] ++ [e])).sub (nth 0 ++ nth 3 ++ nth 2 ++ [false]) = some (S "f") ∧
    (markLast (Sym.ofChars ['f']) (L [S "x"]) (ofList ([] ++ [e]))).sub (nth 0 ++ nth 3 ++ nth 2 ++ [false]) =
      some (sym true (Sym.ofChars ['f'])) ∧
    TailPos e (nth 3 ++ nth 2) := by
  intro e
  refine ⟨by decide, by decide, ?_⟩
  refine TailPos.step e (L [S "prog", N 2, L [S "f", S "x"]]) (nth 3) (nth 2) (.els _ _ _) rfl ?_
  exact TailPos.step _ (L [S "f", S "x"]) (nth 2) [] (.prog _ _ _ 1 ⟨false, L [S "f", S "x"], nil, rfl, rfl⟩) rfl
    (.here _)

end Mnml
