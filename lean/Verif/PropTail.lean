import Verif.PropFun
import Verif.PropArith

/-!
# C23: tail calls do not change results
-/

namespace Mnml

open Val

/-! ## The loop with unlimited evaluation and a bounded number of iterations -/

theorem evLe_sem (n : Nat) : EvLe (evalN n) sem := by
  intro c e st
  by_cases h : evalN n c e st = .oof
  · exact .inl h
  · exact .inr (sem_of_evalN rfl h).symm

theorem tailLoop_sem_le (symb body cls0 : Val) (k : Nat) (b : Val) :
    Le (tailLoop sem symb body cls0 k b) (loopSem symb body cls0 b) := by
  induction k generalizing b with
  | zero => exact fun st => .inl rfl
  | succ k ih =>
    rw [loopSem_eq]
    simp only [tailLoop]
    intro st
    cases hm : merge cls0 b with
    | ok cls1 =>
      simp only [M.lift_ok, M.pure_bind]
      rw [M.bind_apply, M.bind_apply]
      cases progV sem cls1 body nil st with
      | ok p =>
        simp only [Res.ok_bind]
        cases isSelfTail symb p.1 with
        | ok again =>
          simp only [M.lift_ok, M.pure_bind]
          cases again with
          | true => exact ih _ _
          | false => exact .inr rfl
        | _ => exact .inr rfl
      | _ => exact .inr rfl
    | _ => exact .inr rfl

theorem lim_tailLoop_sem (symb body cls0 b : Val) :
    Lim (fun k => tailLoop sem symb body cls0 k b) (loopSem symb body cls0 b) := by
  intro st
  obtain ⟨N, hN⟩ := lim_tailLoop symb body cls0 b st
  refine ⟨N, fun n hn => ?_⟩
  rcases tailLoop_sem_le symb body cls0 n b st with h | h
  · have h1 := hN n hn
    rcases le_tailLoop (evLe_sem n) symb body cls0 n n (Nat.le_refl n) b st with h2 | h2
    · exact h.trans (h2.symm.trans h1)
    · exact h2.symm.trans h1
  · exact h

/-! ## Bindings made by a call -/

theorem evalArgs_keys (ev : Ev) (c args : Val) (acc : List Entry) (vals b narg : Val) (st st' : St)
    (h : evalArgs ev c args (envVal acc) vals st = .ok ((b, narg), st')) (hn : narg.isNil = true) :
    ∃ b', b = envVal b' ∧ b'.map Entry.key = (patSyms args).reverse ++ acc.map Entry.key := by
  induction args generalizing acc vals st with
  | nil =>
    simp only [evalArgs, M.pure_apply] at h
    cases h
    exact ⟨acc, rfl, by simp [patSyms]⟩
  | sym tc s =>
    simp only [evalArgs, M.pure_apply] at h
    cases h
    exact ⟨⟨tc, s, vals⟩ :: acc, rfl, by simp [patSyms]⟩
  | pair tc a d _ ihd =>
    simp only [evalArgs] at h
    by_cases hv : vals.isNil = true
    · rw [if_pos hv] at h
      cases h
      cases hn
    · rw [if_neg hv, M.bind_apply] at h
      cases he : ev c vals.car st with
      | ok p =>
        rw [he, Res.ok_bind, bind_eq] at h
        obtain ⟨b', h1, h2⟩ := ihd _ _ _ h
        refine ⟨b', h1, ?_⟩
        rw [h2, List.map_append, List.map_reverse, bindList_keys]
        simp [patSyms]
      | _ => rw [he] at h; cases h
  | _ =>
    simp only [evalArgs] at h
    by_cases hv : vals.isNil = true
    · rw [if_pos hv] at h
      cases h
      cases hn
    · rw [if_neg hv, M.bind_apply] at h
      cases he : ev c vals.car st with
      | ok p =>
        rw [he] at h
        simp only [Res.ok_bind, M.pure_apply] at h
        cases h
        exact ⟨acc, rfl, by simp [patSyms]⟩
      | _ => rw [he] at h; cases h

/-! ## Tail trees -/

/-- Evaluating `e` keeps the invariant. -/
def Keeps (I : List Entry → St → Prop) (l b : List Entry) (e : Val) : Prop :=
  ∀ st r st', I b st → sem (envVal (mergeEnv l b)) e st = .ok (r, st') → I b st'

/-- In the environment of the body, the name stands for the value as long as the invariant holds. -/
def Fixed (I : List Entry → St → Prop) (l b : List Entry) (s : Sym) (v : Val) : Prop :=
  ∀ st, I b st → Resolves (envVal (mergeEnv l b)) st s v

/-- The expressions whose value is the value of the body (tail positions), as a grammar: `if`, `prog`, `cond`,
`match`, `when` and `unless` with one expression, whose branches are again such expressions; calls of the
function itself; and other expressions. `I b st` is an invariant of the bindings `b` of the arguments and of the
state while the body runs. Everything evaluated on the way must keep it, the values passed in a recursive
call must establish it, and other expressions must not yield a raw tail call record. -/
inductive TailTree (f : Sym) (args : Val) (I : List Entry → St → Prop) (l b : List Entry) : Val → Prop where
  | call (vals : Val)
      (h : ∀ st b' st', I b st →
        evalArgs sem (envVal (mergeEnv l b)) args nil vals st = .ok ((envVal b', nil), st') → I b' st') :
      TailTree f args I l b (cons (ofSym f) vals)
  | leaf (v : Val) (hm : markTails f args v = v)
      (h : ∀ st r st', I b st → sem (envVal (mergeEnv l b)) v st = .ok (r, st') → r.isTailCall = false) :
      TailTree f args I l b v
  | ifThenElse (cnd t e : Val) (hf : Fixed I l b sIf Native.if_.val) (hc : Keeps I l b cnd)
      (ht : TailTree f args I l b t) (he : TailTree f args I l b e) :
      TailTree f args I l b (ofList [ofSym sIf, cnd, t, e])
  | ifThen (cnd t : Val) (hf : Fixed I l b sIf Native.if_.val) (hc : Keeps I l b cnd)
      (ht : TailTree f args I l b t) : TailTree f args I l b (ofList [ofSym sIf, cnd, t])
  | prog (es : List Val) (e : Val) (hf : Fixed I l b sProg Native.prog.val)
      (hes : ∀ x ∈ es, Keeps I l b x) (he : TailTree f args I l b e) :
      TailTree f args I l b (cons (ofSym sProg) (ofList (es ++ [e])))
  | when_ (cnd e : Val) (hf : Fixed I l b sWhen Native.when_.val) (hc : Keeps I l b cnd)
      (he : TailTree f args I l b e) : TailTree f args I l b (ofList [ofSym sWhen, cnd, e])
  | unless_ (cnd e : Val) (hf : Fixed I l b sUnless Native.unless_.val) (hc : Keeps I l b cnd)
      (he : TailTree f args I l b e) : TailTree f args I l b (ofList [ofSym sUnless, cnd, e])
  | cond (subj : Val) (cls : List (Val × Val)) (hf : Fixed I l b sCond Native.cond.val)
      (ht : ∀ p ∈ cls, Keeps I l b (ofList [p.1, subj]))
      (hb : ∀ p ∈ cls, TailTree f args I l b p.2) :
      TailTree f args I l b (cons (ofSym sCond) (cons subj (clauses cls)))
  | match_ (subj : Val) (cls : List (Val × Val)) (hf : Fixed I l b sMatch Native.match_.val)
      (hs : ∀ x st, I b st → sem (cons (cons (ofSym aANY) x) (envVal (mergeEnv l b))) subj st =
        sem (envVal (mergeEnv l b)) subj st)
      (hk : Keeps I l b subj)
      (hb : ∀ p ∈ cls, TailTree f args I l b p.2) :
      TailTree f args I l b (cons (ofSym sMatch) (cons subj (clauses cls)))

/-- Continue with the loop if the value is a tail call of `f`. -/
noncomputable def contK (f : Sym) (body c : Val) (r : Val) : M Val := do
  let again ← M.lift (isSelfTail (ofSym f) r)
  if again then loopSem (ofSym f) body c r.cdr else pure r

theorem contK_of_not {f : Sym} {body c r : Val} (h : r.isTailCall = false) :
    contK f body c r = pure r := by
  have : isSelfTail (ofSym f) r = .ok false := by
    cases r with
    | sym t s => cases t <;> first | rfl | (simp [isTailCall] at h)
    | pair t a d => cases t <;> first | rfl | (simp [isTailCall] at h)
    | _ => rfl
  rw [contK, this]; rfl

theorem contK_record (f : Sym) (body c b : Val) (tc : Bool) :
    contK f body c (pair true (sym tc f) b) = loopSem (ofSym f) body c b := by
  have : isSelfTail (ofSym f) (pair true (sym tc f) b) = .ok true := by
    simp [isSelfTail, tag, symIs, symMatch_eq_decide]
  rw [contK, this]; rfl

/-- What an expression of the body and its marked version have to do with each other. -/
def Related (f : Sym) (args body' : Val) (I : List Entry → St → Prop) (l b : List Entry) (m m' : M Val) :
    Prop :=
  ∀ st, I b st →
    m st = (m' >>= contK f body' (envVal (mergeEnv l b))) st ∧
    ∀ r st', m' st = .ok (r, st') → r.isTailCall = false ∨
      ∃ b', r = pair true (sym true f) (envVal b') ∧ I b' st' ∧
        b'.map Entry.key = (patSyms args).reverse

theorem Related.bind {f : Sym} {args body' : Val} {I : List Entry → St → Prop} {l b : List Entry}
    {x : M Val} {m m' : Val → M Val} (hx : ∀ st r st', I b st → x st = .ok (r, st') → I b st')
    (hm : ∀ v, Related f args body' I l b (m v) (m' v)) :
    Related f args body' I l b (x >>= m) (x >>= m') := by
  intro st hI
  simp only [M.bind_apply]
  cases he : x st with
  | ok p =>
    obtain ⟨v, st1⟩ := p
    have := hm v st1 (hx st v st1 hI he)
    simpa only [Res.ok_bind, M.bind_apply] using this
  | _ => exact ⟨rfl, fun r st' h => by cases h⟩

theorem Related.pure {f : Sym} {args body' : Val} {I : List Entry → St → Prop} {l b : List Entry} {v : Val}
    (h : v.isTailCall = false) : Related f args body' I l b (Pure.pure v) (Pure.pure v) := by
  intro st _
  refine ⟨?_, ?_⟩
  · rw [M.pure_bind, contK_of_not h]
  · intro r st' hr
    rw [M.pure_apply] at hr
    cases hr; exact .inl h

theorem Related.congr {f : Sym} {args body' : Val} {I : List Entry → St → Prop} {l b : List Entry}
    {m m' n n' : M Val} (hr : Related f args body' I l b n n') (h : ∀ st, I b st → m st = n st)
    (h' : ∀ st, I b st → m' st = n' st) : Related f args body' I l b m m' := by
  intro st hI
  rw [h st hI, M.bind_apply, h' st hI]
  exact hr st hI

theorem related_runSeq {f : Sym} {args body' : Val} {I : List Entry → St → Prop} {l b : List Entry}
    (es : List Val) (e e' : Val) (hes : ∀ x ∈ es, Keeps I l b x)
    (he : Related f args body' I l b (sem (envVal (mergeEnv l b)) e) (sem (envVal (mergeEnv l b)) e')) :
    Related f args body' I l b (runSeq sem (envVal (mergeEnv l b)) (es ++ [e]))
      (runSeq sem (envVal (mergeEnv l b)) (es ++ [e'])) := by
  induction es with
  | nil => exact he
  | cons x xs ih =>
    have h1 : ∀ y, runSeq sem (envVal (mergeEnv l b)) (x :: xs ++ [y]) = (do
        let _ ← sem (envVal (mergeEnv l b)) x
        runSeq sem (envVal (mergeEnv l b)) (xs ++ [y])) := by
      intro y; cases xs <;> rfl
    rw [h1, h1]
    exact Related.bind (hes x (by simp)) fun v => ih (fun y hy => hes y (by simp [hy]))

theorem markLast_append (f : Sym) (args : Val) (es : List Val) (e : Val) :
    markLast f args (ofList (es ++ [e])) = ofList (es ++ [markTails f args e]) := by
  induction es with
  | nil => simp [ofList, markLast, isPair]
  | cons x xs ih =>
    rw [List.cons_append, ofList, markLast]
    have : (ofList (xs ++ [e])).isPair = true := by cases xs <;> rfl
    rw [if_pos this, ih]; rfl

theorem markAssoc_clauses (f : Sym) (args : Val) (cls : List (Val × Val)) :
    markAssoc f args (clauses cls) = clauses (cls.map fun p => (p.1, markTails f args p.2)) := by
  induction cls with
  | nil => simp [clauses, ofList, markAssoc]
  | cons p ps ih =>
    simp only [clauses, List.map_cons, ofList] at ih ⊢
    rw [markAssoc, markClause, ih]

theorem condV_clauses (c subj : Val) (p : Val × Val) (ps : List (Val × Val)) :
    condV sem c subj (clauses (p :: ps)) =
      if p.1.isWild then sem c p.2
      else (do
        let v ← sem c (ofList [p.1, subj])
        if v.isTrue then sem c p.2 else condV sem c subj (clauses ps)) := rfl

/-- The relation holds for every tail tree, if `f` is the function with the marked body. -/
theorem related_of_tree {f : Sym} {args body' : Val} {I : List Entry → St → Prop} {l b : List Entry}
    (hargs : (args.isList || args.isSym) = true) (hbody : body'.isPair = true)
    (hspecial : f ∉ [sIf, sCond, sMatch, sProg, sStream, sUnless, sWhen])
    (hf : Fixed I l b f (cons args (cons nil body'))) {v : Val} (hv : TailTree f args I l b v) :
    Related f args body' I l b (sem (envVal (mergeEnv l b)) v)
      (sem (envVal (mergeEnv l b)) (markTails f args v)) := by
  have hfun : isFunc (cons args (cons nil body')) = true := by
    have h0 : isFunc (cons args (cons nil body')) =
        ((args.isList || args.isSym) && true && (body'.isPair || body'.isNum)) := rfl
    rw [h0, hargs, hbody]; rfl
  induction hv with
  | call vals h =>
    simp only [List.mem_cons, List.not_mem_nil, or_false, not_or] at hspecial
    obtain ⟨n1, n2, n3, n4, n5, n6, n7⟩ := hspecial
    have hmark : markTails f args (cons (ofSym f) vals) = markCall f args (cons (ofSym f) vals) := by
      rw [markTails]
      simp only [n1, n2, n3, n4, n5, n6, n7, decide_false, Bool.or_false, Bool.false_eq_true, if_false]
    rw [hmark]
    intro st hI
    have hr := hf st hI
    have hcall : ∀ tc, sem (envVal (mergeEnv l b)) (pair false (sym tc f) vals) st =
        semFunc (envVal (mergeEnv l b)) (sym tc f) (cons args (cons nil body')) vals st :=
      fun tc => sem_call hr hfun
    by_cases hm : mayApply args vals = true
    · have : markCall f args (cons (ofSym f) vals) = pair false (sym true f) vals := by
        simp [markCall, symMatch_eq_decide, hm]
      rw [this, hcall false, M.bind_apply, hcall true]
      obtain ⟨bt, ba, bd, rfl⟩ : ∃ bt ba bd, body' = pair bt ba bd := by
        cases body' <;> simp [isPair] at hbody; exact ⟨_, _, _, rfl⟩
      have e1 : ∀ tc, semFunc (envVal (mergeEnv l b)) (sym tc f) (cons args (cons nil (pair bt ba bd))) vals =
          (do
            let p ← evalArgs sem (envVal (mergeEnv l b)) args nil vals
            if p.2.isNil then
              if tc then Pure.pure (pair true (sym tc f) p.1)
              else loopSem (sym tc f) (pair bt ba bd) (envVal (mergeEnv l b)) p.1
            else Pure.pure (cons p.2 (cons (Val.conc p.1 nil) (pair bt ba bd)))) := by
        intro tc
        simp only [semFunc, car_pair, cdr_pair, hm, Bool.not_true, Bool.false_eq_true, if_false, merge,
          M.lift_ok, M.pure_bind, isTailCall]
      rw [e1 false, e1 true]
      simp only [M.bind_apply]
      cases hev : evalArgs sem (envVal (mergeEnv l b)) args nil vals st with
      | ok p =>
        obtain ⟨⟨bs, narg⟩, st1⟩ := p
        simp only [Res.ok_bind]
        by_cases hn : narg.isNil = true
        · simp only [hn, if_true, Bool.false_eq_true, if_false, M.pure_apply, Res.ok_bind, contK_record]
          refine ⟨trivial, ?_⟩
          intro r st' he
          cases he
          obtain ⟨b', hb1, hb2⟩ := evalArgs_keys sem _ args [] vals bs narg st st1 hev hn
          subst hb1
          refine .inr ⟨b', rfl, ?_, by simpa using hb2⟩
          have : narg = nil := by cases narg <;> simp [isNil] at hn; rfl
          subst this
          exact h st b' st1 hI hev
        · simp only [hn, Bool.false_eq_true, if_false, M.pure_apply, Res.ok_bind]
          refine ⟨?_, ?_⟩
          · rw [contK_of_not rfl]; rfl
          · intro r st' he
            cases he
            exact .inl rfl
      | _ => exact ⟨rfl, fun r st' he => by cases he⟩
    · have hm' : mayApply args vals = false := by simpa using hm
      have : markCall f args (cons (ofSym f) vals) = cons (ofSym f) vals := by
        simp [markCall, hm']
      rw [this]
      have hnil : sem (envVal (mergeEnv l b)) (cons (ofSym f) vals) st = .ok (nil, st) := by
        rw [hcall false]
        simp only [semFunc, car_pair, hm', Bool.not_false, if_true]; rfl
      rw [M.bind_apply, hnil]
      refine ⟨?_, ?_⟩
      · simp only [Res.ok_bind]; rw [contK_of_not rfl]; rfl
      · intro r st' he; cases he; exact .inl rfl
  | leaf v hm h =>
    rw [hm]
    intro st hI
    refine ⟨?_, fun r st' he => .inl (h st r st' hI he)⟩
    rw [M.bind_apply]
    cases he : sem (envVal (mergeEnv l b)) v st with
    | ok p => simp only [Res.ok_bind]; rw [contK_of_not (h st p.1 p.2 hI he)]; rfl
    | _ => rfl
  | ifThenElse cnd t e hfx hc ht he iht ihe =>
    have : markTails f args (ofList [ofSym sIf, cnd, t, e]) =
        ofList [ofSym sIf, cnd, markTails f args t, markTails f args e] := by
      simp [ofList, markTails, markIf, markThen, markElse]
    rw [this]
    refine Related.congr (Related.bind (x := sem (envVal (mergeEnv l b)) cnd)
        (m := fun v => if v = nil then sem (envVal (mergeEnv l b)) e else sem (envVal (mergeEnv l b)) t)
        (m' := fun v => if v = nil then sem (envVal (mergeEnv l b)) (markTails f args e)
          else sem (envVal (mergeEnv l b)) (markTails f args t)) hc fun v => ?_)
      (fun st hI => C26_if _ st _ cnd t e (hfx st hI))
      (fun st hI => C26_if _ st _ cnd _ _ (hfx st hI))
    by_cases hv : v = nil
    · simp only [hv, if_true]; exact ihe
    · simp only [hv, if_false]; exact iht
  | ifThen cnd t hfx hc ht iht =>
    have : markTails f args (ofList [ofSym sIf, cnd, t]) =
        ofList [ofSym sIf, cnd, markTails f args t] := by
      simp [ofList, markTails, markIf, markThen, markElse]
    rw [this]
    refine Related.congr (Related.bind (x := sem (envVal (mergeEnv l b)) cnd)
        (m := fun v => if v = nil then Pure.pure nil else sem (envVal (mergeEnv l b)) t)
        (m' := fun v => if v = nil then Pure.pure nil
          else sem (envVal (mergeEnv l b)) (markTails f args t)) hc fun v => ?_)
      (fun st hI => C26_if_then _ st _ cnd t (hfx st hI))
      (fun st hI => C26_if_then _ st _ cnd _ (hfx st hI))
    by_cases hv : v = nil
    · simp only [hv, if_true]; exact Related.pure rfl
    · simp only [hv, if_false]; exact iht
  | prog es e hfx hes he ihe =>
    have : markTails f args (cons (ofSym sProg) (ofList (es ++ [e]))) =
        cons (ofSym sProg) (ofList (es ++ [markTails f args e])) := by
      rw [markTails]
      have c1 : sProg ≠ sIf := by decide
      have c2 : ¬ (decide (sProg = sCond) || decide (sProg = sMatch)) = true := by decide
      have c3 : (decide (sProg = sProg) || decide (sProg = sStream)) = true := by decide
      rw [if_neg c1, if_neg c2, if_pos c3, markLast_append]
    rw [this]
    exact Related.congr (related_runSeq es e _ hes ihe)
      (fun st hI => C27_prog _ st _ _ (hfx st hI)) (fun st hI => C27_prog _ st _ _ (hfx st hI))
  | when_ cnd e hfx hc he ihe =>
    have : markTails f args (ofList [ofSym sWhen, cnd, e]) =
        ofList [ofSym sWhen, cnd, markTails f args e] := by
      rw [ofList, markTails]
      have c1 : sWhen ≠ sIf := by decide
      have c2 : ¬ (decide (sWhen = sCond) || decide (sWhen = sMatch)) = true := by decide
      have c3 : ¬ (decide (sWhen = sProg) || decide (sWhen = sStream)) = true := by decide
      have c4 : (decide (sWhen = sUnless) || decide (sWhen = sWhen)) = true := by decide
      rw [if_neg c1, if_neg c2, if_neg c3, if_pos c4]
      simp [ofList, markSecond, markElse]
    rw [this]
    refine Related.congr (Related.bind (x := sem (envVal (mergeEnv l b)) cnd)
        (m := fun v => if v = nil then Pure.pure nil else runSeq sem (envVal (mergeEnv l b)) [e])
        (m' := fun v => if v = nil then Pure.pure nil
          else runSeq sem (envVal (mergeEnv l b)) [markTails f args e]) hc fun v => ?_)
      (fun st hI => C26_when _ st _ cnd [e] (hfx st hI))
      (fun st hI => C26_when _ st _ cnd [_] (hfx st hI))
    by_cases hv : v = nil
    · simp only [hv, if_true]; exact Related.pure rfl
    · simp only [hv, if_false]; exact ihe
  | unless_ cnd e hfx hc he ihe =>
    have : markTails f args (ofList [ofSym sUnless, cnd, e]) =
        ofList [ofSym sUnless, cnd, markTails f args e] := by
      rw [ofList, markTails]
      have c1 : sUnless ≠ sIf := by decide
      have c2 : ¬ (decide (sUnless = sCond) || decide (sUnless = sMatch)) = true := by decide
      have c3 : ¬ (decide (sUnless = sProg) || decide (sUnless = sStream)) = true := by decide
      have c4 : (decide (sUnless = sUnless) || decide (sUnless = sWhen)) = true := by decide
      rw [if_neg c1, if_neg c2, if_neg c3, if_pos c4]
      simp [ofList, markSecond, markElse]
    rw [this]
    refine Related.congr (Related.bind (x := sem (envVal (mergeEnv l b)) cnd)
        (m := fun v => if v = nil then runSeq sem (envVal (mergeEnv l b)) [e] else Pure.pure nil)
        (m' := fun v => if v = nil then runSeq sem (envVal (mergeEnv l b)) [markTails f args e]
          else Pure.pure nil) hc fun v => ?_)
      (fun st hI => C26_unless _ st _ cnd [e] (hfx st hI))
      (fun st hI => C26_unless _ st _ cnd [_] (hfx st hI))
    by_cases hv : v = nil
    · simp only [hv, if_true]; exact ihe
    · simp only [hv, if_false]; exact Related.pure rfl
  | cond subj cls hfx ht hb ihb =>
    have : markTails f args (cons (ofSym sCond) (cons subj (clauses cls))) =
        cons (ofSym sCond) (cons subj (clauses (cls.map fun p => (p.1, markTails f args p.2)))) := by
      rw [markTails]
      have c1 : sCond ≠ sIf := by decide
      have c2 : (decide (sCond = sCond) || decide (sCond = sMatch)) = true := by decide
      rw [if_neg c1, if_pos c2, markClauses, markAssoc_clauses]
    rw [this]
    have hc : ∀ x st, I b st → sem (envVal (mergeEnv l b)) (cons (ofSym sCond) (cons subj x)) st =
        condV sem (envVal (mergeEnv l b)) subj x st := by
      intro x st hI
      rw [sem_any _ (hfx st hI) rfl]; rfl
    refine Related.congr ?_ (hc _) (hc _)
    clear this hc hb hfx
    induction cls with
    | nil => exact Related.pure rfl
    | cons p ps ih =>
      rw [List.map_cons, condV_clauses, condV_clauses]
      have hrest := ih (fun q hq => ht q (by simp [hq])) (fun q hq => ihb q (by simp [hq]))
      have hp := ihb p (by simp)
      by_cases hw : p.1.isWild = true
      · simp only [hw, if_true]; exact hp
      · simp only [hw, Bool.false_eq_true, if_false]
        refine Related.bind (ht p (by simp)) fun v => ?_
        by_cases hv : v.isTrue = true
        · simp only [hv, if_true]; exact hp
        · simp only [hv, Bool.false_eq_true, if_false]; exact hrest
  | match_ subj cls hfx hs hk hb ihb =>
    have : markTails f args (cons (ofSym sMatch) (cons subj (clauses cls))) =
        cons (ofSym sMatch) (cons subj (clauses (cls.map fun p => (p.1, markTails f args p.2)))) := by
      rw [markTails]
      have c1 : sMatch ≠ sIf := by decide
      have c2 : (decide (sMatch = sCond) || decide (sMatch = sMatch)) = true := by decide
      rw [if_neg c1, if_pos c2, markClauses, markAssoc_clauses]
    rw [this]
    have hc : ∀ x st, I b st → sem (envVal (mergeEnv l b)) (cons (ofSym sMatch) (cons subj (clauses x))) st =
        (do let v ← sem (envVal (mergeEnv l b)) subj
            match x.find? (fun p : Val × Val => atomMatch p.1 v) with
            | some p => sem (envVal (mergeEnv l b)) p.2
            | none => Pure.pure nil) st := by
      intro x st hI
      rw [C26_match _ st _ subj x (hfx st hI)]
      exact M.bind_congr_left (hs _ st hI)
    refine Related.congr ?_ (hc _) (hc _)
    refine Related.bind hk fun v => ?_
    rw [List.find?_map]
    have hcomp : ((fun p : Val × Val => atomMatch p.1 v) ∘ fun p : Val × Val => (p.1, markTails f args p.2)) =
        fun p : Val × Val => atomMatch p.1 v := rfl
    rw [hcomp]
    cases hfind : cls.find? (fun p : Val × Val => atomMatch p.1 v) with
    | none => exact Related.pure rfl
    | some p => exact ihb p (List.mem_of_find?_eq_some hfind)

/-- The loop does not depend on bindings that are replaced in every round. -/
theorem loopSem_outer {f : Sym} {args : Val} {I : List Entry → St → Prop} {l : List Entry} (hl : Sorted l)
    {es : List Val} {e' : Val} (b : List Entry) (hb : b.map Entry.key = (patSyms args).reverse)
    (hrec : ∀ b st r st', I b st → b.map Entry.key = (patSyms args).reverse →
      runSeq sem (envVal (mergeEnv l b)) (es ++ [e']) st = .ok (r, st') → r.isTailCall = false ∨
      ∃ b', r = pair true (sym true f) (envVal b') ∧ I b' st' ∧
        b'.map Entry.key = (patSyms args).reverse)
    (b' : List Entry) (hb' : b'.map Entry.key = (patSyms args).reverse) (st : St) (hI : I b' st) :
    loopSem (ofSym f) (ofList (es ++ [e'])) (envVal (mergeEnv l b)) (envVal b') st =
      loopSem (ofSym f) (ofList (es ++ [e'])) (envVal l) (envVal b') st := by
  obtain ⟨N1, h1⟩ := lim_tailLoop_sem (ofSym f) (ofList (es ++ [e'])) (envVal (mergeEnv l b)) (envVal b') st
  obtain ⟨N2, h2⟩ := lim_tailLoop_sem (ofSym f) (ofList (es ++ [e'])) (envVal l) (envVal b') st
  rw [← h1 (max N1 N2) (by omega), ← h2 (max N1 N2) (by omega)]
  clear h1 h2
  show tailLoop sem (ofSym f) (ofList (es ++ [e'])) (envVal (mergeEnv l b)) (max N1 N2) (envVal b') st =
    tailLoop sem (ofSym f) (ofList (es ++ [e'])) (envVal l) (max N1 N2) (envVal b') st
  generalize max N1 N2 = k
  induction k generalizing b' st with
  | zero => rfl
  | succ k ih =>
    simp only [tailLoop, merge_envVal, M.lift_ok, M.pure_bind]
    rw [mergeEnv_override hl b b' (by
      intro x hx
      have : x.key ∈ b'.map Entry.key := by rw [hb', ← hb]; exact List.mem_map_of_mem hx
      obtain ⟨y, hy, hk⟩ := List.mem_map.1 this
      exact ⟨y, hy, hk⟩)]
    rw [progV_nil_runSeq, M.bind_apply, M.bind_apply]
    cases hr : runSeq sem (envVal (mergeEnv l b')) (es ++ [e']) st with
    | ok p =>
      obtain ⟨r, st'⟩ := p
      simp only [Res.ok_bind]
      rcases hrec b' st r st' hI hb' hr with hx | ⟨b2, rfl, hI2, hk2⟩
      · have : isSelfTail (ofSym f) r = .ok false := by
          cases r with
          | sym t s => cases t <;> first | rfl | (simp [isTailCall] at hx)
          | pair t a d => cases t <;> first | rfl | (simp [isTailCall] at hx)
          | _ => rfl
        rw [this]; rfl
      · have : isSelfTail (ofSym f) (pair true (sym true f) (envVal b2)) = .ok true := by
          simp [isSelfTail, tag, symIs, symMatch_eq_decide]
        rw [this]
        simp only [M.lift_ok, M.pure_bind, if_true]
        exact ih b2 hk2 st' hI2
    | _ => rfl

/-- **C23.** Tail calls behave like ordinary calls. Let `f` be the function that `(def f ARGS e1 ... en e)`
stores: its body is the given one with the tail calls of `f` marked, and marked calls run as a loop. Then calling
`f` with values for all its arguments evaluates the values and then the expressions *as written*, in which
the recursive calls are ordinary calls of `f`. Missing with respect to the full claim: the shapes for which the
code is wrong (`C23_when_counterexample`, `C23_alias_counterexample`, `C23_parameter_counterexample`) are excluded
by the hypotheses: the last expression is a `TailTree`, and no argument is called `f` or rebinds the special
forms (these names are fixed by the invariant `I`). -/
theorem C23_unfold_partial (f : Sym) (as : List Val) (I : List Entry → St → Prop) (l : List Entry)
    (hl : Sorted l) (es : List Val) (e : Val)
    (hspecial : f ∉ [sIf, sCond, sMatch, sProg, sStream, sUnless, sWhen])
    (htree : ∀ b, b.map Entry.key = (patSyms (ofList as)).reverse → TailTree f (ofList as) I l b e)
    (hes : ∀ b, ∀ x ∈ es, Keeps I l b x)
    (hf : ∀ b, Fixed I l b f (cons (ofList as) (cons nil (ofList (es ++ [markTails f (ofList as) e])))))
    (vs : List Val) (hlen : vs.length = as.length) (st : St)
    (hr : Resolves (envVal l) st f
      (cons (ofList as) (cons nil (ofList (es ++ [markTails f (ofList as) e])))))
    (hI : ∀ xs st1, evalSeq sem (envVal l) vs st = .ok (xs, st1) → I (bindAll as xs []) st1) :
    sem (envVal l) (cons (ofSym f) (ofList vs)) st = (do
      let xs ← evalSeq sem (envVal l) vs
      runSeq sem (envVal (mergeEnv l (bindAll as xs []))) (es ++ [e])) st := by
  have hargs : ((ofList as).isList || (ofList as).isSym) = true := by cases as <;> rfl
  have hbody : (ofList (es ++ [markTails f (ofList as) e])).isPair = true := by cases es <;> rfl
  have hne : es ++ [markTails f (ofList as) e] ≠ [] := by simp
  have hrel : ∀ b, b.map Entry.key = (patSyms (ofList as)).reverse →
      Related f (ofList as) (ofList (es ++ [markTails f (ofList as) e])) I l b
        (runSeq sem (envVal (mergeEnv l b)) (es ++ [e]))
        (runSeq sem (envVal (mergeEnv l b)) (es ++ [markTails f (ofList as) e])) :=
    fun b hb => related_runSeq es e _ (hes b) (related_of_tree hargs hbody hspecial (hf b) (htree b hb))
  rw [C42_call l st f as vs _ hne hr hlen]
  rw [M.bind_apply, M.bind_apply]
  cases hev : evalSeq sem (envVal l) vs st with
  | ok p =>
    obtain ⟨xs, st1⟩ := p
    simp only [Res.ok_bind]
    have hI1 := hI xs st1 hev
    have hxlen : xs.length = as.length := by
      rw [← hlen]
      clear hlen hI hI1 hr
      induction vs generalizing xs st with
      | nil => cases hev; rfl
      | cons v vs ih =>
        simp only [evalSeq, M.bind_apply] at hev
        cases hv : sem (envVal l) v st with
        | ok q =>
          rw [hv] at hev
          simp only [Res.ok_bind] at hev
          cases hw : evalSeq sem (envVal l) vs q.2 with
          | ok q2 =>
            rw [hw] at hev
            simp only [Res.ok_bind, M.pure_apply] at hev
            cases hev
            have := ih q.2 q2.1 (by rw [hw])
            simp [this]
          | _ => rw [hw] at hev; cases hev
        | _ => rw [hv] at hev; cases hev
    have hkeys : (bindAll as xs []).map Entry.key = (patSyms (ofList as)).reverse := by
      have gen : ∀ (as xs : List Val) (acc : List Entry), xs.length = as.length →
          (bindAll as xs acc).map Entry.key = (patSyms (ofList as)).reverse ++ acc.map Entry.key := by
        intro as
        induction as with
        | nil => intro xs acc h; cases xs <;> simp_all [bindAll, patSyms, ofList]
        | cons a as ih =>
          intro xs acc h
          cases xs with
          | nil => simp at h
          | cons x xs =>
            simp only [bindAll, ofList, patSyms]
            rw [ih xs _ (by simpa using h), List.map_append, List.map_reverse, bindList_keys]
            simp
      simpa using gen as xs [] hxlen
    obtain ⟨hm, hrec⟩ := hrel _ hkeys st1 hI1
    rw [hm, M.bind_apply, M.bind_apply]
    cases hrun : runSeq sem (envVal (mergeEnv l (bindAll as xs [])))
        (es ++ [markTails f (ofList as) e]) st1 with
    | ok q =>
      obtain ⟨r, st2⟩ := q
      simp only [Res.ok_bind]
      rcases hrec r st2 hrun with hx | ⟨b', rfl, hI', hk'⟩
      · have h1 := contK_of_not (f := f) (body := ofList (es ++ [markTails f (ofList as) e]))
          (c := envVal l) hx
        rw [contK_of_not hx]
        rw [contK] at h1
        rw [h1]
      · rw [contK_record]
        have h1 := contK_record f (ofList (es ++ [markTails f (ofList as) e])) (envVal l) (envVal b') true
        rw [contK] at h1
        rw [h1]
        exact (loopSem_outer hl _ hkeys (fun b st r st' hI hk => ((hrel b hk) st hI).2 r st') b' hk' st2
          hI').symm
    | _ => rfl
  | _ => rfl


/-! ### A use of the theorem: loops of any length -/

/-- `(if (= n 0) acc (f (- n 1) (+ acc 2)))` -/
def exBody : Val :=
  ofList [ofSym sIf, L [S "=", S "n", N 0], S "acc", L [S "f", L [S "-", S "n", N 1], L [S "+", S "acc", N 2]]]

/-- What `(def f (n acc) (if (= n 0) acc (f (- n 1) (+ acc 2))))` stores. -/
def exFun : Val :=
  cons (ofList [S "n", S "acc"])
    (cons nil (ofList ([] ++ [markTails (Sym.ofChars ['f']) (ofList [S "n", S "acc"]) exBody])))

example : run 20 [L [S "def", S "f", L [S "n", S "acc"], exBody], S "f"] = .ok exFun := by decide +kernel

/-- The names used by the example. -/
structure ExSt (st : St) : Prop where
  fIf : st.globals sIf = some Native.if_.val
  fEq : st.globals (Sym.ofChars ['=']) = some Native.equ.val
  fSub : st.globals (Sym.ofChars ['-']) = some Native.sub.val
  fAdd : st.globals (Sym.ofChars ['+']) = some Native.add.val
  fF : st.globals (Sym.ofChars ['f']) = some exFun

def exB (k a : Int) : List Entry := [⟨false, Sym.ofChars ['a', 'c', 'c'], num a⟩, ⟨false, Sym.ofChars ['n'], num k⟩]

theorem exB_env (k a : Int) : envVal (mergeEnv [] (exB k a)) = envVal (exB k a) := rfl

theorem exB_other (k a : Int) (st : St) (s : Sym) (v : Val) (h1 : s ≠ Sym.ofChars ['a', 'c', 'c'])
    (h2 : s ≠ Sym.ofChars ['n']) (h : st.globals s = some v) :
    Resolves (envVal (exB k a)) st s v := by
  have : assq (envVal (exB k a)) s = .ok none := by
    rw [assq_envVal]
    simp [exB, getEnv, Ne.symm h1, Ne.symm h2]
  simp [Resolves, lookup, this, h]

/-- The variables of the example. -/
theorem exB_acc (k a : Int) (st : St) : sem (envVal (exB k a)) (S "acc") st = .ok (num a, st) := by
  rw [S, ofSym, sem_sym]; rfl

theorem exB_n (k a : Int) (st : St) : sem (envVal (exB k a)) (S "n") st = .ok (num k, st) := by
  rw [S, ofSym, sem_sym]; rfl

/-- The invariant of the example: nothing changes the state, and the arguments are numbers. -/
def exI (st0 : St) (b : List Entry) (st : St) : Prop := st = st0 ∧ ∃ k a, b = exB k a

/-- The arguments of the recursive call. -/
theorem ex_args (st : St) (h : ExSt st) (k a : Int) :
    evalSeq sem (envVal (exB k a)) [L [S "-", S "n", N 1], L [S "+", S "acc", N 2]] st =
      if -2 ^ 63 ≤ k - 1 ∧ k - 1 < 2 ^ 63 then
        if -2 ^ 63 ≤ a + 2 ∧ a + 2 < 2 ^ 63 then .ok ([num (k - 1), num (a + 2)], st) else .ub .overflow
      else .ub .overflow := by
  have h1 := C29_add_sub_mul (envVal (exB k a)) st st st (Sym.ofChars ['-']) .sub (· - ·) (by simp)
    (exB_other k a st _ _ (by decide) (by decide) h.fSub) (S "n") (N 1) k 1 (exB_n k a st)
    (by rw [N, sem_atom _ _ rfl rfl]; rfl)
  have h2 := C29_add_sub_mul (envVal (exB k a)) st st st (Sym.ofChars ['+']) .add (· + ·) (by simp)
    (exB_other k a st _ _ (by decide) (by decide) h.fAdd) (S "acc") (N 2) a 2 (exB_acc k a st)
    (by rw [N, sem_atom _ _ rfl rfl]; rfl)
  simp only [evalSeq, M.bind_apply]
  have e1 : L [S "-", S "n", N 1] = cons (ofSym (Sym.ofChars ['-'])) (ofList [S "n", N 1]) := rfl
  have e2 : L [S "+", S "acc", N 2] = cons (ofSym (Sym.ofChars ['+'])) (ofList [S "acc", N 2]) := rfl
  rw [e1, e2, h1]
  by_cases c1 : -2 ^ 63 ≤ k - 1 ∧ k - 1 < 2 ^ 63
  · rw [if_pos c1, if_pos c1, Res.ok_bind, h2]
    by_cases c2 : -2 ^ 63 ≤ a + 2 ∧ a + 2 < 2 ^ 63
    · rw [if_pos c2, if_pos c2]; rfl
    · rw [if_neg c2, if_neg c2]; rfl
  · rw [if_neg c1, if_neg c1]; rfl

theorem ex_test (st : St) (h : ExSt st) (k a : Int) :
    sem (envVal (exB k a)) (L [S "=", S "n", N 0]) st = .ok (if k = 0 then tru else nil, st) := by
  have h1 := C30_compare (envVal (exB k a)) st st st (Sym.ofChars ['=']) .equ (· = ·) (by simp)
    (exB_other k a st _ _ (by decide) (by decide) h.fEq) (S "n") (N 0) k 0 (exB_n k a st)
    (by rw [N, sem_atom _ _ rfl rfl]; rfl)
  by_cases hk : k = 0
  · rw [if_pos hk]; exact h1.1 hk
  · rw [if_neg hk]; exact h1.2 hk

theorem envVal_inj {l l' : List Entry} (h : envVal l = envVal l') : l = l' := by
  induction l generalizing l' with
  | nil => cases l' with
    | nil => rfl
    | cons e l' => cases h
  | cons e l ih =>
    cases l' with
    | nil => cases h
    | cons e' l' =>
      rw [envVal_cons, envVal_cons] at h
      injection h with _ h1 h2
      rw [ih h2]
      obtain ⟨t, k, v⟩ := e
      obtain ⟨t', k', v'⟩ := e'
      injection h1 with _ h3 h4
      injection h3 with h5 h6
      subst h4 h5 h6
      rfl

theorem ex_if (st : St) (h : ExSt st) (k a : Int) :
    sem (envVal (exB k a)) exBody st =
      if k = 0 then .ok (num a, st)
      else sem (envVal (exB k a)) (L [S "f", L [S "-", S "n", N 1], L [S "+", S "acc", N 2]]) st := by
  refine (C26_if _ st sIf _ _ _ (exB_other _ _ st sIf _ (by decide) (by decide) h.fIf)).trans ?_
  rw [M.bind_apply, ex_test st h]
  simp only [Res.ok_bind]
  by_cases hk : k = 0
  · simp only [hk, if_true]
    rw [if_neg (by decide), exB_acc]
  · simp only [hk, if_false]
    rw [if_pos trivial]

/-- The hypotheses of `C23_unfold_partial` hold of the example: one unfolding of the function. -/
theorem ex_unfold (st : St) (h : ExSt st) (l : List Entry) (hl : l = [] ∨ ∃ k a, l = exB k a)
    (vs : List Val) (k a : Int)
    (hvs : evalSeq sem (envVal l) vs st = .ok ([num k, num a], st)) (hlen : vs.length = 2) :
    sem (envVal l) (cons (S "f") (ofList vs)) st = sem (envVal (exB k a)) exBody st := by
  have hover : ∀ k a, mergeEnv l (exB k a) = exB k a := by
    intro k a
    rcases hl with rfl | ⟨k', a', rfl⟩ <;> rfl
  have hres : ∀ s v, s ≠ Sym.ofChars ['a', 'c', 'c'] → s ≠ Sym.ofChars ['n'] → st.globals s = some v →
      ∀ b, Fixed (exI st) l b s v := by
    intro s v h1 h2 hg b st1 hI
    obtain ⟨rfl, k, a, rfl⟩ := hI
    rw [hover]
    exact exB_other k a st1 s v h1 h2 hg
  have hmain := C23_unfold_partial (Sym.ofChars ['f']) [S "n", S "acc"] (exI st) l
    (by rcases hl with rfl | ⟨k', a', rfl⟩
        · exact List.Pairwise.nil
        · simp only [Sorted, exB, List.pairwise_cons, List.mem_singleton, forall_eq, List.not_mem_nil,
            false_implies, implies_true, List.Pairwise.nil, and_true]
          decide)
    [] exBody (by decide)
    (by
      intro b _
      refine TailTree.ifThenElse _ _ _ (hres _ _ (by decide) (by decide) h.fIf b) ?_ ?_ ?_
      · intro st1 r st2 hI he
        obtain ⟨rfl, k, a, rfl⟩ := hI
        rw [hover, ex_test st1 h] at he
        cases he
        exact ⟨rfl, k, a, rfl⟩
      · refine TailTree.leaf _ rfl ?_
        intro st1 r st2 hI he
        obtain ⟨rfl, k, a, rfl⟩ := hI
        rw [hover, exB_acc] at he
        cases he; rfl
      · refine TailTree.call _ ?_
        intro st1 b' st2 hI he
        obtain ⟨rfl, k, a, rfl⟩ := hI
        rw [hover] at he
        have e := evalArgs_ofList (envVal (exB k a)) nil [S "n", S "acc"]
          [L [S "-", S "n", N 1], L [S "+", S "acc", N 2]] [] nil rfl
        have he' : evalArgs sem (envVal (exB k a)) (List.foldr cons nil [S "n", S "acc"]) (envVal [])
          (List.foldr cons nil [L [S "-", S "n", N 1], L [S "+", S "acc", N 2]]) st1 =
            .ok ((envVal b', nil), st2) := he
        rw [e, M.bind_apply, ex_args st1 h] at he'
        by_cases c1 : -2 ^ 63 ≤ k - 1 ∧ k - 1 < 2 ^ 63
        · rw [if_pos c1] at he'
          by_cases c2 : -2 ^ 63 ≤ a + 2 ∧ a + 2 < 2 ^ 63
          · rw [if_pos c2] at he'
            simp only [Res.ok_bind, evalArgs, M.pure_apply] at he'
            have hb : envVal b' = envVal (exB (k - 1) (a + 2)) ∧ st1 = st2 := by
              injection he' with he'
              simp only [Prod.mk.injEq] at he'
              exact ⟨he'.1.1.symm, he'.2⟩
            exact ⟨hb.2.symm, k - 1, a + 2, envVal_inj hb.1⟩
          · rw [if_neg c2] at he'; cases he'
        · rw [if_neg c1] at he'; cases he')
    (by intro b x hx; simp at hx)
    (hres _ _ (by decide) (by decide) h.fF)
    vs hlen st
    (by
      rcases hl with rfl | ⟨k', a', rfl⟩
      · have := h.fF
        simp [Resolves, lookup, envVal, ofList, assq, this, exFun]
      · exact exB_other k' a' st _ _ (by decide) (by decide) h.fF)
    (by
      intro xs st1 he
      rw [hvs] at he; cases he
      exact ⟨rfl, k, a, rfl⟩)
  rw [show S "f" = ofSym (Sym.ofChars ['f']) from rfl, hmain, M.bind_apply, hvs]
  show sem (envVal (mergeEnv l (exB k a))) exBody st = _
  rw [hover]

/-- The example function, called with any natural number `k` of iterations to make and any start value, returns
the start value plus `2 * k`, as long as that is a 64-bit number: the loop of arbitrary length computes what the
recursive program as written computes. -/
theorem C23_loop (st : St) (h : ExSt st) (k : Nat) (a : Int) (hk : (k : Int) < 2 ^ 63)
    (ha : -2 ^ 63 ≤ a ∧ a + 2 * k < 2 ^ 63) :
    sem nil (L [S "f", N k, N a]) st = .ok (num (a + 2 * k), st) := by
  have key : ∀ (k : Nat) (a : Int) (l : List Entry) (vs : List Val),
      (l = [] ∨ ∃ k a, l = exB k a) → (k : Int) < 2 ^ 63 → -2 ^ 63 ≤ a ∧ a + 2 * k < 2 ^ 63 →
      evalSeq sem (envVal l) vs st = .ok ([num k, num a], st) → vs.length = 2 →
      sem (envVal l) (cons (S "f") (ofList vs)) st = .ok (num (a + 2 * k), st) := by
    intro k
    induction k with
    | zero =>
      intro a l vs hl _ _ hvs hlen
      rw [ex_unfold st h l hl vs _ a hvs hlen, ex_if st h, if_pos (by simp)]
      simp
    | succ k ih =>
      intro a l vs hl hk ha hvs hlen
      rw [ex_unfold st h l hl vs _ a hvs hlen, ex_if st h, if_neg (by omega)]
      have := ih (a + 2) (exB (k + 1 : Nat) a) [L [S "-", S "n", N 1], L [S "+", S "acc", N 2]]
        (.inr ⟨_, _, rfl⟩) (by omega) (by omega)
        (by
          rw [ex_args st h, if_pos (by omega), if_pos (by omega)]
          have : ((k + 1 : Nat) : Int) - 1 = k := by omega
          rw [this]) rfl
      refine Eq.trans this ?_
      have : a + 2 + 2 * (k : Int) = a + 2 * ((k + 1 : Nat) : Int) := by omega
      rw [this]
  exact key k a [] [N k, N a] (.inl rfl) hk ha
    (by simp only [evalSeq, N, sem_atom _ (num _) rfl rfl, M.pure_bind, M.pure_apply]) rfl

/-! ### Where the code is wrong -/

/-- **C23.** The first expression of the body of `when` is marked instead of the last: with
`(def f (x) (when (> x 0) (f (- x 1)) (prin T)))` the call `(f 3)` prints T once; with the same function under
the name of another one (so that nothing is marked), it prints T three times. -/
theorem C23_when_counterexample :
    (runOut 30 [L [S "def", S "f", L [S "x"],
        L [S "when", L [S ">", S "x", N 0], L [S "f", L [S "-", S "x", N 1]], L [S "prin", tru]]],
      L [S "f", N 3]] >>= fun p => .ok p.2) = .ok [84] ∧
    (runOut 30 [L [S "setq", S "f", L [S "\\", L [S "x"],
        L [S "when", L [S ">", S "x", N 0], L [S "f", L [S "-", S "x", N 1]], L [S "prin", tru]]]],
      L [S "f", N 3]] >>= fun p => .ok p.2) = .ok [84, 84, 84] := by
  exact ⟨by decide +kernel, by decide +kernel⟩

/-- **C23.** The marks are only understood by calls under the defining name: with
`(def f (x) (if (= x 0) 7 (f (- x 1))))` and `(setq g f)`, `(f 1)` is 7, but `(g 1)` is the list `(f (x . 0))`. -/
theorem C23_alias_counterexample :
    let f : Val := L [S "def", S "f", L [S "x"],
      L [S "if", L [S "=", S "x", N 0], N 7, L [S "f", L [S "-", S "x", N 1]]]]
    run 30 [f, L [S "f", N 1]] = .ok (N 7) ∧
    (run 30 [f, L [S "setq", S "g", S "f"], L [S "g", N 1]] >>= fun v => .ok v.erase) =
      .ok (L [S "f", cons (S "x") (N 0)]) := by
  intro f; exact ⟨by decide +kernel, by decide +kernel⟩

/-- **C23.** A parameter named like the function: with `(def f (f x) (if (= x 0) 7 (f f 0)))` and a function of
two arguments `(def g (a b) 5)` passed for `f`, the body calls `g`, so the value should be 5; the marked call makes
the loop run the body of `f` again with the bindings of `g`, in which `x` keeps its value and the loop goes on. With
`g` taking arguments named `f` and `x`, it ends with 7 instead of 5. -/
theorem C23_parameter_counterexample :
    let body : Val := L [S "if", L [S "=", S "x", N 0], N 7, L [S "f", S "f", N 0]]
    let g : Val := L [S "def", S "g", L [S "f", S "x"], N 5]
    run 30 [L [S "def", S "f", L [S "f", S "x"], body], g, L [S "f", S "g", N 1]] = .ok (N 7) ∧
    run 30 [L [S "setq", S "f", L [S "\\", L [S "f", S "x"], body]], g, L [S "f", S "g", N 1]] = .ok (N 5) := by
  intro body g; exact ⟨by decide +kernel, by decide +kernel⟩

end Mnml
