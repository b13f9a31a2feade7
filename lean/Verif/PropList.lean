import Verif.Calls
import Verif.PropVal

/-!
# C39: list constructor laws
-/

namespace Mnml

open Val

/-- **C39.** `(car (cons A B))` evaluates A and B and is the value of A. -/
theorem C39_car_cons (c : Val) (st : St) (s1 s2 : Sym) (a b : Val)
    (h1 : Resolves c st s1 Native.car.val) (h2 : Resolves c st s2 Native.cons.val) :
    sem c (ofList [ofSym s1, ofList [ofSym s2, a, b]]) st =
      (do let x ← sem c a; let _ ← sem c b; pure x) st := by
  simp only [ofList]
  rw [sem_one _ _ h1 rfl, M.bind_congr_left (sem_two _ _ _ _ h2 rfl)]
  simp only [M.bind_assoc]
  refine M.bind_ext fun x => M.bind_congr fun y => ?_
  rfl

/-- **C39.** `(cdr (cons A B))` evaluates A and B and is the value of B. -/
theorem C39_cdr_cons (c : Val) (st : St) (s1 s2 : Sym) (a b : Val)
    (h1 : Resolves c st s1 Native.cdr.val) (h2 : Resolves c st s2 Native.cons.val) :
    sem c (ofList [ofSym s1, ofList [ofSym s2, a, b]]) st =
      (do let _ ← sem c a; sem c b) st := by
  simp only [ofList]
  rw [sem_one _ _ h1 rfl, M.bind_congr_left (sem_two _ _ _ _ h2 rfl)]
  simp only [M.bind_assoc]
  refine M.bind_ext fun x => ?_
  refine Eq.trans ?_ (M.bind_pure (sem c b))
  refine M.bind_congr fun y => ?_
  rfl

/-- **C39.** `car` and `cdr` of anything that is not a pair are NIL. -/
theorem C39_car_cdr_atom (c : Val) (st st1 : St) (s : Sym) (op : Native)
    (hop : op = .car ∨ op = .cdr) (h : Resolves c st s op.val) (a v : Val)
    (ha : sem c a st = .ok (v, st1)) (hv : ∀ t x y, v ≠ pair t x y) :
    sem c (ofList [ofSym s, a]) st = .ok (nil, st1) := by
  simp only [ofList]
  rcases hop with rfl | rfl
  · rw [sem_one _ _ h rfl, M.bind_congr_ok ha]
    cases v with
    | pair t x y => exact absurd rfl (hv t x y)
    | _ => rfl
  · rw [sem_one _ _ h rfl, M.bind_congr_ok ha]
    cases v with
    | pair t x y => exact absurd rfl (hv t x y)
    | _ => rfl

theorem listV_spec (c : Val) (es : List Val) :
    listV sem c (ofList es) = (do let vs ← evalSeq sem c es.reverse; pure (ofList vs.reverse)) := by
  have happ : ∀ as : List Val, ∀ b : Val, evalSeq sem c (as ++ [b]) =
      (do let vs ← evalSeq sem c as; let v ← sem c b; pure (vs ++ [v])) := by
    intro as b
    induction as with
    | nil => simp [evalSeq]
    | cons a as ih => simp only [List.cons_append, evalSeq, ih, M.bind_assoc, M.pure_bind]
  induction es with
  | nil => rfl
  | cons e es ih =>
    simp only [ofList, listV, ih, M.bind_assoc, M.pure_bind, List.reverse_cons, happ]
    refine M.bind_congr fun vs => M.bind_congr fun v => ?_
    simp [ofList]

/-- **C39.** `(list E1 ... En)` is the list of the values of `E1 ... En` in this order (the expressions
are evaluated from the last to the first). -/
theorem C39_list (c : Val) (st : St) (s : Sym) (es : List Val) (h : Resolves c st s Native.list.val) :
    sem c (cons (ofSym s) (ofList es)) st =
      (do let vs ← evalSeq sem c es.reverse; pure (ofList vs.reverse)) st := by
  rw [sem_any _ h rfl, ← listV_spec]; rfl

/-- **C39.** `len` of a proper list is its number of elements. -/
theorem C39_len (c : Val) (st st1 : St) (s : Sym) (a : Val) (vs : List Val)
    (h : Resolves c st s Native.len.val) (ha : sem c a st = .ok (ofList vs, st1)) :
    sem c (ofList [ofSym s, a]) st = .ok (num vs.length, st1) := by
  have hlen : ∀ vs : List Val, (ofList vs).len = vs.length := by
    intro vs; induction vs with
    | nil => rfl
    | cons v vs ih => simp [ofList, len, ih]
  have hl : (ofList vs).isList = true := by cases vs <;> rfl
  simp only [ofList]
  rw [sem_one _ _ h rfl, M.bind_congr_ok ha]
  simp only [unary, hl, hlen, if_true, M.lift_ok]
  rfl

/-- **C39.** `len` of anything but NIL and pairs is NIL. -/
theorem C39_len_atom (c : Val) (st st1 : St) (s : Sym) (a v : Val) (h : Resolves c st s Native.len.val)
    (ha : sem c a st = .ok (v, st1)) (hn : v ≠ nil) (hp : ∀ t x y, v ≠ pair t x y) :
    sem c (ofList [ofSym s, a]) st = .ok (nil, st1) := by
  simp only [ofList]
  rw [sem_one _ _ h rfl, M.bind_congr_ok ha]
  cases v with
  | nil => exact absurd rfl hn
  | pair t x y => exact absurd rfl (hp t x y)
  | _ => rfl

/-- What the type predicates ask for. -/
def asks (op : Native) (v : Val) : Prop :=
  match op with
  | .isnil => v = nil
  | .istru => v = tru
  | .ischr => ∃ c, v = chr c
  | .isnum => ∃ n, v = num n
  | .issym => ∃ t s, v = sym t s
  | .islst => v = nil ∨ ∃ t x y, v = pair t x y
  | .isatm => v ≠ nil ∧ ∀ t x y, v ≠ pair t x y
  | .isstr => ∃ cs : List Int, v.erase = ofList (cs.map chr)
  | _ => False

/-- **C40.** The natives `nil?`, `tru?`, `chr?`, `num?`, `sym?`, `lst?`, `atm?` and `str?` evaluate their argument
and answer T or NIL according to its type. -/
theorem C40_predicates (c : Val) (st st1 : St) (s : Sym) (op : Native)
    (hop : op ∈ [Native.isnil, .istru, .ischr, .isnum, .issym, .islst, .isatm, .isstr]) (a v : Val)
    (h : Resolves c st s op.val) (ha : sem c a st = .ok (v, st1)) :
    (asks op v → sem c (ofList [ofSym s, a]) st = .ok (tru, st1)) ∧
    (¬ asks op v → sem c (ofList [ofSym s, a]) st = .ok (nil, st1)) := by
  have key : ∀ {b : Bool}, op.shape = .one → op ≠ .eval → unary op v = .ok (ofBool b) → (asks op v ↔ b = true) →
      (asks op v → sem c (ofList [ofSym s, a]) st = .ok (tru, st1)) ∧
      (¬ asks op v → sem c (ofList [ofSym s, a]) st = .ok (nil, st1)) := by
    intro b h1 h2 h3 h4
    have e : sem c (ofList [ofSym s, a]) st = .ok (ofBool b, st1) := by
      simp only [ofList]
      rw [sem_one _ _ h h1, M.bind_congr_ok ha, if_neg h2, h3]
      rfl
    rw [e, h4]
    cases b <;> simp [ofBool]
  simp only [List.mem_cons, List.not_mem_nil, or_false] at hop
  rcases hop with rfl | rfl | rfl | rfl | rfl | rfl | rfl | rfl
  · exact key (b := v.isNil) rfl (by simp) rfl (by cases v <;> simp [asks, isNil])
  · exact key (b := v.isTrue) rfl (by simp) rfl (by cases v <;> simp [asks, Val.isTrue])
  · exact key (b := v.isChr) rfl (by simp) rfl (by cases v <;> simp [asks, isChr])
  · exact key (b := v.isNum) rfl (by simp) rfl (by cases v <;> simp [asks, isNum])
  · exact key (b := v.isSym) rfl (by simp) rfl (by cases v <;> simp [asks, isSym])
  · exact key (b := v.isList) rfl (by simp) rfl (by cases v <;> simp [asks, isList, isPair, isNil])
  · exact key (b := v.isAtom) rfl (by simp) rfl (by cases v <;> simp [asks, isAtom, isList, isPair, isNil])
  · exact key (b := v.isString) rfl (by simp) rfl (C40_string v).symm

example : run 9 [L [S "atm?", N 5]] = .ok tru ∧ run 9 [L [S "atm?", nil]] = .ok nil ∧ run 9 [L [S "len", N 5]] = .ok nil := by
  refine ⟨?_, ?_, ?_⟩ <;> decide

theorem conc_ofList (as : List Val) (b : Val) : conc (ofList as) b = as.foldr cons b := by
  induction as with
  | nil => rfl
  | cons a as ih =>
    cases as with
    | nil => rfl
    | cons a' as' =>
      have : conc (ofList (a :: a' :: as')) b = cons a (conc (ofList (a' :: as')) b) := rfl
      rw [this, ih]; rfl

/-- **C39.** `conc` of two proper lists is their concatenation. -/
theorem C39_conc (c : Val) (st st1 st2 : St) (s : Sym) (a b : Val) (as bs : List Val)
    (h : Resolves c st s Native.conc.val) (ha : sem c a st = .ok (ofList as, st1))
    (hb : sem c b st1 = .ok (ofList bs, st2)) :
    sem c (ofList [ofSym s, a, b]) st = .ok (ofList (as ++ bs), st2) := by
  simp only [ofList]
  rw [sem_two _ _ _ _ h rfl, M.bind_congr_ok ha, M.bind_congr_ok hb]
  simp only [binary, conc_ofList, M.lift_ok]
  have : ∀ as : List Val, as.foldr cons (ofList bs) = ofList (as ++ bs) := by
    intro as
    induction as with
    | nil => rfl
    | cons a as ih => simp [ofList, ih]
  rw [this]; rfl

example : run 9 [L [S "conc", L [S "list", N 1, N 2], L [S "list", N 3]]] = .ok (L [N 1, N 2, N 3]) ∧
    run 9 [L [S "len", L [S "list", N 1, N 2]]] = .ok (N 2) ∧ run 9 [L [S "car", N 5]] = .ok nil := by
  refine ⟨?_, ?_, ?_⟩ <;> decide

example : sem nil (ofList [ofSym Native.conc.name, Q (L [N 1]), Q (L [N 2])]) initSt =
    .ok (ofList [N 1, N 2], initSt) :=
  C39_conc nil initSt initSt initSt _ _ _ [N 1] [N 2] rfl
    (quoted _) (quoted _)
where
  quoted (v : Val) : sem nil (Q v) initSt = .ok (v, initSt) := by
    have h : Resolves nil initSt sQuote Native.quote.val := rfl
    rw [Q, sem_any _ h rfl]; rfl

end Mnml
