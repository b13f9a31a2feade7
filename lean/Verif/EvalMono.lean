import Verif.Eval

/-!
# The fuel of the evaluator does not matter

More fuel never changes an outcome other than `oof`.
-/

namespace Mnml

open Val

/-- `x` is `oof` or agrees with `y`. -/
def Le {α : Type} (x y : M α) : Prop := ∀ st, x st = .oof ∨ x st = y st

/-- The same for evaluators. -/
def EvLe (ev ev' : Ev) : Prop := ∀ c e, Le (ev c e) (ev' c e)

theorem Le.refl {α : Type} (x : M α) : Le x x := fun _ => .inr rfl

theorem Le.oof {α : Type} (y : M α) : Le M.oof y := fun _ => .inl rfl

theorem Le.trans {α : Type} {x y z : M α} (h1 : Le x y) (h2 : Le y z) : Le x z := by
  intro st
  rcases h1 st with h | h
  · exact .inl h
  · rw [h]; exact h2 st

theorem Le.bind {α β : Type} {x y : M α} {f g : α → M β} (h1 : Le x y) (h2 : ∀ a, Le (f a) (g a)) :
    Le (x >>= f) (y >>= g) := by
  intro st
  simp only [M.bind_apply]
  rcases h1 st with h | h
  · exact .inl (by rw [h]; rfl)
  · rw [h]
    cases hy : y st with
    | ok p => exact h2 p.1 p.2
    | _ => exact .inr rfl

theorem Le.ite {α : Type} {c : Prop} [Decidable c] {x y x' y' : M α} (h1 : Le x x')
    (h2 : Le y y') : Le (if c then x else y) (if c then x' else y') := by
  split
  · exact h1
  · exact h2

theorem le_progV {ev ev' : Ev} (h : EvLe ev ev') (c e r : Val) :
    Le (progV ev c e r) (progV ev' c e r) := by
  induction e generalizing r with
  | pair tc a d _ ihd => exact Le.bind (h _ _) (fun r => ihd r)
  | _ => exact Le.refl _

theorem le_evalArgs {ev ev' : Ev} (h : EvLe ev ev') (c args acc vals : Val) :
    Le (evalArgs ev c args acc vals) (evalArgs ev' c args acc vals) := by
  induction args generalizing acc vals with
  | pair tc a d _ ihd =>
    simp only [evalArgs]
    exact Le.ite (Le.refl _) (Le.bind (h _ _) (fun v => ihd _ _))
  | nil => exact Le.refl _
  | sym => exact Le.refl _
  | _ =>
    simp only [evalArgs]
    exact Le.ite (Le.refl _) (Le.bind (h _ _) (fun v => Le.refl _))

theorem le_tailLoop {ev ev' : Ev} (h : EvLe ev ev') (symb body cls0 : Val) (k k' : Nat)
    (hk : k ≤ k') (b : Val) :
    Le (tailLoop ev symb body cls0 k b) (tailLoop ev' symb body cls0 k' b) := by
  induction k generalizing k' b with
  | zero => exact Le.oof _
  | succ k ih =>
    cases k' with
    | zero => omega
    | succ k' =>
      simp only [tailLoop]
      refine Le.bind (Le.refl _) fun cls1 => Le.bind (le_progV h _ _ _) fun res =>
        Le.bind (Le.refl _) fun again => Le.ite (ih k' (by omega) _) (Le.refl _)

theorem le_condV {ev ev' : Ev} (h : EvLe ev ev') (c cell e : Val) :
    Le (condV ev c cell e) (condV ev' c cell e) := by
  induction e with
  | pair tc a d _ ihd =>
    cases a with
    | pair tc' args prog =>
      simp only [condV]
      exact Le.ite (h _ _) (Le.bind (h _ _) fun r => Le.ite (h _ _) ihd)
    | _ => exact Le.refl _
  | _ => exact Le.refl _

theorem le_matchV {ev ev' : Ev} (h : EvLe ev ev') (c any e : Val) :
    Le (matchV ev c any e) (matchV ev' c any e) := by
  induction e with
  | pair tc a d _ ihd =>
    cases a with
    | pair tc' args prog =>
      simp only [matchV]
      exact Le.ite (h _ _) ihd
    | _ => exact Le.refl _
  | _ => exact Le.refl _

theorem le_listV {ev ev' : Ev} (h : EvLe ev ev') (c e : Val) :
    Le (listV ev c e) (listV ev' c e) := by
  induction e with
  | pair tc a d _ ihd =>
    exact Le.bind ihd fun r => Le.bind (h _ _) fun x => Le.refl _
  | _ => exact Le.refl _

theorem le_streamV {ev ev' : Ev} (h : EvLe ev ev') (c any e : Val) :
    Le (streamV ev c any e) (streamV ev' c any e) := by
  induction any generalizing e with
  | nil => exact h _ _
  | pair tc a d _ ihd => exact Le.bind (h _ _) fun r => ihd _
  | _ => exact Le.bind (h _ _) fun r => h _ _

theorem le_letBind {ev ev' : Ev} (h : EvLe ev ev') (c cell env : Val) :
    Le (letBind ev c cell env) (letBind ev' c cell env) := by
  induction cell generalizing env with
  | pair tc a d _ ihd =>
    simp only [letBind]
    refine Le.ite (Le.bind (Le.refl _) fun tmp => Le.bind (h _ _) fun val =>
      Le.bind (Le.refl _) fun val' => ihd _) (Le.refl _)
  | _ => exact Le.refl _

theorem le_letV {ev ev' : Ev} (h : EvLe ev ev') (c cell : Val) :
    Le (letV ev c cell) (letV ev' c cell) := by
  refine Le.bind (le_letBind h _ _ _) fun next => Le.bind (Le.refl _) fun clos => le_progV h _ _ _

theorem le_whileV {ev ev' : Ev} (h : EvLe ev ev') (c cnd prg : Val) (k k' : Nat) (hk : k ≤ k')
    (r : Val) : Le (whileV ev c cnd prg k r) (whileV ev' c cnd prg k' r) := by
  induction k generalizing k' r with
  | zero => exact Le.oof _
  | succ k ih =>
    cases k' with
    | zero => omega
    | succ k' =>
      simp only [whileV]
      refine Le.bind (h _ _) fun x => Le.ite (Le.refl _) (Le.bind (le_progV h _ _ _) fun r =>
        ih k' (by omega) r)

theorem le_prinAll {ev ev' : Ev} (h : EvLe ev ev') (c : Val) (s : Bool) (e r : Val) :
    Le (prinAll ev c s e r) (prinAll ev' c s e r) := by
  induction e generalizing r with
  | nil => exact Le.refl _
  | pair tc a d _ ihd =>
    exact Le.bind (h _ _) fun car => Le.bind (Le.refl _) fun _ => Le.bind (Le.refl _) fun _ => ihd _
  | _ => exact Le.bind (h _ _) fun car => Le.refl _

theorem le_setV {ev ev' : Ev} (h : EvLe ev ev') (c any : Val) :
    Le (setV ev c any) (setV ev' c any) :=
  Le.bind (h _ _) fun _ => Le.bind (h _ _) fun _ => Le.refl _

theorem le_setqV {ev ev' : Ev} (h : EvLe ev ev') (c any : Val) :
    Le (setqV ev c any) (setqV ev' c any) :=
  Le.bind (h _ _) fun _ => Le.refl _

theorem le_orV {ev ev' : Ev} (h : EvLe ev ev') (c any : Val) :
    Le (orV ev c any) (orV ev' c any) :=
  Le.bind (h _ _) fun _ => Le.ite (Le.refl _) (Le.bind (h _ _) fun _ => Le.refl _)

theorem le_nativeAny {ev ev' : Ev} (h : EvLe ev ev') {k k' : Nat} (hk : k ≤ k') (op : Native)
    (full c any : Val) : Le (nativeAny k ev op full c any) (nativeAny k' ev' op full c any) := by
  cases op <;> simp only [nativeAny]
  case cond => exact le_condV h _ _ _
  case let_ => exact le_letV h _ _
  case list => exact le_listV h _ _
  case match_ => exact Le.bind (h _ _) fun _ => le_matchV h _ _ _
  case prog => exact le_progV h _ _ _
  case set => exact le_setV h _ _
  case setq => exact le_setqV h _ _
  case stream => exact le_streamV h _ _ _
  case while_ => exact le_whileV h _ _ _ _ _ hk _
  case or => exact le_orV h _ _
  case prin => exact le_prinAll h _ _ _ _
  case prinl => exact Le.bind (le_prinAll h _ _ _ _) fun _ => Le.refl _
  case print => exact le_prinAll h _ _ _ _
  case printl => exact Le.bind (le_prinAll h _ _ _ _) fun _ => Le.refl _
  all_goals exact Le.refl _

theorem le_nativeRem {ev ev' : Ev} (h : EvLe ev ev') (op : Native) (c cnd rem : Val) :
    Le (nativeRem ev op c cnd rem) (nativeRem ev' op c cnd rem) := by
  cases op <;> simp only [nativeRem]
  case if_ => exact Le.ite (h _ _) (h _ _)
  case when_ => exact Le.ite (le_progV h _ _ _) (Le.refl _)
  case unless_ => exact Le.ite (le_progV h _ _ _) (Le.refl _)
  all_goals exact Le.refl _

theorem le_callNative {ev ev' : Ev} (h : EvLe ev ev') {k k' : Nat} (hk : k ≤ k') (op : Native)
    (c : Val) : Le (callNative k ev op c) (callNative k' ev' op c) := by
  simp only [callNative]
  cases op.shape with
  | one => exact Le.bind (Le.refl _) fun p => Le.ite (h _ _) (Le.refl _)
  | two => exact Le.refl _
  | any => exact Le.bind (Le.refl _) fun p => le_nativeAny h hk _ _ _ _
  | rem => exact Le.bind (Le.refl _) fun p => Le.bind (Le.refl _) fun q => le_nativeRem h _ _ _ _
  | none => exact Le.refl _

theorem le_evalFunc {ev ev' : Ev} (h : EvLe ev ev') {k k' : Nat} (hk : k ≤ k')
    (c symb func vals : Val) :
    Le (evalFunc k ev c symb func vals) (evalFunc k' ev' c symb func vals) := by
  simp only [evalFunc]
  refine Le.ite (Le.refl _) (Le.bind (le_evalArgs h _ _ _ _) fun p => ?_)
  refine Le.ite ?_ (Le.refl _)
  split
  · split
    · exact le_callNative h hk _ _
    · exact Le.refl _
  · exact Le.ite (Le.refl _) (Le.bind (Le.refl _) fun cls0 => le_tailLoop h _ _ _ _ _ hk _)

theorem le_evalPair {ev ev' : Ev} (h : EvLe ev ev') {k k' : Nat} (hk : k ≤ k')
    (c car cdr : Val) : Le (evalPair k ev c car cdr) (evalPair k' ev' c car cdr) := by
  simp only [evalPair]
  exact Le.bind (h _ _) fun nxt => Le.ite (le_evalFunc h hk _ _ _ _)
    (Le.ite (Le.refl _) (Le.ite (h _ _) (Le.refl _)))

theorem le_evalStep {ev ev' : Ev} (h : EvLe ev ev') {k k' : Nat} (hk : k ≤ k') :
    EvLe (evalStep k ev) (evalStep k' ev') := by
  intro c e
  cases e with
  | pair tc car cdr => exact le_evalPair h hk _ _ _
  | _ => exact Le.refl _

/-- More fuel does not change a definite outcome. -/
theorem evalN_le {n m : Nat} (h : n ≤ m) : EvLe (evalN n) (evalN m) := by
  induction n generalizing m with
  | zero => exact fun c e => Le.oof _
  | succ n ih =>
    cases m with
    | zero => omega
    | succ m => exact le_evalStep (ih (by omega)) (by omega)

/-- `e` evaluates to `v` in the environment `c`, changing the state from `st` to `st'`. -/
def Evals (c e : Val) (st : St) (v : Val) (st' : St) : Prop := ∃ n, evalN n c e st = .ok (v, st')

theorem evalN_of_le {n m : Nat} (h : n ≤ m) {c e : Val} {st : St} {r : Res (Val × St)}
    (hr : evalN n c e st = r) (ho : r ≠ .oof) : evalN m c e st = r := by
  rcases evalN_le h c e st with h1 | h1
  · exact absurd (hr.symm.trans h1) ho
  · rw [← h1, hr]

theorem Evals.unique {c e : Val} {st : St} {v v' : Val} {st1 st2 : St} (h : Evals c e st v st1)
    (h' : Evals c e st v' st2) : v = v' ∧ st1 = st2 := by
  obtain ⟨n, hn⟩ := h
  obtain ⟨m, hm⟩ := h'
  have a := evalN_of_le (Nat.le_max_left n m) hn (by simp)
  have b := evalN_of_le (Nat.le_max_right n m) hm (by simp)
  rw [a] at b
  injection b with b
  injection b with b1 b2
  exact ⟨b1, b2⟩

end Mnml
