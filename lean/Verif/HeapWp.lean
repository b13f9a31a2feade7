import Verif.HeapRel

/-!
# Rules for heap computations

`wp x Q s`: from `s`, the computation `x` does not access a released cell, and if it finishes with a
result, `Q` holds of it. The other outcomes (crashes of other kinds, running out of fuel, code outside of the model) are
not restricted.
-/

namespace Mnml
namespace Heap

/-- No access to released cells, and `Q` at the end. -/
def wp {α : Type} (x : HM α) (Q : α → HSt → Prop) (s : HSt) : Prop :=
  match x s with
  | .ok (a, s') => Q a s'
  | .ub u => u ≠ .useAfterFree
  | _ => True

theorem wp_ok {α : Type} {x : HM α} {Q : α → HSt → Prop} {s s' : HSt} {a : α} (h : x s = .ok (a, s'))
    (q : Q a s') : wp x Q s := by unfold wp; rw [h]; exact q

theorem wp_mono {α : Type} {x : HM α} {Q Q' : α → HSt → Prop} {s : HSt} (h : wp x Q s)
    (i : ∀ a s', Q a s' → Q' a s') : wp x Q' s := by
  unfold wp at *
  cases hx : x s with
  | ok p => rw [hx] at h; exact i _ _ h
  | ub u => rw [hx] at h; exact h
  | abort => trivial
  | oof => trivial
  | unsupported => trivial

theorem wp_bind {α β : Type} {x : HM α} {f : α → HM β} {Q : β → HSt → Prop} {s : HSt}
    (h : wp x (fun a s' => wp (f a) Q s') s) : wp (x >>= f) Q s := by
  unfold wp at h ⊢
  show match HM.bind x f s with | .ok (a, s') => Q a s' | .ub u => u ≠ .useAfterFree | _ => True
  unfold HM.bind
  cases hx : x s with
  | ok p =>
    rw [hx] at h
    exact h
  | ub u => rw [hx] at h; exact h
  | abort => trivial
  | oof => trivial
  | unsupported => trivial

theorem wp_pure {α : Type} {a : α} {Q : α → HSt → Prop} {s : HSt} (h : Q a s) :
    wp (pure a : HM α) Q s := h

theorem wp_oof {α : Type} {Q : α → HSt → Prop} {s : HSt} : wp (HM.oof : HM α) Q s := trivial
theorem wp_unsupported {α : Type} {Q : α → HSt → Prop} {s : HSt} : wp (HM.unsupported : HM α) Q s :=
  trivial
theorem wp_guard {b : Bool} {Q : Unit → HSt → Prop} {s : HSt} (k : Q () s) : wp (guard b) Q s := by
  cases h : (s.strict && !b) with
  | true => have e : guard b s = .unsupported := by unfold guard; rw [h]; rfl
            unfold wp; rw [e]; trivial
  | false => exact wp_ok (by unfold guard; rw [h]; rfl) k
/-- The parts of a live value are there. -/
theorem InvO.there {s : HSt} {T : Addr → Nat} (h : Inv s T) : ∀ (n : Nat) {a : Addr}, Live s a → there s.mem n a = true := by
  intro n
  induction n with
  | zero => intros; rfl
  | succ n ih =>
    intro a l
    obtain ⟨c, hc⟩ := l.1
    unfold Heap.there
    rw [hc]
    cases hd : c.data with
    | pair x y =>
      simp only [hd, Bool.and_eq_true]
      exact ⟨ih (h.childCar l (by simp) hc hd), ih (h.childCdr l (by simp) hc hd)⟩
    | _ => simp only [hd]
theorem wp_lone {n : Nat} {f a : Addr} {Q : Bool → HSt → Prop} {s : HSt} {T : Addr → Nat} (h : Inv s T) (lf : Live s f)
    (la : Live s a) (k : ∀ b, Q b s) : wp (loneH n f a) Q s := by
  refine wp_ok (a := loneArg s.mem n f a) (s' := s) ?_ (k _)
  unfold loneH
  rw [h.there 2 lf, h.there n la]
  rfl
theorem wp_ub {α : Type} {Q : α → HSt → Prop} {s : HSt} {u : UB} (h : u ≠ .useAfterFree) :
    wp (HM.ub u : HM α) Q s := h

theorem wp_ite {α : Type} {c : Prop} [Decidable c] {x y : HM α} {Q : α → HSt → Prop} {s : HSt}
    (h1 : c → wp x Q s) (h2 : ¬ c → wp y Q s) : wp (if c then x else y) Q s := by
  split
  · exact h1 ‹_›
  · exact h2 ‹_›

theorem wp_lift {α : Type} {r : Res α} {Q : α → HSt → Prop} {s : HSt} (hr : r ≠ .ub .useAfterFree)
    (h : ∀ a, r = .ok a → Q a s) : wp (HM.lift r) Q s := by
  unfold wp HM.lift
  cases r with
  | ok a => exact h a rfl
  | ub u => intro e; exact hr (by rw [e])
  | abort => trivial
  | oof => trivial
  | unsupported => trivial

/-! ## Reading -/

theorem wp_cell {Q : Cell → HSt → Prop} {s : HSt} {a : Addr} (l : Live s a)
    (k : ∀ c, s.mem a = some c → Q c s) : wp (cell a) Q s := by
  obtain ⟨⟨c, hc⟩, _⟩ := l
  exact wp_ok (cell_ok hc) (k c hc)

theorem wp_noFlag {Q : Unit → HSt → Prop} {s : HSt} {a : Addr} (l : Live s a) (k : Q () s) : wp (noFlag a) Q s :=
  wp_bind (wp_cell l fun _ _ => wp_guard k)

theorem wp_dataOf {Q : Data → HSt → Prop} {s : HSt} {a : Addr} (l : Live s a)
    (k : ∀ c, s.mem a = some c → Q c.data s) : wp (dataOf a) Q s :=
  wp_bind (wp_cell l fun c hc => wp_pure (k c hc))

theorem wp_pairOf {Q : Addr × Addr → HSt → Prop} {s : HSt} {a : Addr} (l : Live s a)
    (k : ∀ c x y, s.mem a = some c → c.data = .pair x y → Q (x, y) s) : wp (pairOf a) Q s := by
  refine wp_bind (wp_dataOf l fun c hc => ?_)
  cases hd : c.data with
  | pair x y => exact wp_pure (k c x y hc hd)
  | _ => exact wp_ub (by simp)

/-- Reading the fields of a live pair of a heap without open cells. -/
theorem wp_pairOf' {Q : Addr × Addr → HSt → Prop} {s : HSt} {T : Addr → Nat} {a : Addr} (h : Inv s T)
    (l : Live s a) (k : ∀ x y, Live s x → Live s y → Q (x, y) s) : wp (pairOf a) Q s :=
  wp_pairOf l fun _ x y hc hd =>
    k x y (h.childCar l (by simp) hc hd) (h.childCdr l (by simp) hc hd)

/-! ## Allocation, references -/

theorem wp_alloc {Q : Addr → HSt → Prop} {O : List Addr} {s : HSt} {T : Addr → Nat} (h : InvO O s T)
    (d : Data) (hd : ∀ b, occ d b ≤ T b)
    (k : ∀ r s' T', InvO O s' T' → (∀ b, T' b + occ d b = T b + one r b) → Ext s s' → Fr s.next s s' →
      r = s.next → s'.mem r = some ⟨1, false, none, d⟩ → Q r s') : wp (alloc d) Q s := by
  refine wp_ok rfl (k _ _ (fun b => T b + one s.next b - occ d b) (h.alloc d ?_) ?_ ?_ ?_ rfl
    (upd_self _ _ _))
  · intro b; have := hd b; omega
  · intro b; have := hd b; omega
  · refine ⟨rfl, Nat.le_succ _, fun a c hc => ⟨c, ?_, rfl⟩, fun a c ha hc => ⟨c, ?_, rfl⟩⟩
    · have : a ≠ s.next := by have := h.lt hc; omega
      simp only [upd_ne this]
      exact hc
    · have : a ≠ s.next := by omega
      simp only [upd_ne this] at hc
      exact hc
  · refine ⟨rfl, Nat.le_succ _, fun a c ha hc => ⟨c, ?_, rfl⟩⟩
    have : a ≠ s.next := by omega
    simp only [upd_ne this] at hc
    exact hc

theorem wp_mk {Q : Addr → HSt → Prop} {s : HSt} {T : Addr → Nat} (h : Inv s T) {d : Data}
    (hd : d.isPair = false)
    (k : ∀ r s' T', Inv s' T' → (∀ b, T' b = T b + one r b) → Ext s s' → Q r s') :
    wp (alloc d) Q s := by
  refine wp_alloc h d (by intro b; rw [occ_atom hd]; omega) ?_
  intro r s' T' h' e x _ _ _
  exact k r s' T' h' (by intro b; have := e b; rw [occ_atom hd] at this; omega) x

theorem wp_nil {Q : Addr → HSt → Prop} {s : HSt} {T : Addr → Nat} (h : Inv s T)
    (k : ∀ r s' T', Inv s' T' → (∀ b, T' b = T b + one r b) → Ext s s' → Q r s') :
    wp mkNil Q s := wp_mk h rfl k

theorem wp_true {Q : Addr → HSt → Prop} {s : HSt} {T : Addr → Nat} (h : Inv s T)
    (k : ∀ r s' T', Inv s' T' → (∀ b, T' b = T b + one r b) → Ext s s' → Q r s') :
    wp mkTrue Q s := wp_mk h rfl k

theorem wp_bool {Q : Addr → HSt → Prop} {s : HSt} {T : Addr → Nat} (h : Inv s T) {v : Bool}
    (k : ∀ r s' T', Inv s' T' → (∀ b, T' b = T b + one r b) → Ext s s' → Q r s') :
    wp (mkBool v) Q s := by
  unfold mkBool
  cases v
  · exact wp_nil h k
  · exact wp_true h k

theorem wp_cons {Q : Addr → HSt → Prop} {s : HSt} {T : Addr → Nat} (h : Inv s T) {x y : Addr}
    (hd : ∀ b, one x b + one y b ≤ T b)
    (k : ∀ r s' T', Inv s' T' → (∀ b, T' b + one x b + one y b = T b + one r b) → Ext s s' → Q r s') :
    wp (consH x y) Q s := by
  refine wp_alloc h (.pair x y) hd ?_
  intro r s' T' h' e i _ _ _
  exact k r s' T' h' (by intro b; have := e b; rw [occ_pair] at this; omega) i

/-- Changing the count, flag or cache of a cell. -/
theorem touch_ext {s : HSt} {a : Addr} {c c' : Cell} (hc : s.mem a = some c) (hd : c'.data = c.data) :
    Ext s { s with mem := upd s.mem a (some c') } := by
  refine ⟨rfl, Nat.le_refl _, fun b d hb => ?_, fun b d _ hb => ?_⟩
  · by_cases e : b = a
    · subst e
      rw [hc] at hb
      cases hb
      exact ⟨c', upd_self _ _ _, hd⟩
    · exact ⟨d, by simp only [upd_ne e]; exact hb, rfl⟩
  · by_cases e : b = a
    · subst e
      simp only [upd_self] at hb
      cases hb
      exact ⟨c, hc, hd⟩
    · simp only [upd_ne e] at hb
      exact ⟨d, hb, rfl⟩

theorem touch_fr {s : HSt} {a : Addr} {c c' : Cell} (hc : s.mem a = some c) (hd : c'.data = c.data)
    (n : Nat) : Fr n s { s with mem := upd s.mem a (some c') } := by
  refine ⟨rfl, Nat.le_refl _, fun b d _ hb => ?_⟩
  by_cases e : b = a
  · subst e
    simp only [upd_self] at hb
    cases hb
    exact ⟨c, hc, hd⟩
  · simp only [upd_ne e] at hb
    exact ⟨d, hb, rfl⟩

theorem wp_up' {Q : Unit → HSt → Prop} {O : List Addr} {s : HSt} {T : Addr → Nat} {a : Addr}
    (h : InvO O s T) (l : Live s a)
    (k : ∀ s' T', InvO O s' T' → (∀ b, T' b = T b + one a b) → Ext s s' → (∀ n, Fr n s s') → Q () s') :
    wp (up a) Q s := by
  obtain ⟨⟨c, hc⟩, hz⟩ := l
  refine wp_ok (modify_ok _ hc) (k _ (fun b => T b + one a b) (h.touch ⟨⟨c, hc⟩, hz⟩ hc rfl ?_ ?_ ?_)
    (fun _ => rfl) (touch_ext hc rfl) (touch_fr hc rfl))
  · intro b
    show T b + one a b + one a b * c.refs = T b + one a b * (c.refs + 1)
    rw [Nat.mul_add, Nat.mul_one]
    omega
  · right; exact Nat.succ_pos _
  · intro d hd; exact h.cache a c d hc hd

theorem wp_up {Q : Unit → HSt → Prop} {s : HSt} {T : Addr → Nat} {a : Addr}
    (h : Inv s T) (l : Live s a)
    (k : ∀ s' T', Inv s' T' → (∀ b, T' b = T b + one a b) → Ext s s' → Q () s') :
    wp (up a) Q s := wp_up' h l fun s' T' h' e x _ => k s' T' h' e x

theorem wp_setTail {Q : Unit → HSt → Prop} {s : HSt} {T : Addr → Nat} {a : Addr} (h : Inv s T)
    (l : Live s a) (k : ∀ s', Inv s' T → Ext s s' → Q () s') : wp (setTail a) Q s := by
  obtain ⟨⟨c, hc⟩, hz⟩ := l
  refine wp_ok (modify_ok _ hc) (k _ (h.touch ⟨⟨c, hc⟩, hz⟩ hc rfl (fun _ => rfl) ?_ ?_)
    (touch_ext hc rfl))
  · right; exact h.pos a c hc (by simp)
  · intro d hd; exact h.cache a c d hc hd

theorem wp_setCache {Q : Unit → HSt → Prop} {s : HSt} {T : Addr → Nat} {a d : Addr} (h : Inv s T)
    (l : Live s a) (hd : d ∈ s.globals.map Prod.snd) (k : ∀ s', Inv s' T → Ext s s' → Q () s') :
    wp (setCache a d) Q s := by
  obtain ⟨⟨c, hc⟩, hz⟩ := l
  refine wp_ok (modify_ok _ hc) (k _ (h.touch ⟨⟨c, hc⟩, hz⟩ hc rfl (fun _ => rfl) ?_ ?_)
    (touch_ext hc rfl))
  · right; exact h.pos a c hc (by simp)
  · intro x hx
    simp only [Option.some.injEq] at hx
    exact hx ▸ hd

theorem wp_X' {Q : Unit → HSt → Prop} {O : List Addr} {s : HSt} {T : Addr → Nat} {a : Addr}
    (h : InvO O s T) (ha : ∀ b, one a b ≤ T b) (hO : ∀ o, o ∈ O → ∀ b, one a b + one o b ≤ T b)
    (k : ∀ s' T', InvO O s' T' → (∀ b, T' b + one a b = T b) → Shrink s s' → Q () s') :
    wp (X a) Q s := by
  obtain ⟨s', T', r, i, e, sh⟩ := X_spec h ha hO
  exact wp_ok r (k s' T' i e sh)

theorem wp_X {Q : Unit → HSt → Prop} {s : HSt} {T : Addr → Nat} {a : Addr}
    (h : Inv s T) (ha : ∀ b, one a b ≤ T b)
    (k : ∀ s' T', Inv s' T' → (∀ b, T' b + one a b = T b) → Q () s') : wp (X a) Q s :=
  wp_X' h ha (by intro o ho; cases ho) fun s' T' h' e _ => k s' T' h' e

theorem wp_Xk {Q : Unit → HSt → Prop} {s : HSt} {T : Addr → Nat} {a : Addr}
    (h : Inv s T) (ha : ∀ b, one a b ≤ T b)
    (k : ∀ s' T', Inv s' T' → (∀ b, T' b + one a b = T b) → Shrink s s' → Q () s') : wp (X a) Q s :=
  wp_X' h ha (by intro o ho; cases ho) k

theorem wp_Xsk {Q : Unit → HSt → Prop} {l : List Addr} : ∀ {s : HSt} {T : Addr → Nat}
    (_ : Inv s T) (_ : ∀ b, ones l b ≤ T b)
    (_ : ∀ s' T', Inv s' T' → (∀ b, T' b + ones l b = T b) → Shrink s s' → Q () s'),
    wp (Xs l) Q s := by
  induction l with
  | nil =>
    intro s T h _ k
    exact wp_pure (k s T h (fun _ => rfl) (Shrink.refl s))
  | cons a l ih =>
    intro s T h ha k
    refine wp_bind (wp_Xk h (by intro b; have := ha b; rw [ones_cons] at this; omega) ?_)
    intro s1 T1 h1 e1 k1
    refine ih h1 (by intro b; have := ha b; have := e1 b; rw [ones_cons] at *; omega) ?_
    intro s2 T2 h2 e2 k2
    exact k s2 T2 h2 (by intro b; have := e2 b; have := e1 b; rw [ones_cons]; omega) (k1.trans k2)

theorem wp_Xs {Q : Unit → HSt → Prop} {l : List Addr} {s : HSt} {T : Addr → Nat}
    (h : Inv s T) (ha : ∀ b, ones l b ≤ T b)
    (k : ∀ s' T', Inv s' T' → (∀ b, T' b + ones l b = T b) → Q () s') : wp (Xs l) Q s :=
  wp_Xsk h ha fun s' T' h' e _ => k s' T' h' e

/-! ## CAR and CDR -/

theorem wp_car {Q : Addr → HSt → Prop} {s : HSt} {T : Addr → Nat} {a : Addr} (h : Inv s T)
    (l : Live s a)
    (k : ∀ r s' T', Inv s' T' → (∀ b, T' b = T b + one r b) → Ext s s' → Q r s') :
    wp (carH a) Q s := by
  refine wp_bind (wp_dataOf l fun c hc => ?_)
  cases hd : c.data with
  | pair x y =>
    refine wp_bind (wp_up h (h.childCar l (by simp) hc hd) ?_)
    intro s' T' h' e i
    exact wp_pure (k x s' T' h' e i)
  | _ => exact wp_nil h k

theorem wp_cdr {Q : Addr → HSt → Prop} {s : HSt} {T : Addr → Nat} {a : Addr} (h : Inv s T)
    (l : Live s a)
    (k : ∀ r s' T', Inv s' T' → (∀ b, T' b = T b + one r b) → Ext s s' → Q r s') :
    wp (cdrH a) Q s := by
  refine wp_bind (wp_dataOf l fun c hc => ?_)
  cases hd : c.data with
  | pair x y =>
    refine wp_bind (wp_up h (h.childCdr l (by simp) hc hd) ?_)
    intro s' T' h' e i
    exact wp_pure (k y s' T' h' e i)
  | _ => exact wp_nil h k

/-! ## Lists -/

/-- Reachability along CDRs. -/
inductive CdrReach (s : HSt) (a : Addr) : Addr → Prop
  | refl : CdrReach s a a
  | step {b c x y} : CdrReach s a b → s.mem b = some c → c.data = .pair x y → CdrReach s a y

/-- All the pairs of a list are at addresses from `n` on. -/
def Fresh (n : Nat) (s : HSt) (a : Addr) : Prop :=
  ∀ b c x y, CdrReach s a b → s.mem b = some c → c.data = .pair x y → n ≤ b

/-- Steps that write no old cell keep the lists of live cells. -/
theorem CdrReach.back {O : List Addr} {s s' : HSt} {T : Addr → Nat} {a b : Addr} (h : InvO O s T)
    (f : Fr s.next s s') (l : Live s a) (r : CdrReach s' a b) (hO : O = []) :
    CdrReach s a b ∧ Live s b := by
  subst hO
  induction r with
  | refl => exact ⟨.refl, l⟩
  | step _ hc hd ih =>
    obtain ⟨r, lb⟩ := ih
    obtain ⟨c', hc', e⟩ := f.mem _ _ (lb.lt h) hc
    rw [hd] at e
    exact ⟨.step r hc' e.symm, h.childCdr lb (by simp) hc' e.symm⟩

theorem Fresh.fr {n : Nat} {s s' : HSt} {T : Addr → Nat} {a : Addr} (g : Fresh n s a) (h : Inv s T)
    (f : Fr s.next s s') (l : Live s a) : Fresh n s' a := by
  intro b c x y r hc hd
  obtain ⟨r', lb⟩ := r.back h f l rfl
  obtain ⟨c', hc', e⟩ := f.mem _ _ (lb.lt h) hc
  exact g b c' x y r' hc' (e.symm.trans hd)

theorem CdrReach.shrink {s s' : HSt} {a b : Addr} (k : Shrink s s') (r : CdrReach s' a b) :
    CdrReach s a b := by
  induction r with
  | refl => exact .refl
  | step _ hc hd ih =>
    obtain ⟨c', hc', e, _⟩ := k.mem _ _ hc
    exact .step ih hc' (e.symm.trans hd)

theorem Fresh.shrink {n : Nat} {s s' : HSt} {a : Addr} (g : Fresh n s a) (k : Shrink s s') :
    Fresh n s' a := by
  intro b c x y r hc hd
  obtain ⟨c', hc', e, _⟩ := k.mem _ _ hc
  exact g b c' x y (r.shrink k) hc' (e.symm.trans hd)

theorem wp_lastPair {Q : Addr → HSt → Prop} {s : HSt} {T : Addr → Nat} (h : Inv s T) {a0 : Addr}
    (k : ∀ p c x y cy, CdrReach s a0 p → Live s p → s.mem p = some c → c.data = .pair x y → Live s y →
      s.mem y = some cy → cy.data.isPair = false → Q p s) :
    ∀ (n : Nat) {a : Addr}, CdrReach s a0 a → Live s a → wp (lastPair n a) Q s := by
  intro n
  induction n with
  | zero => intro a _ _; exact wp_oof
  | succ n ih =>
    intro a r l
    refine wp_bind (wp_pairOf l fun c x y hc hd => ?_)
    have ly := h.childCdr l (by simp) hc hd
    refine wp_bind (wp_dataOf ly fun cy hcy => ?_)
    refine wp_ite (fun _ => ih (.step r hc hd) ly) (fun hp => ?_)
    exact wp_pure (k a c x y cy r l hc hd ly hcy (by simpa using hp))

/-- Overwrite the content of an open cell. -/
theorem wp_setData {Q : Unit → HSt → Prop} {O : List Addr} {s : HSt} {T : Addr → Nat} {a : Addr} {d : Data}
    {c : Cell} (h : InvO O s T) (ho : a ∈ O) (hc : s.mem a = some c)
    (k : ∀ s', InvO O s' T → s'.mem a = some { c with data := d } →
      (∀ b, b ≠ a → s'.mem b = s.mem b) → s'.zombies = s.zombies → s'.next = s.next →
      s'.globals = s.globals → Q () s') : wp (setData a d) Q s := by
  refine wp_ok (modify_ok _ hc) (k _ (h.write ho hc rfl rfl) (upd_self _ _ _) ?_ rfl rfl rfl)
  intro b hb
  simp only [upd_ne hb]

/-- CONC, with what it writes. -/
theorem wp_conc' {Q : Addr → HSt → Prop} {s : HSt} {T : Addr → Nat} {n : Nat} {x y : Addr} (h : Inv s T)
    (hd : ∀ b, one x b + one y b ≤ T b)
    (k : ∀ r s' T', Inv s' T' → (∀ b, T' b + one x b + one y b = T b + one r b) →
      (∀ m, Fresh m s x → Fr m s s' ∧ (Fresh m s y → Fresh m s' r)) → Q r s') :
    wp (concH n x y) Q s := by
  have lx : Live s x := h.live (by tok)
  refine wp_bind (wp_dataOf lx fun c hc => ?_)
  refine wp_ite (fun _ => ?_) (fun _ => ?_)
  · refine wp_bind (wp_lastPair h ?_ n .refl lx)
    intro p cp u v cv rp lp hp hpd lv hv hvp
    refine wp_bind (wp_pairOf lp fun c' u' v' hc' hd' => ?_)
    rw [hp] at hc'; cases hc'
    rw [hpd] at hd'; cases hd'
    have hne : p ≠ v := by
      rintro rfl
      rw [hp] at hv; cases hv
      rw [hpd] at hvp; cases hvp
    have ho := h.open_ (T' := fun b => T b + occ cp.data b) lp (by simp) hp (fun _ => rfl)
    obtain ⟨s1, T1, r1, i1, e1, k1, f1⟩ := X_atom_spec ho
      (by intro b; have : occ cp.data b = one u b + one v b := by rw [hpd, occ_pair]
          omega)
      (by simpa using fun e => hne e.symm) hv hvp
    refine wp_bind (wp_ok r1 ?_)
    have hp1 : s1.mem p = some cp := by rw [f1 p hne]; exact hp
    refine wp_bind (wp_pairOf ⟨⟨cp, hp1⟩, k1.zombies ▸ lp.2⟩ fun c' u' v' hc' hd' => ?_)
    rw [hp1] at hc'; cases hc'
    rw [hpd] at hd'; cases hd'
    refine wp_bind (wp_setData i1 (by simp) hp1 ?_)
    intro s2 i2 hp2 hother hz2 hn2 _
    -- cells of the new state
    have old : ∀ b c, b ≠ p → s2.mem b = some c → ∃ c', s.mem b = some c' ∧ c.data = c'.data := by
      intro b c hb hc
      rw [hother b hb] at hc
      obtain ⟨c', hc', e, _⟩ := k1.mem b c hc
      exact ⟨c', hc', e⟩
    refine wp_pure (k x s2 (fun b => T b - one y b) ?_ ?_ ?_)
    · refine i2.close (by rw [hz2, k1.zombies]; exact lp.2) (by simp) hp2 ?_ ?_
      · exact h.pos p cp hp (by simp)
      · intro b
        have := hd b
        have := e1 b
        have : occ cp.data b = one u b + one v b := by rw [hpd, occ_pair]
        simp only [occ_pair]
        omega
    · intro b; have := hd b; omega
    · intro m fx
      have hm := fx p cp u v rp hp hpd
      constructor
      · refine ⟨hz2.trans k1.zombies, by rw [hn2, k1.next]; exact Nat.le_refl _, ?_⟩
        intro a c ha hc
        exact old a c (by omega) hc
      · intro fy
        have hr : ∀ b, CdrReach s2 x b → CdrReach s x b ∨ CdrReach s y b := by
          intro b r
          induction r with
          | refl => exact Or.inl .refl
          | @step b c x' y' _ hc hd ih =>
            by_cases e : b = p
            · subst e
              rw [hp2] at hc
              cases hc
              cases hd
              exact Or.inr .refl
            · obtain ⟨c', hc', e'⟩ := old b c e hc
              rw [hd] at e'
              rcases ih with r | r
              · exact Or.inl (.step r hc' e'.symm)
              · exact Or.inr (.step r hc' e'.symm)
        intro b c x' y' r hc hd
        by_cases e : b = p
        · omega
        · obtain ⟨c', hc', e'⟩ := old b c e hc
          rw [hd] at e'
          rcases hr b r with r | r
          · exact fx b c' x' y' r hc' e'.symm
          · exact fy b c' x' y' r hc' e'.symm
  · refine wp_bind (wp_Xk h (by tok) ?_)
    intro s1 T1 h1 e1 k1
    exact wp_pure (k y s1 T1 h1 (by tok) fun m _ => ⟨k1.fr m, fun fy => fy.shrink k1⟩)

theorem wp_conc {Q : Addr → HSt → Prop} {s : HSt} {T : Addr → Nat} {n : Nat} {x y : Addr} (h : Inv s T)
    (hd : ∀ b, one x b + one y b ≤ T b)
    (k : ∀ r s' T', Inv s' T' → (∀ b, T' b + one x b + one y b = T b + one r b) → Q r s') :
    wp (concH n x y) Q s := wp_conc' h hd fun r s' T' h' e _ => k r s' T' h' e

theorem wp_append {Q : Addr → HSt → Prop} {s : HSt} {T : Addr → Nat} {n : Nat} {x y : Addr} (h : Inv s T)
    (hd : ∀ b, one x b + one y b ≤ T b)
    (k : ∀ r s' T', Inv s' T' → (∀ b, T' b + one x b + one y b = T b + one r b) → Q r s') :
    wp (appendH n x y) Q s := by
  refine wp_bind (wp_nil h ?_)
  intro nl s1 T1 h1 e1 _
  refine wp_bind (wp_cons h1 (by tok) ?_)
  intro con s2 T2 h2 e2 _
  refine wp_conc h2 (by tok) ?_
  intro r s3 T3 h3 e3
  exact k r s3 T3 h3 (by tok)

end Heap
end Mnml
