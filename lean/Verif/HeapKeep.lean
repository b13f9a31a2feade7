import Verif.HeapWp

/-!
# What a computation does not change

Every function of the cell model leaves the atoms and the CARs of the cells that exist already as they are, and also
the CDR of a pair that contains a pair and is followed by a pair: `conc` changes the last CDR of a list, and
assignments change the value of a binding, whose CAR is a symbol.
-/

namespace Mnml
namespace Heap

/-- From `s` to `s'`, what is left of the cells below `N` has not changed, except for the CDR of pairs whose CAR is an
atom or whose CDR was one. -/
structure Keep (N : Nat) (s s' : HSt) : Prop where
  next : s.next ≤ s'.next
  mem : ∀ a, a < N → ∀ c', s'.mem a = some c' → ∃ c, s.mem a = some c ∧ c.data.isPair = c'.data.isPair ∧
    (c.data.isPair = false → c'.data = c.data) ∧
    ∀ x y, c.data = .pair x y → ∃ y', c'.data = .pair x y' ∧
      ((∃ cx, s'.mem x = some cx ∧ cx.data.isPair = true) → x < N →
        (∀ cy, s.mem y = some cy → cy.data.isPair = true) → y < N → y' = y)

variable {N : Nat}

theorem Keep.same {s s' : HSt} {a : Addr} {c c' : Cell} (hc : s.mem a = some c) (e : c'.data = c.data) :
    ∃ c, s.mem a = some c ∧ c.data.isPair = c'.data.isPair ∧ (c.data.isPair = false → c'.data = c.data) ∧
    ∀ x y, c.data = .pair x y → ∃ y', c'.data = .pair x y' ∧
      ((∃ cx, s'.mem x = some cx ∧ cx.data.isPair = true) → x < N →
        (∀ cy, s.mem y = some cy → cy.data.isPair = true) → y < N → y' = y) :=
  ⟨c, hc, by rw [e], fun _ => e, fun x y h => ⟨y, e.trans h, fun _ _ _ _ => rfl⟩⟩

theorem Keep.refl {s : HSt} : Keep N s s := ⟨Nat.le_refl _, fun _ _ _ h => Keep.same h rfl⟩

theorem Keep.trans {s s1 s2 : HSt} (h : Keep N s s1) (h' : Keep N s1 s2) : Keep N s s2 := by
  refine ⟨Nat.le_trans h.next h'.next, ?_⟩
  intro a ha c2 hc2
  obtain ⟨c1, hc1, p1, n1, q1⟩ := h'.mem a ha c2 hc2
  obtain ⟨c, hc, p, n, q⟩ := h.mem a ha c1 hc1
  refine ⟨c, hc, p.trans p1, fun e => (n1 (p.symm.trans e)).trans (n e), ?_⟩
  intro x y e
  obtain ⟨y1, e1, w⟩ := q x y e
  obtain ⟨y2, e2, w1⟩ := q1 x y1 e1
  refine ⟨y2, e2, ?_⟩
  rintro ⟨cx, hcx, hpx⟩ hx wy hy
  obtain ⟨cx1, hcx1, px1, _, _⟩ := h'.mem x hx cx hcx
  have := w ⟨cx1, hcx1, px1.trans hpx⟩ hx wy hy
  subst this
  refine w1 ⟨cx, hcx, hpx⟩ hx ?_ hy
  intro cy1 hcy1
  obtain ⟨cy, hcy, py, _, _⟩ := h.mem y1 hy cy1 hcy1
  exact py.symm.trans (wy cy hcy)

/-- The computation changes no more than that. -/
def Evo {α : Type} (N : Nat) (m : HM α) : Prop := ∀ s a s', N ≤ s.next → m s = .ok (a, s') → Keep N s s'

theorem HM.ok_inv {α β : Type} {m : HM α} {f : α → HM β} {s : HSt} {b : β} {s' : HSt} (e : (m >>= f) s = .ok (b, s')) :
    ∃ a s1, m s = .ok (a, s1) ∧ f a s1 = .ok (b, s') := by
  have e1 : (m s >>= fun p => f p.1 p.2) = .ok (b, s') := e
  cases hm : m s with
  | ok p => rw [hm] at e1; exact ⟨p.1, p.2, rfl, e1⟩
  | _ => rw [hm] at e1; cases e1

theorem cell_inv {a : Addr} {s s' : HSt} {c : Cell} (e : cell a s = .ok (c, s')) : s' = s ∧ s.mem a = some c := by
  unfold cell at e
  split at e
  · rename_i h; cases e; exact ⟨rfl, h⟩
  · cases e

theorem dataOf_inv {a : Addr} {s s' : HSt} {d : Data} (e : dataOf a s = .ok (d, s')) :
    s' = s ∧ ∃ c, s.mem a = some c ∧ d = c.data := by
  unfold dataOf at e
  replace e := HM.ok_inv e; obtain ⟨c, s1, e1, e⟩ := e
  obtain ⟨rfl, hc⟩ := cell_inv e1
  cases e
  exact ⟨rfl, c, hc, rfl⟩

theorem pairOf_inv {a : Addr} {s s' : HSt} {r : Addr × Addr} (e : pairOf a s = .ok (r, s')) :
    s' = s ∧ ∃ c, s.mem a = some c ∧ c.data = .pair r.1 r.2 := by
  unfold pairOf at e
  replace e := HM.ok_inv e; obtain ⟨d, s1, e1, e⟩ := e
  obtain ⟨rfl, c, hc, rfl⟩ := dataOf_inv e1
  cases hd : c.data with
  | pair x y => rw [hd] at e; cases e; exact ⟨rfl, c, hc, hd⟩
  | _ => rw [hd] at e; cases e

theorem modify_inv {a : Addr} {f : Cell → Cell} {s s' : HSt} {u : Unit} (e : modify a f s = .ok (u, s')) :
    ∃ c, s.mem a = some c ∧ s' = { s with mem := upd s.mem a (some (f c)) } := by
  unfold modify at e
  split at e
  · rename_i c h; cases e; exact ⟨c, h, rfl⟩
  · cases e

theorem setData_inv {a : Addr} {d : Data} {s s' : HSt} {u : Unit} (e : setData a d s = .ok (u, s')) :
    ∃ c, s.mem a = some c ∧ s' = { s with mem := upd s.mem a (some { c with data := d }) } := modify_inv e

/-- No content changes and nothing is allocated. -/
def Dat (s s' : HSt) : Prop := s'.next = s.next ∧ ∀ a c', s'.mem a = some c' → ∃ c, s.mem a = some c ∧ c'.data = c.data

theorem Dat.refl {s : HSt} : Dat s s := ⟨rfl, fun _ c h => ⟨c, h, rfl⟩⟩
theorem Dat.trans {s s1 s2 : HSt} (h : Dat s s1) (h' : Dat s1 s2) : Dat s s2 := by
  refine ⟨h'.1.trans h.1, fun a c2 hc2 => ?_⟩
  obtain ⟨c1, hc1, e1⟩ := h'.2 a c2 hc2
  obtain ⟨c, hc, e⟩ := h.2 a c1 hc1
  exact ⟨c, hc, e1.trans e⟩
theorem Dat.keep {s s' : HSt} (h : Dat s s') (N : Nat) : Keep N s s' := by
  refine ⟨Nat.le_of_eq h.1.symm, fun a _ c' hc' => ?_⟩
  obtain ⟨c, hc, e⟩ := h.2 a c' hc'
  exact Keep.same hc e

theorem dat_modify {a : Addr} {f : Cell → Cell} {s s' : HSt} {u : Unit} (hf : ∀ c, (f c).data = c.data)
    (e : modify a f s = .ok (u, s')) : Dat s s' := by
  obtain ⟨c, hc, rfl⟩ := modify_inv e
  refine ⟨rfl, fun b c' hc' => ?_⟩
  by_cases eb : b = a
  · subst eb
    change upd _ _ _ _ = some _ at hc'; rw [upd_self _ _ _] at hc'
    cases hc'
    exact ⟨c, hc, hf c⟩
  · change upd _ _ _ _ = some _ at hc'; rw [upd_ne eb] at hc'
    exact ⟨c', hc', rfl⟩

theorem dat_up {a : Addr} {s s' : HSt} {u : Unit} (e : up a s = .ok (u, s')) : Dat s s' := dat_modify (a := a) (f := fun c => { c with refs := c.refs + 1 }) (fun _ => rfl) e

theorem dat_free {a : Addr} {s s' : HSt} {u : Unit} (e : free a s = .ok (u, s')) : Dat s s' := by
  unfold free at e
  split at e
  · cases e
    refine ⟨rfl, fun b c' hc' => ?_⟩
    by_cases eb : b = a
    · subst eb
      change upd _ _ _ _ = some _ at hc'; rw [upd_self _ _ _] at hc'
      cases hc'
    · change upd _ _ _ _ = some _ at hc'; rw [upd_ne eb] at hc'
      exact ⟨c', hc', rfl⟩
  · cases e

theorem dat_release : ∀ {n : Nat} {a : Addr} {s s' : HSt} {u : Unit}, release n a s = .ok (u, s') → Dat s s' := by
  intro n
  induction n with
  | zero => intro a s s' u e; cases e
  | succ n ih =>
    intro a s s' u e
    unfold release at e
    replace e := HM.ok_inv e; obtain ⟨c, s1, e1, e⟩ := e
    obtain ⟨rfl, hc⟩ := cell_inv e1
    split at e
    · cases e
    · replace e := HM.ok_inv e; obtain ⟨_, s2, e2, e⟩ := e
      have k2 : Dat s1 s2 := dat_modify (f := fun c => { c with refs := c.refs - 1 }) (fun _ => rfl) e2
      split at e
      · cases hd : c.data with
        | pair x y =>
          rw [hd] at e
          replace e := HM.ok_inv e; obtain ⟨_, s3, e3, e⟩ := e
          replace e := HM.ok_inv e; obtain ⟨_, s4, e4, e⟩ := e
          exact ((k2.trans (ih e3)).trans (ih e4)).trans (dat_free e)
        | _ => rw [hd] at e; exact k2.trans (dat_free e)
      · cases e
        exact k2

theorem dat_X {a : Addr} {s s' : HSt} {u : Unit} (e : X a s = .ok (u, s')) : Dat s s' := dat_release e

theorem Evo.pure {α : Type} {a : α} : Evo N (Pure.pure a : HM α) := by intro s b s' _ e; cases e; exact Keep.refl

theorem Evo.bind {α β : Type} {m : HM α} {f : α → HM β} (h : Evo N m) (h' : ∀ a, Evo N (f a)) : Evo N (m >>= f) := by
  intro s b s' hN e
  replace e := HM.ok_inv e; obtain ⟨a, s1, e1, e⟩ := e
  have k := h s a s1 hN e1
  exact k.trans (h' a s1 b s' (Nat.le_trans hN k.next) e)

theorem evo_oof {α : Type} : Evo N (HM.oof : HM α) := by intro s a s' _ e; cases e
theorem evo_unsupported {α : Type} : Evo N (HM.unsupported : HM α) := by intro s a s' _ e; cases e
theorem evo_ub {α : Type} {u : UB} : Evo N (HM.ub u : HM α) := by intro s a s' _ e; cases e
theorem evo_lift {α : Type} {r : Res α} : Evo N (HM.lift r) := by
  intro s a s' _ e
  cases r <;> cases e
  exact Keep.refl
theorem evo_cell {a : Addr} : Evo N (cell a) := by
  intro s b s' _ e
  obtain ⟨rfl, _⟩ := cell_inv e
  exact Keep.refl
theorem evo_free {a : Addr} : Evo N (free a) := fun _ _ _ _ e => (dat_free e).keep N
theorem evo_up {a : Addr} : Evo N (up a) := fun _ _ _ _ e => (dat_up e).keep N
theorem evo_setTail {a : Addr} : Evo N (setTail a) := fun _ _ _ _ e =>
  (dat_modify (a := a) (f := fun c => { c with tc := true }) (fun _ => rfl) e).keep N
theorem evo_setCache {a d : Addr} : Evo N (setCache a d) := fun _ _ _ _ e =>
  (dat_modify (a := a) (f := fun c => { c with cache := some d }) (fun _ => rfl) e).keep N
theorem evo_X {a : Addr} : Evo N (X a) := fun _ _ _ _ e => (dat_X e).keep N
theorem evo_alloc {d : Data} : Evo N (alloc d) := by
  intro s b s' hN e
  cases e
  refine ⟨Nat.le_succ _, fun a ha c' hc' => ?_⟩
  have ne : a ≠ s.next := fun h => by subst h; exact absurd ha (Nat.not_lt.2 hN)
  change upd _ _ _ _ = some _ at hc'; rw [upd_ne ne] at hc'
  exact Keep.same hc' rfl
theorem evo_loneH {n : Nat} {f a : Addr} : Evo N (loneH n f a) := by
  intro s b s' _ e
  unfold loneH at e
  split at e <;> cases e
  exact Keep.refl
theorem evo_guard {b : Bool} : Evo N (guard b) := by
  intro s a s' _ e
  unfold guard at e
  split at e <;> cases e
  exact Keep.refl
theorem keep_mem {s s' : HSt} (hn : s'.next = s.next) (hm : s'.mem = s.mem) : Keep N s s' :=
  ⟨Nat.le_of_eq hn.symm, fun _ _ _ h => Keep.same (hm ▸ h) rfl⟩
theorem evo_leak {a : Addr} : Evo N (leak a) := by intro s b s' _ e; cases e; exact keep_mem rfl rfl
theorem evo_abandon {a : Addr} : Evo N (abandon a) := by intro s b s' _ e; cases e; exact keep_mem rfl rfl
theorem evo_push {k : Sym} {a : Addr} : Evo N (pushGlobal k a) := by intro s b s' _ e; cases e; exact keep_mem rfl rfl
theorem evo_global {k : Sym} : Evo N (globalOf k) := by intro s b s' _ e; cases e; exact keep_mem rfl rfl
theorem evo_emit {l : List UInt8} : Evo N (emitH l) := by intro s b s' _ e; cases e; exact keep_mem rfl rfl
theorem evo_fresh {u : UB} {a : Addr} : Evo N (fresh u a) := by
  intro s b s' _ e
  unfold fresh at e
  split at e <;> cases e
  exact Keep.refl

/-- The leaves; extended below. -/
syntax "evol" : tactic
macro_rules | `(tactic| evol) => `(tactic| with_reducible first
  | assumption
  | exact Evo.pure | exact evo_oof | exact evo_unsupported | exact evo_ub | exact evo_lift
  | exact evo_cell | exact evo_free | exact evo_up | exact evo_setTail | exact evo_setCache | exact evo_X
  | exact evo_alloc | exact evo_loneH | exact evo_guard
  | exact evo_leak | exact evo_abandon | exact evo_push | exact evo_global | exact evo_emit | exact evo_fresh)

/-- Extended by the copies of environments. -/
syntax "evob" : tactic
macro_rules | `(tactic| evob) => `(tactic| with_reducible refine Evo.bind ?_ (fun _ => ?_))

/-- The structural steps. -/
macro "evo" : tactic => `(tactic| repeat' first
  | evol
  | evob
  | split)

theorem evo_dataOf {a : Addr} : Evo N (dataOf a) := by unfold dataOf; evo
macro_rules | `(tactic| evol) => `(tactic| with_reducible exact evo_dataOf)
theorem evo_pairOf {a : Addr} : Evo N (pairOf a) := by unfold pairOf; evo
macro_rules | `(tactic| evol) => `(tactic| with_reducible exact evo_pairOf)
theorem evo_Xs {l : List Addr} : Evo N (Xs l) := by
  induction l with
  | nil => unfold Xs; evo
  | cons a l ih => unfold Xs; exact evo_X.bind fun _ => ih
macro_rules | `(tactic| evol) => `(tactic| with_reducible exact evo_Xs)
theorem evo_mkNil  : Evo N (mkNil ) := by unfold mkNil; evo
macro_rules | `(tactic| evol) => `(tactic| with_reducible exact evo_mkNil)
theorem evo_mkTrue  : Evo N (mkTrue ) := by unfold mkTrue; evo
macro_rules | `(tactic| evol) => `(tactic| with_reducible exact evo_mkTrue)
theorem evo_mkNum {i : Int} : Evo N (mkNum i) := by unfold mkNum; evo
macro_rules | `(tactic| evol) => `(tactic| with_reducible exact evo_mkNum)
theorem evo_mkChr {i : Int} : Evo N (mkChr i) := by unfold mkChr; evo
macro_rules | `(tactic| evol) => `(tactic| with_reducible exact evo_mkChr)
theorem evo_mkSym {k : Sym} : Evo N (mkSym k) := by unfold mkSym; evo
macro_rules | `(tactic| evol) => `(tactic| with_reducible exact evo_mkSym)
theorem evo_mkBool {b : Bool} : Evo N (mkBool b) := by unfold mkBool; evo
macro_rules | `(tactic| evol) => `(tactic| with_reducible exact evo_mkBool)
theorem evo_consH {x : Addr} {y : Addr} : Evo N (consH x y) := by unfold consH; evo
macro_rules | `(tactic| evol) => `(tactic| with_reducible exact evo_consH)
theorem evo_carH {a : Addr} : Evo N (carH a) := by unfold carH; evo
macro_rules | `(tactic| evol) => `(tactic| with_reducible exact evo_carH)
theorem evo_cdrH {a : Addr} : Evo N (cdrH a) := by unfold cdrH; evo
macro_rules | `(tactic| evol) => `(tactic| with_reducible exact evo_cdrH)
theorem evo_lastPair  (n : Nat) : ∀ (a : Addr), Evo N (lastPair  n a) := by
  induction n with
  | zero => intro a; unfold lastPair; evo
  | succ n ih => intro a; unfold lastPair; evo <;> exact ih _
macro_rules | `(tactic| evol) => `(tactic| with_reducible exact evo_lastPair _ _)
theorem lastPair_ok {s s' : HSt} {p : Addr} : ∀ {n : Nat} {a : Addr}, lastPair n a s = .ok (p, s') →
    s' = s ∧ ∃ c x y cy, s.mem p = some c ∧ c.data = .pair x y ∧ s.mem y = some cy ∧ cy.data.isPair = false := by
  intro n
  induction n with
  | zero => intro a e; cases e
  | succ n ih =>
    intro a e
    unfold lastPair at e
    replace e := HM.ok_inv e; obtain ⟨⟨x, y⟩, s1, e1, e⟩ := e
    obtain ⟨rfl, c, hc, hd⟩ := pairOf_inv e1
    replace e := HM.ok_inv e; obtain ⟨d, s2, e2, e⟩ := e
    obtain ⟨rfl, cy, hcy, rfl⟩ := dataOf_inv e2
    split at e
    · exact ih e
    · rename_i hn
      cases e
      exact ⟨rfl, c, x, y, cy, hc, hd, hcy, by simpa using hn⟩

theorem evo_concH {n : Nat} {x y : Addr} : Evo N (concH n x y) := by
  intro s r s' hN e
  unfold concH at e
  replace e := HM.ok_inv e; obtain ⟨d, s1, e1, e⟩ := e
  obtain ⟨rfl, c, hc, rfl⟩ := dataOf_inv e1
  split at e
  · replace e := HM.ok_inv e; obtain ⟨p, s2, e2, e⟩ := e
    obtain ⟨rfl, cp, x1, y1, cy, hcp, hdp, hcy, hny⟩ := lastPair_ok e2
    replace e := HM.ok_inv e; obtain ⟨⟨x2, y2⟩, s3, e3, e⟩ := e
    obtain ⟨rfl, cp', hcp', hdp'⟩ := pairOf_inv e3
    rw [hcp] at hcp'; cases hcp'
    rw [hdp] at hdp'; cases hdp'
    replace e := HM.ok_inv e; obtain ⟨_, s4, e4, e⟩ := e
    have k4 := dat_X e4
    replace e := HM.ok_inv e; obtain ⟨⟨x3, y3⟩, s5, e5, e⟩ := e
    obtain ⟨rfl, c5, hc5, hd5⟩ := pairOf_inv e5
    replace e := HM.ok_inv e; obtain ⟨_, s6, e6, e⟩ := e
    obtain ⟨c6, hc6, rfl⟩ := setData_inv e6
    cases e
    rw [hc5] at hc6; cases hc6
    obtain ⟨c0, hc0, e0⟩ := k4.2 _ _ hc5
    rw [hcp] at hc0; cases hc0
    rw [hd5, hdp] at e0; cases e0
    refine ⟨Nat.le_of_eq k4.1.symm, ?_⟩
    intro a ha c' hc'
    by_cases ea : a = p
    · subst ea
      change upd _ _ _ _ = some _ at hc'; rw [upd_self _ _ _] at hc'
      cases hc'
      refine ⟨cp, hcp, by rw [hdp]; rfl, fun q => (by rw [hdp] at q; cases q), ?_⟩
      intro u v q
      rw [hdp] at q; cases q
      refine ⟨y, rfl, ?_⟩
      intro _ _ w
      have := w cy hcy
      rw [hny] at this; cases this
    · change upd _ _ _ _ = some _ at hc'; rw [upd_ne ea] at hc'
      obtain ⟨c, hc, ed⟩ := k4.2 _ _ hc'
      exact Keep.same hc ed
  · replace e := HM.ok_inv e; obtain ⟨_, s4, e4, e⟩ := e
    cases e
    exact (dat_X e4).keep N
macro_rules | `(tactic| evol) => `(tactic| with_reducible exact evo_concH)
theorem evo_appendH {n : Nat} {x : Addr} {y : Addr} : Evo N (appendH n x y) := by unfold appendH; evo
macro_rules | `(tactic| evol) => `(tactic| with_reducible exact evo_appendH)
theorem evo_noFlag {a : Addr} : Evo N (noFlag a) := by unfold noFlag; evo
macro_rules | `(tactic| evol) => `(tactic| with_reducible exact evo_noFlag)
theorem evo_dupH  (n : Nat) : ∀ (a : Addr), Evo N (dupH  n a) := by
  induction n with
  | zero => intro a; unfold dupH; evo
  | succ n ih => intro a; unfold dupH; evo <;> exact ih _
macro_rules | `(tactic| evol) => `(tactic| with_reducible exact evo_dupH _ _)
theorem evo_compareH {a : Addr} {b : Addr} : Evo N (compareH a b) := by unfold compareH; evo
macro_rules | `(tactic| evol) => `(tactic| with_reducible exact evo_compareH)

/-! ### Copies of environments -/

/-- The pairs of a list of a new pair. -/
theorem fresh_cons {s s' : HSt} {x y r : Addr} (hN : N ≤ s.next) (g : Fresh N s y) (e : consH x y s = .ok (r, s')) :
    Fresh N s' r ∧ s'.next = s.next + 1 := by
  cases e
  refine ⟨?_, rfl⟩
  have key : ∀ b, CdrReach { s with mem := upd s.mem s.next (some ⟨1, false, none, .pair x y⟩), next := s.next + 1 } s.next b →
      b = s.next ∨ CdrReach s y b := by
    intro b hb
    induction hb with
    | refl => exact .inl rfl
    | @step b c u v _ hc hd ih =>
      by_cases eb : b = s.next
      · subst eb
        change upd _ _ _ _ = some _ at hc; rw [upd_self _ _ _] at hc
        cases hc; cases hd
        exact .inr .refl
      · change upd _ _ _ _ = some _ at hc; rw [upd_ne eb] at hc
        rcases ih with h | h
        · exact absurd h eb
        · exact .inr (.step h hc hd)
  intro b c u v hr hc hd
  by_cases eb : b = s.next
  · subst eb; exact hN
  · change upd _ _ _ _ = some _ at hc; rw [upd_ne eb] at hc
    rcases key b hr with h | h
    · exact absurd h eb
    · exact g b c u v h hc hd

theorem Fresh.dat {s s' : HSt} {a : Addr} (g : Fresh N s a) (k : Dat s s') : Fresh N s' a := by
  have key : ∀ b, CdrReach s' a b → CdrReach s a b := by
    intro b hb
    induction hb with
    | refl => exact .refl
    | step _ hc hd ih =>
      obtain ⟨c', hc', e⟩ := k.2 _ _ hc
      exact .step ih hc' (e.symm.trans hd)
  intro b c x y r hc hd
  obtain ⟨c', hc', e⟩ := k.2 _ _ hc
  exact g b c' x y (key b r) hc' (e.symm.trans hd)

theorem fresh_atom {s : HSt} {a : Addr} {c : Cell} (hc : s.mem a = some c) (hd : c.data.isPair = false) : Fresh N s a := by
  have key : ∀ b, CdrReach s a b → b = a := by
    intro b hb
    induction hb with
    | refl => rfl
    | step _ hc' hd' ih =>
      subst ih
      rw [hc] at hc'; cases hc'
      rw [hd'] at hd; cases hd
  intro b c' x y r hc' hd'
  have := key b r
  subst this
  rw [hc] at hc'; cases hc'
  rw [hd'] at hd; cases hd

theorem dup_ok : ∀ {n : Nat} {a r : Addr} {s s' : HSt}, N ≤ s.next → dupH n a s = .ok (r, s') → Fresh N s' r := by
  intro n
  induction n with
  | zero => intro a r s s' _ e; cases e
  | succ n ih =>
    intro a r s s' hN e
    unfold dupH at e
    replace e := HM.ok_inv e; obtain ⟨d, s1, e1, e⟩ := e
    obtain ⟨rfl, c, hc, rfl⟩ := dataOf_inv e1
    have atom : c.data.isPair = false → (up a >>= fun _ => pure a : HM Addr) s1 = .ok (r, s') → Fresh N s' r := by
      intro hn e
      replace e := HM.ok_inv e; obtain ⟨_, s2, e2, e⟩ := e
      cases e
      exact (fresh_atom hc hn).dat (dat_up e2)
    cases hd : c.data with
    | pair x y =>
      rw [hd] at e
      replace e := HM.ok_inv e; obtain ⟨_, s2, e2, e⟩ := e
      have k2 : Keep N s1 s2 := evo_noFlag s1 _ s2 hN e2
      replace e := HM.ok_inv e; obtain ⟨rem, s3, e3, e⟩ := e
      have k3 : Keep N s2 s3 := evo_dupH n y s2 _ s3 (Nat.le_trans hN k2.next) e3
      have g3 := ih (Nat.le_trans hN k2.next) e3
      replace e := HM.ok_inv e; obtain ⟨_, s4, e4, e⟩ := e
      have k4 := dat_up e4
      refine (fresh_cons ?_ (g3.dat k4) e).1
      rw [k4.1]
      exact Nat.le_trans hN (Nat.le_trans k2.next k3.next)
    | _ => rw [hd] at e; exact atom (by rw [hd]; rfl) e

/-- The write of a cell of a new list. -/
theorem fresh_set {s : HSt} {a x y : Addr} {c : Cell} (ha : N ≤ a) (g : Fresh N s y) :
    Fresh N { s with mem := upd s.mem a (some { c with data := .pair x y }) } a := by
  have key : ∀ b, CdrReach { s with mem := upd s.mem a (some { c with data := .pair x y }) } a b →
      b = a ∨ CdrReach s y b := by
    intro b hb
    induction hb with
    | refl => exact .inl rfl
    | @step b c u v _ hc hd ih =>
      by_cases eb : b = a
      · subst eb
        change upd _ _ _ _ = some _ at hc; rw [upd_self _ _ _] at hc
        cases hc; cases hd
        exact .inr .refl
      · change upd _ _ _ _ = some _ at hc; rw [upd_ne eb] at hc
        rcases ih with h | h
        · exact absurd h eb
        · exact .inr (.step h hc hd)
  intro b c u v hr hc hd
  by_cases eb : b = a
  · subst eb; exact ha
  · change upd _ _ _ _ = some _ at hc; rw [upd_ne eb] at hc
    rcases key b hr with h | h
    · exact absurd h eb
    · exact g b c u v h hc hd

theorem keep_set {s : HSt} {a : Addr} {c : Cell} (ha : N ≤ a) :
    Keep N s { s with mem := upd s.mem a (some c) } := by
  refine ⟨Nat.le_refl _, ?_⟩
  intro b hb c' hc'
  have ne : b ≠ a := fun e => by subst e; exact absurd hb (Nat.not_lt.2 ha)
  change upd _ _ _ _ = some _ at hc'; rw [upd_ne ne] at hc'
  exact Keep.same hc' rfl

theorem compareH_ok {a b : Addr} {s s' : HSt} {o : Ordering} (e : compareH a b s = .ok (o, s')) : s' = s := by
  unfold compareH at e
  replace e := HM.ok_inv e; obtain ⟨d, s1, e1, e⟩ := e
  obtain ⟨rfl, _, _, _⟩ := dataOf_inv e1
  replace e := HM.ok_inv e; obtain ⟨d', s2, e2, e⟩ := e
  obtain ⟨rfl, _, _, _⟩ := dataOf_inv e2
  cases h : d.tag with
  | none => rw [h] at e; cases e
  | some t =>
    cases h' : d'.tag with
    | none => rw [h, h'] at e; cases e
    | some t' => rw [h, h'] at e; cases e; rfl

theorem sss_ok : ∀ {n : Nat} {root kvp r : Addr} {s s' : HSt}, N ≤ s.next → Fresh N s root →
    sssH n root kvp s = .ok (r, s') → Keep N s s' ∧ Fresh N s' r := by
  intro n
  induction n with
  | zero => intro root kvp r s s' _ _ e; cases e
  | succ n ih =>
    intro root kvp r s s' hN g e
    unfold sssH at e
    replace e := HM.ok_inv e; obtain ⟨d, s1, e1, e⟩ := e
    obtain ⟨rfl, c, hc, rfl⟩ := dataOf_inv e1
    split at e
    · exact ⟨evo_consH s1 _ s' hN e, (fresh_cons hN g e).1⟩
    · replace e := HM.ok_inv e; obtain ⟨⟨car, cdr⟩, s2, e2, e⟩ := e
      obtain ⟨rfl, c2, hc2, hd2⟩ := pairOf_inv e2
      rw [hc] at hc2; cases hc2
      have hroot : N ≤ root := g root c car cdr .refl hc hd2
      have gcdr : Fresh N s2 cdr := by
        intro b cb x y hr hb hdb
        refine g b cb x y ?_ hb hdb
        clear hb hdb
        induction hr with
        | refl => exact .step .refl hc hd2
        | step _ hc' hd' ih => exact .step ih hc' hd'
      replace e := HM.ok_inv e; obtain ⟨⟨k, _⟩, s3, e3, e⟩ := e
      obtain ⟨rfl, _, _, _⟩ := pairOf_inv e3
      replace e := HM.ok_inv e; obtain ⟨⟨k', _⟩, s4, e4, e⟩ := e
      obtain ⟨rfl, _, _, _⟩ := pairOf_inv e4
      replace e := HM.ok_inv e; obtain ⟨o, s5, e5, e⟩ := e
      have := compareH_ok e5
      subst this
      cases o with
      | lt =>
        replace e := HM.ok_inv e; obtain ⟨q, s6, e6, e⟩ := e
        obtain ⟨k6, g6⟩ := ih hN gcdr e6
        replace e := HM.ok_inv e; obtain ⟨⟨x, _⟩, s7, e7, e⟩ := e
        obtain ⟨rfl, _, _, _⟩ := pairOf_inv e7
        replace e := HM.ok_inv e; obtain ⟨_, s8, e8, e⟩ := e
        obtain ⟨c8, hc8, rfl⟩ := setData_inv e8
        cases e
        exact ⟨k6.trans (keep_set hroot), fresh_set hroot g6⟩
      | eq =>
        replace e := HM.ok_inv e; obtain ⟨_, s8, e8, e⟩ := e
        obtain ⟨c8, hc8, rfl⟩ := setData_inv e8
        replace e := HM.ok_inv e; obtain ⟨_, s9, e9, e⟩ := e
        cases e
        have k9 := dat_X e9
        exact ⟨(keep_set hroot).trans (k9.keep N), (fresh_set hroot gcdr).dat k9⟩
      | gt => exact ⟨evo_consH s5 _ s' hN e, (fresh_cons hN g e).1⟩

theorem mergeLoop_ok : ∀ {n : Nat} {root a r : Addr} {s s' : HSt}, N ≤ s.next → Fresh N s root →
    mergeLoop n root a s = .ok (r, s') → Keep N s s' := by
  intro n
  induction n with
  | zero => intro root a r s s' _ _ e; cases e
  | succ n ih =>
    intro root a r s s' hN g e
    unfold mergeLoop at e
    replace e := HM.ok_inv e; obtain ⟨⟨kvp, _⟩, s1, e1, e⟩ := e
    obtain ⟨rfl, _, _, _⟩ := pairOf_inv e1
    replace e := HM.ok_inv e; obtain ⟨_, s2, e2, e⟩ := e
    have k2 := dat_up e2
    replace e := HM.ok_inv e; obtain ⟨root', s3, e3, e⟩ := e
    obtain ⟨k3, g3⟩ := sss_ok (by rw [k2.1]; exact hN) (g.dat k2) e3
    replace e := HM.ok_inv e; obtain ⟨⟨_, y⟩, s4, e4, e⟩ := e
    obtain ⟨rfl, _, _, _⟩ := pairOf_inv e4
    replace e := HM.ok_inv e; obtain ⟨d, s5, e5, e⟩ := e
    obtain ⟨rfl, _, _, _⟩ := dataOf_inv e5
    have k := (k2.keep N).trans k3
    split at e
    · exact k.trans (ih (Nat.le_trans hN k.next) g3 e)
    · cases e
      exact k

/-- A copy of an environment is extended. -/
theorem Evo.dupMerge {α : Type} {n m : Nat} {c e : Addr} {F : Addr → HM α} (h : ∀ r, Evo N (F r)) :
    Evo N (dupH n c >>= fun d0 => mergeH m d0 e >>= F) := by
  intro s a s' hN e0
  replace e0 := HM.ok_inv e0; obtain ⟨d0, s1, e1, e0⟩ := e0
  have k1 := evo_dupH n c s _ s1 hN e1
  have g1 := dup_ok hN e1
  replace e0 := HM.ok_inv e0; obtain ⟨r, s2, e2, e0⟩ := e0
  have n1 := Nat.le_trans hN k1.next
  have k2 : Keep N s1 s2 := by
    unfold mergeH at e2
    replace e2 := HM.ok_inv e2; obtain ⟨d, s3, e3, e2⟩ := e2
    obtain ⟨rfl, _, _, _⟩ := dataOf_inv e3
    split at e2
    · cases e2; exact Keep.refl
    · exact mergeLoop_ok n1 g1 e2
  exact (k1.trans k2).trans (h r s2 a s' (Nat.le_trans n1 k2.next) e0)

macro_rules | `(tactic| evob) => `(tactic| with_reducible refine Evo.dupMerge (fun _ => ?_))

theorem evo_equH  (n : Nat) : ∀ (a : Addr) (b : Addr), Evo N (equH  n a b) := by
  induction n with
  | zero => intro a b; unfold equH; evo
  | succ n ih => intro a b; unfold equH; evo <;> exact ih _ _
macro_rules | `(tactic| evol) => `(tactic| with_reducible exact evo_equH _ _ _)
theorem evo_neqH  (n : Nat) : ∀ (a : Addr) (b : Addr), Evo N (neqH  n a b) := by
  induction n with
  | zero => intro a b; unfold neqH; evo
  | succ n ih => intro a b; unfold neqH; evo <;> exact ih _ _
macro_rules | `(tactic| evol) => `(tactic| with_reducible exact evo_neqH _ _ _)
theorem evo_matchH  (n : Nat) : ∀ (a : Addr) (b : Addr), Evo N (matchH  n a b) := by
  induction n with
  | zero => intro a b; unfold matchH; evo
  | succ n ih => intro a b; unfold matchH; evo <;> exact ih _ _
macro_rules | `(tactic| evol) => `(tactic| with_reducible exact evo_matchH _ _ _)
theorem evo_lenH  (n : Nat) : ∀ (a : Addr), Evo N (lenH  n a) := by
  induction n with
  | zero => intro a; unfold lenH; evo
  | succ n ih => intro a; unfold lenH; evo <;> exact ih _
macro_rules | `(tactic| evol) => `(tactic| with_reducible exact evo_lenH _ _)
theorem evo_isStringH  (n : Nat) : ∀ (a : Addr), Evo N (isStringH  n a) := by
  induction n with
  | zero => intro a; unfold isStringH; evo
  | succ n ih => intro a; unfold isStringH; evo <;> exact ih _
macro_rules | `(tactic| evol) => `(tactic| with_reducible exact evo_isStringH _ _)
theorem evo_cstringH  (n : Nat) : ∀ (a : Addr) (i : Nat) (j : Nat), Evo N (cstringH  n a i j) := by
  induction n with
  | zero => intro a i j; unfold cstringH; evo
  | succ n ih => intro a i j; unfold cstringH; evo <;> exact ih _ _ _
macro_rules | `(tactic| evol) => `(tactic| with_reducible exact evo_cstringH _ _ _ _)
theorem evo_escapesH  (n : Nat) : ∀ (a : Addr) (b : Bool) (r : Addr), Evo N (escapesH  n a b r) := by
  induction n with
  | zero => intro a b r; unfold escapesH; evo
  | succ n ih => intro a b r; unfold escapesH; evo <;> exact ih _ _ _
macro_rules | `(tactic| evol) => `(tactic| with_reducible exact evo_escapesH _ _ _ _)
theorem evo_charsH {l : List Int} : Evo N (charsH l) := by
  induction l with
  | nil => unfold charsH; evo
  | cons a l ih => unfold charsH; evo
macro_rules | `(tactic| evol) => `(tactic| with_reducible exact evo_charsH)
theorem evo_makeStringH {n : Nat} {l : List UInt8} : Evo N (makeStringH n l) := by unfold makeStringH; evo
macro_rules | `(tactic| evol) => `(tactic| with_reducible exact evo_makeStringH)
theorem evo_mayApplyH  (n : Nat) : ∀ (a : Addr) (b : Addr), Evo N (mayApplyH  n a b) := by
  induction n with
  | zero => intro a b; unfold mayApplyH; evo
  | succ n ih => intro a b; unfold mayApplyH; evo <;> exact ih _ _
macro_rules | `(tactic| evol) => `(tactic| with_reducible exact evo_mayApplyH _ _ _)
theorem evo_bindH  (n : Nat) : ∀ (a : Addr) (b : Addr) (c : Addr), Evo N (bindH  n a b c) := by
  induction n with
  | zero => intro a b c; unfold bindH; evo
  | succ n ih => intro a b c; unfold bindH; evo <;> exact ih _ _ _
macro_rules | `(tactic| evol) => `(tactic| with_reducible exact evo_bindH _ _ _ _)
theorem evo_tails (n : Nat) : (∀ a, Evo N (tailsAssocH n a)) ∧ (∀ a, Evo N (tailsH n a)) := by
  induction n with
  | zero => exact ⟨fun a => by unfold tailsAssocH; evo, fun a => by unfold tailsH; evo⟩
  | succ n ih =>
    refine ⟨fun a => ?_, fun a => ?_⟩
    · unfold tailsAssocH; evo <;> first | exact ih.1 _ | exact ih.2 _
    · unfold tailsH; evo <;> first | exact ih.1 _ | exact ih.2 _
theorem evo_tailsH {n : Nat} {a : Addr} : Evo N (tailsH n a) := (evo_tails n).2 a
macro_rules | `(tactic| evol) => `(tactic| with_reducible exact evo_tailsH)
theorem evo_markH {p : Bool} {a : Addr} : Evo N (markH p a) := by unfold markH; evo
macro_rules | `(tactic| evol) => `(tactic| with_reducible exact evo_markH)
theorem evo_markOneH {p : Bool} {n : Nat} {k : Sym} {a : Addr} {b : Addr} : Evo N (markOneH p n k a b) := by unfold markOneH; evo
macro_rules | `(tactic| evol) => `(tactic| with_reducible exact evo_markOneH)
theorem evo_markLoopH {p : Bool} (n : Nat) : ∀ (k : Sym) (a : Addr) (b : Addr), Evo N (markLoopH p n k a b) := by
  induction n with
  | zero => intro k a b; unfold markLoopH; evo
  | succ n ih => intro k a b; unfold markLoopH; evo <;> exact ih _ _ _
macro_rules | `(tactic| evol) => `(tactic| with_reducible exact evo_markLoopH _ _ _ _)
theorem evo_markTailCallsH {p : Bool} {n : Nat} {k : Sym} {a : Addr} {b : Addr} : Evo N (markTailCallsH p n k a b) := by unfold markTailCallsH; evo
macro_rules | `(tactic| evol) => `(tactic| with_reducible exact evo_markTailCallsH)
theorem evo_isFuncH {a : Addr} : Evo N (isFuncH a) := by unfold isFuncH; evo
macro_rules | `(tactic| evol) => `(tactic| with_reducible exact evo_isFuncH)
theorem evo_findH (n : Nat) : ∀ (a : Addr) (k : Sym), Evo N (findH n a k) := by
  induction n with
  | zero => intro a k; unfold findH; evo
  | succ n ih => intro a k; unfold findH; evo <;> exact ih _ _
macro_rules | `(tactic| evol) => `(tactic| with_reducible exact evo_findH _ _ _)
theorem evo_assocH {n : Nat} {a : Addr} {k : Sym} : Evo N (assocH n a k) := by unfold assocH; evo
macro_rules | `(tactic| evol) => `(tactic| with_reducible exact evo_assocH)
theorem evo_treeGetH {k : Sym} : Evo N (treeGetH k) := by unfold treeGetH; evo
macro_rules | `(tactic| evol) => `(tactic| with_reducible exact evo_treeGetH)

theorem symIs_atom {d : Data} {k : Sym} (h : d.symIs k = true) : d.isPair = false := by
  cases d with
  | pair => cases h
  | _ => rfl

theorem findH_ok {s s' : HSt} {k : Sym} {kv : Addr} : ∀ {n : Nat} {a : Addr}, findH n a k s = .ok (some kv, s') →
    s' = s ∧ ∃ c q v cq, s.mem kv = some c ∧ c.data = .pair q v ∧ s.mem q = some cq ∧ cq.data.isPair = false := by
  intro n
  induction n with
  | zero => intro a e; cases e
  | succ n ih =>
    intro a e
    unfold findH at e
    replace e := HM.ok_inv e; obtain ⟨⟨kv0, y⟩, s1, e1, e⟩ := e
    obtain ⟨rfl, c, hc, hd⟩ := pairOf_inv e1
    replace e := HM.ok_inv e; obtain ⟨⟨q, v⟩, s2, e2, e⟩ := e
    obtain ⟨rfl, ck, hck, hdk⟩ := pairOf_inv e2
    replace e := HM.ok_inv e; obtain ⟨d, s3, e3, e⟩ := e
    obtain ⟨rfl, cq, hcq, rfl⟩ := dataOf_inv e3
    split at e
    · rename_i hs
      cases e
      exact ⟨rfl, ck, q, v, cq, hck, hdk, hcq, symIs_atom hs⟩
    · replace e := HM.ok_inv e; obtain ⟨d', s4, e4, e⟩ := e
      obtain ⟨rfl, _, _, _⟩ := dataOf_inv e4
      split at e
      · exact ih e
      · cases e

theorem assocH_ok {s s' : HSt} {k : Sym} {r : Option Addr} {n : Nat} {a : Addr} (e : assocH n a k s = .ok (r, s')) :
    ∀ kv, r = some kv →
    s' = s ∧ ∃ c q v cq, s.mem kv = some c ∧ c.data = .pair q v ∧ s.mem q = some cq ∧ cq.data.isPair = false := by
  rintro kv rfl
  unfold assocH at e
  replace e := HM.ok_inv e; obtain ⟨d, s1, e1, e⟩ := e
  obtain ⟨rfl, _, _, _⟩ := dataOf_inv e1
  split at e
  · cases e
  · exact findH_ok e

theorem entryH_ok {s s' : HSt} {k : Sym} {a : Addr} {r : Addr × Addr} (e : entryH k a s = .ok (r, s')) :
    s' = s ∧ ∃ c cq, s.mem a = some c ∧ c.data = .pair r.1 r.2 ∧ s.mem r.1 = some cq ∧ cq.data.isPair = false := by
  unfold entryH at e
  replace e := HM.ok_inv e; obtain ⟨⟨q, v⟩, s2, e2, e⟩ := e
  obtain ⟨rfl, ck, hck, hdk⟩ := pairOf_inv e2
  replace e := HM.ok_inv e; obtain ⟨d, s3, e3, e⟩ := e
  obtain ⟨rfl, cq, hcq, rfl⟩ := dataOf_inv e3
  split at e
  · rename_i hs
    cases e
    exact ⟨rfl, ck, cq, hck, hdk, hcq, symIs_atom hs⟩
  · cases e

/-- The value of a binding changes. -/
theorem keep_value {s : HSt} {a q v w : Addr} {c cq : Cell} (hc : s.mem a = some c) (hd : c.data = .pair q v)
    (hq : s.mem q = some cq) (hn : cq.data.isPair = false) :
    Keep N s { s with mem := upd s.mem a (some { c with data := .pair q w }) } := by
  refine ⟨Nat.le_refl _, ?_⟩
  intro b hb c' hc'
  by_cases eb : b = a
  · subst eb
    change upd _ _ _ _ = some _ at hc'; rw [upd_self _ _ _] at hc'
    cases hc'
    refine ⟨c, hc, by rw [hd]; rfl, fun x => (by rw [hd] at x; cases x), ?_⟩
    intro x y e
    rw [hd] at e; cases e
    refine ⟨w, rfl, ?_⟩
    rintro ⟨cx, hcx, px⟩
    have hne : q ≠ b := by
      rintro rfl
      rw [hc] at hq; cases hq
      rw [hd] at hn; cases hn
    change upd _ _ _ _ = some _ at hcx; rw [upd_ne hne, hq] at hcx
    cases hcx
    rw [hn] at px; cases px
  · change upd _ _ _ _ = some _ at hc'; rw [upd_ne eb] at hc'
    exact Keep.same hc' rfl

theorem evo_setqH {a : Addr} : Evo N (setqH a) := by
  intro s r s' hN e
  unfold setqH at e
  replace e := HM.ok_inv e; obtain ⟨d, s1, e1, e⟩ := e
  obtain ⟨rfl, c, hc, rfl⟩ := dataOf_inv e1
  cases hd : c.data with
  | pair k v =>
    rw [hd] at e
    replace e := HM.ok_inv e; obtain ⟨dk, s2, e2, e⟩ := e
    obtain ⟨rfl, ck, hck, rfl⟩ := dataOf_inv e2
    cases hk : ck.data with
    | sym sy =>
      rw [hk] at e
      replace e := HM.ok_inv e; obtain ⟨g, s3, e3, e⟩ := e
      cases e3
      cases hg : (s2.globals.find? fun e => e.1 = sy).map Prod.snd with
      | some ee =>
        rw [hg] at e
        replace e := HM.ok_inv e; obtain ⟨⟨k0, old⟩, s4, e4, e⟩ := e
        obtain ⟨rfl, ce, cq, hce, hde, hq, hn⟩ := entryH_ok e4
        replace e := HM.ok_inv e; obtain ⟨_, s5, e5, e⟩ := e
        obtain ⟨c5, hc5, rfl⟩ := setData_inv e5
        rw [hce] at hc5; cases hc5
        have k5 : Keep N s4 _ := keep_value (w := v) hce hde hq hn
        replace e := HM.ok_inv e; obtain ⟨_, s6, e6, e⟩ := e
        obtain ⟨c6, hc6, rfl⟩ := setData_inv e6
        have k7 := (dat_X e).keep N
        refine (k5.trans ?_).trans k7
        have hke : k ≠ ee := by
          rintro rfl
          rw [hck] at hce; cases hce
          rw [hk] at hde; cases hde
        have hck' : upd s4.mem ee (some { ce with data := .pair k0 v }) k = some ck := by rw [upd_ne hke]; exact hck
        by_cases hae : a = ee
        · subst hae
          rw [hc] at hce; cases hce
          rw [hd] at hde
          obtain ⟨rfl, rfl⟩ : k0 = k ∧ old = v := by cases hde; exact ⟨rfl, rfl⟩
          change upd _ _ _ _ = some _ at hc6; rw [upd_self] at hc6
          cases hc6
          exact keep_value (w := old) (s := { s4 with mem := upd s4.mem a (some { c with data := .pair k0 old }) })
            (c := { c with data := .pair k0 old }) (upd_self _ _ _) rfl hck' (by rw [hk]; rfl)
        · have hc6' : s4.mem a = some c6 := by
            change upd _ _ _ _ = some _ at hc6; rw [upd_ne hae] at hc6; exact hc6
          rw [hc] at hc6'; cases hc6'
          exact keep_value (s := { s4 with mem := upd s4.mem ee (some { ce with data := .pair k0 v }) }) hc6 hd hck'
            (by rw [hk]; rfl)
      | none => rw [hg] at e; exact evo_push _ _ _ hN e
    | _ => rw [hk] at e; exact (dat_X e).keep N
  | _ => rw [hd] at e; exact (dat_X e).keep N
macro_rules | `(tactic| evol) => `(tactic| with_reducible exact evo_setqH)
theorem evo_lookupH {n : Nat} {a : Addr} {b : Addr} {k : Sym} : Evo N (lookupH n a b k) := by unfold lookupH; evo
macro_rules | `(tactic| evol) => `(tactic| with_reducible exact evo_lookupH)
theorem evo_entryH {k : Sym} {a : Addr} : Evo N (entryH k a) := by unfold entryH; evo
macro_rules | `(tactic| evol) => `(tactic| with_reducible exact evo_entryH)
theorem evo_ownH {a : Addr} : Evo N (ownH a) := by unfold ownH; evo
macro_rules | `(tactic| evol) => `(tactic| with_reducible exact evo_ownH)
/-! ## The evaluator -/
macro_rules | `(tactic| evol) => `(tactic| with_reducible exact $(Lean.mkIdent `hev) _ _)
theorem evo_progH {ev : HEv} (hev : ∀ c a, Evo N (ev c a)) (n : Nat) : ∀ (c : Addr) (a : Addr) (r : Addr), Evo N (progH ev n c a r) := by
  induction n with
  | zero => intro c a r; unfold progH; evo
  | succ n ih => intro c a r; unfold progH; evo <;> exact ih _ _ _
macro_rules | `(tactic| evol) => `(tactic| with_reducible exact evo_progH $(Lean.mkIdent `hev) _ _ _ _)
theorem evo_evalArgsH {ev : HEv} (hev : ∀ c a, Evo N (ev c a)) (n : Nat) : ∀ (c : Addr) (x : Addr) (y : Addr) (z : Addr), Evo N (evalArgsH ev n c x y z) := by
  induction n with
  | zero => intro c x y z; unfold evalArgsH; evo
  | succ n ih => intro c x y z; unfold evalArgsH; evo <;> exact ih _ _ _ _
macro_rules | `(tactic| evol) => `(tactic| with_reducible exact evo_evalArgsH $(Lean.mkIdent `hev) _ _ _ _ _)
theorem evo_isSelfTailH {a : Addr} {b : Addr} : Evo N (isSelfTailH a b) := by unfold isSelfTailH; evo
macro_rules | `(tactic| evol) => `(tactic| with_reducible exact evo_isSelfTailH)
theorem evo_tailLoopH {ev : HEv} {symb : Addr} {body : Addr} {cls : Addr} (hev : ∀ c a, Evo N (ev c a)) (n : Nat) : ∀ (r : Addr), Evo N (tailLoopH ev symb body cls n r) := by
  induction n with
  | zero => intro r; unfold tailLoopH; evo
  | succ n ih => intro r; unfold tailLoopH; evo <;> exact ih _
macro_rules | `(tactic| evol) => `(tactic| with_reducible exact evo_tailLoopH $(Lean.mkIdent `hev) _ _)
theorem evo_popH {a : Addr} : Evo N (popH a) := by unfold popH; evo
macro_rules | `(tactic| evol) => `(tactic| with_reducible exact evo_popH)
theorem evo_condH {ev : HEv} (hev : ∀ c a, Evo N (ev c a)) (n : Nat) : ∀ (c : Addr) (x : Addr) (y : Addr), Evo N (condH ev n c x y) := by
  induction n with
  | zero => intro c x y; unfold condH; evo
  | succ n ih => intro c x y; unfold condH; evo <;> exact ih _ _ _
macro_rules | `(tactic| evol) => `(tactic| with_reducible exact evo_condH $(Lean.mkIdent `hev) _ _ _ _)
theorem evo_matchLoopH {ev : HEv} (hev : ∀ c a, Evo N (ev c a)) (n : Nat) : ∀ (c : Addr) (x : Addr) (y : Addr), Evo N (matchLoopH ev n c x y) := by
  induction n with
  | zero => intro c x y; unfold matchLoopH; evo
  | succ n ih => intro c x y; unfold matchLoopH; evo <;> exact ih _ _ _
macro_rules | `(tactic| evol) => `(tactic| with_reducible exact evo_matchLoopH $(Lean.mkIdent `hev) _ _ _ _)
theorem evo_listH {ev : HEv} (hev : ∀ c a, Evo N (ev c a)) (n : Nat) : ∀ (c : Addr) (x : Addr), Evo N (listH ev n c x) := by
  induction n with
  | zero => intro c x; unfold listH; evo
  | succ n ih => intro c x; unfold listH; evo <;> exact ih _ _
macro_rules | `(tactic| evol) => `(tactic| with_reducible exact evo_listH $(Lean.mkIdent `hev) _ _ _)
theorem evo_streamH {ev : HEv} (hev : ∀ c a, Evo N (ev c a)) (n : Nat) : ∀ (c : Addr) (x : Addr) (y : Addr), Evo N (streamH ev n c x y) := by
  induction n with
  | zero => intro c x y; unfold streamH; evo
  | succ n ih => intro c x y; unfold streamH; evo <;> exact ih _ _ _
macro_rules | `(tactic| evol) => `(tactic| with_reducible exact evo_streamH $(Lean.mkIdent `hev) _ _ _ _)
theorem evo_letMarkH {u : UB} {n : Nat} {x : Addr} {y : Addr} {z : Addr} : Evo N (letMarkH u n x y z) := by unfold letMarkH; evo
macro_rules | `(tactic| evol) => `(tactic| with_reducible exact evo_letMarkH)
theorem evo_letBindH {ev : HEv} {u : UB} (hev : ∀ c a, Evo N (ev c a)) (n : Nat) : ∀ (c : Addr) (x : Addr) (y : Addr), Evo N (letBindH ev u n c x y) := by
  induction n with
  | zero => intro c x y; unfold letBindH; evo
  | succ n ih => intro c x y; unfold letBindH; evo <;> exact ih _ _ _
macro_rules | `(tactic| evol) => `(tactic| with_reducible exact evo_letBindH $(Lean.mkIdent `hev) _ _ _ _)
theorem evo_letH {ev : HEv} {u : UB} {n : Nat} {c : Addr} {a : Addr} (hev : ∀ c a, Evo N (ev c a)) : Evo N (letH ev u n c a) := by unfold letH; evo
macro_rules | `(tactic| evol) => `(tactic| with_reducible exact evo_letH $(Lean.mkIdent `hev))
theorem evo_whileH {ev : HEv} {c : Addr} {cnd : Addr} {prg : Addr} (hev : ∀ c a, Evo N (ev c a)) (n : Nat) : ∀ (r : Addr), Evo N (whileH ev c cnd prg n r) := by
  induction n with
  | zero => intro r; unfold whileH; evo
  | succ n ih => intro r; unfold whileH; evo <;> exact ih _
macro_rules | `(tactic| evol) => `(tactic| with_reducible exact evo_whileH $(Lean.mkIdent `hev) _ _)
theorem evo_viewH  (n : Nat) : ∀ (a : Addr), Evo N (viewH  n a) := by
  induction n with
  | zero => intro a; unfold viewH; evo
  | succ n ih => intro a; unfold viewH; evo <;> exact ih _
macro_rules | `(tactic| evol) => `(tactic| with_reducible exact evo_viewH _ _)
theorem evo_prinH {n : Nat} {a : Addr} {b : Bool} : Evo N (prinH n a b) := by unfold prinH; evo
macro_rules | `(tactic| evol) => `(tactic| with_reducible exact evo_prinH)
theorem evo_sepH {b : Bool} : Evo N (sepH b) := by unfold sepH; evo
macro_rules | `(tactic| evol) => `(tactic| with_reducible exact evo_sepH)
theorem evo_prinAllH {ev : HEv} {b : Bool} (hev : ∀ c a, Evo N (ev c a)) (n : Nat) : ∀ (c : Addr) (x : Addr) (y : Addr), Evo N (prinAllH ev b n c x y) := by
  induction n with
  | zero => intro c x y; unfold prinAllH; evo
  | succ n ih => intro c x y; unfold prinAllH; evo <;> exact ih _ _ _
macro_rules | `(tactic| evol) => `(tactic| with_reducible exact evo_prinAllH $(Lean.mkIdent `hev) _ _ _ _)
theorem evo_docH {a : Addr} : Evo N (docH a) := by unfold docH; evo
macro_rules | `(tactic| evol) => `(tactic| with_reducible exact evo_docH)
theorem evo_defH {n : Nat} {f : Addr} {a : Addr} : Evo N (defH n f a) := by unfold defH; evo
macro_rules | `(tactic| evol) => `(tactic| with_reducible exact evo_defH)
theorem evo_assignH {n : Nat} {c x y : Addr} : Evo N (assignH n c x y) := by
  intro s r s' hN e
  unfold assignH at e
  replace e := HM.ok_inv e; obtain ⟨d, s1, e1, e⟩ := e
  obtain ⟨rfl, cx, hcx, rfl⟩ := dataOf_inv e1
  cases hd : cx.data with
  | sym sy =>
    rw [hd] at e
    replace e := HM.ok_inv e; obtain ⟨b, s2, e2, e⟩ := e
    cases b with
    | some kv =>
      obtain ⟨rfl, ck, q, v, cq, hck, hdk, hq, hn⟩ := assocH_ok e2 kv rfl
      replace e := HM.ok_inv e; obtain ⟨_, s3, e3, e⟩ := e
      have : s3 = s2 := by unfold guard at e3; split at e3 <;> cases e3; rfl
      subst this
      replace e := HM.ok_inv e; obtain ⟨⟨k, old⟩, s4, e4, e⟩ := e
      obtain ⟨rfl, ck', hck', hdk'⟩ := pairOf_inv e4
      rw [hck] at hck'; cases hck'
      rw [hdk] at hdk'; cases hdk'
      replace e := HM.ok_inv e; obtain ⟨_, s5, e5, e⟩ := e
      obtain ⟨c5, hc5, rfl⟩ := setData_inv e5
      rw [hck] at hc5; cases hc5
      replace e := HM.ok_inv e; obtain ⟨_, s6, e6, e⟩ := e
      cases e
      exact (keep_value hck hdk hq hn).trans ((dat_X e6).keep N)
    | none =>
      have k2 : Keep N s1 s2 := evo_assocH s1 _ s2 hN e2
      refine k2.trans ?_
      have n2 := Nat.le_trans hN k2.next
      replace e := HM.ok_inv e; obtain ⟨elt, s3, e3, e⟩ := e
      have k3 : Keep N s2 s3 := evo_consH s2 _ s3 n2 e3
      have helt : N ≤ elt := by cases e3; exact n2
      refine k3.trans ?_
      have n3 := Nat.le_trans n2 k3.next
      replace e := HM.ok_inv e; obtain ⟨g, s4, e4, e⟩ := e
      cases e4
      cases hg : (s3.globals.find? fun e => e.1 = sy).map Prod.snd with
      | some ee =>
        rw [hg] at e
        replace e := HM.ok_inv e; obtain ⟨⟨k0, old⟩, s5, e5, e⟩ := e
        obtain ⟨rfl, ce, cq, hce, hde, hq, hn⟩ := entryH_ok e5
        replace e := HM.ok_inv e; obtain ⟨_, s6, e6, e⟩ := e
        obtain ⟨c6, hc6, rfl⟩ := setData_inv e6
        rw [hce] at hc6; cases hc6
        replace e := HM.ok_inv e; obtain ⟨_, s7, e7, e⟩ := e
        obtain ⟨c7, hc7, rfl⟩ := setData_inv e7
        cases e
        exact (keep_value hce hde hq hn).trans (keep_set helt)
      | none =>
        rw [hg] at e
        have : Evo N (do let res ← mkNil; X res; abandon elt; Xs [x, y]; mkNil : HM Addr) := by evo
        exact this _ _ _ n3 e
  | _ =>
    rw [hd] at e
    have : Evo N (do Xs [x, y]; mkNil : HM Addr) := by evo
    exact this _ _ _ hN e
macro_rules | `(tactic| evol) => `(tactic| with_reducible exact evo_assignH)
theorem evo_setH {ev : HEv} {u : UB} {n : Nat} {c : Addr} {a : Addr} (hev : ∀ c a, Evo N (ev c a)) : Evo N (setH ev u n c a) := by unfold setH; evo
macro_rules | `(tactic| evol) => `(tactic| with_reducible exact evo_setH $(Lean.mkIdent `hev))
theorem evo_setqNatH {ev : HEv} {c : Addr} {a : Addr} (hev : ∀ c a, Evo N (ev c a)) : Evo N (setqNatH ev c a) := by unfold setqNatH; evo
macro_rules | `(tactic| evol) => `(tactic| with_reducible exact evo_setqNatH $(Lean.mkIdent `hev))
theorem evo_orH {ev : HEv} {c : Addr} {a : Addr} (hev : ∀ c a, Evo N (ev c a)) : Evo N (orH ev c a) := by unfold orH; evo
macro_rules | `(tactic| evol) => `(tactic| with_reducible exact evo_orH $(Lean.mkIdent `hev))
theorem evo_ofAtom {v : Val} : Evo N (ofAtom v) := by unfold ofAtom; evo
macro_rules | `(tactic| evol) => `(tactic| with_reducible exact evo_ofAtom)
theorem evo_symNatH {n : Nat} {x : Addr} : Evo N (symNatH n x) := by unfold symNatH; evo
macro_rules | `(tactic| evol) => `(tactic| with_reducible exact evo_symNatH)
theorem evo_unaryH {n : Nat} {op : Native} {x : Addr} : Evo N (unaryH n op x) := by unfold unaryH; evo
macro_rules | `(tactic| evol) => `(tactic| with_reducible exact evo_unaryH)
theorem evo_binaryH {n : Nat} {op : Native} {x : Addr} {y : Addr} : Evo N (binaryH n op x y) := by unfold binaryH; evo
macro_rules | `(tactic| evol) => `(tactic| with_reducible exact evo_binaryH)
theorem evo_nativeAnyH {n : Nat} {ev : HEv} {op : Native} {u : UB} {f : Addr} {c : Addr} {a : Addr} (hev : ∀ c a, Evo N (ev c a)) : Evo N (nativeAnyH n ev op u f c a) := by unfold nativeAnyH; evo
macro_rules | `(tactic| evol) => `(tactic| with_reducible exact evo_nativeAnyH $(Lean.mkIdent `hev))
theorem evo_nativeRemH {n : Nat} {ev : HEv} {op : Native} {c : Addr} {a : Addr} {b : Addr} (hev : ∀ c a, Evo N (ev c a)) : Evo N (nativeRemH n ev op c a b) := by unfold nativeRemH; evo
macro_rules | `(tactic| evol) => `(tactic| with_reducible exact evo_nativeRemH $(Lean.mkIdent `hev))
theorem evo_expectEnv {a : Addr} {b : Addr} : Evo N (expectEnv a b) := by unfold expectEnv; evo
macro_rules | `(tactic| evol) => `(tactic| with_reducible exact evo_expectEnv)
theorem evo_callNativeH {n : Nat} {ev : HEv} {op : Native} {x : Addr} {y : Addr} (hev : ∀ c a, Evo N (ev c a)) : Evo N (callNativeH n ev op x y) := by unfold callNativeH; evo
macro_rules | `(tactic| evol) => `(tactic| with_reducible exact evo_callNativeH $(Lean.mkIdent `hev))
theorem evo_nativeClosH {n : Nat} {x : Addr} {y : Addr} {z : Addr} : Evo N (nativeClosH n x y z) := by unfold nativeClosH; evo
macro_rules | `(tactic| evol) => `(tactic| with_reducible exact evo_nativeClosH)
theorem evo_applyH {n : Nat} {ev : HEv} {a : Addr} {b : Addr} {c : Addr} {d : Addr} {e : Addr} {f : Addr} (hev : ∀ c a, Evo N (ev c a)) : Evo N (applyH n ev a b c d e f) := by unfold applyH; evo
macro_rules | `(tactic| evol) => `(tactic| with_reducible exact evo_applyH $(Lean.mkIdent `hev))
theorem evo_evalFuncH {n : Nat} {ev : HEv} {a : Addr} {b : Addr} {c : Addr} {d : Addr} (hev : ∀ c a, Evo N (ev c a)) : Evo N (evalFuncH n ev a b c d) := by unfold evalFuncH; evo
macro_rules | `(tactic| evol) => `(tactic| with_reducible exact evo_evalFuncH $(Lean.mkIdent `hev))
theorem evo_evalNextH {n : Nat} {ev : HEv} {a : Addr} {b : Addr} {c : Addr} {d : Addr} (hev : ∀ c a, Evo N (ev c a)) : Evo N (evalNextH n ev a b c d) := by unfold evalNextH; evo
macro_rules | `(tactic| evol) => `(tactic| with_reducible exact evo_evalNextH $(Lean.mkIdent `hev))
theorem evo_evalPairH {n : Nat} {ev : HEv} {a : Addr} {b : Addr} (hev : ∀ c a, Evo N (ev c a)) : Evo N (evalPairH n ev a b) := by unfold evalPairH; evo
macro_rules | `(tactic| evol) => `(tactic| with_reducible exact evo_evalPairH $(Lean.mkIdent `hev))
theorem evo_evalStepH {n : Nat} {ev : HEv} {a : Addr} {b : Addr} (hev : ∀ c a, Evo N (ev c a)) : Evo N (evalStepH n ev a b) := by unfold evalStepH; evo
macro_rules | `(tactic| evol) => `(tactic| with_reducible exact evo_evalStepH $(Lean.mkIdent `hev))
theorem evo_evalNH (n : Nat) : ∀ c a, Evo N (evalNH n c a) := by
  induction n with
  | zero => intro c a; exact evo_oof
  | succ n ih => intro c a; exact evo_evalStepH ih
macro_rules | `(tactic| evol) => `(tactic| with_reducible exact evo_evalNH _ _ _)


end Heap
end Mnml
