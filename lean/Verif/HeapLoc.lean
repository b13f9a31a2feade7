import Verif.HeapEval

/-!
# Cells that a computation does not touch

Remove some cells from the memory. If a computation then runs without accessing a released cell, it runs in the same
way on the whole memory and leaves these cells alone.
-/

namespace Mnml
namespace Heap

/-- The memory without the cells `H`. -/
def hide (H : List Addr) (s : HSt) : HSt := { s with mem := fun a => if a ∈ H then none else s.mem a }

/-- A computation on the memory without the cells `H` that does not miss them is the computation on the whole memory;
`P` holds for its result. -/
def BlindP {α : Type} (H : List Addr) (m : HM α) (P : α → Prop) : Prop := ∀ s, (∀ h ∈ H, h < s.next) →
  m (hide H s) = .ub .useAfterFree ∨
  (∃ a s', m s = .ok (a, s') ∧ m (hide H s) = .ok (a, hide H s') ∧ s.next ≤ s'.next ∧
    (∀ h ∈ H, s'.mem h = s.mem h) ∧ P a) ∨
  (m (hide H s) = m s ∧ ∀ p, m s ≠ .ok p)

/-- The same without a property of the result. -/
abbrev Blind {α : Type} (H : List Addr) (m : HM α) : Prop := BlindP H m fun _ => True

variable {H : List Addr}

theorem hide_in {s : HSt} {a : Addr} (h : a ∈ H) : (hide H s).mem a = none := by simp only [hide]; exact if_pos h
theorem hide_out {s : HSt} {a : Addr} (h : a ∉ H) : (hide H s).mem a = s.mem a := by simp only [hide]; exact if_neg h

theorem hide_some {s : HSt} {a : Addr} {c : Cell} (h : (hide H s).mem a = some c) : a ∉ H ∧ s.mem a = some c := by
  by_cases e : a ∈ H
  · rw [hide_in e] at h; cases h
  · rw [hide_out e] at h; exact ⟨e, h⟩

theorem Blind.pure {α : Type} {a : α} : Blind H (Pure.pure a : HM α) :=
  fun s _ => .inr (.inl ⟨a, s, rfl, rfl, Nat.le_refl _, fun _ _ => rfl, trivial⟩)

theorem BlindP.bind {α β : Type} {m : HM α} {f : α → HM β} {P : α → Prop} (h : BlindP H m P) (h' : ∀ a, P a → Blind H (f a)) :
    Blind H (m >>= f) := by
  intro s hs
  show (m (hide H s) >>= fun p => f p.1 p.2) = _ ∨ (∃ a s', (m s >>= fun p => f p.1 p.2) = _ ∧
    (m (hide H s) >>= fun p => f p.1 p.2) = _ ∧ _ ∧ _ ∧ True) ∨ ((m (hide H s) >>= fun p => f p.1 p.2) =
    (m s >>= fun p => f p.1 p.2) ∧ ∀ p, (m s >>= fun p => f p.1 p.2) ≠ .ok p)
  rcases h s hs with e | ⟨a, s1, e1, e2, hn, hf, hp⟩ | ⟨e, hn⟩
  · left; rw [e]; rfl
  · rw [e1, e2]
    rcases h' a hp s1 (fun x hx => Nat.lt_of_lt_of_le (hs x hx) hn) with e | ⟨b, s2, e3, e4, hn2, hf2, _⟩ | ⟨e, hn2⟩
    · left; exact e
    · right; left
      exact ⟨b, s2, e3, e4, Nat.le_trans hn hn2, fun x hx => (hf2 x hx).trans (hf x hx), trivial⟩
    · right; right
      exact ⟨e, hn2⟩
  · right; right
    rw [e]
    refine ⟨rfl, ?_⟩
    cases hm : m s with
    | ok p => exact absurd hm (hn p)
    | _ => intro p x; cases x

theorem Blind.bind {α β : Type} {m : HM α} {f : α → HM β} (h : Blind H m) (h' : ∀ a, Blind H (f a)) : Blind H (m >>= f) :=
  BlindP.bind h fun a _ => h' a

theorem loc_oof {α : Type} : Blind H (HM.oof : HM α) := fun _ _ => .inr (.inr ⟨rfl, fun _ e => by cases e⟩)
theorem loc_unsupported {α : Type} : Blind H (HM.unsupported : HM α) := fun _ _ => .inr (.inr ⟨rfl, fun _ e => by cases e⟩)
theorem loc_ub {α : Type} {u : UB} : Blind H (HM.ub u : HM α) := fun _ _ => .inr (.inr ⟨rfl, fun _ e => by cases e⟩)
theorem loc_lift {α : Type} {r : Res α} : Blind H (HM.lift r) := by
  cases r with
  | ok a => exact fun s _ => .inr (.inl ⟨a, s, rfl, rfl, Nat.le_refl _, fun _ _ => rfl, trivial⟩)
  | _ => exact fun _ _ => .inr (.inr ⟨rfl, fun _ e => by cases e⟩)

theorem loc_cellP {a : Addr} : BlindP H (cell a) fun _ => a ∉ H := by
  intro s hs
  unfold cell
  by_cases e : a ∈ H
  · left; rw [hide_in e]
  · rw [hide_out e]
    cases hm : s.mem a with
    | none => left; rfl
    | some c => exact .inr (.inl ⟨c, s, rfl, rfl, Nat.le_refl _, fun _ _ => rfl, e⟩)

theorem BlindP.loc {α : Type} {m : HM α} {P : α → Prop} (h : BlindP H m P) : Blind H m := by
  intro s hs
  rcases h s hs with e | ⟨a, s1, e1, e2, hn, hf, _⟩ | e
  · exact .inl e
  · exact .inr (.inl ⟨a, s1, e1, e2, hn, hf, trivial⟩)
  · exact .inr (.inr e)

theorem loc_cell {a : Addr} : Blind H (cell a) := loc_cellP.loc

theorem hide_upd {s : HSt} {a : Addr} {v : Option Cell} (e : a ∉ H) :
    hide H { s with mem := upd s.mem a v } = { hide H s with mem := upd (hide H s).mem a v } := by
  simp only [hide, HSt.mk.injEq, and_true]
  funext x
  unfold upd
  by_cases h : x = a
  · subst h; simp [e]
  · simp [h]

theorem loc_modifyP {a : Addr} {f : Cell → Cell} : BlindP H (modify a f) fun _ => a ∉ H := by
  intro s hs
  unfold modify
  by_cases e : a ∈ H
  · left; rw [hide_in e]
  · rw [hide_out e]
    cases hm : s.mem a with
    | none => left; rfl
    | some c =>
      refine .inr (.inl ⟨(), _, rfl, ?_, Nat.le_refl _, ?_, e⟩)
      · rw [hide_upd e]
      · intro h hh
        show upd s.mem a _ h = s.mem h
        unfold upd
        rw [if_neg]
        rintro rfl
        exact e hh
theorem loc_modify {a : Addr} {f : Cell → Cell} : Blind H (modify a f) := loc_modifyP.loc

theorem loc_free {a : Addr} : Blind H (free a) := by
  intro s hs
  rw [free_apart, free_apart]
  by_cases e : a ∈ H
  · left; rw [hide_in e]
  · rw [hide_out e]
    cases hm : s.mem a with
    | none => left; rfl
    | some c =>
      refine .inr (.inl ⟨(), _, rfl, ?_, Nat.le_refl _, ?_, trivial⟩)
      · rw [hide_upd e]
      · intro h hh
        show upd s.mem a _ h = s.mem h
        unfold upd
        rw [if_neg]
        rintro rfl
        exact e hh

theorem loc_allocP {d : Data} : BlindP H (alloc d) fun a => a ∉ H := by
  intro s hs
  have e : s.next ∉ H := fun h => Nat.lt_irrefl _ (hs _ h)
  refine .inr (.inl ⟨s.next, { s with mem := upd s.mem s.next (some ⟨1, false, none, d⟩), next := s.next + 1 }, rfl, ?_,
    Nat.le_succ _, ?_, e⟩)
  · rw [alloc_apart]
    simp only [hide, Res.ok.injEq, Prod.mk.injEq, HSt.mk.injEq, and_true, true_and]
    funext x
    unfold upd
    by_cases h : x = s.next
    · subst h; simp [e]
    · simp [h]
  · intro h hh
    show upd s.mem s.next _ h = s.mem h
    unfold upd
    rw [if_neg]
    rintro rfl
    exact e hh
theorem loc_alloc {d : Data} : Blind H (alloc d) := loc_allocP.loc

theorem there_hide {s : HSt} : ∀ (n : Nat) (a : Addr), there (hide H s).mem n a = true →
    there s.mem n a = true ∧ cellsOf (hide H s).mem n a = cellsOf s.mem n a ∧
    ∀ l, cellsOf s.mem n a = some l → ∀ b ∈ l, (hide H s).mem b = s.mem b := by
  intro n
  induction n with
  | zero => intro a _; exact ⟨rfl, rfl, fun l e => by cases e⟩
  | succ n ih =>
    intro a h
    unfold there at h
    cases hm : (hide H s).mem a with
    | none => rw [hm] at h; cases h
    | some c =>
      obtain ⟨ha, hs⟩ := hide_some hm
      have ea : (hide H s).mem a = s.mem a := hide_out ha
      rw [hm] at h
      unfold there cellsOf
      rw [hm, hs]
      simp only at h ⊢
      cases hd : c.data with
      | pair x y =>
        rw [hd] at h
        simp only [Bool.and_eq_true] at h ⊢
        obtain ⟨x1, x2, x3⟩ := ih x h.1
        obtain ⟨y1, y2, y3⟩ := ih y h.2
        rw [x2, y2]
        refine ⟨⟨x1, y1⟩, rfl, ?_⟩
        intro l
        cases hx : cellsOf s.mem n x with
        | none => intro e; cases e
        | some p =>
          cases hy : cellsOf s.mem n y with
          | none => intro e; cases e
          | some q =>
            intro e b hb
            cases e
            simp only [List.mem_cons, List.mem_append] at hb
            rcases hb with rfl | hb | hb
            · exact ea
            · exact x3 p hx b hb
            · exact y3 q hy b hb
      | _ =>
        refine ⟨rfl, rfl, ?_⟩
        intro l e b hb
        cases e
        simp only [List.mem_cons, List.not_mem_nil, or_false] at hb
        subst hb
        exact ea

theorem loc_loneH {n : Nat} {f a : Addr} : Blind H (loneH n f a) := by
  intro s hs
  unfold loneH
  by_cases h : (there (hide H s).mem 2 f && there (hide H s).mem n a) = true
  · rw [if_pos h]
    simp only [Bool.and_eq_true] at h
    obtain ⟨f1, _, _⟩ := there_hide 2 f h.1
    obtain ⟨a1, a2, a3⟩ := there_hide n a h.2
    rw [if_pos (by rw [f1, a1]; rfl)]
    refine .inr (.inl ⟨_, s, rfl, ?_, Nat.le_refl _, fun _ _ => rfl, trivial⟩)
    suffices e : loneArg (hide H s).mem n f a = loneArg s.mem n f a by rw [e]
    have hf := h.1
    unfold there at hf
    cases hm : (hide H s).mem f with
    | none => rw [hm] at hf; cases hf
    | some c =>
      obtain ⟨_, hfs⟩ := hide_some hm
      rw [hm] at hf
      unfold loneArg
      rw [hm, hfs]
      cases hd : c.data with
      | pair b y =>
        simp only [hd, Bool.and_eq_true] at hf
        have hb := hf.1
        unfold there at hb
        cases hmb : (hide H s).mem b with
        | none => rw [hmb] at hb; cases hb
        | some cb =>
          obtain ⟨_, hbs⟩ := hide_some hmb
          simp only [hd, hmb, hbs, a2]
          cases hk : cb.data with
          | pair k x =>
            cases hc : cellsOf s.mem n a with
            | none => rfl
            | some l =>
              simp only
              congr 1
              have : ∀ z ∈ f :: b :: l, single (hide H s).mem z = single s.mem z := by
                intro z hz
                unfold single
                simp only [List.mem_cons] at hz
                rcases hz with rfl | rfl | hz
                · rw [hm, hfs]
                · rw [hmb, hbs]
                · rw [a3 l hc z hz]
              rw [Bool.eq_iff_iff, List.all_eq_true, List.all_eq_true]
              exact ⟨fun g z hz => (this z hz) ▸ g z hz, fun g z hz => (this z hz).symm ▸ g z hz⟩
          | _ => rfl
      | _ => simp only [hd]
  · rw [if_neg h]; exact .inl rfl

theorem loc_guard {b : Bool} : Blind H (guard b) := by
  intro s hs
  unfold guard
  show (if s.strict && !b then _ else _) = _ ∨ _
  by_cases h : (s.strict && !b) = true
  · exact .inr (.inr (by
      refine ⟨?_, ?_⟩
      · show (if s.strict && !b then _ else _) = (if s.strict && !b then _ else _)
        rw [if_pos h, if_pos h]
      · intro p; rw [if_pos h]; intro e; cases e))
  · refine .inr (.inl ⟨(), s, if_neg h, ?_, Nat.le_refl _, fun _ _ => rfl, trivial⟩)
    show (if s.strict && !b then _ else _) = _
    exact if_neg h

theorem loc_leak {a : Addr} : Blind H (leak a) :=
  fun _ _ => .inr (.inl ⟨(), _, rfl, rfl, Nat.le_refl _, fun _ _ => rfl, trivial⟩)
theorem loc_abandon {a : Addr} : Blind H (abandon a) :=
  fun _ _ => .inr (.inl ⟨(), _, rfl, rfl, Nat.le_refl _, fun _ _ => rfl, trivial⟩)
theorem loc_push {k : Sym} {a : Addr} : Blind H (pushGlobal k a) :=
  fun _ _ => .inr (.inl ⟨(), _, rfl, rfl, Nat.le_refl _, fun _ _ => rfl, trivial⟩)
theorem loc_global {k : Sym} : Blind H (globalOf k) :=
  fun _ _ => .inr (.inl ⟨_, _, rfl, rfl, Nat.le_refl _, fun _ _ => rfl, trivial⟩)
theorem loc_emit {l : List UInt8} : Blind H (emitH l) :=
  fun _ _ => .inr (.inl ⟨(), _, rfl, rfl, Nat.le_refl _, fun _ _ => rfl, trivial⟩)

theorem loc_fresh {u : UB} {a : Addr} (h : a ∉ H) : Blind H (fresh u a) := by
  intro s hs
  rw [fresh_apart, fresh_apart, hide_out h]
  simp only [show (hide H s).zombies = s.zombies from rfl]
  by_cases e : (s.mem a).isSome ∧ a ∉ s.zombies
  · refine .inr (.inl ⟨(), s, if_pos e, ?_, Nat.le_refl _, fun _ _ => rfl, trivial⟩)
    exact if_pos e
  · refine .inr (.inr ⟨?_, ?_⟩)
    · rw [if_neg e, if_neg e]
    · intro p; rw [if_neg e]; intro x; cases x

/-- `lisp_car`: neither the cell nor its CAR is missing. -/
theorem loc_carP {a : Addr} : BlindP H (carH a) fun x => a ∉ H ∧ x ∉ H := by
  intro s hs
  unfold carH dataOf
  by_cases e : a ∈ H
  · left
    have : cell a (hide H s) = .ub .useAfterFree := by unfold cell; rw [hide_in e]
    show ((cell a (hide H s) >>= _) >>= _) = _
    rw [this]; rfl
  · cases hm : s.mem a with
    | none =>
      left
      have : cell a (hide H s) = .ub .useAfterFree := by unfold cell; rw [hide_out e, hm]
      show ((cell a (hide H s) >>= _) >>= _) = _
      rw [this]; rfl
    | some c =>
      have h1 : cell a (hide H s) = .ok (c, hide H s) := by unfold cell; rw [hide_out e, hm]
      have h2 : cell a s = .ok (c, s) := by unfold cell; rw [hm]
      show ((cell a (hide H s) >>= _) >>= _) = _ ∨ (∃ x s', ((cell a s >>= _) >>= _) = _ ∧
        ((cell a (hide H s) >>= _) >>= _) = _ ∧ _ ∧ _ ∧ _) ∨ (((cell a (hide H s) >>= _) >>= _) =
        ((cell a s >>= _) >>= _) ∧ ∀ p, ((cell a s >>= _) >>= _) ≠ _)
      rw [h1, h2]
      cases hd : c.data with
      | pair x y =>
        simp only [Res.ok_bind, HM.pure, hd, Pure.pure]
        rcases (loc_modifyP (H := H) (a := x) (f := fun c => { c with refs := c.refs + 1 })) s hs with
          q | ⟨_, s1, q1, q2, q3, q4, q5⟩ | ⟨q, qn⟩
        · left
          show (modify x _ (hide H s) >>= _) = _
          rw [q]; rfl
        · right; left
          refine ⟨x, s1, ?_, ?_, q3, q4, e, q5⟩
          · show (modify x _ s >>= _) = _
            rw [q1]; rfl
          · show (modify x _ (hide H s) >>= _) = _
            rw [q2]; rfl
        · right; right
          refine ⟨?_, ?_⟩
          · show (modify x _ (hide H s) >>= _) = (modify x _ s >>= _)
            rw [q]
          · intro p
            show (modify x _ s >>= _) ≠ _
            cases hx : modify x (fun c => { c with refs := c.refs + 1 }) s with
            | ok p => exact absurd hx (qn p)
            | _ => intro e; cases e
      | _ =>
        simp only [Res.ok_bind, HM.pure, hd, Pure.pure]
        rcases (loc_allocP (H := H) (d := .nil)) s hs with q | ⟨x, s1, q1, q2, q3, q4, q5⟩ | q
        · exact .inl q
        · exact .inr (.inl ⟨x, s1, q1, q2, q3, q4, e, q5⟩)
        · exact .inr (.inr q)

/-- The leaves; extended below. -/
syntax "locl" : tactic
macro_rules | `(tactic| locl) => `(tactic| with_reducible first
  | assumption
  | exact Blind.pure | exact loc_oof | exact loc_unsupported | exact loc_ub | exact loc_lift
  | exact loc_cell | exact loc_modify | exact loc_free | exact loc_alloc | exact loc_loneH | exact loc_guard
  | exact loc_leak | exact loc_abandon | exact loc_push | exact loc_global | exact loc_emit
  | exact loc_fresh (by assumption))

/-- The structural steps. -/
macro "loc" : tactic => `(tactic| repeat' first
  | locl
  | with_reducible refine BlindP.bind loc_carP (fun _ h => And.elim (fun _ _ => ?_) h)
  | with_reducible refine Blind.bind ?_ (fun _ => ?_)
  | split)

theorem loc_up {a : Addr} : Blind H (up a) := by unfold up; loc
macro_rules | `(tactic| locl) => `(tactic| with_reducible exact loc_up)
theorem loc_dataOf {a : Addr} : Blind H (dataOf a) := by unfold dataOf; loc
macro_rules | `(tactic| locl) => `(tactic| with_reducible exact loc_dataOf)
theorem loc_pairOf {a : Addr} : Blind H (pairOf a) := by unfold pairOf; loc
macro_rules | `(tactic| locl) => `(tactic| with_reducible exact loc_pairOf)
theorem loc_setData {a : Addr} {d : Data} : Blind H (setData a d) := by unfold setData; loc
macro_rules | `(tactic| locl) => `(tactic| with_reducible exact loc_setData)
theorem loc_setTail {a : Addr} : Blind H (setTail a) := by unfold setTail; loc
macro_rules | `(tactic| locl) => `(tactic| with_reducible exact loc_setTail)
theorem loc_release  (n : Nat) : ∀ (a : Addr), Blind H (release  n a) := by
  induction n with
  | zero => intro a; unfold release; loc
  | succ n ih => intro a; unfold release; loc <;> exact ih _
macro_rules | `(tactic| locl) => `(tactic| with_reducible exact loc_release _ _)
theorem loc_X {a : Addr} : Blind H (X a) := fun s hs => loc_release (s.next + 1) a s hs
macro_rules | `(tactic| locl) => `(tactic| with_reducible exact loc_X)
theorem loc_Xs {l : List Addr} : Blind H (Xs l) := by
  induction l with
  | nil => unfold Xs; loc
  | cons a l ih => unfold Xs; exact loc_X.bind fun _ => ih
macro_rules | `(tactic| locl) => `(tactic| with_reducible exact loc_Xs)
theorem loc_mkNil  : Blind H (mkNil ) := by unfold mkNil; loc
macro_rules | `(tactic| locl) => `(tactic| with_reducible exact loc_mkNil)
theorem loc_mkTrue  : Blind H (mkTrue ) := by unfold mkTrue; loc
macro_rules | `(tactic| locl) => `(tactic| with_reducible exact loc_mkTrue)
theorem loc_mkNum {i : Int} : Blind H (mkNum i) := by unfold mkNum; loc
macro_rules | `(tactic| locl) => `(tactic| with_reducible exact loc_mkNum)
theorem loc_mkChr {i : Int} : Blind H (mkChr i) := by unfold mkChr; loc
macro_rules | `(tactic| locl) => `(tactic| with_reducible exact loc_mkChr)
theorem loc_mkSym {k : Sym} : Blind H (mkSym k) := by unfold mkSym; loc
macro_rules | `(tactic| locl) => `(tactic| with_reducible exact loc_mkSym)
theorem loc_mkBool {b : Bool} : Blind H (mkBool b) := by unfold mkBool; loc
macro_rules | `(tactic| locl) => `(tactic| with_reducible exact loc_mkBool)
theorem loc_consH {x : Addr} {y : Addr} : Blind H (consH x y) := by unfold consH; loc
macro_rules | `(tactic| locl) => `(tactic| with_reducible exact loc_consH)
theorem loc_carH {a : Addr} : Blind H (carH a) := loc_carP.loc
macro_rules | `(tactic| locl) => `(tactic| with_reducible exact loc_carH)
theorem loc_cdrH {a : Addr} : Blind H (cdrH a) := by unfold cdrH; loc
macro_rules | `(tactic| locl) => `(tactic| with_reducible exact loc_cdrH)
theorem loc_lastPair  (n : Nat) : ∀ (a : Addr), Blind H (lastPair  n a) := by
  induction n with
  | zero => intro a; unfold lastPair; loc
  | succ n ih => intro a; unfold lastPair; loc <;> exact ih _
macro_rules | `(tactic| locl) => `(tactic| with_reducible exact loc_lastPair _ _)
theorem loc_concH {n : Nat} {x : Addr} {y : Addr} : Blind H (concH n x y) := by unfold concH; loc
macro_rules | `(tactic| locl) => `(tactic| with_reducible exact loc_concH)
theorem loc_appendH {n : Nat} {x : Addr} {y : Addr} : Blind H (appendH n x y) := by unfold appendH; loc
macro_rules | `(tactic| locl) => `(tactic| with_reducible exact loc_appendH)
theorem loc_noFlag {a : Addr} : Blind H (noFlag a) := by unfold noFlag; loc
macro_rules | `(tactic| locl) => `(tactic| with_reducible exact loc_noFlag)
theorem loc_dupH  (n : Nat) : ∀ (a : Addr), Blind H (dupH  n a) := by
  induction n with
  | zero => intro a; unfold dupH; loc
  | succ n ih => intro a; unfold dupH; loc <;> exact ih _
macro_rules | `(tactic| locl) => `(tactic| with_reducible exact loc_dupH _ _)
theorem loc_compareH {a : Addr} {b : Addr} : Blind H (compareH a b) := by unfold compareH; loc
macro_rules | `(tactic| locl) => `(tactic| with_reducible exact loc_compareH)
theorem loc_sssH  (n : Nat) : ∀ (a : Addr) (b : Addr), Blind H (sssH  n a b) := by
  induction n with
  | zero => intro a b; unfold sssH; loc
  | succ n ih => intro a b; unfold sssH; loc <;> exact ih _ _
macro_rules | `(tactic| locl) => `(tactic| with_reducible exact loc_sssH _ _ _)
theorem loc_mergeLoop  (n : Nat) : ∀ (a : Addr) (b : Addr), Blind H (mergeLoop  n a b) := by
  induction n with
  | zero => intro a b; unfold mergeLoop; loc
  | succ n ih => intro a b; unfold mergeLoop; loc <;> exact ih _ _
macro_rules | `(tactic| locl) => `(tactic| with_reducible exact loc_mergeLoop _ _ _)
theorem loc_mergeH {n : Nat} {x : Addr} {y : Addr} : Blind H (mergeH n x y) := by unfold mergeH; loc
macro_rules | `(tactic| locl) => `(tactic| with_reducible exact loc_mergeH)
theorem loc_equH  (n : Nat) : ∀ (a : Addr) (b : Addr), Blind H (equH  n a b) := by
  induction n with
  | zero => intro a b; unfold equH; loc
  | succ n ih => intro a b; unfold equH; loc <;> exact ih _ _
macro_rules | `(tactic| locl) => `(tactic| with_reducible exact loc_equH _ _ _)
theorem loc_neqH  (n : Nat) : ∀ (a : Addr) (b : Addr), Blind H (neqH  n a b) := by
  induction n with
  | zero => intro a b; unfold neqH; loc
  | succ n ih => intro a b; unfold neqH; loc <;> exact ih _ _
macro_rules | `(tactic| locl) => `(tactic| with_reducible exact loc_neqH _ _ _)
theorem loc_matchH  (n : Nat) : ∀ (a : Addr) (b : Addr), Blind H (matchH  n a b) := by
  induction n with
  | zero => intro a b; unfold matchH; loc
  | succ n ih => intro a b; unfold matchH; loc <;> exact ih _ _
macro_rules | `(tactic| locl) => `(tactic| with_reducible exact loc_matchH _ _ _)
theorem loc_lenH  (n : Nat) : ∀ (a : Addr), Blind H (lenH  n a) := by
  induction n with
  | zero => intro a; unfold lenH; loc
  | succ n ih => intro a; unfold lenH; loc <;> exact ih _
macro_rules | `(tactic| locl) => `(tactic| with_reducible exact loc_lenH _ _)
theorem loc_isStringH  (n : Nat) : ∀ (a : Addr), Blind H (isStringH  n a) := by
  induction n with
  | zero => intro a; unfold isStringH; loc
  | succ n ih => intro a; unfold isStringH; loc <;> exact ih _
macro_rules | `(tactic| locl) => `(tactic| with_reducible exact loc_isStringH _ _)
theorem loc_cstringH  (n : Nat) : ∀ (a : Addr) (i : Nat) (j : Nat), Blind H (cstringH  n a i j) := by
  induction n with
  | zero => intro a i j; unfold cstringH; loc
  | succ n ih => intro a i j; unfold cstringH; loc <;> exact ih _ _ _
macro_rules | `(tactic| locl) => `(tactic| with_reducible exact loc_cstringH _ _ _ _)
theorem loc_escapesH  (n : Nat) : ∀ (a : Addr) (b : Bool) (r : Addr), Blind H (escapesH  n a b r) := by
  induction n with
  | zero => intro a b r; unfold escapesH; loc
  | succ n ih => intro a b r; unfold escapesH; loc <;> exact ih _ _ _
macro_rules | `(tactic| locl) => `(tactic| with_reducible exact loc_escapesH _ _ _ _)
theorem loc_charsH {l : List Int} : Blind H (charsH l) := by
  induction l with
  | nil => unfold charsH; loc
  | cons a l ih => unfold charsH; loc
macro_rules | `(tactic| locl) => `(tactic| with_reducible exact loc_charsH)
theorem loc_makeStringH {n : Nat} {l : List UInt8} : Blind H (makeStringH n l) := by unfold makeStringH; loc
macro_rules | `(tactic| locl) => `(tactic| with_reducible exact loc_makeStringH)
theorem loc_mayApplyH  (n : Nat) : ∀ (a : Addr) (b : Addr), Blind H (mayApplyH  n a b) := by
  induction n with
  | zero => intro a b; unfold mayApplyH; loc
  | succ n ih => intro a b; unfold mayApplyH; loc <;> exact ih _ _
macro_rules | `(tactic| locl) => `(tactic| with_reducible exact loc_mayApplyH _ _ _)
theorem loc_bindH  (n : Nat) : ∀ (a : Addr) (b : Addr) (c : Addr), Blind H (bindH  n a b c) := by
  induction n with
  | zero => intro a b c; unfold bindH; loc
  | succ n ih => intro a b c; unfold bindH; loc <;> exact ih _ _ _
macro_rules | `(tactic| locl) => `(tactic| with_reducible exact loc_bindH _ _ _ _)
theorem loc_tails (n : Nat) : (∀ a, Blind H (tailsAssocH n a)) ∧ (∀ a, Blind H (tailsH n a)) := by
  induction n with
  | zero => exact ⟨fun a => by unfold tailsAssocH; loc, fun a => by unfold tailsH; loc⟩
  | succ n ih =>
    refine ⟨fun a => ?_, fun a => ?_⟩
    · unfold tailsAssocH; loc <;> first | exact ih.1 _ | exact ih.2 _
    · unfold tailsH; loc <;> first | exact ih.1 _ | exact ih.2 _
theorem loc_tailsH {n : Nat} {a : Addr} : Blind H (tailsH n a) := (loc_tails n).2 a
macro_rules | `(tactic| locl) => `(tactic| with_reducible exact loc_tailsH)
theorem loc_markH {p : Bool} {a : Addr} : Blind H (markH p a) := by unfold markH; loc
macro_rules | `(tactic| locl) => `(tactic| with_reducible exact loc_markH)
theorem loc_markOneH {p : Bool} {n : Nat} {k : Sym} {a : Addr} {b : Addr} : Blind H (markOneH p n k a b) := by unfold markOneH; loc
macro_rules | `(tactic| locl) => `(tactic| with_reducible exact loc_markOneH)
theorem loc_markLoopH {p : Bool} (n : Nat) : ∀ (k : Sym) (a : Addr) (b : Addr), Blind H (markLoopH p n k a b) := by
  induction n with
  | zero => intro k a b; unfold markLoopH; loc
  | succ n ih => intro k a b; unfold markLoopH; loc <;> exact ih _ _ _
macro_rules | `(tactic| locl) => `(tactic| with_reducible exact loc_markLoopH _ _ _ _)
theorem loc_markTailCallsH {p : Bool} {n : Nat} {k : Sym} {a : Addr} {b : Addr} : Blind H (markTailCallsH p n k a b) := by unfold markTailCallsH; loc
macro_rules | `(tactic| locl) => `(tactic| with_reducible exact loc_markTailCallsH)
theorem loc_isFuncH {a : Addr} : Blind H (isFuncH a) := by unfold isFuncH; loc
macro_rules | `(tactic| locl) => `(tactic| with_reducible exact loc_isFuncH)
theorem loc_findH  (n : Nat) : ∀ (a : Addr) (k : Sym), Blind H (findH  n a k) := by
  induction n with
  | zero => intro a k; unfold findH; loc
  | succ n ih => intro a k; unfold findH; loc <;> exact ih _ _
macro_rules | `(tactic| locl) => `(tactic| with_reducible exact loc_findH _ _ _)
theorem loc_assocH {n : Nat} {a : Addr} {k : Sym} : Blind H (assocH n a k) := by unfold assocH; loc
macro_rules | `(tactic| locl) => `(tactic| with_reducible exact loc_assocH)
theorem loc_treeGetH {k : Sym} : Blind H (treeGetH k) := by unfold treeGetH; loc
macro_rules | `(tactic| locl) => `(tactic| with_reducible exact loc_treeGetH)
theorem loc_setCache {a : Addr} {b : Addr} : Blind H (setCache a b) := by unfold setCache; loc
macro_rules | `(tactic| locl) => `(tactic| with_reducible exact loc_setCache)
theorem loc_lookupH {n : Nat} {a : Addr} {b : Addr} {k : Sym} : Blind H (lookupH n a b k) := by unfold lookupH; loc
macro_rules | `(tactic| locl) => `(tactic| with_reducible exact loc_lookupH)
theorem loc_entryH {k : Sym} {a : Addr} : Blind H (entryH k a) := by unfold entryH; loc
macro_rules | `(tactic| locl) => `(tactic| with_reducible exact loc_entryH)
theorem loc_ownH {a : Addr} : Blind H (ownH a) := by unfold ownH; loc
macro_rules | `(tactic| locl) => `(tactic| with_reducible exact loc_ownH)
theorem loc_setqH {a : Addr} : Blind H (setqH a) := by unfold setqH; loc
macro_rules | `(tactic| locl) => `(tactic| with_reducible exact loc_setqH)
/-! ## The evaluator -/
macro_rules | `(tactic| locl) => `(tactic| with_reducible exact $(Lean.mkIdent `hev) _ _)
theorem loc_progH {ev : HEv} (hev : ∀ c a, Blind H (ev c a)) (n : Nat) : ∀ (c : Addr) (a : Addr) (r : Addr), Blind H (progH ev n c a r) := by
  induction n with
  | zero => intro c a r; unfold progH; loc
  | succ n ih => intro c a r; unfold progH; loc <;> exact ih _ _ _
macro_rules | `(tactic| locl) => `(tactic| with_reducible exact loc_progH $(Lean.mkIdent `hev) _ _ _ _)
theorem loc_evalArgsH {ev : HEv} (hev : ∀ c a, Blind H (ev c a)) (n : Nat) : ∀ (c : Addr) (x : Addr) (y : Addr) (z : Addr), Blind H (evalArgsH ev n c x y z) := by
  induction n with
  | zero => intro c x y z; unfold evalArgsH; loc
  | succ n ih => intro c x y z; unfold evalArgsH; loc <;> exact ih _ _ _ _
macro_rules | `(tactic| locl) => `(tactic| with_reducible exact loc_evalArgsH $(Lean.mkIdent `hev) _ _ _ _ _)
theorem loc_isSelfTailH {a : Addr} {b : Addr} : Blind H (isSelfTailH a b) := by unfold isSelfTailH; loc
macro_rules | `(tactic| locl) => `(tactic| with_reducible exact loc_isSelfTailH)
theorem loc_tailLoopH {ev : HEv} {symb : Addr} {body : Addr} {cls : Addr} (hev : ∀ c a, Blind H (ev c a)) (n : Nat) : ∀ (r : Addr), Blind H (tailLoopH ev symb body cls n r) := by
  induction n with
  | zero => intro r; unfold tailLoopH; loc
  | succ n ih => intro r; unfold tailLoopH; loc <;> exact ih _
macro_rules | `(tactic| locl) => `(tactic| with_reducible exact loc_tailLoopH $(Lean.mkIdent `hev) _ _)
theorem loc_popH {a : Addr} : Blind H (popH a) := by unfold popH; loc
macro_rules | `(tactic| locl) => `(tactic| with_reducible exact loc_popH)
theorem loc_condH {ev : HEv} (hev : ∀ c a, Blind H (ev c a)) (n : Nat) : ∀ (c : Addr) (x : Addr) (y : Addr), Blind H (condH ev n c x y) := by
  induction n with
  | zero => intro c x y; unfold condH; loc
  | succ n ih => intro c x y; unfold condH; loc <;> exact ih _ _ _
macro_rules | `(tactic| locl) => `(tactic| with_reducible exact loc_condH $(Lean.mkIdent `hev) _ _ _ _)
theorem loc_matchLoopH {ev : HEv} (hev : ∀ c a, Blind H (ev c a)) (n : Nat) : ∀ (c : Addr) (x : Addr) (y : Addr), Blind H (matchLoopH ev n c x y) := by
  induction n with
  | zero => intro c x y; unfold matchLoopH; loc
  | succ n ih => intro c x y; unfold matchLoopH; loc <;> exact ih _ _ _
macro_rules | `(tactic| locl) => `(tactic| with_reducible exact loc_matchLoopH $(Lean.mkIdent `hev) _ _ _ _)
theorem loc_listH {ev : HEv} (hev : ∀ c a, Blind H (ev c a)) (n : Nat) : ∀ (c : Addr) (x : Addr), Blind H (listH ev n c x) := by
  induction n with
  | zero => intro c x; unfold listH; loc
  | succ n ih => intro c x; unfold listH; loc <;> exact ih _ _
macro_rules | `(tactic| locl) => `(tactic| with_reducible exact loc_listH $(Lean.mkIdent `hev) _ _ _)
theorem loc_streamH {ev : HEv} (hev : ∀ c a, Blind H (ev c a)) (n : Nat) : ∀ (c : Addr) (x : Addr) (y : Addr), Blind H (streamH ev n c x y) := by
  induction n with
  | zero => intro c x y; unfold streamH; loc
  | succ n ih => intro c x y; unfold streamH; loc <;> exact ih _ _ _
macro_rules | `(tactic| locl) => `(tactic| with_reducible exact loc_streamH $(Lean.mkIdent `hev) _ _ _ _)
theorem loc_letMarkH {u : UB} {n : Nat} {x : Addr} {y : Addr} {z : Addr} (_ : y ∉ H) : Blind H (letMarkH u n x y z) := by unfold letMarkH; loc
macro_rules | `(tactic| locl) => `(tactic| with_reducible exact loc_letMarkH (by assumption))
theorem loc_letBindH {ev : HEv} {u : UB} (hev : ∀ c a, Blind H (ev c a)) (n : Nat) : ∀ (c : Addr) (x : Addr) (y : Addr), Blind H (letBindH ev u n c x y) := by
  induction n with
  | zero => intro c x y; unfold letBindH; loc
  | succ n ih => intro c x y; unfold letBindH; loc <;> exact ih _ _ _
macro_rules | `(tactic| locl) => `(tactic| with_reducible exact loc_letBindH $(Lean.mkIdent `hev) _ _ _ _)
theorem loc_letH {ev : HEv} {u : UB} {n : Nat} {c : Addr} {a : Addr} (hev : ∀ c a, Blind H (ev c a)) : Blind H (letH ev u n c a) := by unfold letH; loc
macro_rules | `(tactic| locl) => `(tactic| with_reducible exact loc_letH $(Lean.mkIdent `hev))
theorem loc_whileH {ev : HEv} {c : Addr} {cnd : Addr} {prg : Addr} (hev : ∀ c a, Blind H (ev c a)) (n : Nat) : ∀ (r : Addr), Blind H (whileH ev c cnd prg n r) := by
  induction n with
  | zero => intro r; unfold whileH; loc
  | succ n ih => intro r; unfold whileH; loc <;> exact ih _
macro_rules | `(tactic| locl) => `(tactic| with_reducible exact loc_whileH $(Lean.mkIdent `hev) _ _)
theorem loc_viewH  (n : Nat) : ∀ (a : Addr), Blind H (viewH  n a) := by
  induction n with
  | zero => intro a; unfold viewH; loc
  | succ n ih => intro a; unfold viewH; loc <;> exact ih _
macro_rules | `(tactic| locl) => `(tactic| with_reducible exact loc_viewH _ _)
theorem loc_prinH {n : Nat} {a : Addr} {b : Bool} : Blind H (prinH n a b) := by unfold prinH; loc
macro_rules | `(tactic| locl) => `(tactic| with_reducible exact loc_prinH)
theorem loc_sepH {b : Bool} : Blind H (sepH b) := by unfold sepH; loc
macro_rules | `(tactic| locl) => `(tactic| with_reducible exact loc_sepH)
theorem loc_prinAllH {ev : HEv} {b : Bool} (hev : ∀ c a, Blind H (ev c a)) (n : Nat) : ∀ (c : Addr) (x : Addr) (y : Addr), Blind H (prinAllH ev b n c x y) := by
  induction n with
  | zero => intro c x y; unfold prinAllH; loc
  | succ n ih => intro c x y; unfold prinAllH; loc <;> exact ih _ _ _
macro_rules | `(tactic| locl) => `(tactic| with_reducible exact loc_prinAllH $(Lean.mkIdent `hev) _ _ _ _)
theorem loc_docH {a : Addr} : Blind H (docH a) := by unfold docH; loc
macro_rules | `(tactic| locl) => `(tactic| with_reducible exact loc_docH)
theorem loc_defH {n : Nat} {f : Addr} {a : Addr} : Blind H (defH n f a) := by unfold defH; loc
macro_rules | `(tactic| locl) => `(tactic| with_reducible exact loc_defH)
theorem loc_assignH {n : Nat} {c : Addr} {x : Addr} {y : Addr} : Blind H (assignH n c x y) := by unfold assignH; loc
macro_rules | `(tactic| locl) => `(tactic| with_reducible exact loc_assignH)
theorem loc_setH {ev : HEv} {u : UB} {n : Nat} {c : Addr} {a : Addr} (hev : ∀ c a, Blind H (ev c a)) : Blind H (setH ev u n c a) := by unfold setH; loc
macro_rules | `(tactic| locl) => `(tactic| with_reducible exact loc_setH $(Lean.mkIdent `hev))
theorem loc_setqNatH {ev : HEv} {c : Addr} {a : Addr} (hev : ∀ c a, Blind H (ev c a)) : Blind H (setqNatH ev c a) := by unfold setqNatH; loc
macro_rules | `(tactic| locl) => `(tactic| with_reducible exact loc_setqNatH $(Lean.mkIdent `hev))
theorem loc_orH {ev : HEv} {c : Addr} {a : Addr} (hev : ∀ c a, Blind H (ev c a)) : Blind H (orH ev c a) := by unfold orH; loc
macro_rules | `(tactic| locl) => `(tactic| with_reducible exact loc_orH $(Lean.mkIdent `hev))
theorem loc_ofAtom {v : Val} : Blind H (ofAtom v) := by unfold ofAtom; loc
macro_rules | `(tactic| locl) => `(tactic| with_reducible exact loc_ofAtom)
theorem loc_symNatH {n : Nat} {x : Addr} : Blind H (symNatH n x) := by unfold symNatH; loc
macro_rules | `(tactic| locl) => `(tactic| with_reducible exact loc_symNatH)
theorem loc_unaryH {n : Nat} {op : Native} {x : Addr} : Blind H (unaryH n op x) := by unfold unaryH; loc
macro_rules | `(tactic| locl) => `(tactic| with_reducible exact loc_unaryH)
theorem loc_binaryH {n : Nat} {op : Native} {x : Addr} {y : Addr} : Blind H (binaryH n op x y) := by unfold binaryH; loc
macro_rules | `(tactic| locl) => `(tactic| with_reducible exact loc_binaryH)
theorem loc_nativeAnyH {n : Nat} {ev : HEv} {op : Native} {u : UB} {f : Addr} {c : Addr} {a : Addr} (hev : ∀ c a, Blind H (ev c a)) : Blind H (nativeAnyH n ev op u f c a) := by unfold nativeAnyH; loc
macro_rules | `(tactic| locl) => `(tactic| with_reducible exact loc_nativeAnyH $(Lean.mkIdent `hev))
theorem loc_nativeRemH {n : Nat} {ev : HEv} {op : Native} {c : Addr} {a : Addr} {b : Addr} (hev : ∀ c a, Blind H (ev c a)) : Blind H (nativeRemH n ev op c a b) := by unfold nativeRemH; loc
macro_rules | `(tactic| locl) => `(tactic| with_reducible exact loc_nativeRemH $(Lean.mkIdent `hev))
theorem loc_expectEnv {a : Addr} {b : Addr} : Blind H (expectEnv a b) := by unfold expectEnv; loc
macro_rules | `(tactic| locl) => `(tactic| with_reducible exact loc_expectEnv)
theorem loc_callNativeH {n : Nat} {ev : HEv} {op : Native} {x : Addr} {y : Addr} (hev : ∀ c a, Blind H (ev c a)) : Blind H (callNativeH n ev op x y) := by unfold callNativeH; loc
macro_rules | `(tactic| locl) => `(tactic| with_reducible exact loc_callNativeH $(Lean.mkIdent `hev))
theorem loc_nativeClosH {n : Nat} {x : Addr} {y : Addr} {z : Addr} : Blind H (nativeClosH n x y z) := by unfold nativeClosH; loc
macro_rules | `(tactic| locl) => `(tactic| with_reducible exact loc_nativeClosH)
theorem loc_applyH {n : Nat} {ev : HEv} {a : Addr} {b : Addr} {c : Addr} {d : Addr} {e : Addr} {f : Addr} (hev : ∀ c a, Blind H (ev c a)) : Blind H (applyH n ev a b c d e f) := by unfold applyH; loc
macro_rules | `(tactic| locl) => `(tactic| with_reducible exact loc_applyH $(Lean.mkIdent `hev))
theorem loc_evalFuncH {n : Nat} {ev : HEv} {a : Addr} {b : Addr} {c : Addr} {d : Addr} (hev : ∀ c a, Blind H (ev c a)) : Blind H (evalFuncH n ev a b c d) := by unfold evalFuncH; loc
macro_rules | `(tactic| locl) => `(tactic| with_reducible exact loc_evalFuncH $(Lean.mkIdent `hev))
theorem loc_evalNextH {n : Nat} {ev : HEv} {a : Addr} {b : Addr} {c : Addr} {d : Addr} (hev : ∀ c a, Blind H (ev c a)) : Blind H (evalNextH n ev a b c d) := by unfold evalNextH; loc
macro_rules | `(tactic| locl) => `(tactic| with_reducible exact loc_evalNextH $(Lean.mkIdent `hev))
theorem loc_evalPairH {n : Nat} {ev : HEv} {a : Addr} {b : Addr} (hev : ∀ c a, Blind H (ev c a)) : Blind H (evalPairH n ev a b) := by unfold evalPairH; loc
macro_rules | `(tactic| locl) => `(tactic| with_reducible exact loc_evalPairH $(Lean.mkIdent `hev))
theorem loc_evalStepH {n : Nat} {ev : HEv} {a : Addr} {b : Addr} (hev : ∀ c a, Blind H (ev c a)) : Blind H (evalStepH n ev a b) := by unfold evalStepH; loc
macro_rules | `(tactic| locl) => `(tactic| with_reducible exact loc_evalStepH $(Lean.mkIdent `hev))
theorem loc_evalNH (n : Nat) : ∀ c a, Blind H (evalNH n c a) := by
  induction n with
  | zero => intro c a; exact loc_oof
  | succ n ih => intro c a; exact loc_evalStepH ih
macro_rules | `(tactic| locl) => `(tactic| with_reducible exact loc_evalNH _ _ _)


end Heap
end Mnml
