import Verif.HeapEval

/-!
# Strict mode only refuses

A run of the cell model in strict mode that comes to an end is a run of the cell model without strict mode, with the
same result and the same memory.
-/

namespace Mnml
namespace Heap

/-- The same state without strict mode. -/
def loose (s : HSt) : HSt := { s with strict := false }

/-- Whatever the computation does, it does without strict mode. -/
def Rlx {α : Type} (m : HM α) : Prop := ∀ s a s', m s = .ok (a, s') → m (loose s) = .ok (a, loose s')

theorem Rlx.pure {α : Type} {a : α} : Rlx (Pure.pure a : HM α) := by intro s b s' e; cases e; rfl

theorem Rlx.bind {α β : Type} {m : HM α} {f : α → HM β} (h : Rlx m) (h' : ∀ a, Rlx (f a)) : Rlx (m >>= f) := by
  intro s b s' e
  have e1 : (m s >>= fun p => f p.1 p.2) = .ok (b, s') := e
  cases hm : m s with
  | ok p =>
    rw [hm] at e1
    have e2 : (m (loose s) >>= fun p => f p.1 p.2) = .ok (b, loose s') := by
      rw [h s p.1 p.2 hm]
      exact h' p.1 p.2 b s' e1
    exact e2
  | _ => rw [hm] at e1; cases e1

theorem rlx_oof {α : Type} : Rlx (HM.oof : HM α) := by intro s a s' e; cases e
theorem rlx_unsupported {α : Type} : Rlx (HM.unsupported : HM α) := by intro s a s' e; cases e
theorem rlx_ub {α : Type} {u : UB} : Rlx (HM.ub u : HM α) := by intro s a s' e; cases e
theorem rlx_lift {α : Type} {r : Res α} : Rlx (HM.lift r) := by
  intro s a s' e
  cases r <;> cases e
  rfl
theorem rlx_cell {a : Addr} : Rlx (cell a) := by
  intro s b s' e
  unfold cell at e
  cases hm : s.mem a with
  | none => rw [hm] at e; cases e
  | some c => rw [hm] at e; cases e; unfold cell; simp only [loose]; rw [hm]
theorem rlx_modify {a : Addr} {f : Cell → Cell} : Rlx (modify a f) := by
  intro s b s' e
  unfold modify at e
  cases hm : s.mem a with
  | none => rw [hm] at e; cases e
  | some c => rw [hm] at e; cases e; unfold modify; simp only [loose]; rw [hm]
theorem rlx_free {a : Addr} : Rlx (free a) := by
  intro s b s' e
  unfold free at e
  cases hm : s.mem a with
  | none => rw [hm] at e; cases e
  | some c => rw [hm] at e; cases e; unfold free; simp only [loose]; rw [hm]
theorem rlx_alloc {d : Data} : Rlx (alloc d) := by intro s b s' e; cases e; rfl
theorem rlx_loneH {n : Nat} {f a : Addr} : Rlx (loneH n f a) := by
  intro s b s' e
  unfold loneH at e ⊢
  simp only [loose]
  split at e
  · rename_i h
    cases e
    exact if_pos h
  · cases e
theorem rlx_guard {b : Bool} : Rlx (guard b) := by
  intro s a s' e
  unfold guard at e
  split at e
  · cases e
  · cases e; rfl
theorem rlx_leak {a : Addr} : Rlx (leak a) := by intro s b s' e; cases e; rfl
theorem rlx_abandon {a : Addr} : Rlx (abandon a) := by intro s b s' e; cases e; rfl
theorem rlx_push {k : Sym} {a : Addr} : Rlx (pushGlobal k a) := by intro s b s' e; cases e; rfl
theorem rlx_global {k : Sym} : Rlx (globalOf k) := by intro s b s' e; cases e; rfl
theorem rlx_emit {l : List UInt8} : Rlx (emitH l) := by intro s b s' e; cases e; rfl
theorem rlx_fresh {u : UB} {a : Addr} : Rlx (fresh u a) := by
  intro s b s' e
  unfold fresh at e ⊢
  simp only [loose]
  split at e
  · rename_i h
    cases e
    exact if_pos h
  · cases e

/-- The leaves; extended below. -/
syntax "rlxl" : tactic
macro_rules | `(tactic| rlxl) => `(tactic| with_reducible first
  | assumption
  | exact Rlx.pure | exact rlx_oof | exact rlx_unsupported | exact rlx_ub | exact rlx_lift
  | exact rlx_cell | exact rlx_modify | exact rlx_free | exact rlx_alloc | exact rlx_loneH | exact rlx_guard
  | exact rlx_leak | exact rlx_abandon | exact rlx_push | exact rlx_global | exact rlx_emit | exact rlx_fresh)

/-- The structural steps. -/
macro "rlx" : tactic => `(tactic| repeat' first
  | rlxl
  | with_reducible refine Rlx.bind ?_ (fun _ => ?_)
  | split)

theorem rlx_up {a : Addr} : Rlx (up a) := by unfold up; rlx
macro_rules | `(tactic| rlxl) => `(tactic| with_reducible exact rlx_up)
theorem rlx_dataOf {a : Addr} : Rlx (dataOf a) := by unfold dataOf; rlx
macro_rules | `(tactic| rlxl) => `(tactic| with_reducible exact rlx_dataOf)
theorem rlx_pairOf {a : Addr} : Rlx (pairOf a) := by unfold pairOf; rlx
macro_rules | `(tactic| rlxl) => `(tactic| with_reducible exact rlx_pairOf)
theorem rlx_setData {a : Addr} {d : Data} : Rlx (setData a d) := by unfold setData; rlx
macro_rules | `(tactic| rlxl) => `(tactic| with_reducible exact rlx_setData)
theorem rlx_setTail {a : Addr} : Rlx (setTail a) := by unfold setTail; rlx
macro_rules | `(tactic| rlxl) => `(tactic| with_reducible exact rlx_setTail)
theorem rlx_release  (n : Nat) : ∀ (a : Addr), Rlx (release  n a) := by
  induction n with
  | zero => intro a; unfold release; rlx
  | succ n ih => intro a; unfold release; rlx <;> exact ih _
macro_rules | `(tactic| rlxl) => `(tactic| with_reducible exact rlx_release _ _)
theorem rlx_X {a : Addr} : Rlx (X a) := fun s => rlx_release (s.next + 1) a s
macro_rules | `(tactic| rlxl) => `(tactic| with_reducible exact rlx_X)
theorem rlx_Xs {l : List Addr} : Rlx (Xs l) := by
  induction l with
  | nil => unfold Xs; rlx
  | cons a l ih => unfold Xs; exact rlx_X.bind fun _ => ih
macro_rules | `(tactic| rlxl) => `(tactic| with_reducible exact rlx_Xs)
theorem rlx_mkNil  : Rlx (mkNil ) := by unfold mkNil; rlx
macro_rules | `(tactic| rlxl) => `(tactic| with_reducible exact rlx_mkNil)
theorem rlx_mkTrue  : Rlx (mkTrue ) := by unfold mkTrue; rlx
macro_rules | `(tactic| rlxl) => `(tactic| with_reducible exact rlx_mkTrue)
theorem rlx_mkNum {i : Int} : Rlx (mkNum i) := by unfold mkNum; rlx
macro_rules | `(tactic| rlxl) => `(tactic| with_reducible exact rlx_mkNum)
theorem rlx_mkChr {i : Int} : Rlx (mkChr i) := by unfold mkChr; rlx
macro_rules | `(tactic| rlxl) => `(tactic| with_reducible exact rlx_mkChr)
theorem rlx_mkSym {k : Sym} : Rlx (mkSym k) := by unfold mkSym; rlx
macro_rules | `(tactic| rlxl) => `(tactic| with_reducible exact rlx_mkSym)
theorem rlx_mkBool {b : Bool} : Rlx (mkBool b) := by unfold mkBool; rlx
macro_rules | `(tactic| rlxl) => `(tactic| with_reducible exact rlx_mkBool)
theorem rlx_consH {x : Addr} {y : Addr} : Rlx (consH x y) := by unfold consH; rlx
macro_rules | `(tactic| rlxl) => `(tactic| with_reducible exact rlx_consH)
theorem rlx_carH {a : Addr} : Rlx (carH a) := by unfold carH; rlx
macro_rules | `(tactic| rlxl) => `(tactic| with_reducible exact rlx_carH)
theorem rlx_cdrH {a : Addr} : Rlx (cdrH a) := by unfold cdrH; rlx
macro_rules | `(tactic| rlxl) => `(tactic| with_reducible exact rlx_cdrH)
theorem rlx_lastPair  (n : Nat) : ∀ (a : Addr), Rlx (lastPair  n a) := by
  induction n with
  | zero => intro a; unfold lastPair; rlx
  | succ n ih => intro a; unfold lastPair; rlx <;> exact ih _
macro_rules | `(tactic| rlxl) => `(tactic| with_reducible exact rlx_lastPair _ _)
theorem rlx_concH {n : Nat} {x : Addr} {y : Addr} : Rlx (concH n x y) := by unfold concH; rlx
macro_rules | `(tactic| rlxl) => `(tactic| with_reducible exact rlx_concH)
theorem rlx_appendH {n : Nat} {x : Addr} {y : Addr} : Rlx (appendH n x y) := by unfold appendH; rlx
macro_rules | `(tactic| rlxl) => `(tactic| with_reducible exact rlx_appendH)
theorem rlx_noFlag {a : Addr} : Rlx (noFlag a) := by unfold noFlag; rlx
macro_rules | `(tactic| rlxl) => `(tactic| with_reducible exact rlx_noFlag)
theorem rlx_dupH  (n : Nat) : ∀ (a : Addr), Rlx (dupH  n a) := by
  induction n with
  | zero => intro a; unfold dupH; rlx
  | succ n ih => intro a; unfold dupH; rlx <;> exact ih _
macro_rules | `(tactic| rlxl) => `(tactic| with_reducible exact rlx_dupH _ _)
theorem rlx_compareH {a : Addr} {b : Addr} : Rlx (compareH a b) := by unfold compareH; rlx
macro_rules | `(tactic| rlxl) => `(tactic| with_reducible exact rlx_compareH)
theorem rlx_sssH  (n : Nat) : ∀ (a : Addr) (b : Addr), Rlx (sssH  n a b) := by
  induction n with
  | zero => intro a b; unfold sssH; rlx
  | succ n ih => intro a b; unfold sssH; rlx <;> exact ih _ _
macro_rules | `(tactic| rlxl) => `(tactic| with_reducible exact rlx_sssH _ _ _)
theorem rlx_mergeLoop  (n : Nat) : ∀ (a : Addr) (b : Addr), Rlx (mergeLoop  n a b) := by
  induction n with
  | zero => intro a b; unfold mergeLoop; rlx
  | succ n ih => intro a b; unfold mergeLoop; rlx <;> exact ih _ _
macro_rules | `(tactic| rlxl) => `(tactic| with_reducible exact rlx_mergeLoop _ _ _)
theorem rlx_mergeH {n : Nat} {x : Addr} {y : Addr} : Rlx (mergeH n x y) := by unfold mergeH; rlx
macro_rules | `(tactic| rlxl) => `(tactic| with_reducible exact rlx_mergeH)
theorem rlx_equH  (n : Nat) : ∀ (a : Addr) (b : Addr), Rlx (equH  n a b) := by
  induction n with
  | zero => intro a b; unfold equH; rlx
  | succ n ih => intro a b; unfold equH; rlx <;> exact ih _ _
macro_rules | `(tactic| rlxl) => `(tactic| with_reducible exact rlx_equH _ _ _)
theorem rlx_neqH  (n : Nat) : ∀ (a : Addr) (b : Addr), Rlx (neqH  n a b) := by
  induction n with
  | zero => intro a b; unfold neqH; rlx
  | succ n ih => intro a b; unfold neqH; rlx <;> exact ih _ _
macro_rules | `(tactic| rlxl) => `(tactic| with_reducible exact rlx_neqH _ _ _)
theorem rlx_matchH  (n : Nat) : ∀ (a : Addr) (b : Addr), Rlx (matchH  n a b) := by
  induction n with
  | zero => intro a b; unfold matchH; rlx
  | succ n ih => intro a b; unfold matchH; rlx <;> exact ih _ _
macro_rules | `(tactic| rlxl) => `(tactic| with_reducible exact rlx_matchH _ _ _)
theorem rlx_lenH  (n : Nat) : ∀ (a : Addr), Rlx (lenH  n a) := by
  induction n with
  | zero => intro a; unfold lenH; rlx
  | succ n ih => intro a; unfold lenH; rlx <;> exact ih _
macro_rules | `(tactic| rlxl) => `(tactic| with_reducible exact rlx_lenH _ _)
theorem rlx_isStringH  (n : Nat) : ∀ (a : Addr), Rlx (isStringH  n a) := by
  induction n with
  | zero => intro a; unfold isStringH; rlx
  | succ n ih => intro a; unfold isStringH; rlx <;> exact ih _
macro_rules | `(tactic| rlxl) => `(tactic| with_reducible exact rlx_isStringH _ _)
theorem rlx_cstringH  (n : Nat) : ∀ (a : Addr) (i : Nat) (j : Nat), Rlx (cstringH  n a i j) := by
  induction n with
  | zero => intro a i j; unfold cstringH; rlx
  | succ n ih => intro a i j; unfold cstringH; rlx <;> exact ih _ _ _
macro_rules | `(tactic| rlxl) => `(tactic| with_reducible exact rlx_cstringH _ _ _ _)
theorem rlx_escapesH  (n : Nat) : ∀ (a : Addr) (b : Bool) (r : Addr), Rlx (escapesH  n a b r) := by
  induction n with
  | zero => intro a b r; unfold escapesH; rlx
  | succ n ih => intro a b r; unfold escapesH; rlx <;> exact ih _ _ _
macro_rules | `(tactic| rlxl) => `(tactic| with_reducible exact rlx_escapesH _ _ _ _)
theorem rlx_charsH {l : List Int} : Rlx (charsH l) := by
  induction l with
  | nil => unfold charsH; rlx
  | cons a l ih => unfold charsH; rlx
macro_rules | `(tactic| rlxl) => `(tactic| with_reducible exact rlx_charsH)
theorem rlx_makeStringH {n : Nat} {l : List UInt8} : Rlx (makeStringH n l) := by unfold makeStringH; rlx
macro_rules | `(tactic| rlxl) => `(tactic| with_reducible exact rlx_makeStringH)
theorem rlx_mayApplyH  (n : Nat) : ∀ (a : Addr) (b : Addr), Rlx (mayApplyH  n a b) := by
  induction n with
  | zero => intro a b; unfold mayApplyH; rlx
  | succ n ih => intro a b; unfold mayApplyH; rlx <;> exact ih _ _
macro_rules | `(tactic| rlxl) => `(tactic| with_reducible exact rlx_mayApplyH _ _ _)
theorem rlx_bindH  (n : Nat) : ∀ (a : Addr) (b : Addr) (c : Addr), Rlx (bindH  n a b c) := by
  induction n with
  | zero => intro a b c; unfold bindH; rlx
  | succ n ih => intro a b c; unfold bindH; rlx <;> exact ih _ _ _
macro_rules | `(tactic| rlxl) => `(tactic| with_reducible exact rlx_bindH _ _ _ _)
theorem rlx_tails (n : Nat) : (∀ a, Rlx (tailsAssocH n a)) ∧ (∀ a, Rlx (tailsH n a)) := by
  induction n with
  | zero => exact ⟨fun a => by unfold tailsAssocH; rlx, fun a => by unfold tailsH; rlx⟩
  | succ n ih =>
    refine ⟨fun a => ?_, fun a => ?_⟩
    · unfold tailsAssocH; rlx <;> first | exact ih.1 _ | exact ih.2 _
    · unfold tailsH; rlx <;> first | exact ih.1 _ | exact ih.2 _
theorem rlx_tailsH {n : Nat} {a : Addr} : Rlx (tailsH n a) := (rlx_tails n).2 a
macro_rules | `(tactic| rlxl) => `(tactic| with_reducible exact rlx_tailsH)
theorem rlx_markH {p : Bool} {a : Addr} : Rlx (markH p a) := by unfold markH; rlx
macro_rules | `(tactic| rlxl) => `(tactic| with_reducible exact rlx_markH)
theorem rlx_markOneH {p : Bool} {n : Nat} {k : Sym} {a : Addr} {b : Addr} : Rlx (markOneH p n k a b) := by unfold markOneH; rlx
macro_rules | `(tactic| rlxl) => `(tactic| with_reducible exact rlx_markOneH)
theorem rlx_markLoopH {p : Bool} (n : Nat) : ∀ (k : Sym) (a : Addr) (b : Addr), Rlx (markLoopH p n k a b) := by
  induction n with
  | zero => intro k a b; unfold markLoopH; rlx
  | succ n ih => intro k a b; unfold markLoopH; rlx <;> exact ih _ _ _
macro_rules | `(tactic| rlxl) => `(tactic| with_reducible exact rlx_markLoopH _ _ _ _)
theorem rlx_markTailCallsH {p : Bool} {n : Nat} {k : Sym} {a : Addr} {b : Addr} : Rlx (markTailCallsH p n k a b) := by unfold markTailCallsH; rlx
macro_rules | `(tactic| rlxl) => `(tactic| with_reducible exact rlx_markTailCallsH)
theorem rlx_isFuncH {a : Addr} : Rlx (isFuncH a) := by unfold isFuncH; rlx
macro_rules | `(tactic| rlxl) => `(tactic| with_reducible exact rlx_isFuncH)
theorem rlx_findH  (n : Nat) : ∀ (a : Addr) (k : Sym), Rlx (findH  n a k) := by
  induction n with
  | zero => intro a k; unfold findH; rlx
  | succ n ih => intro a k; unfold findH; rlx <;> exact ih _ _
macro_rules | `(tactic| rlxl) => `(tactic| with_reducible exact rlx_findH _ _ _)
theorem rlx_assocH {n : Nat} {a : Addr} {k : Sym} : Rlx (assocH n a k) := by unfold assocH; rlx
macro_rules | `(tactic| rlxl) => `(tactic| with_reducible exact rlx_assocH)
theorem rlx_treeGetH {k : Sym} : Rlx (treeGetH k) := by unfold treeGetH; rlx
macro_rules | `(tactic| rlxl) => `(tactic| with_reducible exact rlx_treeGetH)
theorem rlx_setCache {a : Addr} {b : Addr} : Rlx (setCache a b) := by unfold setCache; rlx
macro_rules | `(tactic| rlxl) => `(tactic| with_reducible exact rlx_setCache)
theorem rlx_lookupH {n : Nat} {a : Addr} {b : Addr} {k : Sym} : Rlx (lookupH n a b k) := by unfold lookupH; rlx
macro_rules | `(tactic| rlxl) => `(tactic| with_reducible exact rlx_lookupH)
theorem rlx_entryH {k : Sym} {a : Addr} : Rlx (entryH k a) := by unfold entryH; rlx
macro_rules | `(tactic| rlxl) => `(tactic| with_reducible exact rlx_entryH)
theorem rlx_ownH {a : Addr} : Rlx (ownH a) := by unfold ownH; rlx
macro_rules | `(tactic| rlxl) => `(tactic| with_reducible exact rlx_ownH)
theorem rlx_setqH {a : Addr} : Rlx (setqH a) := by unfold setqH; rlx
macro_rules | `(tactic| rlxl) => `(tactic| with_reducible exact rlx_setqH)
/-! ## The evaluator -/
macro_rules | `(tactic| rlxl) => `(tactic| with_reducible exact $(Lean.mkIdent `hev) _ _)
theorem rlx_progH {ev : HEv} (hev : ∀ c a, Rlx (ev c a)) (n : Nat) : ∀ (c : Addr) (a : Addr) (r : Addr), Rlx (progH ev n c a r) := by
  induction n with
  | zero => intro c a r; unfold progH; rlx
  | succ n ih => intro c a r; unfold progH; rlx <;> exact ih _ _ _
macro_rules | `(tactic| rlxl) => `(tactic| with_reducible exact rlx_progH $(Lean.mkIdent `hev) _ _ _ _)
theorem rlx_evalArgsH {ev : HEv} (hev : ∀ c a, Rlx (ev c a)) (n : Nat) : ∀ (c : Addr) (x : Addr) (y : Addr) (z : Addr), Rlx (evalArgsH ev n c x y z) := by
  induction n with
  | zero => intro c x y z; unfold evalArgsH; rlx
  | succ n ih => intro c x y z; unfold evalArgsH; rlx <;> exact ih _ _ _ _
macro_rules | `(tactic| rlxl) => `(tactic| with_reducible exact rlx_evalArgsH $(Lean.mkIdent `hev) _ _ _ _ _)
theorem rlx_isSelfTailH {a : Addr} {b : Addr} : Rlx (isSelfTailH a b) := by unfold isSelfTailH; rlx
macro_rules | `(tactic| rlxl) => `(tactic| with_reducible exact rlx_isSelfTailH)
theorem rlx_tailLoopH {ev : HEv} {symb : Addr} {body : Addr} {cls : Addr} (hev : ∀ c a, Rlx (ev c a)) (n : Nat) : ∀ (r : Addr), Rlx (tailLoopH ev symb body cls n r) := by
  induction n with
  | zero => intro r; unfold tailLoopH; rlx
  | succ n ih => intro r; unfold tailLoopH; rlx <;> exact ih _
macro_rules | `(tactic| rlxl) => `(tactic| with_reducible exact rlx_tailLoopH $(Lean.mkIdent `hev) _ _)
theorem rlx_popH {a : Addr} : Rlx (popH a) := by unfold popH; rlx
macro_rules | `(tactic| rlxl) => `(tactic| with_reducible exact rlx_popH)
theorem rlx_condH {ev : HEv} (hev : ∀ c a, Rlx (ev c a)) (n : Nat) : ∀ (c : Addr) (x : Addr) (y : Addr), Rlx (condH ev n c x y) := by
  induction n with
  | zero => intro c x y; unfold condH; rlx
  | succ n ih => intro c x y; unfold condH; rlx <;> exact ih _ _ _
macro_rules | `(tactic| rlxl) => `(tactic| with_reducible exact rlx_condH $(Lean.mkIdent `hev) _ _ _ _)
theorem rlx_matchLoopH {ev : HEv} (hev : ∀ c a, Rlx (ev c a)) (n : Nat) : ∀ (c : Addr) (x : Addr) (y : Addr), Rlx (matchLoopH ev n c x y) := by
  induction n with
  | zero => intro c x y; unfold matchLoopH; rlx
  | succ n ih => intro c x y; unfold matchLoopH; rlx <;> exact ih _ _ _
macro_rules | `(tactic| rlxl) => `(tactic| with_reducible exact rlx_matchLoopH $(Lean.mkIdent `hev) _ _ _ _)
theorem rlx_listH {ev : HEv} (hev : ∀ c a, Rlx (ev c a)) (n : Nat) : ∀ (c : Addr) (x : Addr), Rlx (listH ev n c x) := by
  induction n with
  | zero => intro c x; unfold listH; rlx
  | succ n ih => intro c x; unfold listH; rlx <;> exact ih _ _
macro_rules | `(tactic| rlxl) => `(tactic| with_reducible exact rlx_listH $(Lean.mkIdent `hev) _ _ _)
theorem rlx_streamH {ev : HEv} (hev : ∀ c a, Rlx (ev c a)) (n : Nat) : ∀ (c : Addr) (x : Addr) (y : Addr), Rlx (streamH ev n c x y) := by
  induction n with
  | zero => intro c x y; unfold streamH; rlx
  | succ n ih => intro c x y; unfold streamH; rlx <;> exact ih _ _ _
macro_rules | `(tactic| rlxl) => `(tactic| with_reducible exact rlx_streamH $(Lean.mkIdent `hev) _ _ _ _)
theorem rlx_letMarkH {u : UB} {n : Nat} {x : Addr} {y : Addr} {z : Addr} : Rlx (letMarkH u n x y z) := by unfold letMarkH; rlx
macro_rules | `(tactic| rlxl) => `(tactic| with_reducible exact rlx_letMarkH)
theorem rlx_letBindH {ev : HEv} {u : UB} (hev : ∀ c a, Rlx (ev c a)) (n : Nat) : ∀ (c : Addr) (x : Addr) (y : Addr), Rlx (letBindH ev u n c x y) := by
  induction n with
  | zero => intro c x y; unfold letBindH; rlx
  | succ n ih => intro c x y; unfold letBindH; rlx <;> exact ih _ _ _
macro_rules | `(tactic| rlxl) => `(tactic| with_reducible exact rlx_letBindH $(Lean.mkIdent `hev) _ _ _ _)
theorem rlx_letH {ev : HEv} {u : UB} {n : Nat} {c : Addr} {a : Addr} (hev : ∀ c a, Rlx (ev c a)) : Rlx (letH ev u n c a) := by unfold letH; rlx
macro_rules | `(tactic| rlxl) => `(tactic| with_reducible exact rlx_letH $(Lean.mkIdent `hev))
theorem rlx_whileH {ev : HEv} {c : Addr} {cnd : Addr} {prg : Addr} (hev : ∀ c a, Rlx (ev c a)) (n : Nat) : ∀ (r : Addr), Rlx (whileH ev c cnd prg n r) := by
  induction n with
  | zero => intro r; unfold whileH; rlx
  | succ n ih => intro r; unfold whileH; rlx <;> exact ih _
macro_rules | `(tactic| rlxl) => `(tactic| with_reducible exact rlx_whileH $(Lean.mkIdent `hev) _ _)
theorem rlx_viewH  (n : Nat) : ∀ (a : Addr), Rlx (viewH  n a) := by
  induction n with
  | zero => intro a; unfold viewH; rlx
  | succ n ih => intro a; unfold viewH; rlx <;> exact ih _
macro_rules | `(tactic| rlxl) => `(tactic| with_reducible exact rlx_viewH _ _)
theorem rlx_prinH {n : Nat} {a : Addr} {b : Bool} : Rlx (prinH n a b) := by unfold prinH; rlx
macro_rules | `(tactic| rlxl) => `(tactic| with_reducible exact rlx_prinH)
theorem rlx_sepH {b : Bool} : Rlx (sepH b) := by unfold sepH; rlx
macro_rules | `(tactic| rlxl) => `(tactic| with_reducible exact rlx_sepH)
theorem rlx_prinAllH {ev : HEv} {b : Bool} (hev : ∀ c a, Rlx (ev c a)) (n : Nat) : ∀ (c : Addr) (x : Addr) (y : Addr), Rlx (prinAllH ev b n c x y) := by
  induction n with
  | zero => intro c x y; unfold prinAllH; rlx
  | succ n ih => intro c x y; unfold prinAllH; rlx <;> exact ih _ _ _
macro_rules | `(tactic| rlxl) => `(tactic| with_reducible exact rlx_prinAllH $(Lean.mkIdent `hev) _ _ _ _)
theorem rlx_docH {a : Addr} : Rlx (docH a) := by unfold docH; rlx
macro_rules | `(tactic| rlxl) => `(tactic| with_reducible exact rlx_docH)
theorem rlx_defH {n : Nat} {f : Addr} {a : Addr} : Rlx (defH n f a) := by unfold defH; rlx
macro_rules | `(tactic| rlxl) => `(tactic| with_reducible exact rlx_defH)
theorem rlx_assignH {n : Nat} {c : Addr} {x : Addr} {y : Addr} : Rlx (assignH n c x y) := by unfold assignH; rlx
macro_rules | `(tactic| rlxl) => `(tactic| with_reducible exact rlx_assignH)
theorem rlx_setH {ev : HEv} {u : UB} {n : Nat} {c : Addr} {a : Addr} (hev : ∀ c a, Rlx (ev c a)) : Rlx (setH ev u n c a) := by unfold setH; rlx
macro_rules | `(tactic| rlxl) => `(tactic| with_reducible exact rlx_setH $(Lean.mkIdent `hev))
theorem rlx_setqNatH {ev : HEv} {c : Addr} {a : Addr} (hev : ∀ c a, Rlx (ev c a)) : Rlx (setqNatH ev c a) := by unfold setqNatH; rlx
macro_rules | `(tactic| rlxl) => `(tactic| with_reducible exact rlx_setqNatH $(Lean.mkIdent `hev))
theorem rlx_orH {ev : HEv} {c : Addr} {a : Addr} (hev : ∀ c a, Rlx (ev c a)) : Rlx (orH ev c a) := by unfold orH; rlx
macro_rules | `(tactic| rlxl) => `(tactic| with_reducible exact rlx_orH $(Lean.mkIdent `hev))
theorem rlx_ofAtom {v : Val} : Rlx (ofAtom v) := by unfold ofAtom; rlx
macro_rules | `(tactic| rlxl) => `(tactic| with_reducible exact rlx_ofAtom)
theorem rlx_symNatH {n : Nat} {x : Addr} : Rlx (symNatH n x) := by unfold symNatH; rlx
macro_rules | `(tactic| rlxl) => `(tactic| with_reducible exact rlx_symNatH)
theorem rlx_unaryH {n : Nat} {op : Native} {x : Addr} : Rlx (unaryH n op x) := by unfold unaryH; rlx
macro_rules | `(tactic| rlxl) => `(tactic| with_reducible exact rlx_unaryH)
theorem rlx_binaryH {n : Nat} {op : Native} {x : Addr} {y : Addr} : Rlx (binaryH n op x y) := by unfold binaryH; rlx
macro_rules | `(tactic| rlxl) => `(tactic| with_reducible exact rlx_binaryH)
theorem rlx_nativeAnyH {n : Nat} {ev : HEv} {op : Native} {u : UB} {f : Addr} {c : Addr} {a : Addr} (hev : ∀ c a, Rlx (ev c a)) : Rlx (nativeAnyH n ev op u f c a) := by unfold nativeAnyH; rlx
macro_rules | `(tactic| rlxl) => `(tactic| with_reducible exact rlx_nativeAnyH $(Lean.mkIdent `hev))
theorem rlx_nativeRemH {n : Nat} {ev : HEv} {op : Native} {c : Addr} {a : Addr} {b : Addr} (hev : ∀ c a, Rlx (ev c a)) : Rlx (nativeRemH n ev op c a b) := by unfold nativeRemH; rlx
macro_rules | `(tactic| rlxl) => `(tactic| with_reducible exact rlx_nativeRemH $(Lean.mkIdent `hev))
theorem rlx_expectEnv {a : Addr} {b : Addr} : Rlx (expectEnv a b) := by unfold expectEnv; rlx
macro_rules | `(tactic| rlxl) => `(tactic| with_reducible exact rlx_expectEnv)
theorem rlx_callNativeH {n : Nat} {ev : HEv} {op : Native} {x : Addr} {y : Addr} (hev : ∀ c a, Rlx (ev c a)) : Rlx (callNativeH n ev op x y) := by unfold callNativeH; rlx
macro_rules | `(tactic| rlxl) => `(tactic| with_reducible exact rlx_callNativeH $(Lean.mkIdent `hev))
theorem rlx_nativeClosH {n : Nat} {x : Addr} {y : Addr} {z : Addr} : Rlx (nativeClosH n x y z) := by unfold nativeClosH; rlx
macro_rules | `(tactic| rlxl) => `(tactic| with_reducible exact rlx_nativeClosH)
theorem rlx_applyH {n : Nat} {ev : HEv} {a : Addr} {b : Addr} {c : Addr} {d : Addr} {e : Addr} {f : Addr} (hev : ∀ c a, Rlx (ev c a)) : Rlx (applyH n ev a b c d e f) := by unfold applyH; rlx
macro_rules | `(tactic| rlxl) => `(tactic| with_reducible exact rlx_applyH $(Lean.mkIdent `hev))
theorem rlx_evalFuncH {n : Nat} {ev : HEv} {a : Addr} {b : Addr} {c : Addr} {d : Addr} (hev : ∀ c a, Rlx (ev c a)) : Rlx (evalFuncH n ev a b c d) := by unfold evalFuncH; rlx
macro_rules | `(tactic| rlxl) => `(tactic| with_reducible exact rlx_evalFuncH $(Lean.mkIdent `hev))
theorem rlx_evalNextH {n : Nat} {ev : HEv} {a : Addr} {b : Addr} {c : Addr} {d : Addr} (hev : ∀ c a, Rlx (ev c a)) : Rlx (evalNextH n ev a b c d) := by unfold evalNextH; rlx
macro_rules | `(tactic| rlxl) => `(tactic| with_reducible exact rlx_evalNextH $(Lean.mkIdent `hev))
theorem rlx_evalPairH {n : Nat} {ev : HEv} {a : Addr} {b : Addr} (hev : ∀ c a, Rlx (ev c a)) : Rlx (evalPairH n ev a b) := by unfold evalPairH; rlx
macro_rules | `(tactic| rlxl) => `(tactic| with_reducible exact rlx_evalPairH $(Lean.mkIdent `hev))
theorem rlx_evalStepH {n : Nat} {ev : HEv} {a : Addr} {b : Addr} (hev : ∀ c a, Rlx (ev c a)) : Rlx (evalStepH n ev a b) := by unfold evalStepH; rlx
macro_rules | `(tactic| rlxl) => `(tactic| with_reducible exact rlx_evalStepH $(Lean.mkIdent `hev))
theorem rlx_evalNH (n : Nat) : ∀ c a, Rlx (evalNH n c a) := by
  induction n with
  | zero => intro c a; exact rlx_oof
  | succ n ih => intro c a; exact rlx_evalStepH ih
macro_rules | `(tactic| rlxl) => `(tactic| with_reducible exact rlx_evalNH _ _ _)

theorem rlx_buildH (v : Val) : Rlx (buildH v) := by
  induction v with
  | pair t a d iha ihd => unfold buildH; rlx
  | _ => unfold buildH; rlx
macro_rules | `(tactic| rlxl) => `(tactic| with_reducible exact rlx_buildH _)
theorem rlx_loadNativeH {op : Native} : Rlx (loadNativeH op) := by unfold loadNativeH; rlx
macro_rules | `(tactic| rlxl) => `(tactic| with_reducible exact rlx_loadNativeH)
theorem rlx_loadH {l : List Native} : Rlx (loadH l) := by
  induction l with
  | nil => unfold loadH; rlx
  | cons a l ih => unfold loadH; rlx
macro_rules | `(tactic| rlxl) => `(tactic| with_reducible exact rlx_loadH)
theorem rlx_topLoopH {n : Nat} {nl : Addr} {l : List Val} : ∀ r, Rlx (topLoopH n nl l r) := by
  induction l with
  | nil => intro r; unfold topLoopH; rlx
  | cons a l ih => intro r; unfold topLoopH; rlx; exact ih _
macro_rules | `(tactic| rlxl) => `(tactic| with_reducible exact rlx_topLoopH _)
theorem rlx_sessionH {n : Nat} {ops : List Native} {es : List Val} : Rlx (sessionH n ops es) := by unfold sessionH; rlx
macro_rules | `(tactic| rlxl) => `(tactic| with_reducible exact rlx_sessionH)

end Heap
end Mnml
