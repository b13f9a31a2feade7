import Verif.Rename

/-!
# A bounded memory

The run with a bounded memory (`capped`) is the run with an unbounded one (`apart`), or it ends because the memory is full.
-/

namespace Mnml
namespace Heap

/-- `m` does what `m'` does, or is refused a new cell. -/
def Cpd {α : Type} (m m' : HM α) : Prop := ∀ s, m s = .abort ∨ m s = m' s

theorem Cpd.rfl' {α : Type} {m : HM α} : Cpd m m := fun _ => .inr rfl

theorem Cpd.bind {α β : Type} {m m' : HM α} {f f' : α → HM β} (hm : Cpd m m') (hf : ∀ a, Cpd (f a) (f' a)) : Cpd (m >>= f) (m' >>= f') := by
  intro s
  show (m s >>= fun p => f p.1 p.2) = .abort ∨ (m s >>= fun p => f p.1 p.2) = (m' s >>= fun p => f' p.1 p.2)
  rcases hm s with e | e
  · left; rw [e]; rfl
  · rw [← e]
    cases m s with
    | ok p => exact hf p.1 p.2
    | _ => exact .inr rfl

theorem Cpd.ite {α : Type} {c : Prop} [Decidable c] {m k m' k' : HM α} (h : Cpd m m') (h' : Cpd k k') :
    Cpd (if c then m else k) (if c then m' else k') := by
  by_cases e : c
  · simp only [if_pos e]; exact h
  · simp only [if_neg e]; exact h'

theorem cpd_free {a : Addr} : Cpd (@free capped a) (@free apart a) := fun _ => .inr rfl
theorem cpd_fresh {u : UB} {a : Addr} : Cpd (@fresh capped u a) (@fresh apart u a) := fun _ => .inr rfl
theorem cpd_alloc {d : Data} : Cpd (@alloc capped d) (@alloc apart d) := by
  intro s
  by_cases h : Full s
  · exact .inl (alloc_capped_full h)
  · exact .inr (alloc_capped h)

/-- The leaves; extended below. -/
syntax "cpdl" : tactic
macro_rules | `(tactic| cpdl) => `(tactic| with_reducible first
  | assumption
  | exact Cpd.rfl' | exact cpd_free | exact cpd_alloc | exact cpd_fresh)
macro_rules | `(tactic| cpdl) => `(tactic| with_reducible first
  | exact $(Lean.mkIdent `ih) _ | exact $(Lean.mkIdent `ih) _ _ | exact $(Lean.mkIdent `ih) _ _ _ | exact $(Lean.mkIdent `ih) _ _ _ _
  | exact $(Lean.mkIdent `ih1) _ | exact $(Lean.mkIdent `ih2) _ | exact $(Lean.mkIdent `hev) _ _)

/-- The structural steps. -/
macro "cpd" : tactic => `(tactic| repeat' first
  | cpdl
  | with_reducible refine Cpd.bind (by cpdl) (fun _ => ?_)
  | with_reducible refine Cpd.ite ?_ ?_
  | dsimp only
  | look)

theorem cpd_up {a : Addr} : Cpd (up a) (up a) := by unfold up; cpd
macro_rules | `(tactic| cpdl) => `(tactic| with_reducible exact cpd_up)
theorem cpd_dataOf {a : Addr} : Cpd (dataOf a) (dataOf a) := by unfold dataOf; cpd
macro_rules | `(tactic| cpdl) => `(tactic| with_reducible exact cpd_dataOf)
theorem cpd_pairOf {a : Addr} : Cpd (pairOf a) (pairOf a) := by unfold pairOf; cpd
macro_rules | `(tactic| cpdl) => `(tactic| with_reducible exact cpd_pairOf)
theorem cpd_setData {a : Addr} {d : Data} : Cpd (setData a d) (setData a d) := by unfold setData; cpd
macro_rules | `(tactic| cpdl) => `(tactic| with_reducible exact cpd_setData)
theorem cpd_setTail {a : Addr} : Cpd (setTail a) (setTail a) := by unfold setTail; cpd
macro_rules | `(tactic| cpdl) => `(tactic| with_reducible exact cpd_setTail)
theorem cpd_release  (n : Nat) : ∀ (a : Addr), Cpd (@release capped n a) (@release apart n a) := by
  induction n with
  | zero => intro a; unfold release; cpd
  | succ n ih => intro a; unfold release; cpd
macro_rules | `(tactic| cpdl) => `(tactic| with_reducible exact cpd_release _ _)
theorem cpd_X {a : Addr} : Cpd (@X capped a) (@X apart a) := fun t => cpd_release (t.next + 1) a t
macro_rules | `(tactic| cpdl) => `(tactic| with_reducible exact cpd_X)
theorem cpd_Xs {l : List Addr} : Cpd (@Xs capped l) (@Xs apart l) := by
  induction l with
  | nil => unfold Xs; cpd
  | cons a l ih => unfold Xs; cpd
macro_rules | `(tactic| cpdl) => `(tactic| with_reducible exact cpd_Xs)
theorem cpd_mkNil  : Cpd (@mkNil capped ) (@mkNil apart ) := by unfold mkNil; cpd
macro_rules | `(tactic| cpdl) => `(tactic| with_reducible exact cpd_mkNil)
theorem cpd_mkTrue  : Cpd (@mkTrue capped ) (@mkTrue apart ) := by unfold mkTrue; cpd
macro_rules | `(tactic| cpdl) => `(tactic| with_reducible exact cpd_mkTrue)
theorem cpd_mkNum {i : Int} : Cpd (@mkNum capped i) (@mkNum apart i) := by unfold mkNum; cpd
macro_rules | `(tactic| cpdl) => `(tactic| with_reducible exact cpd_mkNum)
theorem cpd_mkChr {i : Int} : Cpd (@mkChr capped i) (@mkChr apart i) := by unfold mkChr; cpd
macro_rules | `(tactic| cpdl) => `(tactic| with_reducible exact cpd_mkChr)
theorem cpd_mkSym {k : Sym} : Cpd (@mkSym capped k) (@mkSym apart k) := by unfold mkSym; cpd
macro_rules | `(tactic| cpdl) => `(tactic| with_reducible exact cpd_mkSym)
theorem cpd_mkBool {b : Bool} : Cpd (@mkBool capped b) (@mkBool apart b) := by unfold mkBool; cpd
macro_rules | `(tactic| cpdl) => `(tactic| with_reducible exact cpd_mkBool)
theorem cpd_consH {x : Addr} {y : Addr} : Cpd (@consH capped x y) (@consH apart x y) := by unfold consH; cpd
macro_rules | `(tactic| cpdl) => `(tactic| with_reducible exact cpd_consH)
theorem cpd_carH {a : Addr} : Cpd (@carH capped a) (@carH apart a) := by unfold carH; cpd
macro_rules | `(tactic| cpdl) => `(tactic| with_reducible exact cpd_carH)
theorem cpd_cdrH {a : Addr} : Cpd (@cdrH capped a) (@cdrH apart a) := by unfold cdrH; cpd
macro_rules | `(tactic| cpdl) => `(tactic| with_reducible exact cpd_cdrH)
theorem cpd_lastPair  (n : Nat) : ∀ (a : Addr), Cpd (lastPair n a) (lastPair n a) := by
  induction n with
  | zero => intro a; unfold lastPair; cpd
  | succ n ih => intro a; unfold lastPair; cpd
macro_rules | `(tactic| cpdl) => `(tactic| with_reducible exact cpd_lastPair _ _)
theorem cpd_concH {n : Nat} {x : Addr} {y : Addr} : Cpd (@concH capped n x y) (@concH apart n x y) := by unfold concH; cpd
macro_rules | `(tactic| cpdl) => `(tactic| with_reducible exact cpd_concH)
theorem cpd_appendH {n : Nat} {x : Addr} {y : Addr} : Cpd (@appendH capped n x y) (@appendH apart n x y) := by unfold appendH; cpd
macro_rules | `(tactic| cpdl) => `(tactic| with_reducible exact cpd_appendH)
theorem cpd_noFlag {a : Addr} : Cpd (noFlag a) (noFlag a) := by unfold noFlag; cpd
macro_rules | `(tactic| cpdl) => `(tactic| with_reducible exact cpd_noFlag)
theorem cpd_dupH  (n : Nat) : ∀ (a : Addr), Cpd (@dupH capped n a) (@dupH apart n a) := by
  induction n with
  | zero => intro a; unfold dupH; cpd
  | succ n ih => intro a; unfold dupH; cpd
macro_rules | `(tactic| cpdl) => `(tactic| with_reducible exact cpd_dupH _ _)
theorem cpd_compareH {a : Addr} {b : Addr} : Cpd (compareH a b) (compareH a b) := by unfold compareH; cpd
macro_rules | `(tactic| cpdl) => `(tactic| with_reducible exact cpd_compareH)
theorem cpd_sssH  (n : Nat) : ∀ (a : Addr) (b : Addr), Cpd (@sssH capped n a b) (@sssH apart n a b) := by
  induction n with
  | zero => intro a b; unfold sssH; cpd
  | succ n ih => intro a b; unfold sssH; cpd
macro_rules | `(tactic| cpdl) => `(tactic| with_reducible exact cpd_sssH _ _ _)
theorem cpd_mergeLoop  (n : Nat) : ∀ (a : Addr) (b : Addr), Cpd (@mergeLoop capped n a b) (@mergeLoop apart n a b) := by
  induction n with
  | zero => intro a b; unfold mergeLoop; cpd
  | succ n ih => intro a b; unfold mergeLoop; cpd
macro_rules | `(tactic| cpdl) => `(tactic| with_reducible exact cpd_mergeLoop _ _ _)
theorem cpd_mergeH {n : Nat} {x : Addr} {y : Addr} : Cpd (@mergeH capped n x y) (@mergeH apart n x y) := by unfold mergeH; cpd
macro_rules | `(tactic| cpdl) => `(tactic| with_reducible exact cpd_mergeH)
theorem cpd_equH  (n : Nat) : ∀ (a : Addr) (b : Addr), Cpd (equH n a b) (equH n a b) := by
  induction n with
  | zero => intro a b; unfold equH; cpd
  | succ n ih => intro a b; unfold equH; cpd
macro_rules | `(tactic| cpdl) => `(tactic| with_reducible exact cpd_equH _ _ _)
theorem cpd_neqH  (n : Nat) : ∀ (a : Addr) (b : Addr), Cpd (neqH n a b) (neqH n a b) := by
  induction n with
  | zero => intro a b; unfold neqH; cpd
  | succ n ih => intro a b; unfold neqH; cpd
macro_rules | `(tactic| cpdl) => `(tactic| with_reducible exact cpd_neqH _ _ _)
theorem cpd_matchH  (n : Nat) : ∀ (a : Addr) (b : Addr), Cpd (matchH n a b) (matchH n a b) := by
  induction n with
  | zero => intro a b; unfold matchH; cpd
  | succ n ih => intro a b; unfold matchH; cpd
macro_rules | `(tactic| cpdl) => `(tactic| with_reducible exact cpd_matchH _ _ _)
theorem cpd_lenH  (n : Nat) : ∀ (a : Addr), Cpd (lenH n a) (lenH n a) := by
  induction n with
  | zero => intro a; unfold lenH; cpd
  | succ n ih => intro a; unfold lenH; cpd
macro_rules | `(tactic| cpdl) => `(tactic| with_reducible exact cpd_lenH _ _)
theorem cpd_isStringH  (n : Nat) : ∀ (a : Addr), Cpd (isStringH n a) (isStringH n a) := by
  induction n with
  | zero => intro a; unfold isStringH; cpd
  | succ n ih => intro a; unfold isStringH; cpd
macro_rules | `(tactic| cpdl) => `(tactic| with_reducible exact cpd_isStringH _ _)
theorem cpd_cstringH  (n : Nat) : ∀ (a : Addr) (i : Nat) (j : Nat), Cpd (cstringH n a i j) (cstringH n a i j) := by
  induction n with
  | zero => intro a i j; unfold cstringH; cpd
  | succ n ih => intro a i j; unfold cstringH; cpd
macro_rules | `(tactic| cpdl) => `(tactic| with_reducible exact cpd_cstringH _ _ _ _)
theorem cpd_escapesH  (n : Nat) : ∀ (a : Addr) (b : Bool) (r : Addr), Cpd (@escapesH capped n a b r) (@escapesH apart n a b r) := by
  induction n with
  | zero => intro a b r; unfold escapesH; cpd
  | succ n ih => intro a b r; unfold escapesH; cpd
macro_rules | `(tactic| cpdl) => `(tactic| with_reducible exact cpd_escapesH _ _ _ _)
theorem cpd_charsH {l : List Int} : Cpd (@charsH capped l) (@charsH apart l) := by
  induction l with
  | nil => unfold charsH; cpd
  | cons a l ih => unfold charsH; cpd
macro_rules | `(tactic| cpdl) => `(tactic| with_reducible exact cpd_charsH)
theorem cpd_makeStringH {n : Nat} {l : List UInt8} : Cpd (@makeStringH capped n l) (@makeStringH apart n l) := by unfold makeStringH; cpd
macro_rules | `(tactic| cpdl) => `(tactic| with_reducible exact cpd_makeStringH)
theorem cpd_mayApplyH  (n : Nat) : ∀ (a : Addr) (b : Addr), Cpd (mayApplyH n a b) (mayApplyH n a b) := by
  induction n with
  | zero => intro a b; unfold mayApplyH; cpd
  | succ n ih => intro a b; unfold mayApplyH; cpd
macro_rules | `(tactic| cpdl) => `(tactic| with_reducible exact cpd_mayApplyH _ _ _)
theorem cpd_bindH  (n : Nat) : ∀ (a : Addr) (b : Addr) (c : Addr), Cpd (@bindH capped n a b c) (@bindH apart n a b c) := by
  induction n with
  | zero => intro a b c; unfold bindH; cpd
  | succ n ih => intro a b c; unfold bindH; cpd
macro_rules | `(tactic| cpdl) => `(tactic| with_reducible exact cpd_bindH _ _ _ _)
theorem cpd_tails (n : Nat) : (∀ a, Cpd (@tailsAssocH capped n a) (@tailsAssocH apart n a)) ∧
    (∀ a, Cpd (@tailsH capped n a) (@tailsH apart n a)) := by
  induction n with
  | zero => exact ⟨fun a => by unfold tailsAssocH; cpd, fun a => by unfold tailsH; cpd⟩
  | succ n ih =>
    obtain ⟨ih1, ih2⟩ := ih
    exact ⟨fun a => by unfold tailsAssocH; cpd, fun a => by unfold tailsH; cpd⟩
theorem cpd_tailsH {n : Nat} {a : Addr} : Cpd (@tailsH capped n a) (@tailsH apart n a) := (cpd_tails n).2 a
macro_rules | `(tactic| cpdl) => `(tactic| with_reducible exact cpd_tailsH)
theorem cpd_markH {p : Bool} {a : Addr} : Cpd (markH p a) (markH p a) := by unfold markH; cpd
macro_rules | `(tactic| cpdl) => `(tactic| with_reducible exact cpd_markH)
theorem cpd_markOneH {p : Bool} {n : Nat} {k : Sym} {a : Addr} {b : Addr} : Cpd (markOneH p n k a b) (markOneH p n k a b) := by unfold markOneH; cpd
macro_rules | `(tactic| cpdl) => `(tactic| with_reducible exact cpd_markOneH)
theorem cpd_markLoopH {p : Bool} (n : Nat) : ∀ (k : Sym) (a : Addr) (b : Addr), Cpd (markLoopH p n k a b) (markLoopH p n k a b) := by
  induction n with
  | zero => intro k a b; unfold markLoopH; cpd
  | succ n ih => intro k a b; unfold markLoopH; cpd
macro_rules | `(tactic| cpdl) => `(tactic| with_reducible exact cpd_markLoopH _ _ _ _)
theorem cpd_markTailCallsH {p : Bool} {n : Nat} {k : Sym} {a : Addr} {b : Addr} : Cpd (@markTailCallsH capped p n k a b) (@markTailCallsH apart p n k a b) := by unfold markTailCallsH; cpd
macro_rules | `(tactic| cpdl) => `(tactic| with_reducible exact cpd_markTailCallsH)
theorem cpd_isFuncH {a : Addr} : Cpd (isFuncH a) (isFuncH a) := by unfold isFuncH; cpd
macro_rules | `(tactic| cpdl) => `(tactic| with_reducible exact cpd_isFuncH)
theorem cpd_findH  (n : Nat) : ∀ (a : Addr) (k : Sym), Cpd (findH n a k) (findH n a k) := by
  induction n with
  | zero => intro a k; unfold findH; cpd
  | succ n ih => intro a k; unfold findH; cpd
macro_rules | `(tactic| cpdl) => `(tactic| with_reducible exact cpd_findH _ _ _)
theorem cpd_assocH {n : Nat} {a : Addr} {k : Sym} : Cpd (assocH n a k) (assocH n a k) := by unfold assocH; cpd
macro_rules | `(tactic| cpdl) => `(tactic| with_reducible exact cpd_assocH)
theorem cpd_treeGetH {k : Sym} : Cpd (@treeGetH capped k) (@treeGetH apart k) := by unfold treeGetH; cpd
macro_rules | `(tactic| cpdl) => `(tactic| with_reducible exact cpd_treeGetH)
theorem cpd_setCache {a : Addr} {b : Addr} : Cpd (setCache a b) (setCache a b) := by unfold setCache; cpd
macro_rules | `(tactic| cpdl) => `(tactic| with_reducible exact cpd_setCache)
theorem cpd_lookupH {n : Nat} {a : Addr} {b : Addr} {k : Sym} : Cpd (@lookupH capped n a b k) (@lookupH apart n a b k) := by unfold lookupH; cpd
macro_rules | `(tactic| cpdl) => `(tactic| with_reducible exact cpd_lookupH)
theorem cpd_entryH {k : Sym} {a : Addr} : Cpd (entryH k a) (entryH k a) := by unfold entryH; cpd
macro_rules | `(tactic| cpdl) => `(tactic| with_reducible exact cpd_entryH)
theorem cpd_ownH {a : Addr} : Cpd (ownH a) (ownH a) := by unfold ownH; cpd
macro_rules | `(tactic| cpdl) => `(tactic| with_reducible exact cpd_ownH)
theorem cpd_setqH {a : Addr} : Cpd (@setqH capped a) (@setqH apart a) := by unfold setqH; cpd
macro_rules | `(tactic| cpdl) => `(tactic| with_reducible exact cpd_setqH)
theorem cpd_progH {ev : HEv} {ev' : HEv} (hev : ∀ c a, Cpd (ev c a) (ev' c a)) (n : Nat) : ∀ (c : Addr) (a : Addr) (r : Addr), Cpd (@progH capped ev n c a r) (@progH apart ev' n c a r) := by
  induction n with
  | zero => intro c a r; unfold progH; cpd
  | succ n ih => intro c a r; unfold progH; cpd
macro_rules | `(tactic| cpdl) => `(tactic| with_reducible exact cpd_progH $(Lean.mkIdent `hev) _ _ _ _)
theorem cpd_evalArgsH {ev : HEv} {ev' : HEv} (hev : ∀ c a, Cpd (ev c a) (ev' c a)) (n : Nat) : ∀ (c : Addr) (x : Addr) (y : Addr) (z : Addr), Cpd (@evalArgsH capped ev n c x y z) (@evalArgsH apart ev' n c x y z) := by
  induction n with
  | zero => intro c x y z; unfold evalArgsH; cpd
  | succ n ih => intro c x y z; unfold evalArgsH; cpd
macro_rules | `(tactic| cpdl) => `(tactic| with_reducible exact cpd_evalArgsH $(Lean.mkIdent `hev) _ _ _ _ _)
theorem cpd_isSelfTailH {a : Addr} {b : Addr} : Cpd (isSelfTailH a b) (isSelfTailH a b) := by unfold isSelfTailH; cpd
macro_rules | `(tactic| cpdl) => `(tactic| with_reducible exact cpd_isSelfTailH)
theorem cpd_tailLoopH {ev : HEv} {ev' : HEv} {symb : Addr} {body : Addr} {cls : Addr} (hev : ∀ c a, Cpd (ev c a) (ev' c a)) (n : Nat) : ∀ (r : Addr), Cpd (@tailLoopH capped ev symb body cls n r) (@tailLoopH apart ev' symb body cls n r) := by
  induction n with
  | zero => intro r; unfold tailLoopH; cpd
  | succ n ih => intro r; unfold tailLoopH; cpd
macro_rules | `(tactic| cpdl) => `(tactic| with_reducible exact cpd_tailLoopH $(Lean.mkIdent `hev) _ _)
theorem cpd_popH {a : Addr} : Cpd (popH a) (popH a) := by unfold popH; cpd
macro_rules | `(tactic| cpdl) => `(tactic| with_reducible exact cpd_popH)
theorem cpd_condH {ev : HEv} {ev' : HEv} (hev : ∀ c a, Cpd (ev c a) (ev' c a)) (n : Nat) : ∀ (c : Addr) (x : Addr) (y : Addr), Cpd (@condH capped ev n c x y) (@condH apart ev' n c x y) := by
  induction n with
  | zero => intro c x y; unfold condH; cpd
  | succ n ih => intro c x y; unfold condH; cpd
macro_rules | `(tactic| cpdl) => `(tactic| with_reducible exact cpd_condH $(Lean.mkIdent `hev) _ _ _ _)
theorem cpd_matchLoopH {ev : HEv} {ev' : HEv} (hev : ∀ c a, Cpd (ev c a) (ev' c a)) (n : Nat) : ∀ (c : Addr) (x : Addr) (y : Addr), Cpd (@matchLoopH capped ev n c x y) (@matchLoopH apart ev' n c x y) := by
  induction n with
  | zero => intro c x y; unfold matchLoopH; cpd
  | succ n ih => intro c x y; unfold matchLoopH; cpd
macro_rules | `(tactic| cpdl) => `(tactic| with_reducible exact cpd_matchLoopH $(Lean.mkIdent `hev) _ _ _ _)
theorem cpd_listH {ev : HEv} {ev' : HEv} (hev : ∀ c a, Cpd (ev c a) (ev' c a)) (n : Nat) : ∀ (c : Addr) (x : Addr), Cpd (@listH capped ev n c x) (@listH apart ev' n c x) := by
  induction n with
  | zero => intro c x; unfold listH; cpd
  | succ n ih => intro c x; unfold listH; cpd
macro_rules | `(tactic| cpdl) => `(tactic| with_reducible exact cpd_listH $(Lean.mkIdent `hev) _ _ _)
theorem cpd_streamH {ev : HEv} {ev' : HEv} (hev : ∀ c a, Cpd (ev c a) (ev' c a)) (n : Nat) : ∀ (c : Addr) (x : Addr) (y : Addr), Cpd (@streamH capped ev n c x y) (@streamH apart ev' n c x y) := by
  induction n with
  | zero => intro c x y; unfold streamH; cpd
  | succ n ih => intro c x y; unfold streamH; cpd
macro_rules | `(tactic| cpdl) => `(tactic| with_reducible exact cpd_streamH $(Lean.mkIdent `hev) _ _ _ _)
theorem cpd_letMarkH {u : UB} {n : Nat} {x : Addr} {y : Addr} {z : Addr} : Cpd (@letMarkH capped u n x y z) (@letMarkH apart u n x y z) := by unfold letMarkH; cpd
macro_rules | `(tactic| cpdl) => `(tactic| with_reducible exact cpd_letMarkH)
theorem cpd_letBindH {ev : HEv} {ev' : HEv} {u : UB} (hev : ∀ c a, Cpd (ev c a) (ev' c a)) (n : Nat) : ∀ (c : Addr) (x : Addr) (y : Addr), Cpd (@letBindH capped ev u n c x y) (@letBindH apart ev' u n c x y) := by
  induction n with
  | zero => intro c x y; unfold letBindH; cpd
  | succ n ih => intro c x y; unfold letBindH; cpd
macro_rules | `(tactic| cpdl) => `(tactic| with_reducible exact cpd_letBindH $(Lean.mkIdent `hev) _ _ _ _)
theorem cpd_letH {ev : HEv} {ev' : HEv} {u : UB} {n : Nat} {c : Addr} {a : Addr} (hev : ∀ c a, Cpd (ev c a) (ev' c a)) : Cpd (@letH capped ev u n c a) (@letH apart ev' u n c a) := by unfold letH; cpd
macro_rules | `(tactic| cpdl) => `(tactic| with_reducible exact cpd_letH $(Lean.mkIdent `hev))
theorem cpd_whileH {ev : HEv} {ev' : HEv} {c : Addr} {cnd : Addr} {prg : Addr} (hev : ∀ c a, Cpd (ev c a) (ev' c a)) (n : Nat) : ∀ (r : Addr), Cpd (@whileH capped ev c cnd prg n r) (@whileH apart ev' c cnd prg n r) := by
  induction n with
  | zero => intro r; unfold whileH; cpd
  | succ n ih => intro r; unfold whileH; cpd
macro_rules | `(tactic| cpdl) => `(tactic| with_reducible exact cpd_whileH $(Lean.mkIdent `hev) _ _)
theorem cpd_viewH  (n : Nat) : ∀ (a : Addr), Cpd (viewH n a) (viewH n a) := by
  induction n with
  | zero => intro a; unfold viewH; cpd
  | succ n ih => intro a; unfold viewH; cpd
macro_rules | `(tactic| cpdl) => `(tactic| with_reducible exact cpd_viewH _ _)
theorem cpd_prinH {n : Nat} {a : Addr} {b : Bool} : Cpd (prinH n a b) (prinH n a b) := by unfold prinH; cpd
macro_rules | `(tactic| cpdl) => `(tactic| with_reducible exact cpd_prinH)
theorem cpd_sepH {b : Bool} : Cpd (sepH b) (sepH b) := by unfold sepH; cpd
macro_rules | `(tactic| cpdl) => `(tactic| with_reducible exact cpd_sepH)
theorem cpd_prinAllH {ev : HEv} {ev' : HEv} {b : Bool} (hev : ∀ c a, Cpd (ev c a) (ev' c a)) (n : Nat) : ∀ (c : Addr) (x : Addr) (y : Addr), Cpd (@prinAllH capped ev b n c x y) (@prinAllH apart ev' b n c x y) := by
  induction n with
  | zero => intro c x y; unfold prinAllH; cpd
  | succ n ih => intro c x y; unfold prinAllH; cpd
macro_rules | `(tactic| cpdl) => `(tactic| with_reducible exact cpd_prinAllH $(Lean.mkIdent `hev) _ _ _ _)
theorem cpd_docH {a : Addr} : Cpd (@docH capped a) (@docH apart a) := by unfold docH; cpd
macro_rules | `(tactic| cpdl) => `(tactic| with_reducible exact cpd_docH)
theorem cpd_defH {n : Nat} {f : Addr} {a : Addr} : Cpd (@defH capped n f a) (@defH apart n f a) := by unfold defH; cpd
macro_rules | `(tactic| cpdl) => `(tactic| with_reducible exact cpd_defH)
theorem cpd_assignH {n : Nat} {c : Addr} {x : Addr} {y : Addr} : Cpd (@assignH capped n c x y) (@assignH apart n c x y) := by unfold assignH; cpd
macro_rules | `(tactic| cpdl) => `(tactic| with_reducible exact cpd_assignH)
theorem cpd_setH {ev : HEv} {ev' : HEv} {u : UB} {n : Nat} {c : Addr} {a : Addr} (hev : ∀ c a, Cpd (ev c a) (ev' c a)) : Cpd (@setH capped ev u n c a) (@setH apart ev' u n c a) := by unfold setH; cpd
macro_rules | `(tactic| cpdl) => `(tactic| with_reducible exact cpd_setH $(Lean.mkIdent `hev))
theorem cpd_setqNatH {ev : HEv} {ev' : HEv} {c : Addr} {a : Addr} (hev : ∀ c a, Cpd (ev c a) (ev' c a)) : Cpd (@setqNatH capped ev c a) (@setqNatH apart ev' c a) := by unfold setqNatH; cpd
macro_rules | `(tactic| cpdl) => `(tactic| with_reducible exact cpd_setqNatH $(Lean.mkIdent `hev))
theorem cpd_orH {ev : HEv} {ev' : HEv} {c : Addr} {a : Addr} (hev : ∀ c a, Cpd (ev c a) (ev' c a)) : Cpd (@orH capped ev c a) (@orH apart ev' c a) := by unfold orH; cpd
macro_rules | `(tactic| cpdl) => `(tactic| with_reducible exact cpd_orH $(Lean.mkIdent `hev))
theorem cpd_ofAtom {v : Val} : Cpd (@ofAtom capped v) (@ofAtom apart v) := by unfold ofAtom; cpd
macro_rules | `(tactic| cpdl) => `(tactic| with_reducible exact cpd_ofAtom)
theorem cpd_symNatH {n : Nat} {x : Addr} : Cpd (@symNatH capped n x) (@symNatH apart n x) := by unfold symNatH; cpd
macro_rules | `(tactic| cpdl) => `(tactic| with_reducible exact cpd_symNatH)
theorem cpd_unaryH {n : Nat} {op : Native} {x : Addr} : Cpd (@unaryH capped n op x) (@unaryH apart n op x) := by unfold unaryH; cpd
macro_rules | `(tactic| cpdl) => `(tactic| with_reducible exact cpd_unaryH)
theorem cpd_binaryH {n : Nat} {op : Native} {x : Addr} {y : Addr} : Cpd (@binaryH capped n op x y) (@binaryH apart n op x y) := by unfold binaryH; cpd
macro_rules | `(tactic| cpdl) => `(tactic| with_reducible exact cpd_binaryH)
theorem cpd_nativeAnyH {n : Nat} {ev : HEv} {ev' : HEv} {op : Native} {u : UB} {f : Addr} {c : Addr} {a : Addr} (hev : ∀ c a, Cpd (ev c a) (ev' c a)) : Cpd (@nativeAnyH capped n ev op u f c a) (@nativeAnyH apart n ev' op u f c a) := by unfold nativeAnyH; cpd
macro_rules | `(tactic| cpdl) => `(tactic| with_reducible exact cpd_nativeAnyH $(Lean.mkIdent `hev))
theorem cpd_nativeRemH {n : Nat} {ev : HEv} {ev' : HEv} {op : Native} {c : Addr} {a : Addr} {b : Addr} (hev : ∀ c a, Cpd (ev c a) (ev' c a)) : Cpd (@nativeRemH capped n ev op c a b) (@nativeRemH apart n ev' op c a b) := by unfold nativeRemH; cpd
macro_rules | `(tactic| cpdl) => `(tactic| with_reducible exact cpd_nativeRemH $(Lean.mkIdent `hev))
theorem cpd_expectEnv {a : Addr} {b : Addr} : Cpd (expectEnv a b) (expectEnv a b) := by unfold expectEnv; cpd
macro_rules | `(tactic| cpdl) => `(tactic| with_reducible exact cpd_expectEnv)
theorem cpd_callNativeH {n : Nat} {ev : HEv} {ev' : HEv} {op : Native} {x : Addr} {y : Addr} (hev : ∀ c a, Cpd (ev c a) (ev' c a)) : Cpd (@callNativeH capped n ev op x y) (@callNativeH apart n ev' op x y) := by unfold callNativeH; cpd
macro_rules | `(tactic| cpdl) => `(tactic| with_reducible exact cpd_callNativeH $(Lean.mkIdent `hev))
theorem cpd_nativeClosH {n : Nat} {x : Addr} {y : Addr} {z : Addr} : Cpd (@nativeClosH capped n x y z) (@nativeClosH apart n x y z) := by unfold nativeClosH; cpd
macro_rules | `(tactic| cpdl) => `(tactic| with_reducible exact cpd_nativeClosH)
theorem cpd_applyH {n : Nat} {ev : HEv} {ev' : HEv} {a : Addr} {b : Addr} {c : Addr} {d : Addr} {e : Addr} {f : Addr} (hev : ∀ c a, Cpd (ev c a) (ev' c a)) : Cpd (@applyH capped n ev a b c d e f) (@applyH apart n ev' a b c d e f) := by unfold applyH; cpd
macro_rules | `(tactic| cpdl) => `(tactic| with_reducible exact cpd_applyH $(Lean.mkIdent `hev))
theorem cpd_evalFuncH {n : Nat} {ev : HEv} {ev' : HEv} {a : Addr} {b : Addr} {c : Addr} {d : Addr} (hev : ∀ c a, Cpd (ev c a) (ev' c a)) : Cpd (@evalFuncH capped n ev a b c d) (@evalFuncH apart n ev' a b c d) := by unfold evalFuncH; cpd
macro_rules | `(tactic| cpdl) => `(tactic| with_reducible exact cpd_evalFuncH $(Lean.mkIdent `hev))
theorem cpd_evalNextH {n : Nat} {ev : HEv} {ev' : HEv} {a : Addr} {b : Addr} {c : Addr} {d : Addr} (hev : ∀ c a, Cpd (ev c a) (ev' c a)) : Cpd (@evalNextH capped n ev a b c d) (@evalNextH apart n ev' a b c d) := by unfold evalNextH; cpd
macro_rules | `(tactic| cpdl) => `(tactic| with_reducible exact cpd_evalNextH $(Lean.mkIdent `hev))
theorem cpd_evalPairH {n : Nat} {ev : HEv} {ev' : HEv} {a : Addr} {b : Addr} (hev : ∀ c a, Cpd (ev c a) (ev' c a)) : Cpd (@evalPairH capped n ev a b) (@evalPairH apart n ev' a b) := by unfold evalPairH; cpd
macro_rules | `(tactic| cpdl) => `(tactic| with_reducible exact cpd_evalPairH $(Lean.mkIdent `hev))
theorem cpd_evalStepH {n : Nat} {ev : HEv} {ev' : HEv} {a : Addr} {b : Addr} (hev : ∀ c a, Cpd (ev c a) (ev' c a)) : Cpd (@evalStepH capped n ev a b) (@evalStepH apart n ev' a b) := by unfold evalStepH; cpd
macro_rules | `(tactic| cpdl) => `(tactic| with_reducible exact cpd_evalStepH $(Lean.mkIdent `hev))
theorem cpd_evalNH (n : Nat) : ∀ c a, Cpd (@evalNH capped n c a) (@evalNH apart n c a) := by
  induction n with
  | zero => intro c a; exact Cpd.rfl'
  | succ n ih => intro c a; exact cpd_evalStepH ih
macro_rules | `(tactic| cpdl) => `(tactic| with_reducible exact cpd_evalNH _ _ _)
theorem cpd_buildH (v : Val) : Cpd (@buildH capped v) (@buildH apart v) := by
  induction v with
  | pair t a d iha ihd => unfold buildH; cpd
  | _ => unfold buildH; cpd
macro_rules | `(tactic| cpdl) => `(tactic| with_reducible exact cpd_buildH _)
theorem cpd_loadNativeH {op : Native} : Cpd (@loadNativeH capped op) (@loadNativeH apart op) := by unfold loadNativeH; cpd
macro_rules | `(tactic| cpdl) => `(tactic| with_reducible exact cpd_loadNativeH)
theorem cpd_loadH {l : List Native} : Cpd (@loadH capped l) (@loadH apart l) := by
  induction l with
  | nil => unfold loadH; cpd
  | cons a l ih => unfold loadH; cpd
macro_rules | `(tactic| cpdl) => `(tactic| with_reducible exact cpd_loadH)
theorem cpd_topLoopH {n : Nat} {nl : Addr} {l : List Val} : ∀ r, Cpd (@topLoopH capped n nl l r) (@topLoopH apart n nl l r) := by
  induction l with
  | nil => intro r; unfold topLoopH; cpd
  | cons a l ih => intro r; unfold topLoopH; cpd
macro_rules | `(tactic| cpdl) => `(tactic| with_reducible exact cpd_topLoopH _)
theorem cpd_sessionH {n : Nat} {ops : List Native} {es : List Val} : Cpd (@sessionH capped n ops es) (@sessionH apart n ops es) := by unfold sessionH; cpd
macro_rules | `(tactic| cpdl) => `(tactic| with_reducible exact cpd_sessionH)

end Heap
end Mnml
