import Verif.Rename

/-!
# The slab places cells somewhere

A run of the cell model on the slab (`slabs`) is a run on a fixed sequence of places (`placed φ o`): the places that the slab hands out in the course of the run. The slab
never hands out a cell in use, because the cells in use are exactly those that it regards as held.
-/

namespace Mnml
namespace Heap

/-- The slab is in order, and the cells in use are those that it has handed out. -/
def Good (t : HSt) : Prop := ∃ held free, Slab.Inv ⟨t.pool, held⟩ free ∧ ∀ a, a ∈ held ↔ t.mem a ≠ none

/-- The same with another slab. -/
def withPool (p : Slab.Slab) (t : HSt) : HSt := { t with pool := p }

/-- The outcome with another slab. -/
def outPool {α : Type} (p : Slab.Slab) : Res (α × HSt) → Res (α × HSt)
  | .ok (a, t) => .ok (a, withPool p t)
  | .ub u => .ub u
  | .abort => .abort
  | .oof => .oof
  | .unsupported => .unsupported

/-- `m` on the slab takes its cells from somewhere; with cells placed there, `m'` does the same. -/
def Fol {α : Type} (m : HM α) (m' : (Nat → Addr) → HM α) : Prop :=
  ∀ t, Good t → ∃ l : List Addr,
    (∀ a t', m t = .ok (a, t') → Good t' ∧ t'.next = t.next + l.length) ∧
    ∀ φ p, (∀ i (h : i < l.length), φ (t.next + i) = l[i]) → m' φ (withPool p t) = outPool p (m t)

section
variable {o : Bool}

theorem Fol.bind {α β : Type} {m : HM α} {m' : (Nat → Addr) → HM α} {f : α → HM β} {f' : (Nat → Addr) → α → HM β} (hm : Fol m m')
    (hf : ∀ a, Fol (f a) (fun φ => f' φ a)) : Fol (m >>= f) (fun φ => m' φ >>= f' φ) := by
  intro t ht
  obtain ⟨l, h1, h2⟩ := hm t ht
  have key : ∀ φ p, (m' φ >>= f' φ) (withPool p t) = (m' φ (withPool p t) >>= fun q => f' φ q.1 q.2) := fun _ _ => rfl
  have key' : (m >>= f) t = (m t >>= fun q => f q.1 q.2) := rfl
  cases e : m t with
  | ok p =>
    obtain ⟨a, t1⟩ := p
    obtain ⟨g1, n1⟩ := h1 a t1 e
    obtain ⟨l2, h3, h4⟩ := hf a t1 g1
    · refine ⟨l ++ l2, ?_, ?_⟩
      · intro b t' e3
        rw [key', e] at e3
        obtain ⟨g2, n2⟩ := h3 b t' e3
        exact ⟨g2, by rw [n2, n1, List.length_append, Nat.add_assoc]⟩
      · intro φ p hφ
        show (m' φ >>= f' φ) (withPool p t) = _
        rw [key, key', h2 φ p, e]
        · refine h4 φ p fun i hi => ?_
          have := hφ (l.length + i) (by rw [List.length_append]; omega)
          rw [n1, Nat.add_assoc, this, List.getElem_append_right (by omega)]
          congr 1
          omega
        · intro i hi
          have := hφ i (by rw [List.length_append]; omega)
          rw [this, List.getElem_append_left hi]
  | abort =>
    refine ⟨l, fun b t' e3 => ?_, fun φ p hφ => ?_⟩
    · rw [key', e] at e3; cases e3
    · show (m' φ >>= f' φ) (withPool p t) = _
      rw [key, key', h2 φ p hφ, e]; rfl
  | ub u =>
    refine ⟨l, fun b t' e3 => ?_, fun φ p hφ => ?_⟩
    · rw [key', e] at e3; cases e3
    · show (m' φ >>= f' φ) (withPool p t) = _
      rw [key, key', h2 φ p hφ, e]; rfl
  | oof =>
    refine ⟨l, fun b t' e3 => ?_, fun φ p hφ => ?_⟩
    · rw [key', e] at e3; cases e3
    · show (m' φ >>= f' φ) (withPool p t) = _
      rw [key, key', h2 φ p hφ, e]; rfl
  | unsupported =>
    refine ⟨l, fun b t' e3 => ?_, fun φ p hφ => ?_⟩
    · rw [key', e] at e3; cases e3
    · show (m' φ >>= f' φ) (withPool p t) = _
      rw [key, key', h2 φ p hφ, e]; rfl

theorem Fol.ite {α : Type} {c : Prop} [Decidable c] {m k : HM α} {m' k' : (Nat → Addr) → HM α} (h : Fol m m') (h' : Fol k k') :
    Fol (if c then m else k) (fun φ => if c then m' φ else k' φ) := by
  by_cases e : c
  · simp only [if_pos e]; exact h
  · simp only [if_neg e]; exact h'

/-- A computation that takes no cells and leaves the slab alone. -/
theorem fol_plain {α : Type} {m : HM α} (h : ∀ p t, m (withPool p t) = outPool p (m t))
    (h' : ∀ t a t', m t = .ok (a, t') → t'.pool = t.pool ∧ t'.next = t.next ∧ ∀ x, t'.mem x ≠ none ↔ t.mem x ≠ none) : Fol m (fun _ => m) := by
  intro t ht
  refine ⟨[], fun a t' e => ?_, fun φ p _ => h p t⟩
  obtain ⟨e1, e2, e3⟩ := h' t a t' e
  obtain ⟨held, free, i, hh⟩ := ht
  exact ⟨⟨held, free, by rw [e1]; exact i, fun x => (hh x).trans (e3 x).symm⟩, e2⟩

theorem Fol.pure {α : Type} {a : α} : Fol (Pure.pure a : HM α) (fun _ => Pure.pure a) :=
  fol_plain (fun _ _ => rfl) fun t b t' e => by cases e; exact ⟨rfl, rfl, fun _ => Iff.rfl⟩
theorem fol_oof {α : Type} : Fol (HM.oof : HM α) (fun _ => HM.oof) := fol_plain (fun _ _ => rfl) fun t b t' e => by cases e
theorem fol_unsupported {α : Type} : Fol (HM.unsupported : HM α) (fun _ => HM.unsupported) := fol_plain (fun _ _ => rfl) fun t b t' e => by cases e
theorem fol_ub {α : Type} {u : UB} : Fol (HM.ub u : HM α) (fun _ => HM.ub u) := fol_plain (fun _ _ => rfl) fun t b t' e => by cases e
theorem fol_lift {α : Type} {r : Res α} : Fol (HM.lift r) (fun _ => HM.lift r) := by
  refine fol_plain (fun p t => ?_) fun t b t' e => ?_
  · cases r <;> rfl
  · cases r <;> cases e
    exact ⟨rfl, rfl, fun _ => Iff.rfl⟩
theorem fol_cell {a : Addr} : Fol (cell a) (fun _ => cell a) := by
  refine fol_plain (fun p t => ?_) fun t b t' e => ?_
  · unfold cell
    have e : (withPool p t).mem a = t.mem a := rfl
    rw [e]
    cases t.mem a <;> rfl
  · unfold cell at e
    cases hm : t.mem a with
    | none => rw [hm] at e; cases e
    | some c => rw [hm] at e; cases e; exact ⟨rfl, rfl, fun _ => Iff.rfl⟩
theorem fol_modify {a : Addr} {f : Cell → Cell} : Fol (modify a f) (fun _ => modify a f) := by
  refine fol_plain (fun p t => ?_) fun t b t' e => ?_
  · unfold modify
    have e : (withPool p t).mem a = t.mem a := rfl
    rw [e]
    cases t.mem a <;> rfl
  · unfold modify at e
    cases hm : t.mem a with
    | none => rw [hm] at e; cases e
    | some c =>
      rw [hm] at e; cases e
      refine ⟨rfl, rfl, fun x => ?_⟩
      show upd t.mem a _ x ≠ none ↔ _
      unfold upd
      by_cases ex : x = a
      · subst ex; simp [hm]
      · simp [ex]
theorem fol_guard {b : Bool} : Fol (guard b) (fun _ => guard b) := by
  refine fol_plain (fun p t => ?_) fun t b t' e => ?_
  · unfold guard; show (if t.strict && !b then _ else _) = _
    split <;> rfl
  · unfold guard at e
    split at e <;> cases e
    exact ⟨rfl, rfl, fun _ => Iff.rfl⟩
theorem fol_loneH {n : Nat} {f a : Addr} : Fol (loneH n f a) (fun _ => loneH n f a) := by
  refine fol_plain (fun p t => ?_) fun t b t' e => ?_
  · unfold loneH; show (if there t.mem 2 f && there t.mem n a then _ else _) = _
    split <;> rfl
  · unfold loneH at e
    split at e <;> cases e
    exact ⟨rfl, rfl, fun _ => Iff.rfl⟩
theorem fol_leak {a : Addr} : Fol (leak a) (fun _ => leak a) :=
  fol_plain (fun _ _ => rfl) fun t b t' e => by cases e; exact ⟨rfl, rfl, fun _ => Iff.rfl⟩
theorem fol_abandon {a : Addr} : Fol (abandon a) (fun _ => abandon a) :=
  fol_plain (fun _ _ => rfl) fun t b t' e => by cases e; exact ⟨rfl, rfl, fun _ => Iff.rfl⟩
theorem fol_push {k : Sym} {a : Addr} : Fol (pushGlobal k a) (fun _ => pushGlobal k a) :=
  fol_plain (fun _ _ => rfl) fun t b t' e => by cases e; exact ⟨rfl, rfl, fun _ => Iff.rfl⟩
theorem fol_global {k : Sym} : Fol (globalOf k) (fun _ => globalOf k) :=
  fol_plain (fun _ _ => rfl) fun t b t' e => by cases e; exact ⟨rfl, rfl, fun _ => Iff.rfl⟩
theorem fol_emit {l : List UInt8} : Fol (emitH l) (fun _ => emitH l) :=
  fol_plain (fun _ _ => rfl) fun t b t' e => by cases e; exact ⟨rfl, rfl, fun _ => Iff.rfl⟩
theorem fol_fresh {u : UB} {a : Addr} : Fol (@fresh slabs u a) (fun φ => @fresh (placed φ o) u a) := by
  have h : Fol (@fresh slabs u a) (fun _ => @fresh slabs u a) := by
    refine fol_plain (fun p t => ?_) fun t b t' e => ?_
    · unfold fresh
      by_cases h : (t.mem a).isSome ∧ a ∉ Alloc.watch (self := slabs) t.zombies
      · exact (if_pos h).trans (by rw [if_pos h]; rfl)
      · exact (if_neg h).trans (by rw [if_neg h]; rfl)
    · unfold fresh at e
      split at e <;> cases e
      exact ⟨rfl, rfl, fun _ => Iff.rfl⟩
  exact h
theorem fol_free {a : Addr} : Fol (@free slabs a) (fun φ => @free (placed φ o) a) := by
  intro t ht
  refine ⟨[], ?_, ?_⟩
  · intro b t' e
    unfold free at e
    cases hm : t.mem a with
    | none => rw [hm] at e; cases e
    | some c =>
      rw [hm] at e; cases e
      obtain ⟨held, free, i, hh⟩ := ht
      have ha : a ∈ held := (hh a).2 (by rw [hm]; simp)
      refine ⟨⟨held.erase a, _, Slab.inv_free i ha, fun x => ?_⟩, rfl⟩
      show _ ↔ upd t.mem a none x ≠ none
      unfold upd
      rw [(List.nodup_append.1 i.nodup).2.1.mem_erase_iff]
      by_cases ex : x = a
      · subst ex; simp
      · simp [ex, hh x]
  · intro φ p _
    unfold free
    show (match (withPool p t).mem a with | some _ => _ | none => _) = _
    rw [show (withPool p t).mem a = t.mem a from rfl]
    cases t.mem a <;> rfl
theorem length_le_of_subset {l : List Addr} (h : l.Nodup) : ∀ {m : List Addr}, (∀ x ∈ l, x ∈ m) → l.length ≤ m.length := by
  induction l with
  | nil => intro m _; exact Nat.zero_le _
  | cons a l ih =>
    intro m hm
    obtain ⟨h1, h2⟩ := List.nodup_cons.1 h
    have := ih h2 (m := m.erase a) fun x hx => (List.mem_erase_of_ne (by rintro rfl; exact h1 hx)).2 (hm x (.tail _ hx))
    have hp := List.length_pos_of_mem (hm a (.head _))
    rw [List.length_erase_of_mem (hm a (.head _))] at this
    rw [List.length_cons]
    omega
theorem fol_alloc {d : Data} : Fol (@alloc slabs d) (fun φ => @alloc (placed φ o) d) := by
  intro t ht
  obtain ⟨held, free, i, hh⟩ := ht
  have full : Full t → held.length = 2097152 := by
    rintro ⟨l, h1, h2, h3⟩
    have := length_le_of_subset h1 (m := held) fun x hx => (hh x).2 (h3 x hx)
    have h4 := i.cellCount_le
    have h5 := i.part.length_eq
    rw [List.length_append, List.length_range] at h5
    change free.length + held.length = Slab.cellCount t.pool at h5
    change Slab.cellCount t.pool ≤ _ at h4
    omega
  rcases Slab.allocate_spec i with ⟨e, h1⟩ | ⟨a, s', e, h1, _, _, _, free', i'⟩
  · have ev : @alloc slabs d t = .abort := by
      show ((match Slab.allocate t.pool with | some r => Res.ok r | none => .abort) >>= _) = _
      rw [show Slab.allocate t.pool = none from e]; rfl
    refine ⟨[], fun b t' e' => (by rw [ev] at e'; cases e'), fun φ p _ => ?_⟩
    rw [ev]
    exact alloc_placed_full ⟨held, (List.nodup_append.1 i.nodup).2.1, h1, fun a ha => (hh a).1 ha⟩
  · have nf : ¬ Full t := by
      intro hf
      have h1 := full hf
      have h2 := i'.cellCount_le
      have h3 := i'.part.length_eq
      rw [List.length_append, List.length_range] at h3
      change free'.length + (held.length + 1) = Slab.cellCount s' at h3
      change Slab.cellCount s' ≤ _ at h2
      omega
    have ev : @alloc slabs d t = .ok (a, { t with mem := upd t.mem a (some ⟨1, false, none, d⟩), next := t.next + 1, pool := s' }) := by
      show ((match Slab.allocate t.pool with | some r => Res.ok r | none => .abort) >>= _) = _
      rw [show Slab.allocate t.pool = some (a, s') from e]; rfl
    refine ⟨[a], ?_, ?_⟩
    · intro b t' e'
      rw [ev] at e'
      cases e'
      refine ⟨⟨a :: held, free', i', fun x => ?_⟩, rfl⟩
      show _ ↔ upd t.mem a _ x ≠ none
      unfold upd
      by_cases ex : x = a
      · subst ex; simp
      · simp [ex, hh x]
    · intro φ p hφ
      have h0 : φ t.next = a := hφ 0 (by simp)
      have hn : t.mem a = none := by
        cases hm : t.mem a with
        | none => rfl
        | some c => exact (h1 ((hh a).2 (by rw [hm]; simp))).elim
      rw [ev]
      have := alloc_placed (φ := φ) (o := o) (t := withPool p t) (d := d) nf (by show t.mem (φ t.next) = none; rw [h0]; exact hn)
      rw [show (withPool p t).next = t.next from rfl, h0] at this
      exact this

/-- The leaves; extended below. -/
syntax "foll" : tactic
macro_rules | `(tactic| foll) => `(tactic| with_reducible first
  | assumption
  | exact Fol.pure | exact fol_oof | exact fol_unsupported | exact fol_ub | exact fol_lift
  | exact fol_cell | exact fol_modify | exact fol_free | exact fol_alloc | exact fol_guard | exact fol_loneH
  | exact fol_leak | exact fol_abandon | exact fol_push | exact fol_global | exact fol_emit | exact fol_fresh)
macro_rules | `(tactic| foll) => `(tactic| with_reducible first
  | exact $(Lean.mkIdent `ih) _ | exact $(Lean.mkIdent `ih) _ _ | exact $(Lean.mkIdent `ih) _ _ _ | exact $(Lean.mkIdent `ih) _ _ _ _
  | exact $(Lean.mkIdent `ih1) _ | exact $(Lean.mkIdent `ih2) _ | exact $(Lean.mkIdent `hev) _ _)

/-- The structural steps. -/
macro "fol" : tactic => `(tactic| repeat' first
  | foll
  | with_reducible refine Fol.bind (by foll) (fun _ => ?_)
  | with_reducible refine Fol.ite ?_ ?_
  | dsimp only
  | look)

theorem fol_up {a : Addr} : Fol (up a) (fun _ => up a) := by unfold up; fol
macro_rules | `(tactic| foll) => `(tactic| with_reducible exact fol_up)
theorem fol_dataOf {a : Addr} : Fol (dataOf a) (fun _ => dataOf a) := by unfold dataOf; fol
macro_rules | `(tactic| foll) => `(tactic| with_reducible exact fol_dataOf)
theorem fol_pairOf {a : Addr} : Fol (pairOf a) (fun _ => pairOf a) := by unfold pairOf; fol
macro_rules | `(tactic| foll) => `(tactic| with_reducible exact fol_pairOf)
theorem fol_setData {a : Addr} {d : Data} : Fol (setData a d) (fun _ => setData a d) := by unfold setData; fol
macro_rules | `(tactic| foll) => `(tactic| with_reducible exact fol_setData)
theorem fol_setTail {a : Addr} : Fol (setTail a) (fun _ => setTail a) := by unfold setTail; fol
macro_rules | `(tactic| foll) => `(tactic| with_reducible exact fol_setTail)
theorem fol_release  (n : Nat) : ∀ (a : Addr), Fol (@release slabs n a) (fun φ => @release (placed φ o) n a) := by
  induction n with
  | zero => intro a; unfold release; fol
  | succ n ih => intro a; unfold release; fol
macro_rules | `(tactic| foll) => `(tactic| with_reducible exact fol_release _ _)
theorem fol_X {a : Addr} : Fol (@X slabs a) (fun φ => @X (placed φ o) a) := fun t ht => fol_release (t.next + 1) a t ht
macro_rules | `(tactic| foll) => `(tactic| with_reducible exact fol_X)
theorem fol_Xs {l : List Addr} : Fol (@Xs slabs l) (fun φ => @Xs (placed φ o) l) := by
  induction l with
  | nil => unfold Xs; fol
  | cons a l ih => unfold Xs; fol
macro_rules | `(tactic| foll) => `(tactic| with_reducible exact fol_Xs)
theorem fol_mkNil  : Fol (@mkNil slabs ) (fun φ => @mkNil (placed φ o) ) := by unfold mkNil; fol
macro_rules | `(tactic| foll) => `(tactic| with_reducible exact fol_mkNil)
theorem fol_mkTrue  : Fol (@mkTrue slabs ) (fun φ => @mkTrue (placed φ o) ) := by unfold mkTrue; fol
macro_rules | `(tactic| foll) => `(tactic| with_reducible exact fol_mkTrue)
theorem fol_mkNum {i : Int} : Fol (@mkNum slabs i) (fun φ => @mkNum (placed φ o) i) := by unfold mkNum; fol
macro_rules | `(tactic| foll) => `(tactic| with_reducible exact fol_mkNum)
theorem fol_mkChr {i : Int} : Fol (@mkChr slabs i) (fun φ => @mkChr (placed φ o) i) := by unfold mkChr; fol
macro_rules | `(tactic| foll) => `(tactic| with_reducible exact fol_mkChr)
theorem fol_mkSym {k : Sym} : Fol (@mkSym slabs k) (fun φ => @mkSym (placed φ o) k) := by unfold mkSym; fol
macro_rules | `(tactic| foll) => `(tactic| with_reducible exact fol_mkSym)
theorem fol_mkBool {b : Bool} : Fol (@mkBool slabs b) (fun φ => @mkBool (placed φ o) b) := by unfold mkBool; fol
macro_rules | `(tactic| foll) => `(tactic| with_reducible exact fol_mkBool)
theorem fol_consH {x : Addr} {y : Addr} : Fol (@consH slabs x y) (fun φ => @consH (placed φ o) x y) := by unfold consH; fol
macro_rules | `(tactic| foll) => `(tactic| with_reducible exact fol_consH)
theorem fol_carH {a : Addr} : Fol (@carH slabs a) (fun φ => @carH (placed φ o) a) := by unfold carH; fol
macro_rules | `(tactic| foll) => `(tactic| with_reducible exact fol_carH)
theorem fol_cdrH {a : Addr} : Fol (@cdrH slabs a) (fun φ => @cdrH (placed φ o) a) := by unfold cdrH; fol
macro_rules | `(tactic| foll) => `(tactic| with_reducible exact fol_cdrH)
theorem fol_lastPair  (n : Nat) : ∀ (a : Addr), Fol (lastPair n a) (fun _ => lastPair n a) := by
  induction n with
  | zero => intro a; unfold lastPair; fol
  | succ n ih => intro a; unfold lastPair; fol
macro_rules | `(tactic| foll) => `(tactic| with_reducible exact fol_lastPair _ _)
theorem fol_concH {n : Nat} {x : Addr} {y : Addr} : Fol (@concH slabs n x y) (fun φ => @concH (placed φ o) n x y) := by unfold concH; fol
macro_rules | `(tactic| foll) => `(tactic| with_reducible exact fol_concH)
theorem fol_appendH {n : Nat} {x : Addr} {y : Addr} : Fol (@appendH slabs n x y) (fun φ => @appendH (placed φ o) n x y) := by unfold appendH; fol
macro_rules | `(tactic| foll) => `(tactic| with_reducible exact fol_appendH)
theorem fol_noFlag {a : Addr} : Fol (noFlag a) (fun _ => noFlag a) := by unfold noFlag; fol
macro_rules | `(tactic| foll) => `(tactic| with_reducible exact fol_noFlag)
theorem fol_dupH  (n : Nat) : ∀ (a : Addr), Fol (@dupH slabs n a) (fun φ => @dupH (placed φ o) n a) := by
  induction n with
  | zero => intro a; unfold dupH; fol
  | succ n ih => intro a; unfold dupH; fol
macro_rules | `(tactic| foll) => `(tactic| with_reducible exact fol_dupH _ _)
theorem fol_compareH {a : Addr} {b : Addr} : Fol (compareH a b) (fun _ => compareH a b) := by unfold compareH; fol
macro_rules | `(tactic| foll) => `(tactic| with_reducible exact fol_compareH)
theorem fol_sssH  (n : Nat) : ∀ (a : Addr) (b : Addr), Fol (@sssH slabs n a b) (fun φ => @sssH (placed φ o) n a b) := by
  induction n with
  | zero => intro a b; unfold sssH; fol
  | succ n ih => intro a b; unfold sssH; fol
macro_rules | `(tactic| foll) => `(tactic| with_reducible exact fol_sssH _ _ _)
theorem fol_mergeLoop  (n : Nat) : ∀ (a : Addr) (b : Addr), Fol (@mergeLoop slabs n a b) (fun φ => @mergeLoop (placed φ o) n a b) := by
  induction n with
  | zero => intro a b; unfold mergeLoop; fol
  | succ n ih => intro a b; unfold mergeLoop; fol
macro_rules | `(tactic| foll) => `(tactic| with_reducible exact fol_mergeLoop _ _ _)
theorem fol_mergeH {n : Nat} {x : Addr} {y : Addr} : Fol (@mergeH slabs n x y) (fun φ => @mergeH (placed φ o) n x y) := by unfold mergeH; fol
macro_rules | `(tactic| foll) => `(tactic| with_reducible exact fol_mergeH)
theorem fol_equH  (n : Nat) : ∀ (a : Addr) (b : Addr), Fol (equH n a b) (fun _ => equH n a b) := by
  induction n with
  | zero => intro a b; unfold equH; fol
  | succ n ih => intro a b; unfold equH; fol
macro_rules | `(tactic| foll) => `(tactic| with_reducible exact fol_equH _ _ _)
theorem fol_neqH  (n : Nat) : ∀ (a : Addr) (b : Addr), Fol (neqH n a b) (fun _ => neqH n a b) := by
  induction n with
  | zero => intro a b; unfold neqH; fol
  | succ n ih => intro a b; unfold neqH; fol
macro_rules | `(tactic| foll) => `(tactic| with_reducible exact fol_neqH _ _ _)
theorem fol_matchH  (n : Nat) : ∀ (a : Addr) (b : Addr), Fol (matchH n a b) (fun _ => matchH n a b) := by
  induction n with
  | zero => intro a b; unfold matchH; fol
  | succ n ih => intro a b; unfold matchH; fol
macro_rules | `(tactic| foll) => `(tactic| with_reducible exact fol_matchH _ _ _)
theorem fol_lenH  (n : Nat) : ∀ (a : Addr), Fol (lenH n a) (fun _ => lenH n a) := by
  induction n with
  | zero => intro a; unfold lenH; fol
  | succ n ih => intro a; unfold lenH; fol
macro_rules | `(tactic| foll) => `(tactic| with_reducible exact fol_lenH _ _)
theorem fol_isStringH  (n : Nat) : ∀ (a : Addr), Fol (isStringH n a) (fun _ => isStringH n a) := by
  induction n with
  | zero => intro a; unfold isStringH; fol
  | succ n ih => intro a; unfold isStringH; fol
macro_rules | `(tactic| foll) => `(tactic| with_reducible exact fol_isStringH _ _)
theorem fol_cstringH  (n : Nat) : ∀ (a : Addr) (i : Nat) (j : Nat), Fol (cstringH n a i j) (fun _ => cstringH n a i j) := by
  induction n with
  | zero => intro a i j; unfold cstringH; fol
  | succ n ih => intro a i j; unfold cstringH; fol
macro_rules | `(tactic| foll) => `(tactic| with_reducible exact fol_cstringH _ _ _ _)
theorem fol_escapesH  (n : Nat) : ∀ (a : Addr) (b : Bool) (r : Addr), Fol (@escapesH slabs n a b r) (fun φ => @escapesH (placed φ o) n a b r) := by
  induction n with
  | zero => intro a b r; unfold escapesH; fol
  | succ n ih => intro a b r; unfold escapesH; fol
macro_rules | `(tactic| foll) => `(tactic| with_reducible exact fol_escapesH _ _ _ _)
theorem fol_charsH {l : List Int} : Fol (@charsH slabs l) (fun φ => @charsH (placed φ o) l) := by
  induction l with
  | nil => unfold charsH; fol
  | cons a l ih => unfold charsH; fol
macro_rules | `(tactic| foll) => `(tactic| with_reducible exact fol_charsH)
theorem fol_makeStringH {n : Nat} {l : List UInt8} : Fol (@makeStringH slabs n l) (fun φ => @makeStringH (placed φ o) n l) := by unfold makeStringH; fol
macro_rules | `(tactic| foll) => `(tactic| with_reducible exact fol_makeStringH)
theorem fol_mayApplyH  (n : Nat) : ∀ (a : Addr) (b : Addr), Fol (mayApplyH n a b) (fun _ => mayApplyH n a b) := by
  induction n with
  | zero => intro a b; unfold mayApplyH; fol
  | succ n ih => intro a b; unfold mayApplyH; fol
macro_rules | `(tactic| foll) => `(tactic| with_reducible exact fol_mayApplyH _ _ _)
theorem fol_bindH  (n : Nat) : ∀ (a : Addr) (b : Addr) (c : Addr), Fol (@bindH slabs n a b c) (fun φ => @bindH (placed φ o) n a b c) := by
  induction n with
  | zero => intro a b c; unfold bindH; fol
  | succ n ih => intro a b c; unfold bindH; fol
macro_rules | `(tactic| foll) => `(tactic| with_reducible exact fol_bindH _ _ _ _)
theorem fol_tails (n : Nat) : (∀ a, Fol (@tailsAssocH slabs n a) (fun φ => @tailsAssocH (placed φ o) n a)) ∧
    (∀ a, Fol (@tailsH slabs n a) (fun φ => @tailsH (placed φ o) n a)) := by
  induction n with
  | zero => exact ⟨fun a => by unfold tailsAssocH; fol, fun a => by unfold tailsH; fol⟩
  | succ n ih =>
    obtain ⟨ih1, ih2⟩ := ih
    exact ⟨fun a => by unfold tailsAssocH; fol, fun a => by unfold tailsH; fol⟩
theorem fol_tailsH {n : Nat} {a : Addr} : Fol (@tailsH slabs n a) (fun φ => @tailsH (placed φ o) n a) := (fol_tails n).2 a
macro_rules | `(tactic| foll) => `(tactic| with_reducible exact fol_tailsH)
theorem fol_markH {p : Bool} {a : Addr} : Fol (markH p a) (fun _ => markH p a) := by unfold markH; fol
macro_rules | `(tactic| foll) => `(tactic| with_reducible exact fol_markH)
theorem fol_markOneH {p : Bool} {n : Nat} {k : Sym} {a : Addr} {b : Addr} : Fol (markOneH p n k a b) (fun _ => markOneH p n k a b) := by unfold markOneH; fol
macro_rules | `(tactic| foll) => `(tactic| with_reducible exact fol_markOneH)
theorem fol_markLoopH {p : Bool} (n : Nat) : ∀ (k : Sym) (a : Addr) (b : Addr), Fol (markLoopH p n k a b) (fun _ => markLoopH p n k a b) := by
  induction n with
  | zero => intro k a b; unfold markLoopH; fol
  | succ n ih => intro k a b; unfold markLoopH; fol
macro_rules | `(tactic| foll) => `(tactic| with_reducible exact fol_markLoopH _ _ _ _)
theorem fol_markTailCallsH {p : Bool} {n : Nat} {k : Sym} {a : Addr} {b : Addr} : Fol (@markTailCallsH slabs p n k a b) (fun φ => @markTailCallsH (placed φ o) p n k a b) := by unfold markTailCallsH; fol
macro_rules | `(tactic| foll) => `(tactic| with_reducible exact fol_markTailCallsH)
theorem fol_isFuncH {a : Addr} : Fol (isFuncH a) (fun _ => isFuncH a) := by unfold isFuncH; fol
macro_rules | `(tactic| foll) => `(tactic| with_reducible exact fol_isFuncH)
theorem fol_findH  (n : Nat) : ∀ (a : Addr) (k : Sym), Fol (findH n a k) (fun _ => findH n a k) := by
  induction n with
  | zero => intro a k; unfold findH; fol
  | succ n ih => intro a k; unfold findH; fol
macro_rules | `(tactic| foll) => `(tactic| with_reducible exact fol_findH _ _ _)
theorem fol_assocH {n : Nat} {a : Addr} {k : Sym} : Fol (assocH n a k) (fun _ => assocH n a k) := by unfold assocH; fol
macro_rules | `(tactic| foll) => `(tactic| with_reducible exact fol_assocH)
theorem fol_treeGetH {k : Sym} : Fol (@treeGetH slabs k) (fun φ => @treeGetH (placed φ o) k) := by unfold treeGetH; fol
macro_rules | `(tactic| foll) => `(tactic| with_reducible exact fol_treeGetH)
theorem fol_setCache {a : Addr} {b : Addr} : Fol (setCache a b) (fun _ => setCache a b) := by unfold setCache; fol
macro_rules | `(tactic| foll) => `(tactic| with_reducible exact fol_setCache)
theorem fol_lookupH {n : Nat} {a : Addr} {b : Addr} {k : Sym} : Fol (@lookupH slabs n a b k) (fun φ => @lookupH (placed φ o) n a b k) := by unfold lookupH; fol
macro_rules | `(tactic| foll) => `(tactic| with_reducible exact fol_lookupH)
theorem fol_entryH {k : Sym} {a : Addr} : Fol (entryH k a) (fun _ => entryH k a) := by unfold entryH; fol
macro_rules | `(tactic| foll) => `(tactic| with_reducible exact fol_entryH)
theorem fol_ownH {a : Addr} : Fol (ownH a) (fun _ => ownH a) := by unfold ownH; fol
macro_rules | `(tactic| foll) => `(tactic| with_reducible exact fol_ownH)
theorem fol_setqH {a : Addr} : Fol (@setqH slabs a) (fun φ => @setqH (placed φ o) a) := by unfold setqH; fol
macro_rules | `(tactic| foll) => `(tactic| with_reducible exact fol_setqH)
theorem fol_progH {ev : HEv} {ev' : (Nat → Addr) → HEv} (hev : ∀ c a, Fol (ev c a) (fun φ => ev' φ c a)) (n : Nat) : ∀ (c : Addr) (a : Addr) (r : Addr), Fol (@progH slabs ev n c a r) (fun φ => @progH (placed φ o) (ev' φ) n c a r) := by
  induction n with
  | zero => intro c a r; unfold progH; fol
  | succ n ih => intro c a r; unfold progH; fol
macro_rules | `(tactic| foll) => `(tactic| with_reducible exact fol_progH $(Lean.mkIdent `hev) _ _ _ _)
theorem fol_evalArgsH {ev : HEv} {ev' : (Nat → Addr) → HEv} (hev : ∀ c a, Fol (ev c a) (fun φ => ev' φ c a)) (n : Nat) : ∀ (c : Addr) (x : Addr) (y : Addr) (z : Addr), Fol (@evalArgsH slabs ev n c x y z) (fun φ => @evalArgsH (placed φ o) (ev' φ) n c x y z) := by
  induction n with
  | zero => intro c x y z; unfold evalArgsH; fol
  | succ n ih => intro c x y z; unfold evalArgsH; fol
macro_rules | `(tactic| foll) => `(tactic| with_reducible exact fol_evalArgsH $(Lean.mkIdent `hev) _ _ _ _ _)
theorem fol_isSelfTailH {a : Addr} {b : Addr} : Fol (isSelfTailH a b) (fun _ => isSelfTailH a b) := by unfold isSelfTailH; fol
macro_rules | `(tactic| foll) => `(tactic| with_reducible exact fol_isSelfTailH)
theorem fol_tailLoopH {ev : HEv} {ev' : (Nat → Addr) → HEv} {symb : Addr} {body : Addr} {cls : Addr} (hev : ∀ c a, Fol (ev c a) (fun φ => ev' φ c a)) (n : Nat) : ∀ (r : Addr), Fol (@tailLoopH slabs ev symb body cls n r) (fun φ => @tailLoopH (placed φ o) (ev' φ) symb body cls n r) := by
  induction n with
  | zero => intro r; unfold tailLoopH; fol
  | succ n ih => intro r; unfold tailLoopH; fol
macro_rules | `(tactic| foll) => `(tactic| with_reducible exact fol_tailLoopH $(Lean.mkIdent `hev) _ _)
theorem fol_popH {a : Addr} : Fol (popH a) (fun _ => popH a) := by unfold popH; fol
macro_rules | `(tactic| foll) => `(tactic| with_reducible exact fol_popH)
theorem fol_condH {ev : HEv} {ev' : (Nat → Addr) → HEv} (hev : ∀ c a, Fol (ev c a) (fun φ => ev' φ c a)) (n : Nat) : ∀ (c : Addr) (x : Addr) (y : Addr), Fol (@condH slabs ev n c x y) (fun φ => @condH (placed φ o) (ev' φ) n c x y) := by
  induction n with
  | zero => intro c x y; unfold condH; fol
  | succ n ih => intro c x y; unfold condH; fol
macro_rules | `(tactic| foll) => `(tactic| with_reducible exact fol_condH $(Lean.mkIdent `hev) _ _ _ _)
theorem fol_matchLoopH {ev : HEv} {ev' : (Nat → Addr) → HEv} (hev : ∀ c a, Fol (ev c a) (fun φ => ev' φ c a)) (n : Nat) : ∀ (c : Addr) (x : Addr) (y : Addr), Fol (@matchLoopH slabs ev n c x y) (fun φ => @matchLoopH (placed φ o) (ev' φ) n c x y) := by
  induction n with
  | zero => intro c x y; unfold matchLoopH; fol
  | succ n ih => intro c x y; unfold matchLoopH; fol
macro_rules | `(tactic| foll) => `(tactic| with_reducible exact fol_matchLoopH $(Lean.mkIdent `hev) _ _ _ _)
theorem fol_listH {ev : HEv} {ev' : (Nat → Addr) → HEv} (hev : ∀ c a, Fol (ev c a) (fun φ => ev' φ c a)) (n : Nat) : ∀ (c : Addr) (x : Addr), Fol (@listH slabs ev n c x) (fun φ => @listH (placed φ o) (ev' φ) n c x) := by
  induction n with
  | zero => intro c x; unfold listH; fol
  | succ n ih => intro c x; unfold listH; fol
macro_rules | `(tactic| foll) => `(tactic| with_reducible exact fol_listH $(Lean.mkIdent `hev) _ _ _)
theorem fol_streamH {ev : HEv} {ev' : (Nat → Addr) → HEv} (hev : ∀ c a, Fol (ev c a) (fun φ => ev' φ c a)) (n : Nat) : ∀ (c : Addr) (x : Addr) (y : Addr), Fol (@streamH slabs ev n c x y) (fun φ => @streamH (placed φ o) (ev' φ) n c x y) := by
  induction n with
  | zero => intro c x y; unfold streamH; fol
  | succ n ih => intro c x y; unfold streamH; fol
macro_rules | `(tactic| foll) => `(tactic| with_reducible exact fol_streamH $(Lean.mkIdent `hev) _ _ _ _)
theorem fol_letMarkH {u : UB} {n : Nat} {x : Addr} {y : Addr} {z : Addr} : Fol (@letMarkH slabs u n x y z) (fun φ => @letMarkH (placed φ o) u n x y z) := by unfold letMarkH; fol
macro_rules | `(tactic| foll) => `(tactic| with_reducible exact fol_letMarkH)
theorem fol_letBindH {ev : HEv} {ev' : (Nat → Addr) → HEv} {u : UB} (hev : ∀ c a, Fol (ev c a) (fun φ => ev' φ c a)) (n : Nat) : ∀ (c : Addr) (x : Addr) (y : Addr), Fol (@letBindH slabs ev u n c x y) (fun φ => @letBindH (placed φ o) (ev' φ) u n c x y) := by
  induction n with
  | zero => intro c x y; unfold letBindH; fol
  | succ n ih => intro c x y; unfold letBindH; fol
macro_rules | `(tactic| foll) => `(tactic| with_reducible exact fol_letBindH $(Lean.mkIdent `hev) _ _ _ _)
theorem fol_letH {ev : HEv} {ev' : (Nat → Addr) → HEv} {u : UB} {n : Nat} {c : Addr} {a : Addr} (hev : ∀ c a, Fol (ev c a) (fun φ => ev' φ c a)) : Fol (@letH slabs ev u n c a) (fun φ => @letH (placed φ o) (ev' φ) u n c a) := by unfold letH; fol
macro_rules | `(tactic| foll) => `(tactic| with_reducible exact fol_letH $(Lean.mkIdent `hev))
theorem fol_whileH {ev : HEv} {ev' : (Nat → Addr) → HEv} {c : Addr} {cnd : Addr} {prg : Addr} (hev : ∀ c a, Fol (ev c a) (fun φ => ev' φ c a)) (n : Nat) : ∀ (r : Addr), Fol (@whileH slabs ev c cnd prg n r) (fun φ => @whileH (placed φ o) (ev' φ) c cnd prg n r) := by
  induction n with
  | zero => intro r; unfold whileH; fol
  | succ n ih => intro r; unfold whileH; fol
macro_rules | `(tactic| foll) => `(tactic| with_reducible exact fol_whileH $(Lean.mkIdent `hev) _ _)
theorem fol_viewH  (n : Nat) : ∀ (a : Addr), Fol (viewH n a) (fun _ => viewH n a) := by
  induction n with
  | zero => intro a; unfold viewH; fol
  | succ n ih => intro a; unfold viewH; fol
macro_rules | `(tactic| foll) => `(tactic| with_reducible exact fol_viewH _ _)
theorem fol_prinH {n : Nat} {a : Addr} {b : Bool} : Fol (prinH n a b) (fun _ => prinH n a b) := by unfold prinH; fol
macro_rules | `(tactic| foll) => `(tactic| with_reducible exact fol_prinH)
theorem fol_sepH {b : Bool} : Fol (sepH b) (fun _ => sepH b) := by unfold sepH; fol
macro_rules | `(tactic| foll) => `(tactic| with_reducible exact fol_sepH)
theorem fol_prinAllH {ev : HEv} {ev' : (Nat → Addr) → HEv} {b : Bool} (hev : ∀ c a, Fol (ev c a) (fun φ => ev' φ c a)) (n : Nat) : ∀ (c : Addr) (x : Addr) (y : Addr), Fol (@prinAllH slabs ev b n c x y) (fun φ => @prinAllH (placed φ o) (ev' φ) b n c x y) := by
  induction n with
  | zero => intro c x y; unfold prinAllH; fol
  | succ n ih => intro c x y; unfold prinAllH; fol
macro_rules | `(tactic| foll) => `(tactic| with_reducible exact fol_prinAllH $(Lean.mkIdent `hev) _ _ _ _)
theorem fol_docH {a : Addr} : Fol (@docH slabs a) (fun φ => @docH (placed φ o) a) := by unfold docH; fol
macro_rules | `(tactic| foll) => `(tactic| with_reducible exact fol_docH)
theorem fol_defH {n : Nat} {f : Addr} {a : Addr} : Fol (@defH slabs n f a) (fun φ => @defH (placed φ o) n f a) := by unfold defH; fol
macro_rules | `(tactic| foll) => `(tactic| with_reducible exact fol_defH)
theorem fol_assignH {n : Nat} {c : Addr} {x : Addr} {y : Addr} : Fol (@assignH slabs n c x y) (fun φ => @assignH (placed φ o) n c x y) := by unfold assignH; fol
macro_rules | `(tactic| foll) => `(tactic| with_reducible exact fol_assignH)
theorem fol_setH {ev : HEv} {ev' : (Nat → Addr) → HEv} {u : UB} {n : Nat} {c : Addr} {a : Addr} (hev : ∀ c a, Fol (ev c a) (fun φ => ev' φ c a)) : Fol (@setH slabs ev u n c a) (fun φ => @setH (placed φ o) (ev' φ) u n c a) := by unfold setH; fol
macro_rules | `(tactic| foll) => `(tactic| with_reducible exact fol_setH $(Lean.mkIdent `hev))
theorem fol_setqNatH {ev : HEv} {ev' : (Nat → Addr) → HEv} {c : Addr} {a : Addr} (hev : ∀ c a, Fol (ev c a) (fun φ => ev' φ c a)) : Fol (@setqNatH slabs ev c a) (fun φ => @setqNatH (placed φ o) (ev' φ) c a) := by unfold setqNatH; fol
macro_rules | `(tactic| foll) => `(tactic| with_reducible exact fol_setqNatH $(Lean.mkIdent `hev))
theorem fol_orH {ev : HEv} {ev' : (Nat → Addr) → HEv} {c : Addr} {a : Addr} (hev : ∀ c a, Fol (ev c a) (fun φ => ev' φ c a)) : Fol (@orH slabs ev c a) (fun φ => @orH (placed φ o) (ev' φ) c a) := by unfold orH; fol
macro_rules | `(tactic| foll) => `(tactic| with_reducible exact fol_orH $(Lean.mkIdent `hev))
theorem fol_ofAtom {v : Val} : Fol (@ofAtom slabs v) (fun φ => @ofAtom (placed φ o) v) := by unfold ofAtom; fol
macro_rules | `(tactic| foll) => `(tactic| with_reducible exact fol_ofAtom)
theorem fol_symNatH {n : Nat} {x : Addr} : Fol (@symNatH slabs n x) (fun φ => @symNatH (placed φ o) n x) := by unfold symNatH; fol
macro_rules | `(tactic| foll) => `(tactic| with_reducible exact fol_symNatH)
theorem fol_unaryH {n : Nat} {op : Native} {x : Addr} : Fol (@unaryH slabs n op x) (fun φ => @unaryH (placed φ o) n op x) := by unfold unaryH; fol
macro_rules | `(tactic| foll) => `(tactic| with_reducible exact fol_unaryH)
theorem fol_binaryH {n : Nat} {op : Native} {x : Addr} {y : Addr} : Fol (@binaryH slabs n op x y) (fun φ => @binaryH (placed φ o) n op x y) := by unfold binaryH; fol
macro_rules | `(tactic| foll) => `(tactic| with_reducible exact fol_binaryH)
theorem fol_nativeAnyH {n : Nat} {ev : HEv} {ev' : (Nat → Addr) → HEv} {op : Native} {u : UB} {f : Addr} {c : Addr} {a : Addr} (hev : ∀ c a, Fol (ev c a) (fun φ => ev' φ c a)) : Fol (@nativeAnyH slabs n ev op u f c a) (fun φ => @nativeAnyH (placed φ o) n (ev' φ) op u f c a) := by unfold nativeAnyH; fol
macro_rules | `(tactic| foll) => `(tactic| with_reducible exact fol_nativeAnyH $(Lean.mkIdent `hev))
theorem fol_nativeRemH {n : Nat} {ev : HEv} {ev' : (Nat → Addr) → HEv} {op : Native} {c : Addr} {a : Addr} {b : Addr} (hev : ∀ c a, Fol (ev c a) (fun φ => ev' φ c a)) : Fol (@nativeRemH slabs n ev op c a b) (fun φ => @nativeRemH (placed φ o) n (ev' φ) op c a b) := by unfold nativeRemH; fol
macro_rules | `(tactic| foll) => `(tactic| with_reducible exact fol_nativeRemH $(Lean.mkIdent `hev))
theorem fol_expectEnv {a : Addr} {b : Addr} : Fol (expectEnv a b) (fun _ => expectEnv a b) := by unfold expectEnv; fol
macro_rules | `(tactic| foll) => `(tactic| with_reducible exact fol_expectEnv)
theorem fol_callNativeH {n : Nat} {ev : HEv} {ev' : (Nat → Addr) → HEv} {op : Native} {x : Addr} {y : Addr} (hev : ∀ c a, Fol (ev c a) (fun φ => ev' φ c a)) : Fol (@callNativeH slabs n ev op x y) (fun φ => @callNativeH (placed φ o) n (ev' φ) op x y) := by unfold callNativeH; fol
macro_rules | `(tactic| foll) => `(tactic| with_reducible exact fol_callNativeH $(Lean.mkIdent `hev))
theorem fol_nativeClosH {n : Nat} {x : Addr} {y : Addr} {z : Addr} : Fol (@nativeClosH slabs n x y z) (fun φ => @nativeClosH (placed φ o) n x y z) := by unfold nativeClosH; fol
macro_rules | `(tactic| foll) => `(tactic| with_reducible exact fol_nativeClosH)
theorem fol_applyH {n : Nat} {ev : HEv} {ev' : (Nat → Addr) → HEv} {a : Addr} {b : Addr} {c : Addr} {d : Addr} {e : Addr} {f : Addr} (hev : ∀ c a, Fol (ev c a) (fun φ => ev' φ c a)) : Fol (@applyH slabs n ev a b c d e f) (fun φ => @applyH (placed φ o) n (ev' φ) a b c d e f) := by unfold applyH; fol
macro_rules | `(tactic| foll) => `(tactic| with_reducible exact fol_applyH $(Lean.mkIdent `hev))
theorem fol_evalFuncH {n : Nat} {ev : HEv} {ev' : (Nat → Addr) → HEv} {a : Addr} {b : Addr} {c : Addr} {d : Addr} (hev : ∀ c a, Fol (ev c a) (fun φ => ev' φ c a)) : Fol (@evalFuncH slabs n ev a b c d) (fun φ => @evalFuncH (placed φ o) n (ev' φ) a b c d) := by unfold evalFuncH; fol
macro_rules | `(tactic| foll) => `(tactic| with_reducible exact fol_evalFuncH $(Lean.mkIdent `hev))
theorem fol_evalNextH {n : Nat} {ev : HEv} {ev' : (Nat → Addr) → HEv} {a : Addr} {b : Addr} {c : Addr} {d : Addr} (hev : ∀ c a, Fol (ev c a) (fun φ => ev' φ c a)) : Fol (@evalNextH slabs n ev a b c d) (fun φ => @evalNextH (placed φ o) n (ev' φ) a b c d) := by unfold evalNextH; fol
macro_rules | `(tactic| foll) => `(tactic| with_reducible exact fol_evalNextH $(Lean.mkIdent `hev))
theorem fol_evalPairH {n : Nat} {ev : HEv} {ev' : (Nat → Addr) → HEv} {a : Addr} {b : Addr} (hev : ∀ c a, Fol (ev c a) (fun φ => ev' φ c a)) : Fol (@evalPairH slabs n ev a b) (fun φ => @evalPairH (placed φ o) n (ev' φ) a b) := by unfold evalPairH; fol
macro_rules | `(tactic| foll) => `(tactic| with_reducible exact fol_evalPairH $(Lean.mkIdent `hev))
theorem fol_evalStepH {n : Nat} {ev : HEv} {ev' : (Nat → Addr) → HEv} {a : Addr} {b : Addr} (hev : ∀ c a, Fol (ev c a) (fun φ => ev' φ c a)) : Fol (@evalStepH slabs n ev a b) (fun φ => @evalStepH (placed φ o) n (ev' φ) a b) := by unfold evalStepH; fol
macro_rules | `(tactic| foll) => `(tactic| with_reducible exact fol_evalStepH $(Lean.mkIdent `hev))
theorem fol_evalNH (n : Nat) : ∀ c a, Fol (@evalNH slabs n c a) (fun φ => @evalNH (placed φ o) n c a) := by
  induction n with
  | zero => intro c a; exact fol_oof
  | succ n ih => intro c a; exact fol_evalStepH ih
macro_rules | `(tactic| foll) => `(tactic| with_reducible exact fol_evalNH _ _ _)
theorem fol_buildH (v : Val) : Fol (@buildH slabs v) (fun φ => @buildH (placed φ o) v) := by
  induction v with
  | pair t a d iha ihd => unfold buildH; fol
  | _ => unfold buildH; fol
macro_rules | `(tactic| foll) => `(tactic| with_reducible exact fol_buildH _)
theorem fol_loadNativeH {op : Native} : Fol (@loadNativeH slabs op) (fun φ => @loadNativeH (placed φ o) op) := by unfold loadNativeH; fol
macro_rules | `(tactic| foll) => `(tactic| with_reducible exact fol_loadNativeH)
theorem fol_loadH {l : List Native} : Fol (@loadH slabs l) (fun φ => @loadH (placed φ o) l) := by
  induction l with
  | nil => unfold loadH; fol
  | cons a l ih => unfold loadH; fol
macro_rules | `(tactic| foll) => `(tactic| with_reducible exact fol_loadH)
theorem fol_topLoopH {n : Nat} {nl : Addr} {l : List Val} : ∀ r, Fol (@topLoopH slabs n nl l r) (fun φ => @topLoopH (placed φ o) n nl l r) := by
  induction l with
  | nil => intro r; unfold topLoopH; fol
  | cons a l ih => intro r; unfold topLoopH; fol
macro_rules | `(tactic| foll) => `(tactic| with_reducible exact fol_topLoopH _)
theorem fol_sessionH {n : Nat} {ops : List Native} {es : List Val} : Fol (@sessionH slabs n ops es) (fun φ => @sessionH (placed φ o) n ops es) := by unfold sessionH; fol
macro_rules | `(tactic| foll) => `(tactic| with_reducible exact fol_sessionH)

end

end Heap
end Mnml
