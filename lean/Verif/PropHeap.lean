import Verif.HeapOwn
import Verif.Dsl

/-!
# Properties of the memory: C03, C04, C05
-/

set_option maxRecDepth 100000

namespace Mnml
namespace Heap

/-! ## C03: reference counts of the list primitives are exact -/

/-- The number of fields of allocated pairs that point to `a`. -/
def fieldRefs (s : HSt) (a : Addr) : Nat :=
  sumTo (fun b => match s.mem b with | some c => occ c.data a | none => 0) s.next

/-- The references to `a`: from the fields of allocated cells, from the running code, which owns the references in
the list `own`, and from the table of globals. -/
def refsTo (s : HSt) (own : List Addr) (a : Addr) : Nat :=
  fieldRefs s a + own.count a + (s.globals.map Prod.snd).count a

/-- Exact reference counts: the count of every allocated cell is the number of references to it, and the cells
that are not allocated are those without references. -/
structure Exact (s : HSt) (own : List Addr) : Prop where
  bound : ∀ a, s.next ≤ a → s.mem a = none
  count : ∀ a c, s.mem a = some c → c.refs = refsTo s own a
  released : ∀ a, s.mem a = none ↔ refsTo s own a = 0
  cache : ∀ a c d, s.mem a = some c → c.cache = some d → d ∈ s.globals.map Prod.snd
  plain : s.leaked = [] ∧ s.zombies = []

theorem ones_count (l : List Addr) (b : Addr) : ones l b = l.count b := by
  induction l with
  | nil => rfl
  | cons a l ih =>
    rw [ones_cons, ih, List.count_cons]
    unfold one
    by_cases e : b = a
    · subst e; simp; omega
    · have : ¬ (a = b) := fun e' => e e'.symm
      simp [e, this]

theorem total_refsTo {s : HSt} {own : List Addr} (p : s.leaked = [] ∧ s.zombies = []) (a : Addr) :
    total [] s (ones own) a = refsTo s own a := by
  unfold total refsTo roots edges fieldRefs
  rw [p.1, p.2, ones_count]
  have : sumTo (contrib ([] ++ []) s.mem a) s.next
      = sumTo (fun b => match s.mem b with | some c => occ c.data a | none => 0) s.next :=
    sumTo_congr fun b _ => by simp only [contrib, List.append_nil, List.not_mem_nil, if_false]; rfl
  rw [this]
  simp

theorem Exact.inv {s : HSt} {own : List Addr} (h : Exact s own) : Inv s (ones own) := by
  refine ⟨h.bound, ?_, ?_, ?_, by simp, ?_, h.cache⟩
  · intro a c hc; rw [total_refsTo h.plain]; exact h.count a c hc
  · intro a ha; rw [total_refsTo h.plain]; exact (h.released a).1 ha
  · intro a c hc _
    rw [h.count a c hc]
    have : ¬ refsTo s own a = 0 := fun e => by
      rw [← h.released] at e; rw [hc] at e; cases e
    omega
  · intro z hz; rw [h.plain.2] at hz; cases hz

theorem Exact.ofInv {s : HSt} {own : List Addr} (h : Inv s (ones own))
    (p : s.leaked = [] ∧ s.zombies = []) : Exact s own := by
  refine ⟨h.fresh, ?_, ?_, h.cache, p⟩
  · intro a c hc; rw [← total_refsTo p]; exact h.exact a c hc
  · intro a
    constructor
    · intro ha; rw [← total_refsTo p]; exact h.dead a ha
    · intro e
      cases hc : s.mem a with
      | none => rfl
      | some c =>
        have h1 := h.exact a c hc
        have h2 := h.pos a c hc (by simp)
        rw [total_refsTo p] at h1
        omega

/-- The calls of the list primitives. -/
inductive Prim where
  /-- a new atom that is not a pair -/
  | atom (d : Data) (h : d.isPair = false)
  /-- `lisp_cons` -/
  | cons (x y : Addr)
  /-- `lisp_car` -/
  | car (a : Addr)
  /-- `lisp_cdr` -/
  | cdr (a : Addr)
  /-- `lisp_dup` -/
  | dup (a : Addr)
  /-- `lisp_conc` -/
  | conc (x y : Addr)
  /-- `lisp_append` -/
  | append (x y : Addr)
  /-- `lisp_merge` of a copy made by `lisp_dup`, the update of association lists -/
  | update (c alst : Addr)
  /-- `UP` -/
  | keep (a : Addr)
  /-- `X` -/
  | drop (a : Addr)

/-- The references that a call takes from its caller (the `CONSUMES` comments of `include/mnml/lisp.h` and
`include/mnml/utils.h`). -/
def Prim.takes : Prim → List Addr
  | .cons x y => [x, y]
  | .conc x y => [x, y]
  | .append x y => [x, y]
  | .drop a => [a]
  | _ => []

/-- The references that a call only reads. -/
def Prim.reads : Prim → List Addr
  | .car a => [a]
  | .cdr a => [a]
  | .dup a => [a]
  | .update c alst => [c, alst]
  | .keep a => [a]
  | _ => []

/-- The call; the result is the list of the references that it gives to its caller. -/
def Prim.run (n : Nat) : Prim → HM (List Addr)
  | .atom d _ => do
    let r ← alloc d
    pure [r]
  | .cons x y => do
    let r ← consH x y
    pure [r]
  | .car a => do
    let r ← carH a
    pure [r]
  | .cdr a => do
    let r ← cdrH a
    pure [r]
  | .dup a => do
    let r ← dupH n a
    pure [r]
  | .conc x y => do
    let r ← concH n x y
    pure [r]
  | .append x y => do
    let r ← appendH n x y
    pure [r]
  | .update c alst => do
    let d ← dupH n c
    let r ← mergeH n d alst
    pure [r]
  | .keep a => do
    up a
    pure [a]
  | .drop a => do
    X a
    pure []

/-- A call that respects the ownership rules: the references that it takes are owned by the caller, as
often as they are taken, and those that it reads are owned too. -/
def Prim.Ok (own : List Addr) (p : Prim) : Prop :=
  (∀ b, p.takes.count b ≤ own.count b) ∧ ∀ b, b ∈ p.reads → b ∈ own

/-- Sequences of calls that respect the ownership rules, with the owned references after every call. -/
inductive Calls (n : Nat) : HSt → List Addr → HSt → List Addr → Prop
  | nil {s own} : Calls n s own s own
  | step {s own s1 own1 s2 own2 rs} (p : Prim) : p.Ok own → p.run n s = .ok (rs, s1) →
      (∀ b, own1.count b + p.takes.count b = own.count b + rs.count b) →
      Calls n s1 own1 s2 own2 → Calls n s own s2 own2

/-! ### The primitives do not use the two components that only record abandoned references -/

/-- A computation that does not change the records. -/
def Keeps {α : Type} (x : HM α) : Prop :=
  ∀ s r s', x s = .ok (r, s') → s'.leaked = s.leaked ∧ s'.zombies = s.zombies

theorem Keeps.bind {α β : Type} {x : HM α} {f : α → HM β} (h : Keeps x) (h' : ∀ a, Keeps (f a)) :
    Keeps (x >>= f) := by
  intro s r s' e
  have e' : HM.bind x f s = .ok (r, s') := e
  unfold HM.bind at e'
  cases hx : x s with
  | ok p =>
    rw [hx] at e'
    have h1 := h s p.1 p.2 hx
    have h2 := h' p.1 p.2 r s' e'
    exact ⟨h2.1.trans h1.1, h2.2.trans h1.2⟩
  | _ => rw [hx] at e'; cases e'

theorem Keeps.pure {α : Type} (a : α) : Keeps (pure a : HM α) := by
  intro s r s' e; cases e; exact ⟨rfl, rfl⟩
theorem Keeps.oof {α : Type} : Keeps (HM.oof : HM α) := by intro s r s' e; cases e
theorem Keeps.ub {α : Type} (u : UB) : Keeps (HM.ub u : HM α) := by intro s r s' e; cases e
theorem Keeps.cell (a : Addr) : Keeps (cell a) := by
  intro s r s' e
  unfold Heap.cell at e
  split at e <;> cases e
  exact ⟨rfl, rfl⟩
theorem Keeps.modify (a : Addr) (f : Cell → Cell) : Keeps (modify a f) := by
  intro s r s' e
  unfold Heap.modify at e
  split at e <;> cases e
  exact ⟨rfl, rfl⟩
theorem Keeps.free (a : Addr) : Keeps (free a) := by
  intro s r s' e
  unfold Heap.free at e
  split at e <;> cases e
  exact ⟨rfl, rfl⟩
theorem Keeps.alloc (d : Data) : Keeps (alloc d) := by
  intro s r s' e; cases e; exact ⟨rfl, rfl⟩
theorem Keeps.guard (b : Bool) : Keeps (guard b) := by
  intro s r s' e
  unfold Heap.guard at e
  split at e <;> cases e
  exact ⟨rfl, rfl⟩
theorem Keeps.noFlag (a : Addr) : Keeps (noFlag a) := .bind (.cell a) fun _ => .guard _
theorem Keeps.dataOf (a : Addr) : Keeps (dataOf a) := .bind (.cell a) fun _ => .pure _
theorem Keeps.up (a : Addr) : Keeps (up a) := .modify a _
theorem Keeps.setData (a : Addr) (d : Data) : Keeps (setData a d) := .modify a _
theorem Keeps.pairOf (a : Addr) : Keeps (pairOf a) := .bind (.dataOf a) fun d => by
  cases d <;> first | exact .pure _ | exact .ub _
theorem Keeps.ite {α : Type} {c : Prop} [Decidable c] {x y : HM α} (h : Keeps x) (h' : Keeps y) :
    Keeps (if c then x else y) := by
  split
  · exact h
  · exact h'
theorem Keeps.release (n : Nat) : ∀ a, Keeps (release n a) := by
  induction n with
  | zero => intro a; exact .oof
  | succ n ih =>
    intro a
    refine .bind (.cell a) fun c => .ite (.ub _) (.bind (.modify a _) fun _ => .ite ?_ (.pure _))
    cases c.data with
    | pair x y => exact .bind (ih x) fun _ => .bind (ih y) fun _ => .free a
    | _ => exact .free a
theorem Keeps.X (a : Addr) : Keeps (X a) := fun s r s' e => Keeps.release (s.next + 1) a s r s' e
theorem Keeps.carH (a : Addr) : Keeps (carH a) := .bind (.dataOf a) fun d => by
  cases d <;> first | exact .alloc _ | exact .bind (.up _) fun _ => .pure _
theorem Keeps.cdrH (a : Addr) : Keeps (cdrH a) := .bind (.dataOf a) fun d => by
  cases d <;> first | exact .alloc _ | exact .bind (.up _) fun _ => .pure _
theorem Keeps.lastPair (n : Nat) : ∀ a, Keeps (lastPair n a) := by
  induction n with
  | zero => intro a; exact .oof
  | succ n ih =>
    intro a
    exact .bind (.pairOf a) fun p => .bind (.dataOf p.2) fun d => .ite (ih _) (.pure _)
theorem Keeps.concH (n : Nat) (x y : Addr) : Keeps (concH n x y) :=
  .bind (.dataOf x) fun _ => .ite
    (.bind (.lastPair n x) fun p => .bind (.pairOf p) fun q => .bind (.X q.2) fun _ => .bind (.pairOf p) fun _ =>
      .bind (.setData _ _) fun _ => .pure _)
    (.bind (.X x) fun _ => .pure _)
theorem Keeps.appendH (n : Nat) (x y : Addr) : Keeps (appendH n x y) :=
  .bind (.alloc _) fun _ => .bind (.alloc _) fun _ => .concH n _ _
theorem Keeps.dupH (n : Nat) : ∀ a, Keeps (dupH n a) := by
  induction n with
  | zero => intro a; exact .oof
  | succ n ih =>
    intro a
    refine .bind (.dataOf a) fun d => ?_
    cases d with
    | pair x y => exact .bind (.noFlag a) fun _ => .bind (ih y) fun _ => .bind (.up x) fun _ => .alloc _
    | _ => exact .bind (.up a) fun _ => .pure _
theorem Keeps.compareH (a b : Addr) : Keeps (compareH a b) :=
  .bind (.dataOf a) fun x => .bind (.dataOf b) fun y => by
    cases x.tag <;> cases y.tag <;> first | exact .pure _ | exact .ub _
theorem Keeps.sssH (n : Nat) : ∀ r k, Keeps (sssH n r k) := by
  induction n with
  | zero => intro r k; exact .oof
  | succ n ih =>
    intro r k
    refine .bind (.dataOf r) fun d => .ite (.alloc _) (.bind (.pairOf r) fun p => .bind (.pairOf _) fun q =>
      .bind (.pairOf k) fun q' => .bind (.compareH _ _) fun o => ?_)
    cases o with
    | lt => exact .bind (ih _ _) fun _ => .bind (.pairOf r) fun _ => .bind (.setData _ _) fun _ => .pure _
    | eq => exact .bind (.setData _ _) fun _ => .bind (.X _) fun _ => .pure _
    | gt => exact .alloc _
theorem Keeps.mergeLoop (n : Nat) : ∀ r a, Keeps (mergeLoop n r a) := by
  induction n with
  | zero => intro r k; exact .oof
  | succ n ih =>
    intro r a
    exact .bind (.pairOf a) fun p => .bind (.up _) fun _ => .bind (.sssH n _ _) fun _ =>
      .bind (.pairOf a) fun _ => .bind (.dataOf _) fun _ => .ite (ih _ _) (.pure _)
theorem Keeps.mergeH (n : Nat) (r a : Addr) : Keeps (mergeH n r a) :=
  .bind (.dataOf a) fun _ => .ite (.pure _) (.mergeLoop n r a)
theorem Keeps.prim (n : Nat) (p : Prim) : Keeps (p.run n) := by
  cases p with
  | atom d h => exact .bind (.alloc d) fun _ => .pure _
  | cons x y => exact .bind (.alloc _) fun _ => .pure _
  | car a => exact .bind (.carH a) fun _ => .pure _
  | cdr a => exact .bind (.cdrH a) fun _ => .pure _
  | dup a => exact .bind (.dupH n a) fun _ => .pure _
  | conc x y => exact .bind (.concH n x y) fun _ => .pure _
  | append x y => exact .bind (.appendH n x y) fun _ => .pure _
  | update c l => exact .bind (.dupH n c) fun _ => .bind (.mergeH n _ l) fun _ => .pure _
  | keep a => exact .bind (.up a) fun _ => .pure _
  | drop a => exact .bind (.X a) fun _ => .pure _

theorem own_le {own : List Addr} {a : Addr} (h : a ∈ own) : ∀ b, one a b ≤ ones own b := by
  intro b
  rw [ones_count]
  by_cases e : b = a
  · subst e
    rw [one_self]
    exact List.count_pos_iff.2 h
  · rw [one_ne e]; omega

/-- One call that respects the ownership rules. -/
theorem wp_prim {n : Nat} {s : HSt} {own : List Addr} (h : Inv s (ones own)) (p : Prim) (ok : p.Ok own) :
    wp (p.run n) (fun rs s' => ∃ T', Inv s' T' ∧ ∀ b, T' b + ones p.takes b = ones own b + ones rs b) s := by
  obtain ⟨ht, hr⟩ := ok
  have ht' : ∀ b, ones p.takes b ≤ ones own b := by intro b; rw [ones_count, ones_count]; exact ht b
  cases p with
  | atom d hd =>
    refine wp_bind (wp_mk h hd ?_)
    intro r s' T' h' e _
    exact wp_pure ⟨T', h', by intro b; have := e b; simp only [Prim.takes, ones_nil, ones_cons]; omega⟩
  | cons x y =>
    simp only [Prim.takes] at *
    refine wp_bind (wp_cons h (by tok) ?_)
    intro r s' T' h' e _
    exact wp_pure ⟨T', h', by tok⟩
  | car a =>
    simp only [Prim.takes] at *
    refine wp_bind (wp_car h (h.live (own_le (hr a (by simp [Prim.reads])))) ?_)
    intro r s' T' h' e _
    exact wp_pure ⟨T', h', by tok⟩
  | cdr a =>
    simp only [Prim.takes] at *
    refine wp_bind (wp_cdr h (h.live (own_le (hr a (by simp [Prim.reads])))) ?_)
    intro r s' T' h' e _
    exact wp_pure ⟨T', h', by tok⟩
  | dup a =>
    simp only [Prim.takes] at *
    refine wp_bind (wp_dup n h (h.live (own_le (hr a (by simp [Prim.reads])))) ?_)
    intro r s' T' h' e _ _
    exact wp_pure ⟨T', h', by tok⟩
  | conc x y =>
    simp only [Prim.takes] at *
    refine wp_bind (wp_conc h (by tok) ?_)
    intro r s' T' h' e
    exact wp_pure ⟨T', h', by tok⟩
  | append x y =>
    simp only [Prim.takes] at *
    refine wp_bind (wp_append h (by tok) ?_)
    intro r s' T' h' e
    exact wp_pure ⟨T', h', by tok⟩
  | update c l =>
    simp only [Prim.takes] at *
    refine wp_dupMerge h (h.live (own_le (hr c (by simp [Prim.reads])))) (own_le (hr l (by simp [Prim.reads]))) ?_
    intro r s' T' h' e _
    exact wp_pure ⟨T', h', by tok⟩
  | keep a =>
    simp only [Prim.takes] at *
    refine wp_bind (wp_up h (h.live (own_le (hr a (by simp [Prim.reads])))) ?_)
    intro s' T' h' e _
    exact wp_pure ⟨T', h', by tok⟩
  | drop a =>
    simp only [Prim.takes] at *
    refine wp_bind (wp_X h (by tok) ?_)
    intro s' T' h' e
    exact wp_pure ⟨T', h', by tok⟩

/-- **C03**: every call of a list primitive that respects the ownership rules keeps the reference counts exact: afterwards the
count of each cell is again the number of fields pointing to it plus the references owned, where the caller has lost the
references that the call takes and got those that it returns. -/
theorem C03_call {n : Nat} {s s' : HSt} {own own' rs : List Addr} (h : Exact s own) (p : Prim) (ok : p.Ok own)
    (run : p.run n s = .ok (rs, s')) (e : ∀ b, own'.count b + p.takes.count b = own.count b + rs.count b) :
    Exact s' own' := by
  have w := wp_prim (n := n) h.inv p ok
  unfold wp at w
  rw [run] at w
  obtain ⟨T', h', e'⟩ := w
  have k := Keeps.prim n p s rs s' run
  refine Exact.ofInv (h'.congr ?_) ⟨k.1.trans h.plain.1, k.2.trans h.plain.2⟩
  intro b
  have h1 := e' b
  have h2 := e b
  simp only [ones_count] at *
  omega

/-- **C03**, all sequences: the counts are exact after any sequence of calls that respects the ownership rules. -/
theorem C03_calls {n : Nat} {s s' : HSt} {own own' : List Addr} (h : Exact s own) (c : Calls n s own s' own') :
    Exact s' own' := by
  induction c with
  | nil => exact h
  | step p ok run e _ ih => exact ih (C03_call h p ok run e)

/-- **C03**, from the empty memory. -/
theorem C03_from_empty {n : Nat} {s' : HSt} {own' : List Addr} (c : Calls n emptyH [] s' own') :
    Exact s' own' := by
  refine C03_calls (Exact.ofInv (inv_empty.congr fun b => rfl) ⟨rfl, rfl⟩) c

/-- **C03**: no primitive accesses a released cell. -/
theorem C03_no_use_after_free {n : Nat} {s : HSt} {own : List Addr} (h : Exact s own) (p : Prim)
    (ok : p.Ok own) : p.run n s ≠ .ub .useAfterFree := by
  have w := wp_prim (n := n) h.inv p ok
  unfold wp at w
  intro e
  rw [e] at w
  exact w rfl

/-- **C03**: dropping an owned reference always succeeds (the cascade ends) and gives up exactly that reference;
the cell is released exactly when the dropped reference was the last one. -/
theorem C03_drop {s : HSt} {own : List Addr} {a : Addr} {c : Cell} (h : Exact s own) (ha : a ∈ own)
    (hc : s.mem a = some c) :
    ∃ s', X a s = .ok ((), s') ∧ Exact s' (own.erase a) ∧ (s'.mem a = none ↔ c.refs = 1) := by
  obtain ⟨s', T', run, h', e, k⟩ := X_spec h.inv (own_le ha) (by simp)
  have ex : Exact s' (own.erase a) := by
    refine Exact.ofInv (h'.congr ?_) ⟨k.leaked.trans h.plain.1, k.zombies.trans h.plain.2⟩
    intro b
    have h1 := e b
    simp only [ones_count] at *
    rw [List.count_erase]
    unfold one at h1
    by_cases eb : b = a
    · subst eb; simp at *; omega
    · have : ¬ (a = b) := fun e' => eb e'.symm
      simp [eb, this] at *; omega
  refine ⟨s', run, ex, ?_⟩
  have fields : ∀ b, fieldRefs s' b ≤ fieldRefs s b := by
    intro b
    unfold fieldRefs
    rw [k.next]
    refine sumTo_le fun x _ => ?_
    cases hx : s'.mem x with
    | none => simp
    | some cx =>
      obtain ⟨c0, h0, ed, _⟩ := k.mem x cx hx
      simp [h0, ed]
  have cnt := h.count a c hc
  have pos : 0 < own.count a := List.count_pos_iff.2 ha
  have er : (own.erase a).count a = own.count a - 1 := by rw [List.count_erase_self]
  constructor
  · intro hn
    by_cases h1 : c.refs = 1
    · exact h1
    · exfalso
      have h2 : 1 < c.refs := by
        have : 0 < refsTo s own a := by unfold refsTo; omega
        omega
      have := (release_many (n := s.next) hc h2)
      unfold X at run
      rw [this] at run
      cases run
      simp [dec, upd] at hn
  · intro h1
    rw [ex.released]
    have := fields a
    unfold refsTo at *
    rw [er, k.globals]
    omega

/-- The hypotheses of the theorems above are met: three cells, a shared one, and a drop of the pair. -/
example : ∃ s' own', Calls 5 emptyH [] s' own' ∧ own' = [0] ∧ s'.mem 1 = none ∧ s'.mem 0 ≠ none := by
  refine ⟨_, [0], .step (own1 := [0]) (.atom (.num 1) rfl) ⟨by simp [Prim.takes], by simp [Prim.reads]⟩ rfl
      (by simp [Prim.takes]; intro b; rfl) <|
    .step (own1 := [0, 0]) (.keep 0) ⟨by simp [Prim.takes], by simp [Prim.reads]⟩ rfl
      (by intro b; show [0, 0].count b + [].count b = [0].count b + [0].count b
          simp [List.count_cons]) <|
    .step (own1 := [1]) (.cons 0 0) ⟨by intro b; exact Nat.le_refl _, by simp [Prim.reads]⟩ rfl
      (by intro b; show [1].count b + [0, 0].count b = [0, 0].count b + [1].count b; omega) <|
    .step (own1 := [0, 1]) (.car 1) ⟨by simp [Prim.takes], by simp [Prim.reads]⟩ rfl
      (by intro b; show [0, 1].count b + [].count b = [1].count b + [0].count b
          simp [List.count_cons]) <|
    .step (own1 := [0]) (.drop 1) ⟨by intro b; simp [Prim.takes, List.count_cons], by simp [Prim.reads]⟩ rfl
      (by intro b; show [0].count b + [1].count b = [0, 1].count b + [].count b
          simp [List.count_cons]; omega) .nil, rfl, ?_, ?_⟩
  · decide +kernel
  · decide +kernel

/-! ## C04: evaluation never touches a released cell -/

/-- **C04** (partial): evaluating any expression, in any environment, from any memory that satisfies the
invariant, with any fuel, never reads, writes or releases a released cell.

Missing from the full statement: `match` keeps its subject in a local variable without owning it, while user code runs
(`match.c:68`), and so do `<-` and `let` with their argument (`set.c:14`, `let.c:46`) if they are called through a closure
that the program has built by hand, so that the binding of the argument is shared with the program. In these cases
the model reports the outcome `staleArg`. All three do happen, so that the full statement is false: `C04_match_counterexample`,
`C04_set_counterexample`, `C04_let_counterexample`. Ordinary calls of `<-` and `let` never report `staleArg` (`C04_own`),
hence the theorem shows them safe. -/
theorem C04_eval_partial (n : Nat) {s : HSt} {T : Addr → Nat} {closure a : Addr} (h : Inv s T)
    (own : ∀ b, ones [closure, a] b ≤ T b) : evalNH n closure a s ≠ .ub .useAfterFree := by
  have w := wp_evalN n (Q := fun _ _ => True) h own (fun _ _ _ _ _ => trivial)
  unfold wp at w
  intro e
  rw [e] at w
  exact w rfl

/-- **C04** (partial), whole programs: loading any natives and evaluating any expressions one after the other. -/
theorem C04_session_partial (n : Nat) (ops : List Native) (es : List Val) :
    sessionH n ops es emptyH ≠ .ub .useAfterFree := by
  have w := wp_session n ops es (Q := fun _ _ => True) inv_empty (fun _ _ _ _ _ => trivial)
  unfold wp at w
  intro e
  rw [e] at w
  exact w rfl

/-- **C04** (partial), with the disposal of the result. -/
theorem C04_drop_partial (n : Nat) (ops : List Native) (es : List Val) :
    (sessionH n ops es >>= X) emptyH ≠ .ub .useAfterFree := by
  have w : wp (sessionH n ops es >>= X) (fun _ _ => True) emptyH := by
    refine wp_bind (wp_session n ops es inv_empty ?_)
    intro r s' T' h' e
    refine wp_X h' ?_ fun _ _ _ _ => trivial
    intro b
    have := e b
    simp only [ones_nil] at this
    omega
  unfold wp at w
  intro e
  rw [e] at w
  exact w rfl

/-- The hypotheses of `C04_eval_partial` are met by a number and an empty environment. -/
example : ∃ s T, Inv s T ∧ (∀ b, ones [0, 1] b ≤ T b) := by
  have w := C03_from_empty (n := 0) (own' := [1, 0]) (s' := _) <|
    .step (own1 := [0]) (.atom .nil rfl) ⟨by simp [Prim.takes], by simp [Prim.reads]⟩ rfl
      (by simp [Prim.takes]; intro b; rfl) <|
    .step (own1 := [1, 0]) (.atom (.num 1) rfl) ⟨by simp [Prim.takes], by simp [Prim.reads]⟩ rfl
      (by intro b; show [1, 0].count b + [].count b = [0].count b + [1].count b
          simp [List.count_cons]) .nil
  exact ⟨_, _, w.inv, by intro b; simp only [ones_cons, ones_nil]; omega⟩

/-- A stale argument has been read. -/
def isStale {α : Type} : Res α → Bool
  | .ub .staleArg => true
  | _ => false

theorem isStale_eq {α : Type} {r : Res α} (h : isStale r = true) : r = .ub .staleArg := by
  unfold isStale at h
  split at h
  · rfl
  · cases h

/-- **C04**: the full statement is false. The subject of `match` is read from the environment of the native, where the
program can replace it with `<-`; the local variable `ANY` of `lisp_function_match` then points
to a released cell (`match.c:63-70`). -/
theorem C04_match_counterexample :
    sessionH 30 [.match_, .prog, .set, .quote]
      [L [S "match", L [S "prog", L [S "<-", Q (S "ANY"), N 5], N 1], .cons (N 1) .tru]]
      emptyH = .ub .staleArg := isStale_eq (by decide_cbv)

/-- **C04**: an ordinary call of a native that takes its arguments as one list (`args` is a symbol and the native brings no
bindings of its own) owns the binding of that list alone, so that a released argument is reported as
`useAfterFree`, which `C04_eval_partial` excludes. The steps are those of `lisp_eval_func` (`lib/core/eval.c:94-136`). -/
theorem C04_own {ev : HEv} {n : Nat} {s s' : HSt} {T : Addr → Nat} {closure args vals dscl : Addr} {ca cd : Cell} {sy : Sym}
    {u : UB} (h : Inv s T) (t : ∀ b, ones [closure, args, vals, dscl] b ≤ T b)
    (ha : s.mem args = some ca) (hs : ca.data = .sym sy) (hd : s.mem dscl = some cd) (hn : cd.data = .nil)
    (run : (do
      let nl ← mkNil
      let bind ← evalArgsH ev n closure nl args vals
      let bscl ← carH bind
      let _ ← cdrH bind
      X bind
      let clos ← nativeClosH n closure bscl dscl
      ownH clos) s = .ok (u, s')) : u = .useAfterFree := own_call h t ha hs hd hn run

/-- The execution has ended normally. -/
def isOk {α : Type} : Res α → Bool
  | .ok _ => true
  | _ => false

/-- The hypotheses of `C04_own` are met: the environment and the bindings are NIL (cells 0 and 3), the argument
is the symbol `ANY` (cell 1) and the list of values is the number 7 (cell 2). -/
example : ∃ (s : HSt) (T : Addr → Nat) (ca cd : Cell) (sy : Sym), Inv s T ∧ (∀ b, ones [0, 1, 2, 3] b ≤ T b) ∧
    s.mem 1 = some ca ∧ ca.data = .sym sy ∧ s.mem 3 = some cd ∧ cd.data = .nil ∧
    isOk ((do
      let nl ← mkNil
      let bind ← evalArgsH (evalNH 9) 9 0 nl 1 2
      let bscl ← carH bind
      let _ ← cdrH bind
      X bind
      let clos ← nativeClosH 9 0 bscl 3
      ownH clos) s) = true := by
  have w := C03_from_empty (n := 0) (own' := [3, 2, 1, 0]) (s' := _) <|
    .step (own1 := [0]) (.atom .nil rfl) ⟨by simp [Prim.takes], by simp [Prim.reads]⟩ rfl
      (by simp [Prim.takes]; intro b; rfl) <|
    .step (own1 := [1, 0]) (.atom (.sym (Sym.ofChars "ANY".toList)) rfl) ⟨by simp [Prim.takes], by simp [Prim.reads]⟩ rfl
      (by intro b; show [1, 0].count b + [].count b = [0].count b + [1].count b
          simp [List.count_cons]) <|
    .step (own1 := [2, 1, 0]) (.atom (.num 7) rfl) ⟨by simp [Prim.takes], by simp [Prim.reads]⟩ rfl
      (by intro b; show [2, 1, 0].count b + [].count b = [1, 0].count b + [2].count b
          simp [List.count_cons]) <|
    .step (own1 := [3, 2, 1, 0]) (.atom .nil rfl) ⟨by simp [Prim.takes], by simp [Prim.reads]⟩ rfl
      (by intro b; show [3, 2, 1, 0].count b + [].count b = [2, 1, 0].count b + [3].count b
          simp [List.count_cons]) .nil
  exact ⟨_, _, _, _, _, w.inv, by intro b; simp only [ones_cons, ones_nil]; omega, rfl, rfl, rfl, rfl, by decide_cbv⟩

/-! ## C05: nothing is leaked -/

/-- Reachability through the fields of pairs from the cells that satisfy `R`. -/
inductive Reach (s : HSt) (R : Addr → Prop) : Addr → Prop
  | root {a} : R a → Reach s R a
  | car {a c x y} : Reach s R a → s.mem a = some c → c.data = .pair x y → Reach s R x
  | cdr {a c x y} : Reach s R a → s.mem a = some c → c.data = .pair x y → Reach s R y

/-- No cell contains itself, directly or not; cells that the code has abandoned half written are left out. -/
def Acyclic (s : HSt) : Prop :=
  ∃ rank : Addr → Nat, ∀ a c x y, a ∉ s.zombies → s.mem a = some c → c.data = .pair x y →
    rank x < rank a ∧ rank y < rank a

/-- Every cell is held by the code, by the globals, by an abandoned reference or by another cell. -/
theorem InvO.held {s : HSt} {T : Addr → Nat} (h : Inv s T) {a : Addr} {c : Cell} (hc : s.mem a = some c) :
    0 < T a ∨ a ∈ s.globals.map Prod.snd ∨ a ∈ s.leaked ∨
      ∃ b cb, b ∉ s.zombies ∧ s.mem b = some cb ∧ 0 < occ cb.data a := by
  have h1 := h.pos a c hc (by simp)
  have h2 := h.exact a c hc
  unfold total roots at h2
  by_cases e1 : 0 < T a
  · exact .inl e1
  by_cases e2 : 0 < (s.globals.map Prod.snd).count a
  · exact .inr (.inl (List.count_pos_iff.1 e2))
  by_cases e3 : 0 < s.leaked.count a
  · exact .inr (.inr (.inl (List.count_pos_iff.1 e3)))
  have e4 : 0 < edges ([] ++ s.zombies) s.mem s.next a := by omega
  obtain ⟨b, hb, hp⟩ := sumTo_pos e4
  refine .inr (.inr (.inr ?_))
  unfold contrib at hp
  split at hp
  · omega
  · rename_i hn
    cases hm : s.mem b with
    | none => rw [hm] at hp; simp at hp
    | some cb =>
      rw [hm] at hp
      exact ⟨b, cb, by simpa using hn, hm, hp⟩

/-- In a memory without cycles every cell is reachable. -/
theorem InvO.reach {s : HSt} {T : Addr → Nat} (h : Inv s T) (ac : Acyclic s) {a : Addr} {c : Cell}
    (hc : s.mem a = some c) :
    Reach s (fun b => 0 < T b ∨ b ∈ s.globals.map Prod.snd ∨ b ∈ s.leaked) a := by
  obtain ⟨rank, hr⟩ := ac
  have bound : ∀ n, ∃ M, ∀ b, b < n → rank b ≤ M := by
    intro n
    induction n with
    | zero => exact ⟨0, by intro b hb; omega⟩
    | succ n ih =>
      obtain ⟨M, hM⟩ := ih
      refine ⟨M + rank n, fun b hb => ?_⟩
      by_cases e : b = n
      · subst e; omega
      · have := hM b (by omega); omega
  obtain ⟨M, hM⟩ := bound s.next
  have main : ∀ k a c, s.mem a = some c → M - rank a < k →
      Reach s (fun b => 0 < T b ∨ b ∈ s.globals.map Prod.snd ∨ b ∈ s.leaked) a := by
    intro k
    induction k with
    | zero => intro a c _ hk; omega
    | succ k ih =>
      intro a c hc hk
      rcases h.held hc with e | e | e | ⟨b, cb, hz, hb, ho⟩
      · exact .root (.inl e)
      · exact .root (.inr (.inl e))
      · exact .root (.inr (.inr e))
      · cases hd : cb.data with
        | pair x y =>
          have ⟨r1, r2⟩ := hr b cb x y hz hb hd
          have hbM := hM b (h.lt hb)
          rw [hd, occ_pair] at ho
          by_cases ex : a = x
          · subst ex
            exact .car (ih b cb hb (by omega)) hb hd
          · rw [one_ne ex] at ho
            have ey : a = y := by
              by_cases ey : a = y
              · exact ey
              · rw [one_ne ey] at ho; omega
            subst ey
            exact .cdr (ih b cb hb (by omega)) hb hd
        | _ => rw [hd] at ho; simp [occ] at ho
  exact main (M - rank a + 1) a c hc (by omega)

/-- **C05** (partial): after a program has run and its result has been dropped, every cell that is still allocated is
reachable from the table of globals or from a reference that the code has abandoned, provided that the memory
has no cycle.

Missing from the full statement, which is false: cycles (`C05_cycle_counterexample`), and the references abandoned by
`<-` and `def` (`C05_set_counterexample`, `C05_def_counterexample`). -/
theorem C05_session_partial {n : Nat} {ops : List Native} {es : List Val} {s' : HSt} {a : Addr} {c : Cell}
    (run : (sessionH n ops es >>= X) emptyH = .ok ((), s')) (ac : Acyclic s') (hc : s'.mem a = some c) :
    Reach s' (fun b => b ∈ s'.globals.map Prod.snd ∨ b ∈ s'.leaked) a := by
  have w : wp (sessionH n ops es >>= X) (fun _ s' => Inv s' (fun _ => 0)) emptyH := by
    refine wp_bind (wp_session n ops es inv_empty ?_)
    intro r s' T' h' e
    refine wp_X h' (by tok) ?_
    intro s2 T2 h2 e2
    exact h2.congr (by tok)
  unfold wp at w
  rw [run] at w
  have := w.reach ac hc
  simpa using this

/-- **C05** (partial), one evaluation in any memory: every cell that is allocated after the result has been dropped
is reachable from the references that the caller still owns, from the globals or from an abandoned reference. -/
theorem C05_eval_partial {n : Nat} {s s' : HSt} {T T' : Addr → Nat} {closure e a : Addr} {c : Cell} (h : Inv s T)
    (own : ∀ b, ones [closure, e] b ≤ T b) (hT : ∀ b, T' b + one e b = T b)
    (run : (evalNH n closure e >>= X) s = .ok ((), s')) (ac : Acyclic s') (hc : s'.mem a = some c) :
    Reach s' (fun b => 0 < T' b ∨ b ∈ s'.globals.map Prod.snd ∨ b ∈ s'.leaked) a := by
  have w : wp (evalNH n closure e >>= X) (fun _ s' => Inv s' T') s := by
    refine wp_bind (wp_evalN n h own ?_)
    intro r s' T1 h' e1
    refine wp_X h' (by tok) ?_
    intro s2 T2 h2 e2
    exact h2.congr (by tok)
  unfold wp at w
  rw [run] at w
  exact w.reach ac hc

/-- No global and no cell outside of `B` refers to a cell of `B`. -/
def cutOff (s : HSt) (B : List Addr) : Bool :=
  (s.globals.map Prod.snd).all (fun b => !B.contains b) &&
  (List.range s.next).all fun b => B.contains b ||
    match s.mem b with
    | some c => B.all fun a => occ c.data a == 0
    | none => true

theorem cutOff_reach {s : HSt} {B : List Addr} (h : cutOff s B = true)
    (bound : ∀ a, s.next ≤ a → s.mem a = none) {a : Addr}
    (r : Reach s (fun b => b ∈ s.globals.map Prod.snd) a) : a ∉ B := by
  unfold cutOff at h
  simp only [Bool.and_eq_true, List.all_eq_true, List.mem_range] at h
  obtain ⟨h1, h2⟩ := h
  have field : ∀ b c x, s.mem b = some c → b ∉ B → 0 < occ c.data x → x ∉ B := by
    intro b c x hc hb ho hx
    have hlt : b < s.next := by
      by_cases e : b < s.next
      · exact e
      · rw [bound b (by omega)] at hc; cases hc
    have := h2 b hlt
    rw [hc] at this
    simp only [Bool.or_eq_true, List.contains_iff_mem, List.all_eq_true, beq_iff_eq] at this
    rcases this with e | e
    · exact hb e
    · have := e x hx; omega
  induction r with
  | root hr =>
    have := h1 _ hr
    simpa using this
  | car _ hc hd ih => exact field _ _ _ hc ih (by rw [hd, occ_pair, one_self]; omega)
  | cdr _ hc hd ih => exact field _ _ _ hc ih (by rw [hd, occ_pair, one_self]; omega)

/-- A run that leaves a cell of `B` although nothing else refers to `B`; `l` is the number of abandoned references. -/
def loses (r : Res (Unit × HSt)) (B : List Addr) (l : Nat) : Bool :=
  match r with
  | .ok (_, s) => cutOff s B && B.any (fun a => (s.mem a).isSome) && s.leaked.length == l
  | _ => false

theorem loses_spec {n : Nat} {ops : List Native} {es : List Val} {B : List Addr} {l : Nat}
    (h : loses ((sessionH n ops es >>= X) emptyH) B l = true) :
    ∃ s' a, (sessionH n ops es >>= X) emptyH = .ok ((), s') ∧ s'.mem a ≠ none ∧
      ¬ Reach s' (fun b => b ∈ s'.globals.map Prod.snd) a ∧ s'.leaked.length = l := by
  have w : wp (sessionH n ops es >>= X) (fun _ s' => Inv s' (fun _ => 0)) emptyH := by
    refine wp_bind (wp_session n ops es inv_empty ?_)
    intro r s' T' h' e
    refine wp_X h' (by tok) ?_
    intro s2 T2 h2 e2
    exact h2.congr (by tok)
  unfold wp at w
  cases hr : (sessionH n ops es >>= X) emptyH with
  | ok p =>
    obtain ⟨u, s'⟩ := p
    rw [hr] at h w
    simp only [loses, Bool.and_eq_true, List.any_eq_true, beq_iff_eq] at h
    obtain ⟨⟨h1, a, ha, h2⟩, h3⟩ := h
    refine ⟨s', a, rfl, ?_, fun r => cutOff_reach h1 w.fresh r ha, h3⟩
    intro e
    rw [e] at h2
    cases h2
  | _ => rw [hr] at h; cases h

/-- **C05**: `(<- 'x 1)` of an unknown variable leaks four cells: the rest of the arguments (`set.c:14`) and the pair made for
the table (`set.c:40-49`). -/
theorem C05_set_counterexample :
    ∃ s' a, (sessionH 30 [.set, .quote] [L [S "<-", Q (S "x"), N 1]] >>= X) emptyH = .ok ((), s') ∧
      s'.mem a ≠ none ∧ ¬ Reach s' (fun b => b ∈ s'.globals.map Prod.snd) a ∧ s'.leaked.length = 2 :=
  loses_spec (B := [20, 21, 22, 35]) (by decide_cbv)

/-- **C05**: `def` with a name that is not a symbol leaks the name (`def.c:13-16`). -/
theorem C05_def_counterexample :
    ∃ s' a, (sessionH 30 [.def_] [L [S "def", N 1, .nil, N 1]] >>= X) emptyH = .ok ((), s') ∧
      s'.mem a ≠ none ∧ ¬ Reach s' (fun b => b ∈ s'.globals.map Prod.snd) a ∧ s'.leaked.length = 1 :=
  loses_spec (B := [10]) (by decide_cbv)

/-- **C05**: a list concatenated with itself is a cycle, which is lost without any abandoned reference when the
variable gets another value. -/
theorem C05_cycle_counterexample :
    ∃ s' a, (sessionH 30 [.conc, .quote, .setq]
        [L [S "setq", S "x", L [S "quote", N 1]], L [S "conc", S "x", S "x"], L [S "setq", S "x", N 2]] >>= X) emptyH
          = .ok ((), s') ∧
      s'.mem a ≠ none ∧ ¬ Reach s' (fun b => b ∈ s'.globals.map Prod.snd) a ∧ s'.leaked.length = 0 :=
  loses_spec (B := [30, 32]) (by decide_cbv)

/-- **C05**: assigning a function to a local variable with `<-` makes a cycle between the function and the
environment that it has captured; cells 28 to 50 are lost, although only the reference to cell 65 is abandoned. -/
theorem C05_closure_counterexample :
    ∃ s' a, (sessionH 30 [.let_, .set, .quote, .lambda]
        [L [S "let", L [.cons (S "F") (N 1)], L [S "<-", Q (S "F"), L [S "\\", L [S "X"], S "X"]], N 1]] >>= X) emptyH
          = .ok ((), s') ∧
      s'.mem a ≠ none ∧ ¬ Reach s' (fun b => b ∈ s'.globals.map Prod.snd) a ∧ s'.leaked.length = 1 :=
  loses_spec (B := [28, 31, 40, 41, 42, 43, 44, 45, 46, 47, 48, 49, 50, 65, 84, 85, 86]) (by decide_cbv)

/-- A run that ends in a memory where the fields of pairs point to smaller addresses. -/
def downward (r : Res (Unit × HSt)) : Bool :=
  match r with
  | .ok (_, s) => (List.range s.next).all fun b =>
    match s.mem b with
    | some ⟨_, _, _, .pair x y⟩ => x < b && y < b
    | _ => true
  | _ => false

theorem downward_spec {n : Nat} {ops : List Native} {es : List Val}
    (h : downward ((sessionH n ops es >>= X) emptyH) = true) :
    ∃ s', (sessionH n ops es >>= X) emptyH = .ok ((), s') ∧ Acyclic s' := by
  have w : wp (sessionH n ops es >>= X) (fun _ s' => Inv s' (fun _ => 0)) emptyH := by
    refine wp_bind (wp_session n ops es inv_empty ?_)
    intro r s' T' h' e
    refine wp_X h' (by tok) ?_
    intro s2 T2 h2 e2
    exact h2.congr (by tok)
  unfold wp at w
  cases hr : (sessionH n ops es >>= X) emptyH with
  | ok p =>
    obtain ⟨u, s'⟩ := p
    rw [hr] at h w
    refine ⟨s', rfl, fun b => b, fun a c x y _ hc hd => ?_⟩
    simp only [downward, List.all_eq_true, List.mem_range] at h
    have := h a (w.lt hc)
    obtain ⟨_, _, _, d⟩ := c
    cases hd
    rw [hc] at this
    simpa using this
  | _ => rw [hr] at h; cases h

/-- The hypotheses of `C05_session_partial` are met: a program that defines a variable. -/
example : ∃ s', (sessionH 30 [.setq] [L [S "setq", S "x", N 2]] >>= X) emptyH = .ok ((), s') ∧ Acyclic s' :=
  downward_spec (by decide_cbv)

end Heap
end Mnml
