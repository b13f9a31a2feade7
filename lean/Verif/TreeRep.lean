import Verif.Tree

/-!
# Trees in memory

The inductive trees that a memory can hold, and the effect of rotations on them.
-/

namespace Mnml

namespace Tree

/-- A tree with the addresses of its cells. -/
inductive T where
  | leaf (a : Nat)
  | node (a : Nat) (l : T) (d : Nat) (k : Sym) (v : Val) (red : Bool) (r : T)

namespace T
/-- The address of the root cell. -/
def addr : T → Nat
  | leaf a => a
  | node a .. => a

/-- The addresses of all cells. -/
def addrs : T → List Nat
  | leaf a => [a]
  | node a l _ _ _ _ r => a :: (l.addrs ++ r.addrs)

/-- The entries from left to right: address of the pair, key and value. -/
def entries : T → List (Nat × Sym × Val)
  | leaf _ => []
  | node _ l d k v _ r => l.entries ++ (d, k, v) :: r.entries

/-- Is the root red? -/
def isRed : T → Bool
  | leaf _ => false
  | node _ _ _ _ _ c _ => c

/-- Is it a node? -/
def isNode : T → Bool
  | leaf _ => false
  | node .. => true

/-- Height. -/
def height : T → Nat
  | leaf _ => 0
  | node _ l _ _ _ _ r => max l.height r.height + 1

theorem addr_mem (t : T) : t.addr ∈ t.addrs := by cases t <;> simp [addr, addrs]
end T

/-- The memory holds the tree, with the given parent of the root. -/
def Rep (σ : Store) : T → Nat → Prop
  | .leaf a, _ => σ.cells a = some (.nil false)
  | .node a l d k v c r, par =>
    σ.cells a = some (.node ⟨d, l.addr, r.addr, par, c⟩) ∧ σ.data d = some (k, v) ∧
      Rep σ l a ∧ Rep σ r a

theorem Rep.frame {σ σ' : Store} {t : T} {par : Nat} (h : Rep σ t par)
    (hc : ∀ a ∈ t.addrs, σ'.cells a = σ.cells a)
    (hd : ∀ e ∈ t.entries, σ'.data e.1 = σ.data e.1) : Rep σ' t par := by
  induction t generalizing par with
  | leaf a => simpa [Rep, hc a (by simp [T.addrs])] using h
  | node a l d k v c r ihl ihr =>
    obtain ⟨h1, h2, h3, h4⟩ := h
    refine ⟨?_, ?_, ihl h3 ?_ ?_, ihr h4 ?_ ?_⟩
    · rw [hc a (by simp [T.addrs]), h1]
    · rw [hd (d, k, v) (by simp [T.entries]), h2]
    · exact fun b hb => hc b (by simp [T.addrs, hb])
    · exact fun e he => hd e (by simp [T.entries, he])
    · exact fun b hb => hc b (by simp [T.addrs, hb])
    · exact fun e he => hd e (by simp [T.entries, he])

/-- Change of the parent of the root of a tree. -/
def reparent (σ : Store) (t : T) (par : Nat) : Store :=
  match t with
  | .leaf _ => σ
  | .node a l d _ _ c r => σ.setCell a (some (.node ⟨d, l.addr, r.addr, par, c⟩))

theorem setCell_same (σ : Store) (p : Nat) (c : Option Cell) : (σ.setCell p c).cells p = c := by
  simp [Store.setCell]

theorem setCell_other (σ : Store) {p q : Nat} (c : Option Cell) (h : q ≠ p) :
    (σ.setCell p c).cells q = σ.cells q := by simp [Store.setCell, h]

@[simp] theorem setCell_data (σ : Store) (p : Nat) (c : Option Cell) : (σ.setCell p c).data = σ.data := rfl

@[simp] theorem setCell_next (σ : Store) (p : Nat) (c : Option Cell) : (σ.setCell p c).next = σ.next := rfl

@[simp] theorem setData_cells (σ : Store) (p : Nat) (c : Option (Sym × Val)) :
    (σ.setData p c).cells = σ.cells := rfl

@[simp] theorem setData_next (σ : Store) (p : Nat) (c : Option (Sym × Val)) :
    (σ.setData p c).next = σ.next := rfl

/-! ## Contexts -/

/-- One step of the way from the root to a position: the node passed, the side taken (`true`: left), and the
other subtree. -/
structure Frame where
  goLeft : Bool
  a : Nat
  d : Nat
  k : Sym
  v : Val
  red : Bool
  sib : T

/-- Put a tree below a frame. -/
def Frame.plug (f : Frame) (t : T) : T :=
  if f.goLeft then .node f.a t f.d f.k f.v f.red f.sib else .node f.a f.sib f.d f.k f.v f.red t

/-- Put a tree into a context (innermost frame first). -/
def plug : List Frame → T → T
  | [], t => t
  | f :: fs, t => plug fs (f.plug t)

/-- The parent of the hole. -/
def parOf (fs : List Frame) (np : Nat) : Nat :=
  match fs with
  | [] => np
  | f :: _ => f.a

/-- The memory holds the context, in whose hole is the cell `h`. -/
def RepC (σ : Store) : List Frame → Nat → Nat → Prop
  | [], _, _ => True
  | f :: fs, h, np =>
    σ.cells f.a = some (.node ⟨f.d, if f.goLeft then h else f.sib.addr,
      if f.goLeft then f.sib.addr else h, parOf fs np, f.red⟩) ∧
    σ.data f.d = some (f.k, f.v) ∧ Rep σ f.sib f.a ∧ RepC σ fs f.a np

/-- Addresses of the cells of a context. -/
def addrsC : List Frame → List Nat
  | [] => []
  | f :: fs => f.a :: (f.sib.addrs ++ addrsC fs)

/-- Entries of a context. -/
def entriesC : List Frame → List (Nat × Sym × Val)
  | [] => []
  | f :: fs => (f.d, f.k, f.v) :: (f.sib.entries ++ entriesC fs)

theorem plug_addr (f : Frame) (t : T) : (f.plug t).addr = f.a := by
  unfold Frame.plug; split <;> rfl

theorem rep_plug (σ : Store) (fs : List Frame) (t : T) (np : Nat) :
    Rep σ (plug fs t) np ↔ RepC σ fs t.addr np ∧ Rep σ t (parOf fs np) := by
  induction fs generalizing t with
  | nil => simp [plug, RepC, parOf]
  | cons f fs ih =>
    rw [plug, ih]
    simp only [RepC, parOf, plug_addr]
    cases hg : f.goLeft with
    | true =>
      simp only [Frame.plug, hg, if_true, Rep]
      constructor
      · rintro ⟨h1, h2, h3, h4, h5⟩; exact ⟨⟨h2, h3, h5, h1⟩, h4⟩
      · rintro ⟨⟨h2, h3, h5, h1⟩, h4⟩; exact ⟨h1, h2, h3, h4, h5⟩
    | false =>
      simp only [Frame.plug, hg, Bool.false_eq_true, if_false, Rep]
      constructor
      · rintro ⟨h1, h2, h3, h4, h5⟩; exact ⟨⟨h2, h3, h4, h1⟩, h5⟩
      · rintro ⟨⟨h2, h3, h4, h1⟩, h5⟩; exact ⟨h1, h2, h3, h4, h5⟩

theorem plug_addrs_perm (fs : List Frame) (t : T) : (plug fs t).addrs.Perm (t.addrs ++ addrsC fs) := by
  induction fs generalizing t with
  | nil => simp [plug, addrsC]
  | cons f fs ih =>
    refine (ih (f.plug t)).trans ?_
    cases hg : f.goLeft with
    | true =>
      simp only [Frame.plug, hg, if_true, T.addrs, addrsC, List.cons_append, List.append_assoc]
      exact (List.perm_middle).symm
    | false =>
      simp only [Frame.plug, hg, Bool.false_eq_true, if_false, T.addrs, addrsC, List.cons_append,
        List.append_assoc]
      refine List.Perm.trans ?_ (List.perm_middle).symm
      refine List.Perm.cons _ ?_
      rw [← List.append_assoc, ← List.append_assoc]
      exact List.perm_append_comm.append_right _

theorem plug_entries (fs : List Frame) (t t' : T) (h : t.entries = t'.entries) :
    (plug fs t).entries = (plug fs t').entries := by
  induction fs generalizing t t' with
  | nil => exact h
  | cons f fs ih =>
    apply ih
    unfold Frame.plug
    split <;> simp [T.entries, h]

theorem plug_entries_perm (fs : List Frame) (t : T) :
    (plug fs t).entries.Perm (t.entries ++ entriesC fs) := by
  induction fs generalizing t with
  | nil => simp [plug, entriesC]
  | cons f fs ih =>
    refine (ih (f.plug t)).trans ?_
    cases hg : f.goLeft with
    | true =>
      simp only [Frame.plug, hg, if_true, T.entries, entriesC, List.append_assoc, List.cons_append]
      exact List.Perm.refl _
    | false =>
      simp only [Frame.plug, hg, Bool.false_eq_true, if_false, T.entries, entriesC, List.append_assoc,
        List.cons_append]
      have : (f.sib.entries ++ (f.d, f.k, f.v) :: (t.entries ++ entriesC fs)).Perm
          ((f.d, f.k, f.v) :: (f.sib.entries ++ (t.entries ++ entriesC fs))) := List.perm_middle
      refine this.trans ?_
      refine List.Perm.trans ?_ (List.perm_middle).symm
      refine List.Perm.cons _ ?_
      rw [← List.append_assoc, ← List.append_assoc]
      exact List.perm_append_comm.append_right _

theorem RepC.frame {σ σ' : Store} {fs : List Frame} {h np : Nat} (hr : RepC σ fs h np)
    (hc : ∀ a ∈ addrsC fs, σ'.cells a = σ.cells a)
    (hd : ∀ e ∈ entriesC fs, σ'.data e.1 = σ.data e.1) : RepC σ' fs h np := by
  induction fs generalizing h with
  | nil => trivial
  | cons f fs ih =>
    obtain ⟨h1, h2, h3, h4⟩ := hr
    refine ⟨?_, ?_, h3.frame ?_ ?_, ih h4 ?_ ?_⟩
    · rw [hc f.a (by simp [addrsC]), h1]
    · rw [hd (f.d, f.k, f.v) (by simp [entriesC]), h2]
    · exact fun a ha => hc a (by simp [addrsC, ha])
    · exact fun e he => hd e (by simp [entriesC, he])
    · exact fun a ha => hc a (by simp [addrsC, ha])
    · exact fun e he => hd e (by simp [entriesC, he])

/-! ## Valid tables -/

/-- The memory holds the table `t` with root address `root`: a tree with consistent parent links, all cells
distinct, all pairs distinct, and below the next fresh address; the parent of the root is a NIL cell `np`. -/
structure Valid (σ : Store) (root np : Nat) (t : T) : Prop where
  root : t.addr = root
  rep : Rep σ t np
  nodup : (np :: t.addrs).Nodup
  data : (t.entries.map (·.1)).Nodup
  nil : ∃ c, σ.cells np = some (.nil c)
  fresh : ∀ p, σ.next ≤ p → σ.cells p = none ∧ σ.data p = none

end Tree

end Mnml
