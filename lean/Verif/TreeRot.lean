import Verif.TreeRep

/-!
# Rotations
-/

namespace Mnml

namespace Tree

theorem node_ok {σ : Store} {p : Nat} {n : Node} (h : σ.cells p = some (.node n)) :
    node p σ = .ok (n, σ) := by simp [node, h]

theorem isNull_node {σ : Store} {p : Nat} {n : Node} (h : σ.cells p = some (.node n)) :
    isNull p σ = .ok (false, σ) := by simp [isNull, h]

theorem isNull_nil {σ : Store} {p : Nat} {c : Bool} (h : σ.cells p = some (.nil c)) :
    isNull p σ = .ok (true, σ) := by simp [isNull, h]

theorem colored_node {σ : Store} {p : Nat} {n : Node} (h : σ.cells p = some (.node n)) :
    colored p σ = .ok (n.red, σ) := by simp [colored, h]

theorem colored_nil {σ : Store} {p : Nat} {c : Bool} (h : σ.cells p = some (.nil c)) :
    colored p σ = .ok (c, σ) := by simp [colored, h]

theorem left_ok {σ : Store} {p : Nat} {n : Node} (h : σ.cells p = some (.node n)) :
    left p σ = .ok (n.left, σ) := by simp [left, node_ok h]

theorem right_ok {σ : Store} {p : Nat} {n : Node} (h : σ.cells p = some (.node n)) :
    right p σ = .ok (n.right, σ) := by simp [right, node_ok h]

theorem parent_ok {σ : Store} {p : Nat} {n : Node} (h : σ.cells p = some (.node n)) :
    parent p σ = .ok (n.parent, σ) := by simp [parent, node_ok h]

theorem setLeft_ok {σ : Store} {p q : Nat} {n : Node} (h : σ.cells p = some (.node n)) :
    setLeft p q σ = .ok ((), σ.setCell p (some (.node { n with left := q }))) := by
  simp [setLeft, update, h]

theorem setRight_ok {σ : Store} {p q : Nat} {n : Node} (h : σ.cells p = some (.node n)) :
    setRight p q σ = .ok ((), σ.setCell p (some (.node { n with right := q }))) := by
  simp [setRight, update, h]

theorem setParent_ok {σ : Store} {p q : Nat} {n : Node} (h : σ.cells p = some (.node n)) :
    setParent p q σ = .ok ((), σ.setCell p (some (.node { n with parent := q }))) := by
  simp [setParent, update, h]

theorem setColor_node {σ : Store} {p : Nat} {b : Bool} {n : Node} (h : σ.cells p = some (.node n)) :
    setColor p b σ = .ok ((), σ.setCell p (some (.node { n with red := b }))) := by
  simp [setColor, h]

theorem setColor_nil {σ : Store} {p : Nat} {b c : Bool} (h : σ.cells p = some (.nil c)) :
    setColor p b σ = .ok ((), σ.setCell p (some (.nil b))) := by
  simp [setColor, h]

theorem isNull_rep {σ : Store} {t : T} {par : Nat} (h : Rep σ t par) :
    isNull t.addr σ = .ok (!t.isNode, σ) := by
  cases t with
  | leaf a => exact isNull_nil h
  | node a l d k v c r => exact isNull_node h.1

theorem colored_rep {σ : Store} {t : T} {par : Nat} (h : Rep σ t par) :
    colored t.addr σ = .ok (t.isRed, σ) := by
  cases t with
  | leaf a => exact colored_nil h
  | node a l d k v c r => exact colored_node h.1

theorem Rep.root_some {σ : Store} {t : T} {par : Nat} (h : Rep σ t par) : ∃ c, σ.cells t.addr = some c := by
  cases t with
  | leaf a => exact ⟨_, h⟩
  | node a l d k v c r => exact ⟨_, h.1⟩

theorem reparent_other {σ : Store} {t : T} {par p : Nat} (h : p ≠ t.addr) :
    (reparent σ t par).cells p = σ.cells p := by
  cases t with
  | leaf a => rfl
  | node a l d k v c r => exact setCell_other _ _ h

@[simp] theorem reparent_data (σ : Store) (t : T) (par : Nat) : (reparent σ t par).data = σ.data := by
  cases t <;> rfl

@[simp] theorem reparent_next (σ : Store) (t : T) (par : Nat) : (reparent σ t par).next = σ.next := by
  cases t <;> rfl

/-- Setting the parent of the root of a subtree, unless it is a NIL cell. -/
theorem setParent_rep {σ : Store} {t : T} {par x : Nat} (h : Rep σ t par) :
    adopt t.addr x σ = .ok ((), reparent σ t x) := by
  unfold adopt
  rw [TM.bind_apply, isNull_rep h]
  cases t with
  | leaf a => rfl
  | node a l d k v c r =>
    show setParent a x σ = _
    rw [setParent_ok h.1]; rfl

/-- The tree with its new parent. `σ'` is any later memory that has the changed root cell. -/
theorem Rep.reparent {σ σ' : Store} {t : T} {par x : Nat} (h : Rep σ t par) (hn : t.addrs.Nodup)
    (hroot : σ'.cells t.addr = (Tree.reparent σ t x).cells t.addr)
    (hc : ∀ a ∈ t.addrs, a ≠ t.addr → σ'.cells a = σ.cells a)
    (hd : ∀ e ∈ t.entries, σ'.data e.1 = σ.data e.1) : Rep σ' t x := by
  cases t with
  | leaf a => exact hroot.trans h
  | node a l d k v c r =>
    simp only [T.addrs, List.nodup_cons, List.mem_append, not_or] at hn
    obtain ⟨h1, h2, h3, h4⟩ := h
    refine ⟨?_, ?_, h3.frame ?_ ?_, h4.frame ?_ ?_⟩
    · exact hroot.trans (setCell_same _ _ _)
    · rw [hd (d, k, v) (by simp [T.entries]), h2]
    · exact fun b hb => hc b (by simp [T.addrs, hb]) (fun e => hn.1.1 (by rw [T.addr] at e; exact e ▸ hb))
    · exact fun e he => hd e (by simp [T.entries, he])
    · exact fun b hb => hc b (by simp [T.addrs, hb]) (fun e => hn.1.2 (by rw [T.addr] at e; exact e ▸ hb))
    · exact fun e he => hd e (by simp [T.entries, he])

/-- Change of the cell in the hole of a context. -/
def relink (σ : Store) (fs : List Frame) (np h : Nat) : Store :=
  match fs with
  | [] => σ
  | f :: fs => σ.setCell f.a (some (.node ⟨f.d, if f.goLeft then h else f.sib.addr,
      if f.goLeft then f.sib.addr else h, parOf fs np, f.red⟩))

@[simp] theorem relink_data (σ : Store) (fs : List Frame) (np h : Nat) : (relink σ fs np h).data = σ.data := by
  cases fs <;> rfl

@[simp] theorem relink_next (σ : Store) (fs : List Frame) (np h : Nat) : (relink σ fs np h).next = σ.next := by
  cases fs <;> rfl

theorem relink_other {σ : Store} {fs : List Frame} {np h p : Nat} (hp : ∀ f ∈ fs.head?, p ≠ f.a) :
    (relink σ fs np h).cells p = σ.cells p := by
  cases fs with
  | nil => rfl
  | cons f fs => exact setCell_other _ _ (hp f (by simp))

/-- The root after the change of the hole. -/
def newRoot (fs : List Frame) (root h : Nat) : Nat :=
  match fs with
  | [] => h
  | _ :: _ => root

/-! ### Linking the new subtree to the parent -/

theorem swapLeft_ok {σ : Store} {f : Frame} {fs : List Frame} {np x y : Nat} (h : RepC σ (f :: fs) x np)
    (hs : x ≠ f.sib.addr) : swapLeft f.a x y σ = .ok ((), relink σ (f :: fs) np y) := by
  unfold swapLeft
  rw [TM.bind_apply, left_ok h.1]
  show (if x = (if f.goLeft then x else f.sib.addr) then setLeft f.a y else setRight f.a y) σ = _
  cases hg : f.goLeft with
  | true =>
    rw [if_pos (by simp), setLeft_ok h.1]
    simp [relink, hg]
  | false =>
    rw [if_neg (by simpa using hs), setRight_ok h.1]
    simp [relink, hg]

theorem linkLeft_ok {σ : Store} {fs : List Frame} {np x y root : Nat} {c : Bool} (h : RepC σ fs x np)
    (hnil : σ.cells np = some (.nil c)) (hs : ∀ f ∈ fs.head?, x ≠ f.sib.addr) :
    linkLeft root (parOf fs np) x y σ = .ok (newRoot fs root y, relink σ fs np y) := by
  unfold linkLeft
  rw [TM.bind_apply]
  cases fs with
  | nil => rw [show parOf [] np = np from rfl, isNull_nil hnil]; rfl
  | cons f fs =>
    rw [show parOf (f :: fs) np = f.a from rfl, isNull_node h.1]
    show (swapLeft f.a x y >>= fun _ => pure root) σ = _
    rw [TM.bind_apply, swapLeft_ok h (hs f (by simp))]
    rfl

theorem swapRight_ok {σ : Store} {f : Frame} {fs : List Frame} {np x y : Nat} (h : RepC σ (f :: fs) x np)
    (hs : x ≠ f.sib.addr) : swapRight f.a x y σ = .ok ((), relink σ (f :: fs) np y) := by
  unfold swapRight
  rw [TM.bind_apply, right_ok h.1]
  show (if x = (if f.goLeft then f.sib.addr else x) then setRight f.a y else setLeft f.a y) σ = _
  cases hg : f.goLeft with
  | true =>
    rw [if_neg (by simpa using hs), setLeft_ok h.1]
    simp [relink, hg]
  | false =>
    rw [if_pos (by simp), setRight_ok h.1]
    simp [relink, hg]

theorem linkRight_ok {σ : Store} {fs : List Frame} {np x y root : Nat} {c : Bool} (h : RepC σ fs x np)
    (hnil : σ.cells np = some (.nil c)) (hs : ∀ f ∈ fs.head?, x ≠ f.sib.addr) :
    linkRight root (parOf fs np) x y σ = .ok (newRoot fs root y, relink σ fs np y) := by
  unfold linkRight
  rw [TM.bind_apply]
  cases fs with
  | nil => rw [show parOf [] np = np from rfl, isNull_nil hnil]; rfl
  | cons f fs =>
    rw [show parOf (f :: fs) np = f.a from rfl, isNull_node h.1]
    show (swapRight f.a x y >>= fun _ => pure root) σ = _
    rw [TM.bind_apply, swapRight_ok h (hs f (by simp))]
    rfl

/-- The context with its new hole. `σ'` is any later memory that has the changed cell. -/
theorem RepC.relink {σ σ' : Store} {fs : List Frame} {np x y : Nat} (h : RepC σ fs x np)
    (hn : (addrsC fs).Nodup)
    (hroot : ∀ f ∈ fs.head?, σ'.cells f.a = (Tree.relink σ fs np y).cells f.a)
    (hc : ∀ a ∈ addrsC fs, (∀ f ∈ fs.head?, a ≠ f.a) → σ'.cells a = σ.cells a)
    (hd : ∀ e ∈ entriesC fs, σ'.data e.1 = σ.data e.1) : RepC σ' fs y np := by
  cases fs with
  | nil => trivial
  | cons f fs =>
    simp only [addrsC, List.nodup_cons, List.mem_append, not_or] at hn
    obtain ⟨h1, h2, h3, h4⟩ := h
    refine ⟨?_, ?_, h3.frame ?_ ?_, h4.frame ?_ ?_⟩
    · rw [hroot f (by simp)]
      exact setCell_same _ _ _
    · rw [hd (f.d, f.k, f.v) (by simp [entriesC]), h2]
    · refine fun b hb => hc b (by simp [addrsC, hb]) ?_
      intro g hg e; simp at hg; subst hg; exact hn.1.1 (e ▸ hb)
    · exact fun e he => hd e (by simp [entriesC, he])
    · refine fun b hb => hc b (by simp [addrsC, hb]) ?_
      intro g hg e; simp at hg; subst hg; exact hn.1.2 (e ▸ hb)
    · exact fun e he => hd e (by simp [entriesC, he])

theorem addrsC_head {fs : List Frame} {f : Frame} (h : f ∈ fs.head?) : f.a ∈ addrsC fs ∧ f.sib.addr ∈ addrsC fs := by
  cases fs with
  | nil => simp at h
  | cons g fs =>
    simp at h; subst h
    exact ⟨by simp [addrsC], by simp [addrsC, T.addr_mem]⟩

theorem newRoot_addr {fs : List Frame} {t t' : T} {root : Nat} (h : (plug fs t).addr = root) :
    (plug fs t').addr = newRoot fs root t'.addr := by
  cases fs with
  | nil => rfl
  | cons f fs =>
    show (plug fs (f.plug t')).addr = root
    rw [← h]
    show (plug fs (f.plug t')).addr = (plug fs (f.plug t)).addr
    have : ∀ (fs : List Frame) (u u' : T), u.addr = u'.addr → (plug fs u).addr = (plug fs u').addr := by
      intro fs
      induction fs with
      | nil => exact fun _ _ h => h
      | cons g gs ih => intro u u' _; exact ih _ _ (by rw [plug_addr, plug_addr])
    exact this fs _ _ (by rw [plug_addr, plug_addr])

/-- What a change of the tree keeps: the pairs, the fresh addresses and all cells outside of the tree. -/
structure Outside (σ σ' : Store) (t : T) : Prop where
  data : σ'.data = σ.data
  next : σ'.next = σ.next
  cells : ∀ p, p ∉ t.addrs → σ'.cells p = σ.cells p

/-- Left rotation. The first argument of the function only matters for its answer. -/
theorem lrot_spec {σ : Store} {root np x d y d' : Nat} {fs : List Frame} {l m r : T} {k k' : Sym} {v v' : Val}
    {c c' : Bool}
    (h : Valid σ root np (plug fs (.node x l d k v c (.node y m d' k' v' c' r)))) :
    ∃ σ', (∀ next, lrot next x σ = .ok (newRoot fs next y, σ')) ∧
      Valid σ' (newRoot fs root y) np (plug fs (.node y (.node x l d k v c m) d' k' v' c' r)) ∧
      Outside σ σ' (plug fs (.node x l d k v c (.node y m d' k' v' c' r))) := by
  obtain ⟨hroot, hrep, hnd, hdata, ⟨cn, hnil⟩, hfresh⟩ := h
  obtain ⟨hC, hx, hdx, hl, hy, hdy, hm, hr⟩ := (rep_plug ..).1 hrep
  have hperm := plug_addrs_perm fs (.node x l d k v c (.node y m d' k' v' c' r))
  have hnd' := (hperm.cons np).nodup hnd
  simp only [T.addrs, List.cons_append, List.append_assoc, List.nodup_cons, List.nodup_append, List.mem_cons,
    List.mem_append, not_or] at hnd'
  obtain ⟨⟨nx, nl, ny, nm, nr, nC⟩, ⟨xl, xy, xm, xr, xC⟩, ndl, ⟨⟨ym, yr, yC⟩, ndm, ⟨ndr, ndC, rC⟩, mrC⟩, lrest⟩ := hnd'
  have lrest' : ∀ a ∈ l.addrs, a ≠ y ∧ a ∉ m.addrs ∧ a ∉ r.addrs ∧ a ∉ addrsC fs := by
    intro a ha
    exact ⟨lrest a ha y (.inl rfl), fun h => lrest a ha a (.inr (.inl h)) rfl,
      fun h => lrest a ha a (.inr (.inr (.inl h))) rfl, fun h => lrest a ha a (.inr (.inr (.inr h))) rfl⟩
  have mrest : ∀ a ∈ m.addrs, a ∉ r.addrs ∧ a ∉ addrsC fs :=
    fun a ha => ⟨fun h => mrC a ha a (.inl h) rfl, fun h => mrC a ha a (.inr h) rfl⟩
  have rrest : ∀ a ∈ r.addrs, a ∉ addrsC fs := fun a ha h => rC a ha a h rfl
  have hma := m.addr_mem
  have head : ∀ f ∈ fs.head?, f.a ∈ addrsC fs ∧ f.sib.addr ∈ addrsC fs := fun f hf => addrsC_head hf
  -- distinctness of the cells that are written
  have e1 : y ≠ x := fun e => xy e.symm
  have e2 : m.addr ≠ x := fun e => xm (e ▸ hma)
  have e3 : m.addr ≠ y := fun e => ym (e ▸ hma)
  have e4 : np ≠ x := fun e => nx e
  have e5 : np ≠ y := fun e => ny e
  have e6 : np ≠ m.addr := fun e => nm (e ▸ hma)
  have e7 : ∀ f ∈ fs.head?, f.a ≠ x ∧ f.a ≠ y ∧ f.a ≠ m.addr ∧ x ≠ f.sib.addr := by
    intro f hf
    refine ⟨fun e => xC (e ▸ (head f hf).1), fun e => yC (e ▸ (head f hf).1), fun e => ?_,
      fun e => xC (e ▸ (head f hf).2)⟩
    exact (mrest _ hma).2 (e ▸ (head f hf).1)
  -- the memories on the way
  let σ1 := σ.setCell x (some (.node ⟨d, l.addr, m.addr, parOf fs np, c⟩))
  let σ2 := reparent σ1 m x
  let σ3 := σ2.setCell y (some (.node ⟨d', m.addr, r.addr, parOf fs np, c'⟩))
  let σ4 := relink σ3 fs np y
  let σ5 := σ4.setCell y (some (.node ⟨d', x, r.addr, parOf fs np, c'⟩))
  let σ6 := σ5.setCell x (some (.node ⟨d, l.addr, m.addr, y, c⟩))
  have hm1 : Rep σ1 m y := hm.frame (fun a ha => setCell_other _ _ (fun e => xm (e ▸ ha))) (fun _ _ => rfl)
  have hx1 : σ1.cells x = some (.node ⟨d, l.addr, m.addr, parOf fs np, c⟩) := setCell_same _ _ _
  have hx2 : σ2.cells x = some (.node ⟨d, l.addr, m.addr, parOf fs np, c⟩) :=
    (reparent_other (Ne.symm e2)).trans hx1
  have hy2 : σ2.cells y = some (.node ⟨d', m.addr, r.addr, x, c'⟩) := by
    rw [show σ2.cells y = σ1.cells y from reparent_other (Ne.symm e3),
      show σ1.cells y = σ.cells y from setCell_other _ _ e1]
    exact hy
  have hnil3 : σ3.cells np = some (.nil cn) := by
    rw [show σ3.cells np = σ2.cells np from setCell_other _ _ e5,
      show σ2.cells np = σ1.cells np from reparent_other e6,
      show σ1.cells np = σ.cells np from setCell_other _ _ e4]
    exact hnil
  have hC3 : RepC σ3 fs x np := by
    refine hC.frame (fun a ha => ?_) (fun e _ => by simp [σ3, σ2, σ1])
    rw [show σ3.cells a = σ2.cells a from setCell_other _ _ (fun e => yC (e ▸ ha)),
      show σ2.cells a = σ1.cells a from reparent_other (fun e => (mrest _ hma).2 (e ▸ ha)),
      show σ1.cells a = σ.cells a from setCell_other _ _ (fun e => xC (e ▸ ha))]
  have hx4 : σ4.cells x = some (.node ⟨d, l.addr, m.addr, parOf fs np, c⟩) := by
    rw [show σ4.cells x = σ3.cells x from relink_other (fun f hf e => (e7 f hf).1 e.symm),
      show σ3.cells x = σ2.cells x from setCell_other _ _ (Ne.symm e1)]
    exact hx2
  have hy4 : σ4.cells y = some (.node ⟨d', m.addr, r.addr, parOf fs np, c'⟩) := by
    rw [show σ4.cells y = σ3.cells y from relink_other (fun f hf e => (e7 f hf).2.1 e.symm)]
    exact setCell_same _ _ _
  have hx5 : σ5.cells x = some (.node ⟨d, l.addr, m.addr, parOf fs np, c⟩) := by
    rw [show σ5.cells x = σ4.cells x from setCell_other _ _ (Ne.symm e1)]
    exact hx4
  have hcells6 : ∀ a, a ≠ x → a ≠ y → a ≠ m.addr → (∀ f ∈ fs.head?, a ≠ f.a) → σ6.cells a = σ.cells a := by
    intro a h1 h2 h3 h4
    rw [show σ6.cells a = σ5.cells a from setCell_other _ _ h1,
      show σ5.cells a = σ4.cells a from setCell_other _ _ h2,
      show σ4.cells a = σ3.cells a from relink_other h4,
      show σ3.cells a = σ2.cells a from setCell_other _ _ h2,
      show σ2.cells a = σ1.cells a from reparent_other h3,
      show σ1.cells a = σ.cells a from setCell_other _ _ h1]
  have hdata6 : σ6.data = σ.data := by simp [σ6, σ5, σ4, σ3, σ2, σ1]
  have hnext6 : σ6.next = σ.next := by simp [σ6, σ5, σ4, σ3, σ2, σ1]
  have hrun : ∀ next, lrot next x σ = .ok (newRoot fs next y, σ6) := by
    intro next
    have s2 : adopt m.addr x σ1 = .ok ((), σ2) := setParent_rep (x := x) hm1
    have s3 : setParent y (parOf fs np) σ2 = .ok ((), σ3) := setParent_ok hy2
    have s4 : linkLeft next (parOf fs np) x y σ3 = .ok (newRoot fs next y, σ4) :=
      linkLeft_ok hC3 hnil3 (fun f hf => (e7 f hf).2.2.2)
    have s5 : setLeft y x σ4 = .ok ((), σ5) := setLeft_ok hy4
    have s6 : setParent x y σ5 = .ok ((), σ6) := setParent_ok hx5
    have s1 : setRight x m.addr σ = .ok ((), σ1) := setRight_ok hx
    have r1 : right x σ = .ok (y, σ) := right_ok hx
    have r2 : left y σ = .ok (m.addr, σ) := left_ok hy
    have r3 : parent x σ2 = .ok (parOf fs np, σ2) := parent_ok hx2
    unfold lrot
    simp only [TM.bind_apply, isNull_node hx, Res.ok_bind, Bool.false_eq_true, if_false, r1,
      isNull_node hy, r2, s1, s2, r3, s3, s4, s5, s6, TM.pure_apply]
  have hperm' := plug_addrs_perm fs (.node y (.node x l d k v c m) d' k' v' c' r)
  have hxs : σ6.cells x = some (.node ⟨d, l.addr, m.addr, y, c⟩) := setCell_same _ _ _
  have hys : σ6.cells y = some (.node ⟨d', x, r.addr, parOf fs np, c'⟩) := by
    rw [show σ6.cells y = σ5.cells y from setCell_other _ _ e1]
    exact setCell_same _ _ _
  have hms : σ6.cells m.addr = (reparent σ m x).cells m.addr := by
    rw [show σ6.cells m.addr = σ5.cells m.addr from setCell_other _ _ e2,
      show σ5.cells m.addr = σ4.cells m.addr from setCell_other _ _ e3,
      show σ4.cells m.addr = σ3.cells m.addr from relink_other (fun f hf e => (e7 f hf).2.2.1 e.symm),
      show σ3.cells m.addr = σ2.cells m.addr from setCell_other _ _ e3]
    cases m with
    | leaf a => exact setCell_other _ _ e2
    | node a => exact (setCell_same _ _ _).trans (setCell_same _ _ _).symm
  have hfs : ∀ f ∈ fs.head?, σ6.cells f.a = (relink σ fs np y).cells f.a := by
    intro f hf
    rw [show σ6.cells f.a = σ5.cells f.a from setCell_other _ _ (e7 f hf).1,
      show σ5.cells f.a = σ4.cells f.a from setCell_other _ _ (e7 f hf).2.1]
    cases fs with
    | nil => simp at hf
    | cons g gs =>
      simp at hf; subst hf
      exact (setCell_same _ _ _).trans (setCell_same _ _ _).symm
  have headC : ∀ a, a ∉ addrsC fs → ∀ f ∈ fs.head?, a ≠ f.a := fun a ha f hf e => ha (e ▸ (head f hf).1)
  have hpp : (plug fs (.node y (.node x l d k v c m) d' k' v' c' r)).addrs.Perm
      (plug fs (.node x l d k v c (.node y m d' k' v' c' r))).addrs := by
    refine hperm'.trans (List.Perm.trans ?_ hperm.symm)
    refine List.Perm.append_right _ ?_
    simp only [T.addrs, List.cons_append, List.append_assoc]
    refine (List.Perm.swap x y _).trans (List.Perm.cons _ ?_)
    exact List.perm_middle.symm
  have hents : (plug fs (.node y (.node x l d k v c m) d' k' v' c' r)).entries =
      (plug fs (.node x l d k v c (.node y m d' k' v' c' r))).entries :=
    plug_entries _ _ _ (by simp [T.entries])
  refine ⟨σ6, hrun, ⟨?_, ?_, ?_, ?_, ?_, ?_⟩, ⟨hdata6, hnext6, ?_⟩⟩
  · exact newRoot_addr hroot
  · refine (rep_plug ..).2 ⟨?_, hys, ?_, ⟨hxs, ?_, ?_, ?_⟩, ?_⟩
    · refine hC.relink ndC hfs (fun a ha hf => ?_) (fun _ _ => by rw [hdata6])
      exact hcells6 a (fun e => xC (e ▸ ha)) (fun e => yC (e ▸ ha)) (fun e => (mrest _ hma).2 (e ▸ ha)) hf
    · rw [hdata6, hdy]
    · rw [hdata6, hdx]
    · refine hl.frame (fun a ha => ?_) (fun _ _ => by rw [hdata6])
      exact hcells6 a (fun e => xl (e ▸ ha)) (lrest' a ha).1 (fun e => (lrest' a ha).2.1 (e ▸ hma))
        (headC a (lrest' a ha).2.2.2)
    · refine hm.reparent ndm hms (fun a ha hne => ?_) (fun _ _ => by rw [hdata6])
      exact hcells6 a (fun e => xm (e ▸ ha)) (fun e => ym (e ▸ ha)) hne (headC a (mrest a ha).2)
    · refine hr.frame (fun a ha => ?_) (fun _ _ => by rw [hdata6])
      exact hcells6 a (fun e => xr (e ▸ ha)) (fun e => yr (e ▸ ha)) (fun e => (mrest _ hma).1 (e ▸ ha))
        (headC a (rrest a ha))
  · exact (hpp.symm.cons np).nodup hnd
  · rw [hents]; exact hdata
  · refine ⟨cn, ?_⟩
    rw [hcells6 np e4 e5 e6 (headC np nC)]; exact hnil
  · intro p hp
    rw [hnext6] at hp
    obtain ⟨f1, f2⟩ := hfresh p hp
    refine ⟨?_, by rw [hdata6]; exact f2⟩
    rw [hcells6 p, f1]
    · intro e; rw [e, hx] at f1; cases f1
    · intro e; rw [e] at f1; rw [show σ.cells y = _ from hy] at f1; cases f1
    · intro e
      obtain ⟨c, hc⟩ := hm.root_some
      rw [e, hc] at f1; cases f1
    · intro f hf e
      cases fs with
      | nil => simp at hf
      | cons g gs =>
        simp at hf; subst hf
        rw [e, hC.1] at f1; cases f1
  · intro p hp
    have hp' : p ∉ (T.node x l d k v c (.node y m d' k' v' c' r)).addrs ++ addrsC fs :=
      fun h => hp (hperm.mem_iff.2 h)
    simp only [T.addrs, List.mem_append, List.mem_cons, not_or] at hp'
    obtain ⟨⟨q1, q2, q3, q4, q5⟩, q6⟩ := hp'
    exact hcells6 p q1 q3 (fun e => q4 (e ▸ hma)) (headC p q6)

/-- Right rotation. -/
theorem rrot_spec {σ : Store} {root np x d y d' : Nat} {fs : List Frame} {l m r : T} {k k' : Sym} {v v' : Val}
    {c c' : Bool}
    (h : Valid σ root np (plug fs (.node x (.node y r d' k' v' c' m) d k v c l))) :
    ∃ σ', (∀ next, rrot next x σ = .ok (newRoot fs next y, σ')) ∧
      Valid σ' (newRoot fs root y) np (plug fs (.node y r d' k' v' c' (.node x m d k v c l))) ∧
      Outside σ σ' (plug fs (.node x (.node y r d' k' v' c' m) d k v c l)) := by
  obtain ⟨hroot, hrep, hnd, hdata, ⟨cn, hnil⟩, hfresh⟩ := h
  obtain ⟨hC, hx, hdx, ⟨hy, hdy, hr, hm⟩, hl⟩ := (rep_plug ..).1 hrep
  have hperm := plug_addrs_perm fs (.node x (.node y r d' k' v' c' m) d k v c l)
  have hpl : (T.node x (.node y r d' k' v' c' m) d k v c l).addrs.Perm
      (x :: (l.addrs ++ y :: (m.addrs ++ r.addrs))) := by
    simp only [T.addrs]
    refine List.Perm.cons _ (List.perm_append_comm.trans (List.Perm.append_left _ (List.Perm.cons _ ?_)))
    exact List.perm_append_comm
  have hnd' := ((hperm.trans (hpl.append_right _)).cons np).nodup hnd
  simp only [T.addrs, List.cons_append, List.append_assoc, List.nodup_cons, List.nodup_append, List.mem_cons,
    List.mem_append, not_or] at hnd'
  obtain ⟨⟨nx, nl, ny, nm, nr, nC⟩, ⟨xl, xy, xm, xr, xC⟩, ndl, ⟨⟨ym, yr, yC⟩, ndm, ⟨ndr, ndC, rC⟩, mrC⟩, lrest⟩ := hnd'
  have lrest' : ∀ a ∈ l.addrs, a ≠ y ∧ a ∉ m.addrs ∧ a ∉ r.addrs ∧ a ∉ addrsC fs := by
    intro a ha
    exact ⟨lrest a ha y (.inl rfl), fun h => lrest a ha a (.inr (.inl h)) rfl,
      fun h => lrest a ha a (.inr (.inr (.inl h))) rfl, fun h => lrest a ha a (.inr (.inr (.inr h))) rfl⟩
  have mrest : ∀ a ∈ m.addrs, a ∉ r.addrs ∧ a ∉ addrsC fs :=
    fun a ha => ⟨fun h => mrC a ha a (.inl h) rfl, fun h => mrC a ha a (.inr h) rfl⟩
  have rrest : ∀ a ∈ r.addrs, a ∉ addrsC fs := fun a ha h => rC a ha a h rfl
  have hma := m.addr_mem
  have head : ∀ f ∈ fs.head?, f.a ∈ addrsC fs ∧ f.sib.addr ∈ addrsC fs := fun f hf => addrsC_head hf
  -- distinctness of the cells that are written
  have e1 : y ≠ x := fun e => xy e.symm
  have e2 : m.addr ≠ x := fun e => xm (e ▸ hma)
  have e3 : m.addr ≠ y := fun e => ym (e ▸ hma)
  have e4 : np ≠ x := fun e => nx e
  have e5 : np ≠ y := fun e => ny e
  have e6 : np ≠ m.addr := fun e => nm (e ▸ hma)
  have e7 : ∀ f ∈ fs.head?, f.a ≠ x ∧ f.a ≠ y ∧ f.a ≠ m.addr ∧ x ≠ f.sib.addr := by
    intro f hf
    refine ⟨fun e => xC (e ▸ (head f hf).1), fun e => yC (e ▸ (head f hf).1), fun e => ?_,
      fun e => xC (e ▸ (head f hf).2)⟩
    exact (mrest _ hma).2 (e ▸ (head f hf).1)
  -- the memories on the way
  let σ1 := σ.setCell x (some (.node ⟨d, m.addr, l.addr, parOf fs np, c⟩))
  let σ2 := reparent σ1 m x
  let σ3 := σ2.setCell y (some (.node ⟨d', r.addr, m.addr, parOf fs np, c'⟩))
  let σ4 := relink σ3 fs np y
  let σ5 := σ4.setCell y (some (.node ⟨d', r.addr, x, parOf fs np, c'⟩))
  let σ6 := σ5.setCell x (some (.node ⟨d, m.addr, l.addr, y, c⟩))
  have hm1 : Rep σ1 m y := hm.frame (fun a ha => setCell_other _ _ (fun e => xm (e ▸ ha))) (fun _ _ => rfl)
  have hx1 : σ1.cells x = some (.node ⟨d, m.addr, l.addr, parOf fs np, c⟩) := setCell_same _ _ _
  have hx2 : σ2.cells x = some (.node ⟨d, m.addr, l.addr, parOf fs np, c⟩) :=
    (reparent_other (Ne.symm e2)).trans hx1
  have hy2 : σ2.cells y = some (.node ⟨d', r.addr, m.addr, x, c'⟩) := by
    rw [show σ2.cells y = σ1.cells y from reparent_other (Ne.symm e3),
      show σ1.cells y = σ.cells y from setCell_other _ _ e1]
    exact hy
  have hnil3 : σ3.cells np = some (.nil cn) := by
    rw [show σ3.cells np = σ2.cells np from setCell_other _ _ e5,
      show σ2.cells np = σ1.cells np from reparent_other e6,
      show σ1.cells np = σ.cells np from setCell_other _ _ e4]
    exact hnil
  have hC3 : RepC σ3 fs x np := by
    refine hC.frame (fun a ha => ?_) (fun e _ => by simp [σ3, σ2, σ1])
    rw [show σ3.cells a = σ2.cells a from setCell_other _ _ (fun e => yC (e ▸ ha)),
      show σ2.cells a = σ1.cells a from reparent_other (fun e => (mrest _ hma).2 (e ▸ ha)),
      show σ1.cells a = σ.cells a from setCell_other _ _ (fun e => xC (e ▸ ha))]
  have hx4 : σ4.cells x = some (.node ⟨d, m.addr, l.addr, parOf fs np, c⟩) := by
    rw [show σ4.cells x = σ3.cells x from relink_other (fun f hf e => (e7 f hf).1 e.symm),
      show σ3.cells x = σ2.cells x from setCell_other _ _ (Ne.symm e1)]
    exact hx2
  have hy4 : σ4.cells y = some (.node ⟨d', r.addr, m.addr, parOf fs np, c'⟩) := by
    rw [show σ4.cells y = σ3.cells y from relink_other (fun f hf e => (e7 f hf).2.1 e.symm)]
    exact setCell_same _ _ _
  have hx5 : σ5.cells x = some (.node ⟨d, m.addr, l.addr, parOf fs np, c⟩) := by
    rw [show σ5.cells x = σ4.cells x from setCell_other _ _ (Ne.symm e1)]
    exact hx4
  have hcells6 : ∀ a, a ≠ x → a ≠ y → a ≠ m.addr → (∀ f ∈ fs.head?, a ≠ f.a) → σ6.cells a = σ.cells a := by
    intro a h1 h2 h3 h4
    rw [show σ6.cells a = σ5.cells a from setCell_other _ _ h1,
      show σ5.cells a = σ4.cells a from setCell_other _ _ h2,
      show σ4.cells a = σ3.cells a from relink_other h4,
      show σ3.cells a = σ2.cells a from setCell_other _ _ h2,
      show σ2.cells a = σ1.cells a from reparent_other h3,
      show σ1.cells a = σ.cells a from setCell_other _ _ h1]
  have hdata6 : σ6.data = σ.data := by simp [σ6, σ5, σ4, σ3, σ2, σ1]
  have hnext6 : σ6.next = σ.next := by simp [σ6, σ5, σ4, σ3, σ2, σ1]
  have hrun : ∀ next, rrot next x σ = .ok (newRoot fs next y, σ6) := by
    intro next
    have s2 : adopt m.addr x σ1 = .ok ((), σ2) := setParent_rep (x := x) hm1
    have s3 : setParent y (parOf fs np) σ2 = .ok ((), σ3) := setParent_ok hy2
    have s4 : linkRight next (parOf fs np) x y σ3 = .ok (newRoot fs next y, σ4) :=
      linkRight_ok hC3 hnil3 (fun f hf => (e7 f hf).2.2.2)
    have s5 : setRight y x σ4 = .ok ((), σ5) := setRight_ok hy4
    have s6 : setParent x y σ5 = .ok ((), σ6) := setParent_ok hx5
    have s1 : setLeft x m.addr σ = .ok ((), σ1) := setLeft_ok hx
    have r1 : left x σ = .ok (y, σ) := left_ok hx
    have r2 : right y σ = .ok (m.addr, σ) := right_ok hy
    have r3 : parent x σ2 = .ok (parOf fs np, σ2) := parent_ok hx2
    unfold rrot
    simp only [TM.bind_apply, isNull_node hx, Res.ok_bind, Bool.false_eq_true, if_false, r1,
      isNull_node hy, r2, s1, s2, r3, s3, s4, s5, s6, TM.pure_apply]
  have hperm' := plug_addrs_perm fs (.node y r d' k' v' c' (.node x m d k v c l))
  have hxs : σ6.cells x = some (.node ⟨d, m.addr, l.addr, y, c⟩) := setCell_same _ _ _
  have hys : σ6.cells y = some (.node ⟨d', r.addr, x, parOf fs np, c'⟩) := by
    rw [show σ6.cells y = σ5.cells y from setCell_other _ _ e1]
    exact setCell_same _ _ _
  have hms : σ6.cells m.addr = (reparent σ m x).cells m.addr := by
    rw [show σ6.cells m.addr = σ5.cells m.addr from setCell_other _ _ e2,
      show σ5.cells m.addr = σ4.cells m.addr from setCell_other _ _ e3,
      show σ4.cells m.addr = σ3.cells m.addr from relink_other (fun f hf e => (e7 f hf).2.2.1 e.symm),
      show σ3.cells m.addr = σ2.cells m.addr from setCell_other _ _ e3]
    cases m with
    | leaf a => exact setCell_other _ _ e2
    | node a => exact (setCell_same _ _ _).trans (setCell_same _ _ _).symm
  have hfs : ∀ f ∈ fs.head?, σ6.cells f.a = (relink σ fs np y).cells f.a := by
    intro f hf
    rw [show σ6.cells f.a = σ5.cells f.a from setCell_other _ _ (e7 f hf).1,
      show σ5.cells f.a = σ4.cells f.a from setCell_other _ _ (e7 f hf).2.1]
    cases fs with
    | nil => simp at hf
    | cons g gs =>
      simp at hf; subst hf
      exact (setCell_same _ _ _).trans (setCell_same _ _ _).symm
  have headC : ∀ a, a ∉ addrsC fs → ∀ f ∈ fs.head?, a ≠ f.a := fun a ha f hf e => ha (e ▸ (head f hf).1)
  have hpp : (plug fs (.node y r d' k' v' c' (.node x m d k v c l))).addrs.Perm
      (plug fs (.node x (.node y r d' k' v' c' m) d k v c l)).addrs := by
    refine hperm'.trans (List.Perm.trans ?_ hperm.symm)
    refine List.Perm.append_right _ ?_
    simp only [T.addrs, List.cons_append, List.append_assoc]
    refine (List.Perm.cons _ List.perm_middle).trans (List.Perm.swap x y _)
  have hents : (plug fs (.node y r d' k' v' c' (.node x m d k v c l))).entries =
      (plug fs (.node x (.node y r d' k' v' c' m) d k v c l)).entries :=
    plug_entries _ _ _ (by simp [T.entries])
  refine ⟨σ6, hrun, ⟨?_, ?_, ?_, ?_, ?_, ?_⟩, ⟨hdata6, hnext6, ?_⟩⟩
  · exact newRoot_addr hroot
  · refine (rep_plug ..).2 ⟨?_, hys, ?_, ?_, ⟨hxs, ?_, ?_, ?_⟩⟩
    · refine hC.relink ndC hfs (fun a ha hf => ?_) (fun _ _ => by rw [hdata6])
      exact hcells6 a (fun e => xC (e ▸ ha)) (fun e => yC (e ▸ ha)) (fun e => (mrest _ hma).2 (e ▸ ha)) hf
    · rw [hdata6, hdy]
    · refine hr.frame (fun a ha => ?_) (fun _ _ => by rw [hdata6])
      exact hcells6 a (fun e => xr (e ▸ ha)) (fun e => yr (e ▸ ha)) (fun e => (mrest _ hma).1 (e ▸ ha))
        (headC a (rrest a ha))
    · rw [hdata6, hdx]
    · refine hm.reparent ndm hms (fun a ha hne => ?_) (fun _ _ => by rw [hdata6])
      exact hcells6 a (fun e => xm (e ▸ ha)) (fun e => ym (e ▸ ha)) hne (headC a (mrest a ha).2)
    · refine hl.frame (fun a ha => ?_) (fun _ _ => by rw [hdata6])
      exact hcells6 a (fun e => xl (e ▸ ha)) (lrest' a ha).1 (fun e => (lrest' a ha).2.1 (e ▸ hma))
        (headC a (lrest' a ha).2.2.2)
  · exact (hpp.symm.cons np).nodup hnd
  · rw [hents]; exact hdata
  · refine ⟨cn, ?_⟩
    rw [hcells6 np e4 e5 e6 (headC np nC)]; exact hnil
  · intro p hp
    rw [hnext6] at hp
    obtain ⟨f1, f2⟩ := hfresh p hp
    refine ⟨?_, by rw [hdata6]; exact f2⟩
    rw [hcells6 p, f1]
    · intro e; rw [e, hx] at f1; cases f1
    · intro e; rw [e] at f1; rw [show σ.cells y = _ from hy] at f1; cases f1
    · intro e
      obtain ⟨c, hc⟩ := hm.root_some
      rw [e, hc] at f1; cases f1
    · intro f hf e
      cases fs with
      | nil => simp at hf
      | cons g gs =>
        simp at hf; subst hf
        rw [e, hC.1] at f1; cases f1
  · intro p hp
    have hp' : p ∉ (T.node x (.node y r d' k' v' c' m) d k v c l).addrs ++ addrsC fs :=
      fun h => hp (hperm.mem_iff.2 h)
    simp only [T.addrs, List.mem_append, List.mem_cons, not_or] at hp'
    obtain ⟨⟨q1, ⟨q3, q5, q4⟩, q2⟩, q6⟩ := hp'
    exact hcells6 p q1 q3 (fun e => q4 (e ▸ hma)) (headC p q6)

end Tree

end Mnml
