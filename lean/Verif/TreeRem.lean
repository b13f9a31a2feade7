import Verif.PropTreeBal

/-!
# Removal from the table: what it keeps

`lisp_tree_rem` unlinks a node and then repairs colours and heights. The repair has several errors (C16), but whatever it does, it
only changes colours and rotates: every other entry stays in the tree.
-/

namespace Mnml

namespace Tree

/-! ## Unlinking a node -/

/-- The leftmost node and the way to it. -/
def minPath : T → List Frame × T
  | .node a (.node a' l' d' k' v' c' r') d k v c r =>
    ((minPath (.node a' l' d' k' v' c' r')).1 ++ [⟨true, a, d, k, v, c, r⟩], (minPath (.node a' l' d' k' v' c' r')).2)
  | t => ([], t)

theorem minPath_plug (t : T) : plug (minPath t).1 (minPath t).2 = t := by
  fun_induction minPath t with
  | case1 a a' l' d' k' v' c' r' d k v c r ih => rw [plug_append, ih]; rfl
  | case2 t => rfl

theorem minPath_left (t : T) : ∀ f ∈ (minPath t).1, f.goLeft = true := by
  fun_induction minPath t with
  | case1 a a' l' d' k' v' c' r' d k v c r ih =>
    intro f hf
    rcases List.mem_append.1 hf with h | h
    · exact ih f h
    · simp at h; subst h; rfl
  | case2 t => simp

theorem minPath_node (t : T) (h : t.isNode = true) :
    ∃ y b d k v c r, (minPath t).2 = .node y (.leaf b) d k v c r := by
  fun_induction minPath t with
  | case1 a a' l' d' k' v' c' r' d k v c r ih => exact ih rfl
  | case2 t ht =>
    cases t with
    | leaf a => cases h
    | node a l d k v c r =>
      cases l with
      | leaf b => exact ⟨a, b, d, k, v, c, r, rfl⟩
      | node a' l' d' k' v' c' r' => exact absurd rfl (ht a a' l' d' k' v' c' r' d k v c r)

/-- `tree_minimum` finds the leftmost node. -/
theorem minimum_spec {σ : Store} (t : T) {par n : Nat} (h : Rep σ t par) (hf : t.height < n) :
    minimum n t.addr σ = .ok ((minPath t).2.addr, σ) := by
  fun_induction minPath t generalizing par n with
  | case1 a a' l' d' k' v' c' r' d k v c r ih =>
    obtain ⟨m, rfl⟩ : ∃ m, n = m + 1 := ⟨n - 1, by omega⟩
    simp only [T.height] at hf ih
    obtain ⟨h1, h2, h3, h4⟩ := h
    unfold minimum
    have e0 : isNull a σ = .ok (false, σ) := isNull_node h1
    have e1 : isNull a' σ = .ok (false, σ) := isNull_node h3.1
    simp only [T.addr, TM.bind_apply, e0, Res.ok_bind, Bool.false_eq_true, if_false]
    rw [left_ok h1]
    simp only [T.addr, Res.ok_bind, e1]
    exact ih h3 (by omega)
  | case2 t ht =>
    obtain ⟨m, rfl⟩ : ∃ m, n = m + 1 := ⟨n - 1, by omega⟩
    unfold minimum
    rw [TM.bind_apply, isNull_rep h]
    cases t with
    | leaf a => rfl
    | node a l d k v c r =>
      obtain ⟨h1, h2, h3, h4⟩ := h
      cases l with
      | leaf b =>
        show (left a >>= fun l => isNull l >>= fun e => if e = true then pure a else minimum m l) σ = _
        rw [TM.bind_apply, left_ok h1, Res.ok_bind, TM.bind_apply, isNull_rep h3]; rfl
      | node a' l' d' k' v' c' r' => exact absurd rfl (ht a a' l' d' k' v' c' r' d k v c r)

theorem beforeC_left {gs : List Frame} (h : ∀ f ∈ gs, f.goLeft = true) : beforeC gs = [] := by
  induction gs with
  | nil => rfl
  | cons f fs ih =>
    simp only [beforeC, ih (fun g hg => h g (by simp [hg])), h f (by simp), if_true, List.append_nil]

/-- The entries of a tree, its leftmost one first. -/
theorem min_entries {gs : List Frame} {y b d : Nat} {k : Sym} {v : Val} {c : Bool} {r : T}
    (h : ∀ f ∈ gs, f.goLeft = true) :
    (plug gs (.node y (.leaf b) d k v c r)).entries = (d, k, v) :: (plug gs r).entries := by
  rw [plug_split, plug_split, beforeC_left h]
  simp [T.entries]

/-- A node with a NIL child is unlinked: the other child takes its place. -/
theorem unlink_spec {σ : Store} {root np y d : Nat} {gs : List Frame} {l r x : T} {k : Sym} {v : Val} {c : Bool}
    (h : Valid σ root np (plug gs (.node y l d k v c r))) (hx : x = l ∨ x = r) :
    ∃ q σ1, (adopt x.addr (parOf gs np) >>= fun _ => unlink root (parOf gs np) x.addr y) σ = .ok (q, σ1) ∧
      σ1.data = σ.data ∧ σ1.next = σ.next ∧ (∀ b, b ∉ (plug gs x).addrs → σ1.cells b = σ.cells b) ∧
      ((gs = [] ∧ x.isNode = false ∧ q = (np, np) ∧ σ1 = σ) ∨
        ((gs ≠ [] ∨ x.isNode = true) ∧ q = ((plug gs x).addr, x.addr) ∧ Valid σ1 (plug gs x).addr np (plug gs x))) := by
  obtain ⟨hroot, hrep, hnd, hdata, ⟨cn, hnil⟩, hfresh⟩ := h
  obtain ⟨hC, hy, hdy, hl, hr⟩ := (rep_plug ..).1 hrep
  have hxr : Rep σ x y := by rcases hx with rfl | rfl <;> assumption
  have hperm := plug_addrs_perm gs (.node y l d k v c r)
  have hnd' := (hperm.cons np).nodup hnd
  have hpx := plug_addrs_perm gs x
  -- the parts are distinct
  have hsub : (np :: y :: (x.addrs ++ addrsC gs)).Nodup := by
    refine hnd'.sublist ?_
    simp only [T.addrs, List.cons_append, List.append_assoc]
    refine (List.Sublist.cons_cons _ (List.Sublist.cons_cons _ ?_))
    rcases hx with rfl | rfl
    · exact (List.Sublist.refl _).append (List.sublist_append_right _ _)
    · exact List.sublist_append_right _ _
  have hdat : ((x.entries ++ entriesC gs).map (·.1)).Nodup := by
    have := ((plug_entries_perm gs (.node y l d k v c r)).map (·.1)).nodup hdata
    refine this.sublist (List.Sublist.map _ ?_)
    simp only [T.entries, List.append_assoc, List.cons_append]
    rcases hx with rfl | rfl
    · exact (List.Sublist.refl _).append ((List.sublist_append_right _ _).cons _)
    · exact ((List.Sublist.refl _).cons _).trans (List.sublist_append_right _ _)
  simp only [List.nodup_cons, List.mem_cons, List.mem_append, not_or, List.nodup_append] at hsub
  obtain ⟨⟨ny, nx, nC⟩, ⟨yx, yC⟩, ndx, ndC, xC⟩ := hsub
  have s1 : adopt x.addr (parOf gs np) σ = .ok ((), reparent σ x (parOf gs np)) := setParent_rep hxr
  have hfr : ∀ {σ' : Store}, (∀ p, σ.cells p = none → σ'.cells p = none) → σ'.next = σ.next → σ'.data = σ.data →
      ∀ p, σ'.next ≤ p → σ'.cells p = none ∧ σ'.data p = none := by
    intro σ' h1 h2 h3 p hp
    rw [h2] at hp
    exact ⟨h1 p (hfresh p hp).1, by rw [h3]; exact (hfresh p hp).2⟩
  have hxe : ∃ cx, σ.cells x.addr = some cx := hxr.root_some
  have none1 : ∀ p, σ.cells p = none → (reparent σ x (parOf gs np)).cells p = none := by
    intro p hp
    have : p ≠ x.addr := by rintro rfl; obtain ⟨cx, hcx⟩ := hxe; rw [hcx] at hp; cases hp
    rw [reparent_other this]; exact hp
  cases gs with
  | nil =>
    rw [TM.bind_apply, s1, Res.ok_bind]
    have hn1 : (reparent σ x np).cells np = some (.nil cn) := by
      rw [reparent_other (fun e => nx (by rw [e]; exact x.addr_mem))]; exact hnil
    have hx1 : Rep (reparent σ x np) x np :=
      hxr.reparent ndx rfl (fun a _ ha => reparent_other ha) (fun e _ => by simp)
    unfold unlink
    rw [show parOf [] np = np from rfl, TM.bind_apply, isNull_nil hn1]
    simp only [Res.ok_bind, if_true, TM.bind_apply]
    rw [isNull_rep hx1]
    cases x with
    | leaf a => exact ⟨(np, np), σ, rfl, rfl, rfl, fun _ _ => rfl, .inl ⟨trivial, rfl, rfl, rfl⟩⟩
    | node a l' d' k' v' c' r' =>
      refine ⟨(a, a), _, rfl, by simp, by simp, ?_, .inr ⟨.inr rfl, rfl, ?_⟩⟩
      · intro b hb
        exact reparent_other (t := .node a l' d' k' v' c' r') (fun e => hb (by rw [e]; simp [plug, T.addrs, T.addr]))
      · refine ⟨rfl, hx1, List.nodup_cons.2 ⟨nx, ndx⟩, by simpa [entriesC, plug] using hdat, ⟨cn, hn1⟩, hfr none1 (by simp) (by simp)⟩
  | cons f fs =>
    have hfa : f.a ∈ addrsC (f :: fs) := by simp [addrsC]
    have hfs : f.sib.addr ∈ addrsC (f :: fs) := by simp [addrsC, T.addr_mem]
    have fx : f.a ≠ x.addr := fun e => xC _ x.addr_mem _ hfa e.symm
    have ys : y ≠ f.sib.addr := fun e => yC (by rw [e]; exact hfs)
    let σ1 := reparent σ x f.a
    let σ2 := relink σ1 (f :: fs) np x.addr
    have hC1 : RepC σ1 (f :: fs) y np := by
      refine hC.frame (fun a ha => reparent_other (fun e => ?_)) (fun e _ => by simp [σ1])
      exact xC _ x.addr_mem _ ha e.symm
    have hfn : isNull f.a σ1 = .ok (false, σ1) := isNull_node hC1.1
    have s2 : swapLeft f.a y x.addr σ1 = .ok ((), σ2) := swapLeft_ok hC1 ys
    have cells2 : ∀ b, b ≠ x.addr → b ≠ f.a → σ2.cells b = σ.cells b := by
      intro b h1 h2
      rw [show σ2.cells b = σ1.cells b from relink_other (fun g hg => by simp at hg; subst hg; exact h2)]
      exact reparent_other h1
    have hr2 : (plug (f :: fs) x).addr = root := newRoot_addr (t := .node y l d k v c r) hroot
    refine ⟨(root, x.addr), σ2, ?_, by simp [σ2, σ1], by simp [σ2, σ1], ?_, .inr ⟨.inl (by simp), by rw [hr2], ?_⟩⟩
    · rw [TM.bind_apply, s1, Res.ok_bind]
      show unlink root f.a x.addr y σ1 = _
      unfold unlink
      rw [TM.bind_apply, hfn, Res.ok_bind]
      show (swapLeft f.a y x.addr >>= fun _ => pure (root, x.addr)) σ1 = _
      rw [TM.bind_apply, s2]; rfl
    · intro b hb
      have hb' : b ∉ x.addrs ++ addrsC (f :: fs) := fun e => hb (hpx.mem_iff.2 e)
      simp only [List.mem_append, not_or] at hb'
      exact cells2 b (fun e => hb'.1 (by rw [e]; exact x.addr_mem)) (fun e => hb'.2 (by rw [e]; exact hfa))
    · rw [hr2]
      refine ⟨hr2, (rep_plug ..).2 ⟨?_, ?_⟩, ?_, ?_, ⟨cn, ?_⟩, ?_⟩
      · refine hC1.relink ndC ?_ ?_ (fun e _ => by simp [σ2])
        · intro g _; rfl
        · intro a ha hh
          exact relink_other hh
      · refine hxr.reparent ndx ?_ ?_ (fun e _ => by simp [σ2, σ1])
        · rw [show σ2.cells x.addr = σ1.cells x.addr from relink_other (fun g hg => by simp at hg; subst hg; exact fx.symm)]
          rfl
        · intro a ha hne
          exact cells2 a hne (fun e => xC a ha _ hfa e)
      · refine (hpx.symm.cons np).nodup ?_
        simp only [List.nodup_cons, List.mem_append, not_or, List.nodup_append]
        exact ⟨⟨nx, nC⟩, ndx, ndC, xC⟩
      · exact ((plug_entries_perm (f :: fs) x).symm.map (·.1)).nodup hdat
      · rw [cells2 np (fun e => nx (by rw [e]; exact x.addr_mem)) (fun e => nC (by rw [e]; exact hfa))]
        exact hnil
      · refine hfr ?_ (by simp [σ2, σ1]) (by simp [σ2, σ1])
        intro p hp
        have h1 : p ≠ x.addr := by rintro rfl; obtain ⟨cx, hcx⟩ := hxe; rw [hcx] at hp; cases hp
        have h2 : p ≠ f.a := by rintro rfl; rw [hC.1] at hp; cases hp
        rw [cells2 p h1 h2]; exact hp

/-! ## The repair -/

/-- Every cell of a tree is the root of a subtree. -/
theorem locate {a : Nat} (t : T) (h : a ∈ t.addrs) : ∃ fs u, plug fs u = t ∧ u.addr = a := by
  induction t with
  | leaf b => simp [T.addrs] at h; exact ⟨[], .leaf b, rfl, h.symm⟩
  | node b l d k v c r ihl ihr =>
    simp only [T.addrs, List.mem_cons, List.mem_append] at h
    rcases h with rfl | h | h
    · exact ⟨[], _, rfl, rfl⟩
    · obtain ⟨fs, u, e, hu⟩ := ihl h
      exact ⟨fs ++ [⟨true, b, d, k, v, c, r⟩], u, by rw [plug_append, e]; rfl, hu⟩
    · obtain ⟨fs, u, e, hu⟩ := ihr h
      exact ⟨fs ++ [⟨false, b, d, k, v, c, l⟩], u, by rw [plug_append, e]; rfl, hu⟩

/-- Whatever `m` answers, if it ends. -/
def wpT {α : Type} (m : TM α) (Q : α → Store → Prop) (σ : Store) : Prop := ∀ r σ', m σ = .ok (r, σ') → Q r σ'

theorem wpT_bind {α β : Type} {m : TM α} {f : α → TM β} {Q : β → Store → Prop} {σ : Store}
    (h : wpT m (fun r σ' => wpT (f r) Q σ') σ) : wpT (m >>= f) Q σ := by
  intro r σ' e
  rw [TM.bind_apply] at e
  cases hm : m σ with
  | ok p => rw [hm] at e; exact h p.1 p.2 hm r σ' e
  | ub u => rw [hm] at e; cases e
  | abort => rw [hm] at e; cases e
  | oof => rw [hm] at e; cases e
  | unsupported => rw [hm] at e; cases e

theorem wpT_pure {α : Type} {a : α} {Q : α → Store → Prop} {σ : Store} (h : Q a σ) : wpT (pure a) Q σ := by
  intro r σ' e; cases e; exact h

/-- What kind of cell is at each address: a node (`some true`), a NIL, nothing. -/
def kind (σ : Store) (p : Nat) : Option Bool :=
  match σ.cells p with
  | some (.node _) => some true
  | some (.nil _) => some false
  | none => none

/-- The computation changes no cell from a node to something else or back. -/
def Steady {α : Type} (m : TM α) : Prop := ∀ σ r σ', m σ = .ok (r, σ') → kind σ' = kind σ

theorem steady_bind {α β : Type} {m : TM α} {f : α → TM β} (h : Steady m) (h' : ∀ r, Steady (f r)) : Steady (m >>= f) := by
  intro σ r σ' e
  rw [TM.bind_apply] at e
  cases hm : m σ with
  | ok p => rw [hm] at e; exact (h' p.1 p.2 r σ' e).trans (h σ p.1 p.2 hm)
  | ub u => rw [hm] at e; cases e
  | abort => rw [hm] at e; cases e
  | oof => rw [hm] at e; cases e
  | unsupported => rw [hm] at e; cases e

theorem steady_pure {α : Type} (a : α) : Steady (pure a : TM α) := by
  intro σ r σ' e; cases e; rfl

theorem steady_node (p : Nat) : Steady (node p) := by
  intro σ r σ' e
  unfold node at e
  split at e <;> cases e
  rfl

theorem steady_isNull (p : Nat) : Steady (isNull p) := by
  intro σ r σ' e
  unfold isNull at e
  split at e <;> cases e <;> rfl

theorem kind_setCell {σ : Store} {p : Nat} {c c' : Cell} (h : σ.cells p = some c)
    (hk : (match c with | .node _ => true | .nil _ => false) = (match c' with | .node _ => true | .nil _ => false)) :
    kind (σ.setCell p (some c')) = kind σ := by
  funext q
  unfold kind
  by_cases e : q = p
  · subst e
    rw [setCell_same, h]
    cases c <;> cases c' <;> first | rfl | cases hk
  · rw [setCell_other _ _ e]

theorem steady_update (p : Nat) (f : Node → Node) : Steady (update p f) := by
  intro σ r σ' e
  unfold update at e
  split at e
  · rename_i n hn; cases e; exact kind_setCell hn rfl
  · cases e
  · cases e

theorem steady_setColor (p : Nat) (b : Bool) : Steady (setColor p b) := by
  intro σ r σ' e
  unfold setColor at e
  split at e
  · rename_i n hn; cases e; exact kind_setCell hn rfl
  · rename_i n hn; cases e; exact kind_setCell hn rfl
  · cases e

theorem steady_left (p : Nat) : Steady (left p) := steady_bind (steady_node p) fun _ => steady_pure _
theorem steady_right (p : Nat) : Steady (right p) := steady_bind (steady_node p) fun _ => steady_pure _
theorem steady_parent (p : Nat) : Steady (parent p) := steady_bind (steady_node p) fun _ => steady_pure _

theorem steady_ite {α : Type} {c : Prop} [Decidable c] {m m' : TM α} (h : Steady m) (h' : Steady m') :
    Steady (if c then m else m') := by
  split <;> assumption

theorem steady_adopt (c p : Nat) : Steady (adopt c p) :=
  steady_bind (steady_isNull _) fun _ => steady_ite (steady_pure _) (steady_update _ _)

theorem steady_lrot (root x : Nat) : Steady (lrot root x) := by
  unfold lrot linkLeft swapLeft
  refine steady_bind (steady_isNull _) fun _ => steady_ite (steady_pure _) ?_
  refine steady_bind (steady_right _) fun _ => steady_bind (steady_isNull _) fun _ => steady_ite (steady_pure _) ?_
  refine steady_bind (steady_left _) fun _ => steady_bind (steady_update _ _) fun _ => steady_bind (steady_adopt _ _) fun _ => ?_
  refine steady_bind (steady_parent _) fun _ => steady_bind (steady_update _ _) fun _ => steady_bind ?_ fun _ => ?_
  · refine steady_bind (steady_isNull _) fun _ => steady_ite (steady_pure _) ?_
    refine steady_bind (steady_bind (steady_left _) fun _ => steady_ite (steady_update _ _) (steady_update _ _)) fun _ => steady_pure _
  · exact steady_bind (steady_update _ _) fun _ => steady_bind (steady_update _ _) fun _ => steady_pure _

theorem steady_rrot (root x : Nat) : Steady (rrot root x) := by
  unfold rrot linkRight swapRight
  refine steady_bind (steady_isNull _) fun _ => steady_ite (steady_pure _) ?_
  refine steady_bind (steady_left _) fun _ => steady_bind (steady_isNull _) fun _ => steady_ite (steady_pure _) ?_
  refine steady_bind (steady_right _) fun _ => steady_bind (steady_update _ _) fun _ => steady_bind (steady_adopt _ _) fun _ => ?_
  refine steady_bind (steady_parent _) fun _ => steady_bind (steady_update _ _) fun _ => steady_bind ?_ fun _ => ?_
  · refine steady_bind (steady_isNull _) fun _ => steady_ite (steady_pure _) ?_
    refine steady_bind (steady_bind (steady_right _) fun _ => steady_ite (steady_update _ _) (steady_update _ _)) fun _ => steady_pure _
  · exact steady_bind (steady_update _ _) fun _ => steady_bind (steady_update _ _) fun _ => steady_pure _

/-- The memory holds a tree of the cells `A` with the entries `E`; everything else is as in `σ0`. -/
structure Kept (A : List Nat) (E : List (Nat × Sym × Val)) (np : Nat) (σ0 σ : Store) : Prop where
  tree : ∃ rt t, Valid σ rt np t ∧ t.entries = E ∧ t.addrs.Perm A
  data : σ.data = σ0.data
  next : σ.next = σ0.next
  out : ∀ b, b ∉ A → σ.cells b = σ0.cells b

variable {A : List Nat} {E : List (Nat × Sym × Val)} {np : Nat} {σ0 σ : Store}

/-- The fields of a node of the tree are in the tree. -/
theorem Kept.fields (h : Kept A E np σ0 σ) {p : Nat} {m : Node} (hp : p = np ∨ p ∈ A) (hm : σ.cells p = some (.node m)) :
    p ∈ A ∧ m.left ∈ A ∧ m.right ∈ A ∧ (m.parent = np ∨ m.parent ∈ A) := by
  obtain ⟨rt, t, hv, _, hA⟩ := h.tree
  rcases hp with rfl | hp
  · obtain ⟨c, hc⟩ := hv.nil
    rw [hc] at hm; cases hm
  · obtain ⟨fs, u, rfl, hu⟩ := locate t (hA.mem_iff.2 hp)
    have hr := ((rep_plug ..).1 hv.rep).2
    have hperm := (plug_addrs_perm fs u).symm.trans hA
    cases u with
    | leaf b =>
      rw [← hu, T.addr, show σ.cells b = _ from hr] at hm; cases hm
    | node b l d k v c r =>
      rw [← hu] at hm
      have h1 := hr.1
      rw [show σ.cells b = _ from hm] at h1
      cases h1
      refine ⟨hp, hperm.mem_iff.1 ?_, hperm.mem_iff.1 ?_, ?_⟩
      · simp [T.addrs, l.addr_mem]
      · simp [T.addrs, r.addr_mem]
      · cases fs with
        | nil => exact .inl rfl
        | cons f fs => exact .inr (hperm.mem_iff.1 (by simp [addrsC, parOf]))

theorem wpT_node {Q : Node → Store → Prop} {p : Nat} (h : Kept A E np σ0 σ) (hp : p = np ∨ p ∈ A)
    (k : ∀ m, σ.cells p = some (.node m) → p ∈ A → m.left ∈ A → m.right ∈ A → (m.parent = np ∨ m.parent ∈ A) → Q m σ) :
    wpT (node p) Q σ := by
  intro r σ' e
  unfold node at e
  split at e
  · rename_i hn
    cases e
    obtain ⟨h1, h2, h3, h4⟩ := h.fields hp hn
    exact k r hn h1 h2 h3 h4
  · cases e
  · cases e

theorem wpT_left {Q : Nat → Store → Prop} {p : Nat} (h : Kept A E np σ0 σ) (hp : p = np ∨ p ∈ A)
    (k : ∀ m, σ.cells p = some (.node m) → p ∈ A → m.left ∈ A → Q m.left σ) : wpT (left p) Q σ :=
  wpT_bind (wpT_node h hp fun m hm h1 h2 _ _ => wpT_pure (k m hm h1 h2))

theorem wpT_right {Q : Nat → Store → Prop} {p : Nat} (h : Kept A E np σ0 σ) (hp : p = np ∨ p ∈ A)
    (k : ∀ m, σ.cells p = some (.node m) → p ∈ A → m.right ∈ A → Q m.right σ) : wpT (right p) Q σ :=
  wpT_bind (wpT_node h hp fun m hm h1 _ h3 _ => wpT_pure (k m hm h1 h3))

theorem wpT_parent {Q : Nat → Store → Prop} {p : Nat} (h : Kept A E np σ0 σ) (hp : p = np ∨ p ∈ A)
    (k : ∀ m, σ.cells p = some (.node m) → p ∈ A → (m.parent = np ∨ m.parent ∈ A) → Q m.parent σ) : wpT (parent p) Q σ :=
  wpT_bind (wpT_node h hp fun m hm h1 _ _ h4 => wpT_pure (k m hm h1 h4))

theorem wpT_colored {Q : Bool → Store → Prop} {p : Nat} (k : ∀ b, Q b σ) : wpT (colored p) Q σ := by
  intro r σ' e
  unfold colored at e
  split at e
  · cases e; exact k _
  · cases e; exact k _
  · cases e

theorem kind_node {p : Nat} {m : Node} (h : σ.cells p = some (.node m)) : kind σ p = some true := by
  unfold kind; rw [h]

theorem node_kind {p : Nat} (h : kind σ p = some true) : ∃ m, σ.cells p = some (.node m) := by
  unfold kind at h
  split at h
  · rename_i m hm; exact ⟨m, hm⟩
  · cases h
  · cases h

/-- Colouring. -/
theorem wpT_setColor {Q : Unit → Store → Prop} {p : Nat} {b : Bool} (h : Kept A E np σ0 σ) (hp : p ∈ A)
    (hb : b = false ∨ kind σ p = some true)
    (k : ∀ σ', Kept A E np σ0 σ' → kind σ' = kind σ → Q () σ') : wpT (setColor p b) Q σ := by
  intro r σ' e
  have hk := steady_setColor p b σ r σ' e
  refine k σ' ?_ hk
  obtain ⟨rt, t, hv, hE, hA⟩ := h.tree
  obtain ⟨fs, u, rfl, hu⟩ := locate t (hA.mem_iff.2 hp)
  have hn : u.isNode = true ∨ b = false := by
    rcases hb with hb | hb
    · exact .inr hb
    · obtain ⟨m, hm⟩ := node_kind hb
      cases u with
      | leaf a =>
        have := ((rep_plug ..).1 hv.rep).2
        rw [← hu, T.addr, show σ.cells a = _ from this] at hm; cases hm
      | node => exact .inl rfl
  obtain ⟨σ2, e2, hv2, hr2⟩ := setColor_spec hv hn
  rw [hu, e] at e2
  cases e2
  refine ⟨⟨rt, _, hv2, ?_, ?_⟩, hr2.data.trans h.data, hr2.next.trans h.next, ?_⟩
  · rw [← hE]; exact plug_entries _ _ _ (by simp)
  · refine ((plug_addrs_perm fs (u.withRed b)).trans ?_).trans hA
    rw [T.withRed_addrs]
    exact (plug_addrs_perm fs u).symm
  · intro q hq
    rw [← h.out q hq]
    have : q ≠ p := by rintro rfl; exact hq hp
    unfold setColor at e
    split at e
    · cases e; exact setCell_other _ _ this
    · cases e; exact setCell_other _ _ this
    · cases e

/-- Rotation to the left. -/
theorem wpT_lrot {Q : Nat → Store → Prop} {next x : Nat} (h : Kept A E np σ0 σ) (hx : x = np ∨ x ∈ A)
    (hn : next ∈ A ∧ kind σ next = some true)
    (k : ∀ r σ', Kept A E np σ0 σ' → kind σ' = kind σ → r ∈ A ∧ kind σ r = some true → Q r σ') : wpT (lrot next x) Q σ := by
  intro r σ' e
  have hk := steady_lrot next x σ r σ' e
  obtain ⟨rt, t, hv, hE, hA⟩ := h.tree
  have noop : lrot next x σ = .ok (next, σ) → Q r σ' := by
    intro e2
    rw [e] at e2; cases e2
    exact k _ _ h rfl hn
  rcases hx with rfl | hx
  · obtain ⟨c, hc⟩ := hv.nil
    refine noop ?_
    unfold lrot
    rw [TM.bind_apply, isNull_nil hc]; rfl
  · obtain ⟨fs, u, rfl, rfl⟩ := locate t (hA.mem_iff.2 hx)
    have hrep := ((rep_plug ..).1 hv.rep).2
    cases u with
    | leaf a =>
      refine noop ?_
      unfold lrot
      rw [TM.bind_apply, isNull_rep hrep]; rfl
    | node x l d kk v c s =>
      cases s with
      | leaf a =>
        refine noop ?_
        have e1 : isNull x σ = .ok (false, σ) := isNull_node hrep.1
        have e2 : right x σ = .ok (a, σ) := right_ok hrep.1
        have e3 : isNull a σ = .ok (true, σ) := isNull_nil hrep.2.2.2
        unfold lrot
        simp only [T.addr, TM.bind_apply, e1, Res.ok_bind, Bool.false_eq_true, if_false, e2, e3, if_true, TM.pure_apply]
      | node y m d' k' v' c' rr =>
        obtain ⟨σ2, h1, h2, h3⟩ := lrot_spec hv
        replace h1 := h1 next
        rw [show lrot next x σ = _ from e] at h1
        cases h1
        have p1 := plug_addrs_perm fs (.node x l d kk v c (.node y m d' k' v' c' rr))
        have p2 := plug_addrs_perm fs (.node y (.node x l d kk v c m) d' k' v' c' rr)
        have pp : (plug fs (.node y (.node x l d kk v c m) d' k' v' c' rr)).addrs.Perm
            (plug fs (.node x l d kk v c (.node y m d' k' v' c' rr))).addrs := by
          refine p2.trans (List.Perm.trans ?_ p1.symm)
          refine List.Perm.append_right _ ?_
          simp only [T.addrs, List.cons_append, List.append_assoc]
          exact (List.Perm.swap _ _ _).trans (List.Perm.cons _ List.perm_middle.symm)
        refine k _ _ ⟨⟨_, _, h2, ?_, pp.trans hA⟩, h3.data.trans h.data, h3.next.trans h.next, ?_⟩ hk ?_
        · rw [← hE]
          exact plug_entries _ _ _ (by simp [T.entries])
        · intro q hq
          rw [h3.cells q (fun hh => hq (hA.mem_iff.1 hh)), h.out q hq]
        · cases fs with
          | nil => exact ⟨hA.mem_iff.1 (by simp [plug, newRoot, T.addrs]), kind_node hrep.2.2.2.1⟩
          | cons f fs => exact hn

/-- Rotation to the right. -/
theorem wpT_rrot {Q : Nat → Store → Prop} {next x : Nat} (h : Kept A E np σ0 σ) (hx : x = np ∨ x ∈ A)
    (hn : next ∈ A ∧ kind σ next = some true)
    (k : ∀ r σ', Kept A E np σ0 σ' → kind σ' = kind σ → r ∈ A ∧ kind σ r = some true → Q r σ') : wpT (rrot next x) Q σ := by
  intro r σ' e
  have hk := steady_rrot next x σ r σ' e
  obtain ⟨rt, t, hv, hE, hA⟩ := h.tree
  have noop : rrot next x σ = .ok (next, σ) → Q r σ' := by
    intro e2
    rw [e] at e2; cases e2
    exact k _ _ h rfl hn
  rcases hx with rfl | hx
  · obtain ⟨c, hc⟩ := hv.nil
    refine noop ?_
    unfold rrot
    rw [TM.bind_apply, isNull_nil hc]; rfl
  · obtain ⟨fs, u, rfl, rfl⟩ := locate t (hA.mem_iff.2 hx)
    have hrep := ((rep_plug ..).1 hv.rep).2
    cases u with
    | leaf a =>
      refine noop ?_
      unfold rrot
      rw [TM.bind_apply, isNull_rep hrep]; rfl
    | node x s d kk v c l =>
      cases s with
      | leaf a =>
        refine noop ?_
        have e1 : isNull x σ = .ok (false, σ) := isNull_node hrep.1
        have e2 : left x σ = .ok (a, σ) := left_ok hrep.1
        have e3 : isNull a σ = .ok (true, σ) := isNull_nil hrep.2.2.1
        unfold rrot
        simp only [T.addr, TM.bind_apply, e1, Res.ok_bind, Bool.false_eq_true, if_false, e2, e3, if_true, TM.pure_apply]
      | node y rr d' k' v' c' m =>
        obtain ⟨σ2, h1, h2, h3⟩ := rrot_spec hv
        replace h1 := h1 next
        rw [show rrot next x σ = _ from e] at h1
        cases h1
        have p1 := plug_addrs_perm fs (.node x (.node y rr d' k' v' c' m) d kk v c l)
        have p2 := plug_addrs_perm fs (.node y rr d' k' v' c' (.node x m d kk v c l))
        have pp : (plug fs (.node y rr d' k' v' c' (.node x m d kk v c l))).addrs.Perm
            (plug fs (.node x (.node y rr d' k' v' c' m) d kk v c l)).addrs := by
          refine p2.trans (List.Perm.trans ?_ p1.symm)
          refine List.Perm.append_right _ ?_
          simp only [T.addrs, List.cons_append, List.append_assoc]
          exact (List.Perm.cons _ List.perm_middle).trans (List.Perm.swap _ _ _)
        refine k _ _ ⟨⟨_, _, h2, ?_, pp.trans hA⟩, h3.data.trans h.data, h3.next.trans h.next, ?_⟩ hk ?_
        · rw [← hE]
          exact plug_entries _ _ _ (by simp [T.entries])
        · intro q hq
          rw [h3.cells q (fun hh => hq (hA.mem_iff.1 hh)), h.out q hq]
        · cases fs with
          | nil => exact ⟨hA.mem_iff.1 (by simp [plug, newRoot, T.addrs]), kind_node hrep.2.2.1.1⟩
          | cons f fs => exact hn

theorem wpT_steady {α : Type} {m : TM α} {Q : α → Store → Prop} (h : Steady m) (k : ∀ r σ', kind σ' = kind σ → Q r σ') :
    wpT m Q σ := fun r σ' e => k r σ' (h σ r σ' e)

theorem wpT_ite {α : Type} {c : Prop} [Decidable c] {m m' : TM α} {Q : α → Store → Prop}
    (h : c → wpT m Q σ) (h' : ¬ c → wpT m' Q σ) : wpT (if c then m else m') Q σ := by
  split
  · exact h ‹_›
  · exact h' ‹_›

/-- Nothing can be read of a cell that is no node. -/
theorem wpT_left_no {Q : Nat → Store → Prop} {p : Nat} (h : kind σ p ≠ some true) : wpT (left p) Q σ := by
  refine wpT_bind ?_
  intro r σ' e
  unfold node at e
  split at e
  · exact absurd (kind_node ‹_›) h
  · cases e
  · cases e

theorem wpT_right_no {Q : Nat → Store → Prop} {p : Nat} (h : kind σ p ≠ some true) : wpT (right p) Q σ := by
  refine wpT_bind ?_
  intro r σ' e
  unfold node at e
  split at e
  · exact absurd (kind_node ‹_›) h
  · cases e
  · cases e

/-- The states the loop passes through: the tree is kept, and no cell changes its kind. -/
structure Loop (A : List Nat) (E : List (Nat × Sym × Val)) (np : Nat) (σ0 : Store) (K : Nat → Option Bool) (σ : Store) : Prop where
  kept : Kept A E np σ0 σ
  kind : kind σ = K

variable {K : Nat → Option Bool}

theorem wpT_case1Left {Q : Nat × Nat → Store → Prop} {next p w : Nat} (h : Loop A E np σ0 K σ)
    (hn : next ∈ A ∧ K next = some true) (hp : p = np ∨ p ∈ A) (hw : w ∈ A)
    (k : ∀ q σ', Loop A E np σ0 K σ' → (q.2 ∈ A ∧ K q.2 = some true) → q.1 ∈ A → Q q σ') :
    wpT (remCase1Left next p w) Q σ := by
  obtain ⟨h, rfl⟩ := h
  unfold remCase1Left
  refine wpT_bind (wpT_colored fun b => wpT_ite (fun _ => ?_) (fun _ => wpT_pure (k _ _ ⟨h, rfl⟩ hn hw)))
  refine wpT_bind (wpT_setColor h hw (.inl rfl) fun σ1 h1 k1 => ?_)
  refine wpT_bind (wpT_lrot h1 hp (by rw [k1]; exact hn) fun r σ2 h2 k2 hr => ?_)
  rw [k1] at hr
  refine wpT_bind (wpT_right h2 hp fun m _ _ hm => wpT_pure ?_)
  exact k _ _ ⟨h2, k2.trans k1⟩ hr hm

theorem wpT_case1Right {Q : Nat × Nat → Store → Prop} {next p w x : Nat} (h : Loop A E np σ0 K σ)
    (hn : next ∈ A ∧ K next = some true) (hp : p = np ∨ p ∈ A) (hw : w ∈ A) (hx : x = np ∨ x ∈ A)
    (k : ∀ q σ', Loop A E np σ0 K σ' → (q.2 ∈ A ∧ K q.2 = some true) → q.1 ∈ A → Q q σ') :
    wpT (remCase1Right next p w x) Q σ := by
  obtain ⟨h, rfl⟩ := h
  unfold remCase1Right
  refine wpT_bind (wpT_colored fun b => wpT_ite (fun _ => ?_) (fun _ => wpT_pure (k _ _ ⟨h, rfl⟩ hn hw)))
  refine wpT_bind (wpT_setColor h hw (.inl rfl) fun σ1 h1 k1 => ?_)
  refine wpT_bind (wpT_parent h1 hx fun px _ _ hpx => ?_)
  refine wpT_bind (wpT_rrot h1 hpx (by rw [k1]; exact hn) fun r σ2 h2 k2 hr => ?_)
  rw [k1] at hr
  refine wpT_bind (wpT_left h2 hp fun m _ _ hm => wpT_pure ?_)
  exact k _ _ ⟨h2, k2.trans k1⟩ hr hm

theorem wpT_bothBlack {Q : Bool → Store → Prop} {w : Nat} (h : Kept A E np σ0 σ) (hw : w ∈ A)
    (k : ∀ b, kind σ w = some true → Q b σ) : wpT (bothBlack w) Q σ := by
  unfold bothBlack
  refine wpT_bind (wpT_left h (.inr hw) fun m hm _ _ => wpT_bind (wpT_right h (.inr hw) fun _ _ _ _ => ?_))
  exact wpT_bind (wpT_colored fun _ => wpT_bind (wpT_colored fun _ => wpT_pure (k _ (kind_node hm))))

theorem wpT_case3Left {Q : Nat × Nat → Store → Prop} {next p w : Nat} (h : Loop A E np σ0 K σ)
    (hn : next ∈ A ∧ K next = some true) (hp : p = np ∨ p ∈ A) (hw : w ∈ A)
    (k : ∀ q σ', Loop A E np σ0 K σ' → (q.2 ∈ A ∧ K q.2 = some true) → q.1 ∈ A → Q q σ') :
    wpT (remCase3Left next p w) Q σ := by
  obtain ⟨h, rfl⟩ := h
  unfold remCase3Left
  refine wpT_bind (wpT_right h (.inr hw) fun m hm _ _ => ?_)
  refine wpT_bind (wpT_colored fun b => wpT_ite (fun _ => wpT_pure (k _ _ ⟨h, rfl⟩ hn hw)) (fun _ => ?_))
  refine wpT_bind (wpT_left h (.inr hw) fun m' _ _ hl => ?_)
  refine wpT_bind (wpT_setColor h hl (.inl rfl) fun σ1 h1 k1 => ?_)
  refine wpT_bind (wpT_setColor h1 hw (.inr (by rw [k1]; exact kind_node hm)) fun σ2 h2 k2 => ?_)
  refine wpT_bind (wpT_rrot h2 (.inr hw) (by rw [k2, k1]; exact hn) fun r σ3 h3 k3 hr => ?_)
  rw [k2, k1] at hr
  refine wpT_bind (wpT_right h3 hp fun m _ _ hm => wpT_pure ?_)
  exact k _ _ ⟨h3, k3.trans (k2.trans k1)⟩ hr hm

theorem wpT_case3Right {Q : Nat × Nat → Store → Prop} {next p w : Nat} (h : Loop A E np σ0 K σ)
    (hn : next ∈ A ∧ K next = some true) (hp : p = np ∨ p ∈ A) (hw : w ∈ A)
    (k : ∀ q σ', Loop A E np σ0 K σ' → (q.2 ∈ A ∧ K q.2 = some true) → q.1 ∈ A → Q q σ') :
    wpT (remCase3Right next p w) Q σ := by
  obtain ⟨h, rfl⟩ := h
  unfold remCase3Right
  refine wpT_bind (wpT_left h (.inr hw) fun m hm _ _ => ?_)
  refine wpT_bind (wpT_colored fun b => wpT_ite (fun _ => wpT_pure (k _ _ ⟨h, rfl⟩ hn hw)) (fun _ => ?_))
  refine wpT_bind (wpT_right h (.inr hw) fun m' _ _ hl => ?_)
  refine wpT_bind (wpT_setColor h hl (.inl rfl) fun σ1 h1 k1 => ?_)
  refine wpT_bind (wpT_setColor h1 hw (.inr (by rw [k1]; exact kind_node hm)) fun σ2 h2 k2 => ?_)
  refine wpT_bind (wpT_lrot h2 (.inr hw) (by rw [k2, k1]; exact hn) fun r σ3 h3 k3 hr => ?_)
  rw [k2, k1] at hr
  refine wpT_bind (wpT_left h3 hp fun m _ _ hm => wpT_pure ?_)
  exact k _ _ ⟨h3, k3.trans (k2.trans k1)⟩ hr hm

theorem wpT_case4Left {Q : Nat → Store → Prop} {next p w : Nat} (h : Loop A E np σ0 K σ)
    (hn : next ∈ A ∧ K next = some true) (hp : p ∈ A) (hw : w ∈ A)
    (k : ∀ x σ', Loop A E np σ0 K σ' → x ∈ A → Q x σ') : wpT (remCase4Left next p w) Q σ := by
  obtain ⟨h, rfl⟩ := h
  unfold remCase4Left
  refine wpT_bind (wpT_colored fun b => ?_)
  by_cases hk : kind σ w = some true
  · refine wpT_bind (wpT_setColor h hw (.inr hk) fun σ1 h1 k1 => ?_)
    refine wpT_bind (wpT_setColor h1 hp (.inl rfl) fun σ2 h2 k2 => ?_)
    refine wpT_bind (wpT_right h2 (.inr hw) fun m _ _ hr => ?_)
    refine wpT_bind (wpT_setColor h2 hr (.inl rfl) fun σ3 h3 k3 => ?_)
    refine wpT_lrot h3 (.inr hp) (by rw [k3, k2, k1]; exact hn) fun r σ4 h4 k4 hr => ?_
    exact k _ _ ⟨h4, k4.trans (k3.trans (k2.trans k1))⟩ hr.1
  · refine wpT_bind (wpT_steady (steady_setColor _ _) fun _ σ1 k1 => ?_)
    refine wpT_bind (wpT_steady (steady_setColor _ _) fun _ σ2 k2 => ?_)
    exact wpT_bind (wpT_right_no (by rw [k2, k1]; exact hk))

theorem wpT_case4Right {Q : Nat → Store → Prop} {next p w : Nat} (h : Loop A E np σ0 K σ)
    (hn : next ∈ A ∧ K next = some true) (hp : p ∈ A) (hw : w ∈ A)
    (k : ∀ x σ', Loop A E np σ0 K σ' → x ∈ A → Q x σ') : wpT (remCase4Right next p w) Q σ := by
  obtain ⟨h, rfl⟩ := h
  unfold remCase4Right
  refine wpT_bind (wpT_colored fun b => ?_)
  by_cases hk : kind σ w = some true
  · refine wpT_bind (wpT_setColor h hw (.inr hk) fun σ1 h1 k1 => ?_)
    refine wpT_bind (wpT_setColor h1 hp (.inl rfl) fun σ2 h2 k2 => ?_)
    refine wpT_bind (wpT_left h2 (.inr hw) fun m _ _ hr => ?_)
    refine wpT_bind (wpT_setColor h2 hr (.inl rfl) fun σ3 h3 k3 => ?_)
    refine wpT_rrot h3 (.inr hp) (by rw [k3, k2, k1]; exact hn) fun r σ4 h4 k4 hr => ?_
    exact k _ _ ⟨h4, k4.trans (k3.trans (k2.trans k1))⟩ hr.1
  · refine wpT_bind (wpT_steady (steady_setColor _ _) fun _ σ1 k1 => ?_)
    refine wpT_bind (wpT_steady (steady_setColor _ _) fun _ σ2 k2 => ?_)
    exact wpT_bind (wpT_left_no (by rw [k2, k1]; exact hk))

theorem wpT_remMore {Q : Bool → Store → Prop} {next x : Nat} (k : ∀ b, Q b σ) : wpT (remMore next x) Q σ := by
  unfold remMore
  exact wpT_ite (fun _ => wpT_pure (k _)) (fun _ => wpT_bind (wpT_colored fun _ => wpT_pure (k _)))

/-- The loop of the removal only moves the nodes of the tree around and colours them: whenever it ends, the
entries are the same, in the same order, and the answer is a node of the tree. -/
theorem wpT_remCheck {n next p x : Nat} (h : Loop A E np σ0 K σ) (hn : next ∈ A ∧ K next = some true)
    (hp : p = np ∨ p ∈ A) (hx : x = np ∨ x ∈ A) :
    wpT (remCheck n next p x) (fun r σ' => Loop A E np σ0 K σ' ∧ r ∈ A ∧ K r = some true) σ := by
  induction n generalizing σ next p x with
  | zero => intro r σ' e; cases e
  | succ n ih =>
    unfold remCheck
    refine wpT_bind (wpT_remMore fun b => wpT_ite (fun _ => ?_) (fun _ => wpT_pure ⟨h, hn⟩))
    refine wpT_bind (wpT_left h.kept hp fun m _ hpA hl => wpT_ite (fun _ => ?_) (fun _ => ?_))
    · refine wpT_bind (wpT_right h.kept hp fun m' _ _ hr => ?_)
      refine wpT_bind (wpT_case1Left h hn hp hr fun q σ1 h1 hn1 hq => ?_)
      refine wpT_bind (wpT_bothBlack h1.kept hq fun b hk => wpT_ite (fun _ => ?_) (fun _ => ?_))
      · refine wpT_bind (wpT_setColor h1.kept hq (.inr hk) fun σ2 h2 k2 => ?_)
        refine wpT_bind (wpT_parent h2 hp fun pp _ _ hpp => ?_)
        exact ih ⟨h2, k2.trans h1.kind⟩ hn1 hpp (.inr hpA)
      · refine wpT_bind (wpT_case3Left h1 hn1 hp hq fun q3 σ3 h3 hn3 hq3 => ?_)
        refine wpT_bind (wpT_case4Left h3 hn3 hpA hq3 fun x4 σ4 h4 hx4 => ?_)
        exact ih h4 hn3 hp (.inr hx4)
    · refine wpT_bind (wpT_case1Right h hn hp hl hx fun q σ1 h1 hn1 hq => ?_)
      refine wpT_bind (wpT_bothBlack h1.kept hq fun b hk => wpT_ite (fun _ => ?_) (fun _ => ?_))
      · refine wpT_bind (wpT_setColor h1.kept hq (.inr hk) fun σ2 h2 k2 => ?_)
        refine wpT_bind (wpT_parent h2 hp fun pp _ _ hpp => ?_)
        exact ih ⟨h2, k2.trans h1.kind⟩ hn1 hpp (.inr hpA)
      · refine wpT_bind (wpT_case3Right h1 hn1 hp hq fun q3 σ3 h3 hn3 hq3 => ?_)
        refine wpT_bind (wpT_case4Right h3 hn3 hpA hq3 fun x4 σ4 h4 hx4 => ?_)
        exact ih h4 hn3 hp (.inr hx4)

/-! ## The whole removal -/

/-- A change elsewhere. -/
theorem Valid.frame {σ' : Store} {rt : Nat} {t : T} (h : Valid σ rt np t) (hc : ∀ b ∈ np :: t.addrs, σ'.cells b = σ.cells b)
    (hd : ∀ e ∈ t.entries, σ'.data e.1 = σ.data e.1) (hn : σ'.next = σ.next) (h1 : ∀ b, σ.cells b = none → σ'.cells b = none)
    (h2 : ∀ b, σ.data b = none → σ'.data b = none) : Valid σ' rt np t := by
  refine ⟨h.root, h.rep.frame (fun a ha => hc a (by simp [ha])) hd, h.nodup, h.data, ?_, ?_⟩
  · rw [hc np (by simp)]; exact h.nil
  · intro p hp
    rw [hn] at hp
    exact ⟨h1 p (h.fresh p hp).1, h2 p (h.fresh p hp).2⟩

theorem plug_addr_congr (fs : List Frame) {u u' : T} (h : u.addr = u'.addr) : (plug fs u).addr = (plug fs u').addr := by
  induction fs generalizing u u' with
  | nil => exact h
  | cons g gs ih => exact ih (by rw [plug_addr, plug_addr])

/-- A node of the tree gets another pair. -/
theorem exchange_spec {root a d y dy : Nat} {fs : List Frame} {l r : T} {k ky : Sym} {v vy : Val} {c : Bool} {ny : Node}
    (h : Valid σ root np (plug fs (.node a l d k v c r))) (hy : σ.cells y = some (.node ny)) (hdy : ny.data = dy)
    (hdat : σ.data dy = some (ky, vy)) (hno : y ∉ (plug fs (.node a l d k v c r)).addrs)
    (hnd : dy ∉ (plug fs (.node a l d k v c r)).entries.map (·.1)) :
    ∃ σ', exchange a y σ = .ok ((), σ') ∧ σ'.data = σ.data ∧ σ'.next = σ.next ∧
      σ'.cells y = some (.node { ny with data := d }) ∧ (∀ b, b ≠ a → b ≠ y → σ'.cells b = σ.cells b) ∧
      Valid σ' root np (plug fs (.node a l dy ky vy c r)) := by
  obtain ⟨hroot, hrep, hnod, hdata, ⟨cn, hnil⟩, hfresh⟩ := h
  obtain ⟨hC, ha, hda, hl, hr⟩ := (rep_plug ..).1 hrep
  have hperm := plug_addrs_perm fs (.node a l d k v c r)
  have hperm' := plug_addrs_perm fs (.node a l dy ky vy c r)
  have hnod' := (hperm.cons np).nodup hnod
  have hyn : y ∉ (T.node a l d k v c r).addrs ++ addrsC fs := fun e => hno (hperm.mem_iff.2 e)
  have hya : y ≠ a := by rintro rfl; exact hyn (by simp [T.addrs])
  have hnpa : np ≠ a := by
    rintro rfl
    simp [T.addrs] at hnod'
  have hnpy : np ≠ y := by rintro rfl; rw [hy] at hnil; cases hnil
  let σ1 := σ.setCell a (some (.node ⟨dy, l.addr, r.addr, parOf fs np, c⟩))
  have hy1 : σ1.cells y = some (.node ny) := by rw [show σ1.cells y = σ.cells y from setCell_other _ _ hya]; exact hy
  let σ2 := σ1.setCell y (some (.node { ny with data := d }))
  have oth : ∀ b, b ≠ a → b ≠ y → σ2.cells b = σ.cells b := by
    intro b h1 h2
    rw [show σ2.cells b = σ1.cells b from setCell_other _ _ h2]
    exact setCell_other _ _ h1
  have hne : ∀ b, b ∈ l.addrs ++ (r.addrs ++ addrsC fs) → b ≠ a ∧ b ≠ y := by
    intro b hb
    refine ⟨?_, ?_⟩
    · rintro rfl
      simp only [T.addrs, List.cons_append, List.append_assoc, List.nodup_cons] at hnod'
      exact hnod'.2.1 hb
    · rintro rfl
      exact hyn (by simp only [T.addrs, List.cons_append, List.append_assoc, List.mem_cons]; exact .inr hb)
  refine ⟨σ2, ?_, rfl, rfl, setCell_same _ _ _, oth, ?_⟩
  · unfold exchange
    rw [if_neg hya, TM.bind_apply, node_ok ha, Res.ok_bind, TM.bind_apply, node_ok hy, Res.ok_bind, TM.bind_apply]
    have e1 : update a (fun m => { m with data := ny.data }) σ = .ok ((), σ1) := by
      unfold update; rw [ha, hdy]
    have e2 : update y (fun m => { m with data := d }) σ1 = .ok ((), σ2) := by
      unfold update; rw [hy1]
    rw [e1, Res.ok_bind]; exact e2
  · refine ⟨(plug_addr_congr fs (u := .node a l dy ky vy c r) (u' := .node a l d k v c r) rfl).trans hroot, (rep_plug ..).2 ⟨?_, ?_, ?_, ?_, ?_⟩, ?_, ?_, ⟨cn, ?_⟩, ?_⟩
    · exact RepC.frame hC (fun b hb => oth b (hne b (by simp [hb])).1 (hne b (by simp [hb])).2) (fun _ _ => rfl)
    · rw [show σ2.cells a = σ1.cells a from setCell_other _ _ hya.symm]; exact setCell_same _ _ _
    · exact hdat
    · exact hl.frame (fun b hb => oth b (hne b (by simp [hb])).1 (hne b (by simp [hb])).2) (fun _ _ => rfl)
    · exact hr.frame (fun b hb => oth b (hne b (by simp [hb])).1 (hne b (by simp [hb])).2) (fun _ _ => rfl)
    · exact (hperm'.symm.cons np).nodup hnod'
    · rw [plug_split] at hdata hnd ⊢
      simp only [T.entries, List.map_append, List.map_cons, List.append_assoc, List.cons_append] at hdata hnd ⊢
      rw [← List.append_assoc] at hdata hnd ⊢
      rw [List.perm_middle.nodup_iff] at hdata ⊢
      rw [List.perm_middle.mem_iff] at hnd
      exact List.nodup_cons.2 ⟨fun e => hnd (List.mem_cons_of_mem _ e), (List.nodup_cons.1 hdata).2⟩
    · rw [oth np hnpa hnpy]; exact hnil
    · intro p hp
      have h1 : p ≠ a := by rintro rfl; rw [(hfresh p hp).1] at ha; cases ha
      have h2 : p ≠ y := by rintro rfl; rw [(hfresh p hp).1] at hy; cases hy
      exact ⟨by rw [oth p h1 h2]; exact (hfresh p hp).1, (hfresh p hp).2⟩

/-- Releasing the node. -/
theorem release_spec {y x : Nat} {ny : Node} (hy : σ.cells y = some (.node ny))
    (hl : ny.left ≠ x → ∃ c, σ.cells ny.left = some c) (hr : ny.right ≠ x → ∃ c, σ.cells ny.right = some c)
    (hne : ny.left ≠ ny.right) (hly : ny.left ≠ y) (hry : ny.right ≠ y) (hd : ∃ kv, σ.data ny.data = some kv) :
    ∃ σ', release y x σ = .ok ((), σ') ∧ σ'.next = σ.next ∧
      (∀ b, b ≠ y → (b = ny.left → b = x) → (b = ny.right → b = x) → σ'.cells b = σ.cells b) ∧
      (∀ b, σ.cells b = none → σ'.cells b = none) ∧ (∀ b, b ≠ ny.data → σ'.data b = σ.data b) ∧
      ∀ b, σ.data b = none → σ'.data b = none := by
  have step : ∀ (σ : Store) (p : Nat), (p ≠ x → ∃ c, σ.cells p = some c) →
      ∃ σ', freeUnless p x σ = .ok ((), σ') ∧ σ'.next = σ.next ∧ σ'.data = σ.data ∧
        (∀ b, (b = p → b = x) → σ'.cells b = σ.cells b) ∧ ∀ b, σ.cells b = none → σ'.cells b = none := by
    intro σ p hp
    unfold freeUnless
    split
    · exact ⟨σ, rfl, rfl, rfl, fun _ _ => rfl, fun _ h => h⟩
    · rename_i hpx
      obtain ⟨c, hc⟩ := hp hpx
      refine ⟨σ.setCell p none, by unfold free; rw [hc], rfl, rfl, ?_, ?_⟩
      · intro b hb
        exact setCell_other _ _ (fun e => hpx (by rw [← e]; exact hb e))
      · intro b hb
        by_cases e : b = p
        · rw [e]; exact setCell_same _ _ _
        · rw [setCell_other _ _ e]; exact hb
  obtain ⟨σ1, e1, n1, d1, c1, z1⟩ := step σ ny.left hl
  obtain ⟨σ2, e2, n2, d2, c2, z2⟩ := step σ1 ny.right (fun h => by
    rw [c1 _ (fun e => absurd e.symm hne)]; exact hr h)
  have hy2 : σ2.cells y = some (.node ny) := by
    rw [c2 y (fun e => absurd e.symm hry), c1 y (fun e => absurd e.symm hly)]; exact hy
  obtain ⟨kv, hkv⟩ := hd
  refine ⟨(σ2.setCell y none).setData ny.data none, ?_, n2.trans n1, ?_, ?_, ?_, ?_⟩
  · unfold release
    rw [TM.bind_apply, node_ok hy, Res.ok_bind, TM.bind_apply, e1, Res.ok_bind, TM.bind_apply, e2, Res.ok_bind, TM.bind_apply]
    unfold free freeData
    simp only [hy2, Res.ok_bind, setCell_data, d2, d1, hkv]
  · intro b h1 h2 h3
    rw [setData_cells, setCell_other _ _ h1, c2 b h3, c1 b h2]
  · intro b hb
    rw [setData_cells]
    by_cases e : b = y
    · rw [e]; exact setCell_same _ _ _
    · rw [setCell_other _ _ e]; exact z2 b (z1 b hb)
  · intro b hb
    simp [Store.setData, hb, d2, d1]
  · intro b hb
    simp only [Store.setData, setCell_data, d2, d1]
    split <;> simp_all

/-- The node that is taken out for the node `t`: `t` itself, or the leftmost node of its right subtree if it has two
children. -/
def T.victim : T → T
  | .leaf a => .leaf a
  | .node a l d k v c r => if l.isNode && r.isNode then (minPath r).2 else .node a l d k v c r

/-- The subtree that takes the place of the node taken out. -/
def T.heir : T → T
  | .leaf a => .leaf a
  | .node _ l _ _ _ _ r => if l.isNode then l else r

theorem heir_node {a d : Nat} {l r : T} {k : Sym} {v : Val} {c : Bool} :
    (T.node a l d k v c r).heir = if l.isNode then l else r := rfl

/-- The first half of the removal. -/
def takeOut (n root nd : Nat) : TM (Nat × Nat × Nat × Nat) := do
  let y ← remTarget n nd
  let x ← onlyChild y
  let p ← parent y
  adopt x p
  let q ← unlink root p x y
  exchange nd y
  pure (y, p, q.1, q.2)

/-- What is known after a node has been unlinked. -/
theorem cut_spec {root y d : Nat} {gs : List Frame} {l r : T} {k : Sym} {v : Val} {c : Bool}
    (h : Valid σ root np (plug gs (.node y l d k v c r))) {x : T} (hx : x = l ∨ x = r) :
    ∃ q σ1, (adopt x.addr (parOf gs np) >>= fun _ => unlink root (parOf gs np) x.addr y) σ = .ok (q, σ1) ∧
      σ1.data = σ.data ∧ σ1.next = σ.next ∧ σ1.cells y = some (.node ⟨d, l.addr, r.addr, parOf gs np, c⟩) ∧
      l.addr ≠ r.addr ∧ l.addr ≠ y ∧ r.addr ≠ y ∧ (∃ c, σ1.cells l.addr = some c) ∧ (∃ c, σ1.cells r.addr = some c) ∧
      np ≠ y ∧ np ≠ l.addr ∧ np ≠ r.addr ∧ (∀ b, σ.cells b = none → σ1.cells b = none) ∧
      ((gs = [] ∧ x.isNode = false ∧ q = (np, np) ∧ σ1 = σ) ∨
        (q = ((plug gs x).addr, x.addr) ∧ (plug gs x).isNode = true ∧ Valid σ1 (plug gs x).addr np (plug gs x) ∧
          y ∉ (plug gs x).addrs ∧ (l.addr ≠ x.addr → l.addr ∉ (plug gs x).addrs) ∧
          (r.addr ≠ x.addr → r.addr ∉ (plug gs x).addrs) ∧ d ∉ (plug gs x).entries.map (·.1))) := by
  obtain ⟨q, σ1, e, hd, hn, hc, hq⟩ := unlink_spec h hx
  obtain ⟨hC, hy, hdy, hl, hr⟩ := (rep_plug ..).1 h.rep
  have hnd := ((plug_addrs_perm gs (.node y l d k v c r)).cons np).nodup h.nodup
  simp only [T.addrs, List.cons_append, List.nodup_cons, List.mem_cons, List.mem_append, not_or, List.nodup_append,
    List.append_assoc] at hnd
  obtain ⟨⟨n1, n2, n3, n4⟩, ⟨y1, y2, y3⟩, _, ⟨_, _, rC⟩, lrC⟩ := hnd
  have hdd : d ∉ (plug gs x).entries.map (·.1) := by
    have := h.data
    rw [plug_split] at this ⊢
    simp only [T.entries, List.append_assoc, List.cons_append, List.map_append, List.map_cons] at this ⊢
    rw [← List.append_assoc, List.perm_middle.nodup_iff, List.nodup_cons] at this
    intro hh
    refine this.1 ?_
    simp only [List.mem_append] at hh ⊢
    rcases hx with rfl | rfl <;> grind
  have hin : ∀ b, b ∈ (plug gs x).addrs → b ∈ x.addrs ∨ b ∈ addrsC gs := fun b hb =>
    List.mem_append.1 ((plug_addrs_perm gs x).mem_iff.1 hb)
  have yx : y ∉ (plug gs x).addrs := by
    intro hh
    rcases hin y hh with hh | hh
    · rcases hx with rfl | rfl
      · exact y1 hh
      · exact y2 hh
    · exact y3 hh
  have ll : l.addr ≠ x.addr → l.addr ∉ (plug gs x).addrs := by
    intro hne hh
    rcases hin _ hh with hh | hh
    · rcases hx with rfl | rfl
      · exact hne rfl
      · exact lrC _ l.addr_mem _ (.inl hh) rfl
    · exact lrC _ l.addr_mem _ (.inr hh) rfl
  have rr : r.addr ≠ x.addr → r.addr ∉ (plug gs x).addrs := by
    intro hne hh
    rcases hin _ hh with hh | hh
    · rcases hx with rfl | rfl
      · exact lrC _ hh _ (.inl r.addr_mem) rfl
      · exact hne rfl
    · exact rC _ r.addr_mem _ hh rfl
  have hsome : ∀ b, (∃ c, σ.cells b = some c) → ∃ c, σ1.cells b = some c := by
    intro b hb
    by_cases hh : b ∈ (plug gs x).addrs
    · rcases hq with ⟨_, _, _, rfl⟩ | ⟨_, _, hv⟩
      · exact hb
      · exact hv.rep.some _ hh
    · rw [hc b hh]; exact hb
  refine ⟨q, σ1, e, hd, hn, ?_, ?_, ?_, ?_, hsome _ hl.root_some, hsome _ hr.root_some, n1, ?_, ?_, ?_, ?_⟩
  · rw [hc y yx]; exact hy
  · exact fun e => lrC _ l.addr_mem _ (.inl (by rw [e]; exact r.addr_mem)) rfl
  · exact fun e => y1 (by rw [← e]; exact l.addr_mem)
  · exact fun e => y2 (by rw [← e]; exact r.addr_mem)
  · exact fun e => n2 (by rw [e]; exact l.addr_mem)
  · exact fun e => n3 (by rw [e]; exact r.addr_mem)
  · intro b hb
    rw [hc b]
    · exact hb
    · intro hh
      rcases hin b hh with hh | hh
      · have : Rep σ x y := by rcases hx with rfl | rfl <;> assumption
        obtain ⟨c, hc⟩ := this.some _ hh
        rw [hc] at hb; cases hb
      · obtain ⟨c, hc⟩ := h.rep.some _ ((plug_addrs_perm gs _).mem_iff.2 (List.mem_append.2 (.inr hh)))
        rw [hc] at hb; cases hb
  · rcases hq with hq | ⟨h1, h2, h3⟩
    · exact .inl hq
    · refine .inr ⟨h2, ?_, h3, yx, ll, rr, hdd⟩
      cases gs with
      | nil => rcases h1 with h1 | h1
               · exact absurd rfl h1
               · exact h1
      | cons f fs => exact plug_isNode_cons f fs x

/-- Without a red node the tree stays balanced. -/
theorem cut_RB {y d H : Nat} {gs : List Frame} {l r : T} {k : Sym} {v : Val} (h : RB (plug gs (.node y l d k v true r)) H)
    {x : T} (hx : x = l ∨ x = r) : ∃ H', RB (plug gs x) H' := by
  obtain ⟨h', h1, ⟨⟨h2, h3, h4⟩, h0, h5, h6, h7⟩, _⟩ := RB_plug h
  subst h7
  rcases hx with rfl | rfl
  · exact plug_RB h1 ⟨h3, h5⟩ (fun _ => (h2 rfl).1)
  · exact plug_RB h1 ⟨h4, h6⟩ (fun _ => (h2 rfl).2)

/-- The pairs do not matter for the balance. -/
theorem swap_RB {a d d' H : Nat} {fs : List Frame} {l r : T} {k k' : Sym} {v v' : Val} {c : Bool}
    (h : RB (plug fs (.node a l d k v c r)) H) : ∃ H', RB (plug fs (.node a l d' k' v' c r)) H' := by
  obtain ⟨h', h1, h2, h3⟩ := RB_plug h
  exact plug_RB (t := .node a l d' k' v' c r) h1 h2 h3

/-- The first half of the removal: the node is out of the tree, whose other entries are all there. -/
theorem takeOut_spec {root a d n : Nat} {fs : List Frame} {l r : T} {k : Sym} {v : Val} {c : Bool}
    (h : Valid σ root np (plug fs (.node a l d k v c r))) (hn : (T.node a l d k v c r).height < n) :
    ∃ y p q x σ1 ny, takeOut n root a σ = .ok ((y, p, q, x), σ1) ∧ σ1.data = σ.data ∧ σ1.next = σ.next ∧
      σ1.cells y = some (.node ny) ∧ ny.data = d ∧ ny.red = (T.node a l d k v c r).victim.isRed ∧
      ny.left ≠ ny.right ∧ ny.left ≠ y ∧ ny.right ≠ y ∧ (∃ c, σ1.cells ny.left = some c) ∧ (∃ c, σ1.cells ny.right = some c) ∧
      np ≠ y ∧ np ≠ ny.left ∧ np ≠ ny.right ∧ (∀ b, σ.cells b = none → σ1.cells b = none) ∧
      ((fs = [] ∧ l.isNode = false ∧ r.isNode = false ∧ p = np ∧ q = np ∧ x = np ∧ σ1 = σ) ∨
        ∃ t1 par, t1.isNode = true ∧ Valid σ1 q np t1 ∧ t1.entries = beforeC fs ++ ((l.entries ++ r.entries) ++ afterC fs) ∧
          x ∈ t1.addrs ∧ (p = np ∨ p ∈ t1.addrs) ∧ y ∉ t1.addrs ∧ (ny.left ≠ x → ny.left ∉ t1.addrs) ∧
          (ny.right ≠ x → ny.right ∉ t1.addrs) ∧ d ∉ t1.entries.map (·.1) ∧
          ((fs ≠ [] ∨ (l.isNode = true ∧ r.isNode = true)) → t1.isRed = (plug fs (.node a l d k v c r)).isRed) ∧
          x = (T.node a l d k v c r).victim.heir.addr ∧ Rep σ1 (T.node a l d k v c r).victim.heir par ∧
          ∀ H, RB (plug fs (.node a l d k v c r)) H → (T.node a l d k v c r).victim.isRed = true → ∃ H', RB t1 H') := by
  obtain ⟨hC, ha, hda, hl, hr⟩ := (rep_plug ..).1 h.rep
  have ha' : σ.cells a = some (.node ⟨d, l.addr, r.addr, parOf fs np, c⟩) := ha
  have el : isNull l.addr σ = .ok (!l.isNode, σ) := isNull_rep hl
  have er : isNull r.addr σ = .ok (!r.isNode, σ) := isNull_rep hr
  by_cases hboth : l.isNode = true ∧ r.isNode = true
  · obtain ⟨hl1, hr1⟩ := hboth
    obtain ⟨y, b, dy, ky, vy, cy, ry, hm⟩ := minPath_node r hr1
    have hpl := minPath_plug r
    have hleft := minPath_left r
    have hmin := minimum_spec r hr (n := n) (by simp only [T.height] at hn; omega)
    have hv : (T.node a l d k v c r).victim = .node y (.leaf b) dy ky vy cy ry := by
      show (if (l.isNode && r.isNode) = true then (minPath r).2 else _) = _
      rw [hl1, hr1, hm]; rfl
    rw [hm] at hpl hmin
    generalize (minPath r).1 = gs at hpl hleft
    have hpg : ∀ (dd : Nat) (kk : Sym) (vv : Val) (u : T), plug (gs ++ ⟨false, a, dd, kk, vv, c, l⟩ :: fs) u =
        plug fs (.node a l dd kk vv c (plug gs u)) := by
      intro dd kk vv u; rw [plug_append]; rfl
    have h' : Valid σ root np (plug (gs ++ ⟨false, a, d, k, v, c, l⟩ :: fs) (.node y (.leaf b) dy ky vy cy ry)) := by
      rw [hpg, hpl]; exact h
    obtain ⟨q, σ1, e, hd, hn1, hy, h1, h2, h3, h4, h5, h6, h7, h8, hz, hq⟩ := cut_spec h' (.inr rfl)
    have hyσ := ((rep_plug ..).1 h'.rep).2
    rcases hq with ⟨g1, _⟩ | ⟨rfl, g2, g3, g4, g5, g6, g7⟩
    · simp at g1
    have hmemp : parOf (gs ++ ⟨false, a, d, k, v, c, l⟩ :: fs) np ∈
        (plug (gs ++ ⟨false, a, d, k, v, c, l⟩ :: fs) ry).addrs := by
      refine (plug_addrs_perm _ _).mem_iff.2 (List.mem_append.2 (.inr ?_))
      cases gs with
      | nil => simp [parOf, addrsC]
      | cons g gs => simp [parOf, addrsC]
    generalize hpp : parOf (gs ++ ⟨false, a, d, k, v, c, l⟩ :: fs) np = pp at *
    rw [hpg] at g2 g3 g4 g5 g6 g7 hmemp e
    obtain ⟨σ2, x1, x2, x3, x4, x5, x6⟩ := exchange_spec g3 hy rfl (by rw [hd]; exact hyσ.2.1) g4 g7
    have haddr : ∀ b, b ∈ (plug fs (.node a l dy ky vy c (plug gs ry))).addrs ↔
        b ∈ (plug fs (.node a l d k v c (plug gs ry))).addrs := by
      intro b
      rw [(plug_addrs_perm _ _).mem_iff, (plug_addrs_perm _ _).mem_iff]
      simp [T.addrs]
    have ha2 : a ∈ (plug fs (.node a l dy ky vy c (plug gs ry))).addrs :=
      (plug_addrs_perm _ _).mem_iff.2 (by simp [T.addrs])
    have hsome : ∀ b, (∃ c, σ1.cells b = some c) → ∃ c, σ2.cells b = some c := by
      intro b hb
      by_cases e1 : b = a
      · rw [e1]; exact x6.rep.some _ ha2
      · by_cases e2 : b = y
        · rw [e2, x4]; exact ⟨_, rfl⟩
        · rw [x5 b e1 e2]; exact hb
    have hre : r.entries = (dy, ky, vy) :: (plug gs ry).entries := by
      rw [← hpl]; exact min_entries hleft
    have hent : (plug fs (.node a l dy ky vy c (plug gs ry))).entries = beforeC fs ++ ((l.entries ++ r.entries) ++ afterC fs) := by
      rw [plug_split, hre]; rfl
    have ha1 := ((rep_plug ..).1 h.rep).2
    refine ⟨y, pp, _, ry.addr, σ2, _, ?_, x2.trans hd, x3.trans hn1, x4, rfl, by rw [hv]; rfl, h1, h2, h3, hsome _ h4, hsome _ h5,
      h6, h7, h8, ?_, .inr ⟨plug fs (.node a l dy ky vy c (plug gs ry)),
        parOf (gs ++ ⟨false, a, dy, ky, vy, c, l⟩ :: fs) np, plug_isNode rfl, x6, hent, ?_, .inr ((haddr _).2 hmemp), ?_, ?_, ?_, ?_,
        fun _ => plug_isRed_congr rfl, ?_, ?_, ?_⟩⟩
    · unfold takeOut
      have s1 : remTarget n a σ = .ok (y, σ) := by
        unfold remTarget
        rw [TM.bind_apply, left_ok ha', Res.ok_bind, TM.bind_apply, right_ok ha', Res.ok_bind, TM.bind_apply, el, Res.ok_bind,
          TM.bind_apply, er, Res.ok_bind]
        rw [if_neg (by simp [hl1, hr1])]
        unfold successor
        rw [TM.bind_apply, isNull_node ha', Res.ok_bind, if_neg (by simp), TM.bind_apply, right_ok ha', Res.ok_bind, TM.bind_apply, er,
          Res.ok_bind, if_neg (by simp [hr1])]
        exact hmin
      have s2 : onlyChild y σ = .ok (ry.addr, σ) := by
        unfold onlyChild
        rw [TM.bind_apply, left_ok hyσ.1, Res.ok_bind, TM.bind_apply, isNull_rep hyσ.2.2.1, Res.ok_bind]
        exact right_ok hyσ.1
      have s3 : parent y σ = .ok (pp, σ) := parent_ok hyσ.1
      rw [TM.bind_apply, s1, Res.ok_bind, TM.bind_apply, s2, Res.ok_bind, TM.bind_apply, s3, Res.ok_bind]
      rw [TM.bind_apply] at e
      rw [TM.bind_apply]
      cases hh : adopt ry.addr pp σ with
      | ok p =>
        rw [hh, Res.ok_bind] at e
        rw [Res.ok_bind, TM.bind_apply, e, Res.ok_bind, TM.bind_apply, x1]; rfl
      | ub u => rw [hh] at e; cases e
      | abort => rw [hh] at e; cases e
      | oof => rw [hh] at e; cases e
      | unsupported => rw [hh] at e; cases e
    · intro b hb
      have e1 : b ≠ a := by rintro rfl; rw [hb] at ha'; cases ha'
      have e2 : b ≠ y := by rintro rfl; have := hz b hb; rw [hy] at this; cases this
      rw [x5 b e1 e2]; exact hz b hb
    · rw [haddr, ← hpg]
      exact (plug_addrs_perm _ _).mem_iff.2 (by simp [ry.addr_mem])
    · rw [haddr]; exact g4
    · rw [haddr]; exact g5
    · rw [haddr]; exact g6
    · rw [hent]
      have := h.data
      rw [plug_split] at this
      simp only [T.entries, List.append_assoc, List.cons_append, List.map_append, List.map_cons] at this ⊢
      rw [← List.append_assoc, List.perm_middle.nodup_iff, List.nodup_cons] at this
      simpa using this.1
    · rw [hv]; rfl
    · rw [hv]
      have := x6.rep
      rw [← hpg] at this
      exact ((rep_plug ..).1 this).2
    · intro H hH hred
      rw [hv] at hred
      rw [show cy = true from hred] at hpl
      rw [← hpl, ← hpg] at hH
      obtain ⟨H1, hH1⟩ := cut_RB hH (.inr rfl)
      rw [hpg] at hH1
      exact swap_RB hH1
  · have hv : (T.node a l d k v c r).victim = .node a l d k v c r := by
      show (if (l.isNode && r.isNode) = true then _ else _) = _
      rw [if_neg (by simpa using hboth)]
    have hx : (T.node a l d k v c r).heir = l ∨ (T.node a l d k v c r).heir = r := by
      rw [heir_node]; split <;> simp
    generalize hxe : (T.node a l d k v c r).heir = x at hx
    obtain ⟨q, σ1, e, hd, hn1, hy, h1, h2, h3, h4, h5, h6, h7, h8, hz, hq⟩ := cut_spec h hx
    refine ⟨a, parOf fs np, q.1, q.2, σ1, _, ?_, hd, hn1, hy, rfl, by rw [hv]; rfl, h1, h2, h3, h4, h5, h6, h7, h8, hz, ?_⟩
    · unfold takeOut
      have s1 : remTarget n a σ = .ok (a, σ) := by
        unfold remTarget
        rw [TM.bind_apply, left_ok ha', Res.ok_bind, TM.bind_apply, right_ok ha', Res.ok_bind, TM.bind_apply, el, Res.ok_bind,
          TM.bind_apply, er, Res.ok_bind]
        rw [if_pos (by simp only [not_and, Bool.not_eq_true] at hboth; cases hh : l.isNode <;> simp_all)]; rfl
      have s2 : onlyChild a σ = .ok (x.addr, σ) := by
        unfold onlyChild
        rw [TM.bind_apply, left_ok ha', Res.ok_bind, TM.bind_apply, el, Res.ok_bind]
        rw [← hxe, heir_node]
        cases hh : l.isNode
        · exact right_ok ha'
        · rfl
      have s3 : parent a σ = .ok (parOf fs np, σ) := parent_ok ha'
      rw [TM.bind_apply, s1, Res.ok_bind, TM.bind_apply, s2, Res.ok_bind, TM.bind_apply, s3, Res.ok_bind]
      rw [TM.bind_apply] at e
      rw [TM.bind_apply]
      cases hh : adopt x.addr (parOf fs np) σ with
      | ok p =>
        rw [hh, Res.ok_bind] at e
        rw [Res.ok_bind, TM.bind_apply, e, Res.ok_bind, TM.bind_apply]
        unfold exchange
        rw [if_pos rfl]; rfl
      | ub u => rw [hh] at e; cases e
      | abort => rw [hh] at e; cases e
      | oof => rw [hh] at e; cases e
      | unsupported => rw [hh] at e; cases e
    · rcases hq with ⟨rfl, g2, rfl, rfl⟩ | ⟨rfl, g2, g3, g4, g5, g6, g7⟩
      · have : l.isNode = false ∧ r.isNode = false := by
          subst hxe
          rw [heir_node] at g2
          split at g2
          · rename_i hh; rw [hh] at g2; cases g2
          · rename_i hh; exact ⟨by simpa using hh, g2⟩
        exact .inl ⟨rfl, this.1, this.2, rfl, rfl, rfl, rfl⟩
      · have hrx := ((rep_plug ..).1 g3.rep).2
        have hlr : x.entries = l.entries ++ r.entries := by
          have hle : ∀ t : T, t.isNode = false → t.entries = [] := by
            intro t ht; cases t with
            | leaf => rfl
            | node => cases ht
          rw [← hxe, heir_node]
          cases hh : l.isNode
          · simp [hle l hh]
          · have : r.isNode = false := by simpa [hh] using hboth
            simp [hle r this]
        refine .inr ⟨plug fs x, parOf fs np, g2, g3, ?_, ?_, ?_, g4, g5, g6, g7, ?_, by rw [hv, hxe], by rw [hv, hxe]; exact hrx, ?_⟩
        · rw [plug_split, hlr]
        · exact (plug_addrs_perm fs x).mem_iff.2 (by simp [x.addr_mem])
        · cases fs with
          | nil => exact .inl rfl
          | cons f fs => exact .inr ((plug_addrs_perm _ x).mem_iff.2 (by simp [parOf, addrsC]))
        · intro hh
          rcases hh with hh | hh
          · cases fs with
            | nil => exact absurd rfl hh
            | cons f fs =>
              refine plug_isRed_congr (fs := fs) ?_
              rw [Frame.plug_isRed, Frame.plug_isRed]
          · exact absurd hh hboth
        · intro H hH hred
          rw [hv] at hred
          rw [show c = true from hred] at hH
          exact cut_RB hH hx

theorem tm_assoc {α β γ : Type} (m : TM α) (f : α → TM β) (g : β → TM γ) : (m >>= f) >>= g = m >>= fun x => f x >>= g := by
  funext σ
  rw [TM.bind_apply, TM.bind_apply, TM.bind_apply]
  cases m σ <;> rfl

theorem tm_pure {α β : Type} (a : α) (f : α → TM β) : (pure a : TM α) >>= f = f a := rfl

/-- The removal in two halves. -/
theorem treeRem_eq {n root nd : Nat} {k : Sym} (h : getWalk k n root σ = .ok (some nd, σ)) :
    treeRem n root k σ = (takeOut n root nd >>= fun z => do
      if ← colored z.1 then do
        release z.1 z.2.2.2
        pure z.2.2.1
      else do
        let next ← remCheck n z.2.2.1 z.2.1 z.2.2.2
        release z.1 z.2.2.2
        pure next) σ := by
  unfold treeRem takeOut
  rw [TM.bind_apply, h, Res.ok_bind]
  simp only [tm_assoc, tm_pure]

/-- The entries without a key. -/
def without (k : Sym) (es : List (Nat × Sym × Val)) : List (Nat × Sym × Val) := es.filter fun e => e.2.1 ≠ k

theorem without_none {k : Sym} {es : List (Nat × Sym × Val)} (h : ∀ e ∈ es, e.2.1 ≠ k) : without k es = es := by
  unfold without
  exact List.filter_eq_self.2 (fun e he => by simpa using h e he)

/-- One entry has the key. -/
theorem without_split {k : Sym} {d : Nat} {v : Val} {xs ys : List (Nat × Sym × Val)}
    (h : (xs ++ (d, k, v) :: ys).Pairwise fun e e' => symCompare e.2.1 e'.2.1 = .lt) :
    without k (xs ++ (d, k, v) :: ys) = xs ++ ys := by
  obtain ⟨_, h2, h3⟩ := List.pairwise_append.1 h
  obtain ⟨h4, _⟩ := List.pairwise_cons.1 h2
  have e1 : without k xs = xs := without_none fun e he => ne_of_lt (h3 e he (d, k, v) (by simp))
  have e2 : without k ys = ys := without_none fun e he => (ne_of_lt (h4 e he)).symm
  unfold without at e1 e2 ⊢
  rw [List.filter_append, List.filter_cons, e1, e2]
  simp

/-- What searching finds after a removal. -/
theorem find_without (k k' : Sym) (es : List (Nat × Sym × Val)) :
    find k' (without k es) = if k' = k then none else find k' es := by
  unfold find without
  rw [List.find?_filter]
  split
  · rename_i e; subst e
    refine List.find?_eq_none.2 (fun e _ => by simp)
  · rename_i e
    refine congrArg (fun f => List.find? f es) ?_
    funext e'
    by_cases h : e'.2.1 = k' <;> simp [h, e]

end Tree

end Mnml
