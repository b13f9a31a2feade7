import Verif.TreeRot

/-!
# The rebalancing of an insertion

`fixUp` is what `tree_add_check` computes, as a function on trees; `addCheck_spec` proves that the pointer
program computes it.
-/

namespace Mnml

namespace Tree

/-- Left rotation of the root, if it has a right child. -/
def T.lrot : T → T
  | .node x l d k v c (.node y m d' k' v' c' r) => .node y (.node x l d k v c m) d' k' v' c' r
  | t => t

/-- Right rotation of the root, if it has a left child. -/
def T.rrot : T → T
  | .node x (.node y r d' k' v' c' m) d k v c l => .node y r d' k' v' c' (.node x m d k v c l)
  | t => t

/-- Change of the colour of the root. NIL cells in a tree stay black. -/
def T.withRed (b : Bool) : T → T
  | .leaf a => .leaf a
  | .node a l d k v _ r => .node a l d k v b r

/-- Change of the colour of a passed node. -/
def Frame.withRed (b : Bool) (f : Frame) : Frame := { f with red := b }

/-- The frame seen from the other child. -/
def Frame.flip (f : Frame) (t : T) : Frame := { f with goLeft := !f.goLeft, sib := t }

@[simp] theorem T.withRed_addr (b : Bool) (t : T) : (t.withRed b).addr = t.addr := by cases t <;> rfl
@[simp] theorem T.withRed_addrs (b : Bool) (t : T) : (t.withRed b).addrs = t.addrs := by cases t <;> rfl
@[simp] theorem T.withRed_entries (b : Bool) (t : T) : (t.withRed b).entries = t.entries := by
  cases t <;> rfl

theorem T.lrot_entries (t : T) : t.lrot.entries = t.entries := by
  unfold T.lrot; split <;> simp [T.entries]

theorem T.rrot_entries (t : T) : t.rrot.entries = t.entries := by
  unfold T.rrot; split <;> simp [T.entries]

theorem plug_withRed (f : Frame) (b : Bool) (t : T) : (f.plug t).withRed b = (f.withRed b).plug t := by
  unfold Frame.plug Frame.withRed
  cases f.goLeft <;> rfl

theorem plug_flip (f : Frame) (t : T) : (f.flip t).plug f.sib = f.plug t := by
  unfold Frame.plug Frame.flip
  cases f.goLeft <;> simp

/-- Memories that only differ in colours. -/
structure Recolored (σ σ' : Store) : Prop where
  data : σ'.data = σ.data
  next : σ'.next = σ.next
  node : ∀ p n, σ.cells p = some (.node n) → ∃ b, σ'.cells p = some (.node { n with red := b })
  nil : ∀ p c, σ.cells p = some (.nil c) → ∃ c', σ'.cells p = some (.nil c')

theorem Recolored.trans {σ σ' σ'' : Store} (h : Recolored σ σ') (h' : Recolored σ' σ'') : Recolored σ σ'' := by
  refine ⟨h'.data.trans h.data, h'.next.trans h.next, fun p n hp => ?_, fun p c hp => ?_⟩
  · obtain ⟨b, hb⟩ := h.node p n hp
    obtain ⟨b', hb'⟩ := h'.node p _ hb
    exact ⟨b', hb'⟩
  · obtain ⟨b, hb⟩ := h.nil p c hp
    exact h'.nil p b hb

theorem Recolored.refl (σ : Store) : Recolored σ σ := ⟨rfl, rfl, fun _ n h => ⟨n.red, h⟩, fun _ c h => ⟨c, h⟩⟩

theorem recolored_node {σ : Store} {p : Nat} {n : Node} {b : Bool} (h : σ.cells p = some (.node n)) :
    Recolored σ (σ.setCell p (some (.node { n with red := b }))) := by
  refine ⟨rfl, rfl, fun q m hq => ?_, fun q c hq => ?_⟩
  · by_cases e : q = p
    · subst e; rw [h] at hq; cases hq; exact ⟨b, setCell_same _ _ _⟩
    · exact ⟨m.red, (setCell_other _ _ e).trans hq⟩
  · by_cases e : q = p
    · subst e; rw [h] at hq; cases hq
    · exact ⟨c, (setCell_other _ _ e).trans hq⟩

theorem recolored_nil {σ : Store} {p : Nat} {b c : Bool} (h : σ.cells p = some (.nil c)) :
    Recolored σ (σ.setCell p (some (.nil b))) := by
  refine ⟨rfl, rfl, fun q m hq => ?_, fun q c hq => ?_⟩
  · by_cases e : q = p
    · subst e; rw [h] at hq; cases hq
    · exact ⟨m.red, (setCell_other _ _ e).trans hq⟩
  · by_cases e : q = p
    · subst e; exact ⟨b, setCell_same _ _ _⟩
    · exact ⟨c, (setCell_other _ _ e).trans hq⟩

theorem Valid.ne_none {σ : Store} {root np : Nat} {t : T} (h : Valid σ root np t) {p : Nat} {c : Cell}
    (hp : σ.cells p = some c) : ¬ σ.next ≤ p := by
  intro hle
  rw [(h.fresh p hle).1] at hp; cases hp

/-- Colouring a node of the tree. -/
theorem setColor_spec {σ : Store} {root np : Nat} {fs : List Frame} {t : T} {b : Bool}
    (h : Valid σ root np (plug fs t)) (hn : t.isNode = true ∨ b = false) :
    ∃ σ', setColor t.addr b σ = .ok ((), σ') ∧ Valid σ' root np (plug fs (t.withRed b)) ∧ Recolored σ σ' := by
  obtain ⟨hroot, hrep, hnd, hdata, ⟨cn, hnil⟩, hfresh⟩ := h
  obtain ⟨hC, ht⟩ := (rep_plug ..).1 hrep
  have hperm := plug_addrs_perm fs t
  have hperm' := plug_addrs_perm fs (t.withRed b)
  have hnd' := (hperm.cons np).nodup hnd
  simp only [List.nodup_cons, List.mem_append, not_or, List.nodup_append] at hnd'
  obtain ⟨⟨nt, nC⟩, ndt, ndC, tC⟩ := hnd'
  have hta := t.addr_mem
  cases t with
  | leaf a =>
    have hb : b = false := by cases hn with
      | inl h => cases h
      | inr h => exact h
    subst hb
    refine ⟨_, setColor_nil ht, ?_, recolored_nil ht⟩
    have hsame : σ.setCell a (some (.nil false)) = σ := by
      have : (fun q => if q = a then some (Cell.nil false) else σ.cells q) = σ.cells := by
        funext q; split
        · rename_i e; rw [e]; exact ht.symm
        · rfl
      simp only [Store.setCell, this]
    show Valid (σ.setCell a _) root np (plug fs (.leaf a))
    rw [hsame]
    exact ⟨hroot, hrep, hnd, hdata, ⟨cn, hnil⟩, hfresh⟩
  | node a l d k v c r =>
    obtain ⟨h1, h2, h3, h4⟩ := ht
    simp only [T.addr] at hta
    have hother : ∀ p, p ≠ a →
        (σ.setCell a (some (.node ⟨d, l.addr, r.addr, parOf fs np, b⟩))).cells p = σ.cells p :=
      fun p hp => setCell_other _ _ hp
    simp only [T.addrs, List.nodup_cons, List.mem_append, not_or] at ndt
    refine ⟨_, setColor_node h1, ⟨?_, ?_, ?_, ?_, ⟨cn, ?_⟩, ?_⟩, recolored_node h1⟩
    · rw [newRoot_addr hroot]
      cases fs with
      | nil => exact hroot
      | cons f fs => rfl
    · refine (rep_plug ..).2 ⟨?_, setCell_same _ _ _, h2, ?_, ?_⟩
      · exact hC.frame (fun p hp => hother p (fun e => tC a hta p hp e.symm)) (fun _ _ => rfl)
      · exact h3.frame (fun p hp => hother p (fun e => ndt.1.1 (e ▸ hp))) (fun _ _ => rfl)
      · exact h4.frame (fun p hp => hother p (fun e => ndt.1.2 (e ▸ hp))) (fun _ _ => rfl)
    · refine ((hperm'.trans ?_).cons np).symm.nodup hnd
      rw [T.withRed_addrs]; exact hperm.symm
    · rw [plug_entries fs _ _ (T.withRed_entries b _)]; exact hdata
    · exact (hother np (fun e => nt (by rw [e]; exact hta))).trans hnil
    · intro p hp
      refine ⟨?_, (hfresh p hp).2⟩
      exact (hother p (fun e => by rw [← e, (hfresh p hp).1] at h1; cases h1)).trans (hfresh p hp).1

/-- Colouring the parent of the root. -/
theorem setColor_np {σ : Store} {root np : Nat} {t : T} {b : Bool} (h : Valid σ root np t) :
    ∃ σ', setColor np b σ = .ok ((), σ') ∧ Valid σ' root np t ∧ Recolored σ σ' := by
  obtain ⟨hroot, hrep, hnd, hdata, ⟨cn, hnil⟩, hfresh⟩ := h
  refine ⟨_, setColor_nil hnil, ⟨hroot, ?_, hnd, hdata, ⟨b, setCell_same _ _ _⟩, ?_⟩, recolored_nil hnil⟩
  · refine hrep.frame (fun a ha => setCell_other _ _ ?_) (fun _ _ => rfl)
    rintro rfl; exact (List.nodup_cons.1 hnd).1 ha
  · intro p hp
    refine ⟨?_, (hfresh p hp).2⟩
    rw [setCell_other _ _ (fun e => by rw [← e, (hfresh p hp).1] at hnil; cases hnil)]
    exact (hfresh p hp).1

/-- Left rotation at any position. -/
theorem lrot_any {σ : Store} {root np : Nat} {fs : List Frame} {t : T} (h : Valid σ root np (plug fs t)) :
    ∃ σ', lrot root t.addr σ = .ok ((plug fs t.lrot).addr, σ') ∧
      Valid σ' (plug fs t.lrot).addr np (plug fs t.lrot) ∧ σ'.data = σ.data ∧ σ'.next = σ.next := by
  have hrep := ((rep_plug ..).1 h.rep).2
  have noop : t.lrot = t → lrot root t.addr σ = .ok (root, σ) → ∃ σ',
      lrot root t.addr σ = .ok ((plug fs t.lrot).addr, σ') ∧
      Valid σ' (plug fs t.lrot).addr np (plug fs t.lrot) ∧ σ'.data = σ.data ∧ σ'.next = σ.next := by
    intro e hr
    rw [e, h.root]
    exact ⟨σ, hr, h, rfl, rfl⟩
  cases t with
  | leaf a =>
    refine noop rfl ?_
    unfold lrot
    rw [TM.bind_apply, isNull_rep hrep]; rfl
  | node x l d k v c s =>
    cases s with
    | leaf a =>
      refine noop rfl ?_
      have e1 : isNull x σ = .ok (false, σ) := isNull_node hrep.1
      have e2 : right x σ = .ok (a, σ) := right_ok hrep.1
      have e3 : isNull a σ = .ok (true, σ) := isNull_nil hrep.2.2.2
      unfold lrot
      simp only [T.addr, TM.bind_apply, e1, Res.ok_bind, Bool.false_eq_true, if_false, e2, e3, if_true,
        TM.pure_apply]
    | node y m d' k' v' c' r =>
      obtain ⟨σ', h1, h2, h3⟩ := lrot_spec h
      replace h1 := h1 root
      have e : (plug fs (T.lrot (.node x l d k v c (.node y m d' k' v' c' r)))).addr = newRoot fs root y :=
        newRoot_addr (t' := .node y (.node x l d k v c m) d' k' v' c' r) h.root
      refine ⟨σ', ?_, ?_, h3.data, h3.next⟩
      · rw [e]; exact h1
      · rw [e]; exact h2

/-- Right rotation at any position. -/
theorem rrot_any {σ : Store} {root np : Nat} {fs : List Frame} {t : T} (h : Valid σ root np (plug fs t)) :
    ∃ σ', rrot root t.addr σ = .ok ((plug fs t.rrot).addr, σ') ∧
      Valid σ' (plug fs t.rrot).addr np (plug fs t.rrot) ∧ σ'.data = σ.data ∧ σ'.next = σ.next := by
  have hrep := ((rep_plug ..).1 h.rep).2
  have noop : t.rrot = t → rrot root t.addr σ = .ok (root, σ) → ∃ σ',
      rrot root t.addr σ = .ok ((plug fs t.rrot).addr, σ') ∧
      Valid σ' (plug fs t.rrot).addr np (plug fs t.rrot) ∧ σ'.data = σ.data ∧ σ'.next = σ.next := by
    intro e hr
    rw [e, h.root]
    exact ⟨σ, hr, h, rfl, rfl⟩
  cases t with
  | leaf a =>
    refine noop rfl ?_
    unfold rrot
    rw [TM.bind_apply, isNull_rep hrep]; rfl
  | node x s d k v c l =>
    cases s with
    | leaf a =>
      refine noop rfl ?_
      have e1 : isNull x σ = .ok (false, σ) := isNull_node hrep.1
      have e2 : left x σ = .ok (a, σ) := left_ok hrep.1
      have e3 : isNull a σ = .ok (true, σ) := isNull_nil hrep.2.2.1
      unfold rrot
      simp only [T.addr, TM.bind_apply, e1, Res.ok_bind, Bool.false_eq_true, if_false, e2, e3, if_true,
        TM.pure_apply]
    | node y r d' k' v' c' m =>
      obtain ⟨σ', h1, h2, h3⟩ := rrot_spec h
      replace h1 := h1 root
      have e : (plug fs (T.rrot (.node x (.node y r d' k' v' c' m) d k v c l))).addr = newRoot fs root y :=
        newRoot_addr (t' := .node y r d' k' v' c' (.node x m d k v c l)) h.root
      refine ⟨σ', ?_, ?_, h3.data, h3.next⟩
      · rw [e]; exact h1
      · rw [e]; exact h2

/-! ## The loop -/

/-- Rotation that lifts the child on the given side (`true`: left). -/
def turn (side : Bool) (t : T) : T := if side then t.rrot else t.lrot

/-- Case 2 of the loop followed by case 3: the rotation is applied one level too high. -/
def raise (g : Frame) (u : T) : List Frame → T
  | [] => (g.withRed false).plug u
  | h :: hs => plug hs (turn g.goLeft ((h.withRed true).plug ((g.withRed false).plug u)))

/-- What the loop of `tree_add_check` makes of the tree `plug fs t` when it looks at `t`. In case 2 (the node is
an inner grandchild) the rotation around the new node does nothing, and the rotation of case 3 is applied one level
too high. -/
def fixUp : List Frame → T → T
  | f :: g :: fs, t =>
    if f.red then
      if g.sib.isRed then
        fixUp fs ({ g with red := true, sib := g.sib.withRed false }.plug ((f.withRed false).plug t))
      else if f.goLeft = g.goLeft then
        plug fs (turn g.goLeft ((g.withRed true).plug ((f.withRed false).plug t)))
      else
        raise g (f.plug t) fs
    else plug fs (g.plug (f.plug t))
  | [f], t => f.plug t
  | [], t => t

theorem plug_append (fs gs : List Frame) (t : T) : plug (fs ++ gs) t = plug gs (plug fs t) := by
  induction fs generalizing t with
  | nil => rfl
  | cons f fs ih => exact ih _

theorem turn_entries (s : Bool) (t : T) : (turn s t).entries = t.entries := by
  unfold turn; split
  · exact T.rrot_entries t
  · exact T.lrot_entries t

theorem frame_entries {f g : Frame} {t u : T} (h : f.goLeft = g.goLeft) (hd : f.d = g.d) (hk : f.k = g.k)
    (hv : f.v = g.v) (hs : f.sib.entries = g.sib.entries) (ht : t.entries = u.entries) :
    (f.plug t).entries = (g.plug u).entries := by
  unfold Frame.plug
  rw [h]
  split <;> simp [T.entries, hd, hk, hv, hs, ht]

/-- The rebalancing keeps the entries and their order. -/
theorem fixUp_entries (fs : List Frame) (t : T) : (fixUp fs t).entries = (plug fs t).entries := by
  fun_induction fixUp fs t with
  | case1 f g fs t h1 h2 ih =>
    rw [ih]
    exact plug_entries _ _ _ (frame_entries rfl rfl rfl rfl (by simp) (frame_entries rfl rfl rfl rfl rfl rfl))
  | case2 f g fs t h1 h2 h3 =>
    refine plug_entries _ _ _ ?_
    rw [turn_entries]
    exact frame_entries rfl rfl rfl rfl rfl (frame_entries rfl rfl rfl rfl rfl rfl)
  | case3 f g fs t h1 h2 h3 =>
    cases fs with
    | nil => exact frame_entries rfl rfl rfl rfl rfl rfl
    | cons h hs =>
      refine plug_entries _ _ _ ?_
      rw [turn_entries]
      exact frame_entries rfl rfl rfl rfl rfl (frame_entries rfl rfl rfl rfl rfl rfl)
  | case4 => rfl
  | case5 => rfl
  | case6 => rfl

theorem turn_outer {f g : Frame} {t : T} (h : f.goLeft = g.goLeft) :
    ∃ s, turn g.goLeft (g.plug (f.plug t)) = ({ f with sib := s } : Frame).plug t := by
  unfold turn Frame.plug
  cases hg : g.goLeft with
  | true => simp only [h, hg, if_true]; exact ⟨_, rfl⟩
  | false => simp only [h, hg, Bool.false_eq_true, if_false]; exact ⟨_, rfl⟩

theorem turn_keep (g h : Frame) (u : T) :
    ∃ g' hs, turn g.goLeft (h.plug (g.plug u)) = plug (g' :: hs) u ∧ g'.red = g.red := by
  by_cases hgh : g.goLeft = h.goLeft
  · obtain ⟨s, hs⟩ := turn_outer (t := u) hgh
    rw [hgh]
    exact ⟨_, [], hs, rfl⟩
  · cases hg : g.goLeft with
    | true =>
      have hh : h.goLeft = false := by cases hc : h.goLeft with
        | true => exact absurd (hg.trans hc.symm) hgh
        | false => rfl
      cases hsib : h.sib with
      | leaf a =>
        refine ⟨g, [h], ?_, rfl⟩
        simp [turn, plug, Frame.plug, hh, hsib, T.rrot]
      | node y a d k v c m =>
        refine ⟨g, [{ h with sib := m }, ⟨false, y, d, k, v, c, a⟩], ?_, rfl⟩
        simp [turn, plug, Frame.plug, hh, hsib, T.rrot]
    | false =>
      have hh : h.goLeft = true := by cases hc : h.goLeft with
        | false => exact absurd (hg.trans hc.symm) hgh
        | true => rfl
      cases hsib : h.sib with
      | leaf a =>
        refine ⟨g, [h], ?_, rfl⟩
        simp [turn, plug, Frame.plug, hh, hsib, T.lrot]
      | node y m d k v c a =>
        refine ⟨g, [{ h with sib := m }, ⟨true, y, d, k, v, c, a⟩], ?_, rfl⟩
        simp [turn, plug, Frame.plug, hh, hsib, T.lrot]

/-- The node has two NIL children. -/
def Childless (σ : Store) (nd : Nat) : Prop :=
  ∃ n c c', σ.cells nd = some (.node n) ∧ σ.cells n.left = some (.nil c) ∧ σ.cells n.right = some (.nil c')

theorem Childless.recolored {σ σ' : Store} {nd : Nat} (h : Childless σ nd) (hr : Recolored σ σ') :
    Childless σ' nd := by
  obtain ⟨n, c, c', h1, h2, h3⟩ := h
  obtain ⟨b, hb⟩ := hr.node _ _ h1
  obtain ⟨d, hd⟩ := hr.nil _ _ h2
  obtain ⟨d', hd'⟩ := hr.nil _ _ h3
  exact ⟨_, d, d', hb, hd, hd'⟩

theorem Childless.lrot {σ : Store} {nd : Nat} (h : Childless σ nd) (root : Nat) :
    Tree.lrot root nd σ = .ok (root, σ) := by
  obtain ⟨n, c, c', h1, h2, h3⟩ := h
  unfold Tree.lrot
  simp only [TM.bind_apply, isNull_node h1, Res.ok_bind, Bool.false_eq_true, if_false, right_ok h1,
    isNull_nil h3, if_true, TM.pure_apply]

theorem Childless.rrot {σ : Store} {nd : Nat} (h : Childless σ nd) (root : Nat) :
    Tree.rrot root nd σ = .ok (root, σ) := by
  obtain ⟨n, c, c', h1, h2, h3⟩ := h
  unfold Tree.rrot
  simp only [TM.bind_apply, isNull_node h1, Res.ok_bind, Bool.false_eq_true, if_false, left_ok h1,
    isNull_nil h2, if_true, TM.pure_apply]

theorem node_cell {σ : Store} {t : T} {par : Nat} (h : Rep σ t par) (hn : t.isNode = true) :
    ∃ n, σ.cells t.addr = some (.node n) ∧ n.parent = par ∧ n.red = t.isRed := by
  cases t with
  | leaf a => cases hn
  | node a l d k v c r => exact ⟨_, h.1, rfl, rfl⟩

/-- The address of the hole differs from the root below at least one frame. -/
theorem hole_ne_root {σ : Store} {root np : Nat} {f : Frame} {fs : List Frame} {t : T}
    (h : Valid σ root np (plug (f :: fs) t)) : t.addr ≠ root := by
  rw [← h.root]
  have hn := ((plug_addrs_perm (f :: fs) t).nodup (List.nodup_cons.1 h.nodup).2)
  have hmem : ∀ (fs : List Frame) (u : T), (plug fs u).addr ∈ u.addr :: addrsC fs := by
    intro fs
    induction fs with
    | nil => intro u; simp [plug]
    | cons g gs ih =>
      intro u
      have := ih (g.plug u)
      rw [plug_addr] at this
      show (plug gs (g.plug u)).addr ∈ _
      rcases List.mem_cons.1 this with e | e
      · rw [e]; simp [addrsC]
      · simp [addrsC, e]
  have h2 := hmem fs (f.plug t)
  rw [plug_addr] at h2
  have h3 : (plug (f :: fs) t).addr ∈ addrsC (f :: fs) := by
    show (plug fs (f.plug t)).addr ∈ _
    rcases List.mem_cons.1 h2 with e | e
    · rw [e]; simp [addrsC]
    · simp [addrsC, e]
  intro e
  exact (List.nodup_append.1 hn).2.2 _ t.addr_mem _ (e ▸ h3) rfl

/-- Is the parent of the hole red? -/
def headRed : List Frame → Bool
  | [] => false
  | f :: _ => f.red

/-- The loop condition. -/
theorem addMore_spec {σ : Store} {root np : Nat} {fs : List Frame} {t : T}
    (h : Valid σ root np (plug fs t)) (hn : t.isNode = true) :
    addMore root t.addr σ = .ok (headRed fs, σ) := by
  unfold addMore
  cases fs with
  | nil => rw [if_pos (show t.addr = root from h.root)]; rfl
  | cons f fs =>
    obtain ⟨hC, ht⟩ := (rep_plug ..).1 h.rep
    obtain ⟨m, h1, h2, h3⟩ := node_cell ht hn
    rw [if_neg (hole_ne_root h), TM.bind_apply, parent_ok h1, h2]
    show colored f.a σ = _
    rw [colored_node hC.1]; rfl

/-- The end of the loop. -/
theorem addCheck_exit {σ : Store} {root np : Nat} {fs : List Frame} {t : T} (nd n : Nat)
    (h : Valid σ root np (plug fs t)) (hn : t.isNode = true) (hf : ∀ f ∈ fs.head?, f.red = false) :
    ∃ σ', addCheck nd (n + 1) root t.addr σ = .ok (root, σ') ∧
      Valid σ' root np ((plug fs t).withRed false) ∧ Recolored σ σ' := by
  obtain ⟨σ', h1, h2, h3⟩ := setColor_spec (fs := []) (b := false) h (.inr rfl)
  refine ⟨σ', ?_, h2, h3⟩
  have hm : addMore root t.addr σ = .ok (false, σ) := by
    rw [addMore_spec h hn]
    cases fs with
    | nil => rfl
    | cons f fs => rw [headRed, hf f (by simp)]
  have h1' : setColor root false σ = .ok ((), σ') := by rw [← h.root]; exact h1
  unfold addCheck
  simp only [TM.bind_apply, hm, Res.ok_bind, Bool.false_eq_true, if_false, h1', TM.pure_apply]

/-- Case 1. -/
theorem addCase1_spec {σ : Store} {root np : Nat} {f g : Frame} {fs : List Frame} {t : T}
    (h : Valid σ root np (plug (f :: g :: fs) t)) :
    ∃ σ', addCase1 f.a g.sib.addr g.a σ = .ok ((), σ') ∧
      Valid σ' root np (plug fs ({ g with red := true, sib := g.sib.withRed false }.plug
        ((f.withRed false).plug t))) ∧ Recolored σ σ' := by
  obtain ⟨σ1, a1, b1, c1⟩ := setColor_spec (fs := g :: fs) (t := f.plug t) (b := false) h (.inr rfl)
  rw [plug_withRed] at b1
  rw [plug_addr] at a1
  have b1' : Valid σ1 root np (plug (g.flip ((f.withRed false).plug t) :: fs) g.sib) := by
    show Valid σ1 root np (plug fs ((g.flip _).plug g.sib))
    rw [plug_flip]; exact b1
  obtain ⟨σ2, a2, b2, c2⟩ := setColor_spec (b := false) b1' (.inr rfl)
  have b2' : Valid σ2 root np (plug fs (({ g with sib := g.sib.withRed false } : Frame).plug
      ((f.withRed false).plug t))) := by
    rw [← plug_flip]; exact b2
  obtain ⟨σ3, a3, b3, c3⟩ := setColor_spec (b := true) b2' (.inl (by unfold Frame.plug; split <;> rfl))
  rw [plug_withRed] at b3
  rw [plug_addr] at a3
  refine ⟨σ3, ?_, b3, (c1.trans c2).trans c3⟩
  unfold addCase1
  have a3' : setColor g.a true σ2 = .ok ((), σ3) := a3
  simp only [TM.bind_apply, a1, Res.ok_bind, a2, a3']

/-- Colour the parent of the hole red. -/
def redHead : List Frame → List Frame
  | [] => []
  | h :: hs => h.withRed true :: hs

/-- The recolouring of case 3. -/
theorem addCase3_spec {σ : Store} {root np : Nat} {g : Frame} {fs : List Frame} {u : T}
    (h : Valid σ root np (plug (g :: fs) u)) (hn : u.isNode = true) :
    ∃ σ', addCase3 u.addr σ = .ok (parOf fs np, σ') ∧
      Valid σ' root np (plug (g.withRed false :: redHead fs) u) ∧ Recolored σ σ' := by
  obtain ⟨hC, hu⟩ := (rep_plug ..).1 h.rep
  obtain ⟨m, h1, h2, h3⟩ := node_cell hu hn
  have p1 : parent u.addr σ = .ok (g.a, σ) := by rw [parent_ok h1, h2]; rfl
  obtain ⟨σ1, a1, b1, c1⟩ := setColor_spec (fs := fs) (t := g.plug u) (b := false) h (.inr rfl)
  rw [plug_withRed] at b1
  rw [plug_addr] at a1
  have hC1 : RepC σ1 (g.withRed false :: fs) u.addr np := ((rep_plug σ1 (g.withRed false :: fs) u np).1 b1.rep).1
  have p2 : parent g.a σ1 = .ok (parOf fs np, σ1) := parent_ok hC1.1
  cases fs with
  | nil =>
    obtain ⟨σ2, a2, b2, c2⟩ := setColor_np (b := true) b1
    refine ⟨σ2, ?_, b2, c1.trans c2⟩
    unfold addCase3
    simp only [TM.bind_apply, p1, a1, Res.ok_bind, p2, parOf, a2, TM.pure_apply]
  | cons k ks =>
    obtain ⟨σ2, a2, b2, c2⟩ := setColor_spec (fs := ks) (t := k.plug ((g.withRed false).plug u)) (b := true) b1
      (.inl (by unfold Frame.plug; split <;> rfl))
    rw [plug_withRed] at b2
    rw [plug_addr] at a2
    refine ⟨σ2, ?_, b2, c1.trans c2⟩
    unfold addCase3
    simp only [TM.bind_apply, p1, a1, Res.ok_bind, p2, parOf, a2, TM.pure_apply]

/-- The rotation that lifts the child on the given side. -/
def turnM (side : Bool) (root y : Nat) : TM Nat := if side then rrot root y else lrot root y

/-- The rotation of case 3 around the parent of the hole. -/
theorem turn_spec {σ : Store} {root np : Nat} {fs : List Frame} {u : T} (side : Bool)
    (h : Valid σ root np (plug fs u)) :
    ∃ σ', turnM side root u.addr σ = .ok ((plug fs (turn side u)).addr, σ') ∧
      Valid σ' (plug fs (turn side u)).addr np (plug fs (turn side u)) ∧ σ'.data = σ.data ∧ σ'.next = σ.next := by
  cases side with
  | true => exact rrot_any h
  | false => exact lrot_any h

/-- The context and the subtree that the loop looks at after case 2 or 3. -/
theorem case3_spec {σ : Store} {root np : Nat} {f g : Frame} {fs : List Frame} {t : T}
    (h : Valid σ root np (plug (f :: g :: fs) t)) (hn : t.isNode = true) (ho : f.goLeft = g.goLeft) :
    ∃ σ' fs', (addCase3 t.addr >>= fun y => turnM g.goLeft root y) σ =
        .ok ((plug fs' t).addr, σ') ∧
      plug fs' t = plug fs (turn g.goLeft ((g.withRed true).plug ((f.withRed false).plug t))) ∧
      headRed fs' = false ∧ Valid σ' (plug fs' t).addr np (plug fs' t) ∧
      σ'.data = σ.data ∧ σ'.next = σ.next := by
  obtain ⟨σ1, a1, b1, c1⟩ := addCase3_spec h hn
  obtain ⟨σ2, a2, b2, d2, n2⟩ := turn_spec (fs := fs) (u := (g.withRed true).plug ((f.withRed false).plug t))
    g.goLeft b1
  rw [plug_addr] at a2
  obtain ⟨s, hs⟩ := turn_outer (f := f.withRed false) (g := g.withRed true) (t := t) ho
  have hs' : turn g.goLeft ((g.withRed true).plug ((f.withRed false).plug t)) =
    ({ f.withRed false with sib := s } : Frame).plug t := hs
  have e : plug ({ f.withRed false with sib := s } :: fs) t =
      plug fs (turn g.goLeft ((g.withRed true).plug ((f.withRed false).plug t))) := by rw [hs']; rfl
  refine ⟨σ2, { f.withRed false with sib := s } :: fs, ?_, e, rfl, ?_, d2.trans c1.data, n2.trans c1.next⟩
  · rw [TM.bind_apply, a1, e]; exact a2
  · rw [e]; exact b2

theorem case2_spec {σ : Store} {root np : Nat} {f g : Frame} {fs : List Frame} {t : T}
    (h : Valid σ root np (plug (f :: g :: fs) t)) :
    ∃ σ' fs', (addCase3 f.a >>= fun y => turnM g.goLeft root y) σ =
        .ok ((plug fs' (f.plug t)).addr, σ') ∧
      plug fs' (f.plug t) = raise g (f.plug t) fs ∧
      headRed fs' = false ∧ Valid σ' (plug fs' (f.plug t)).addr np (plug fs' (f.plug t)) ∧
      σ'.data = σ.data ∧ σ'.next = σ.next := by
  obtain ⟨σ1, a1, b1, c1⟩ := addCase3_spec (fs := fs) (g := g) (u := f.plug t) h
    (by unfold Frame.plug; split <;> rfl)
  rw [plug_addr] at a1
  cases fs with
  | nil =>
    obtain ⟨cn, hcn⟩ := b1.nil
    have e : (plug [g.withRed false] (f.plug t)).addr = root := b1.root
    refine ⟨σ1, [g.withRed false], ?_, rfl, rfl, ?_, c1.data, c1.next⟩
    · rw [TM.bind_apply, a1, e]
      show turnM g.goLeft root np σ1 = _
      cases g.goLeft with
      | true =>
        show rrot root np σ1 = _
        unfold rrot; rw [TM.bind_apply, isNull_nil hcn]; rfl
      | false =>
        show lrot root np σ1 = _
        unfold lrot; rw [TM.bind_apply, isNull_nil hcn]; rfl
    · rw [e]; exact b1
  | cons k ks =>
    obtain ⟨σ2, a2, b2, d2, n2⟩ := turn_spec (fs := ks)
      (u := (k.withRed true).plug ((g.withRed false).plug (f.plug t))) g.goLeft b1
    rw [plug_addr] at a2
    obtain ⟨g', hs, e, hr⟩ := turn_keep (g.withRed false) (k.withRed true) (f.plug t)
    have e' : plug (g' :: hs ++ ks) (f.plug t) =
        plug ks (turn g.goLeft ((k.withRed true).plug ((g.withRed false).plug (f.plug t)))) := by
      rw [plug_append, ← e]; rfl
    refine ⟨σ2, g' :: hs ++ ks, ?_, e', hr, ?_, d2.trans c1.data, n2.trans c1.next⟩
    · rw [TM.bind_apply, a1, e']; exact a2
    · rw [e']; exact b2

end Tree

end Mnml
