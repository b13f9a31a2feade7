import Verif.TreeOps

/-!
# `lisp_tree_add`
-/

namespace Mnml

namespace Tree

theorem Rep.some {σ : Store} {t : T} {par : Nat} (h : Rep σ t par) : ∀ a ∈ t.addrs, ∃ c, σ.cells a = some c := by
  induction t generalizing par with
  | leaf a => intro b hb; simp [T.addrs] at hb; subst hb; exact ⟨_, h⟩
  | node a l d k v c r ihl ihr =>
    intro b hb
    simp only [T.addrs, List.mem_cons, List.mem_append] at hb
    rcases hb with rfl | hb | hb
    · exact ⟨_, h.1⟩
    · exact ihl h.2.2.1 b hb
    · exact ihr h.2.2.2 b hb

/-- The cells of a table are below the next fresh address. -/
theorem Valid.lt_next {σ : Store} {root np : Nat} {t : T} (h : Valid σ root np t) :
    ∀ a ∈ np :: t.addrs, a < σ.next := by
  intro a ha
  have : ∃ c, σ.cells a = some c := by
    rcases List.mem_cons.1 ha with rfl | ha
    · obtain ⟨c, hc⟩ := h.nil
      exact ⟨_, hc⟩
    · exact h.rep.some a ha
  obtain ⟨c, hc⟩ := this
  exact Nat.lt_of_not_le (h.ne_none hc)

/-- Memory with a new red node without children. -/
def withNode (σ : Store) (d p : Nat) : Store :=
  { cells := fun q =>
      if q = σ.next + 2 then some (.node ⟨d, σ.next, σ.next + 1, p, true⟩)
      else if q = σ.next + 1 then some (.nil false)
      else if q = σ.next then some (.nil false) else σ.cells q
    data := σ.data
    next := σ.next + 3 }

theorem withNode_old {σ : Store} {d p q : Nat} (h : q < σ.next) : (withNode σ d p).cells q = σ.cells q := by
  have h1 : q ≠ σ.next + 2 := by omega
  have h2 : q ≠ σ.next + 1 := by omega
  have h3 : q ≠ σ.next := by omega
  simp [withNode, h1, h2, h3]

/-- A new node. -/
theorem treeNew_ok {σ : Store} {root d p : Nat}
    (hp : ∀ σ' : Store, σ'.cells root = σ.cells root → rootParent root σ' = .ok (p, σ'))
    (hr : root < σ.next) {α : Type} (f : Nat → TM α) :
    (treeNew root d >>= fun nd => setColor nd true >>= fun _ => f nd) σ = f (σ.next + 2) (withNode σ d p) := by
  have hne : root ≠ σ.next := by omega
  unfold treeNew
  simp only [TM.bind_apply, newNil, Res.ok_bind]
  rw [hp _ (by simp [Store.setCell, hne])]
  simp only [Res.ok_bind, newNode]
  rw [setColor_node (by simp [Store.setCell]; rfl)]
  simp only [Res.ok_bind]
  congr 1
  simp only [withNode, Store.setCell, Store.mk.injEq, and_true]
  funext q
  by_cases h1 : q = σ.next + 2
  · subst h1; simp
  · by_cases h2 : q = σ.next + 1
    · subst h2; simp
    · by_cases h3 : q = σ.next
      · subst h3
        have h4 : ¬ σ.next = σ.next + 1 + 1 := by omega
        simp [h4]
      · simp [h1, h2, h3]

theorem Valid.withNode {σ : Store} {root np : Nat} {t : T} (h : Valid σ root np t) (d p : Nat) :
    Valid (withNode σ d p) root np t := by
  refine ⟨h.root, h.rep.frame (fun a ha => withNode_old (h.lt_next a (by simp [ha]))) (fun _ _ => rfl), h.nodup,
    h.data, ?_, ?_⟩
  · rw [withNode_old (h.lt_next np (by simp))]; exact h.nil
  · intro q hq
    have hq : σ.next + 3 ≤ q := hq
    have h1 : q ≠ σ.next + 2 := by omega
    have h2 : q ≠ σ.next + 1 := by omega
    have h3 : q ≠ σ.next := by omega
    obtain ⟨a, b⟩ := h.fresh q (by omega)
    exact ⟨by simp [Tree.withNode, h1, h2, h3, a], b⟩

/-- Memory after a new node took the place of a leaf. -/
def attached (σ : Store) (f : Frame) (fs : List Frame) (np a nd d l r : Nat) : Store :=
  relink ((σ.setCell nd (some (.node ⟨d, l, r, f.a, true⟩))).setCell a none) (f :: fs) np nd

theorem attach_ok {σ : Store} {np a nd d l r p : Nat} {f : Frame} {fs : List Frame} {k : Sym} {v : Val}
    (hC : RepC σ (f :: fs) a np) (ha : σ.cells a = some (.nil false))
    (hnd : σ.cells nd = some (.node ⟨d, l, r, p, true⟩)) (hd : σ.data d = some (k, v))
    (hf : f.goLeft = true ↔ symCompare k f.k = .lt) (h1 : nd ≠ f.a) (h2 : a ≠ nd) (h3 : f.a ≠ a) :
    attach nd f.a σ = .ok ((), attached σ f fs np a nd d l r) := by
  have e1 : (σ.setCell nd (some (.node ⟨d, l, r, f.a, true⟩))).cells nd = some (.node ⟨d, l, r, f.a, true⟩) :=
    setCell_same ..
  have e2 := (setCell_other σ (some (.node ⟨d, l, r, f.a, true⟩)) (Ne.symm h1)).trans hC.1
  have e3 := (setCell_other σ (some (.node ⟨d, l, r, f.a, true⟩)) h2).trans ha
  have e4 := (setCell_other (σ.setCell nd (some (.node ⟨d, l, r, f.a, true⟩))) none h3).trans e2
  have k1 : key nd (σ.setCell nd (some (.node ⟨d, l, r, f.a, true⟩))) =
      .ok (k, σ.setCell nd (some (.node ⟨d, l, r, f.a, true⟩))) := by
    simp only [key, TM.bind_apply, node_ok e1, Res.ok_bind, readData, setCell_data, hd]; rfl
  have k2 : key f.a (σ.setCell nd (some (.node ⟨d, l, r, f.a, true⟩))) =
      .ok (f.k, σ.setCell nd (some (.node ⟨d, l, r, f.a, true⟩))) := by
    simp only [key, TM.bind_apply, node_ok e2, Res.ok_bind, readData, setCell_data, hC.2.1]; rfl
  have k3 : free a (σ.setCell nd (some (.node ⟨d, l, r, f.a, true⟩))) =
      .ok ((), (σ.setCell nd (some (.node ⟨d, l, r, f.a, true⟩))).setCell a none) := by
    simp only [free, e3]
  unfold attach
  simp only [TM.bind_apply, setParent_ok hnd, Res.ok_bind, k1, k2]
  cases hg : f.goLeft with
  | true =>
    rw [if_pos (hf.1 hg)]
    simp only [TM.bind_apply, left_ok e2, Res.ok_bind, hg, if_true, k3, setLeft_ok e4]
    simp only [attached, relink, hg, if_true]
  | false =>
    rw [if_neg (fun h => by rw [hf.2 h] at hg; cases hg)]
    simp only [TM.bind_apply, right_ok e2, Res.ok_bind, hg, Bool.false_eq_true, if_false, k3, setRight_ok e4]
    simp only [attached, relink, hg, Bool.false_eq_true, if_false]

/-- The table with the new node. -/
theorem attach_spec {σ : Store} {root np a nd d l r p : Nat} {f : Frame} {fs : List Frame} {k : Sym} {v : Val}
    (h : Valid σ root np (plug (f :: fs) (.leaf a)))
    (hnd : σ.cells nd = some (.node ⟨d, l, r, p, true⟩)) (hd : σ.data d = some (k, v))
    (hl : σ.cells l = some (.nil false)) (hr : σ.cells r = some (.nil false))
    (hnew : [nd, l, r].Nodup) (hout : ∀ q ∈ [nd, l, r], q ∉ np :: (plug (f :: fs) (.leaf a)).addrs)
    (hdn : d ∉ (plug (f :: fs) (.leaf a)).entries.map (·.1))
    (hf : f.goLeft = true ↔ symCompare k f.k = .lt) :
    ∃ σ', attach nd f.a σ = .ok ((), σ') ∧
      Valid σ' root np (plug (f :: fs) (.node nd (.leaf l) d k v true (.leaf r))) ∧
      Childless σ' nd ∧ σ'.data = σ.data ∧ σ'.next = σ.next := by
  obtain ⟨hroot, hrep, hnodup, hdata, ⟨cn, hnil⟩, hfresh⟩ := h
  obtain ⟨hC, ha⟩ := (rep_plug ..).1 hrep
  have ha : σ.cells a = some (.nil false) := ha
  have hC : RepC σ (f :: fs) a np := hC
  have hperm := plug_addrs_perm (f :: fs) (.leaf a)
  have hperm' := plug_addrs_perm (f :: fs) (.node nd (.leaf l) d k v true (.leaf r))
  have hnp := (hperm.cons np).nodup hnodup
  have hout' : ∀ q ∈ [nd, l, r], q ∉ np :: a :: addrsC (f :: fs) := by
    intro q hq hm
    exact hout q hq ((hperm.cons np).mem_iff.2 hm)
  have hfa : f.a ∈ addrsC (f :: fs) := by simp [addrsC]
  simp only [T.addrs, List.cons_append, List.nil_append, List.nodup_cons, List.mem_cons, not_or] at hnp
  obtain ⟨⟨hnpa, hnpC⟩, haC, hCn⟩ := hnp
  have o := fun q hq => by simpa only [List.mem_cons, not_or] using hout' q hq
  obtain ⟨ndnp, nda, ndC⟩ := o nd (by simp)
  obtain ⟨lnp, la, lC⟩ := o l (by simp)
  obtain ⟨rnp, ra, rC⟩ := o r (by simp)
  simp only [List.nodup_cons, List.mem_cons, List.not_mem_nil, or_false, not_or, List.nodup_nil, and_true,
    not_false_eq_true] at hnew
  obtain ⟨⟨ndl, ndr⟩, lr⟩ := hnew
  have ne_of : ∀ {q}, q ∉ addrsC (f :: fs) → q ≠ f.a := by rintro q hq rfl; exact hq hfa
  have cell : ∀ q, q ≠ f.a → (attached σ f fs np a nd d l r).cells q =
      if q = a then none else if q = nd then some (.node ⟨d, l, r, f.a, true⟩) else σ.cells q := by
    intro q hq
    rw [attached, relink_other (by simpa using hq)]
    simp only [Store.setCell]
  have cnd : (attached σ f fs np a nd d l r).cells nd = some (.node ⟨d, l, r, f.a, true⟩) := by
    rw [cell nd (ne_of ndC)]; simp [nda]
  have cl : (attached σ f fs np a nd d l r).cells l = some (.nil false) := by
    rw [cell l (ne_of lC)]; simp [la, Ne.symm ndl, hl]
  have cr : (attached σ f fs np a nd d l r).cells r = some (.nil false) := by
    rw [cell r (ne_of rC)]; simp [ra, Ne.symm ndr, hr]
  have hdat : (attached σ f fs np a nd d l r).data = σ.data := by rw [attached, relink_data]; rfl
  have hnext : (attached σ f fs np a nd d l r).next = σ.next := rfl
  refine ⟨_, attach_ok hC ha hnd hd hf (ne_of ndC) (Ne.symm nda) (Ne.symm (ne_of haC)), ?_,
    ⟨_, _, _, cnd, cl, cr⟩, hdat, hnext⟩
  refine ⟨?_, (rep_plug ..).2 ⟨?_, ?_⟩, ?_, ?_, ?_, ?_⟩
  · exact newRoot_addr hroot
  · refine hC.relink (y := nd) hCn ?_ ?_ (fun _ _ => by rw [hdat])
    · intro g hg
      simp at hg; subst hg
      simp only [attached, relink, setCell_same]
    · intro b hb hbf
      have hbf : b ≠ f.a := hbf f (by simp)
      have n1 : b ≠ a := by rintro rfl; exact haC hb
      have n2 : b ≠ nd := by rintro rfl; exact ndC hb
      rw [cell b hbf, if_neg n1, if_neg n2]
  · exact ⟨cnd, by rw [hdat]; exact hd, cl, cr⟩
  · refine (hperm'.cons np).symm.nodup ?_
    simp only [T.addrs, List.cons_append, List.nil_append, List.nodup_cons, List.mem_cons, not_or]
    exact ⟨⟨Ne.symm ndnp, Ne.symm lnp, Ne.symm rnp, hnpC⟩, ⟨ndl, ndr, ndC⟩, ⟨lr, lC⟩, rC, hCn⟩
  · have e1 := (plug_entries_perm (f :: fs) (.leaf a)).map (·.1)
    have e2 := (plug_entries_perm (f :: fs) (.node nd (.leaf l) d k v true (.leaf r))).map (·.1)
    refine e2.symm.nodup ?_
    simp only [T.entries, List.nil_append, List.cons_append, List.map_cons, List.nodup_cons]
    exact ⟨fun hm => hdn (e1.mem_iff.2 hm), e1.nodup hdata⟩
  · refine ⟨cn, ?_⟩
    rw [cell np (ne_of hnpC), if_neg hnpa, if_neg (Ne.symm ndnp), hnil]
  · intro q hq
    obtain ⟨b1, b2⟩ := hfresh q (hnext ▸ hq)
    refine ⟨?_, by rw [hdat]; exact b2⟩
    have : q ≠ f.a := by rintro rfl; rw [hC.1] at b1; cases b1
    rw [cell q this]
    split
    · rfl
    · split
      · rename_i e; rw [e, hnd] at b1; cases b1
      · exact b1

/-- Adding an entry at the position of an absent key. -/
theorem insert_entries {k : Sym} {t : T} {fs : List Frame} {a : Nat} (ho : Ordered t)
    (hs : seek k [] t = (fs, .leaf a)) {t' : T} {d : Nat} {v : Val}
    (he : t'.entries = beforeC fs ++ (d, k, v) :: afterC fs) :
    Ordered t' ∧ ∀ k', find k' t'.entries = if k' = k then some (d, k, v) else find k' t.entries := by
  have hp : plug fs (.leaf a) = t := by have := seek_plug k [] t; rwa [hs] at this
  have hb := seek_bounds k [] t ho (by simp [beforeC]) (by simp [afterC])
  rw [hs] at hb
  have ht : t.entries = beforeC fs ++ afterC fs := by rw [← hp, plug_split]; simp [T.entries]
  have ho' := ho
  rw [Ordered, ht, List.pairwise_append] at ho'
  constructor
  · rw [Ordered, he, List.pairwise_append, List.pairwise_cons]
    refine ⟨ho'.1, ⟨hb.2, ho'.2.1⟩, ?_⟩
    intro x hx y hy
    rcases List.mem_cons.1 hy with rfl | hy
    · exact hb.1 x hx
    · exact ho'.2.2 x hx y hy
  · intro k'
    rw [he, ht]
    by_cases e : k' = k
    · subst e
      have : find k' (beforeC fs) = none := List.find?_eq_none.2 (fun x hx => by simpa using ne_of_lt (hb.1 x hx))
      unfold find at this ⊢
      simp [List.find?_append, this]
    · have e' : ¬ k = k' := fun h => e h.symm
      simp [find, List.find?_append, e, e']

theorem isNode_of_entries {t : T} (h : t.entries ≠ []) : t.isNode = true := by
  cases t with
  | leaf a => exact absurd rfl h
  | node => rfl

theorem fixUp_isNode {fs : List Frame} {t : T} (h : t.isNode = true) : (fixUp fs t).isNode = true := by
  refine isNode_of_entries ?_
  rw [fixUp_entries, plug_split]
  cases t with
  | leaf a => cases h
  | node => simp [T.entries]

/-- Cells outside of a table can be released. -/
theorem Valid.drop {σ : Store} {root np q : Nat} {t : T} (h : Valid σ root np t) (hq : q ∉ np :: t.addrs) :
    Valid (σ.setCell q none) root np t := by
  simp only [List.mem_cons, not_or] at hq
  refine ⟨h.root, h.rep.frame (fun a ha => setCell_other _ _ ?_) (fun _ _ => rfl), h.nodup, h.data, ?_, ?_⟩
  · rintro rfl; exact hq.2 ha
  · rw [setCell_other _ _ (Ne.symm hq.1)]; exact h.nil
  · intro p hp
    refine ⟨?_, (h.fresh p hp).2⟩
    simp only [Store.setCell]; split
    · rfl
    · exact (h.fresh p hp).1

/-- Pairs outside of a table can be released. -/
theorem Valid.dropData {σ : Store} {root np q : Nat} {t : T} (h : Valid σ root np t)
    (hq : q ∉ t.entries.map (·.1)) : Valid (σ.setData q none) root np t := by
  refine ⟨h.root, h.rep.frame (fun _ _ => rfl) (fun e he => ?_), h.nodup, h.data, h.nil, ?_⟩
  · have : e.1 ≠ q := by rintro rfl; exact hq (List.mem_map.2 ⟨e, he, rfl⟩)
    simp [Store.setData, this]
  · intro p hp
    refine ⟨(h.fresh p hp).1, ?_⟩
    simp only [Store.setData]; split
    · rfl
    · exact (h.fresh p hp).2

/-- `lisp_tree_add`: the table with the entry. An existing key keeps its pair. -/
theorem treeAdd_spec {σ : Store} {root d : Nat} {t : T} {k : Sym} {v : Val} (h : Table σ root t)
    (hd : σ.data d = some (k, v)) (hdt : d ∉ t.entries.map (·.1)) {n : Nat} (hn : t.height + 3 ≤ n) :
    ∃ root' σ' t', treeAdd n root d σ = .ok (root', σ') ∧ Table σ' root' t' ∧
      (∀ k', find k' t'.entries =
        if k' = k then some (((find k t.entries).map (·.1)).getD d, k, v) else find k' t.entries) ∧
      t'.entries.length ≤ t.entries.length + 1 ∧
      (find k t.entries = none → ∃ nd l r, t' =
        (fixUp (seek k [] t).1 (.node nd (.leaf l) d k v true (.leaf r))).withRed false) := by
  have hdlt : d < σ.next := Nat.lt_of_not_le fun hle => by rw [(h.fresh d hle).2] at hd; cases hd
  have hf := find_seek (k := k) h.ordered
  rcases h.shape with ⟨rfl, ⟨c, hc⟩, hfresh⟩ | ⟨hnode, hblack, np, hv⟩
  · -- the empty table
    have hr : root < σ.next := Nat.lt_of_not_le fun hle => by rw [(hfresh root hle).1] at hc; cases hc
    have hpar : ∀ σ' : Store, σ'.cells root = σ.cells root → rootParent root σ' = .ok (root, σ') := by
      intro σ' e
      unfold rootParent
      rw [TM.bind_apply, isNull_nil (e.trans hc)]; rfl
    obtain ⟨m, rfl⟩ : ∃ m, n = m + 1 := ⟨n - 1, by omega⟩
    have hc' : (withNode σ d root).cells root = some (.nil c) := (withNode_old hr).trans hc
    have hval : Valid (withNode σ d root) (σ.next + 2) root
        (plug [] (.node (σ.next + 2) (.leaf σ.next) d k v true (.leaf (σ.next + 1)))) := by
      refine ⟨rfl, ⟨by simp [withNode, T.addr], hd, by simp [withNode, Rep], by simp [withNode, Rep]⟩, ?_, ?_,
        ⟨c, hc'⟩, ?_⟩
      · simp only [plug, T.addrs, List.nodup_cons, List.cons_append, List.nil_append, List.mem_cons,
          List.not_mem_nil, or_false, not_or, List.nodup_nil, and_true, not_false_eq_true]
        omega
      · simp [plug, T.entries]
      · intro q hq
        have hq : σ.next + 3 ≤ q := hq
        obtain ⟨b1, b2⟩ := hfresh q (by omega)
        have h1 : q ≠ σ.next + 2 := by omega
        have h2 : q ≠ σ.next + 1 := by omega
        have h3 : q ≠ σ.next := by omega
        exact ⟨by simp [withNode, h1, h2, h3, b1], b2⟩
    obtain ⟨σ', a1, a2, _⟩ := addCheck_exit (σ.next + 2) m hval rfl (by simp)
    refine ⟨_, σ', _, ?_, ⟨?_, .inr ⟨rfl, rfl, root, a2⟩⟩, ?_, by simp [plug, T.withRed, T.entries],
      fun _ => ⟨_, _, _, rfl⟩⟩
    · unfold treeAdd
      rw [treeNew_ok hpar hr]
      unfold addNode
      rw [TM.bind_apply, TM.bind_apply, isNull_nil hc']
      exact a1
    · simp [Ordered, T.withRed, plug, T.entries]
    · intro k'
      by_cases e : k' = k
      · subst e; simp [find, plug, T.withRed, T.entries]
      · have e' : ¬ k = k' := fun h => e h.symm
        simp [find, plug, T.withRed, T.entries, e, e']
  · -- a table with entries
    obtain ⟨cell, hr1, hr2, _⟩ := node_cell hv.rep hnode
    rw [hv.root] at hr1
    have hrlt : root < σ.next := hv.lt_next root (by rw [← hv.root]; simp [T.addr_mem])
    have hpar : ∀ σ' : Store, σ'.cells root = σ.cells root → rootParent root σ' = .ok (np, σ') := by
      intro σ' e
      unfold rootParent
      rw [TM.bind_apply, isNull_node (e.trans hr1)]
      show parent root σ' = _
      rw [parent_ok (e.trans hr1), hr2]
    have hv1 := hv.withNode d np
    have hnd : (withNode σ d np).cells (σ.next + 2) = some (.node ⟨d, σ.next, σ.next + 1, np, true⟩) := by
      simp [withNode]
    have hd1 : (withNode σ d np).data d = some (k, v) := hd
    have hwalk := addWalk_spec hnd hd1 [] t (np := np) (y := root) (n := n) hv1.rep (by omega) (.inl hnode)
    rw [hv.root] at hwalk
    have hnull : isNull root (withNode σ d np) = .ok (false, withNode σ d np) :=
      isNull_node ((withNode_old hrlt).trans hr1)
    have hlt := hv.lt_next
    have hold : ∀ q, σ.next ≤ q → q ∉ np :: t.addrs := fun q hq hm => by have := hlt q hm; omega
    cases hs : seek k [] t with
    | mk fs u =>
      rw [hs] at hf hwalk
      have hp : plug fs u = t := by have := seek_plug k [] t; rwa [hs] at this
      cases u with
      | leaf a =>
        -- a new key
        obtain ⟨f, gs, rfl, hfg⟩ := seek_head k [] t hs hnode
        obtain ⟨σ2, a1, a2, a3, a4, a5⟩ := attach_spec (nd := σ.next + 2) (l := σ.next) (r := σ.next + 1)
          (hp.symm ▸ hv1) hnd hd1 (by simp [withNode]) (by simp [withNode]) (by simp)
          (by rw [hp]; intro q hq; apply hold; simp at hq; omega) (by rw [hp]; exact hdt) hfg
        have hlen := seek_length k [] t
        rw [hs] at hlen
        simp only [List.length_nil, Nat.zero_add] at hlen
        obtain ⟨σ3, b1, b2, b3, b4⟩ := addCheck_spec (nd := σ.next + 2) (n := n) (f :: gs) _ a2 rfl
          (fun g hg => by rw [last_red (f :: gs) (.leaf a) g hg, hp]; exact hblack) a3 (by omega)
        have hent : ((fixUp (f :: gs) (.node (σ.next + 2) (.leaf σ.next) d k v true
            (.leaf (σ.next + 1)))).withRed false).entries = beforeC (f :: gs) ++ (d, k, v) :: afterC (f :: gs) := by
          rw [T.withRed_entries, fixUp_entries, plug_split]; simp [T.entries]
        obtain ⟨c1, c2⟩ := insert_entries h.ordered hs hent
        have hlen' : t.entries.length = (beforeC (f :: gs)).length + (afterC (f :: gs)).length := by
          rw [← hp, plug_split]; simp [T.entries]
        refine ⟨_, σ3, _, ?_, ⟨c1, .inr ⟨?_, ?_, np, b2⟩⟩, ?_, by rw [hent, hlen']; simp; omega,
          fun _ => ⟨_, _, _, rfl⟩⟩
        · unfold treeAdd
          rw [treeNew_ok hpar hrlt]
          unfold addNode
          simp only [TM.bind_apply, hnull, Res.ok_bind, Bool.false_eq_true, if_false, hwalk, parOf, a1,
            TM.pure_apply]
          exact b1
        · exact isNode_of_entries (by rw [hent]; simp)
        · cases fixUp (f :: gs) (.node (σ.next + 2) (.leaf σ.next) d k v true (.leaf (σ.next + 1))) <;> rfl
        · intro k'
          rw [c2, hf]; rfl
      | node a l d' k' v' c r =>
        -- the key exists
        have hk := seek_key k [] t hs
        subst hk
        obtain ⟨hc1, hc2⟩ := seek_node hv hs
        have hdd : d ≠ d' := by
          rintro rfl
          refine hdt (List.mem_map.2 ⟨(d, k', v'), ?_, rfl⟩)
          rw [← hp, plug_split]; simp [T.entries]
        have hv2 := Valid.setValue (hp.symm ▸ hv1) (hp.symm ▸ hdt) hd1
        obtain ⟨ho, hfind⟩ := setValue_entries h.ordered hs v
        have haddr : (plug fs (.node a l d' k' v c r)).addrs.Perm t.addrs := by
          rw [← hp]
          exact (plug_addrs_perm fs (.node a l d' k' v c r)).trans
            (plug_addrs_perm fs (.node a l d' k' v' c r)).symm
        have hids : (plug fs (.node a l d' k' v c r)).entries.map (·.1) = t.entries.map (·.1) := by
          rw [← hp]; simp [plug_split, T.entries]
        have hold' : ∀ q, σ.next ≤ q → q ∉ np :: (plug fs (.node a l d' k' v c r)).addrs :=
          fun q hq hm => hold q hq ((haddr.cons np).mem_iff.1 hm)
        have hv3 := (((hv2.drop (hold' σ.next (by omega))).drop (hold' (σ.next + 1) (by omega))).drop
          (hold' (σ.next + 2) (by omega))).dropData (hids ▸ hdt)
        refine ⟨root, _, plug fs (.node a l d' k' v c r), ?_, ⟨ho, .inr ⟨?_, ?_, np, hv3⟩⟩, ?_,
          by have := congrArg List.length hids; simp at this; omega, fun h => by rw [hf] at h; cases h⟩
        · unfold treeAdd
          rw [treeNew_ok hpar hrlt]
          unfold addNode
          have hsw := swapValues_ok (σ := withNode σ d np) hc2 hd1 hdd
          simp only [TM.bind_apply, hnull, Res.ok_bind, Bool.false_eq_true, if_false, hwalk, hsw, TM.pure_apply]
          generalize hσs : swapped (withNode σ d np) d' d (k', v') (k', v) = σs
          have f0 : σs.cells = (withNode σ d np).cells := by rw [← hσs]; rfl
          have f1 : σs.data d = some (k', v') := by rw [← hσs]; simp [swapped, Store.setData]
          have g1 : σs.cells (σ.next + 2) = some (.node ⟨d, σ.next, σ.next + 1, np, true⟩) := by rw [f0, hnd]
          have g2 : σs.cells σ.next = some (.nil false) := by rw [f0]; simp [withNode]
          have g3 : σs.cells (σ.next + 1) = some (.nil false) := by rw [f0]; simp [withNode]
          rw [node_ok g1]
          simp [free, freeData, Store.setCell, g1, g2, g3, f1]
        · exact plug_isNode rfl
        · rw [← hp] at hblack
          rw [← hblack]; exact plug_isRed_congr rfl
        · intro k''
          rw [hfind, hf]; rfl

end Tree

end Mnml
