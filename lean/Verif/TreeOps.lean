import Verif.TreeSeek

/-!
# The operations on the table
-/

namespace Mnml

namespace Tree

/-- The memory holds the table `t` at `root`: an empty table is a NIL cell, another one is a tree with a
black root whose parent is a NIL cell. Keys increase from left to right. -/
structure Table (σ : Store) (root : Nat) (t : T) : Prop where
  ordered : Ordered t
  shape : (t = .leaf root ∧ (∃ c, σ.cells root = some (.nil c)) ∧
      ∀ p, σ.next ≤ p → σ.cells p = none ∧ σ.data p = none) ∨
    (t.isNode = true ∧ t.isRed = false ∧ ∃ np, Valid σ root np t)

theorem Table.fresh {σ : Store} {root : Nat} {t : T} (h : Table σ root t) :
    ∀ p, σ.next ≤ p → σ.cells p = none ∧ σ.data p = none := by
  rcases h.shape with ⟨_, _, h⟩ | ⟨_, _, np, h⟩
  · exact h
  · exact h.fresh

/-- Searching works on empty tables too. -/
theorem Table.getWalk {σ : Store} {root : Nat} {t : T} (h : Table σ root t) (k : Sym) {n : Nat}
    (hn : t.height < n) :
    Tree.getWalk k n root σ = .ok (match (seek k [] t).2 with
      | .leaf _ => none
      | .node a .. => some a, σ) := by
  rcases h.shape with ⟨rfl, ⟨c, hc⟩, _⟩ | ⟨_, _, np, hv⟩
  · obtain ⟨m, rfl⟩ : ∃ m, n = m + 1 := ⟨n - 1, by simp [T.height] at hn; omega⟩
    unfold Tree.getWalk
    rw [TM.bind_apply, isNull_nil hc]; rfl
  · rw [← hv.root]
    exact getWalk_spec k [] t hv.rep hn

/-- The pair of an entry is in memory. -/
theorem Rep.entry {σ : Store} {t : T} {par : Nat} (h : Rep σ t par) {e : Nat × Sym × Val} (he : e ∈ t.entries) :
    σ.data e.1 = some e.2 := by
  induction t generalizing par with
  | leaf a => simp [T.entries] at he
  | node a l d k v c r ihl ihr =>
    obtain ⟨_, h2, h3, h4⟩ := h
    simp only [T.entries, List.mem_append, List.mem_cons] at he
    rcases he with he | rfl | he
    · exact ihl h3 he
    · exact h2
    · exact ihr h4 he

theorem Table.entry {σ : Store} {root : Nat} {t : T} (h : Table σ root t) {e : Nat × Sym × Val}
    (he : e ∈ t.entries) : σ.data e.1 = some e.2 := by
  rcases h.shape with ⟨rfl, _⟩ | ⟨_, _, np, hv⟩
  · simp [T.entries] at he
  · exact hv.rep.entry he

/-- The node at the position of a key. -/
theorem seek_node {σ : Store} {root np : Nat} {t : T} {k k' : Sym} {fs : List Frame} {a d : Nat} {l r : T} {v : Val}
    {c : Bool} (h : Valid σ root np t) (hs : seek k [] t = (fs, .node a l d k' v c r)) :
    σ.cells a = some (.node ⟨d, l.addr, r.addr, parOf fs np, c⟩) ∧ σ.data d = some (k', v) := by
  have hp : plug fs (.node a l d k' v c r) = t := by have := seek_plug k [] t; rwa [hs] at this
  have := ((rep_plug σ fs (.node a l d k' v c r) np).1 (hp ▸ h.rep)).2
  exact ⟨this.1, this.2.1⟩

/-- `lisp_tree_get`: the pair of the entry. -/
theorem treeGet_spec {σ : Store} {root : Nat} {t : T} (h : Table σ root t) (k : Sym) {n : Nat} (hn : t.height < n) :
    treeGet n root k σ = .ok ((find k t.entries).map (·.1), σ) := by
  unfold treeGet
  rw [TM.bind_apply, h.getWalk k hn, find_seek h.ordered]
  cases hs : seek k [] t with
  | mk fs u =>
    cases u with
    | leaf a => rfl
    | node a l d k' v c r =>
      rcases h.shape with ⟨rfl, _⟩ | ⟨_, _, np, hv⟩
      · cases hs
      · show (node a >>= fun nx => pure (some nx.data)) σ = _
        rw [TM.bind_apply, node_ok (seek_node hv hs).1]; rfl

/-- Memory after the exchange of two values. -/
def swapped (σ : Store) (d d' : Nat) (kv kv' : Sym × Val) : Store :=
  (σ.setData d (some (kv.1, kv'.2))).setData d' (some (kv'.1, kv.2))

theorem swapValues_ok {σ : Store} {d d' : Nat} {kv kv' : Sym × Val} (h : σ.data d = some kv)
    (h' : σ.data d' = some kv') (hne : d' ≠ d) :
    swapValues d d' σ = .ok ((), swapped σ d d' kv kv') := by
  have e : (σ.setData d (some (kv.1, kv'.2))).data d' = some kv' := by simp [Store.setData, hne, h']
  unfold swapValues
  simp only [TM.bind_apply, readData, h, h', Res.ok_bind, writeValue, e]
  rfl

/-- The tree with another value at a position. -/
theorem Valid.setValue {σ : Store} {root np : Nat} {fs : List Frame} {a d d' : Nat} {l r : T} {k k' : Sym}
    {v v' : Val} {c : Bool} (h : Valid σ root np (plug fs (.node a l d k v c r)))
    (hd : d' ∉ (plug fs (.node a l d k v c r)).entries.map (·.1)) (hd' : σ.data d' = some (k', v')) :
    Valid (swapped σ d d' (k, v) (k', v')) root np (plug fs (.node a l d k v' c r)) := by
  obtain ⟨hroot, hrep, hnd, hdata, hnil, hfresh⟩ := h
  obtain ⟨hC, h1, h2, h3, h4⟩ := (rep_plug ..).1 hrep
  have hperm := plug_entries_perm fs (.node a l d k v c r)
  have hids := (hperm.map (·.1)).nodup hdata
  have hmem : ∀ e ∈ (T.node a l d k v c r).entries ++ entriesC fs, e.1 ≠ d' := by
    intro e he hed
    exact hd (List.mem_map.2 ⟨e, hperm.mem_iff.2 he, hed⟩)
  simp only [T.entries, List.append_assoc, List.cons_append, List.map_append, List.map_cons, List.nodup_append,
    List.nodup_cons, List.mem_append, List.mem_cons, List.mem_map, not_or] at hids
  obtain ⟨_, ⟨⟨hdr, hdC⟩, _⟩, hl⟩ := hids
  have key : ∀ e : Nat × Sym × Val, e.1 ≠ d → e.1 ≠ d' →
      (swapped σ d d' (k, v) (k', v')).data e.1 = σ.data e.1 := by
    intro e h1 h2; simp [swapped, Store.setData, h1, h2]
  have hdd : d ≠ d' := hmem (d, k, v) (by simp [T.entries])
  refine ⟨?_, ?_, ?_, ?_, hnil, ?_⟩
  · rw [newRoot_addr hroot]
    cases fs with
    | nil => exact hroot
    | cons f fs => rfl
  · refine (rep_plug ..).2 ⟨hC.frame (fun _ _ => rfl) ?_, h1, ?_, h3.frame (fun _ _ => rfl) ?_,
      h4.frame (fun _ _ => rfl) ?_⟩
    · exact fun e he => key e (fun x => hdC ⟨e, he, x⟩) (hmem e (by simp [he]))
    · simp [swapped, Store.setData, hdd]
    · exact fun e he => key e (fun x => hl e.1 ⟨e, he, rfl⟩ d (.inl rfl) x) (hmem e (by simp [T.entries, he]))
    · exact fun e he => key e (fun x => hdr ⟨e, he, x⟩) (hmem e (by simp [T.entries, he]))
  · exact (((plug_addrs_perm fs (.node a l d k v' c r)).trans
      (plug_addrs_perm fs (.node a l d k v c r)).symm).symm.cons np).nodup hnd
  · have e : (plug fs (.node a l d k v' c r)).entries.map (·.1) =
        (plug fs (.node a l d k v c r)).entries.map (·.1) := by simp [plug_split, T.entries]
    rw [e]; exact hdata
  · intro p hp
    have := hfresh p hp
    refine ⟨this.1, ?_⟩
    have hpd : p ≠ d := by rintro rfl; rw [this.2] at h2; cases h2
    have hpd' : p ≠ d' := by rintro rfl; rw [this.2] at hd'; cases hd'
    simp [swapped, Store.setData, hpd, hpd', this.2]

/-- Changing a value keeps the order of the keys and changes one association. -/
theorem setValue_entries {k : Sym} {t : T} {fs : List Frame} {a d : Nat} {l r : T} {v : Val} {c : Bool}
    (ho : Ordered t) (hs : seek k [] t = (fs, .node a l d k v c r)) (v' : Val) :
    Ordered (plug fs (.node a l d k v' c r)) ∧
      ∀ k', find k' (plug fs (.node a l d k v' c r)).entries =
        if k' = k then some (d, k, v') else find k' t.entries := by
  have hp : plug fs (.node a l d k v c r) = t := by have := seek_plug k [] t; rwa [hs] at this
  have hk : ∀ w, ((plug fs (.node a l d k w c r)).entries.map (fun e => e.2.1)) =
      (plug fs (.node a l d k v c r)).entries.map (fun e => e.2.1) := by
    intro w; simp [plug_split, T.entries]
  have ord : ∀ u : T, Ordered u ↔ (u.entries.map (fun e => e.2.1)).Pairwise (fun x y => symCompare x y = .lt) := by
    intro u; rw [List.pairwise_map]; rfl
  have ho' : Ordered (plug fs (.node a l d k v' c r)) := by
    rw [ord, hk, ← ord, hp]; exact ho
  refine ⟨ho', fun k' => ?_⟩
  rw [← hp]
  by_cases e : k' = k
  · subst e
    rw [if_pos rfl]
    have h2 := ho'
    rw [Ordered, plug_split] at h2
    have h3 := (List.pairwise_append.1 h2).2.2
    have h4 := (List.pairwise_append.1 (List.pairwise_append.1 h2).2.1).1
    have h5 := (List.pairwise_append.1 h4).2.2
    have n1 : find k' (beforeC fs) = none := List.find?_eq_none.2 (fun x hx => by
      simpa using ne_of_lt (h3 x hx (d, k', v') (by simp [T.entries])))
    have n2 : find k' l.entries = none := List.find?_eq_none.2 (fun x hx => by
      simpa using ne_of_lt (h5 x hx (d, k', v') (by simp)))
    unfold find at n1 n2 ⊢
    simp [plug_split, T.entries, List.find?_append, n1, n2]
  · rw [if_neg e]
    have e' : ¬ k = k' := fun h => e h.symm
    simp [find, plug_split, T.entries, List.find?_append, e']

/-- `lisp_tree_upd`: an existing key gets the new value, keeping its pair. -/
theorem treeUpd_spec {σ : Store} {root d₀ : Nat} {t : T} {k : Sym} {v₀ : Val} (h : Table σ root t)
    (hd : σ.data d₀ = some (k, v₀)) (hdt : d₀ ∉ t.entries.map (·.1)) {n : Nat} (hn : t.height < n) :
    ∃ σ' t', treeUpd n root d₀ σ = .ok ((find k t.entries).isSome, σ') ∧ Table σ' root t' ∧
      (∀ k', find k' t'.entries =
        if k' = k then (find k t.entries).map (fun e => (e.1, k, v₀)) else find k' t.entries) ∧
      t'.entries.length = t.entries.length := by
  have hf := find_seek (k := k) h.ordered
  have hr : readData d₀ σ = .ok ((k, v₀), σ) := by simp [readData, hd]
  cases hs : seek k [] t with
  | mk fs u =>
    rw [hs] at hf
    cases u with
    | leaf a =>
      refine ⟨σ, t, ?_, h, ?_, rfl⟩
      · unfold treeUpd
        rw [TM.bind_apply, hr, Res.ok_bind, TM.bind_apply, h.getWalk k hn, hs, hf]; rfl
      · intro k'
        rw [hf]
        split
        · rename_i e; rw [e, hf]; rfl
        · rfl
    | node a l d k' v c r =>
      have hk := seek_key k [] t hs
      subst hk
      rcases h.shape with ⟨rfl, _⟩ | ⟨hnode, hblack, np, hv⟩
      · cases hs
      · have hp : plug fs (.node a l d k' v c r) = t := by have := seek_plug k' [] t; rwa [hs] at this
        obtain ⟨hc1, hc2⟩ := seek_node hv hs
        have hdd : d₀ ≠ d := by
          rintro rfl
          refine hdt (List.mem_map.2 ⟨(d₀, k', v), ?_, rfl⟩)
          rw [← hp, plug_split]; simp [T.entries]
        have hv' := Valid.setValue (hp.symm ▸ hv) (hp.symm ▸ hdt) hd
        obtain ⟨ho, hfind⟩ := setValue_entries h.ordered hs v₀
        refine ⟨_, plug fs (.node a l d k' v₀ c r), ?_, ⟨ho, .inr ⟨?_, ?_, np, hv'⟩⟩, ?_, ?_⟩
        · unfold treeUpd
          rw [TM.bind_apply, hr, Res.ok_bind, TM.bind_apply, h.getWalk k' hn, hs, hf]
          show (node a >>= fun nx => swapValues nx.data d₀ >>= fun _ => pure true) σ = _
          rw [TM.bind_apply, node_ok hc1, Res.ok_bind, TM.bind_apply, swapValues_ok hc2 hd hdd]; rfl
        · rw [← hp] at hnode
          cases fs with
          | nil => rfl
          | cons f fs => exact plug_isNode_cons ..
        · rw [← hp] at hblack
          rw [← hblack]; exact plug_isRed_congr rfl
        · intro k''
          rw [hfind, hf]; rfl
        · rw [← hp, plug_split, plug_split]; simp [T.entries]

end Tree

end Mnml
