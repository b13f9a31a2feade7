import Verif.TreeRem

/-!
# C17: the next node

`tree_successor` (`lib/core/tree.c:30-57`) is used by the removal only for nodes with two children. The function is right for all nodes.
-/

namespace Mnml

namespace Tree

/-- The nodes from left to right: address, key and value. -/
def nodes : T → List (Nat × Sym × Val)
  | .leaf _ => []
  | .node a l _ k v _ r => nodes l ++ (a, k, v) :: nodes r

/-- The nodes on the left of a position. -/
def nodesBefore : List Frame → List (Nat × Sym × Val)
  | [] => []
  | f :: fs => if f.goLeft then nodesBefore fs else nodesBefore fs ++ (nodes f.sib ++ [(f.a, f.k, f.v)])

/-- The nodes on the right of a position. -/
def nodesAfter : List Frame → List (Nat × Sym × Val)
  | [] => []
  | f :: fs => if f.goLeft then (f.a, f.k, f.v) :: (nodes f.sib ++ nodesAfter fs) else nodesAfter fs

theorem nodes_plug (fs : List Frame) (t : T) : nodes (plug fs t) = nodesBefore fs ++ (nodes t ++ nodesAfter fs) := by
  induction fs generalizing t with
  | nil => simp [plug, nodesBefore, nodesAfter]
  | cons f fs ih =>
    rw [plug, ih, nodesBefore, nodesAfter, Frame.plug]
    cases f.goLeft <;> simp [nodes]

theorem nodes_entries (t : T) : (nodes t).map (·.2) = t.entries.map (·.2) := by
  induction t with
  | leaf a => rfl
  | node a l d k v c r ihl ihr => simp [nodes, T.entries, ihl, ihr]

theorem nodes_cell {σ : Store} {t : T} {par : Nat} (h : Rep σ t par) : ∀ e ∈ nodes t, ∃ x, σ.cells e.1 = some (.node x) ∧ σ.data x.data = some e.2 := by
  induction t generalizing par with
  | leaf a => intro e he; cases he
  | node a l d k v c r ihl ihr =>
    obtain ⟨h1, h2, h3, h4⟩ := h
    intro e he
    rw [nodes] at he
    rcases List.mem_append.1 he with he | he
    · exact ihl h3 e he
    · rcases List.mem_cons.1 he with rfl | he
      · exact ⟨_, h1, h2⟩
      · exact ihr h4 e he

/-- Every node of a tree is at a position. -/
theorem nodes_split (t : T) {pre post : List (Nat × Sym × Val)} {e : Nat × Sym × Val} (h : nodes t = pre ++ e :: post) :
    ∃ fs l d c r, t = plug fs (.node e.1 l d e.2.1 e.2.2 c r) ∧ post = nodes r ++ nodesAfter fs := by
  induction t generalizing pre post with
  | leaf a => cases pre <;> cases h
  | node a l d k v c r ihl ihr =>
    rw [nodes] at h
    rcases List.append_eq_append_iff.1 h with ⟨x, h1, h2⟩ | ⟨x, h1, h2⟩
    · cases x with
      | nil =>
        simp only [List.nil_append, List.cons.injEq] at h2
        obtain ⟨rfl, rfl⟩ := h2
        exact ⟨[], l, d, c, r, rfl, by simp [nodesAfter]⟩
      | cons y x =>
        simp only [List.cons_append, List.cons.injEq] at h2
        obtain ⟨fs, l', d', c', r', e1, e2⟩ := ihr h2.2
        refine ⟨fs ++ [⟨false, a, d, k, v, c, l⟩], l', d', c', r', ?_, ?_⟩
        · rw [plug_append, ← e1]; rfl
        · rw [e2]
          congr 1
          clear e1 e2
          induction fs with
          | nil => rfl
          | cons f fs ih => simp only [List.cons_append, nodesAfter, ih]
    · cases x with
      | nil =>
        simp only [List.nil_append, List.cons.injEq] at h2
        obtain ⟨rfl, rfl⟩ := h2
        exact ⟨[], l, d, c, r, rfl, by simp [nodesAfter]⟩
      | cons y x =>
        simp only [List.cons_append, List.cons.injEq] at h2
        obtain ⟨rfl, rfl⟩ := h2
        obtain ⟨fs, l', d', c', r', e1, e2⟩ := ihl h1
        refine ⟨fs ++ [⟨true, a, d, k, v, c, r⟩], l', d', c', r', ?_, ?_⟩
        · rw [plug_append, ← e1]; rfl
        · rw [e2, List.append_assoc]
          congr 1
          clear e1 e2
          induction fs with
          | nil => simp [nodesAfter]
          | cons f fs ih =>
            simp only [List.cons_append, nodesAfter, ← ih]
            split <;> simp

theorem plug_height (fs : List Frame) (t : T) : fs.length + t.height ≤ (plug fs t).height := by
  induction fs generalizing t with
  | nil => simp [plug]
  | cons f fs ih =>
    have := ih (f.plug t)
    have h2 : t.height + 1 ≤ (f.plug t).height := by
      unfold Frame.plug
      split <;> simp only [T.height] <;> omega
    rw [plug, List.length_cons]
    omega

/-- The leftmost node is the first one. -/
theorem minPath_first (t : T) (h : t.isNode = true) : ∃ e es, nodes t = e :: es ∧ (minPath t).2.addr = e.1 := by
  fun_induction minPath t with
  | case1 a a' l' d' k' v' c' r' d k v c r ih =>
    obtain ⟨e, es, e1, e2⟩ := ih rfl
    exact ⟨e, es ++ (a, k, v) :: nodes r, by rw [nodes, e1]; rfl, e2⟩
  | case2 t ht =>
    cases t with
    | leaf a => cases h
    | node a l d k v c r =>
      cases l with
      | leaf b => exact ⟨(a, k, v), nodes r, rfl, rfl⟩
      | node a' l' d' k' v' c' r' => exact absurd rfl (ht a a' l' d' k' v' c' r' d k v c r)

/-- The way up ends at the first node on the right of the position. -/
theorem climb_spec {σ : Store} {np : Nat} {b : Bool} (hnp : σ.cells np = some (.nil b)) (fs : List Frame) {x n : Nat} (h : RepC σ fs x np)
    (hd : (x :: addrsC fs).Nodup) (hn : fs.length < n) :
    climb n x (parOf fs np) σ = .ok (((nodesAfter fs).head?.map (·.1)).getD np, σ) := by
  induction fs generalizing x n with
  | nil =>
    obtain ⟨m, rfl⟩ : ∃ m, n = m + 1 := ⟨n - 1, by omega⟩
    unfold climb
    rw [parOf, TM.bind_apply, isNull_nil hnp]; rfl
  | cons f fs ih =>
    rw [List.length_cons] at hn
    obtain ⟨m, rfl⟩ : ∃ m, n = m + 1 := ⟨n - 1, by omega⟩
    obtain ⟨h1, h2, h3, h4⟩ := h
    unfold climb
    rw [parOf, TM.bind_apply, isNull_node h1, Res.ok_bind]
    show (right f.a >>= fun r => if x = r then parent f.a >>= fun p => climb m f.a p else pure f.a) σ = _
    rw [TM.bind_apply, right_ok h1, Res.ok_bind]
    cases hg : f.goLeft with
    | true =>
      have hx : x ≠ f.sib.addr := by
        intro e
        refine (List.nodup_cons.1 hd).1 ?_
        rw [e, addrsC]
        exact .tail _ (List.mem_append_left _ (T.addr_mem _))
      simp only [if_true, if_neg hx, nodesAfter, hg]
      rfl
    | false =>
      simp only [Bool.false_eq_true, if_false, if_true, nodesAfter, hg]
      rw [TM.bind_apply, parent_ok h1, Res.ok_bind]
      refine ih h4 ?_ (by omega)
      have := (List.nodup_cons.1 hd).2
      rw [addrsC] at this
      exact this.sublist (List.Sublist.cons_cons _ (List.sublist_append_right _ _))

/-- `tree_successor` of a node of a table. -/
theorem successor_spec {σ : Store} {root np n : Nat} {t : T} (hv : Valid σ root np t) (hn : t.height < n) {pre post : List (Nat × Sym × Val)}
    {e : Nat × Sym × Val} (h : nodes t = pre ++ e :: post) : successor n e.1 σ = .ok ((post.head?.map (·.1)).getD np, σ) := by
  obtain ⟨fs, l, d, c, r, rfl, rfl⟩ := nodes_split t h
  obtain ⟨hc, h1, h2, h3, h4⟩ := (rep_plug _ _ _ _).1 hv.rep
  have hh := plug_height fs (.node e.1 l d e.2.1 e.2.2 c r)
  simp only [T.height] at hh
  obtain ⟨b, hb⟩ := hv.nil
  unfold successor
  rw [TM.bind_apply, isNull_node h1, Res.ok_bind]
  show (right e.1 >>= fun r => isNull r >>= fun q => if q = true then parent e.1 >>= fun p => climb n e.1 p else minimum n r) σ = _
  rw [TM.bind_apply, right_ok h1, Res.ok_bind, TM.bind_apply]
  show (isNull r.addr σ >>= _) = _
  rw [isNull_rep h4, Res.ok_bind]
  cases hr : r.isNode with
  | true =>
    obtain ⟨e', es, q1, q2⟩ := minPath_first r hr
    simp only [Bool.not_true, Bool.false_eq_true, if_false]
    rw [minimum_spec r h4 (by omega), q2, q1]
    rfl
  | false =>
    cases r with
    | node => cases hr
    | leaf q =>
      simp only [Bool.not_false, if_true]
      rw [TM.bind_apply, parent_ok h1, Res.ok_bind]
      refine climb_spec hb fs hc ?_ (by omega)
      have := (plug_addrs_perm fs (.node e.1 l d e.2.1 e.2.2 c (.leaf q))).nodup_iff.1 (List.nodup_cons.1 hv.nodup).2
      refine this.sublist ?_
      rw [T.addrs, List.cons_append]
      exact List.Sublist.cons_cons _ (List.sublist_append_right _ _)

/-- **C17.** After every history, `tree_successor` of the node of an entry is the node of the entry with the next key, and a NIL cell for the last one. `es`
lists the nodes of the table with their keys and values. -/
theorem C17_successor (ops : List Op) {n : Nat} (hn : ops.length + 3 ≤ n) :
    ∃ root outs σ, ∃ es : List (Nat × Sym × Val), runOps n 0 ops empty = .ok ((root, outs), σ) ∧
      es.Pairwise (fun a b => symCompare a.2.1 b.2.1 = .lt) ∧
      (∀ k v, (∃ a, (a, k, v) ∈ es) ↔ applyAll (fun _ => none) ops k = some v) ∧
      (∀ e ∈ es, ∃ x, σ.cells e.1 = some (.node x) ∧ σ.data x.data = some e.2) ∧
      (∀ pre e e' post, es = pre ++ e :: e' :: post → successor n e.1 σ = .ok (e'.1, σ)) ∧
      ∀ pre e, es = pre ++ [e] → ∃ np b, successor n e.1 σ = .ok (np, σ) ∧ σ.cells np = some (.nil b) := by
  obtain ⟨r, σ, h, t, ht, hm, hlen⟩ := runOps_spec ops holds_empty (n := n) (by omega)
  have hh := height_le t
  have hmem := ht.mem_iff hm
  have hord : (t.entries.map (·.2)).Pairwise (fun a b => symCompare a.1 b.1 = .lt) := by
    rw [List.pairwise_map]; exact ht.ordered
  rw [← nodes_entries] at hmem hord
  refine ⟨r, _, σ, nodes t, h, List.pairwise_map.1 hord, ?_, ?_⟩
  · intro k v
    rw [← hmem k v, List.mem_map]
    constructor
    · rintro ⟨a, ha⟩; exact ⟨_, ha, rfl⟩
    · rintro ⟨⟨a, k', v'⟩, ha, e⟩; cases e; exact ⟨a, ha⟩
  · rcases ht.shape with ⟨rfl, _, _⟩ | ⟨h1, _, np, hv⟩
    · refine ⟨fun e he => (List.not_mem_nil he).elim, fun pre e e' post he => ?_, fun pre e he => ?_⟩ <;> cases pre <;> cases he
    · refine ⟨nodes_cell hv.rep, fun pre e e' post he => ?_, fun pre e he => ?_⟩
      · exact successor_spec hv (by omega) he
      · obtain ⟨b, hb⟩ := hv.nil
        exact ⟨np, b, successor_spec hv (by omega) he, hb⟩

end Tree

end Mnml
