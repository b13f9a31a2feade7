import Verif.TreeRem

/-!
# C16: removal from a table
-/

namespace Mnml

namespace Tree

/-- Insert keys. -/
def addKeys (n root : Nat) (ks : List Sym) : TM Nat := do
  let q ← runOps n root (ks.map fun k => .add k .nil)
  pure q.1

/-- The keys of a table in order. -/
def keysOf (n root : Nat) : TM (List Sym) := do
  let q ← dfs (fun _ _ => false) n root
  pure (q.1.map (·.1))

private def s05 : Sym := Sym.ofChars ['0', '5']
private def s10 : Sym := Sym.ofChars ['1', '0']
private def s15 : Sym := Sym.ofChars ['1', '5']
private def s20 : Sym := Sym.ofChars ['2', '0']

/-- **C16, counterexample.** Removing `05` from the table with the keys `10`, `05`, `15`, `20` dereferences a NIL
cell: case 4 of the fix-up assigns the new root to `x` instead of ending the loop. -/
theorem C16_crash_counterexample :
    (do
      let r ← addKeys 20 0 [s10, s05, s15, s20]
      let r ← treeRem 20 r s05
      keysOf 20 r : TM (List Sym)).value empty = .ub .badPointer := by
  decide +kernel

/-- **C16, counterexample.** Removing a key that is not in the table answers an empty table, so that assigning the
answer loses all entries. -/
theorem C16_absent_counterexample :
    (do
      let r ← addKeys 20 0 [s10, s05]
      let r' ← treeRem 20 r s15
      let ks ← keysOf 20 r
      let ks' ← keysOf 20 r'
      pure (ks, ks') : TM (List Sym × List Sym)).value empty = .ok ([s05, s10], []) := by
  decide +kernel

/-- **C16, counterexample.** A removal may leave a red root, and the next insertion then dereferences a NIL cell. -/
theorem C16_red_root_counterexample :
    (do
      let r ← addKeys 20 0 [s10, s15]
      let r ← treeRem 20 r s10
      addKeys 20 r [s20] : TM Nat).value empty = .ub .badPointer := by
  decide +kernel

/-- **C16, counterexample.** A removal may end and answer a node below the root: of the keys `a` to `f`, removing `a` only leaves
`d`. -/
theorem C16_lost_counterexample :
    (do
      let r ← addKeys 20 0 (['a', 'b', 'c', 'd', 'e', 'f'].map fun c => Sym.ofChars [c])
      let r ← treeRem 20 r (Sym.ofChars ['a'])
      keysOf 20 r : TM (List Sym)).value empty = .ok [Sym.ofChars ['d']] := by
  decide +kernel

/-! ## What a removal that ends leaves behind -/

theorem without_plug {a d : Nat} {fs : List Frame} {l r : T} {k : Sym} {v : Val} {c : Bool}
    (ho : Ordered (plug fs (.node a l d k v c r))) :
    without k (plug fs (.node a l d k v c r)).entries = beforeC fs ++ ((l.entries ++ r.entries) ++ afterC fs) := by
  rw [Ordered, plug_split] at ho
  rw [plug_split]
  simp only [T.entries, List.append_assoc, List.cons_append] at ho ⊢
  rw [← List.append_assoc] at ho ⊢
  rw [without_split ho]; simp

/-- The rest of the removal after a node has been taken out, if it ends. -/
theorem remove_valid {σ σ' : Store} {root np a d n r : Nat} {fs : List Frame} {l rr : T} {k : Sym} {v : Val} {c : Bool}
    (h : Valid σ root np (plug fs (.node a l d k v c rr))) (ho : Ordered (plug fs (.node a l d k v c rr)))
    (hn : (T.node a l d k v c rr).height < n) (hw : getWalk k n root σ = .ok (some a, σ))
    (hrun : treeRem n root k σ = .ok (r, σ')) :
    ∃ t', t'.entries = without k (plug fs (.node a l d k v c rr)).entries ∧
      (Table σ' r t' ∨ ∃ rt m, Valid σ' rt np t' ∧ r ∈ t'.addrs ∧ σ'.cells r = some (.node m)) := by
  have hent : without k (plug fs (.node a l d k v c rr)).entries = beforeC fs ++ ((l.entries ++ rr.entries) ++ afterC fs) :=
    without_plug ho
  obtain ⟨y, p, q, x, σ1, ny, h1, h2, h3, h4, h5, h6, h7, h8, h9, h10, h11, h12, h13, h14, hz, h15⟩ := takeOut_spec h hn
  rw [treeRem_eq hw, TM.bind_apply, h1, Res.ok_bind] at hrun
  rw [hent]
  have hcol : colored y σ1 = .ok (ny.red, σ1) := colored_node h4
  have hdat : σ1.data ny.data = some (k, v) := by
    rw [h2, h5]
    exact ((rep_plug ..).1 h.rep).2.2.1
  rcases h15 with ⟨rfl, hl, hr, hp, hq, hx, hσ⟩ | ⟨t1, par, g1, g2, g3, g4, g5, g6, g7, g8, g9, g10, g11, g12, g13⟩
  · -- the last entry
    have hle : ∀ t : T, t.isNode = false → t.entries = [] := by
      intro t ht; cases t with
      | leaf => rfl
      | node => cases ht
    refine ⟨.leaf r, by simp [T.entries, beforeC, afterC, hle _ hl, hle _ hr], .inl ?_⟩
    rw [hp, hq, hx] at hrun
    obtain ⟨σ2, r1, r2, r3, r4, r5, r6⟩ := release_spec (x := np) h4 (fun _ => h10) (fun _ => h11) h7 h8 h9 ⟨_, hdat⟩
    have hrun' : r = np ∧ σ' = σ2 := by
      have e1 : remCheck n np np np σ1 = .ok (np, σ1) := by
        obtain ⟨m, rfl⟩ : ∃ m, n = m + 1 := ⟨n - 1, by omega⟩
        unfold remCheck remMore
        rw [if_pos rfl]; rfl
      simp only [TM.bind_apply, hcol, Res.ok_bind] at hrun
      split at hrun
      · simp only [TM.bind_apply, r1, Res.ok_bind] at hrun
        cases hrun; exact ⟨rfl, rfl⟩
      · simp only [TM.bind_apply, e1, r1, Res.ok_bind] at hrun
        cases hrun; exact ⟨rfl, rfl⟩
    obtain ⟨er, es⟩ := hrun'
    subst er es hσ
    refine ⟨by simp [Ordered, T.entries], .inl ⟨rfl, ?_, ?_⟩⟩
    · rw [r3 r h12 (fun _ => rfl) (fun _ => rfl)]
      exact h.nil
    · intro b hb
      rw [r2] at hb
      exact ⟨r4 b (h.fresh b hb).1, r6 b (h.fresh b hb).2⟩
  · -- the loop keeps the tree
    have hloop : ∀ σ2 next, Loop t1.addrs t1.entries np σ1 (kind σ1) σ2 → (next ∈ t1.addrs ∧ kind σ1 next = some true) →
        (release y x >>= fun _ => pure next) σ2 = .ok (r, σ') →
        ∃ t', t'.entries = beforeC fs ++ ((l.entries ++ rr.entries) ++ afterC fs) ∧
          (Table σ' r t' ∨ ∃ rt m, Valid σ' rt np t' ∧ r ∈ t'.addrs ∧ σ'.cells r = some (.node m)) := by
      intro σ2 next hL hnext hrun
      obtain ⟨⟨⟨rt, t2, hv2, he2, hp2⟩, hd2, hn2, hc2⟩, hk2⟩ := hL
      have out : ∀ b, b ∉ t1.addrs → σ2.cells b = σ1.cells b := hc2
      have hch : ∀ b, (∃ c, σ1.cells b = some c) → ∃ c, σ2.cells b = some c := by
        intro b hb
        by_cases hh : b ∈ t1.addrs
        · exact hv2.rep.some _ (hp2.mem_iff.2 hh)
        · rw [out b hh]; exact hb
      obtain ⟨σ3, r1, r2, r3, r4, r5, r6⟩ := release_spec (σ := σ2) (x := x) (by rw [out y g6]; exact h4)
        (fun _ => hch _ h10) (fun _ => hch _ h11) h7 h8 h9 ⟨_, by rw [hd2]; exact hdat⟩
      rw [TM.bind_apply, r1, Res.ok_bind] at hrun
      have er : r = next := by cases hrun; rfl
      have es : σ' = σ3 := by cases hrun; rfl
      subst er es
      have hkeep : ∀ b ∈ np :: t2.addrs, σ'.cells b = σ2.cells b := by
        intro b hb
        rcases List.mem_cons.1 hb with rfl | hb
        · exact r3 b h12 (fun e => absurd e h13) (fun e => absurd e h14)
        · have hb1 := hp2.mem_iff.1 hb
          refine r3 b (fun e => g6 (by rw [← e]; exact hb1)) (fun e => ?_) (fun e => ?_)
          · by_cases hx : ny.left = x
            · exact e.trans hx
            · exact absurd (by rw [← e]; exact hb1) (g7 hx)
          · by_cases hx : ny.right = x
            · exact e.trans hx
            · exact absurd (by rw [← e]; exact hb1) (g8 hx)
      have hv3 : Valid σ' rt np t2 := by
        refine hv2.frame hkeep (fun e he => r5 e.1 (fun e' => ?_)) r2 r4 r6
        rw [he2] at he
        exact g9 (by rw [← h5, ← e']; exact List.mem_map_of_mem he)
      refine ⟨t2, he2.trans g3, .inr ⟨rt, ?_⟩⟩
      have hr2 : r ∈ t2.addrs := hp2.mem_iff.2 hnext.1
      rw [← hk2] at hnext
      obtain ⟨m, hm⟩ := node_kind hnext.2
      exact ⟨m, hv3, hr2, by rw [hkeep r (List.mem_cons_of_mem _ hr2)]; exact hm⟩
    have hq : q ∈ t1.addrs ∧ kind σ1 q = some true := by
      rw [← g2.root]
      refine ⟨t1.addr_mem, ?_⟩
      obtain ⟨m, hm⟩ := node_cell g2.rep g1
      exact kind_node hm.1
    have hL : Loop t1.addrs t1.entries np σ1 (kind σ1) σ1 :=
      ⟨⟨⟨q, t1, g2, rfl, .refl _⟩, rfl, rfl, fun _ _ => rfl⟩, rfl⟩
    simp only [TM.bind_apply, hcol, Res.ok_bind] at hrun
    split at hrun
    · exact hloop σ1 q hL hq hrun
    · rw [TM.bind_apply] at hrun
      cases hc : remCheck n q p x σ1 with
      | ok z =>
        rw [hc, Res.ok_bind] at hrun
        obtain ⟨w1, w2⟩ := wpT_remCheck hL hq g5 (.inr g4) z.1 z.2 hc
        exact hloop z.2 z.1 w1 w2 hrun
      | ub u => rw [hc] at hrun; cases hrun
      | abort => rw [hc] at hrun; cases hrun
      | oof => rw [hc] at hrun; cases hrun
      | unsupported => rw [hc] at hrun; cases hrun

/-- The tree around a key that is present. -/
theorem present {σ : Store} {root n : Nat} {t : T} {k : Sym} {e : Nat × Sym × Val} (h : Table σ root t)
    (hk : find k t.entries = some e) (hn : t.height < n) :
    ∃ fs a l d v c r np, seek k [] t = (fs, .node a l d k v c r) ∧ t = plug fs (.node a l d k v c r) ∧ Valid σ root np t ∧ t.isRed = false ∧
      (T.node a l d k v c r).height < n ∧ getWalk k n root σ = .ok (some a, σ) := by
  rcases h.shape with ⟨rfl, _⟩ | ⟨_, hred, np, hv⟩
  · simp [T.entries, find] at hk
  · have hf := find_seek (k := k) h.ordered
    have hw := h.getWalk k hn
    have hp : plug (seek k [] t).1 (seek k [] t).2 = t := seek_plug k [] t
    rw [hk] at hf
    generalize hs : seek k [] t = s at *
    obtain ⟨fs, u⟩ := s
    cases u with
    | leaf a => cases hf
    | node a l d k' v c r =>
      have hkk := seek_key k [] t hs
      subst hkk
      refine ⟨fs, a, l, d, v, c, r, np, rfl, hp.symm, hv, hred, ?_, hw⟩
      have : ∀ (fs : List Frame) (u : T), u.height ≤ (plug fs u).height := by
        intro fs
        induction fs with
        | nil => exact fun _ => Nat.le_refl _
        | cons f fs ih =>
          intro u
          refine Nat.le_trans ?_ (ih (f.plug u))
          unfold Frame.plug
          split <;> simp only [T.height] <;> omega
      have h1 := this fs (.node a l d k' v c r)
      rw [show plug fs (.node a l d k' v c r) = t from hp] at h1
      omega

/-- **C16, partial.** Whenever the removal of a key that is in the table ends, the memory holds a tree with all other
entries, in the same order, and without the key. The answer is a node of this tree (or the empty table), but not always its root. -/
theorem C16_entries_partial {σ σ' : Store} {root n r : Nat} {t : T} {k : Sym} {e : Nat × Sym × Val} (h : Table σ root t)
    (hk : find k t.entries = some e) (hn : t.height < n) (hrun : treeRem n root k σ = .ok (r, σ')) :
    ∃ t', t'.entries = without k t.entries ∧
      (Table σ' r t' ∨ ∃ rt np m, Valid σ' rt np t' ∧ r ∈ t'.addrs ∧ σ'.cells r = some (.node m)) := by
  obtain ⟨fs, a, l, d, v, c, rr, np, _, rfl, hv, _, hh, hw⟩ := present h hk hn
  obtain ⟨t', h1, h2⟩ := remove_valid hv h.ordered hh hw hrun
  refine ⟨t', h1, ?_⟩
  rcases h2 with h2 | ⟨rt, m, h2⟩
  · exact .inl h2
  · exact .inr ⟨rt, np, m, h2⟩

/-- The answer is fit to be used as a table: a NIL cell, or a black node whose parent is a NIL cell. -/
def GoodRoot (σ : Store) (r : Nat) : Prop :=
  (∃ c, σ.cells r = some (.nil c)) ∨
    ∃ m c, σ.cells r = some (.node m) ∧ m.red = false ∧ σ.cells m.parent = some (.nil c)

/-- **C16, partial.** If the removal of a key that is in the table ends, and answers a black node without parent or a NIL cell, then the
answer is the table without this key: every other key has the same value as before.
What is missing: the removal need not end, the answer may be another node, and the answer may be red (see the counterexamples). -/
theorem C16_remove_partial {σ σ' : Store} {root n r s : Nat} {m : Map} {k : Sym} (h : Holds σ root m s) (hk : m k ≠ none)
    (hn : s < n) (hrun : treeRem n root k σ = .ok (r, σ')) (hg : GoodRoot σ' r) :
    Holds σ' r (fun k' => if k' = k then none else m k') s := by
  obtain ⟨t, ht, hm, hs⟩ := h
  have hk' : ∃ e, find k t.entries = some e := by
    cases hf : find k t.entries with
    | none => rw [← hm, hf] at hk; exact absurd rfl hk
    | some e => exact ⟨e, rfl⟩
  obtain ⟨e, hk'⟩ := hk'
  obtain ⟨t', h1, h2⟩ := C16_entries_partial ht hk' (Nat.lt_of_le_of_lt (Nat.le_trans (height_le t) hs) hn) hrun
  refine ⟨t', ?_, ?_, ?_⟩
  · rcases h2 with h2 | ⟨rt, np, mm, hv, hr, hmm⟩
    · exact h2
    · have hord : Ordered t' := by
        have := ht.ordered
        rw [Ordered] at this ⊢
        rw [h1]
        exact this.sublist List.filter_sublist
      refine ⟨hord, .inr ?_⟩
      obtain ⟨fs, u, rfl, hu⟩ := locate t' hr
      have hrep := (rep_plug ..).1 hv.rep
      have hun : ∃ l d k v c rr, u = .node r l d k v c rr := by
        cases u with
        | leaf b =>
          have hu : b = r := hu
          subst hu
          rw [show σ'.cells b = _ from hrep.2] at hmm; cases hmm
        | node b l d k v c rr =>
          have hu : b = r := hu
          subst hu
          exact ⟨l, d, k, v, c, rr, rfl⟩
      obtain ⟨l, d, kk, v, c, rr, rfl⟩ := hun
      have hcell : σ'.cells r = some (.node ⟨d, l.addr, rr.addr, parOf fs np, c⟩) := hrep.2.1
      rcases hg with ⟨c', hg⟩ | ⟨m', c', hg, hred, hpar⟩
      · rw [hcell] at hg; cases hg
      · rw [hcell] at hg; cases hg
        cases fs with
        | nil => exact ⟨rfl, hred, np, by have hrt : r = rt := hv.root; subst hrt; exact hv⟩
        | cons f fs =>
          have := hrep.1.1
          rw [show σ'.cells f.a = _ from hpar] at this; cases this
  · intro k'
    rw [h1, find_without]
    by_cases e : k' = k
    · simp only [e, if_true]; rfl
    · simp only [e, if_false]; exact hm k'
  · rw [h1]
    exact Nat.le_trans (List.length_filter_le _ _) hs

/-- **C16, partial.** Let `u` be the node of a key of the table. The removal takes out `u` itself, or the leftmost node of its right
subtree if `u` has two children; the only child of the node taken out, or a NIL cell, takes its place. If the node taken out is not the
root, and it or its heir is red, then the removal ends and answers the table without the key. If the node taken out is red, a balanced
table stays balanced.
What is missing: black nodes without a red child (see the counterexamples). -/
theorem C16_red_partial {σ : Store} {root n a d : Nat} {t l r : T} {fs : List Frame} {k : Sym} {v : Val} {c : Bool}
    (h : Table σ root t) (hs : seek k [] t = (fs, .node a l d k v c r)) (hn : t.height < n)
    (hroot : fs ≠ [] ∨ (l.isNode = true ∧ r.isNode = true))
    (hred : (T.node a l d k v c r).victim.isRed = true ∨ (T.node a l d k v c r).victim.heir.isRed = true) :
    ∃ r' σ' t', treeRem n root k σ = .ok (r', σ') ∧ Table σ' r' t' ∧ t'.entries = without k t.entries ∧
      ∀ H, RB t H → (T.node a l d k v c r).victim.isRed = true → ∃ H', RB t' H' := by
  have hf := find_seek (k := k) h.ordered
  rw [hs] at hf
  obtain ⟨fs', a', l', d', v', c', r', np, hs', ht, hv, hbl, hh, hw⟩ := present h hf hn
  rw [hs] at hs'
  cases hs'
  subst ht
  have ho := h.ordered
  have hent : without k (plug fs (.node a l d k v c r)).entries = beforeC fs ++ ((l.entries ++ r.entries) ++ afterC fs) :=
    without_plug ho
  obtain ⟨y, p, q, x, σ1, ny, h1, h2, h3, h4, h5, h6, h7, h8, h9, h10, h11, h12, h13, h14, hz, h15⟩ := takeOut_spec hv hh
  rw [treeRem_eq hw, TM.bind_apply, h1, Res.ok_bind]
  have hcol : colored y σ1 = .ok (ny.red, σ1) := colored_node h4
  have hdat : σ1.data ny.data = some (k, v) := by
    rw [h2, h5]
    exact ((rep_plug ..).1 hv.rep).2.2.1
  rcases h15 with ⟨rfl, hl, _⟩ | ⟨t1, par, g1, g2, g3, g4, g5, g6, g7, g8, g9, g10, g11, g12, g13⟩
  · rcases hroot with hroot | hroot
    · exact absurd rfl hroot
    · rw [hl] at hroot; cases hroot.1
  · obtain ⟨σ3, r1, r2, r3, r4, r5, r6⟩ := release_spec (x := x) h4 (fun _ => h10) (fun _ => h11) h7 h8 h9 ⟨_, hdat⟩
    have hkeep : ∀ b ∈ np :: t1.addrs, σ3.cells b = σ1.cells b := by
      intro b hb
      rcases List.mem_cons.1 hb with rfl | hb
      · exact r3 b h12 (fun e => absurd e h13) (fun e => absurd e h14)
      · refine r3 b (fun e => g6 (by rw [← e]; exact hb)) (fun e => ?_) (fun e => ?_)
        · by_cases hx : ny.left = x
          · exact e.trans hx
          · exact absurd (by rw [← e]; exact hb) (g7 hx)
        · by_cases hx : ny.right = x
          · exact e.trans hx
          · exact absurd (by rw [← e]; exact hb) (g8 hx)
    have hv3 : Valid σ3 q np t1 := by
      refine g2.frame hkeep (fun e he => r5 e.1 (fun e' => ?_)) r2 r4 r6
      exact g9 (by rw [← h5, ← e']; exact List.mem_map_of_mem he)
    refine ⟨q, σ3, t1, ?_, ⟨?_, .inr ⟨g1, (g10 hroot).trans hbl, np, hv3⟩⟩, g3.trans hent.symm, g13⟩
    · simp only [TM.bind_apply, hcol, Res.ok_bind]
      cases hc : ny.red with
      | true => simp only [if_true, TM.bind_apply, r1, Res.ok_bind]; rfl
      | false =>
        rw [← h6, hc] at hred
        have hred' : (T.node a l d k v c r).victim.heir.isRed = true := by simpa using hred
        have e1 : remCheck n q p x σ1 = .ok (q, σ1) := by
          obtain ⟨m, rfl⟩ : ∃ m, n = m + 1 := ⟨n - 1, by omega⟩
          have e2 : remMore q x σ1 = .ok (false, σ1) := by
            unfold remMore
            split
            · rfl
            · rw [TM.bind_apply, g11, colored_rep g12, Res.ok_bind, hred']; rfl
          unfold remCheck
          rw [TM.bind_apply, e2]; rfl
        simp only [Bool.false_eq_true, if_false, TM.bind_apply, e1, r1, Res.ok_bind]; rfl
    · rw [Ordered, g3, ← hent]
      exact ho.sublist List.filter_sublist

/-- A memory with the keys `10` (black root) and `15` (red). -/
private def two : Store where
  cells := fun p => match p with
    | 0 => some (.nil false)
    | 1 => some (.node ⟨0, 2, 3, 0, false⟩)
    | 2 => some (.nil false)
    | 3 => some (.node ⟨1, 4, 5, 1, true⟩)
    | 4 => some (.nil false)
    | 5 => some (.nil false)
    | _ => none
  data := fun p => match p with
    | 0 => some (s10, .nil)
    | 1 => some (s15, .nil)
    | _ => none
  next := 6

private def twoT : T := .node 1 (.leaf 2) 0 s10 .nil false (.node 3 (.leaf 4) 1 s15 .nil true (.leaf 5))

/-- The hypotheses of the partial theorems can be met: this memory holds a table, and the node of `15` is red. -/
example : Table two 1 twoT ∧ Holds two 1 (fun k => (find k twoT.entries).map (·.2.2)) 2 ∧
    (∃ fs, fs ≠ [] ∧ seek s15 [] twoT = (fs, .node 3 (.leaf 4) 1 s15 .nil true (.leaf 5))) ∧
    (T.node 3 (.leaf 4) 1 s15 .nil true (.leaf 5)).victim.isRed = true ∧ find s15 twoT.entries = some (1, s15, .nil) := by
  have ht : Table two 1 twoT := by
    refine ⟨?_, .inr ⟨rfl, rfl, 0, ⟨rfl, ⟨rfl, rfl, rfl, ⟨rfl, rfl, rfl, rfl⟩⟩, by decide +kernel, by decide +kernel, ⟨false, rfl⟩, ?_⟩⟩⟩
    · unfold Ordered; decide +kernel
    · intro p hp
      have hp : 6 ≤ p := hp
      obtain ⟨q, rfl⟩ : ∃ q, p = q + 6 := ⟨p - 6, by omega⟩
      exact ⟨rfl, rfl⟩
  refine ⟨ht, ⟨twoT, ht, fun _ => rfl, by decide⟩, ⟨[⟨false, 1, 0, s10, .nil, false, .leaf 2⟩], by simp, ?_⟩, rfl, ?_⟩
  · simp only [seek, twoT]
    rw [show symCompare s15 s10 = .gt by decide +kernel]
    simp only [seek, symCompare_self]
  · unfold find twoT
    simp only [T.entries, List.nil_append, List.find?_cons]
    rw [show decide (s10 = s15) = false by decide +kernel]
    simp

/-- A removal that ends with a root that is good, and the keys afterwards. -/
example :
    (do
      let r ← addKeys 20 0 [s10, s05, s15]
      let r ← treeRem 20 r s15
      let ks ← keysOf 20 r
      let r ← treeRem 20 r s10
      let ks' ← keysOf 20 r
      pure (ks, ks') : TM (List Sym × List Sym)).value empty = .ok ([s05, s10], [s05]) := by
  decide +kernel

end Tree

end Mnml
