import Verif.TreeAdd

/-!
# Searching the table
-/

namespace Mnml

namespace Tree

theorem plug_isNode_frame (f : Frame) (t : T) : (f.plug t).isNode = true := by
  unfold Frame.plug; split <;> rfl

theorem plug_isNode {fs : List Frame} {t : T} (h : t.isNode = true) : (plug fs t).isNode = true := by
  induction fs generalizing t with
  | nil => exact h
  | cons f fs ih => exact ih (plug_isNode_frame f t)

theorem plug_isNode_cons (f : Frame) (fs : List Frame) (t : T) : (plug (f :: fs) t).isNode = true :=
  plug_isNode (fs := fs) (plug_isNode_frame f t)

theorem plug_isRed_congr {fs : List Frame} {t u : T} (h : t.isRed = u.isRed) :
    (plug fs t).isRed = (plug fs u).isRed := by
  induction fs generalizing t u with
  | nil => exact h
  | cons f fs ih =>
    refine ih ?_
    unfold Frame.plug
    split <;> rfl

theorem plug_height_congr {fs : List Frame} {t u : T} (h : t.height = u.height) :
    (plug fs t).height = (plug fs u).height := by
  induction fs generalizing t u with
  | nil => exact h
  | cons f fs ih =>
    refine ih ?_
    unfold Frame.plug
    split <;> simp [T.height, h]

/-- The outermost frame has the colour of the root. -/
theorem last_red (fs : List Frame) (t : T) : ∀ f ∈ fs.getLast?, f.red = (plug fs t).isRed := by
  induction fs generalizing t with
  | nil => simp
  | cons f fs ih =>
    intro g hg
    cases fs with
    | nil =>
      simp at hg; subst hg
      show f.red = (f.plug t).isRed
      unfold Frame.plug; split <;> rfl
    | cons h hs => exact ih (f.plug t) g (by simpa [List.getLast?_cons_cons] using hg)

/-- Keys increase from left to right. -/
def Ordered (t : T) : Prop := t.entries.Pairwise fun e e' => symCompare e.2.1 e'.2.1 = .lt

/-- The way from the root to the position of a key. -/
def seek (k : Sym) : List Frame → T → List Frame × T
  | fs, .leaf a => (fs, .leaf a)
  | fs, .node a l d k' v c r =>
    match symCompare k k' with
    | .lt => seek k (⟨true, a, d, k', v, c, r⟩ :: fs) l
    | .eq => (fs, .node a l d k' v c r)
    | .gt => seek k (⟨false, a, d, k', v, c, l⟩ :: fs) r

theorem seek_plug (k : Sym) (fs : List Frame) (t : T) : plug (seek k fs t).1 (seek k fs t).2 = plug fs t := by
  fun_induction seek k fs t with
  | case1 => rfl
  | case2 fs a l d k' v c r h ih => rw [ih]; rfl
  | case3 => rfl
  | case4 fs a l d k' v c r h ih => rw [ih]; rfl

theorem seek_length (k : Sym) (fs : List Frame) (t : T) :
    (seek k fs t).1.length ≤ fs.length + t.height := by
  fun_induction seek k fs t with
  | case1 => simp
  | case2 fs a l d k' v c r h ih => simp only [T.height, List.length_cons] at *; omega
  | case3 => simp
  | case4 fs a l d k' v c r h ih => simp only [T.height, List.length_cons] at *; omega

/-- The side taken last, if the search ends at a leaf. -/
theorem seek_head (k : Sym) (fs : List Frame) (t : T) {fs' : List Frame} {a : Nat}
    (h : seek k fs t = (fs', .leaf a)) (hn : t.isNode = true) :
    ∃ f gs, fs' = f :: gs ∧ (f.goLeft = true ↔ symCompare k f.k = .lt) := by
  fun_induction seek k fs t with
  | case1 => cases hn
  | case2 fs a' l d k' v c r hk ih =>
    cases l with
    | leaf b =>
      rw [seek] at h
      cases h
      exact ⟨_, _, rfl, by simp [hk]⟩
    | node => exact ih h rfl
  | case3 => cases h
  | case4 fs a' l d k' v c r hk ih =>
    cases r with
    | leaf b =>
      rw [seek] at h
      cases h
      exact ⟨_, _, rfl, by simp [hk]⟩
    | node => exact ih h rfl

/-- A found node has the key. -/
theorem seek_key (k : Sym) (fs : List Frame) (t : T) {fs' : List Frame} {a d : Nat} {l r : T} {k' : Sym} {v : Val}
    {c : Bool} (h : seek k fs t = (fs', .node a l d k' v c r)) : k' = k := by
  fun_induction seek k fs t with
  | case1 => cases h
  | case2 _ _ _ _ _ _ _ _ _ ih => exact ih h
  | case3 fs a' l d k'' v c r hk => cases h; exact ((symCompare_eq_iff _ _).1 hk).symm
  | case4 _ _ _ _ _ _ _ _ _ ih => exact ih h

/-- Entries left of the hole. -/
def beforeC : List Frame → List (Nat × Sym × Val)
  | [] => []
  | f :: fs => beforeC fs ++ if f.goLeft then [] else f.sib.entries ++ [(f.d, f.k, f.v)]

/-- Entries right of the hole. -/
def afterC : List Frame → List (Nat × Sym × Val)
  | [] => []
  | f :: fs => (if f.goLeft then (f.d, f.k, f.v) :: f.sib.entries else []) ++ afterC fs

theorem plug_split (fs : List Frame) (t : T) :
    (plug fs t).entries = beforeC fs ++ (t.entries ++ afterC fs) := by
  induction fs generalizing t with
  | nil => simp [plug, beforeC, afterC]
  | cons f fs ih =>
    rw [plug, ih]
    cases hg : f.goLeft <;> simp [Frame.plug, hg, beforeC, afterC, T.entries]

/-- All entries left of the position of a key are smaller, all entries right of it are greater. -/
theorem seek_bounds (k : Sym) (fs : List Frame) (t : T) (ho : Ordered (plug fs t))
    (hb : ∀ e ∈ beforeC fs, symCompare e.2.1 k = .lt) (ha : ∀ e ∈ afterC fs, symCompare k e.2.1 = .lt) :
    (∀ e ∈ beforeC (seek k fs t).1, symCompare e.2.1 k = .lt) ∧
      ∀ e ∈ afterC (seek k fs t).1, symCompare k e.2.1 = .lt := by
  fun_induction seek k fs t with
  | case1 => exact ⟨hb, ha⟩
  | case2 fs a l d k' v c r hk ih =>
    have ho' := ho
    rw [Ordered, plug_split] at ho'
    have h2 := (List.pairwise_append.1 (List.pairwise_append.1 ho').2.1).1
    have h3 := (List.pairwise_cons.1 (List.pairwise_append.1 h2).2.1).1
    refine ih ho (by simpa [beforeC] using hb) ?_
    intro e he
    simp only [afterC, if_true, List.cons_append, List.mem_cons, List.mem_append] at he
    rcases he with rfl | he | he
    · exact hk
    · exact symCompare_lt_trans hk (h3 e he)
    · exact ha e he
  | case3 => exact ⟨hb, ha⟩
  | case4 fs a l d k' v c r hk ih =>
    have hk' := (symCompare_gt_iff _ _).1 hk
    have ho' := ho
    rw [Ordered, plug_split] at ho'
    have h2 := (List.pairwise_append.1 (List.pairwise_append.1 ho').2.1).1
    have h3 := (List.pairwise_append.1 h2).2.2
    refine ih ho ?_ (by simpa [afterC] using ha)
    intro e he
    simp only [beforeC, Bool.false_eq_true, if_false, List.mem_append, List.mem_cons, List.not_mem_nil,
      or_false] at he
    rcases he with he | he | rfl
    · exact hb e he
    · exact symCompare_lt_trans (h3 e he (d, k', v) (by simp)) hk'
    · exact hk'

/-- The entry of a key. -/
def find (k : Sym) (es : List (Nat × Sym × Val)) : Option (Nat × Sym × Val) := es.find? fun e => e.2.1 = k

theorem ne_of_lt {a b : Sym} (h : symCompare a b = .lt) : a ≠ b := by
  rintro rfl; rw [symCompare_self] at h; cases h

/-- What the search finds. -/
theorem find_seek {k : Sym} {t : T} (ho : Ordered t) :
    find k t.entries = match (seek k [] t).2 with
      | .leaf _ => none
      | .node _ _ d k' v _ _ => some (d, k', v) := by
  have hb := seek_bounds k [] t ho (by simp [beforeC]) (by simp [afterC])
  have hp : plug (seek k [] t).1 (seek k [] t).2 = t := seek_plug k [] t
  have ho' := ho
  generalize hs : seek k [] t = s at *
  obtain ⟨fs, u⟩ := s
  simp only at hb hp ⊢
  rw [← hp, Ordered] at ho'
  rw [← hp, plug_split]
  rw [plug_split] at ho'
  have h1 : ∀ es : List (Nat × Sym × Val), (∀ e ∈ es, e.2.1 ≠ k) → find k es = none := by
    intro es hes
    exact List.find?_eq_none.2 (fun e he => by simpa using hes e he)
  have hbn : find k (beforeC fs) = none := h1 _ (fun e he => ne_of_lt (hb.1 e he))
  have han : find k (afterC fs) = none := h1 _ (fun e he => (ne_of_lt (hb.2 e he)).symm)
  unfold find at hbn han ⊢
  rw [List.find?_append, hbn, List.find?_append, han]
  cases u with
  | leaf a => simp [T.entries]
  | node a l d k' v c r =>
    have hk := seek_key k [] t hs
    subst hk
    have h2 := (List.pairwise_append.1 (List.pairwise_append.1 ho').2.1).1
    have h3 := (List.pairwise_append.1 h2).2.2
    have hl : find k' l.entries = none := h1 _ (fun e he => ne_of_lt (h3 e he (d, k', v) (by simp)))
    unfold find at hl
    simp [T.entries, List.find?_append, hl]

/-- `tree_get_node` finds the position of the key. -/
theorem getWalk_spec {σ : Store} (k : Sym) (fs : List Frame) (t : T) {par n : Nat} (h : Rep σ t par)
    (hf : t.height < n) :
    getWalk k n t.addr σ = .ok (match (seek k fs t).2 with
      | .leaf _ => none
      | .node a .. => some a, σ) := by
  induction t generalizing fs par n with
  | leaf a =>
    obtain ⟨m, rfl⟩ : ∃ m, n = m + 1 := ⟨n - 1, by simp [T.height] at hf; omega⟩
    unfold getWalk
    rw [TM.bind_apply, isNull_rep h]; rfl
  | node a l d k' v c r ihl ihr =>
    obtain ⟨m, rfl⟩ : ∃ m, n = m + 1 := ⟨n - 1, by omega⟩
    simp only [T.height] at hf
    obtain ⟨h1, h2, h3, h4⟩ := h
    have hk : key a σ = .ok (k', σ) := by simp [key, node_ok h1, readData, h2]
    have e0 : isNull a σ = .ok (false, σ) := isNull_node h1
    unfold getWalk
    simp only [T.addr, TM.bind_apply, e0, Res.ok_bind, Bool.false_eq_true, if_false, hk]
    rw [symMatch_eq_decide]
    cases hc : symCompare k k' with
    | lt =>
      have hne : ¬ k' = k := fun e => ne_of_lt hc e.symm
      have hgt : symCompare k' k = .gt := (symCompare_gt_iff _ _).2 hc
      simp only [hne, decide_false, Bool.false_eq_true, if_false, hgt, reduceCtorEq]
      rw [TM.bind_apply, left_ok h1]
      rw [seek, hc]
      exact ihl _ h3 (by omega)
    | eq =>
      have he := ((symCompare_eq_iff _ _).1 hc).symm
      simp only [he, decide_true, if_true]
      rw [seek, symCompare_self]; rfl
    | gt =>
      have hlt := (symCompare_gt_iff _ _).1 hc
      have hne : ¬ k' = k := ne_of_lt hlt
      simp only [hne, decide_false, Bool.false_eq_true, if_false, hlt, if_true]
      rw [TM.bind_apply, right_ok h1]
      rw [seek, hc]
      exact ihr _ h4 (by omega)

/-- The descent of `tree_add_node`. -/
theorem addWalk_spec {σ : Store} {nd : Nat} {m : Node} {k : Sym} {v₀ : Val} (hnd : σ.cells nd = some (.node m))
    (hmd : σ.data m.data = some (k, v₀)) (fs : List Frame) (t : T) {np y n : Nat} (h : Rep σ t (parOf fs np))
    (hf : t.height < n) (hy : t.isNode = true ∨ y = parOf fs np) :
    addWalk nd n t.addr y σ = match seek k fs t with
      | (gs, .leaf _) => .ok (some (parOf gs np), σ)
      | (_, .node _ _ d _ _ _ _) => (swapValues d m.data >>= fun _ => pure none) σ := by
  induction t generalizing fs y n with
  | leaf a =>
    obtain ⟨i, rfl⟩ : ∃ i, n = i + 1 := ⟨n - 1, by simp [T.height] at hf; omega⟩
    have : y = parOf fs np := by
      rcases hy with hy | hy
      · cases hy
      · exact hy
    unfold addWalk
    rw [TM.bind_apply, isNull_rep h, seek, this]; rfl
  | node a l d k' v c r ihl ihr =>
    obtain ⟨i, rfl⟩ : ∃ i, n = i + 1 := ⟨n - 1, by omega⟩
    simp only [T.height] at hf
    obtain ⟨h1, h2, h3, h4⟩ := h
    have hk : key a σ = .ok (k', σ) := by simp [key, node_ok h1, readData, h2]
    have hk0 : key nd σ = .ok (k, σ) := by simp [key, node_ok hnd, readData, hmd]
    have e0 : isNull a σ = .ok (false, σ) := isNull_node h1
    unfold addWalk
    simp only [T.addr, TM.bind_apply, e0, Res.ok_bind, Bool.false_eq_true, if_false, hk, hk0]
    rw [seek]
    cases hc : symCompare k k' with
    | lt =>
      show (left a >>= fun l => addWalk nd i l a) σ = _
      rw [TM.bind_apply, left_ok h1]
      exact ihl (⟨true, a, d, k', v, c, r⟩ :: fs) h3 (by omega) (.inr rfl)
    | eq =>
      show (node a >>= fun nx => node nd >>= fun nn => swapValues nx.data nn.data >>= fun _ => pure none) σ = _
      rw [TM.bind_apply, node_ok h1, Res.ok_bind, TM.bind_apply, node_ok hnd]; rfl
    | gt =>
      show (right a >>= fun l => addWalk nd i l a) σ = _
      rw [TM.bind_apply, right_ok h1]
      exact ihr (⟨false, a, d, k', v, c, l⟩ :: fs) h4 (by omega) (.inr rfl)

end Tree

end Mnml
