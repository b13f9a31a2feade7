import Verif.PropTree

/-!
# C15: balance of the global table
-/

namespace Mnml

namespace Tree

/-! ## Red-black trees -/

/-- No red node has a red child. -/
def NoRedRed : T → Prop
  | .leaf _ => True
  | .node _ l _ _ _ c r => (c = true → l.isRed = false ∧ r.isRed = false) ∧ NoRedRed l ∧ NoRedRed r

/-- Every way from the root to a leaf has `h` black nodes. -/
def BlackHeight : T → Nat → Prop
  | .leaf _, h => h = 0
  | .node _ l _ _ _ c r, h =>
    ∃ h', BlackHeight l h' ∧ BlackHeight r h' ∧ h = if c then h' else h' + 1

/-- A red-black tree of black height `h`. -/
def RB (t : T) (h : Nat) : Prop := NoRedRed t ∧ BlackHeight t h

/-- A red-black tree with a hole for a tree of black height `h`. -/
def RBC : List Frame → Nat → Prop
  | [], _ => True
  | f :: fs, h => RB f.sib h ∧ (f.red = true → f.sib.isRed = false ∧ headRed fs = false) ∧
      RBC fs (if f.red then h else h + 1)

theorem RB.node {a d : Nat} {l r : T} {k : Sym} {v : Val} {c : Bool} {h : Nat} (hl : RB l h) (hr : RB r h)
    (hc : c = true → l.isRed = false ∧ r.isRed = false) : RB (.node a l d k v c r) (if c then h else h + 1) :=
  ⟨⟨hc, hl.1, hr.1⟩, h, hl.2, hr.2, rfl⟩

theorem RB.black {t : T} {h : Nat} (ht : RB t h) : ∃ h', RB (t.withRed false) h' := by
  cases t with
  | leaf a => exact ⟨h, ht⟩
  | node a l d k v c r =>
    obtain ⟨⟨_, h1, h2⟩, h', h3, h4, _⟩ := ht
    exact ⟨_, RB.node (c := false) ⟨h1, h3⟩ ⟨h2, h4⟩ (by simp)⟩

theorem RB.black_of_red {t : T} {h : Nat} (ht : RB t h) (hr : t.isRed = true) : RB (t.withRed false) (h + 1) := by
  cases t with
  | leaf a => cases hr
  | node a l d k v c r =>
    have hr : c = true := hr
    subst hr
    obtain ⟨⟨_, h1, h2⟩, h', h3, h4, rfl⟩ := ht
    exact RB.node (c := false) ⟨h1, h3⟩ ⟨h2, h4⟩ (by simp)

theorem Frame.plug_RB {f : Frame} {t : T} {h : Nat} (hs : RB f.sib h) (ht : RB t h)
    (hc : f.red = true → f.sib.isRed = false ∧ t.isRed = false) : RB (f.plug t) (if f.red then h else h + 1) := by
  unfold Frame.plug
  split
  · exact RB.node ht hs (fun h => (hc h).symm)
  · exact RB.node hs ht hc

theorem Frame.plug_isRed (f : Frame) (t : T) : (f.plug t).isRed = f.red := by
  unfold Frame.plug; split <;> rfl

theorem plug_RB {fs : List Frame} {t : T} {h : Nat} (hc : RBC fs h) (ht : RB t h)
    (hr : headRed fs = true → t.isRed = false) : ∃ H, RB (plug fs t) H := by
  induction fs generalizing t h with
  | nil => exact ⟨h, ht⟩
  | cons f fs ih =>
    obtain ⟨h1, h2, h3⟩ := hc
    refine ih h3 (Frame.plug_RB h1 ht (fun e => ⟨(h2 e).1, hr e⟩)) ?_
    intro e
    rw [Frame.plug_isRed]
    cases hf : f.red with
    | false => rfl
    | true => rw [(h2 hf).2] at e; cases e

theorem RB_plug {fs : List Frame} {t : T} {H : Nat} (h : RB (plug fs t) H) :
    ∃ h, RBC fs h ∧ RB t h ∧ (headRed fs = true → t.isRed = false) := by
  induction fs generalizing t with
  | nil => exact ⟨H, trivial, h, fun e => by cases e⟩
  | cons f fs ih =>
    obtain ⟨h', h1, h2, h3⟩ := ih h
    have : ∃ h0, RB f.sib h0 ∧ RB t h0 ∧ (f.red = true → f.sib.isRed = false ∧ t.isRed = false) ∧
        h' = if f.red then h0 else h0 + 1 := by
      unfold Frame.plug at h2
      cases hg : f.goLeft with
      | true =>
        rw [hg] at h2
        obtain ⟨⟨a1, a2, a3⟩, h0, b1, b2, b3⟩ := h2
        exact ⟨h0, ⟨a3, b2⟩, ⟨a2, b1⟩, fun e => (a1 e).symm, b3⟩
      | false =>
        rw [hg] at h2
        obtain ⟨⟨a1, a2, a3⟩, h0, b1, b2, b3⟩ := h2
        exact ⟨h0, ⟨a2, b1⟩, ⟨a3, b2⟩, a1, b3⟩
    obtain ⟨h0, c1, c2, c3, c4⟩ := this
    subst c4
    refine ⟨h0, ⟨c1, fun e => ⟨(c3 e).1, ?_⟩, h1⟩, c2, fun e => (c3 e).2⟩
    cases hh : headRed fs with
    | false => rfl
    | true => have := h3 hh; rw [Frame.plug_isRed, e] at this; cases this

/-- The fix-up never meets an inner grandchild (case 2). -/
def Straight : List Frame → Prop
  | f :: g :: fs => f.red = true → if g.sib.isRed then Straight fs else f.goLeft = g.goLeft
  | _ => True

/-- The fix-up restores a red-black tree if case 2 does not occur. -/
theorem fixUp_RB (fs : List Frame) (t : T) {h : Nat} (hc : RBC fs h) (ht : RB t h) (hs : Straight fs)
    (hl : ∀ f ∈ fs.getLast?, f.red = false) : ∃ H, RB ((fixUp fs t).withRed false) H := by
  fun_induction fixUp fs t generalizing h with
  | case1 f g fs t hf hg ih =>
    obtain ⟨a1, a2, b1, b2, hfs⟩ := hc
    rw [if_pos hf] at b1 hfs
    obtain ⟨fb, gb⟩ := a2 hf
    have gb : g.red = false := gb
    rw [if_neg (by simp [gb])] at hfs
    refine ih (h := h + 1) hfs ?_ ?_ ?_
    · have u1 : RB ((f.withRed false).plug t) (h + 1) := Frame.plug_RB (f := f.withRed false) a1 ht (by simp [Frame.withRed])
      exact Frame.plug_RB (f := { g with red := true, sib := g.sib.withRed false }) (b1.black_of_red hg) u1
        (fun _ => ⟨by cases g.sib <;> rfl, Frame.plug_isRed _ _⟩)
    · have := hs hf
      rwa [if_pos hg] at this
    · intro x hx
      refine hl x ?_
      cases fs with
      | nil => simp at hx
      | cons y ys => simpa [List.getLast?_cons_cons] using hx
  | case2 f g fs t hf hg hd =>
    obtain ⟨a1, a2, b1, b2, hfs⟩ := hc
    rw [if_pos hf] at b1 hfs
    obtain ⟨fb, gb⟩ := a2 hf
    have gb : g.red = false := gb
    rw [if_neg (by simp [gb])] at hfs
    have hg : g.sib.isRed = false := by simpa using hg
    have key : RB (turn g.goLeft ((g.withRed true).plug ((f.withRed false).plug t))) (h + 1) ∧
        (turn g.goLeft ((g.withRed true).plug ((f.withRed false).plug t))).isRed = false := by
      unfold turn
      cases hgl : g.goLeft with
      | true =>
        rw [hgl] at hd
        simp only [Frame.plug, Frame.withRed, hgl, hd, if_true, T.rrot]
        exact ⟨RB.node (c := false) ht (RB.node (c := true) a1 b1 (fun _ => ⟨fb, hg⟩)) (by simp), rfl⟩
      | false =>
        rw [hgl] at hd
        simp only [Frame.plug, Frame.withRed, hgl, hd, Bool.false_eq_true, if_false, T.lrot]
        exact ⟨RB.node (c := false) (RB.node (c := true) b1 a1 (fun _ => ⟨hg, fb⟩)) ht (by simp), rfl⟩
    obtain ⟨H, hH⟩ := plug_RB hfs key.1 (fun _ => key.2)
    exact hH.black
  | case3 f g fs t hf hg hd =>
    have := hs hf
    rw [if_neg hg] at this
    exact absurd this hd
  | case4 f g fs t hf =>
    obtain ⟨H, hH⟩ := plug_RB hc ht (fun e => absurd e hf)
    exact hH.black
  | case5 f t =>
    have : f.red = false := hl f (by simp)
    obtain ⟨H, hH⟩ := plug_RB (fs := [f]) hc ht (fun e => by rw [headRed, this] at e; cases e)
    exact hH.black
  | case6 t => exact ht.black

/-- Insertions keep a red-black tree if case 2 does not occur. -/
theorem insert_RB {k : Sym} {t : T} {H : Nat} (h : RB t H) (hr : t.isRed = false) (ho : Ordered t)
    (hf : find k t.entries = none) (hs : Straight (seek k [] t).1) (nd l r d : Nat) (v : Val) :
    ∃ H', RB ((fixUp (seek k [] t).1 (.node nd (.leaf l) d k v true (.leaf r))).withRed false) H' := by
  rw [find_seek ho] at hf
  have hp := seek_plug k [] t
  cases hk : seek k [] t with
  | mk fs u =>
    rw [hk] at hf hs hp
    cases u with
    | node => cases hf
    | leaf a =>
      have hp : plug fs (.leaf a) = t := hp
      rw [← hp] at h
      obtain ⟨h0, h1, h2, h3⟩ := RB_plug h
      have e : h0 = 0 := h2.2
      subst e
      refine fixUp_RB fs _ h1 ?_ hs (fun f hf => ?_)
      · exact RB.node (c := true) (l := .leaf l) (r := .leaf r) (h := 0) ⟨trivial, rfl⟩ ⟨trivial, rfl⟩
          (fun _ => ⟨rfl, rfl⟩)
      · rw [last_red fs (.leaf a) f hf, hp, hr]

theorem straight_of_right {fs : List Frame} {b : Bool} (h : ∀ f ∈ fs, f.goLeft = b) : Straight fs := by
  fun_induction Straight fs with
  | case1 f g fs ih =>
    intro _
    split
    · exact ih (fun x hx => h x (by simp [hx]))
    · rw [h f (by simp), h g (by simp)]
  | case2 => trivial

/-- A key beyond all others is searched on one side only. -/
theorem seek_side {k : Sym} {o : Ordering} {b : Bool} (hb : o = if b then .lt else .gt) (fs : List Frame) (t : T)
    (h : ∀ e ∈ t.entries, symCompare k e.2.1 = o) (hfs : ∀ f ∈ fs, f.goLeft = b) :
    ∀ f ∈ (seek k fs t).1, f.goLeft = b := by
  fun_induction seek k fs t with
  | case1 => exact hfs
  | case2 fs a l d k' v c r hk ih =>
    have h1 := h (d, k', v) (by simp [T.entries])
    have hb' : b = true := by
      cases b with
      | true => rfl
      | false => rw [hb] at h1; simp only [hk] at h1; cases h1
    refine ih (fun e he => h e (by simp [T.entries, he])) (fun f hf => ?_)
    rcases List.mem_cons.1 hf with rfl | hf
    · exact hb'.symm
    · exact hfs f hf
  | case3 => exact hfs
  | case4 fs a l d k' v c r hk ih =>
    have h1 := h (d, k', v) (by simp [T.entries])
    have hb' : b = false := by
      cases b with
      | false => rfl
      | true => rw [hb] at h1; simp only [hk] at h1; cases h1
    refine ih (fun e he => h e (by simp [T.entries, he])) (fun f hf => ?_)
    rcases List.mem_cons.1 hf with rfl | hf
    · exact hb'.symm
    · exact hfs f hf

theorem find_none {k : Sym} {es : List (Nat × Sym × Val)} (h : ∀ e ∈ es, symCompare k e.2.1 ≠ .eq) :
    find k es = none :=
  List.find?_eq_none.2 (fun e he => by
    have := h e he
    simp only [decide_eq_true_eq]
    intro e'; rw [e', symCompare_self] at this; exact this rfl)

/-- The keys of a table after an insertion. -/
theorem find_keys {k : Sym} {t t' : T} {d : Nat} {v : Val}
    (h : ∀ k', find k' t'.entries = if k' = k then some (d, k, v) else find k' t.entries) :
    ∀ e ∈ t'.entries, e.2.1 = k ∨ ∃ e' ∈ t.entries, e'.2.1 = e.2.1 := by
  intro e he
  by_cases hk : e.2.1 = k
  · exact .inl hk
  · right
    have h1 := h e.2.1
    rw [if_neg hk] at h1
    cases hf : find e.2.1 t.entries with
    | none =>
      rw [hf] at h1
      have := List.find?_eq_none.1 h1 e he
      simp at this
    | some e' => exact ⟨e', (find_mem hf).1, (find_mem hf).2⟩

/-- Inserting keys in one direction. -/
theorem runOps_sorted (o : Ordering) (b : Bool) (hb : o = if b then .lt else .gt) (kvs : List (Sym × Val)) {σ : Store}
    {root s : Nat} {t : T} {H : Nat} (ht : Table σ root t) (hs : t.entries.length ≤ s) (hrb : RB t H)
    (hnew : ∀ kv ∈ kvs, ∀ e ∈ t.entries, symCompare kv.1 e.2.1 = o)
    (hk : kvs.Pairwise fun x y => symCompare y.1 x.1 = o) {n : Nat} (hn : s + kvs.length + 3 ≤ n) :
    ∃ root' outs σ' t' H', runOps n root (kvs.map fun kv => .add kv.1 kv.2) σ = .ok ((root', outs), σ') ∧
      Table σ' root' t' ∧ RB t' H' := by
  induction kvs generalizing σ root s t H with
  | nil => exact ⟨root, [], σ, t, H, rfl, ht, hrb⟩
  | cons kv kvs ih =>
    obtain ⟨k, v⟩ := kv
    simp only [List.length_cons] at hn
    have hh := height_le t
    have hgt : ∀ e ∈ t.entries, symCompare k e.2.1 = o := hnew (k, v) (by simp)
    have hnone : find k t.entries = none := find_none (fun e he h => by
      rw [hgt e he, hb] at h; cases b <;> cases h)
    have hr : t.isRed = false := by
      rcases ht.shape with ⟨rfl, _⟩ | ⟨_, h, _⟩
      · rfl
      · exact h
    obtain ⟨σ1, a1, a2, a3, a4, _⟩ := ht.newData k v
    obtain ⟨root', σ', t', b1, b2, b3, b4, b5⟩ := treeAdd_spec (n := n) a2 a3 a4 (by omega)
    obtain ⟨nd, l, r, e⟩ := b5 hnone
    obtain ⟨H', hH⟩ := insert_RB hrb hr ht.ordered hnone
      (straight_of_right (b := b) (seek_side hb [] t hgt (by simp))) nd l r σ.next v
    rw [← e] at hH
    obtain ⟨hk1, hk2⟩ := List.pairwise_cons.1 hk
    rw [hnone] at b3
    obtain ⟨r2, outs, σ2, t2, H2, c1, c2, c3⟩ := ih b2 b4 hH (fun kv hkv e he => by
      rcases find_keys b3 e he with h | ⟨e', he', h⟩
      · rw [h]; exact hk1 kv hkv
      · rw [← h]; exact hnew kv (by simp [hkv]) e' he') hk2 (by omega)
    refine ⟨r2, none :: outs, σ2, t2, H2, ?_, c2, c3⟩
    have hrun : Op.run n root (.add k v) σ = .ok ((root', none), σ') := by
      show runAdd n root k v σ = _
      unfold runAdd
      rw [TM.bind_apply, a1, Res.ok_bind, TM.bind_apply, b1]; rfl
    rw [List.map_cons, runOps, TM.bind_apply, hrun, Res.ok_bind, TM.bind_apply, c1]; rfl

/-- **C15 (partial).** Names defined in increasing order, or in decreasing order (`b = true`), give a red-black
tree: no red node has a red child, and every way from the root to a leaf has the same number of black nodes. For other
orders the property is false, see below. -/
theorem C15_sorted_partial (b : Bool) (kvs : List (Sym × Val))
    (hk : kvs.Pairwise fun x y => symCompare y.1 x.1 = if b then .lt else .gt) {n : Nat} (hn : kvs.length + 3 ≤ n) :
    ∃ root outs σ t H, runOps n 0 (kvs.map fun kv => .add kv.1 kv.2) empty = .ok ((root, outs), σ) ∧
      Table σ root t ∧ NoRedRed t ∧ BlackHeight t H := by
  obtain ⟨t, h1, h2, h3⟩ := holds_empty
  have : t.entries = [] := by
    cases he : t.entries with
    | nil => rfl
    | cons a as => rw [he] at h3; simp at h3
  have ht : ∃ H, RB t H := by
    cases t with
    | leaf a => exact ⟨0, trivial, rfl⟩
    | node => simp [T.entries] at this
  obtain ⟨H, hH⟩ := ht
  exact runOps_sorted _ b rfl kvs h1 h3 hH (by simp [this]) hk (by omega)

/-- Any table: an insertion that does not meet case 2 keeps the red-black properties. -/
theorem C15_straight_partial {σ : Store} {root d H : Nat} {t : T} {k : Sym} {v : Val} (h : Table σ root t)
    (hrb : RB t H) (hd : σ.data d = some (k, v)) (hdt : d ∉ t.entries.map (·.1)) (hnew : find k t.entries = none)
    (hs : Straight (seek k [] t).1) {n : Nat} (hn : t.height + 3 ≤ n) :
    ∃ root' σ' t' H', treeAdd n root d σ = .ok (root', σ') ∧ Table σ' root' t' ∧ RB t' H' := by
  have hr : t.isRed = false := by
    rcases h.shape with ⟨rfl, _⟩ | ⟨_, h, _⟩
    · rfl
    · exact h
  obtain ⟨root', σ', t', b1, b2, b3, b4, b5⟩ := treeAdd_spec h hd hdt hn
  obtain ⟨nd, l, r, e⟩ := b5 hnew
  obtain ⟨H', hH⟩ := insert_RB hrb hr h.ordered hnew hs nd l r d v
  exact ⟨root', σ', t', H', b1, b2, e ▸ hH⟩

/-! ## Degenerate tables -/

/-- Every key lies between the two keys before it: after the first key all keys are greater (`b = true`) or smaller
(`b = false`) than it, after the second one smaller or greater, and so on. -/
def Nested : Bool → List Sym → Prop
  | _, [] => True
  | b, k :: ks => (∀ k' ∈ ks, symCompare k' k = if b then .gt else .lt) ∧ Nested (!b) ks

instance Nested.dec : (b : Bool) → (ks : List Sym) → Decidable (Nested b ks)
  | _, [] => .isTrue trivial
  | b, k :: ks =>
    have := Nested.dec (!b) ks
    inferInstanceAs (Decidable ((∀ k' ∈ ks, symCompare k' k = if b then .gt else .lt) ∧ Nested (!b) ks))

/-- The value of a computation, without the memory. -/
def TM.value {α : Type} (x : TM α) (σ : Store) : Res α := x σ >>= fun p => .ok p.1

/-- Frames of a zigzag: no other subtree, sides alternate. -/
def Zig : List Frame → Prop
  | [] => True
  | [f] => f.sib.isNode = false
  | f :: g :: fs => f.sib.isNode = false ∧ f.goLeft = !g.goLeft ∧ Zig (g :: fs)

theorem Zig.tail {f : Frame} {fs : List Frame} (h : Zig (f :: fs)) : Zig fs := by
  cases fs with
  | nil => trivial
  | cons g fs => exact h.2.2

theorem Zig.sib {fs : List Frame} (h : Zig fs) : ∀ f ∈ fs, f.sib.isNode = false := by
  induction fs with
  | nil => simp
  | cons f fs ih =>
    intro g hg
    rcases List.mem_cons.1 hg with rfl | hg
    · cases fs with
      | nil => exact h
      | cons => exact h.1
    · exact ih h.tail g hg

theorem withRed_eq {f g : Frame} (h : f.withRed false = g.withRed false) :
    f.goLeft = g.goLeft ∧ f.k = g.k ∧ f.sib = g.sib := by
  obtain ⟨f1, f2, f3, f4, f5, f6, f7⟩ := f
  obtain ⟨g1, g2, g3, g4, g5, g6, g7⟩ := g
  simp only [Frame.withRed, Frame.mk.injEq] at h
  exact ⟨h.1, h.2.2.2.1, h.2.2.2.2.2.2⟩

/-- Frames that only differ in colour. -/
def SameF (fs fs' : List Frame) : Prop := fs.map (Frame.withRed false) = fs'.map (Frame.withRed false)

theorem height_zig {fs : List Frame} (h : ∀ f ∈ fs, f.sib.isNode = false) (t : T) :
    (plug fs t).height = t.height + fs.length := by
  induction fs generalizing t with
  | nil => rfl
  | cons f fs ih =>
    rw [plug, ih (fun g hg => h g (by simp [hg]))]
    have hs := h f (by simp)
    have : (f.plug t).height = t.height + 1 := by
      cases hsib : f.sib with
      | node => rw [hsib] at hs; cases hs
      | leaf a => unfold Frame.plug; split <;> simp [T.height, hsib]
    simp only [this, List.length_cons]; omega

/-- A search that takes the sides of the frames. -/
theorem seek_follow {k : Sym} (fs gs : List Frame) (u : T)
    (h : ∀ f ∈ fs, symCompare k f.k = if f.goLeft then .lt else .gt) :
    seek k gs (plug fs u) = seek k (fs ++ gs) u := by
  induction fs generalizing u with
  | nil => rfl
  | cons f fs ih =>
    rw [plug, ih _ (fun g hg => h g (by simp [hg]))]
    have hf := h f (by simp)
    obtain ⟨gl, a, d, k', v, c, sib⟩ := f
    cases gl with
    | true =>
      have hf : symCompare k k' = .lt := hf
      simp [Frame.plug, seek, hf]
    | false =>
      have hf : symCompare k k' = .gt := hf
      simp [Frame.plug, seek, hf]

theorem plug_black {fs : List Frame} (t : T) (h : fs ≠ []) :
    ∃ fs', SameF fs fs' ∧ (plug fs t).withRed false = plug fs' t := by
  induction fs generalizing t with
  | nil => exact absurd rfl h
  | cons f fs ih =>
    cases fs with
    | nil => exact ⟨[f.withRed false], rfl, plug_withRed f false t⟩
    | cons g gs =>
      obtain ⟨fs', h1, h2⟩ := ih (f.plug t) (by simp)
      exact ⟨f :: fs', congrArg (f.withRed false :: ·) h1, h2⟩

theorem turn_zig {g h : Frame} (hs : h.sib.isNode = false) (hgh : g.goLeft = !h.goLeft) (b : Bool) (u : T) :
    turn g.goLeft ((h.withRed b).plug u) = (h.withRed b).plug u := by
  rw [hgh]
  cases hsib : h.sib with
  | node => rw [hsib] at hs; cases hs
  | leaf a =>
    unfold turn Frame.plug Frame.withRed
    cases h.goLeft <;> simp [hsib, T.lrot, T.rrot]

/-- On a zigzag the fix-up only changes colours. -/
theorem fixUp_zig {fs : List Frame} (hz : Zig fs) (hr : 2 ≤ fs.length → headRed fs = true) (t : T) (hne : fs ≠ []) :
    ∃ fs', SameF fs fs' ∧ (fixUp fs t).withRed false = plug fs' t := by
  match fs, hz, hr, hne with
  | [f], _, _, _ => exact plug_black (fs := [f]) t (by simp)
  | f :: g :: fs, hz, hr, _ =>
    have hf : f.red = true := hr (by simp)
    have hg : g.sib.isRed = false := by
      have := hz.sib g (by simp)
      cases hs : g.sib with
      | leaf => rfl
      | node => rw [hs] at this; cases this
    have hd : ¬ f.goLeft = g.goLeft := by rw [hz.2.1]; cases g.goLeft <;> simp
    rw [fixUp, if_pos hf, if_neg (by simp [hg]), if_neg hd]
    cases fs with
    | nil =>
      obtain ⟨fs', h1, h2⟩ := plug_black (fs := [f, g.withRed false]) t (by simp)
      exact ⟨fs', h1, h2⟩
    | cons h hs =>
      obtain ⟨fs', h1, h2⟩ := plug_black (fs := f :: g.withRed false :: h.withRed true :: hs) t (by simp)
      refine ⟨fs', ?_, ?_⟩
      · exact Eq.trans rfl h1
      · rw [← h2, raise, turn_zig (hz.sib h (by simp)) hz.2.2.2.1]; rfl

theorem SameF.zig {fs fs' : List Frame} (h : SameF fs fs') (hz : Zig fs) : Zig fs' := by
  induction fs generalizing fs' with
  | nil =>
    cases fs' with
    | nil => trivial
    | cons => cases h
  | cons f fs ih =>
    cases fs' with
    | nil => cases h
    | cons f' fs' =>
      simp only [SameF, List.map_cons, List.cons.injEq] at h
      obtain ⟨h1, h2⟩ := h
      have e1 : f.goLeft = f'.goLeft := (withRed_eq h1).1
      have e2 : f.sib = f'.sib := (withRed_eq h1).2.2
      have hz' := ih h2 hz.tail
      cases fs with
      | nil =>
        cases fs' with
        | nil => show f'.sib.isNode = false; rw [← e2]; exact hz
        | cons => cases h2
      | cons g gs =>
        cases fs' with
        | nil => cases h2
        | cons g' gs' =>
          simp only [List.map_cons, List.cons.injEq] at h2
          have e3 : g.goLeft = g'.goLeft := (withRed_eq h2.1).1
          exact ⟨e2 ▸ hz.1, by rw [← e1, ← e3]; exact hz.2.1, hz'⟩

theorem SameF.mem {fs fs' : List Frame} (h : SameF fs fs') {f' : Frame} (hf : f' ∈ fs') :
    ∃ f ∈ fs, f.goLeft = f'.goLeft ∧ f.k = f'.k := by
  have : f'.withRed false ∈ fs.map (Frame.withRed false) := by rw [h]; exact List.mem_map.2 ⟨f', hf, rfl⟩
  obtain ⟨f, h1, h2⟩ := List.mem_map.1 this
  exact ⟨f, h1, (withRed_eq h2).1, (withRed_eq h2).2.1⟩

theorem SameF.head {fs fs' : List Frame} (h : SameF fs fs') {f' : Frame} (hf : f' ∈ fs'.head?) :
    ∃ f ∈ fs.head?, f.goLeft = f'.goLeft := by
  cases fs' with
  | nil => simp at hf
  | cons g gs =>
    simp at hf; subst hf
    cases fs with
    | nil => cases h
    | cons f fs =>
      simp only [SameF, List.map_cons, List.cons.injEq] at h
      exact ⟨f, by simp, (withRed_eq h.1).1⟩

/-- A new node at the end of a zigzag. -/
theorem zig_snoc {fs : List Frame} {b : Bool} (hz : Zig fs) (hb : ∀ f ∈ fs.head?, f.goLeft = b)
    {a d : Nat} {k : Sym} {v : Val} {c : Bool} {s : T} (hs : s.isNode = false) :
    Zig (⟨!b, a, d, k, v, c, s⟩ :: fs) := by
  cases fs with
  | nil => exact hs
  | cons f fs => exact ⟨hs, by rw [hb f (by simp)], hz⟩

/-- Inserting nested keys. -/
theorem runOps_zig (v : Val) (ks : List Sym) {σ : Store} {root s : Nat} {b : Bool} {fs : List Frame} {a : Nat}
    (ht : Table σ root (plug fs (.leaf a))) (hs : fs.length ≤ s) (hz : Zig fs)
    (hr : 2 ≤ fs.length → headRed fs = true) (hb : ∀ f ∈ fs.head?, f.goLeft = b)
    (hk : ∀ k ∈ ks, ∀ f ∈ fs, symCompare k f.k = if f.goLeft then .lt else .gt) (hn : Nested b ks) {n : Nat}
    (hfuel : s + ks.length + 3 ≤ n) :
    ∃ root' outs σ' fs' a', runOps n root (ks.map fun k => .add k v) σ = .ok ((root', outs), σ') ∧
      Table σ' root' (plug fs' (.leaf a')) ∧ Zig fs' ∧ fs'.length = fs.length + ks.length ∧
      ∀ k, (∀ f ∈ fs, symCompare k f.k = if f.goLeft then .lt else .gt) → Nested b (ks ++ [k]) →
        ∀ f ∈ fs', symCompare k f.k = if f.goLeft then .lt else .gt := by
  induction ks generalizing σ root s b fs a with
  | nil => exact ⟨root, [], σ, fs, a, rfl, ht, hz, rfl, fun _ h _ => h⟩
  | cons k ks ih =>
    simp only [List.length_cons] at hfuel
    have hh : (plug fs (.leaf a)).height = fs.length := by rw [height_zig hz.sib]; simp [T.height]
    have hseek : seek k [] (plug fs (.leaf a)) = (fs, .leaf a) := by
      rw [seek_follow fs [] _ (hk k (by simp))]; simp [seek]
    have hnone : find k (plug fs (.leaf a)).entries = none := by rw [find_seek ht.ordered, hseek]
    obtain ⟨σ1, a1, a2, a3, a4, _⟩ := ht.newData k v
    obtain ⟨root', σ', t', b1, b2, b3, b4, b5⟩ := treeAdd_spec (n := n) a2 a3 a4 (by omega)
    obtain ⟨nd, l, r, e⟩ := b5 hnone
    rw [hseek] at e
    have e : t' = (fixUp fs (.node nd (.leaf l) σ.next k v true (.leaf r))).withRed false := e
    -- the new tree is a longer zigzag
    have step : ∃ fs' c, SameF fs fs' ∧ (2 ≤ fs'.length + 1 → c = true) ∧
        t' = plug fs' (.node nd (.leaf l) σ.next k v c (.leaf r)) := by
      cases hfs : fs with
      | nil => subst hfs; exact ⟨[], false, rfl, by simp, e⟩
      | cons f gs =>
        obtain ⟨fs', h1, h2⟩ := fixUp_zig hz hr (.node nd (.leaf l) σ.next k v true (.leaf r)) (by simp [hfs])
        exact ⟨fs', true, hfs ▸ h1, by simp, e.trans h2⟩
    obtain ⟨fs', c, s1, s2, s3⟩ := step
    have hlen : fs'.length = fs.length := by have := congrArg List.length s1; simpa using this.symm
    -- its last frame
    have hlast : ∃ f0 x, f0.goLeft = !b ∧ f0.k = k ∧ f0.red = c ∧ f0.sib.isNode = false ∧
        t' = plug (f0 :: fs') (.leaf x) := by
      cases b with
      | true => exact ⟨⟨false, nd, σ.next, k, v, c, .leaf l⟩, r, rfl, rfl, rfl, rfl, s3⟩
      | false => exact ⟨⟨true, nd, σ.next, k, v, c, .leaf r⟩, l, rfl, rfl, rfl, rfl, s3⟩
    obtain ⟨f0, x, g1, g2, g3, g4, g5⟩ := hlast
    have hz' : Zig (f0 :: fs') := by
      obtain ⟨gl, fa, fd, fk, fv, fc, fsib⟩ := f0
      have g1 : gl = !b := g1
      subst g1
      refine zig_snoc (s1.zig hz) (fun f hf => ?_) g4
      obtain ⟨f1, h1, h2⟩ := s1.head hf
      rw [← h2, hb f1 h1]
    rw [g5] at b2
    obtain ⟨n1, n2⟩ := hn
    obtain ⟨r2, outs, σ2, fs2, a', c1, c2, c3, c4, c5⟩ := ih (b := !b) (fs := f0 :: fs') (s := s + 1) b2
      (by simp only [List.length_cons]; omega) hz'
      (fun h => by rw [headRed, g3]; exact s2 h) (fun f hf => by simp at hf; subst hf; exact g1)
      (fun k' hk' f hf => by
        rcases List.mem_cons.1 hf with rfl | hf
        · rw [g2, n1 k' hk', g1]; cases b <;> rfl
        · obtain ⟨f1, h1, h2, h3⟩ := s1.mem hf
          rw [← h2, ← h3]; exact hk k' (by simp [hk']) f1 h1) n2 (by omega)
    have hrun : Op.run n root (.add k v) σ = .ok ((root', none), σ') := by
      show runAdd n root k v σ = _
      unfold runAdd
      rw [TM.bind_apply, a1, Res.ok_bind, TM.bind_apply, b1]; rfl
    refine ⟨r2, none :: outs, σ2, fs2, a', ?_, c2, c3, ?_, ?_⟩
    · rw [List.map_cons, runOps, TM.bind_apply, hrun, Res.ok_bind, TM.bind_apply, c1]; rfl
    · rw [c4]; simp only [List.length_cons, hlen]; omega
    · intro k' h1 h2 f hf
      obtain ⟨m1, m2⟩ := h2
      refine c5 k' (fun f hf => ?_) m2 f hf
      rcases List.mem_cons.1 hf with rfl | hf
      · rw [g2, m1 k' (by simp), g1]; cases b <;> rfl
      · obtain ⟨f1, e1, e2, e3⟩ := s1.mem hf
        rw [← e2, ← e3]; exact h1 f1 e1

/-- A search that runs out of iterations. -/
theorem getWalk_oof {σ : Store} (k : Sym) (fs : List Frame) (t : T) {par n : Nat} (h : Rep σ t par)
    (hn : fs.length + n < (seek k fs t).1.length + 1) : getWalk k n t.addr σ = .oof := by
  induction t generalizing fs par n with
  | leaf a =>
    have hn : fs.length + n < fs.length + 1 := hn
    obtain rfl : n = 0 := by omega
    rfl
  | node a l d k' v c r ihl ihr =>
    cases n with
    | zero => rfl
    | succ n =>
      obtain ⟨h1, h2, h3, h4⟩ := h
      have hk : key a σ = .ok (k', σ) := by simp [key, node_ok h1, readData, h2]
      have e0 : isNull a σ = .ok (false, σ) := isNull_node h1
      rw [T.addr, getWalk]
      simp only [TM.bind_apply, e0, Res.ok_bind, Bool.false_eq_true, if_false, hk]
      rw [symMatch_eq_decide]
      rw [seek] at hn
      cases hc : symCompare k k' with
      | lt =>
        rw [hc] at hn
        have hne : ¬ k' = k := fun e => ne_of_lt hc e.symm
        have hgt : symCompare k' k = .gt := (symCompare_gt_iff _ _).2 hc
        simp only [hne, decide_false, Bool.false_eq_true, if_false, hgt, reduceCtorEq]
        rw [TM.bind_apply, left_ok h1]
        exact ihl (⟨true, a, d, k', v, c, r⟩ :: fs) h3 (by simp only [List.length_cons]; simp only at hn; omega)
      | eq => rw [hc] at hn; simp only at hn; omega
      | gt =>
        rw [hc] at hn
        have hlt := (symCompare_gt_iff _ _).1 hc
        have hne : ¬ k' = k := ne_of_lt hlt
        simp only [hne, decide_false, Bool.false_eq_true, if_false, hlt, if_true]
        rw [TM.bind_apply, right_ok h1]
        exact ihr (⟨false, a, d, k', v, c, l⟩ :: fs) h4 (by simp only [List.length_cons]; simp only at hn; omega)

/-- **C15, counterexample.** If every new name lies between the two names before it, the table is a list: its height
is the number of names, and for some name (any that lies between the last two) a search makes more iterations than
there are names. So the search is not logarithmic in the number of names. -/
theorem C15_degenerate_counterexample (v : Val) (b : Bool) (ks : List Sym) (hk : Nested b ks) {n : Nat}
    (hn : ks.length + 3 ≤ n) :
    ∃ root outs σ t, runOps n 0 (ks.map fun k => .add k v) empty = .ok ((root, outs), σ) ∧ Table σ root t ∧
      t.height = ks.length ∧
      ∀ k, Nested b (ks ++ [k]) → ∀ m, m ≤ ks.length → treeGet m root k σ = .oof := by
  have ht : Table empty 0 (plug [] (.leaf 0)) := by
    refine ⟨List.Pairwise.nil, .inl ⟨rfl, ⟨false, rfl⟩, fun p hp => ?_⟩⟩
    have hp : 1 ≤ p := hp
    have : p ≠ 0 := by omega
    exact ⟨by simp [empty, this], rfl⟩
  obtain ⟨r, outs, σ, fs, a, h1, h2, h3, h4, h5⟩ := runOps_zig v ks (b := b) (s := 0) ht (by simp) trivial (by simp)
    (by simp) (by simp) hk (n := n) (by omega)
  have hlen : fs.length = ks.length := by simpa using h4
  refine ⟨r, outs, σ, _, h1, h2, by rw [height_zig h3.sib, hlen]; simp [T.height], ?_⟩
  intro k hk' m hm
  have hw : getWalk k m r σ = .oof := by
    rcases h2.shape with ⟨e, ⟨c, hc⟩, _⟩ | ⟨_, _, np, hv⟩
    · have : fs = [] := by
        cases fs with
        | nil => rfl
        | cons f fs =>
          have := plug_isNode_cons f fs (.leaf a)
          rw [e] at this; cases this
      rw [this] at hlen
      obtain rfl : m = 0 := by rw [← hlen] at hm; simpa using hm
      rfl
    · rw [← hv.root]
      refine getWalk_oof k [] _ hv.rep ?_
      rw [seek_follow fs [] _ (h5 k (by simp) hk')]
      simp only [List.append_nil, seek, List.length_nil]; omega
  unfold treeGet
  rw [TM.bind_apply, hw]; rfl

/-- Nested names of any length up to 200: the bytes 1, 255, 2, 254, … -/
example : Nested true ((List.range 200).map fun i =>
    Sym.ofBytes [if i % 2 = 0 then UInt8.ofNat (i / 2 + 1) else UInt8.ofNat (255 - i / 2)]) := by
  decide +kernel

/-- The smallest case: `10`, `05`, `07` gives a red node with a red child. -/
theorem C15_red_red_counterexample :
    (do
      let q ← runOps 20 0 [.add (Sym.ofChars ['1', '0']) .nil, .add (Sym.ofChars ['0', '5']) .nil,
        .add (Sym.ofChars ['0', '7']) .nil]
      let l ← left q.1
      let r ← right l
      let c ← colored l
      let c' ← colored r
      pure (c, c') : TM (Bool × Bool)).value empty = .ok (true, true) := by
  decide +kernel

/-- Increasing names satisfy the hypothesis of the partial theorem. -/
example : [(Sym.ofChars ['a'], Val.nil), (Sym.ofChars ['b'], .nil), (Sym.ofChars ['c'], .nil)].Pairwise
    fun x y => symCompare y.1 x.1 = if false then .lt else .gt := by decide +kernel

end Tree

end Mnml
