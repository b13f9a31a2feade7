import Verif.RefineGlob

/-!
# Refinement: lists

The functions on lists of `Verif.Heap` compute the functions on trees of `Verif.Val` and `Verif.Str`.
-/

namespace Mnml
namespace Heap

section
variable {α : Type} {a b c d e f g i : α} {l r : List α}
theorem pk1 (h : l.Perm r) : (a :: l).Perm (a :: r) := h.cons a
theorem pk2 (h : (a :: l).Perm r) : (a :: b :: l).Perm (b :: r) :=
  (List.perm_middle (l₁ := [a])).trans (h.cons b)
theorem pk3 (h : (a :: b :: l).Perm r) : (a :: b :: c :: l).Perm (c :: r) :=
  (List.perm_middle (l₁ := [a, b])).trans (h.cons c)
theorem pk4 (h : (a :: b :: c :: l).Perm r) : (a :: b :: c :: d :: l).Perm (d :: r) :=
  (List.perm_middle (l₁ := [a, b, c])).trans (h.cons d)
theorem pk5 (h : (a :: b :: c :: d :: l).Perm r) : (a :: b :: c :: d :: e :: l).Perm (e :: r) :=
  (List.perm_middle (l₁ := [a, b, c, d])).trans (h.cons e)
theorem pk6 (h : (a :: b :: c :: d :: e :: l).Perm r) : (a :: b :: c :: d :: e :: f :: l).Perm (f :: r) :=
  (List.perm_middle (l₁ := [a, b, c, d, e])).trans (h.cons f)
theorem pk7 (h : (a :: b :: c :: d :: e :: f :: l).Perm r) : (a :: b :: c :: d :: e :: f :: g :: l).Perm (g :: r) :=
  (List.perm_middle (l₁ := [a, b, c, d, e, f])).trans (h.cons g)
theorem pk8 (h : (a :: b :: c :: d :: e :: f :: g :: l).Perm r) :
    (a :: b :: c :: d :: e :: f :: g :: i :: l).Perm (i :: r) :=
  (List.perm_middle (l₁ := [a, b, c, d, e, f, g])).trans (h.cons i)
end

/-- Permutations of explicit lists. -/
macro "pm" : tactic => `(tactic| (
  repeat (first
    | exact List.Perm.refl _
    | refine pk1 ?_ | refine pk2 ?_ | refine pk3 ?_ | refine pk4 ?_ | refine pk5 ?_ | refine pk6 ?_ | refine pk7 ?_
    | refine pk8 ?_)))

/-! ## Functions that only read -/

section
variable {s : HSt}

theorem sat_equ (n : Nat) : ∀ {Q : Bool → HSt → Prop} {a b : Addr} {u v : Val}, Rep s.mem a u → Rep s.mem b v →
    Q (Val.equ u v) s → Sat (equH n a b) Q s := by
  induction n with
  | zero => intros; exact Sat.oof
  | succ n ih =>
    intro Q a b u v ha hb k
    refine Sat.bind (Sat.bind (sat_cell fun ca hca => Sat.pure ?_))
    refine Sat.bind (Sat.bind (sat_cell fun cb hcb => Sat.pure ?_))
    cases ha with
    | @atom _ c' _ _ hc' hv' =>
      rw [hca] at hc'; cases hc'
      unfold Cell.val at hv'
      obtain ⟨cb', hcb', hd⟩ := hb.is
      rw [hcb] at hcb'; cases hcb'
      cases hda : ca.data with
      | pair x y => rw [hda] at hv'; cases hv'
      | _ =>
        rw [hda] at hv'
        simp only [Data.atom, Option.some.injEq] at hv'
        subst hv'
        generalize cb.data = db at hd
        cases hd <;> exact Sat.pure k
    | @pair _ x y c' u1 u2 _ hc' hd hx hy =>
      rw [hca] at hc'; cases hc'
      rw [hd]
      cases hb with
      | @atom _ c'' _ _ hc'' hv' =>
        rw [hcb] at hc''; cases hc''
        unfold Cell.val at hv'
        cases hdb : cb.data with
        | pair x y => rw [hdb] at hv'; cases hv'
        | _ =>
          rw [hdb] at hv'
          simp only [Data.atom, Option.some.injEq] at hv'
          subst hv'
          exact Sat.pure k
      | @pair _ x' y' c'' v1 v2 _ hc'' hd' hx' hy' =>
        rw [hcb] at hc''; cases hc''
        rw [hd']
        refine Sat.bind (ih hx hx' ?_)
        refine Sat.ite (fun e => ?_) (fun e => ?_)
        · refine ih hy hy' ?_
          rw [Val.equ, e, Bool.true_and] at k
          exact k
        · refine Sat.pure ?_
          rw [Bool.not_eq_true] at e
          rw [Val.equ, e, Bool.false_and] at k
          exact k

theorem sat_neq (n : Nat) : ∀ {Q : Bool → HSt → Prop} {a b : Addr} {u v : Val}, Rep s.mem a u → Rep s.mem b v →
    Q (Val.neq u v) s → Sat (neqH n a b) Q s := by
  induction n with
  | zero => intros; exact Sat.oof
  | succ n ih =>
    intro Q a b u v ha hb k
    refine Sat.bind (Sat.bind (sat_cell fun ca hca => Sat.pure ?_))
    refine Sat.bind (Sat.bind (sat_cell fun cb hcb => Sat.pure ?_))
    cases ha with
    | @atom _ c' _ _ hc' hv' =>
      rw [hca] at hc'; cases hc'
      unfold Cell.val at hv'
      obtain ⟨cb', hcb', hd⟩ := hb.is
      rw [hcb] at hcb'; cases hcb'
      cases hda : ca.data with
      | pair x y => rw [hda] at hv'; cases hv'
      | _ =>
        rw [hda] at hv'
        simp only [Data.atom, Option.some.injEq] at hv'
        subst hv'
        generalize cb.data = db at hd
        unfold Val.neq at k
        simp only [Val.type] at k
        cases hd <;> first | exact Sat.pure k | (simp at k; exact Sat.pure (by simpa using k))
    | @pair _ x y c' u1 u2 _ hc' hd hx hy =>
      rw [hca] at hc'; cases hc'
      rw [hd]
      cases hb with
      | @atom _ c'' _ _ hc'' hv' =>
        rw [hcb] at hc''; cases hc''
        unfold Cell.val at hv'
        cases hdb : cb.data with
        | pair x y => rw [hdb] at hv'; cases hv'
        | _ =>
          rw [hdb] at hv'
          simp only [Data.atom, Option.some.injEq] at hv'
          subst hv'
          unfold Val.neq at k
          exact Sat.pure k
      | @pair _ x' y' c'' v1 v2 _ hc'' hd' hx' hy' =>
        rw [hcb] at hc''; cases hc''
        rw [hd']
        unfold Val.neq at k
        simp only [Val.type, bne_self_eq_false, Bool.false_or] at k
        refine Sat.bind (ih hx hx' ?_)
        refine Sat.ite (fun e => ?_) (fun e => ?_)
        · rw [e, Bool.true_or] at k
          exact Sat.pure k
        · rw [Bool.not_eq_true] at e
          rw [e, Bool.false_or] at k
          exact ih hy hy' k

theorem sat_match (n : Nat) : ∀ {Q : Bool → HSt → Prop} {a b : Addr} {u v : Val}, Rep s.mem a u → Rep s.mem b v →
    Q (Val.atomMatch u v) s → Sat (matchH n a b) Q s := by
  induction n with
  | zero => intros; exact Sat.oof
  | succ n ih =>
    intro Q a b u v ha hb k
    refine Sat.bind (Sat.bind (sat_cell fun ca hca => Sat.pure ?_))
    cases ha with
    | @atom _ c' _ _ hc' hv' =>
      rw [hca] at hc'; cases hc'
      unfold Cell.val at hv'
      cases hda : ca.data with
      | pair x y => rw [hda] at hv'; cases hv'
      | wild =>
        rw [hda] at hv'
        simp only [Data.atom, Option.some.injEq] at hv'
        subst hv'
        exact Sat.pure (by simpa [Val.atomMatch] using k)
      | _ =>
        rw [hda] at hv'
        simp only [Data.atom, Option.some.injEq] at hv'
        subst hv'
        refine Sat.ite (fun e => absurd e (by simp [Data.isWild])) (fun _ => ?_)
        refine Sat.bind (sat_data hb fun d hd => ?_)
        cases hd <;> exact Sat.pure k
    | @pair _ x y c' u1 u2 _ hc' hd hx hy =>
      rw [hca] at hc'; cases hc'
      rw [hd]
      refine Sat.ite (fun e => absurd e (by simp [Data.isWild])) (fun _ => ?_)
      refine Sat.bind (Sat.bind (sat_cell fun cb hcb => Sat.pure ?_))
      cases hb with
      | @atom _ c'' _ _ hc'' hv' =>
        rw [hcb] at hc''; cases hc''
        unfold Cell.val at hv'
        cases hdb : cb.data with
        | pair x y => rw [hdb] at hv'; cases hv'
        | _ =>
          rw [hdb] at hv'
          simp only [Data.atom, Option.some.injEq] at hv'
          subst hv'
          exact Sat.pure k
      | @pair _ x' y' c'' v1 v2 _ hc'' hd' hx' hy' =>
        rw [hcb] at hc''; cases hc''
        rw [hd']
        refine Sat.bind (ih hx hx' ?_)
        refine Sat.ite (fun e => ?_) (fun e => ?_)
        · refine ih hy hy' ?_
          rw [Val.atomMatch, e, Bool.true_and] at k
          exact k
        · refine Sat.pure ?_
          rw [Bool.not_eq_true] at e
          rw [Val.atomMatch, e, Bool.false_and] at k
          exact k

/-- The cells of a value: an atom or a pair. -/
theorem sat_cases {α : Type} {Q : α → HSt → Prop} {a : Addr} {v : Val} {f : Data → HM α} (r : Rep s.mem a v)
    (h1 : ∀ d, d.atom.isSome → d.Is v → v.isPair = false → Sat (f d) Q s)
    (h2 : ∀ x y t u w, v = .pair t u w → Rep s.mem x u → Rep s.mem y w →
      (∀ b, Part s.mem b a → Part s.mem b x) → (∀ b, Part s.mem b a → Part s.mem b y) →
      Sat (f (.pair x y)) Q s) : Sat (dataOf a >>= f) Q s := by
  refine Sat.bind (Sat.bind (sat_cell fun c hc => Sat.pure ?_))
  obtain ⟨c2, hc2, hd⟩ := r.is
  rw [hc] at hc2; cases hc2
  cases r with
  | @atom _ c' _ _ hc' hv' =>
    rw [hc] at hc'; cases hc'
    unfold Cell.val at hv'
    refine h1 c.data ?_ hd ?_
    · cases hda : c.data with
      | pair x y => rw [hda] at hv'; cases hv'
      | _ => rfl
    · cases hda : c.data with
      | pair x y => rw [hda] at hv'; cases hv'
      | _ => rw [hda] at hd; cases hd <;> rfl
  | @pair _ x y c' u w _ hc' hd' hx hy =>
    rw [hc] at hc'; cases hc'
    rw [hd']
    exact h2 x y _ u w rfl hx hy (fun b hb => .car hb hc hd') (fun b hb => .cdr hb hc hd')

theorem sat_len (n : Nat) : ∀ {Q : Nat → HSt → Prop} {a : Addr} {v : Val}, Rep s.mem a v → Q v.len s →
    Sat (lenH n a) Q s := by
  induction n with
  | zero => intros; exact Sat.oof
  | succ n ih =>
    intro Q a v ha k
    refine sat_cases ha ?_ ?_
    · intro d _ hd hp
      cases hd <;> first | (exfalso; exact Bool.noConfusion hp) | exact Sat.pure k
    · intro x y t u w e hx hy _ _
      subst e
      exact Sat.bind (ih hy (Sat.pure k))

theorem sat_isString (n : Nat) : ∀ {Q : Bool → HSt → Prop} {a : Addr} {v : Val}, Rep s.mem a v → Q v.isString s →
    Sat (isStringH n a) Q s := by
  induction n with
  | zero => intros; exact Sat.oof
  | succ n ih =>
    intro Q a v ha k
    refine sat_cases ha ?_ ?_
    · intro d _ hd hp
      cases hd <;> first | (exfalso; exact Bool.noConfusion hp) | exact Sat.pure k
    · intro x y t u w e hx hy _ _
      subst e
      refine Sat.bind (sat_data hx fun d hd => ?_)
      rw [hd.isChr]
      refine Sat.ite (fun e => ih hy ?_) (fun e => Sat.pure ?_)
      · rw [Val.isString, e, Bool.true_and] at k; exact k
      · rw [Bool.not_eq_true] at e
        rw [Val.isString, e, Bool.false_and] at k; exact k

theorem sat_cstring (n : Nat) : ∀ {Q : List UInt8 × Nat → HSt → Prop} {a : Addr} {v : Val} {len idx : Nat},
    Rep s.mem a v → (∀ r, makeCString v len idx = .ok r → Q r s) → Sat (cstringH n a len idx) Q s := by
  induction n with
  | zero => intros; exact Sat.oof
  | succ n ih =>
    intro Q a v len idx ha k
    refine sat_cases ha ?_ ?_
    · intro d ha' hd hp
      refine Sat.ite (fun e => Sat.pure (k _ ?_)) (fun e => ?_)
      · cases hd <;> first | rfl | (exfalso; exact Bool.noConfusion hp) | (simp [Data.isNil] at e; simp [makeCString, e])
      · have : (v.isPair = false) := hp
        refine Sat.bind (sat_pairOf ha ?_)
        intro x y t u w e' _ _ _ _
        subst e'; cases hp
    · intro x y t u w e hx hy _ _
      subst e
      refine Sat.ite (fun e => Sat.pure (k _ ?_)) (fun e => ?_)
      · simp [Data.isNil] at e
        simp [makeCString, e]
      · have ne : ¬ idx = len := by simpa [Data.isNil] using e
        refine Sat.bind (sat_pairOf ha ?_)
        intro x' y' t' u' w' e' hx' hy' _ _
        cases e'
        refine Sat.bind (ih hy' ?_)
        intro r hr
        refine Sat.bind (sat_data hx' fun d hd => ?_)
        refine Sat.bind (Sat.lift ?_)
        intro m hm
        rw [hd.number] at hm
        refine Sat.pure (k _ ?_)
        simp only [makeCString, ne, if_false, hr, Res.ok_bind, hm]

theorem sat_mayApply (n : Nat) : ∀ {Q : Bool → HSt → Prop} {a b : Addr} {u v : Val}, Rep s.mem a u → Rep s.mem b v →
    Q (Val.mayApply u v) s → Sat (mayApplyH n a b) Q s := by
  induction n with
  | zero => intros; exact Sat.oof
  | succ n ih =>
    intro Q a b u v ha hb k
    refine sat_cases ha ?_ ?_
    · intro d _ hd hp
      refine Sat.bind (sat_data hb fun d' hd' => ?_)
      cases hd <;> first | (exfalso; exact Bool.noConfusion hp) | (cases hd' <;> exact Sat.pure k)
    · intro x y t u1 u2 e hx hy _ _
      subst e
      refine sat_cases hb ?_ ?_
      · intro d' _ hd' hp'
        cases hd' <;> first | (exfalso; exact Bool.noConfusion hp') | exact Sat.pure k
      · intro x' y' t' v1 v2 e hx' hy' _ _
        subst e
        exact ih hy hy' k

theorem sat_isFunc {Q : Bool → HSt → Prop} {a : Addr} {v : Val} (ha : Rep s.mem a v) (k : Q v.isFunc s) :
    Sat (isFuncH a) Q s := by
  refine sat_cases ha ?_ ?_
  · intro d _ hd hp
    cases hd <;> first | (exfalso; exact Bool.noConfusion hp) | exact Sat.pure k
  · intro x y t u w e hx hy _ _
    subst e
    refine Sat.bind (sat_data hx fun dx hdx => ?_)
    refine sat_cases hy ?_ ?_
    · intro d _ hd hp
      cases hd <;> first | (exfalso; exact Bool.noConfusion hp) | exact Sat.pure k
    · intro z b t' u' w' e hz hb _ _
      subst e
      refine Sat.bind (sat_data hz fun dz hdz => ?_)
      refine Sat.bind (sat_data hb fun db hdb => Sat.pure ?_)
      rw [hdx.isList, hdx.isSym, hdz.isList, hdb.isPair, hdb.isNum]
      exact k

theorem sat_view (n : Nat) : ∀ {Q : Val → HSt → Prop} {a : Addr} {v : Val}, Rep s.mem a v → Q v s →
    Sat (viewH n a) Q s := by
  induction n with
  | zero => intros; exact Sat.oof
  | succ n ih =>
    intro Q a v ha k
    refine Sat.bind (sat_cell fun c hc => ?_)
    cases ha with
    | @atom _ c' _ _ hc' hv' =>
      rw [hc] at hc'; cases hc'
      unfold Cell.val at hv'
      cases hda : c.data with
      | pair x y => rw [hda] at hv'; cases hv'
      | sym sy =>
        rw [hda] at hv'
        cases hv'
        exact Sat.pure k
      | _ =>
        rw [hda] at hv'
        cases hv'
        exact Sat.lift (by intro a ha; cases ha; exact k)
    | @pair _ x y c' u1 u2 _ hc' hd hx hy =>
      rw [hc] at hc'; cases hc'
      rw [hd]
      exact Sat.bind (ih hx (Sat.bind (ih hy (Sat.pure k))))

theorem sat_compare {Q : Ordering → HSt → Prop} {a b : Addr} {u v : Val} (ha : Rep s.mem a u) (hb : Rep s.mem b v)
    (k : ∀ t t', u.tag = some t → v.tag = some t' → Q (symCompare t t') s) : Sat (compareH a b) Q s := by
  refine Sat.bind (sat_data ha fun d hd => ?_)
  refine Sat.bind (sat_data hb fun d' hd' => ?_)
  rw [hd.tag, hd'.tag]
  cases hu : u.tag with
  | none => exact Sat.ub
  | some t =>
    cases hv : v.tag with
    | none => exact Sat.ub
    | some t' => exact Sat.pure (k t t' hu hv)

end

/-! ## Lists under construction -/

/-- Private pairs with plain CARs that end with a plain value. -/
inductive Line : B → Prop where
  | tok (a : Addr) (v : Val) (ps : List (Addr × Val)) : Line (.tok a v ps)
  | node (a : Addr) (t : Bool) (x : Addr) (u : Val) (ps : List (Addr × Val)) {τ : B} : Line τ →
      Line (.node a t (.tok x u ps) τ)

/-- The same, down to an atom. -/
inductive Own : B → Prop where
  | atom {a : Addr} {v : Val} {ps : List (Addr × Val)} : v.isPair = false → Own (.tok a v ps)
  | node (a : Addr) (t : Bool) (x : Addr) (u : Val) (ps : List (Addr × Val)) {τ : B} : Own τ →
      Own (.node a t (.tok x u ps) τ)

theorem Own.spine {σ : B} (h : Own σ) : Line σ := by
  induction h with
  | atom => exact .tok ..
  | node a t x u ps _ ih => exact .node a t x u ps ih

/-- Replace the end. -/
def B.app : B → B → B
  | .node a t x y, τ => .node a t x (y.app τ)
  | _, τ => τ

theorem Own.app_spine {σ τ : B} (h : Own σ) (h' : Line τ) : Line (σ.app τ) := by
  induction h with
  | atom => exact h'
  | node a t x u ps _ ih => exact .node a t x u ps ih

theorem Own.app_own {σ τ : B} (h : Own σ) (h' : Own τ) : Own (σ.app τ) := by
  induction h with
  | atom => exact h'
  | node a t x u ps _ ih => exact .node a t x u ps ih

theorem Own.app_val {σ τ : B} (h : Own σ) : (σ.app τ).val = Val.conc σ.val τ.val := by
  induction h with
  | @atom a v ps hv =>
    show τ.val = Val.conc v τ.val
    cases v <;> first | rfl | cases hv
  | @node a t x u ps y hy ih =>
    show Val.pair t u (y.app τ).val = Val.conc (.pair t u y.val) τ.val
    rw [ih, Val.conc]
    by_cases hp : y.val.isPair
    · rw [if_pos hp]
    · rw [if_neg hp]
      cases hv : y.val <;> first | rfl | (rw [hv] at hp; exact absurd rfl hp)

/-- The parts of a list that may be referred to after it has become a plain value. -/
def B.pins : B → List (Addr × Val)
  | .tok _ _ ps => ps
  | .node _ _ x y => (x.addr, x.val) :: (y.addr, y.val) :: (x.pins ++ y.pins)
  | _ => []

/-- A list that is complete becomes a plain value. -/
theorem Sim.publish' {σ : B} (hσ : Line σ) : ∀ {Γ : List B} {s : HSt} {st : St}, Sim (σ :: Γ) s st →
    Sim (.tok σ.addr σ.val σ.pins :: Γ) s st := by
  induction hσ with
  | tok a v ps => intro Γ s st h; exact h
  | @node a t x u ps τ _ ih =>
    intro Γ s st h
    have h1 := ih h.unfold.mv3
    exact (Sim.fold (σ := .tok x u ps) (τ := .tok τ.addr τ.val τ.pins) h1.to3).publish

theorem Sim.plain {σ : B} (hσ : Line σ) {Γ : List B} {s : HSt} {st : St} (h : Sim (σ :: Γ) s st) :
    Sim (.tok σ.addr σ.val [] :: Γ) s st := (h.publish' hσ).unpin (by simp)

/-- The data at the root of a list. -/
theorem sat_spine {Q : Data → HSt → Prop} {Γ : List B} {s : HSt} {st : St} {σ : B} (h : Sim (σ :: Γ) s st)
    (hσ : Line σ) (k : ∀ d, d.Is σ.val → Q d s) : Sat (dataOf σ.addr) Q s := by
  cases hσ with
  | tok a v ps => exact sat_data (h.rep (List.mem_cons_self ..)) k
  | @node a t x u ps τ _ => exact sat_dataPc h.unfold (List.mem_cons_self ..) (k _ (.pair ..))

/-- The address of the last pair. -/
def B.last : B → Addr
  | .node _ _ _ (.node b t x y) => (B.node b t x y).last
  | .node a .. => a
  | σ => σ.addr

theorem sat_last (n : Nat) : ∀ {Q : Addr → HSt → Prop} {A : List Addr} {s : HSt} {a x : Addr} {t : Bool} {u : Val}
    {ps : List (Addr × Val)} {τ : B}, Own τ → (B.node a t (.tok x u ps) τ).Ok A s.mem →
    Q (B.node a t (.tok x u ps) τ).last s → Sat (lastPair n a) Q s := by
  induction n with
  | zero => intros; exact Sat.oof
  | succ n ih =>
    intro Q A s a x t u ps τ hτ h k
    obtain ⟨⟨c, hc, hr, ht, hd⟩, _, hy⟩ := h
    refine Sat.bind (Sat.bind (Sat.bind (Sat.ok (cell_ok hc) (Sat.pure ?_))))
    rw [hd]
    refine Sat.pure ?_
    cases hτ with
    | @atom b v ps' hv =>
      refine Sat.bind (sat_data hy.1.rep fun d hd' => ?_)
      rw [hd'.isPair]
      refine Sat.ite (fun e => ?_) (fun e => Sat.pure k)
      rw [hv] at e; cases e
    | @node b t' x' u' ps' τ' h' =>
      have hy' := hy
      obtain ⟨⟨c', hc', _, _, hd'⟩, _, _⟩ := hy'
      refine Sat.bind (Sat.bind (Sat.ok (cell_ok hc') (Sat.pure ?_)))
      rw [hd']
      exact ih h' hy k

/-- Overwriting the last CDR. -/
theorem sat_relink {σ : B} (hσ : Own σ) : ∀ {Q : Addr → HSt → Prop} {Γ : List B} {s : HSt} {st : St} {τ : B} {z : Addr},
    (∀ a v ps, σ ≠ .tok a v ps) → Sim (σ :: τ :: Γ) s st → (∀ s', Sim (σ.app τ :: Γ) s' st → Q z s') →
    Sat (do
      let (_, y) ← pairOf σ.last
      X y
      let (x, _) ← pairOf σ.last
      setData σ.last (.pair x τ.addr)
      pure z) Q s := by
  induction hσ with
  | atom => intro Q Γ s st τ z hn; exact absurd rfl (hn _ _ _)
  | @node a t x u ps y hy ih =>
    intro Q Γ s st τ z hn h k
    cases hy with
    | @atom b v ps' hv =>
      have h1 := h.unfold
      refine Sat.bind (sat_pairPc h1 (List.mem_cons_self ..) ?_)
      refine Sat.bind (sat_X h1.mv3 fun s1 h2 => ?_)
      refine Sat.bind (sat_pairPc h2 (List.mem_cons_self ..) ?_)
      refine Sat.bind (sat_setData h2 fun s2 h3 => Sat.pure (k s2 ?_))
      exact Sim.fold (σ := .tok x u ps) h3
    | @node b t' x' u' ps' y' hy' =>
      have h1 : Sim (.node b t' (.tok x' u' ps') y' :: τ :: .pc a t x b :: .tok x u ps :: Γ) s st :=
        h.unfold.perm (by pm)
      refine ih (by intro _ _ _ e; cases e) h1 fun s' h2 => k s' ?_
      have h3 : Sim (.pc a t x b :: .tok x u ps :: (B.node b t' (.tok x' u' ps') y').app τ :: Γ) s' st := h2.to3
      exact Sim.fold (σ := .tok x u ps) (τ := (B.node b t' (.tok x' u' ps') y').app τ) h3

theorem sat_conc {Q : Addr → HSt → Prop} {n : Nat} {Γ : List B} {s : HSt} {st : St} {σ τ : B} (hσ : Own σ)
    (h : Sim (σ :: τ :: Γ) s st) (k : ∀ s', Sim (σ.app τ :: Γ) s' st → Q (σ.app τ).addr s') :
    Sat (concH n σ.addr τ.addr) Q s := by
  cases hσ with
  | @atom a v ps hv =>
    refine Sat.bind (sat_data (h.rep (List.mem_cons_self ..)) fun d hd => ?_)
    rw [hd.isPair]
    refine Sat.ite (fun e => ?_) (fun e => ?_)
    · rw [hv] at e; cases e
    · exact Sat.bind (sat_X h fun s' h' => Sat.pure (k s' h'))
  | @node a t x u ps y hy =>
    refine Sat.bind (sat_dataPc h.unfold (List.mem_cons_self ..) ?_)
    refine Sat.ite (fun _ => ?_) (fun e => absurd rfl e)
    obtain ⟨G, h0⟩ := h
    refine Sat.bind (sat_last n hy (h0.ok _ (List.mem_cons_self ..)) ?_)
    exact sat_relink (Own.node a t x u ps hy) (by intro _ _ _ e; cases e) ⟨G, h0⟩ k

theorem sat_append {Q : Addr → HSt → Prop} {n : Nat} {Γ : List B} {s : HSt} {st : St} {σ : B} {e : Addr} {v : Val}
    {ps : List (Addr × Val)} (hσ : Own σ) (h : Sim (σ :: .tok e v ps :: Γ) s st)
    (k : ∀ ρ s', Own ρ → ρ.val = Val.append σ.val v → Sim (ρ :: Γ) s' st → Q ρ.addr s') :
    Sat (appendH n σ.addr e) Q s := by
  refine Sat.bind (sat_nil h fun nl s1 h1 => ?_)
  refine Sat.bind (sat_pc h1 fun r s2 h2 => ?_)
  have h3 : Sim (.pc r false e nl :: .tok e v ps :: .tok nl .nil [] :: σ :: Γ) s2 st := h2.perm (by pm)
  have h4 := (Sim.fold (σ := .tok e v ps) (τ := .tok nl .nil []) h3).mv2
  refine sat_conc (τ := .node r false (.tok e v ps) (.tok nl .nil [])) hσ h4 fun s' h' => k _ s' (hσ.app_own (.node _ _ _ _ _ (.atom rfl))) ?_ h'
  rw [hσ.app_val]; rfl

/-! ## Copies and insertion -/

theorem sat_noFlag {Q : Unit → HSt → Prop} {s : HSt} {a : Addr} {v : Val} (hs : s.strict = true) (r : Rep s.mem a v)
    (k : v.isTailCall = false → Q () s) : Sat (noFlag a) Q s := by
  refine Sat.bind (sat_cell fun c hc => sat_guard hs fun e => k ?_)
  have ht : c.tc = false := by simpa using e
  cases r with
  | @atom _ c' _ _ hc' hv' =>
    rw [hc] at hc'; cases hc'
    unfold Cell.val at hv'
    cases hda : c.data <;> rw [hda] at hv' <;> cases hv' <;> first | rfl | exact ht
  | @pair _ x y c' u w _ hc' hd hx hy =>
    rw [hc] at hc'; cases hc'
    exact ht

theorem sat_dup (n : Nat) : ∀ {Q : Addr → HSt → Prop} {Γ : List B} {s : HSt} {st : St} {b a : Addr} {w v : Val}
    {ps : List (Addr × Val)}, Sim (.tok b w ps :: Γ) s st → Part s.mem b a → Rep s.mem a v →
    (∀ σ s', Own σ → σ.val = v → Sim (σ :: .tok b w ps :: Γ) s' st → Q σ.addr s') → Sat (dupH n a) Q s := by
  induction n with
  | zero => intros; exact Sat.oof
  | succ n ih =>
    intro Q Γ s st b a w v ps h r hv k
    refine sat_cases hv ?_ ?_
    · intro d ha hd hp
      have key : Sat (Heap.up a >>= fun _ => pure a) Q s :=
        Sat.bind (sat_up h ⟨b, w, ps, List.mem_cons_self .., r, hv⟩ fun s' h' =>
          Sat.pure (k (.tok a v []) s' (.atom hp) rfl h'))
      cases hd <;> first | (exfalso; exact Bool.noConfusion hp) | exact key
    · intro x y t u w' e hx hy rx ry
      subst e
      refine Sat.bind (sat_noFlag h.strict hv fun ht => ?_)
      have et : t = false := ht
      subst et
      have h1 := h.pin (rx b r) hx
      refine Sat.bind (ih h1 (ry b r) hy ?_)
      intro σ s1 oσ eσ h2
      have hm : B.tok b w ((x, u) :: ps) ∈ σ :: .tok b w ((x, u) :: ps) :: Γ := by simp
      refine Sat.bind (sat_up h2 (h2.borPin hm (List.mem_cons_self ..)) fun s2 h3 => ?_)
      refine sat_pc h3 fun r' s3 h4 => ?_
      have h5 := Sim.fold (σ := .tok x u []) (τ := σ) h4
      have h6 := (h5.mv2.unpin (ps' := ps) (by intro p hp; simp [hp])).mv2
      refine k (.node r' false (.tok x u []) σ) s3 (.node _ _ _ _ _ oσ) ?_ h6
      show Val.pair false u σ.val = _
      rw [eσ]

theorem sat_sss (n : Nat) : ∀ {Q : Addr → HSt → Prop} {Γ : List B} {s : HSt} {st : St} {σ : B} {p : Addr} {v : Val}
    {ps : List (Addr × Val)}, Own σ → Sim (σ :: .tok p v ps :: Γ) s st →
    (∀ ρ s', Own ρ → Val.sss σ.val v = .ok ρ.val → Sim (ρ :: Γ) s' st → Q ρ.addr s') → Sat (sssH n σ.addr p) Q s := by
  induction n with
  | zero => intros; exact Sat.oof
  | succ n ih =>
    intro Q Γ s st σ p v ps hσ h k
    cases hσ with
    | @atom a w ps' hw =>
      refine Sat.bind (sat_data (h.rep (List.mem_cons_self ..)) fun d hd => ?_)
      rw [hd.isNil]
      refine Sat.ite (fun e => ?_) (fun e => ?_)
      · have : w = .nil := by cases w <;> simp [Val.isNil] at e; rfl
        subst this
        refine sat_pc h fun r s1 h1 => ?_
        have h2 := Sim.fold (σ := .tok p v ps) (τ := .tok a .nil ps') (h1.perm (.cons _ (.swap _ _ _)))
        exact k _ s1 (.node _ _ _ _ _ (.atom rfl)) rfl h2
      · refine Sat.bind (sat_pairOf (h.rep (List.mem_cons_self ..)) ?_)
        intro x y t u w' e' _ _ _ _
        subst e'; cases hw
    | @node a t x u px y hy =>
      have h1 := h.unfold
      have hp := h.rep (a := p) (v := v) (ps := ps) (by simp)
      have hx := h1.rep (a := x) (v := u) (ps := px) (by simp)
      refine Sat.bind (sat_dataPc h1 (List.mem_cons_self ..) ?_)
      refine Sat.ite (fun e => by simp [Data.isNil] at e) (fun _ => ?_)
      refine Sat.bind (sat_pairPc h1 (List.mem_cons_self ..) ?_)
      refine Sat.bind (sat_pairOf hx ?_)
      intro k1 _ t1 u1 w1 e1 hk1 _ _ _
      refine Sat.bind (sat_pairOf hp ?_)
      intro k2 _ t2 u2 w2 e2 hk2 _ _ _
      subst e1 e2
      refine Sat.bind (sat_compare hk1 hk2 ?_)
      intro g g' hg hg'
      cases ho : symCompare g g' with
      | lt =>
        have h2 : Sim (y :: .tok p (.pair t2 u2 w2) ps :: .pc a t x y.addr :: .tok x (.pair t1 u1 w1) px :: Γ) s st :=
          h1.perm (by pm)
        refine Sat.bind (ih hy h2 ?_)
        intro ρ s1 oρ eρ h3
        have h4 : Sim (.pc a t x y.addr :: .tok x (.pair t1 u1 w1) px :: ρ :: Γ) s1 st := h3.to3
        refine Sat.bind (sat_pairPc h4 (List.mem_cons_self ..) ?_)
        refine Sat.bind (sat_setData h4 fun s2 h5 => Sat.pure ?_)
        refine k (.node a t (.tok x (.pair t1 u1 w1) px) ρ) s2 (.node _ _ _ _ _ oρ) ?_ (Sim.fold h5)
        show Val.sss (.pair t (.pair t1 u1 w1) y.val) _ = _
        simp only [Val.sss, hg, hg', ho, eρ, Res.ok_bind]
        rfl
      | eq =>
        refine Sat.bind (sat_setData h1 fun s1 h2 => ?_)
        refine Sat.bind (sat_X h2.mv2 fun s2 h3 => Sat.pure ?_)
        have h4 := Sim.fold (σ := .tok p (.pair t2 u2 w2) ps) (τ := y) (h3.perm (.cons _ (.swap _ _ _)))
        refine k (.node a t (.tok p (.pair t2 u2 w2) ps) y) s2 (.node _ _ _ _ _ hy) ?_ h4
        show Val.sss (.pair t (.pair t1 u1 w1) y.val) _ = _
        simp only [Val.sss, hg, hg', ho]
        rfl
      | gt =>
        refine sat_pc h fun r s1 h2 => ?_
        have h3 := Sim.fold (σ := .tok p (.pair t2 u2 w2) ps) (h2.perm (.cons _ (.swap _ _ _)))
        refine k _ s1 (.node _ _ _ _ _ (.node _ _ _ _ _ hy)) ?_ h3
        show Val.sss (.pair t (.pair t1 u1 w1) y.val) _ = _
        simp only [Val.sss, hg, hg', ho]
        rfl

theorem sat_mergeLoop (n : Nat) : ∀ {Q : Addr → HSt → Prop} {Γ : List B} {s : HSt} {st : St} {σ : B} {b a : Addr} {w v : Val}
    {ps : List (Addr × Val)}, Own σ → Sim (σ :: .tok b w ps :: Γ) s st → Part s.mem b a → Rep s.mem a v →
    (∀ ρ s', Own ρ → Val.merge σ.val v = .ok ρ.val → Sim (ρ :: .tok b w ps :: Γ) s' st → Q ρ.addr s') →
    Sat (mergeLoop n σ.addr a) Q s := by
  induction n with
  | zero => intros; exact Sat.oof
  | succ n ih =>
    intro Q Γ s st σ b a w v ps hσ h r hv k
    refine Sat.bind (sat_pairOf hv ?_)
    intro x y t u w' e hx hy rx ry
    subst e
    have h1 := h.mv2.pin (ry b r) hy
    have h2 := h1.pin r hv
    have hm : B.tok b w ((a, .pair t u w') :: (y, w') :: ps) ∈ .tok b w ((a, .pair t u w') :: (y, w') :: ps) :: σ :: Γ := by simp
    refine Sat.bind (sat_up h2 ⟨b, w, _, hm, rx b r, hx⟩ fun s1 h3 => ?_)
    refine Sat.bind (sat_sss n hσ (h3.mv3) ?_)
    intro ρ s2 oρ eρ h4
    have hm2 : B.tok b w ((a, .pair t u w') :: (y, w') :: ps) ∈ ρ :: .tok b w ((a, .pair t u w') :: (y, w') :: ps) :: Γ := by
      simp
    have pa := h4.pinned hm2 (List.mem_cons_self ..)
    have py := h4.pinned hm2 (x := y) (u := w') (by simp)
    have h5 : Sim (ρ :: .tok b w ps :: Γ) s2 st := (h4.mv2.unpin (by intro p hp; simp [hp])).mv2
    refine Sat.bind (sat_pairOf pa.2 ?_)
    intro x2 y2 t2 u2 w2 e2 hx2 hy2 _ ry2
    cases e2
    refine Sat.bind (sat_data hy2 fun d hd => ?_)
    rw [hd.isPair]
    refine Sat.ite (fun e => ?_) (fun e => Sat.pure ?_)
    · obtain ⟨t', u', v', rfl⟩ : ∃ t u v, w' = .pair t u v := by cases w' <;> simp [Val.isPair] at e ⊢
      refine ih oρ h5 (ry2 b pa.1) hy2 ?_
      intro ρ2 s3 oρ2 eρ2 h6
      refine k ρ2 s3 oρ2 ?_ h6
      rw [Val.merge, eρ, Res.ok_bind]
      exact eρ2
    · refine k ρ s2 oρ ?_ h5
      rw [Val.merge, eρ, Res.ok_bind]
      cases w' <;> first | rfl | exact absurd rfl e

theorem sat_merge {Q : Addr → HSt → Prop} {n : Nat} {Γ : List B} {s : HSt} {st : St} {σ : B} {b : Addr} {v : Val}
    {ps : List (Addr × Val)} (hσ : Own σ) (h : Sim (σ :: .tok b v ps :: Γ) s st)
    (k : ∀ ρ s', Own ρ → Val.merge σ.val v = .ok ρ.val → Sim (ρ :: .tok b v ps :: Γ) s' st → Q ρ.addr s') :
    Sat (mergeH n σ.addr b) Q s := by
  have hb := h.rep (a := b) (v := v) (ps := ps) (by simp)
  refine Sat.bind (sat_data hb fun d hd => ?_)
  rw [hd.isNil]
  refine Sat.ite (fun e => Sat.pure ?_) (fun e => sat_mergeLoop n hσ h .refl hb k)
  have : v = .nil := by cases v <;> simp [Val.isNil] at e; rfl
  subst this
  exact k σ s hσ rfl h

theorem sat_bind (n : Nat) : ∀ {Q : Addr → HSt → Prop} {Γ : List B} {s : HSt} {st : St} {σ : B} {arg val : Addr} {va vv : Val}
    {pa pv : List (Addr × Val)}, Sim (σ :: .tok arg va pa :: .tok val vv pv :: Γ) s st →
    (∀ ρ s', (Own σ → Own ρ) → (Line σ → Line ρ) → ρ.val = Val.bind σ.val va vv → Sim (ρ :: Γ) s' st → Q ρ.addr s') →
    Sat (bindH n σ.addr arg val) Q s := by
  induction n with
  | zero => intros; exact Sat.oof
  | succ n ih =>
    intro Q Γ s st σ arg val va vv pa pv h k
    have harg := h.rep (a := arg) (v := va) (ps := pa) (by simp)
    have other : va.isPair = false → va.isSym = false → Sat (do Xs [arg, val]; pure σ.addr) Q s := by
      intro h1 h2
      refine Sat.bind (sat_Xs2 h.to3 fun s1 h3 => Sat.pure (k σ s1 id id ?_ h3))
      cases va <;> first | rfl | exact Bool.noConfusion h1 | exact Bool.noConfusion h2
    refine sat_cases harg ?_ ?_
    · intro d _ hd hp
      cases hd with
      | sym t sy =>
        refine Sat.bind (sat_cons' (h.to3) fun kvp s1 h1 => ?_)
        refine sat_pc h1 fun r s2 h2 => ?_
        refine k (.node r false (.tok kvp _ []) σ) s2 (fun o => .node _ _ _ _ _ o) (fun o => .node _ _ _ _ _ o) rfl
          (Sim.fold h2)
      | pair => cases hp
      | _ => exact other rfl rfl
    · intro x y t u w e hx hy _ _
      subst e
      refine Sat.bind (sat_car h (h.bor (a := arg) (v := .pair t u w) (ps := pa) (by simp)) fun sym s1 h1 => ?_)
      refine Sat.bind (sat_car h1 (h1.bor (a := val) (v := vv) (ps := pv) (by simp)) fun vl0 s2 h2 => ?_)
      refine Sat.bind (sat_cdr h2 (h2.bor (a := arg) (v := .pair t u w) (ps := pa) (by simp)) fun oth s3 h3 => ?_)
      refine Sat.bind (sat_cdr h3 (h3.bor (a := val) (v := vv) (ps := pv) (by simp)) fun rem s4 h4 => ?_)
      have h5 : Sim (.tok arg (.pair t u w) pa :: .tok val vv pv :: σ :: .tok sym u [] :: .tok vl0 vv.car [] ::
          .tok oth w [] :: .tok rem vv.cdr [] :: Γ) s4 st := h4.perm (by pm)
      refine Sat.bind (sat_Xs2 h5 fun s5 h6 => ?_)
      refine Sat.bind (ih h6 ?_)
      intro ρ s6 o1 o2 e1 h7
      refine ih h7 ?_
      intro ρ2 s7 o3 o4 e2 h8
      refine k ρ2 s7 (fun o => o3 (o1 o)) (fun o => o4 (o2 o)) ?_ h8
      rw [e2, e1]; rfl

end Heap
end Mnml
