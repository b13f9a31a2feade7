import Verif.RefineTree

/-!
# Refinement: marking tail calls in cells that nothing else refers to

The tail expressions that `lisp_collect_tails` collects are, cell by cell, those of the tree of the body. The marking loop
sets flags in the cells of their heads, which gives the body that the marking on trees computes.
-/

namespace Mnml
namespace Heap

/-! ## Code in place -/

/-- The tree `TT` of code that was there when the next free address was `N`. -/
structure Cx (TT : AT) (N : Nat) (s : HSt) : Prop where
  tree : TT.In s.mem
  old : ∀ x, x ∈ TT.addrs → x < N
  le : N ≤ s.next

theorem Cx.keep {TT : AT} {N : Nat} {s s' : HSt} {Γ : List B} {st : St} {v : Val} (c : Cx TT N s) (k : Kp N s s')
    (h : Sim Γ s' st) (p : Pin Γ TT.root v) : Cx TT N s' :=
  ⟨c.tree.keep c.old k (h.prep p), c.old, Nat.le_trans c.le k.1⟩

/-- The value `v` at `a` is the part `T` of the code, or nothing. -/
structure Loc (TT T : AT) (a : Addr) (v : Val) : Prop where
  erase : T.erase = v
  place : v = .nil ∨ (T.root = a ∧ AT.Sub TT T)

theorem KP.use {α : Type} {m : HM α} {R : α → HSt → Prop} {TT : AT} {N : Nat} {s : HSt} (hk : KP m) (c : Cx TT N s)
    (h : Sat m (fun a s1 => Kp N s s1 → R a s1) s) : Sat m R s :=
  fun a s' e => h a s' e (hk N s c.le a s' e)

theorem addr_car {s : HSt} {a x y : Addr} {c : Cell} (hc : s.mem a = some c) (hd : c.data = .pair x y) :
    Sat (carH a) (fun r _ => r = x) s := by
  unfold carH
  refine Sat.bind (Sat.bind (Sat.ok (cell_ok hc) (Sat.pure ?_)))
  rw [hd]
  exact Sat.bind fun _ _ _ => Sat.pure rfl

theorem addr_cdr {s : HSt} {a x y : Addr} {c : Cell} (hc : s.mem a = some c) (hd : c.data = .pair x y) :
    Sat (cdrH a) (fun r _ => r = y) s := by
  unfold cdrH
  refine Sat.bind (Sat.bind (Sat.ok (cell_ok hc) (Sat.pure ?_)))
  rw [hd]
  exact Sat.bind fun _ _ _ => Sat.pure rfl

section
variable {TT T : AT} {N : Nat} {s : HSt} {a : Addr} {v : Val} {R : Addr → HSt → Prop}

theorem Loc.atom_nil {r : Addr} : Loc TT (.atom 0 .nil) r .nil := ⟨rfl, .inl rfl⟩

theorem use_car (c : Cx TT N s) (l : Loc TT T a v)
    (h : Sat (carH a) (fun r s1 => Kp N s s1 → Loc TT T.car r v.car → R r s1) s) : Sat (carH a) R s := by
  intro r s1 e
  refine h r s1 e (kp_car N s c.le r s1 e) ?_
  obtain ⟨rfl, hn | ⟨rfl, hs⟩⟩ := l
  · rw [hn]
    cases T with
    | atom b w => exact .atom_nil
    | pair => cases hn
  · have hT := hs.mem c.tree
    cases T with
    | atom b w =>
      have hw := hT.good
      have : w.car = .nil := by cases w <;> first | rfl | cases hw
      show Loc TT (.atom 0 .nil) r w.car
      rw [this]
      exact .atom_nil
    | pair b t X Y =>
      obtain ⟨⟨cb, hc, _, hd⟩, _, _⟩ := hT
      have := addr_car hc hd r s1 e
      exact ⟨rfl, .inr ⟨this.symm, .car hs⟩⟩

theorem use_cdr (c : Cx TT N s) (l : Loc TT T a v)
    (h : Sat (cdrH a) (fun r s1 => Kp N s s1 → Loc TT T.cdr r v.cdr → R r s1) s) : Sat (cdrH a) R s := by
  intro r s1 e
  refine h r s1 e (kp_cdr N s c.le r s1 e) ?_
  obtain ⟨rfl, hn | ⟨rfl, hs⟩⟩ := l
  · rw [hn]
    cases T with
    | atom b w => exact .atom_nil
    | pair => cases hn
  · have hT := hs.mem c.tree
    cases T with
    | atom b w =>
      have hw := hT.good
      have : w.cdr = .nil := by cases w <;> first | rfl | cases hw
      show Loc TT (.atom 0 .nil) r w.cdr
      rw [this]
      exact .atom_nil
    | pair b t X Y =>
      obtain ⟨⟨cb, hc, _, hd⟩, _, _⟩ := hT
      have := addr_cdr hc hd r s1 e
      exact ⟨rfl, .inr ⟨this.symm, .cdr hs⟩⟩

theorem kp_pairOf {a : Addr} : KP (pairOf a) := by
  refine kp_data.bind fun d => ?_
  split
  · exact .pure
  · intro n s _; exact Sat.ub

theorem addr_last (n : Nat) : ∀ {T : AT} {s : HSt}, T.In s.mem → T.isPair = true → Sat (lastPair n T.root)
    (fun p s' => s' = s ∧ ∃ y, pairOf p s = .ok ((T.lastElt.root, y), s)) s := by
  induction n with
  | zero => intros; exact Sat.oof
  | succ n ih =>
    intro T s h hp
    cases T with
    | atom => cases hp
    | pair a t X Y =>
      obtain ⟨⟨c, hc, _, hd⟩, hX, hY⟩ := h
      have e1 : pairOf a s = .ok ((X.root, Y.root), s) := by
        unfold pairOf dataOf
        rw [HM.bind_ok (HM.bind_ok (cell_ok hc)), hd]; rfl
      refine Sat.bind (Sat.ok e1 ?_)
      refine Sat.bind (sat_data hY.rep fun d hdy => ?_)
      rw [hdy.isPair, hY.isPair]
      refine Sat.ite (fun e => ?_) (fun e => Sat.pure ⟨rfl, ?_⟩)
      · have := ih hY e
        rw [AT.lastElt, if_pos e]
        exact this
      · rw [AT.lastElt, if_neg e]
        exact ⟨_, e1⟩

theorem lastElt_erase {T : AT} (g : T.Good) : T.lastElt.erase = lastElt T.erase := by
  induction T with
  | atom a v => cases v <;> first | rfl | cases g
  | pair a t x y _ iy =>
    rw [AT.lastElt, AT.erase, lastElt, g.2.isPair]
    split
    · exact iy g.2
    · rfl

theorem Sub_last {TT : AT} : ∀ {T : AT}, AT.Sub TT T → T.isPair = true → AT.Sub TT T.lastElt
  | .atom .., _, hp => by cases hp
  | .pair a t x y, h, _ => by
    rw [AT.lastElt]
    split
    · rename_i e; exact Sub_last h.cdr e
    · exact h.car

theorem use_last {n : Nat} (c : Cx TT N s) (l : Loc TT T a v) (h : Sat (lastPair n a) (fun p s1 =>
    (v.isPair = true → ∀ x y, pairOf p s = .ok ((x, y), s) → Loc TT T.lastElt x (lastElt v)) → R p s1) s) :
    Sat (lastPair n a) R s := by
  intro p s1 e
  refine h p s1 e fun hv x y hx => ?_
  obtain ⟨rfl, hn | ⟨rfl, hs⟩⟩ := l
  · rw [hn] at hv; cases hv
  · have hT := hs.mem c.tree
    rw [hT.isPair] at hv
    obtain ⟨_, y', e'⟩ := addr_last n hT hv p s1 e
    rw [hx] at e'
    cases e'
    exact ⟨lastElt_erase hT.good, .inr ⟨rfl, Sub_last hs hv⟩⟩

theorem use_cons {x y : Addr} (c : Cx TT N s) (h : Sat (consH x y) (fun r s1 => Kp N s s1 → N ≤ r → R r s1) s) :
    Sat (consH x y) R s := by
  intro r s1 e
  have hr : r = s.next := by
    have e' := e
    unfold consH alloc at e'
    cases e'
    rfl
  exact h r s1 e (kp_alloc N s c.le r s1 e) (hr ▸ c.le)

end

/-! ## Lists of new cells -/

/-- The addresses of the elements. -/
def B.items : B → List Addr
  | .node _ _ x y => x.addr :: y.items
  | _ => []

/-- The private cells are new. -/
def New (N : Nat) (σ : B) : Prop := ∀ x, x ∈ σ.priv → N ≤ x

theorem Own.app_items {σ τ : B} (h : Own σ) : (σ.app τ).items = σ.items ++ τ.items := by
  induction h with
  | atom => rfl
  | node a t x u ps _ ih => simp only [B.app, B.items, ih, List.cons_append]

theorem Own.app_new {N : Nat} {σ τ : B} (h : Own σ) (n : New N σ) (n' : New N τ) : New N (σ.app τ) := by
  induction h with
  | atom => exact n'
  | @node a t x u ps y _ ih =>
    intro b hb
    simp only [B.app, B.priv, List.mem_cons, List.mem_append] at hb
    rcases hb with rfl | hb | hb
    · exact n _ (by simp [B.priv])
    · cases hb
    · exact ih (fun z hz => n z (by simp [B.priv, hz])) b hb

theorem Own.last_priv {τ : B} (h : Own τ) : ∀ a t x u ps, (B.node a t (.tok x u ps) τ).last ∈ (B.node a t (.tok x u ps) τ).priv := by
  induction h with
  | atom => intro a t x u ps; simp [B.last, B.priv]
  | @node b t' x' u' ps' y _ ih =>
    intro a t x u ps
    have := ih b t' x' u' ps'
    rw [B.last]
    rw [B.priv]
    exact List.mem_cons_of_mem _ (List.mem_append_right _ this)

theorem kp_setData {N : Nat} {s : HSt} {p : Addr} {d : Data} (hp : N ≤ p) : Sat (setData p d) (fun _ s' => Kp N s s') s := by
  intro _ s' e
  unfold setData at e
  cases hc : s.mem p with
  | none => unfold modify at e; rw [hc] at e; cases e
  | some c =>
    rw [modify_ok _ hc] at e
    cases e
    refine ⟨Nat.le_refl _, rfl, fun b c' hb hc' => ?_⟩
    have hbp : b ≠ p := by omega
    exact ⟨c', (upd_ne hbp).symm.trans hc', rfl, rfl⟩

theorem kp_conc {N n : Nat} {s : HSt} {A : List Addr} {σ : B} {b : Addr} (o : Own σ) (hn : New N σ) (hs : σ.Ok A s.mem)
    (le : N ≤ s.next) : Sat (concH n σ.addr b) (fun _ s' => Kp N s s') s := by
  cases o with
  | @atom a v ps hv =>
    refine Sat.bind (sat_data hs.1.rep fun d hd => ?_)
    rw [hd.isPair]
    refine Sat.ite (fun e => ?_) (fun e => ?_)
    · rw [hv] at e; cases e
    · exact (kp_X.bind fun _ => KP.pure) N s le
  | @node a t x u ps y hy =>
    have hs' := hs
    obtain ⟨⟨c, hc, _, _, hd⟩, _, _⟩ := hs'
    refine Sat.bind (Sat.bind (Sat.ok (cell_ok hc) (Sat.pure ?_)))
    rw [hd]
    refine Sat.ite (fun _ => ?_) (fun e => absurd rfl e)
    refine Sat.bind (sat_last n hy hs ?_)
    have hp : N ≤ (B.node a t (.tok x u ps) y).last := hn _ (hy.last_priv ..)
    refine Sat.bind ((kp_pairOf N s le).mono fun r s1 k1 => ?_)
    refine Sat.bind ((kp_X N s1 (Nat.le_trans le k1.1)).mono fun _ s2 k2 => ?_)
    have k12 := k1.trans k2
    refine Sat.bind ((kp_pairOf N s2 (Nat.le_trans le k12.1)).mono fun r s3 k3 => ?_)
    have k13 := k12.trans k3
    exact Sat.bind ((kp_setData hp).mono fun _ s4 k4 => Sat.pure (k13.trans k4))

theorem use_conc {TT : AT} {N n : Nat} {s : HSt} {st : St} {Γ : List B} {σ : B} {b : Addr} {R : Addr → HSt → Prop} (c : Cx TT N s)
    (o : Own σ) (hn : New N σ) (hs : Sim (σ :: Γ) s st)
    (h : Sat (concH n σ.addr b) (fun r s1 => Kp N s s1 → R r s1) s) : Sat (concH n σ.addr b) R s := by
  obtain ⟨G, hG⟩ := hs
  exact fun r s1 e => h r s1 e (kp_conc o hn (hG.ok _ (List.mem_cons_self ..)) c.le r s1 e)

/-! ## Tails -/

theorem Loc.pair {TT T : AT} {a : Addr} {t : Bool} {u w : Val} {N : Nat} {s : HSt} (c : Cx TT N s) (l : Loc TT T a (.pair t u w)) :
    ∃ X Y, T = .pair a t X Y ∧ X.erase = u ∧ Y.erase = w ∧ X.Good ∧ Y.Good := by
  obtain ⟨e, h | ⟨hr, hs⟩⟩ := l
  · cases h
  · have g := (hs.mem c.tree).good
    cases T with
    | atom b v => rw [AT.erase] at e; subst e; cases g
    | pair b t' X Y =>
      cases e
      cases hr
      exact ⟨X, Y, rfl, rfl, rfl, g.1, g.2⟩

theorem Good.sym {X : AT} {t : Bool} {k : Sym} (e : X.erase = .sym t k) : ∃ b, X = .atom b (.sym t k) := by
  cases X with
  | atom b v => cases e; exact ⟨b, rfl⟩
  | pair => cases e

/-- The collection of tails, with the cells. -/
theorem sat_tailsT_both {TT : AT} {N : Nat} (n : Nat) :
    (∀ {Q : Addr → HSt → Prop} {Γ : List B} {s : HSt} {st : St} {a : Addr} {v vT : Val} {ps : List (Addr × Val)} {T : AT},
      Sim (.tok a v ps :: Γ) s st → Cx TT N s → Loc TT T a v → Pin Γ TT.root vT →
      (∀ ρ s', Own ρ → New N ρ → ρ.items = (AT.tailsAssoc T).map AT.root → Sim (ρ :: Γ) s' st → Kp N s s' → Q ρ.addr s') →
        Sat (tailsAssocH n a) Q s) ∧
    (∀ {Q : Addr → HSt → Prop} {Γ : List B} {s : HSt} {st : St} {a : Addr} {v vT : Val} {ps : List (Addr × Val)} {T : AT},
      Sim (.tok a v ps :: Γ) s st → Cx TT N s → Loc TT T a v → Pin Γ TT.root vT →
      (∀ ρ s', Own ρ → New N ρ → ρ.items = (AT.tails T).map AT.root → Sim (ρ :: Γ) s' st → Kp N s s' → Q ρ.addr s') →
        Sat (tailsH n a) Q s) := by
  induction n with
  | zero => exact ⟨by intros; unfold tailsAssocH; exact Sat.oof, by intros; unfold tailsH; exact Sat.oof⟩
  | succ n ih =>
    obtain ⟨ihA, ihT⟩ := ih
    constructor
    · intro Q Γ s st a v vT ps T h c l pT k
      unfold tailsAssocH
      have natom : v.isPair = false → AT.tailsAssoc T = [] := by
        intro hv
        cases T with
        | atom => rfl
        | pair => obtain ⟨e, _⟩ := l; subst e; cases hv
      refine Sat.bind (sat_data (h.rep (List.mem_cons_self ..)) fun d hd => ?_)
      rw [hd.isNil, hd.isPair]
      refine Sat.ite (fun e => ?_) (fun e => ?_)
      · have : v = .nil := by cases v <;> simp [Val.isNil] at e; rfl
        subst this
        exact Sat.pure (k (.tok a .nil ps) s (.atom rfl) (by intro _ h; cases h) (by rw [natom rfl]; rfl) h (Kp.refl ..))
      · refine Sat.ite (fun e' => ?_) (fun e' => ?_)
        · refine Sat.bind (kp_X.use c (sat_X h fun s1 h1 k1 => ?_))
          have c1 := c.keep k1 h1 pT
          refine kp_alloc.use c1 (sat_nil h1 fun r s2 h2 k2 => k (.tok r .nil []) s2 (.atom rfl) (by intro _ h; cases h) ?_ h2 (k1.trans k2))
          rw [natom (by simpa using e')]; rfl
        · obtain ⟨t, u, w, rfl⟩ : ∃ t u w, v = .pair t u w := by
            cases v <;> simp [Val.isPair] at e' ⊢
          obtain ⟨X, Y, rfl, rfl, rfl, gX, gY⟩ := l.pair c
          refine Sat.bind (use_car c l (sat_car h (h.bor (List.mem_cons_self ..)) fun car s1 h1 k1 l1 => ?_))
          have c1 := c.keep k1 h1 pT.c2
          refine Sat.bind (use_cdr c1 l (sat_cdr h1 (h1.bor (a := a) (v := .pair t X.erase Y.erase) (ps := ps) (by simp))
            fun cdr s2 h2 k2 l2 => ?_))
          have c2 := c1.keep k2 h2 pT.c3
          refine Sat.bind (kp_X.use c2 (sat_X h2.mv3 fun s3 h3 k3 => ?_))
          have c3 := c2.keep k3 h3 pT.c2
          refine Sat.bind (use_cdr c3 l1 (sat_cdr h3 (h3.bor (a := car) (v := X.erase) (ps := []) (by simp [Val.car]))
            fun e0 s4 h4 k4 l4 => ?_))
          have c4 := c3.keep k4 h4 pT.c3
          refine Sat.bind (ihT h4 c4 l4 pT.c2 ?_)
          intro ρ s5 oρ nρ eρ h5 k5
          have c5 := c4.keep k5 h5 pT.c3
          refine Sat.bind (kp_X.use c5 (sat_X h5.mv3 fun s6 h6 k6 => ?_))
          have c6 := c5.keep k6 h6 pT.c2
          refine Sat.bind (ihA h6.mv2 c6 l2 pT.cons ?_)
          intro ρ' s7 oρ' nρ' eρ' h7 k7
          have c7 := c6.keep k7 h7 pT.c2
          refine use_conc c7 oρ nρ h7.mv2 (sat_conc oρ h7.mv2 fun s8 h8 k8 => k _ s8 (oρ.app_own oρ') (oρ.app_new nρ nρ') ?_ h8 ?_)
          · rw [oρ.app_items, eρ, eρ', AT.tailsAssoc, AT.tailsClause_eq, List.map_append]
            rfl
          · exact ((((((k1.trans k2).trans k3).trans k4).trans k5).trans k6).trans k7).trans k8
    · intro Q Γ s st a v vT ps T h c l pT k
      unfold tailsH
      have single : ∀ (_ : AT.tails T = [T]) (_ : v ≠ .nil), Sat (mkNil >>= fun nl => consH a nl) Q s := by
        intro e hv
        refine Sat.bind (kp_alloc.use c (sat_nil h fun nl s1 h1 k1 => ?_))
        have c1 := c.keep k1 h1 pT.c2
        refine use_cons c1 (sat_pc h1 fun r s2 h2 k2 hr => ?_)
        have h3 := Sim.fold (σ := .tok a v ps) (τ := .tok nl .nil []) (h2.perm (by pm))
        refine k _ s2 (.node _ _ _ _ _ (.atom rfl)) ?_ ?_ h3 (k1.trans k2)
        · intro b hb
          simp only [B.priv, List.append_nil, List.mem_singleton] at hb
          exact hb ▸ hr
        · rw [e]
          obtain ⟨_, hn | ⟨hr, _⟩⟩ := l
          · exact absurd hn hv
          · simp [B.items, B.addr, hr]
      have satom : ∀ (_ : v.isPair = false) (_ : v ≠ .nil), AT.tails T = [T] := by
        intro hp hn
        obtain ⟨e, _⟩ := l
        cases T with
        | pair => rw [← e] at hp; cases hp
        | atom b w => rw [AT.erase] at e; subst e; cases w <;> first | rfl | exact absurd rfl hn
      refine sat_cases (h.rep (List.mem_cons_self ..)) ?_ ?_
      · intro d _ hd hp
        cases hd with
        | nil =>
          refine Sat.pure (k (.tok a .nil ps) s (.atom rfl) (by intro _ h; cases h) ?_ h (Kp.refl ..))
          obtain ⟨e, _⟩ := l
          cases T with
          | pair => cases e
          | atom b w => cases e; rfl
        | pair => exact Bool.noConfusion hp
        | _ => exact single (satom hp (by simp)) (by simp)
      · intro x y t u w e hx hy _ _
        subst e
        obtain ⟨XT, Y, rfl, rfl, rfl, gX, gY⟩ := l.pair c
        have single' := fun e => single e (by simp)
        refine sat_cases hx ?_ ?_
        · intro d _ hd hp
          generalize eX : XT.erase = uX at *
          cases hd with
          | pair => exact Bool.noConfusion hp
          | sym tc sy =>
            obtain ⟨b, rfl⟩ := Good.sym eX
            rw [AT.tails] at k single'
            refine Sat.ite (fun e => ?_) (fun e => ?_)
            · rw [if_pos e, AT.tailsIf_eq, AT.tailsThen_eq, AT.tailsElse_eq] at k
              refine Sat.bind (use_cdr c l (sat_cdr h (h.bor (List.mem_cons_self ..)) fun cd0 s1 h1 k1 l1 => ?_))
              have c1 := c.keep k1 h1 pT.c2
              refine Sat.bind (use_cdr c1 l1 (sat_cdr h1 (h1.bor (List.mem_cons_self ..)) fun cd1 s2 h2 k2 l2 => ?_))
              have c2 := c1.keep k2 h2 pT.c3
              refine Sat.bind (use_car c2 l2 (sat_car h2 (h2.bor (List.mem_cons_self ..)) fun e1 s3 h3 k3 l3 => ?_))
              have c3 := c2.keep k3 h3 pT.c4
              refine Sat.bind (ihT h3 c3 l3 pT.c3 ?_)
              intro ρ s4 oρ nρ eρ h4 k4
              have c4 := c3.keep k4 h4 pT.c4
              refine Sat.bind (use_cdr c4 l2 (sat_cdr h4 (h4.bor (a := cd1) (v := Y.erase.cdr) (ps := []) (by simp [Val.cdr]))
                fun cd2 s5 h5 k5 l5 => ?_))
              have c5 := c4.keep k5 h5 pT.c5
              refine Sat.bind (use_car c5 l5 (sat_car h5 (h5.bor (List.mem_cons_self ..)) fun e2 s6 h6 k6 l6 => ?_))
              have c6 := c5.keep k6 h6 pT.c5.cons
              refine Sat.bind (ihT h6 c6 l6 pT.c5 ?_)
              intro ρ' s7 oρ' nρ' eρ' h7 k7
              have c7 := c6.keep k7 h7 pT.c5.cons
              have h8 : Sim (.tok a (.pair t (.sym tc sy) Y.erase) ps :: .tok cd0 Y.erase [] :: .tok cd1 Y.erase.cdr [] ::
                  .tok cd2 Y.erase.cdr.cdr [] :: ρ :: ρ' :: Γ) s7 st := h7.perm (by pm)
              refine Sat.bind (kp_Xs.use c7 (sat_Xs4 h8 fun s8 h9 k8 => ?_))
              have c8 := c7.keep k8 h9 pT.c2
              refine use_conc c8 oρ nρ h9 (sat_conc oρ h9 fun s9 h10 k9 => k _ s9 (oρ.app_own oρ') (oρ.app_new nρ nρ') ?_ h10 ?_)
              · rw [oρ.app_items, eρ, eρ', List.map_append]; rfl
              · exact (((((((k1.trans k2).trans k3).trans k4).trans k5).trans k6).trans k7).trans k8).trans k9
            · rw [if_neg e] at k single'
              refine Sat.ite (fun e => ?_) (fun e => ?_)
              · rw [if_pos e, AT.tailsClauses_eq] at k
                refine Sat.bind (use_cdr c l (sat_cdr h (h.bor (List.mem_cons_self ..)) fun cd0 s1 h1 k1 l1 => ?_))
                have c1 := c.keep k1 h1 pT.c2
                refine Sat.bind (use_cdr c1 l1 (sat_cdr h1 (h1.bor (List.mem_cons_self ..)) fun cd1 s2 h2 k2 l2 => ?_))
                have c2 := c1.keep k2 h2 pT.c3
                refine Sat.bind (ihA h2 c2 l2 pT.c2 ?_)
                intro ρ s3 oρ nρ eρ h3 k3
                have c3 := c2.keep k3 h3 pT.c3
                have h4 : Sim (.tok a (.pair t (.sym tc sy) Y.erase) ps :: .tok cd0 Y.erase [] :: ρ :: Γ) s3 st := h3.perm (by pm)
                refine Sat.bind (kp_Xs.use c3 (sat_Xs2 h4 fun s4 h5 k4 => Sat.pure ?_))
                exact k ρ s4 oρ nρ eρ h5 (((k1.trans k2).trans k3).trans k4)
              · rw [if_neg e] at k single'
                refine Sat.ite (fun e => ?_) (fun e => ?_)
                · rw [if_pos e] at k
                  refine Sat.bind (use_last c l (sat_lastPair n (h.rep (List.mem_cons_self ..)) ?_))
                  intro p x' y' t' u' w' hvp e2 _ _ h2 _ h4 h5 lL
                  have l4 := lL hvp x' y' h4
                  rw [e2] at l4
                  refine Sat.bind (Sat.ok h4 ?_)
                  refine Sat.bind (kp_up.use c (sat_up h ⟨a, _, ps, List.mem_cons_self .., h5 a .refl, h2⟩ fun s1 h6 k1 => ?_))
                  have c1 := c.keep k1 h6 pT.c2
                  refine Sat.bind (ihT h6 c1 l4 pT.cons ?_)
                  intro ρ s2 oρ nρ eρ h7 k2
                  have c2 := c1.keep k2 h7 pT.c2
                  refine Sat.bind (kp_X.use c2 (sat_X h7.mv2 fun s3 h8 k3 => Sat.pure (k ρ s3 oρ nρ ?_ h8 ((k1.trans k2).trans k3))))
                  rw [eρ, AT.lastElt]
                  by_cases hw : Y.isPair
                  · rw [if_pos hw, if_pos hw, AT.tailsLast_eq]
                  · rw [if_neg hw, if_neg hw]; rfl
                · rw [if_neg e] at k single'
                  refine Sat.ite (fun e => ?_) (fun e => ?_)
                  · rw [if_pos e, AT.tailsSecond_eq, AT.tailsElse_eq] at k
                    refine Sat.bind (use_cdr c l (sat_cdr h (h.bor (List.mem_cons_self ..)) fun cd0 s1 h1 k1 l1 => ?_))
                    have c1 := c.keep k1 h1 pT.c2
                    refine Sat.bind (use_cdr c1 l1 (sat_cdr h1 (h1.bor (List.mem_cons_self ..)) fun cd1 s2 h2 k2 l2 => ?_))
                    have c2 := c1.keep k2 h2 pT.c3
                    refine Sat.bind (use_car c2 l2 (sat_car h2 (h2.bor (List.mem_cons_self ..)) fun e1 s3 h3 k3 l3 => ?_))
                    have c3 := c2.keep k3 h3 pT.c4
                    refine Sat.bind (ihT h3 c3 l3 pT.c3 ?_)
                    intro ρ s4 oρ nρ eρ h4 k4
                    have c4 := c3.keep k4 h4 pT.c4
                    have h5 : Sim (.tok a (.pair t (.sym tc sy) Y.erase) ps :: .tok cd0 Y.erase [] :: .tok cd1 Y.erase.cdr [] :: ρ :: Γ) s4 st :=
                      h4.perm (by pm)
                    refine Sat.bind (kp_Xs.use c4 (sat_Xs3 h5 fun s5 h6 k5 => Sat.pure (k ρ s5 oρ nρ eρ h6 ?_)))
                    exact (((k1.trans k2).trans k3).trans k4).trans k5
                  · rw [if_neg e] at single'
                    exact single' rfl
          | _ =>
            have : ∀ w, XT.erase = w → (∀ t k, w ≠ .sym t k) → AT.tails (.pair a t XT Y) = [.pair a t XT Y] := by
              intro w ew hw
              cases XT with
              | pair => rfl
              | atom b v => cases v <;> first | rfl | exact absurd ew.symm (hw _ _)
            exact single' (this _ eX (by simp))
        · intro _ _ _ _ _ e _ _ _ _
          cases XT with
          | pair => exact single' rfl
          | atom b v => rw [AT.erase] at e; subst e; cases gX

/-! ## The marking loop -/

/-- The addresses of the elements of the list at `a`. -/
inductive Elts (m : Addr → Option Cell) : Addr → List Addr → Prop where
  | nil {a : Addr} {c : Cell} : m a = some c → c.data.isPair = false → Elts m a []
  | cons {a x b : Addr} {c : Cell} {xs : List Addr} : m a = some c → c.data = .pair x b → Elts m b xs → Elts m a (x :: xs)

theorem Own.chain {σ : B} (o : Own σ) {A : List Addr} {m : Addr → Option Cell} (h : σ.Ok A m) : Elts m σ.addr σ.items := by
  induction o with
  | @atom a v ps hv =>
    obtain ⟨hr, _⟩ := h
    cases hr with
    | @atom _ c _ _ hc hv' =>
      refine .nil hc ?_
      unfold Cell.val at hv'
      cases hd : c.data <;> rw [hd] at hv' <;> first | rfl | cases hv'
    | pair => cases hv
  | @node a t x u ps y _ ih =>
    obtain ⟨⟨c, hc, _, _, hd⟩, _, hy⟩ := h
    exact .cons hc hd (ih hy)

theorem flagS_nil {s : HSt} : flagS [] s = s := by
  unfold flagS flagM
  have : (fun a => (s.mem a).map fun c => if a ∈ ([] : List Addr) then { c with tc := true } else c) = s.mem := by
    funext a
    cases s.mem a <;> simp
  rw [this]

theorem setTail_flag {F : List Addr} {s : HSt} {x : Addr} {c : Cell} (hc : s.mem x = some c) :
    setTail x (flagS F s) = .ok ((), flagS (F ++ [x]) s) := by
  unfold setTail
  have h1 : (flagS F s).mem x = some (if x ∈ F then { c with tc := true } else c) := flagM_some hc
  rw [modify_ok _ h1]
  have : upd (flagS F s).mem x (some { (if x ∈ F then { c with tc := true } else c) with tc := true }) = flagM (F ++ [x]) s.mem := by
    funext b
    by_cases hb : b = x
    · subst hb
      have hb : b ∈ F ++ [b] := List.mem_append_right _ (List.mem_singleton.2 rfl)
      rw [upd_self, flagM_some hc]
      by_cases hF : b ∈ F
      · rw [if_pos hF, if_pos hb]
      · rw [if_neg hF, if_pos hb]
    · rw [upd_ne hb]
      show flagM F s.mem b = _
      unfold flagM
      simp [hb]
  rw [this]
  rfl

theorem flagV_mayApply (u v : Val) : Val.mayApply (AT.flagV u) v = Val.mayApply u v := by
  cases u <;> cases v <;> rfl

theorem flag_mayApplyL (F : List Addr) (T : AT) (v : Val) : Val.mayApply (T.flag F).erase v = Val.mayApply T.erase v := by
  induction T generalizing v with
  | atom a u =>
    simp only [AT.flag, AT.erase]
    split
    · exact flagV_mayApply u v
    · rfl
  | pair a t x y ix iy =>
    simp only [AT.flag, AT.erase]
    cases v <;> first | rfl | exact iy _

theorem at_data {F : List Addr} {s : HSt} {a : Addr} {c : Cell} (hc : s.mem a = some c) :
    dataOf a (flagS F s) = .ok (c.data, flagS F s) := by
  have h1 : (flagS F s).mem a = some (if a ∈ F then { c with tc := true } else c) := flagM_some hc
  unfold dataOf
  rw [HM.bind_ok (cell_ok h1), flag_data]
  rfl

theorem sat_markOneT {n : Nat} {s : HSt} {F : List Addr} {f : Sym} {TA T : AT} (ha : TA.In s.mem) (ht : T.In s.mem) :
    Sat (markOneH true n f TA.root T.root) (fun _ s' => s' = flagS (F ++ AT.heads f TA.erase [T]) s) (flagS F s) := by
  cases T with
  | atom a v =>
    obtain ⟨c, hc, hv⟩ := ht
    refine Sat.bind (Sat.ok (at_data hc) ?_)
    have e : AT.heads f TA.erase [.atom a v] = [] := rfl
    rw [e, List.append_nil]
    cases hd : c.data with
    | pair => unfold Cell.val at hv; rw [hd] at hv; cases hv
    | _ => exact Sat.pure rfl
  | pair a t x y =>
    obtain ⟨⟨c, hc, _, hd⟩, hx, hy⟩ := ht
    refine Sat.bind (Sat.ok (at_data hc) ?_)
    rw [hd]
    have rx := (hx.flag (F := F)).rep
    rw [AT.flag_root] at rx
    have ry := (hy.flag (F := F)).rep
    rw [AT.flag_root] at ry
    have ra := (ha.flag (F := F)).rep
    rw [AT.flag_root] at ra
    refine Sat.bind (sat_data (s := flagS F s) rx fun dx hdx => ?_)
    rw [hdx.symIs, AT.flag_symIs]
    have eh : AT.heads f TA.erase [.pair a t x y] =
        if (x.erase.symIs f && Val.mayApply TA.erase y.erase) = true then [x.root] else [] := by
      by_cases e : (x.erase.symIs f && Val.mayApply TA.erase y.erase) = true
      · rw [if_pos e]; simp only [AT.heads, List.filterMap_cons, List.filterMap_nil, AT.head, if_pos e]
      · rw [if_neg e]; simp only [AT.heads, List.filterMap_cons, List.filterMap_nil, AT.head, if_neg e]
    rw [eh]
    refine Sat.ite (fun e => ?_) (fun e => ?_)
    · refine Sat.bind (sat_mayApply (s := flagS F s) n ra ry ?_)
      rw [AT.flag_mayApply, flag_mayApplyL]
      refine Sat.ite (fun e' => ?_) (fun e' => ?_)
      · rw [if_pos (by rw [e, e']; rfl)]
        obtain ⟨cx, hcx, _⟩ := (hx.rep).is
        refine Sat.bind (Sat.ok (cell_ok (flagM_some (F := F) hcx)) ?_)
        refine Sat.bind (Sat.ok (a := ()) (s' := flagS F s) ?_ ?_)
        · unfold guard; simp
        · exact Sat.ok (setTail_flag hcx) rfl
      · rw [if_neg (by rw [e]; simpa using e'), List.append_nil]
        exact Sat.pure rfl
    · rw [if_neg (by rw [Bool.not_eq_true] at e; rw [e]; simp), List.append_nil]
      exact Sat.pure rfl

theorem sat_markLoopT (n : Nat) : ∀ {s : HSt} {F : List Addr} {f : Sym} {TA : AT} {a : Addr} {L : List AT}, TA.In s.mem →
    (∀ T, T ∈ L → T.In s.mem) → Elts s.mem a (L.map AT.root) →
    Sat (markLoopH true n f TA.root a) (fun _ s' => s' = flagS (F ++ AT.heads f TA.erase L) s) (flagS F s) := by
  induction n with
  | zero => intros; exact Sat.oof
  | succ n ih =>
    intro s F f TA a L ha hL hc
    cases L with
    | nil =>
      cases hc with
      | nil hc hd =>
        rename_i c
        refine Sat.bind (Sat.bind (Sat.ok (at_data hc) ?_))
        cases e : c.data with
        | pair => rw [e] at hd; cases hd
        | _ => exact Sat.ub
    | cons T L =>
      cases hc with
      | @cons _ _ b c _ hc hd hb =>
        refine Sat.bind (Sat.bind (Sat.ok (at_data hc) ?_))
        rw [hd]
        refine Sat.pure ?_
        refine Sat.bind ((sat_markOneT (n := n) (F := F) (f := f) ha (hL T (List.mem_cons_self ..))).mono ?_)
        rintro _ _ rfl
        have eh : AT.heads f TA.erase (T :: L) = AT.heads f TA.erase [T] ++ AT.heads f TA.erase L := AT.heads_append f _ [T] L
        rw [eh, ← List.append_assoc]
        have hL' := fun T' hT => hL T' (List.mem_cons_of_mem _ hT)
        cases L with
        | nil =>
          cases hb with
          | nil hcb hdb =>
            refine Sat.bind (Sat.ok (at_data hcb) ?_)
            rw [hdb]
            refine Sat.pure ?_
            show _ = flagS (_ ++ []) s
            rw [List.append_nil]
        | cons T' L =>
          have hb' := hb
          cases hb' with
          | @cons _ _ b' cb _ hcb hdb _ =>
            refine Sat.bind (Sat.ok (at_data hcb) ?_)
            rw [hdb]
            exact ih ha hL' hb

section
variable {m : Addr → Option Cell} {S : AT}
mutual
/-- The tails of code in memory are in memory. -/
theorem tails_in : ∀ T : AT, T.In m → S ∈ AT.tails T → S.In m
  | .pair a tc (.atom b v) rest, g, h => by
    cases v with
    | sym st s =>
      rw [AT.tails] at h
      split at h
      · exact if_in rest g.2.2 h
      · split at h
        · exact clauses_in rest g.2.2 h
        · split at h
          · split at h
            · exact last_in rest g.2.2 h
            · rw [List.mem_singleton.1 h]; exact g.2.1
          · split at h
            · exact second_in rest g.2.2 h
            · rw [List.mem_singleton.1 h]; exact g
    | _ => rw [List.mem_singleton.1 h]; exact g
  | .pair a tc (.pair ..) rest, g, h => by rw [List.mem_singleton.1 h]; exact g
  | .atom a v, g, h => by
    cases v <;> first | (cases h; done) | (rw [List.mem_singleton.1 h]; exact g)
theorem if_in : ∀ T : AT, T.In m → S ∈ AT.tailsIf T → S.In m
  | .pair _ _ _ r, g, h => then_in r g.2.2 h
  | .atom .., _, h => by cases h
theorem then_in : ∀ T : AT, T.In m → S ∈ AT.tailsThen T → S.In m
  | .pair _ _ c r, g, h => (List.mem_append.1 h).elim (tails_in c g.2.1) (else_in r g.2.2)
  | .atom .., _, h => by cases h
theorem else_in : ∀ T : AT, T.In m → S ∈ AT.tailsElse T → S.In m
  | .pair _ _ c _, g, h => tails_in c g.2.1 h
  | .atom .., _, h => by cases h
theorem clauses_in : ∀ T : AT, T.In m → S ∈ AT.tailsClauses T → S.In m
  | .pair _ _ _ r, g, h => assoc_in r g.2.2 h
  | .atom .., _, h => by cases h
theorem assoc_in : ∀ T : AT, T.In m → S ∈ AT.tailsAssoc T → S.In m
  | .pair _ _ c r, g, h => (List.mem_append.1 h).elim (clause_in c g.2.1) (assoc_in r g.2.2)
  | .atom .., _, h => by cases h
theorem clause_in : ∀ T : AT, T.In m → S ∈ AT.tailsClause T → S.In m
  | .pair _ _ _ r, g, h => tails_in r g.2.2 h
  | .atom .., _, h => by cases h
theorem last_in : ∀ T : AT, T.In m → S ∈ AT.tailsLast T → S.In m
  | .pair _ _ c r, g, h => by
    rw [AT.tailsLast] at h
    split at h
    · exact last_in r g.2.2 h
    · exact tails_in c g.2.1 h
  | .atom .., _, h => by cases h
theorem second_in : ∀ T : AT, T.In m → S ∈ AT.tailsSecond T → S.In m
  | .pair _ _ _ r, g, h => else_in r g.2.2 h
  | .atom .., _, h => by cases h
end
end

theorem sat_markT {Q : Unit → HSt → Prop} {n N : Nat} {Γ Γ' : List B} {s : HSt} {st : St} {f : Sym} {args body : Addr} {va vb vT : Val}
    {TT TB : AT} (h : Sim Γ s st) (c : Cx TT N s) (lb : Loc TT TB body vb) (pb : Pin Γ body vb) (pa : Pin Γ args va)
    (pT : Pin Γ TT.root vT)
    (hF : ∀ r s2, vb.isPair = true → Sim (.ref r :: Γ) s2 st → Kp N s s2 → TT.In s2.mem →
      Sim (.ref r :: Γ') (flagS (AT.heads f va (AT.tailsLast TB)) s2) st)
    (k : ∀ s', vb.isPair = true → Sim Γ' s' st → Q () s') : Sat (markTailCallsH true n f args body) Q s := by
  obtain ⟨b, w, ps, hm, r, hb⟩ := h.pbor pb
  refine Sat.bind (use_last c lb (sat_lastPair n hb ?_))
  intro p x y t u w' hp e2 _ _ hx _ h4 h5 lL
  have l4 := lL hp x y h4
  rw [e2] at l4
  refine Sat.bind (Sat.ok h4 ?_)
  refine Sat.bind (kp_up.use c (sat_up h ⟨b, w, ps, hm, h5 b r, hx⟩ fun s1 h1 k1 => ?_))
  have c1 := c.keep k1 h1 pT.cons
  refine Sat.bind ((sat_tailsT_both n).2 h1 c1 l4 pT ?_)
  intro ρ s2 oρ nρ eρ h2 k2
  have c2 := c1.keep k2 h2 pT.cons
  have k12 := k1.trans k2
  have h3 := h2.plain oρ.spine
  have hch : Elts s2.mem ρ.addr ((AT.tails TB.lastElt).map AT.root) := by
    obtain ⟨G, hG⟩ := h2
    rw [← eρ]
    exact oρ.chain (hG.ok _ (List.mem_cons_self ..))
  have hsim := hF _ s2 hp h3.forget k12 c2.tree
  rw [AT.tailsLast_eq] at hsim
  obtain ⟨TA, rfl, rfl, hTA⟩ := (h3.prep pa.cons).tree
  have hin : ∀ T, T ∈ AT.tails TB.lastElt → T.In s2.mem := by
    intro T hT
    refine tails_in _ ?_ hT
    obtain ⟨e4, hn | ⟨_, hs⟩⟩ := l4
    · subst hn
      cases hl : TB.lastElt with
      | pair => rw [hl] at e4; cases e4
      | atom a v => rw [hl] at hT e4; cases e4; cases hT
    · exact hs.mem c2.tree
  have hloop := sat_markLoopT n (s := s2) (F := []) (f := f) hTA hin hch
  rw [flagS_nil, List.nil_append] at hloop
  cases hd : AT.tails TB.lastElt with
  | nil =>
    rw [hd] at hch hsim hloop
    have e0 : AT.heads f TA.erase [] = [] := rfl
    rw [e0, flagS_nil] at hsim hloop
    refine Sat.bind (sat_data (h3.rep (List.mem_cons_self ..)) fun d _ => ?_)
    refine Sat.ite (fun _ => sat_Xr hsim fun s3 h6 => k s3 hp h6) (fun _ => ?_)
    refine Sat.bind (hloop.mono ?_)
    rintro _ _ rfl
    exact sat_Xr hsim fun s3 h6 => k s3 hp h6
  | cons T L =>
    rw [hd] at hch hsim hloop
    have hch' := hch
    cases hch' with
    | @cons _ _ b' cb _ hcb hdb _ =>
      refine Sat.bind (Sat.bind (Sat.ok (cell_ok hcb) (Sat.pure ?_)))
      rw [hdb]
      refine Sat.ite (fun e => Bool.noConfusion e) (fun _ => ?_)
      refine Sat.bind (hloop.mono ?_)
      rintro _ _ rfl
      exact sat_Xr hsim fun s3 h6 => k s3 hp h6

/-! ## The region of an unshared argument -/

theorem AT.In.parent {m : Addr → Option Cell} {T : AT} (h : T.In m) : ∀ x, x ∈ T.addrs → x = T.root ∨
    ∃ p c, p ∈ T.addrs ∧ m p = some c ∧ 0 < occ c.data x := by
  induction T with
  | atom a v => intro x hx; rw [AT.addrs, List.mem_singleton] at hx; exact .inl hx
  | pair a t X Y iX iY =>
    obtain ⟨⟨c, hc, _, hd⟩, hX, hY⟩ := h
    intro x hx
    rw [AT.addrs, List.mem_cons, List.mem_append] at hx
    rcases hx with rfl | hx | hx
    · exact .inl rfl
    · refine .inr ?_
      rcases iX hX x hx with rfl | ⟨p, c', hp, hm, ho⟩
      · refine ⟨a, c, by simp [AT.addrs], hc, ?_⟩
        rw [hd, occ_pair, one_self]; omega
      · exact ⟨p, c', by simp [AT.addrs, hp], hm, ho⟩
    · refine .inr ?_
      rcases iY hY x hx with rfl | ⟨p, c', hp, hm, ho⟩
      · refine ⟨a, c, by simp [AT.addrs], hc, ?_⟩
        rw [hd, occ_pair, one_self]; omega
      · exact ⟨p, c', by simp [AT.addrs, hp], hm, ho⟩

theorem AT.In.cell {m : Addr → Option Cell} {T : AT} (h : T.In m) : ∀ x, x ∈ T.addrs → ∃ c, m x = some c := by
  induction T with
  | atom a v =>
    intro x hx
    rw [AT.addrs, List.mem_singleton] at hx
    obtain ⟨c, hc, _⟩ := h
    exact hx ▸ ⟨c, hc⟩
  | pair a t X Y iX iY =>
    obtain ⟨⟨c, hc, _, _⟩, hX, hY⟩ := h
    intro x hx
    rw [AT.addrs, List.mem_cons, List.mem_append] at hx
    rcases hx with rfl | hx | hx
    · exact ⟨c, hc⟩
    · exact iX hX x hx
    · exact iY hY x hx

theorem AT.In.live {O : List Addr} {s : HSt} {T : Addr → Nat} (i : InvO O s T) {X : AT} (h : X.In s.mem)
    (ho : ∀ x, x ∈ X.addrs → x ∉ O) (l : Live s X.root) : ∀ x, x ∈ X.addrs → Live s x := by
  induction X with
  | atom a v => intro x hx; rw [AT.addrs, List.mem_singleton] at hx; exact hx ▸ l
  | pair a t x y ix iy =>
    obtain ⟨⟨c, hc, _, hd⟩, hx, hy⟩ := h
    have ha := ho a (by simp [AT.addrs])
    intro b hb
    rw [AT.addrs, List.mem_cons, List.mem_append] at hb
    rcases hb with rfl | hb | hb
    · exact l
    · exact ix hx (fun z hz => ho z (by simp [AT.addrs, hz])) (i.childCar l ha hc hd) b hb
    · exact iy hy (fun z hz => ho z (by simp [AT.addrs, hz])) (i.childCdr l ha hc hd) b hb

theorem single_ref {m : Addr → Option Cell} {a : Addr} (h : single m a = true) : ∃ c, m a = some c ∧ c.refs = 1 := by
  unfold single at h
  cases hc : m a with
  | none => rw [hc] at h; cases h
  | some c => rw [hc] at h; exact ⟨c, rfl, by simpa using h⟩

theorem Repr.kids {A : List Addr} {m : Addr → Option Cell} {a x y : Addr} {v : Val} {c : Cell} (h : Repr A m a v) (hc : m a = some c)
    (hd : c.data = .pair x y) : (∃ v, Repr A m x v) ∧ ∃ v, Repr A m y v := by
  cases h with
  | @atom _ c' _ _ hc' hv' => rw [hc] at hc'; cases hc'; unfold Cell.val at hv'; rw [hd] at hv'; cases hv'
  | @pair _ x' y' c' u w _ hc' hd' hx' hy' =>
    rw [hc] at hc'; cases hc'; rw [hd] at hd'; cases hd'
    exact ⟨⟨_, hx'⟩, ⟨_, hy'⟩⟩

/-- An unshared argument is apart from everything else. -/
theorem lone_alone {Γ : List B} {s : HSt} {st : St} {full any : Addr} {vf va : Val} {ps : List (Addr × Val)} {n : Nat}
    (h : Sim (.tok full vf ps :: Γ) s st) (hp : (any, va) ∈ ps) (e : loneArg s.mem n full any = true) :
    ∃ TT : AT, TT.root = any ∧ TT.erase = va ∧ TT.In s.mem ∧ TT.addrs.Nodup ∧ ∃ D, (∀ x, x ∈ TT.addrs → x ∈ D) ∧ Alone D Γ s := by
  obtain ⟨G, h⟩ := h
  obtain ⟨hr, hps⟩ := h.ok _ (List.mem_cons_self ..)
  obtain ⟨_, ha⟩ := hps _ hp
  obtain ⟨TT, rfl, rfl, hT⟩ := ha.tree
  refine ⟨TT, rfl, rfl, hT, ?_⟩
  unfold loneArg at e
  cases hc : s.mem full with
  | none => rw [hc] at e; cases e
  | some c =>
    simp only [hc] at e
    cases hd : c.data with
    | pair b z =>
      simp only [hd] at e
      cases hb : s.mem b with
      | none => rw [hb] at e; cases e
      | some cb =>
        simp only [hb] at e
        cases hdb : cb.data with
        | pair z' x =>
          simp only [hdb] at e
          cases hl : cellsOf s.mem n TT.root with
          | none => rw [hl] at e; cases e
          | some l =>
            rw [hl] at e
            have := hT.cells hl
            subst this
            simp only [Bool.and_eq_true, beq_iff_eq, decide_eq_true_eq, List.all_eq_true] at e
            obtain ⟨⟨rfl, nd⟩, hs⟩ := e
            refine ⟨(List.nodup_cons.1 (List.nodup_cons.1 nd).2).2, full :: b :: TT.addrs, fun x hx => by simp [hx], ?_⟩
            refine h.alone ⟨fun d hd => single_ref (hs d hd), ?_⟩
            have hO : ∀ {a v}, Repr (avoid G (.tok full vf ps :: Γ)) s.mem a v → a ∉ priv (.tok full vf ps :: Γ) :=
              fun hr hm => hr.out (List.mem_append_left _ hm)
            have lf : Live s full := h.live (by simp [own_cons, B.own])
            obtain ⟨vb, rb⟩ := (hr.kids hc hd).1
            have lb : Live s b := h.inv.childCar lf (hO hr) hc hd
            have la : Live s TT.root := h.inv.childCdr lb (hO rb) hb hdb
            have oT : ∀ x, x ∈ TT.addrs → x ∉ priv (.tok full vf ps :: Γ) :=
              fun x hx hm => hT.out ha x hx (List.mem_append_left _ hm)
            have lT := hT.live h.inv oT la
            intro d hd'
            rw [List.mem_cons, List.mem_cons] at hd'
            rcases hd' with rfl | rfl | hd'
            · exact .inl rfl
            · refine .inr ⟨full, c, by simp, ?_, hc, by rw [hd, occ_pair, one_self]; omega⟩
              rw [List.mem_append, not_or]; exact ⟨hO hr, lf.2⟩
            · rcases hT.parent d hd' with rfl | ⟨p, cp, hp', hm, ho⟩
              · refine .inr ⟨b, cb, by simp, ?_, hb, by rw [hdb, occ_pair, one_self]; omega⟩
                rw [List.mem_append, not_or]; exact ⟨hO rb, lb.2⟩
              · refine .inr ⟨p, cp, by simp [hp'], ?_, hm, ho⟩
                rw [List.mem_append, not_or]; exact ⟨oT p hp', (lT p hp').2⟩
        | _ => simp only [hdb] at e; cases e
    | _ => simp only [hd] at e; cases e

/-! ## The marked definition -/

theorem Repr.flag_nil {A F : List Addr} {m : Addr → Option Cell} {a : Addr} (h : Repr A m a .nil) : Repr A (flagM F m) a .nil := by
  cases h with
  | @atom _ c _ ha hc hv =>
    refine .atom ha (flagM_some hc) ?_
    unfold Cell.val at hv ⊢
    rw [flag_data]
    cases hd : c.data <;> rw [hd] at hv <;> first | rfl | cases hv

/-- A part of the code that no flag meets. -/
theorem Loc.flag {TT T : AT} {a : Addr} {v : Val} {A F : List Addr} {m : Addr → Option Cell} (l : Loc TT T a v) (h : TT.In m)
    (r : Repr A m a v) (hF : ∀ x, x ∈ T.addrs → x ∉ F) : Repr A (flagM F m) a v := by
  obtain ⟨rfl, hn | ⟨rfl, hs⟩⟩ := l
  · rw [hn] at r ⊢; exact r.flag_nil
  · exact r.flag fun x hx => hF x ((hs.mem h).part hx)

/-- Marking the body of a definition in its cells. -/
theorem mark_sim {D : List Addr} {Γ : List B} {s0 s : HSt} {st : St} {N : Nat} {full r prog args symb : Addr} {vf vb va vs w : Val}
    {ps : List (Addr × Val)} {f : Sym} {TT TB : AT}
    (h : Sim (.ref r :: .tok prog vb [] :: .tok args va [] :: .tok symb vs [] :: .tok full vf ps :: Γ) s st)
    (hp : (TT.root, w) ∈ ps) (nd : TT.addrs.Nodup) (ht : TT.In s.mem) (al : Alone D Γ s0) (hD : ∀ x, x ∈ TT.addrs → x ∈ D)
    (lt : ∀ a c, s0.mem a = some c → a < N) (k : Kp N s0 s) (lp : Loc TT TB prog vb) (la : Loc TT TT.cdr.car args va)
    (ls : Loc TT TT.car symb vs) (hTB : TB = TT.cdr.cdr ∨ TB = TT.cdr.cdr.cdr) (hvb : vb.isPair = true) :
    Sim (.ref r :: .tok prog (markLast f va vb) [] :: .tok args va [] :: .tok symb vs [] :: .ref full :: Γ)
      (flagS (AT.heads f va (AT.tailsLast TB)) s) st := by
  obtain ⟨G, h⟩ := h
  -- the body is in place
  obtain ⟨rfl, hn | ⟨rfl, hs⟩⟩ := lp
  · rw [hn] at hvb; cases hvb
  have hB := hs.mem ht
  rw [hB.isPair] at hvb
  have hFB : ∀ x, x ∈ AT.heads f va (AT.tailsLast TB) → x ∈ TB.addrs := fun x => AT.heads_last TB
  -- the shape of the definition
  obtain ⟨a1, t1, S, a2, t2, Aa, P, rfl, hPB⟩ : ∃ a1 t1 S a2 t2 Aa P, TT = .pair a1 t1 S (.pair a2 t2 Aa P) ∧
      ∀ x, x ∈ TB.addrs → x ∈ P.addrs := by
    cases TT with
    | atom => rcases hTB with rfl | rfl <;> cases hvb
    | pair a1 t1 S R =>
      cases R with
      | atom => rcases hTB with rfl | rfl <;> cases hvb
      | pair a2 t2 Aa P =>
        refine ⟨a1, t1, S, a2, t2, Aa, P, rfl, ?_⟩
        rcases hTB with rfl | rfl
        · exact fun _ => id
        · cases P with
          | atom => cases hvb
          | pair => intro x hx; simp [AT.cdr] at hx; simp [AT.addrs, hx]
  have nd' := nd
  simp only [AT.addrs, List.nodup_cons, List.mem_append, List.mem_cons, not_or, List.nodup_append] at nd'
  obtain ⟨_, _, ⟨_, _, _, nAP⟩, nS⟩ := nd'
  have hFS : ∀ x, x ∈ S.addrs → x ∉ AT.heads f va (AT.tailsLast TB) := fun x hx hf =>
    nS x hx x (.inr (.inr (hPB x (hFB x hf)))) rfl
  have hFA : ∀ x, x ∈ Aa.addrs → x ∉ AT.heads f va (AT.tailsLast TB) := fun x hx hf =>
    nAP x hx x (hPB x (hFB x hf)) rfl
  have hFT : ∀ x, x ∈ AT.heads f va (AT.tailsLast TB) → x ∈ (AT.pair a1 t1 S (.pair a2 t2 Aa P)).addrs :=
    fun x hx => hs.addrs x (hFB x hx)
  -- what the state says about these values
  have hf := h.ok (.tok full vf ps) (by simp)
  have hT := (hf.2 _ hp).2
  have hout := ht.out hT
  have ha := (h.ok (.tok args va []) (by simp)).1
  have hsy := (h.ok (.tok symb vs []) (by simp)).1
  have away : ∀ {x}, Apart D s0.mem x → Away (AT.heads f va (AT.tailsLast TB)) s.mem x := fun ap x hx hxF =>
    (ap.later lt k) x hx (hD x (hFT x hxF))
  refine ⟨G, SimG.flag (Δ := [.ref r, .tok TB.root TB.erase [], .tok args va [], .tok symb vs [], .tok full vf ps])
    (Δ' := [.ref r, .tok TB.root (markLast f va TB.erase) [], .tok args va [], .tok symb vs [], .ref full]) h rfl rfl
    (fun x hx => hout x (hFT x hx)) (fun σ hσ x hx => away (al.1 σ hσ x hx)) ?_ ?_⟩
  · intro x hx
    rw [k.2.1] at hx
    exact away (al.2 x hx)
  · intro σ hσ
    simp only [List.mem_cons, List.not_mem_nil, or_false] at hσ
    rcases hσ with rfl | rfl | rfl | rfl | rfl
    · trivial
    · refine ⟨?_, by simp⟩
      have r1 := (hB.flag (F := AT.heads f va (AT.tailsLast TB))).repr
        (A := avoid G ([.ref r, .tok TB.root TB.erase [], .tok args va [], .tok symb vs [], .tok full vf ps] ++ Γ))
        (by rw [AT.flag_addrs]; exact fun x hx => hout x (hs.addrs x hx))
      rw [AT.flag_root, AT.flag_last TB hB.good ⟨hs.nodup nd, fun _ _ => Iff.rfl⟩] at r1
      exact r1
    · exact ⟨la.flag ht ha hFA, by simp⟩
    · exact ⟨ls.flag ht hsy hFS, by simp⟩
    · trivial

end Heap
end Mnml
