import Verif.RefineMark

/-!
# Refinement: natives, application, the evaluator
-/

namespace Mnml
namespace Heap

/-! ## Natives on values -/

theorem sat_ofAtom {Q : Addr → HSt → Prop} {Γ : List B} {s : HSt} {st : St} {v : Val} (h : Sim Γ s st)
    (hv : ∀ t k, v ≠ .sym t k) (k : ∀ r s', Sim (.tok r v [] :: Γ) s' st → Q r s') : Sat (ofAtom v) Q s := by
  cases v with
  | nil => exact sat_nil h k
  | tru => exact sat_true h k
  | num => exact sat_num h k
  | chr => exact sat_chr h k
  | sym t sy => exact absurd rfl (hv t sy)
  | wild => exact Sat.unsupported
  | pair => exact Sat.unsupported

theorem arith_num {n : Int} {v : Val} (h : arith n = .ok v) : ∀ t k, v ≠ .sym t k := by
  unfold arith at h
  split at h
  · cases h; intro t k e; cases e
  · cases h

theorem ofBool_sym (b : Bool) (t : Bool) (k : Sym) : ofBool b ≠ .sym t k := by cases b <;> simp [ofBool]

theorem mathV_num {op : Native} {x y v : Val} (h : mathV op x y = .ok v) : ∀ t k, v ≠ .sym t k := by
  unfold mathV at h
  cases hx : x.number with
  | ok a =>
    cases hy : y.number with
    | ok b =>
      rw [hx, hy] at h
      simp only [Res.ok_bind] at h
      split at h
      · exact arith_num h
      · exact arith_num h
      · exact arith_num h
      · split at h
        · cases h
        · exact arith_num h
      · split at h
        · cases h
        · split at h
          · exact arith_num h
          · cases h
      · cases h
    | _ => rw [hx, hy] at h; cases h
  | _ => rw [hx] at h; cases h

theorem compareV_bool {op : Native} {x y v : Val} (h : compareV op x y = .ok v) : ∀ t k, v ≠ .sym t k := by
  unfold compareV at h
  cases hx : x.number with
  | ok a =>
    cases hy : y.number with
    | ok b =>
      rw [hx, hy] at h
      simp only [Res.ok_bind] at h
      split at h
      · cases h; exact ofBool_sym _
      · cases h; exact ofBool_sym _
      · cases h; exact ofBool_sym _
      · cases h; exact ofBool_sym _
      · cases h
    | _ => rw [hx, hy] at h; cases h
  | _ => rw [hx] at h; cases h

theorem Goal.lift {r : Res Val} {v : Val} {Γ : List B} {s : HSt} {st : St} {a : Addr} (e : r = .ok v)
    (h : Sim (.tok a v [] :: Γ) s st) : Goal (M.lift r) st Γ a s := ⟨v, st, lift_ok st e, h⟩

theorem sat_symNat {n : Nat} {Γ : List B} {s : HSt} {st : St} {x : Addr} {vx : Val} (h : Sim Γ s st) (p : Pin Γ x vx)
    (hp : vx.isPair = true) : Sat (symNatH n x) (Goal (M.lift (natSym vx)) st Γ) s := by
  have r := h.prep p
  refine Sat.bind (sat_isString n r ?_)
  unfold natSym
  rw [hp, Bool.true_and]
  refine Sat.ite (fun e => ?_) (fun e => ?_)
  · rw [if_pos e]
    refine Sat.bind (sat_cstring n r ?_)
    rintro ⟨bytes, len⟩ ec
    refine Sat.bind (Sat.lift fun buffer eb => ?_)
    refine Sat.ite (fun e0 => ?_) (fun e0 => ?_)
    · refine sat_nil h fun r s' h' => Goal.lift ?_ h'
      rw [ec, Res.ok_bind]
      simp only [eb, Res.ok_bind]
      rw [if_pos e0]
    · refine sat_sym h fun r s' h' => Goal.lift ?_ h'
      rw [ec, Res.ok_bind]
      simp only [eb, Res.ok_bind]
      rw [if_neg e0]
  · rw [if_neg e]
    exact sat_nil h fun r s' h' => Goal.lift rfl h'

theorem sat_unary {n : Nat} {op : Native} {Γ : List B} {s : HSt} {st : St} {x : Addr} {vx : Val} (h : Sim Γ s st)
    (p : Pin Γ x vx) : Sat (unaryH n op x) (Goal (M.lift (unary op vx)) st Γ) s := by
  have r := h.prep p
  have bool : ∀ {b : Bool} {f : HM Addr} {e : Res Val}, f = mkBool b → e = .ok (ofBool b) →
      Sat f (Goal (M.lift e) st Γ) s := by
    intro b f e e1 e2
    subst e1
    exact sat_bool h fun r s' h' => Goal.lift e2 h'
  refine Sat.bind (sat_data r fun d hd => ?_)
  cases op with
  | car => exact sat_car h (h.pbor p) fun r s' h' => Goal.lift rfl h'
  | cdr => exact sat_cdr h (h.pbor p) fun r s' h' => Goal.lift rfl h'
  | chr =>
    refine Sat.bind (Sat.lift fun k ek => ?_)
    refine sat_chr h fun r s' h' => Goal.lift ?_ h'
    rw [hd.number] at ek
    show natChr vx = _
    unfold natChr
    rw [ek]
    rfl
  | len =>
    show Sat (if d.isList then _ else _) _ s
    rw [hd.isList]
    refine Sat.ite (fun e => ?_) (fun e => ?_)
    · refine Sat.bind (sat_len n r ?_)
      refine sat_num h fun r s' h' => Goal.lift ?_ h'
      show Res.ok (if vx.isList then _ else _) = _
      rw [if_pos e]
    · refine sat_nil h fun r s' h' => Goal.lift ?_ h'
      show Res.ok (if vx.isList then _ else _) = _
      rw [if_neg e]
  | isatm => exact bool rfl (by rw [hd.isList]; rfl)
  | ischr => exact bool rfl (by rw [hd.isChr]; rfl)
  | islst => exact bool rfl (by rw [hd.isList]; rfl)
  | isnil => exact bool rfl (by rw [hd.isNil]; rfl)
  | isnum => exact bool rfl (by rw [hd.isNum]; rfl)
  | isstr => exact Sat.bind (sat_isString n r (bool rfl rfl))
  | issym => exact bool rfl (by rw [hd.isSym]; rfl)
  | istru => exact bool rfl (by rw [hd.isTrue]; rfl)
  | not => exact bool rfl (by rw [hd.isNil]; rfl)
  | str =>
    show Sat (match d.tag with | some s => makeStringH n s.name | none => HM.ub .pairAsNumber) _ s
    rw [hd.tag]
    show Sat _ (Goal (M.lift (natStr vx)) st Γ) s
    unfold natStr
    cases vx.tag with
    | none => exact Sat.ub
    | some t => exact sat_makeString h fun r s' h' => Goal.lift rfl h'
  | sym =>
    show Sat (if d.isPair then symNatH n x else mkNil) _ s
    rw [hd.isPair]
    refine Sat.ite (fun e => sat_symNat h p e) (fun e => sat_nil h fun r s' h' => Goal.lift ?_ h')
    show natSym vx = _
    unfold natSym
    rw [Bool.not_eq_true] at e
    rw [e]
    rfl
  | _ => exact Sat.unsupported

theorem sat_binary {n : Nat} {op : Native} {Γ : List B} {s : HSt} {st : St} {x y : Addr} {vx vy : Val} (h : Sim Γ s st)
    (px : Pin Γ x vx) (py : Pin Γ y vy) : Sat (binaryH n op x y) (Goal (M.lift (binary op vx vy)) st Γ) s := by
  have rx := h.prep px
  have ry := h.prep py
  refine Sat.bind (sat_data rx fun dx hx => ?_)
  refine Sat.bind (sat_data ry fun dy hy => ?_)
  have math : ∀ {op : Native}, Sat (do
      let a ← HM.lift dx.number
      let b ← HM.lift dy.number
      let v ← HM.lift (mathV op (.num a) (.num b))
      ofAtom v) (Goal (M.lift (mathV op vx vy)) st Γ) s := by
    intro op
    refine Sat.bind (Sat.lift fun a ea => ?_)
    refine Sat.bind (Sat.lift fun b eb => ?_)
    refine Sat.bind (Sat.lift fun v ev => ?_)
    rw [hx.number] at ea
    rw [hy.number] at eb
    refine sat_ofAtom h (mathV_num ev) fun r s' h' => Goal.lift ?_ h'
    rw [← ev]
    unfold mathV
    rw [ea, eb]
    rfl
  have cmp : ∀ {op : Native}, Sat (do
      let a ← HM.lift dx.number
      let b ← HM.lift dy.number
      let v ← HM.lift (compareV op (.num a) (.num b))
      ofAtom v) (Goal (M.lift (compareV op vx vy)) st Γ) s := by
    intro op
    refine Sat.bind (Sat.lift fun a ea => ?_)
    refine Sat.bind (Sat.lift fun b eb => ?_)
    refine Sat.bind (Sat.lift fun v ev => ?_)
    rw [hx.number] at ea
    rw [hy.number] at eb
    refine sat_ofAtom h (compareV_bool ev) fun r s' h' => Goal.lift ?_ h'
    rw [← ev]
    unfold compareV
    rw [ea, eb]
    rfl
  cases op with
  | cons =>
    refine Sat.bind (sat_up h (h.pbor px) fun s1 h1 => ?_)
    refine Sat.bind (sat_up h1 (h1.pbor py.cons) fun s2 h2 => ?_)
    exact sat_cons' h2.mv2 fun r s' h' => Goal.lift rfl h'
  | conc =>
    refine Sat.bind (sat_guard h.strict fun g => ?_)
    have hp : vx.isPair = false := by
      rw [hx.isPair] at g
      cases hv : vx.isPair <;> simp [hv] at g ⊢
    refine Sat.bind (sat_up h (h.pbor px) fun s1 h1 => ?_)
    refine Sat.bind (sat_up h1 (h1.pbor py.cons) fun s2 h2 => ?_)
    have o : Own (.tok x vx []) := .atom hp
    refine sat_conc (σ := .tok x vx []) (τ := .tok y vy []) o h2.mv2 fun s3 h3 => Goal.lift ?_ h3
    have := o.app_val (τ := .tok y vy [])
    exact congrArg Res.ok this.symm
  | equ => exact Sat.bind (sat_equ n rx ry (sat_bool h fun r s' h' => Goal.lift rfl h'))
  | neq => exact Sat.bind (sat_neq n rx ry (sat_bool h fun r s' h' => Goal.lift rfl h'))
  | and =>
    refine sat_bool h fun r s' h' => Goal.lift ?_ h'
    rw [hx.isNil, hy.isNil]
    rfl
  | add => exact math
  | sub => exact math
  | mul => exact math
  | div => exact math
  | mod => exact math
  | lt => exact cmp
  | le => exact cmp
  | gt => exact cmp
  | ge => exact cmp
  | _ => exact Sat.unsupported

/-! ## Definitions -/

/-- The body without its documentation. -/
def undoc (v : Val) : Val := if v.car.isPair && v.car.car.isChr then v.cdr else v

theorem sat_doc {Q : Addr → HSt → Prop} {Γ : List B} {s : HSt} {st : St} {a : Addr} {v : Val} {ps : List (Addr × Val)}
    (h : Sim (.tok a v ps :: Γ) s st) (k : ∀ r s', Sim (.tok r (undoc v) [] :: Γ) s' st → Q r s') : Sat (docH a) Q s := by
  refine Sat.bind (sat_car h (h.bor (List.mem_cons_self ..)) fun doc s1 h1 => ?_)
  have keep : (v.car.isPair && v.car.car.isChr) = false → Sat (do X doc; pure a) Q s1 := by
    intro e
    refine Sat.bind (sat_X h1 fun s2 h2 => Sat.pure (k a s2 ?_))
    unfold undoc
    rw [e]
    exact h2.unpin (by simp)
  refine sat_cases (h1.rep (List.mem_cons_self ..)) ?_ ?_
  · intro d ha hd hp
    have := keep (by rw [hp]; rfl)
    cases d <;> first | exact this | exact Bool.noConfusion ha
  · intro x y t u w e hx hy _ _
    refine Sat.bind (sat_data hx fun d hd => ?_)
    rw [hd.isChr]
    refine Sat.ite (fun e1 => ?_) (fun e1 => ?_)
    · refine Sat.bind (sat_cdr h1 (h1.bor (a := a) (v := v) (ps := ps) (by simp)) fun nxt s2 h2 => ?_)
      refine Sat.bind (sat_X h2.mv3 fun s3 h3 => ?_)
      refine Sat.bind (sat_X h3.mv2 fun s4 h4 => Sat.pure (k nxt s4 ?_))
      unfold undoc
      rw [e]
      have : (Val.pair t u w).car = u := rfl
      rw [this, e1]
      exact h4
    · refine keep ?_
      rw [e]
      have : (Val.pair t u w).car = u := rfl
      rw [this]
      rw [Bool.not_eq_true] at e1
      rw [e1, Bool.and_false]

theorem Goal.forget {t : M Val} {st : St} {Γ : List B} {r b : Addr} {w : Val} {ps : List (Addr × Val)} {s : HSt}
    (g : Goal t st (.tok b w ps :: Γ) r s) : Goal t st (.ref b :: Γ) r s := by
  obtain ⟨v, st', e, h⟩ := g
  exact ⟨v, st', e, h.mv2.forget.mv2⟩

/-- The same, with the cells. -/
theorem sat_docT {Q : Addr → HSt → Prop} {Γ : List B} {s : HSt} {st : St} {a : Addr} {v vT : Val} {ps : List (Addr × Val)} {TT T : AT}
    {N : Nat} (h : Sim (.tok a v ps :: Γ) s st) (c : Cx TT N s) (l : Loc TT T a v) (pT : Pin Γ TT.root vT)
    (k : ∀ r s' T', (T' = T ∨ T' = T.cdr) → Loc TT T' r (undoc v) → Sim (.tok r (undoc v) [] :: Γ) s' st → Kp N s s' → Q r s') :
    Sat (docH a) Q s := by
  refine Sat.bind (kp_car.use c (sat_car h (h.bor (List.mem_cons_self ..)) fun doc s1 h1 k1 => ?_))
  have c1 := c.keep k1 h1 pT.c2
  have keep : (v.car.isPair && v.car.car.isChr) = false → Sat (do X doc; pure a) Q s1 := by
    intro e
    have eu : undoc v = v := by unfold undoc; rw [e]; rfl
    rw [eu] at k
    refine Sat.bind (kp_X.use c1 (sat_X h1 fun s2 h2 k2 => Sat.pure (k a s2 T (.inl rfl) l ?_ (k1.trans k2))))
    exact h2.unpin (by simp)
  refine sat_cases (h1.rep (List.mem_cons_self ..)) ?_ ?_
  · intro d ha hd hp
    have := keep (by rw [hp]; rfl)
    cases d <;> first | exact this | exact Bool.noConfusion ha
  · intro x y t u w e hx hy _ _
    refine Sat.bind (sat_data hx fun d hd => ?_)
    rw [hd.isChr]
    refine Sat.ite (fun e1 => ?_) (fun e1 => ?_)
    · have eu : undoc v = v.cdr := by
        unfold undoc
        rw [e]
        have : (Val.pair t u w).car = u := rfl
        rw [this, e1]
        rfl
      rw [eu] at k
      refine Sat.bind (use_cdr c1 l (sat_cdr h1 (h1.bor (a := a) (v := v) (ps := ps) (by simp)) fun nxt s2 h2 k2 l2 => ?_))
      have c2 := c1.keep k2 h2 pT.c3
      refine Sat.bind (kp_X.use c2 (sat_X h2.mv3 fun s3 h3 k3 => ?_))
      have c3 := c2.keep k3 h3 pT.c2
      refine Sat.bind (kp_X.use c3 (sat_X h3.mv2 fun s4 h4 k4 => Sat.pure (k nxt s4 T.cdr (.inr rfl) l2 h4 ?_)))
      exact ((k1.trans k2).trans k3).trans k4
    · refine keep ?_
      rw [e]
      have : (Val.pair t u w).car = u := rfl
      rw [this]
      rw [Bool.not_eq_true] at e1
      rw [e1, Bool.and_false]

/-- The end of `def`. -/
theorem sat_defEnd {Γ : List B} {s : HSt} {st : St} {prog args symb : Addr} {vb va : Val} {t : Bool} {sy : Sym}
    (h : Sim (.tok prog vb [] :: .tok args va [] :: .tok symb (.sym t sy) [] :: Γ) s st) :
    Sat (do
        let nl ← mkNil
        let con0 ← consH nl prog
        let con1 ← consH args con0
        up symb
        let elt ← consH symb con1
        setqH elt
        pure symb)
      (Goal (do setq (.sym t sy) (Val.cons va (Val.cons .nil vb)); Pure.pure (.sym t sy)) st Γ) s := by
  refine Sat.bind (sat_nil h fun nl s8 h8 => ?_)
  refine Sat.bind (sat_cons' h8 fun con0 s9 h9 => ?_)
  refine Sat.bind (sat_cons' h9.mv2 fun con1 s10 h10 => ?_)
  refine Sat.bind (sat_up h10 (h10.bor (a := symb) (v := .sym t sy) (ps := []) (by simp)) fun s11 h11 => ?_)
  refine Sat.bind (sat_pc h11 fun elt s12 h12 => ?_)
  refine Sat.bind (sat_setq h12 ?_)
  intro s13 st13 e13 h13
  exact Sat.pure (Goal.step e13 (Goal.pure h13))

theorem markBody_pair {f : Sym} {va vb : Val} (h : vb.isPair = true) : markBody f va vb = .ok (markLast f va vb) := by
  cases vb <;> first | rfl | cases h

theorem sat_lone {Q : Bool → HSt → Prop} {n : Nat} {s : HSt} {f a : Addr} (k : Q (loneArg s.mem n f a) s) :
    Sat (loneH n f a) Q s := by
  intro b s' e
  unfold loneH at e
  split at e
  · cases e; exact k
  · cases e

theorem sat_def {n : Nat} {Γ : List B} {s : HSt} {st : St} {full any : Addr} {vf va : Val} {ps : List (Addr × Val)}
    (h : Sim (.tok full vf ps :: Γ) s st) (hp : (any, va) ∈ ps) :
    Sat (defH n full any) (Goal (defV va) st (.ref full :: Γ)) s := by
  have p : Pin (.tok full vf ps :: Γ) any va := .at (List.mem_cons_self ..) hp
  refine Sat.bind (sat_lone ?_)
  have other : ∀ {symb : Addr} {s1 : HSt}, Sim (.tok symb va.car [] :: .tok full vf ps :: Γ) s1 st →
      (∀ t k, va.car ≠ .sym t k) → Sat (do leak symb; mkNil) (Goal (defV va) st (.ref full :: Γ)) s1 := by
    intro symb s1 h1 hn
    refine Sat.bind (sat_leak h1.forget fun s2 h2 => sat_nil h2 fun r s3 h3 => ?_)
    have : defV va = Pure.pure .nil := by
      unfold defV
      cases hc : va.car <;> first | rfl | exact absurd hc (hn _ _)
    rw [this]
    exact (Goal.pure h3).forget
  cases hl : loneArg s.mem n full any with
  | false =>
    refine Sat.bind (sat_car h (h.pbor p) fun symb s1 h1 => ?_)
    refine Sat.bind (sat_data (h1.rep (List.mem_cons_self ..)) fun d hd => ?_)
    cases hc : va.car with
    | sym t sy =>
      rw [hc] at hd h1
      cases hd
      refine Sat.bind (sat_cdr h1 (h1.pbor p.cons) fun cdr0 s2 h2 => ?_)
      refine Sat.bind (sat_car h2 (h2.bor (List.mem_cons_self ..)) fun args s3 h3 => ?_)
      refine Sat.bind (sat_data (h3.rep (List.mem_cons_self ..)) fun da hda => ?_)
      rw [hda.isNil, hda.isPair, hda.isSym]
      unfold defV
      simp only [hc]
      refine Sat.ite (fun e => ?_) (fun e => ?_)
      · rw [if_pos e]
        refine Sat.bind (sat_cdr h3 (h3.bor (a := cdr0) (v := va.cdr) (ps := []) (by simp)) fun prog0 s4 h4 => ?_)
        refine Sat.bind (sat_X h4.mv3 fun s5 h5 => ?_)
        refine Sat.bind (sat_doc h5 fun prog s6 h6 => ?_)
        refine Sat.bind (sat_markTailCalls h6 (.of (ps := []) (a := args) (v := va.cdr.car) (by simp))
          (.of (ps := []) (a := prog) (v := undoc va.cdr.cdr) (by simp)) ?_)
        intro s7 em h7
        refine Sat.step (lift_ok st em) ?_
        exact (sat_defEnd h7).mono fun _ _ => Goal.forget
      · rw [if_neg e]
        have h4 : Sim (.tok symb (.sym t sy) [] :: .tok cdr0 va.cdr [] :: .tok args va.cdr.car [] :: .tok full vf ps :: Γ) s3 st :=
          h3.perm (by pm)
        refine Sat.bind (sat_Xs3 h4 fun s4 h5 => sat_nil h5 fun r s5 h6 => ?_)
        exact (Goal.pure h6).forget
    | _ =>
      have o := other h1 (by rw [hc]; intros; simp)
      rw [hc] at hd
      cases hd
      exact o
  | true =>
    obtain ⟨TT, rfl, rfl, hT, nd, D, hD, al⟩ := lone_alone h hp hl
    have lt : ∀ a c, s.mem a = some c → a < s.next := by
      obtain ⟨G, hG⟩ := h
      exact fun a c hc => hG.inv.lt hc
    have c0 : Cx TT s.next s := by
      refine ⟨hT, fun x hx => ?_, Nat.le_refl _⟩
      obtain ⟨c, hc⟩ := hT.cell x hx
      exact lt x c hc
    have lT : Loc TT TT TT.root TT.erase := ⟨rfl, .inr ⟨rfl, .refl⟩⟩
    refine Sat.bind (use_car c0 lT (sat_car h (h.pbor p) fun symb s1 h1 k1 ls => ?_))
    have c1 := c0.keep k1 h1 p.cons
    refine Sat.bind (sat_data (h1.rep (List.mem_cons_self ..)) fun d hd => ?_)
    cases hc : TT.erase.car with
    | sym t sy =>
      rw [hc] at hd h1 ls
      cases hd
      refine Sat.bind (use_cdr c1 lT (sat_cdr h1 (h1.pbor p.cons) fun cdr0 s2 h2 k2 l2 => ?_))
      have c2 := c1.keep k2 h2 p.c2
      refine Sat.bind (use_car c2 l2 (sat_car h2 (h2.bor (List.mem_cons_self ..)) fun args s3 h3 k3 la => ?_))
      have c3 := c2.keep k3 h3 p.c3
      refine Sat.bind (sat_data (h3.rep (List.mem_cons_self ..)) fun da hda => ?_)
      rw [hda.isNil, hda.isPair, hda.isSym]
      unfold defV
      simp only [hc]
      refine Sat.ite (fun e => ?_) (fun e => ?_)
      · rw [if_pos e]
        refine Sat.bind (use_cdr c3 l2 (sat_cdr h3 (h3.bor (a := cdr0) (v := TT.erase.cdr) (ps := []) (by simp)) fun prog0 s4 h4 k4 l4 => ?_))
        have c4 := c3.keep k4 h4 p.c4
        refine Sat.bind (kp_X.use c4 (sat_X h4.mv3 fun s5 h5 k5 => ?_))
        have c5 := c4.keep k5 h5 p.c3
        refine Sat.bind (sat_docT h5 c5 l4 p.c2 fun prog s6 TB hTB lb h6 k6 => ?_)
        have c6 := c5.keep k6 h6 p.c3
        have k06 := ((((k1.trans k2).trans k3).trans k4).trans k5).trans k6
        refine Sat.bind (sat_markT (va := TT.erase.cdr.car)
          (Γ' := .tok prog (markLast sy TT.erase.cdr.car (undoc TT.erase.cdr.cdr)) [] :: .tok args TT.erase.cdr.car [] ::
            .tok symb (.sym t sy) [] :: .ref full :: Γ) h6 c6 lb
          (.of (ps := []) (a := prog) (v := undoc TT.erase.cdr.cdr) (by simp)) (.of (ps := []) (a := args) (v := TT.erase.cdr.car) (by simp))
          p.c3 ?_ ?_)
        · intro r s7 hv h7 k7 hin
          exact mark_sim h7 hp nd hin al hD lt (k06.trans k7) lb la ls hTB hv
        · intro s8 hv h8
          refine Sat.step (lift_ok st (markBody_pair hv)) ?_
          exact sat_defEnd h8
      · rw [if_neg e]
        have h4 : Sim (.tok symb (.sym t sy) [] :: .tok cdr0 TT.erase.cdr [] :: .tok args TT.erase.cdr.car [] :: .tok full vf ps :: Γ) s3 st :=
          h3.perm (by pm)
        refine Sat.bind (sat_Xs3 h4 fun s4 h5 => sat_nil h5 fun r s5 h6 => ?_)
        exact (Goal.pure h6).forget
    | _ =>
      have o := other h1 (by rw [hc]; intros; simp)
      rw [hc] at hd
      cases hd
      exact o

section
variable {ev : HEv} {evt : Ev} (hev : EvSim ev evt)
include hev

/-! ## Natives that evaluate -/

theorem sat_set {u : UB} {n : Nat} {Γ : List B} {s : HSt} {st : St} {c any : Addr} {vc va : Val} (h : Sim Γ s st) (p : Pin Γ any va)
    (pc : Pin Γ c vc) : Sat (setH ev u n c any) (Goal (setV evt vc va) st Γ) s := by
  refine Sat.bind (sat_car h (h.pbor p) fun a0 s1 h1 => ?_)
  refine sat_ev hev h1 pc ?_
  intro sym vs s2 st2 h2
  refine Sat.bind (sat_fresh fun _ => ?_)
  refine Sat.bind (sat_cdr h2 (h2.pbor p.cons) fun cdr s3 h3 => ?_)
  refine Sat.bind (sat_car h3 (h3.bor (List.mem_cons_self ..)) fun a1 s4 h4 => ?_)
  refine Sat.bind (sat_leak h4.mv2.forget fun s5 h5 => ?_)
  refine sat_ev hev h5 pc.cons ?_
  intro val vv s6 st6 h6
  refine sat_assign h6.mv2 (h6.mv2.pbor pc.c2) ?_
  intro r v s7 st7 e7 h7
  exact ⟨v, st7, e7, h7⟩

theorem sat_setqNat {Γ : List B} {s : HSt} {st : St} {c any : Addr} {vc va : Val} (h : Sim Γ s st) (p : Pin Γ any va)
    (pc : Pin Γ c vc) : Sat (setqNatH ev c any) (Goal (setqV evt vc va) st Γ) s := by
  refine Sat.bind (sat_car h (h.pbor p) fun sym s1 h1 => ?_)
  refine Sat.bind (sat_cdr h1 (h1.pbor p.cons) fun cdr s2 h2 => ?_)
  refine Sat.bind (sat_car h2 (h2.bor (List.mem_cons_self ..)) fun a1 s3 h3 => ?_)
  refine sat_ev hev h3 pc.c2 ?_
  intro res vr s4 st4 h4
  refine Sat.bind (sat_X h4.mv2 fun s5 h5 => ?_)
  refine Sat.bind (sat_data (h5.rep (List.mem_cons_self ..)) fun d hd => ?_)
  rw [hd.isNil]
  refine Sat.ite (fun e => ?_) (fun e => ?_)
  · rw [if_pos e]
    exact Sat.bind (sat_X h5.mv2 fun s6 h6 => Sat.pure (Goal.pure h6))
  · rw [if_neg e]
    refine Sat.bind (sat_up h5 (h5.bor (List.mem_cons_self ..)) fun s6 h6 => ?_)
    refine Sat.bind (sat_pc h6 fun elt s7 h7 => ?_)
    have h8 : Sim (.pc elt false sym res :: .tok sym va.car [] :: .tok res vr [] :: .tok res vr [] :: Γ) s7 st4 := h7.perm (by pm)
    refine Sat.bind (sat_setq h8 ?_)
    intro s9 st9 e9 h9
    exact Sat.pure (Goal.step e9 (Goal.pure h9))

theorem sat_or {Γ : List B} {s : HSt} {st : St} {c any : Addr} {vc va : Val} (h : Sim Γ s st) (p : Pin Γ any va)
    (pc : Pin Γ c vc) : Sat (orH ev c any) (Goal (orV evt vc va) st Γ) s := by
  refine Sat.bind (sat_car h (h.pbor p) fun ar0 s1 h1 => ?_)
  refine Sat.bind (sat_cdr h1 (h1.pbor p.cons) fun cdr s2 h2 => ?_)
  refine Sat.bind (sat_car h2 (h2.bor (List.mem_cons_self ..)) fun ar1 s3 h3 => ?_)
  refine Sat.bind (sat_X h3.mv2 fun s4 h4 => ?_)
  refine sat_ev hev h4.mv2 pc.cons ?_
  intro ra0 v0 s5 st5 h5
  refine Sat.bind (sat_data (h5.rep (List.mem_cons_self ..)) fun d hd => ?_)
  rw [hd.isNil]
  refine Sat.ite (fun e => ?_) (fun e => ?_)
  · rw [e]
    refine Sat.bind (sat_X h5 fun s6 h6 => ?_)
    refine sat_ev hev h6 pc ?_
    intro ra1 v1 s7 st7 h7
    refine Sat.bind (sat_data (h7.rep (List.mem_cons_self ..)) fun d1 hd1 => ?_)
    rw [hd1.isNil]
    refine Sat.ite (fun e1 => ?_) (fun e1 => ?_)
    · rw [if_pos e1]
      exact Sat.pure (Goal.pure h7)
    · rw [if_neg e1]
      exact Sat.bind (sat_X h7 fun s8 h8 => sat_true h8 fun r s9 h9 => Goal.pure h9)
  · rw [Bool.not_eq_true] at e
    rw [e]
    exact Sat.bind (sat_Xs2 h5 fun s8 h8 => sat_true h8 fun r s9 h9 => Goal.pure h9)

theorem sat_prinEnd {b : Bool} {n : Nat} {Γ : List B} {s : HSt} {st : St} {c any : Addr} {vc va : Val} (h : Sim Γ s st)
    (p : Pin Γ any va) (pc : Pin Γ c vc) : Sat (do
      up any
      let nl ← mkNil
      prinAllH ev b n c any nl) (Goal (prinAll evt vc b va .nil) st Γ) s := by
  refine Sat.bind (sat_up h (h.pbor p) fun s1 h1 => ?_)
  refine Sat.bind (sat_nil h1 fun nl s2 h2 => ?_)
  exact sat_prinAll hev n h2.mv2 pc

theorem sat_prinLine {b : Bool} {n : Nat} {Γ : List B} {s : HSt} {st : St} {c any : Addr} {vc va : Val} (h : Sim Γ s st)
    (p : Pin Γ any va) (pc : Pin Γ c vc) : Sat (do
      up any
      let nl ← mkNil
      let r ← prinAllH ev b n c any nl
      emitH [10]
      pure r) (Goal (do
        let r ← prinAll evt vc b va .nil
        emit [10]
        pure r) st Γ) s := by
  refine Sat.bind (sat_up h (h.pbor p) fun s1 h1 => ?_)
  refine Sat.bind (sat_nil h1 fun nl s2 h2 => ?_)
  refine Sat.bind ((sat_prinAll hev n h2.mv2 pc).mono ?_)
  rintro r s3 ⟨v3, st3, e3, h3⟩
  refine Sat.step e3 ?_
  refine Sat.bind (sat_emit h3 fun s4 h4 => Sat.pure ?_)
  exact Goal.step (a := ()) rfl (Goal.pure h4)

theorem sat_nativeAny {u : UB} {n : Nat} {op : Native} {Γ : List B} {s : HSt} {st : St} {full c any : Addr} {vf vc va : Val}
    (h : Sim Γ s st) (pf : Pin Γ full vf) (pc : Pin Γ c vc) (p : Pin Γ any va) (hop : op ≠ .def_) :
    Sat (nativeAnyH n ev op u full c any) (Goal (nativeAny n evt op vf vc va) st Γ) s := by
  cases op with
  | cond =>
    refine Sat.bind (sat_car h (h.pbor p) fun car s1 h1 => ?_)
    refine Sat.bind (sat_cdr h1 (h1.pbor p.cons) fun cdr s2 h2 => ?_)
    exact sat_cond hev n h2.mv2 pc
  | def_ => exact absurd rfl hop
  | lambda =>
    refine Sat.bind (sat_car h (h.pbor p) fun args s1 h1 => ?_)
    refine Sat.bind (sat_cdr h1 (h1.pbor p.cons) fun prog s2 h2 => ?_)
    refine Sat.bind (sat_dupP h2 pc.c2 ?_)
    intro σ s3 oσ eσ h3
    have h4 := h3.plain oσ.spine
    refine Sat.bind (sat_cons' h4 fun con0 s5 h5 => ?_)
    refine sat_cons' h5.mv2 fun r s6 h6 => ?_
    rw [eσ] at h6
    exact Goal.pure h6
  | let_ =>
    refine Sat.bind (sat_up h (h.pbor p) fun s1 h1 => ?_)
    exact sat_let hev h1 pc
  | list =>
    refine Sat.bind (sat_up h (h.pbor p) fun s1 h1 => ?_)
    exact sat_list hev n h1 pc
  | match_ =>
    refine Sat.bind (sat_car h (h.pbor p) fun a0 s1 h1 => ?_)
    refine sat_ev hev h1 pf ?_
    intro car v1 s2 st2 h2
    refine Sat.bind (sat_fresh fun _ => ?_)
    refine Sat.bind (sat_cdr h2 (h2.pbor p.cons) fun cdr s3 h3 => ?_)
    exact sat_matchLoop hev n h3.mv2 pc
  | prog =>
    refine Sat.bind (sat_up h (h.pbor p) fun s1 h1 => ?_)
    refine Sat.bind (sat_nil h1 fun nl s2 h2 => ?_)
    exact sat_prog hev n h2.mv2 pc
  | quote => exact Sat.bind (sat_up h (h.pbor p) fun s1 h1 => Sat.pure (Goal.pure h1))
  | set => exact sat_set hev h p pc
  | setq => exact sat_setqNat hev h p pc
  | stream =>
    refine Sat.bind (sat_car h (h.pbor p) fun car s1 h1 => ?_)
    refine Sat.bind (sat_cdr h1 (h1.pbor p.cons) fun cdr s2 h2 => ?_)
    exact sat_stream hev n h2 pc
  | while_ =>
    refine Sat.bind (sat_car h (h.pbor p) fun cnd s1 h1 => ?_)
    refine Sat.bind (sat_cdr h1 (h1.pbor p.cons) fun prg s2 h2 => ?_)
    refine Sat.bind (sat_nil h2 fun nl s3 h3 => ?_)
    refine Sat.bind ((sat_while hev n h3 pc.c2 (.of (ps := []) (a := cnd) (v := va.car) (by simp))
      (.of (ps := []) (a := prg) (v := va.cdr) (by simp))).mono ?_)
    rintro res s4 ⟨v4, st4, e4, h4⟩
    have h5 : Sim (.tok cnd va.car [] :: .tok prg va.cdr [] :: .tok res v4 [] :: Γ) s4 st4 := h4.perm (by pm)
    exact Sat.bind (sat_Xs2 h5 fun s5 h6 => Sat.pure ⟨v4, st4, e4, h6⟩)
  | or => exact sat_or hev h p pc
  | prin => exact sat_prinEnd hev h p pc
  | prinl => exact sat_prinLine hev h p pc
  | print => exact sat_prinEnd hev h p pc
  | printl => exact sat_prinLine hev h p pc
  | _ => exact Sat.unsupported

theorem sat_nativeRem {n : Nat} {op : Native} {Γ : List B} {s : HSt} {st : St} {c cnd rem : Addr} {vc vd vr : Val}
    (h : Sim Γ s st) (pc : Pin Γ c vc) (pd : Pin Γ cnd vd) (pr : Pin Γ rem vr) :
    Sat (nativeRemH n ev op c cnd rem) (Goal (nativeRem evt op vc vd vr) st Γ) s := by
  refine Sat.bind (sat_data (h.prep pd) fun d hd => ?_)
  have prog : Sat (do
      up rem
      let nl ← mkNil
      progH ev n c rem nl) (Goal (progV evt vc vr .nil) st Γ) s := by
    refine Sat.bind (sat_up h (h.pbor pr) fun s1 h1 => ?_)
    refine Sat.bind (sat_nil h1 fun nl s2 h2 => ?_)
    exact sat_prog hev n h2.mv2 pc
  have nil : Sat mkNil (Goal (Pure.pure Val.nil) st Γ) s := sat_nil h fun r s' h' => Goal.pure h'
  cases op with
  | if_ =>
    show Sat (if d.isNil then _ else _) (Goal (if vd.isNil then _ else _) st Γ) s
    rw [hd.isNil]
    refine Sat.ite (fun e => ?_) (fun e => ?_)
    · rw [if_pos e]
      refine Sat.bind (sat_cdr h (h.pbor pr) fun cd1 s1 h1 => ?_)
      refine Sat.bind (sat_car h1 (h1.bor (List.mem_cons_self ..)) fun els s2 h2 => ?_)
      refine Sat.bind (sat_X h2.mv2 fun s3 h3 => ?_)
      exact hev h3 pc
    · rw [if_neg e]
      refine Sat.bind (sat_car h (h.pbor pr) fun thn s1 h1 => ?_)
      exact hev h1 pc
  | when_ =>
    show Sat (if d.isNil then _ else _) (Goal (if !vd.isNil then _ else _) st Γ) s
    rw [hd.isNil]
    cases vd.isNil
    · exact prog
    · exact nil
  | unless_ =>
    show Sat (if d.isNil then _ else _) (Goal (if vd.isNil then _ else _) st Γ) s
    rw [hd.isNil]
    cases vd.isNil
    · exact nil
    · exact prog
  | _ => exact Sat.unsupported

omit hev in
theorem sat_pop {Q : Addr × Addr → HSt → Prop} {Γ : List B} {s : HSt} {st : St} {b a : Addr} {w v : Val}
    {ps : List (Addr × Val)} (h : Sim (.tok b w ps :: Γ) s st) (hp : Part s.mem b a ∧ Rep s.mem a v)
    (k : ∀ x r vx vr, popArg v = .ok (vx, vr) → Sim (.tok b w ((x, vx) :: (r, vr) :: ps) :: Γ) s st → Q (x, r) s) :
    Sat (popH a) Q s := by
  refine Sat.bind (sat_pairOf hp.2 ?_)
  intro kv rest t u w1 e hx hy rx ry
  subst e
  refine Sat.bind (sat_pairOf hx ?_)
  intro k0 x t' u' w2 e2 hx2 hy2 rx2 ry2
  subst e2
  have h1 := (h.pin (ry b hp.1) hy).pin (ry2 b (rx b hp.1)) hy2
  exact Sat.pure (k x rest w2 w1 rfl h1)

theorem sat_callNative {n : Nat} {op : Native} {Γ : List B} {s : HSt} {st : St} {clos κ : Addr} {vc : Val}
    {ps : List (Addr × Val)} (h : Sim (.tok clos vc ps :: Γ) s st) :
    Sat (callNativeH n ev op clos κ) (Goal (callNative n evt op vc) st (.ref clos :: Γ)) s := by
  unfold callNativeH callNative
  cases op.shape with
  | one =>
    refine Sat.bind (sat_pop h ⟨.refl, h.rep (List.mem_cons_self ..)⟩ ?_)
    intro x r vx vr e1 h1
    refine Sat.step (lift_ok st e1) ?_
    refine Sat.bind (Sat.ite (fun e => Sat.pure ?_) (fun e => Sat.unsupported))
    have px : Pin (.tok clos vc ((x, vx) :: (r, vr) :: ps) :: Γ) x vx := .at (List.mem_cons_self ..) (by simp)
    have pr : Pin (.tok clos vc ((x, vx) :: (r, vr) :: ps) :: Γ) r vr := .at (List.mem_cons_self ..) (by simp)
    by_cases eo : op = .eval
    · simp only [if_pos eo]
      refine Sat.bind (sat_up h1 (h1.pbor px) fun s2 h2 => ?_)
      exact (hev h2 pr).mono fun _ _ => Goal.forget
    · simp only [if_neg eo]
      exact (sat_unary h1 px).mono fun _ _ => Goal.forget
  | two =>
    refine Sat.bind (sat_pop h ⟨.refl, h.rep (List.mem_cons_self ..)⟩ ?_)
    intro y r vy vr e1 h1
    refine Sat.step (lift_ok st e1) ?_
    refine Sat.bind (sat_pop h1 (h1.pinned (List.mem_cons_self ..) (u := vr) (by simp)) ?_)
    intro x r2 vx vr2 e2 h2
    refine Sat.step (lift_ok st e2) ?_
    refine Sat.bind (Sat.ite (fun e => Sat.pure ?_) (fun e => Sat.unsupported))
    exact (sat_binary h2 (vx := vx) (vy := vy) (.at (List.mem_cons_self ..) (by simp))
      (.at (List.mem_cons_self ..) (by simp))).mono fun _ _ => Goal.forget
  | any =>
    refine Sat.bind (sat_pop h ⟨.refl, h.rep (List.mem_cons_self ..)⟩ ?_)
    intro x r vx vr e1 h1
    refine Sat.step (lift_ok st e1) ?_
    refine Sat.bind (Sat.ite (fun e => Sat.pure ?_) (fun e => Sat.unsupported))
    refine Sat.bind (sat_own fun u => ?_)
    by_cases eo : op = .def_
    · subst eo
      exact sat_def h1 (by simp)
    · exact (sat_nativeAny hev h1 (.of (List.mem_cons_self ..)) (vc := vr) (va := vx) (.at (List.mem_cons_self ..) (by simp))
        (.at (List.mem_cons_self ..) (by simp)) eo).mono fun _ _ => Goal.forget
  | rem =>
    refine Sat.bind (sat_pop h ⟨.refl, h.rep (List.mem_cons_self ..)⟩ ?_)
    intro y r vy vr e1 h1
    refine Sat.step (lift_ok st e1) ?_
    refine Sat.bind (sat_pop h1 (h1.pinned (List.mem_cons_self ..) (u := vr) (by simp)) ?_)
    intro x r2 vx vr2 e2 h2
    refine Sat.step (lift_ok st e2) ?_
    refine Sat.bind (Sat.ite (fun e => Sat.pure ?_) (fun e => Sat.unsupported))
    exact (sat_nativeRem hev h2 (vc := vr2) (vd := vx) (vr := vy) (.at (List.mem_cons_self ..) (by simp))
      (.at (List.mem_cons_self ..) (by simp)) (.at (List.mem_cons_self ..) (by simp))).mono fun _ _ => Goal.forget
  | none => exact Sat.unsupported

/-! ## Application -/

omit hev in
theorem sat_nativeClos {Q : Addr → HSt → Prop} {n : Nat} {Γ : List B} {s : HSt} {st : St} {σ : B} {κ dscl : Addr} {vκ vd : Val}
    {pd : List (Addr × Val)} (hσ : Own σ) (h : Sim (σ :: .tok dscl vd pd :: Γ) s st) (p : Pin Γ κ vκ)
    (k : ∀ r ps s', Sim (.tok r (Val.conc (if vd.isNil then σ.val else Val.conc σ.val vd) vκ) ps :: Γ) s' st → Q r s') :
    Sat (nativeClosH n κ σ.addr dscl) Q s := by
  refine Sat.bind (sat_data (h.rep (a := dscl) (v := vd) (ps := pd) (by simp)) fun d hd => ?_)
  rw [hd.isNil]
  refine Sat.ite (fun e => ?_) (fun e => ?_)
  · rw [if_pos e] at k
    refine Sat.bind (sat_up h (h.pbor p.c2) fun s1 h1 => ?_)
    refine Sat.bind (sat_conc (τ := .tok κ vκ []) hσ h1.mv2 fun s2 h2 => ?_)
    refine Sat.bind (sat_X h2.mv2 fun s3 h3 => Sat.pure ?_)
    have h4 := h3.publish' (hσ.app_spine (.tok ..))
    rw [hσ.app_val] at h4
    exact k _ _ _ h4
  · rw [if_neg e] at k
    refine Sat.bind (sat_dupP h (.of (ps := pd) (a := dscl) (v := vd) (by simp)) ?_)
    intro δ s1 oδ eδ h1
    refine Sat.bind (sat_conc (τ := δ) hσ h1.mv2 fun s2 h2 => ?_)
    refine Sat.bind (sat_up h2 (h2.pbor p.c2) fun s3 h3 => ?_)
    have o2 := hσ.app_own oδ
    refine Sat.bind (sat_conc (τ := .tok κ vκ []) o2 h3.mv2 fun s4 h4 => ?_)
    refine Sat.bind (sat_X h4.mv2 fun s5 h5 => Sat.pure ?_)
    have h6 := h5.publish' (o2.app_spine (.tok ..))
    rw [o2.app_val, hσ.app_val, eδ] at h6
    exact k _ _ _ h6

/-- The application of a function to all its arguments. -/
def applyV (fuel : Nat) (ev : Ev) (closure symb dscl body bscl : Val) : M Val :=
  match body with
  | .num a =>
    let clos := if dscl.isNil then bscl else Val.conc bscl dscl
    match nativeOfAddr a with
    | some op => callNative fuel ev op (Val.conc clos closure)
    | none => M.ub .badCall
  | _ =>
    if symb.isTailCall then pure (.pair true symb bscl)
    else do
      let cls0 ← M.lift (Val.merge closure dscl)
      tailLoop ev symb body cls0 fuel bscl

theorem sat_apply {n : Nat} {Γ : List B} {s : HSt} {st : St} {κ symb dscl body narg : Addr} {σ : B} {vκ vs vd vb vn : Val}
    {pd pb pn : List (Addr × Val)} (hσ : Own σ)
    (h : Sim (σ :: .tok narg vn pn :: .tok dscl vd pd :: .tok body vb pb :: Γ) s st) (p : Pin Γ κ vκ) (ps : Pin Γ symb vs)
    (hs : vs.isPair || vs.isSym) :
    Sat (applyH n ev κ symb dscl body σ.addr narg) (Goal (applyV n evt vκ vs vd vb σ.val) st Γ) s := by
  have lisp : (∀ a, vb ≠ .num a) → Sat (do
      let cs ← cell symb
      if cs.tc then do
        up symb
        let rslt ← consH symb σ.addr
        setTail rslt
        Xs [body, dscl, narg]
        pure rslt
      else do
        let d0 ← dupH n κ
        let cls0 ← mergeH n d0 dscl
        X dscl
        let (rslt, bscl') ← tailLoopH ev symb body cls0 n σ.addr
        Xs [body, bscl', narg, cls0]
        pure rslt) (Goal (applyV n evt vκ vs vd vb σ.val) st Γ) s := by
    intro hb
    have unf : applyV n evt vκ vs vd vb σ.val = (if vs.isTailCall then pure (.pair true vs σ.val)
        else M.lift (Val.merge vκ vd) >>= fun cls0 => tailLoop evt vs vb cls0 n σ.val) := by
      cases vb <;> first | rfl | exact absurd rfl (hb _)
    rw [unf]
    refine Sat.bind (sat_cell fun cs hcs => ?_)
    have htc : cs.tc = vs.isTailCall := by
      cases vs with
      | sym t sy =>
        obtain ⟨c', hc', e1, _⟩ := (h.prep ps.c4).symCell
        rw [hcs] at hc'; cases hc'
        exact e1
      | pair t u w =>
        obtain ⟨c', x', y', hc', e1, _⟩ := (h.prep ps.c4).pair_inv
        rw [hcs] at hc'; cases hc'
        exact e1
      | _ => cases hs
    rw [htc]
    refine Sat.ite (fun e => ?_) (fun e => ?_)
    · rw [if_pos e]
      refine Sat.bind (sat_up h (h.pbor ps.c4) fun s1 h1 => ?_)
      refine Sat.bind (sat_pc h1 fun rslt s2 h2 => ?_)
      refine Sat.bind (sat_setTail h2 fun s3 h3 => ?_)
      have h4 := Sim.fold (σ := .tok symb vs []) (τ := σ) h3
      have h5 := h4.plain (.node _ _ _ _ _ hσ.spine)
      have h6 : Sim (.tok body vb pb :: .tok dscl vd pd :: .tok narg vn pn :: .tok rslt (.pair true vs σ.val) [] :: Γ) s3 st :=
        h5.perm (by pm)
      exact Sat.bind (sat_Xs3 h6 fun s4 h7 => Sat.pure (Goal.pure h7))
    · rw [if_neg e]
      refine sat_dupMerge h p.c4 (.of (ps := pd) (a := dscl) (v := vd) (by simp)) ?_
      intro cls0 vc s1 em h1
      refine Sat.step (lift_ok st em) ?_
      refine Sat.bind (sat_X h1.mv4 fun s2 h2 => ?_)
      have h3 : Sim (σ :: .tok cls0 vc [] :: .tok narg vn pn :: .tok body vb pb :: Γ) s2 st := h2.mv2
      have h4 := h3.plain hσ.spine
      refine Sat.bind (sat_tailLoop hev n h4 ps.c3 (.of (ps := pb) (a := body) (v := vb) (by simp))
        (.of (ps := []) (a := cls0) (v := vc) (by simp)) ?_)
      intro r b v w pw s5 st5 e5 h5
      have h6 : Sim (.tok body vb pb :: .tok b w pw :: .tok narg vn pn :: .tok cls0 vc [] :: .tok r v [] :: Γ) s5 st5 :=
        h5.perm (by pm)
      exact Sat.bind (sat_Xs4 h6 fun s6 h7 => Sat.pure ⟨v, st5, e5, h7⟩)
  refine Sat.bind (sat_data (h.rep (a := body) (v := vb) (ps := pb) (by simp)) fun d hd => ?_)
  cases hd with
  | num =>
    rename_i a
    have h1 : Sim (σ :: .tok dscl vd pd :: .tok narg vn pn :: .tok body (.num a) pb :: Γ) s st := h.perm (by pm)
    refine Sat.bind (sat_nativeClos hσ h1 p.c2 ?_)
    intro clos pc s1 h2
    unfold applyV
    cases hop : nativeOfAddr a with
    | none => exact Sat.ub
    | some op =>
      refine Sat.bind ((sat_callNative hev h2).mono ?_)
      rintro rslt s2 ⟨v2, st2, e2, h3⟩
      refine Sat.bind (Sat.bind (sat_X h3.mv4 fun s3 h4 => Sat.bind (sat_X h4.mv3 fun s4 h5 => ?_)))
      refine Sat.bind (sat_Xr h5.mv2 fun s5 h6 => Sat.pure (Sat.pure ?_))
      exact ⟨v2, st2, by simpa only [hop] using e2, h6⟩
  | nil => exact lisp (by intros; simp)
  | tru => exact lisp (by intros; simp)
  | wild => exact lisp (by intros; simp)
  | chr => exact lisp (by intros; simp)
  | sym => exact lisp (by intros; simp)
  | pair => exact lisp (by intros; simp)

theorem sat_evalFunc {n : Nat} {Γ : List B} {s : HSt} {st : St} {κ symb func vals : Addr} {vκ vs vf vv : Val}
    {pf pv : List (Addr × Val)} (h : Sim (.tok func vf pf :: .tok vals vv pv :: Γ) s st) (p : Pin Γ κ vκ) (ps : Pin Γ symb vs)
    (hs : vs.isPair || vs.isSym) :
    Sat (evalFuncH n ev κ symb func vals) (Goal (evalFunc n evt vκ vs vf vv) st Γ) s := by
  refine Sat.bind (sat_car h (h.bor (List.mem_cons_self ..)) fun args s1 h1 => ?_)
  refine Sat.bind (sat_mayApply n (h1.rep (List.mem_cons_self ..)) (h1.rep (a := vals) (v := vv) (ps := pv) (by simp)) ?_)
  unfold evalFunc
  refine Sat.ite (fun e => ?_) (fun e => ?_)
  · have e' : ¬ (!Val.mayApply vf.car vv) = true := by rw [e]; simp
    simp only [if_neg e']
    refine Sat.bind (sat_cdr h1 (h1.bor (a := func) (v := vf) (ps := pf) (by simp)) fun cdr0 s2 h2 => ?_)
    refine Sat.bind (sat_car h2 (h2.bor (List.mem_cons_self ..)) fun dscl s3 h3 => ?_)
    refine Sat.bind (sat_cdr h3 (h3.bor (a := cdr0) (v := vf.cdr) (ps := []) (by simp)) fun body s4 h4 => ?_)
    have h5 : Sim (.tok func vf pf :: .tok cdr0 vf.cdr [] :: .tok args vf.car [] :: .tok vals vv pv :: .tok dscl vf.cdr.car [] ::
        .tok body vf.cdr.cdr [] :: Γ) s4 st := h4.perm (by pm)
    refine Sat.bind (sat_Xs2 h5 fun s5 h6 => ?_)
    refine Sat.bind (sat_nil h6 fun nl s6 h7 => ?_)
    refine Sat.bind (sat_evalArgs hev n (σ := .tok nl .nil []) (.atom rfl) h7 p.c2 ?_)
    intro bind ρ narg nv pn s7 st7 e7 oρ h8
    refine Sat.step e7 ?_
    refine sat_unpair h8.unfold (own_mem (σ := ρ) (by simp) ρ.addr_own) (own_mem (σ := .tok narg nv pn) (by simp) (by simp [B.own, B.addr]))
      fun s8 h9 => ?_
    refine Sat.bind (sat_data (h9.rep (a := narg) (v := nv) (ps := pn) (by simp)) fun dn hdn => ?_)
    rw [hdn.isNil]
    refine Sat.ite (fun e1 => ?_) (fun e1 => ?_)
    · simp only [if_pos e1]
      exact sat_apply hev oρ h9 p ps hs
    · simp only [if_neg e1]
      have h10 : Sim (ρ :: .tok dscl vf.cdr.car [] :: .tok body vf.cdr.cdr [] :: .tok narg nv pn :: Γ) s8 st7 := h9.perm (by pm)
      refine Sat.bind (sat_conc (τ := .tok dscl vf.cdr.car []) oρ h10 fun s9 h11 => ?_)
      have h12 := h11.plain (oρ.app_spine (.tok ..))
      rw [oρ.app_val] at h12
      refine Sat.bind (sat_cons' h12 fun con0 s10 h13 => ?_)
      exact sat_cons' h13.mv2 fun r s11 h14 => Goal.pure h14
  · have e' : (!Val.mayApply vf.car vv) = true := by rw [Bool.not_eq_true] at e; rw [e]; rfl
    simp only [if_pos e']
    have h2 : Sim (.tok func vf pf :: .tok vals vv pv :: .tok args vf.car [] :: Γ) s1 st := h1.perm (by pm)
    exact Sat.bind (sat_Xs3 h2 fun s2 h3 => sat_nil h3 fun r s3 h4 => Goal.pure h4)

theorem sat_evalNext {n : Nat} {Γ : List B} {s : HSt} {st : St} {κ car nxt cdr : Addr} {vκ va vn vd : Val}
    {pn pd : List (Addr × Val)} (h : Sim (.tok nxt vn pn :: .tok cdr vd pd :: Γ) s st) (p : Pin Γ κ vκ) (pa : Pin Γ car va)
    (hf : vn.isFunc → va.isPair || va.isSym) :
    Sat (evalNextH n ev κ car nxt cdr) (Goal (
      if vn.isFunc then evalFunc n evt vκ va vn vd
      else if Val.equ va vn then pure (.cons vn vd)
      else if vn.isSym || vn.isPair then evt vκ (.cons vn vd)
      else pure (.cons vn vd)) st Γ) s := by
  refine Sat.bind (sat_isFunc (h.rep (List.mem_cons_self ..)) ?_)
  refine Sat.ite (fun e => ?_) (fun e => ?_)
  · rw [if_pos e]
    exact sat_evalFunc hev h p pa (hf e)
  · rw [if_neg e]
    refine Sat.bind (sat_equ n (h.prep pa.c2) (h.rep (List.mem_cons_self ..)) ?_)
    refine Sat.ite (fun e1 => ?_) (fun e1 => ?_)
    · rw [if_pos e1]
      exact sat_cons' h fun r s' h' => Goal.pure h'
    · rw [if_neg e1]
      refine Sat.bind (sat_data (h.rep (List.mem_cons_self ..)) fun d hd => ?_)
      rw [hd.isSym, hd.isPair]
      refine Sat.ite (fun e2 => ?_) (fun e2 => ?_)
      · rw [if_pos e2]
        exact Sat.bind (sat_cons' h fun cell s1 h1 => hev h1 p)
      · rw [if_neg e2]
        exact sat_cons' h fun r s' h' => Goal.pure h'

/-- Atoms other than symbols evaluate to themselves. -/
def Atoms (evt : Ev) : Prop :=
  ∀ κ v st w st', v.isPair = false → v.isSym = false → evt κ v st = .ok (w, st') → w = v

theorem sat_evalPair (hat : Atoms evt) {n : Nat} {Γ : List B} {s : HSt} {st : St} {κ a : Addr} {vκ u w : Val} {t : Bool}
    {pa : List (Addr × Val)} (h : Sim (.tok a (.pair t u w) pa :: Γ) s st) (p : Pin Γ κ vκ) :
    Sat (evalPairH n ev κ a) (Goal (evalPair n evt vκ u w) st Γ) s := by
  refine Sat.bind (sat_car h (h.bor (List.mem_cons_self ..)) fun car s1 h1 => ?_)
  refine Sat.bind (sat_cdr h1 (h1.bor (a := a) (v := .pair t u w) (ps := pa) (by simp)) fun cdr s2 h2 => ?_)
  refine Sat.bind (sat_X h2.mv3 fun s3 h3 => ?_)
  have h3 : Sim (.tok cdr w [] :: .tok car u [] :: Γ) s3 st := h3
  refine Sat.bind (sat_up h3 (h3.bor (a := car) (v := u) (ps := []) (by simp)) fun s4 h4 => ?_)
  refine Sat.bind ((hev h4 p.c2).mono ?_)
  rintro nxt s5 ⟨vn, st5, e5, h5⟩
  refine Sat.step e5 ?_
  have hf : vn.isFunc → u.isPair || u.isSym := by
    intro hf
    cases hp : u.isPair with
    | true => rfl
    | false =>
      cases hy : u.isSym with
      | true => rfl
      | false =>
        have := hat vκ u st vn st5 hp hy e5
        subst this
        cases vn <;> first | (cases hp; done) | (cases hf; done)
  refine Sat.bind ((sat_evalNext hev h5 p.cons (.of (ps := []) (a := car) (v := u) (by simp)) hf).mono ?_)
  rintro r s6 ⟨v6, st6, e6, h6⟩
  exact Sat.bind (sat_X h6.mv2 fun s7 h7 => Sat.pure ⟨v6, st6, e6, h7⟩)

theorem evSim_step (hat : Atoms evt) (n : Nat) : EvSim (evalStepH n ev) (evalStep n evt) := by
  intro Γ s st κ a vκ v ps h p
  have r := h.rep (a := a) (v := v) (ps := ps) (List.mem_cons_self ..)
  refine Sat.bind (sat_data r fun d hd => ?_)
  cases hd with
  | pair => exact sat_evalPair hev hat h p
  | sym =>
    refine Sat.bind (sat_lookup h (h.pbor p.cons) (h.bor (List.mem_cons_self ..)) ?_)
    intro r v s1 e h1
    exact Sat.bind (sat_X h1.mv2 fun s2 h2 => Sat.pure ⟨v, st, e, h2⟩)
  | nil => exact Sat.pure (Goal.pure (h.unpin (by simp)))
  | tru => exact Sat.pure (Goal.pure (h.unpin (by simp)))
  | wild => exact Sat.pure (Goal.pure (h.unpin (by simp)))
  | chr => exact Sat.pure (Goal.pure (h.unpin (by simp)))
  | num => exact Sat.pure (Goal.pure (h.unpin (by simp)))

end

theorem atoms_evalN (n : Nat) : Atoms (evalN n) := by
  intro κ v st w st' hp hs e
  cases n with
  | zero => cases e
  | succ n => cases v <;> first | (cases hp; done) | (cases hs; done) | (cases e; rfl)

/-- Every evaluation on cells in strict mode is an evaluation on trees. -/
theorem evSim_evalN (n : Nat) : EvSim (evalNH n) (evalN n) := by
  induction n with
  | zero => intro _ _ _ _ _ _ _ _ _ _; exact Sat.oof
  | succ n ih => exact evSim_step ih (atoms_evalN n) n

end Heap
end Mnml
