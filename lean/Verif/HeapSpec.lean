import Verif.HeapGuard

/-!
# The evaluator keeps the invariant

Every function of the evaluator and every native consumes exactly the references that its C
counterpart consumes, gives one reference to its result, and accesses live cells only.
-/

namespace Mnml
namespace Heap

/-- The end of a computation that consumes the references `ins` and gives a new one. -/
abbrev Post (Q : Addr → HSt → Prop) (T : Addr → Nat) (ins : List Addr) : Prop :=
  ∀ r s' T', Inv s' T' → (∀ b, T' b + ones ins b = T b + one r b) → Q r s'

/-- What is required of `lisp_eval`: the environment is borrowed, the expression is consumed. -/
abbrev EvSpec (ev : HEv) : Prop :=
  ∀ {Q : Addr → HSt → Prop} {s0 : HSt} {T0 : Addr → Nat} {closure a : Addr}, Inv s0 T0 →
    (∀ b, ones [closure, a] b ≤ T0 b) → Post Q T0 [a] → wp (ev closure a) Q s0

section
variable {ev : HEv} (hev : EvSpec ev)
include hev

theorem wp_prog : ∀ (n : Nat) {Q : Addr → HSt → Prop} {s0 : HSt} {T0 : Addr → Nat} {closure a result : Addr},
    Inv s0 T0 → (∀ b, ones [closure, a, result] b ≤ T0 b) → Post Q T0 [a, result] →
    wp (progH ev n closure a result) Q s0 := by
  intro n
  induction n with
  | zero => intros; exact wp_oof
  | succ n ih =>
    intro Q s0 T0 closure a result h0 t k
    refine wp_bind (wp_dataOf (h0.live (by tok)) fun c0 hc0 => ?_)
    refine wp_ite (fun _ => ?_) (fun _ => ?_)
    · refine wp_bind (wp_car h0 (h0.live (by tok)) ?_)
      intro e s1 T1 h1 e1 x1
      refine wp_bind (hev h1 (by tok) ?_)
      intro res s2 T2 h2 e2
      refine wp_bind (wp_cdr h2 (h2.live (by tok)) ?_)
      intro cdr s3 T3 h3 e3 x3
      refine wp_bind (wp_Xs h3 (by tok) ?_)
      intro s4 T4 h4 e4
      refine ih h4 (by tok) ?_
      intro r s5 T5 h5 e5
      exact k r s5 T5 h5 (by tok)
    · refine wp_bind (wp_X h0 (by tok) ?_)
      intro s1 T1 h1 e1
      exact wp_pure (k result s1 T1 h1 (by tok))

theorem wp_evalArgs : ∀ (n : Nat) {Q : Addr → HSt → Prop} {s0 : HSt} {T0 : Addr → Nat}
    {closure atom args vals : Addr}, Inv s0 T0 → (∀ b, ones [closure, atom, args, vals] b ≤ T0 b) →
    Post Q T0 [atom, args, vals] → wp (evalArgsH ev n closure atom args vals) Q s0 := by
  intro n
  induction n with
  | zero => intros; exact wp_oof
  | succ n ih =>
    intro Q s0 T0 closure atom args vals h0 t k
    have done : wp (do let rslt ← consH atom args; X vals; pure rslt) Q s0 := by
      refine wp_bind (wp_cons h0 (by tok) ?_)
      intro rslt s1 T1 h1 e1 x1
      refine wp_bind (wp_X h1 (by tok) ?_)
      intro s2 T2 h2 e2
      exact wp_pure (k rslt s2 T2 h2 (by tok))
    refine wp_bind (wp_dataOf (h0.live (by tok)) fun c0 hc0 => ?_)
    refine wp_ite (fun _ => done) (fun _ => wp_ite (fun _ => ?_) (fun _ => ?_))
    · refine wp_bind (wp_bindH n h0 (by tok) ?_)
      intro head s1 T1 h1 e1 _ _
      refine wp_bind (wp_nil h1 ?_)
      intro nl s2 T2 h2 e2 x2
      refine wp_cons h2 (by tok) ?_
      intro r s3 T3 h3 e3 _
      exact k r s3 T3 h3 (by tok)
    · refine wp_bind (wp_dataOf (h0.live (by tok)) fun cv _ => ?_)
      refine wp_ite (fun _ => done) (fun _ => ?_)
      refine wp_bind (wp_car h0 (h0.live (by tok)) ?_)
      intro arg s1 T1 h1 e1 x1
      refine wp_bind (wp_cdr h1 (h1.live (by tok)) ?_)
      intro oth s2 T2 h2 e2 x2
      refine wp_bind (wp_X h2 (by tok) ?_)
      intro s3 T3 h3 e3
      refine wp_bind (wp_car h3 (h3.live (by tok)) ?_)
      intro v s4 T4 h4 e4 x4
      refine wp_bind (hev h4 (by tok) ?_)
      intro val s5 T5 h5 e5
      refine wp_bind (wp_cdr h5 (h5.live (by tok)) ?_)
      intro rem s6 T6 h6 e6 x6
      refine wp_bind (wp_X h6 (by tok) ?_)
      intro s7 T7 h7 e7
      refine wp_bind (wp_bindH n h7 (by tok) ?_)
      intro bind s8 T8 h8 e8 _ _
      refine ih h8 (by tok) ?_
      intro r s9 T9 h9 e9
      exact k r s9 T9 h9 (by tok)

theorem wp_tailLoop {symb body cls0 : Addr} : ∀ (n : Nat) {Q : Addr × Addr → HSt → Prop} {s0 : HSt}
    {T0 : Addr → Nat} {bscl : Addr}, Inv s0 T0 → (∀ b, ones [symb, body, cls0, bscl] b ≤ T0 b) →
    (∀ r s' T', Inv s' T' → (∀ b, T' b + one bscl b = T0 b + one r.1 b + one r.2 b) → Q r s') →
    wp (tailLoopH ev symb body cls0 n bscl) Q s0 := by
  intro n
  induction n with
  | zero => intros; exact wp_oof
  | succ n ih =>
    intro Q s0 T0 bscl h0 t k
    refine wp_dupMerge h0 (h0.live (by tok)) (by tok) ?_
    intro cls1 s1 T1 h1 e1 f1
    refine wp_bind (wp_up h1 (h1.live (by tok)) ?_)
    intro s2 T2 h2 e2 x2
    refine wp_bind (wp_nil h2 ?_)
    intro nl s3 T3 h3 e3 x3
    refine wp_bind (wp_prog hev n h3 (by tok) ?_)
    intro res s4 T4 h4 e4
    refine wp_bind (wp_X h4 (by tok) ?_)
    intro s5 T5 h5 e5
    refine wp_bind (wp_isSelfTail h5 (h5.live (by tok)) (h5.live (by tok)) fun again => ?_)
    refine wp_ite (fun _ => ?_) (fun _ => ?_)
    · refine wp_bind (wp_X h5 (by tok) ?_)
      intro s6 T6 h6 e6
      refine wp_bind (wp_cdr h6 (h6.live (by tok)) ?_)
      intro bscl' s7 T7 h7 e7 x7
      refine wp_bind (wp_X h7 (by tok) ?_)
      intro s8 T8 h8 e8
      refine ih h8 (by tok) ?_
      intro r s9 T9 h9 e9
      exact k r s9 T9 h9 (by tok)
    · refine wp_pure (k _ s5 T5 h5 ?_)
      show ∀ b, T5 b + one bscl b = T0 b + one res b + one bscl b
      tok

theorem wp_cond : ∀ (n : Nat) {Q : Addr → HSt → Prop} {s0 : HSt} {T0 : Addr → Nat} {closure a m : Addr},
    Inv s0 T0 → (∀ b, ones [closure, a, m] b ≤ T0 b) → Post Q T0 [a, m] →
    wp (condH ev n closure a m) Q s0 := by
  intro n
  induction n with
  | zero => intros; exact wp_oof
  | succ n ih =>
    intro Q s0 T0 closure a m h0 t k
    have stop : wp (do Xs [a, m]; mkNil) Q s0 := by
      refine wp_bind (wp_Xs h0 (by tok) ?_)
      intro s1 T1 h1 e1
      refine wp_nil h1 ?_
      intro r s2 T2 h2 e2 _
      exact k r s2 T2 h2 (by tok)
    have lm : Live s0 m := h0.live (by tok)
    refine wp_bind (wp_dataOf (h0.live (by tok)) fun c0 hc0 => ?_)
    cases hd : c0.data with
    | pair x y =>
      refine wp_bind (wp_dataOf (h0.childCar lm (by simp) hc0 hd) fun cx _ => ?_)
      refine wp_ite (fun _ => ?_) (fun _ => stop)
      refine wp_bind (wp_car h0 (h0.live (by tok)) ?_)
      intro car s1 T1 h1 e1 x1
      refine wp_bind (wp_cdr h1 (h1.live (by tok)) ?_)
      intro cdr s2 T2 h2 e2 x2
      refine wp_bind (wp_X h2 (by tok) ?_)
      intro s3 T3 h3 e3
      refine wp_bind (wp_car h3 (h3.live (by tok)) ?_)
      intro args s4 T4 h4 e4 x4
      refine wp_bind (wp_cdr h4 (h4.live (by tok)) ?_)
      intro prog s5 T5 h5 e5 x5
      refine wp_bind (wp_X h5 (by tok) ?_)
      intro s6 T6 h6 e6
      refine wp_bind (wp_dataOf (h6.live (by tok)) fun c6 hc6 => ?_)
      refine wp_ite (fun _ => ?_) (fun _ => ?_)
      · refine wp_bind (wp_Xs h6 (by tok) ?_)
        intro s7 T7 h7 e7
        refine hev h7 (by tok) ?_
        intro r s8 T8 h8 e8
        exact k r s8 T8 h8 (by tok)
      · refine wp_bind (wp_up h6 (h6.live (by tok)) ?_)
        intro s7 T7 h7 e7 x7
        refine wp_bind (wp_nil h7 ?_)
        intro nl s8 T8 h8 e8 x8
        refine wp_bind (wp_cons h8 (by tok) ?_)
        intro con s9 T9 h9 e9 x9
        refine wp_bind (wp_cons h9 (by tok) ?_)
        intro evl s10 T10 h10 e10 x10
        refine wp_bind (hev h10 (by tok) ?_)
        intro res s11 T11 h11 e11
        refine wp_bind (wp_dataOf (h11.live (by tok)) fun c11 hc11 => ?_)
        refine wp_ite (fun _ => ?_) (fun _ => ?_)
        · refine wp_bind (wp_Xs h11 (by tok) ?_)
          intro s12 T12 h12 e12
          refine hev h12 (by tok) ?_
          intro r s13 T13 h13 e13
          exact k r s13 T13 h13 (by tok)
        · refine wp_bind (wp_Xs h11 (by tok) ?_)
          intro s12 T12 h12 e12
          refine ih h12 (by tok) ?_
          intro r s13 T13 h13 e13
          exact k r s13 T13 h13 (by tok)
    | _ => exact stop

theorem wp_matchLoop : ∀ (n : Nat) {Q : Addr → HSt → Prop} {s0 : HSt} {T0 : Addr → Nat} {closure a m : Addr},
    Inv s0 T0 → (∀ b, ones [closure, a, m] b ≤ T0 b) → Post Q T0 [a, m] →
    wp (matchLoopH ev n closure a m) Q s0 := by
  intro n
  induction n with
  | zero => intros; exact wp_oof
  | succ n ih =>
    intro Q s0 T0 closure a m h0 t k
    have stop : wp (do Xs [a, m]; mkNil) Q s0 := by
      refine wp_bind (wp_Xs h0 (by tok) ?_)
      intro s1 T1 h1 e1
      refine wp_nil h1 ?_
      intro r s2 T2 h2 e2 _
      exact k r s2 T2 h2 (by tok)
    have lm : Live s0 m := h0.live (by tok)
    refine wp_bind (wp_dataOf (h0.live (by tok)) fun c0 hc0 => ?_)
    cases hd : c0.data with
    | pair x y =>
      refine wp_bind (wp_dataOf (h0.childCar lm (by simp) hc0 hd) fun cx _ => ?_)
      refine wp_ite (fun _ => ?_) (fun _ => stop)
      refine wp_bind (wp_car h0 (h0.live (by tok)) ?_)
      intro car s1 T1 h1 e1 x1
      refine wp_bind (wp_cdr h1 (h1.live (by tok)) ?_)
      intro cdr s2 T2 h2 e2 x2
      refine wp_bind (wp_X h2 (by tok) ?_)
      intro s3 T3 h3 e3
      refine wp_bind (wp_car h3 (h3.live (by tok)) ?_)
      intro args s4 T4 h4 e4 x4
      refine wp_bind (wp_cdr h4 (h4.live (by tok)) ?_)
      intro prog s5 T5 h5 e5 x5
      refine wp_bind (wp_X h5 (by tok) ?_)
      intro s6 T6 h6 e6
      refine wp_bind (wp_match h6 n (h6.live (by tok)) (h6.live (by tok)) fun b => ?_)
      refine wp_ite (fun _ => ?_) (fun _ => ?_)
      · refine wp_bind (wp_Xs h6 (by tok) ?_)
        intro s7 T7 h7 e7
        refine hev h7 (by tok) ?_
        intro r s8 T8 h8 e8
        exact k r s8 T8 h8 (by tok)
      · refine wp_bind (wp_Xs h6 (by tok) ?_)
        intro s7 T7 h7 e7
        refine ih h7 (by tok) ?_
        intro r s8 T8 h8 e8
        exact k r s8 T8 h8 (by tok)
    | _ => exact stop

theorem wp_list : ∀ (n : Nat) {Q : Addr → HSt → Prop} {s0 : HSt} {T0 : Addr → Nat} {closure a : Addr},
    Inv s0 T0 → (∀ b, ones [closure, a] b ≤ T0 b) → Post Q T0 [a] →
    wp (listH ev n closure a) Q s0 := by
  intro n
  induction n with
  | zero => intros; exact wp_oof
  | succ n ih =>
    intro Q s0 T0 closure a h0 t k
    refine wp_bind (wp_dataOf (h0.live (by tok)) fun c0 hc0 => ?_)
    refine wp_ite (fun _ => ?_) (fun _ => ?_)
    · refine wp_bind (wp_car h0 (h0.live (by tok)) ?_)
      intro car s1 T1 h1 e1 x1
      refine wp_bind (wp_cdr h1 (h1.live (by tok)) ?_)
      intro cdr s2 T2 h2 e2 x2
      refine wp_bind (wp_X h2 (by tok) ?_)
      intro s3 T3 h3 e3
      refine wp_bind (ih h3 (by tok) ?_)
      intro res s4 T4 h4 e4
      refine wp_bind (hev h4 (by tok) ?_)
      intro evl s5 T5 h5 e5
      refine wp_cons h5 (by tok) ?_
      intro r s6 T6 h6 e6 _
      exact k r s6 T6 h6 (by tok)
    · exact wp_pure (k a s0 T0 h0 (by tok))

theorem wp_stream : ∀ (n : Nat) {Q : Addr → HSt → Prop} {s0 : HSt} {T0 : Addr → Nat} {closure any expr : Addr},
    Inv s0 T0 → (∀ b, ones [closure, any, expr] b ≤ T0 b) → Post Q T0 [any, expr] →
    wp (streamH ev n closure any expr) Q s0 := by
  intro n
  induction n with
  | zero => intros; exact wp_oof
  | succ n ih =>
    intro Q s0 T0 closure any expr h0 t k
    refine wp_bind (hev h0 (by tok) ?_)
    intro res s1 T1 h1 e1
    refine wp_bind (wp_dataOf (h1.live (by tok)) fun c1 hc1 => ?_)
    refine wp_ite (fun _ => ?_) (fun _ => ?_)
    · refine wp_bind (wp_X h1 (by tok) ?_)
      intro s2 T2 h2 e2
      exact wp_pure (k res s2 T2 h2 (by tok))
    · refine wp_bind (wp_car h1 (h1.live (by tok)) ?_)
      intro car s2 T2 h2 e2 x2
      refine wp_bind (wp_cdr h2 (h2.live (by tok)) ?_)
      intro cdr s3 T3 h3 e3 x3
      refine wp_bind (wp_X h3 (by tok) ?_)
      intro s4 T4 h4 e4
      refine wp_bind (wp_mk h4 rfl ?_)
      intro q s5 T5 h5 e5 x5
      refine wp_bind (wp_cons h5 (by tok) ?_)
      intro cn0 s6 T6 h6 e6 x6
      refine wp_bind (wp_nil h6 ?_)
      intro nl s7 T7 h7 e7 x7
      refine wp_bind (wp_cons h7 (by tok) ?_)
      intro cn1 s8 T8 h8 e8 x8
      refine wp_bind (wp_cons h8 (by tok) ?_)
      intro nxt s9 T9 h9 e9 x9
      refine ih h9 (by tok) ?_
      intro r s10 T10 h10 e10
      exact k r s10 T10 h10 (by tok)

omit hev in
theorem Live.stepFr {s s' : HSt} {T : Addr → Nat} {a x y : Addr} {c : Cell} (h' : Inv s' T) (f : Fr s.next s s')
    (l' : Live s' a) (hlt : a < s.next) (hc : s.mem a = some c) (hd : c.data = .pair x y) :
    Live s' x ∧ Live s' y := by
  obtain ⟨⟨c', hc'⟩, hz⟩ := l'
  obtain ⟨c0, hc0, e⟩ := f.mem a c' hlt hc'
  rw [hc] at hc0; cases hc0
  exact ⟨h'.childCar ⟨⟨c', hc'⟩, hz⟩ (by simp) hc' (e.trans hd),
    h'.childCdr ⟨⟨c', hc'⟩, hz⟩ (by simp) hc' (e.trans hd)⟩

omit hev in
/-- The marking in `let`; the function is owned by the new environment `nxt`. -/
theorem wp_letMark {Q : Unit → HSt → Prop} {n : Nat} {s0 s1 : HSt} {T0 T1 : Addr → Nat} {tmp env arg val nxt : Addr}
    {u : UB} (h0 : Inv s0 T0) (h1 : Inv s1 T1) (f : Fr s0.next s0 s1) (larg : Live s0 arg)
    (hu : u = .useAfterFree → Live s1 arg)
    (hb : ∀ c sy, s0.mem arg = some c → c.data = .sym sy → ∃ cr kvp ck, s1.mem nxt = some cr ∧
        cr.data = .pair kvp env ∧ s1.mem kvp = some ck ∧ ck.data = .pair arg val)
    (t : ∀ b, ones [tmp, nxt] b ≤ T1 b)
    (k : ∀ s', Inv s' T1 → Q () s') : wp (letMarkH u n tmp arg val) Q s1 := by
  refine wp_bind (wp_fresh hu fun la => ?_)
  refine wp_bind (wp_dataOf la fun ca hca => ?_)
  cases hda : ca.data with
  | sym sy =>
    obtain ⟨c0, hc0, e0⟩ := f.mem arg ca (larg.lt h0) hca
    obtain ⟨cr, kvp, ck, hcr, hdr, hck, hdk⟩ := hb c0 sy hc0 (e0.symm.trans hda)
    have ln : Live s1 nxt := h1.live (by tok)
    have lk : Live s1 kvp := h1.childCar ln (by simp) hcr hdr
    have lv : Live s1 val := h1.childCdr lk (by simp) hck hdk
    refine wp_bind (wp_isFunc h1 lv fun fn => ?_)
    refine wp_ite (fun _ => ?_) (fun _ => wp_pure (k s1 h1))
    refine wp_bind (wp_assoc h1 (h1.live (by tok)) fun r hr => ?_)
    cases r with
    | some _ => exact wp_pure (k s1 h1)
    | none =>
      refine wp_bind (wp_pairOf lv fun cv args y hcv hdv => ?_)
      have ly : Live s1 y := h1.childCdr lv (by simp) hcv hdv
      refine wp_bind (wp_pairOf' h1 ly fun _ body _ lbody => ?_)
      refine wp_markTailCalls h1 lbody ?_ k
      intro s' T' h' tt f'
      have ln' : Live s' nxt := h'.live (by tok)
      have lk' := (Live.stepFr h' f' ln' (ln.lt h1) hcr hdr).1
      have lv' := (Live.stepFr h' f' lk' (lk.lt h1) hck hdk).2
      exact (Live.stepFr h' f' lv' (lv.lt h1) hcv hdv).1
  | _ => exact wp_pure (k s1 h1)

/-- If a released argument must not be read, `p` has to be owned, and the bindings have to be within its CAR. -/
theorem wp_letBind (he : ∀ N c a, Evo N (ev c a)) {u : UB} : ∀ (n : Nat) {Q : Addr → HSt → Prop} {s0 : HSt}
    {T0 : Addr → Nat} {closure env a : Addr}, Inv s0 T0 → (∀ b, ones [closure, env, a] b ≤ T0 b) →
    (u = .useAfterFree → ∃ p, (∀ b, ones [closure, env, a, p] b ≤ T0 b) ∧ (PairAt s0 a → Within s0 p a)) →
    Post Q T0 [env, a] → wp (letBindH ev u n closure env a) Q s0 := by
  intro n
  induction n with
  | zero => intros; exact wp_oof
  | succ n ih =>
    intro Q s0 T0 closure env a h0 t hu k
    have N0 := Nat.le_refl s0.next
    refine wp_bind (wp_dataOf (h0.live (by tok)) fun c0 hc0 => ?_)
    refine wp_ite (fun hp0 => ?_) (fun _ => ?_)
    · obtain ⟨x0, y0, hd0⟩ : ∃ x y, c0.data = .pair x y := by
        cases hd : c0.data with
        | pair x y => exact ⟨x, y, rfl⟩
        | _ => rw [hd] at hp0; cases hp0
      have la0 : Live s0 a := h0.live (by tok)
      have lta : a < s0.next := h0.lt hc0
      have lx0 : Live s0 x0 := h0.childCar la0 (by simp) hc0 hd0
      have ly0 : Live s0 y0 := h0.childCdr la0 (by simp) hc0 hd0
      refine wp_bind (wp_carP h0 la0 hc0 hd0 ?_)
      intro s1 T1 h1 e1 x1
      have k1 : Keep s0.next s0 s1 := x1.fr.keep N0
      obtain ⟨c1, hc1, hd1⟩ := x1.mem a c0 hc0
      rw [hd0] at hd1
      refine wp_bind (wp_cdrP h1 (h1.live (by tok)) hc1 hd1 ?_)
      intro s2 T2 h2 e2 x2
      have k2 := k1.trans (x2.fr.keep k1.next)
      refine wp_bind (wp_Xk h2 (by tok) ?_)
      intro s3 T3 h3 e3 r3
      have k3 := k2.trans ((r3.fr s0.next).keep (Nat.le_refl _))
      refine wp_bind (wp_dataOf (h3.live (by tok)) fun c3 hc3 => ?_)
      refine wp_ite (fun hp3 => ?_) (fun _ => ?_)
      · obtain ⟨cx, arg, nv, hcx, hdx⟩ := k3.pair (lx0.lt h0) hc3 hp3
        refine wp_dupMerge h3 (h3.live (by tok)) (by tok) ?_
        intro tmp s4 T4 h4 e4 f4
        have k4 := k3.trans (f4.keep k3.next)
        have lx4 : Live s4 x0 := h4.live (by tok)
        obtain ⟨_, c4, nv4, hc4, hd4⟩ := k4.car h4 (lx0.lt h0) lx4 hcx hdx
        refine wp_bind (wp_carP h4 lx4 hc4 hd4 ?_)
        intro s5 T5 h5 e5 x5
        have k5 := k4.trans (x5.fr.keep k4.next)
        refine wp_bind (wp_cdr h5 (h5.live (by tok)) ?_)
        intro nvl s6 T6 h6 e6 x6
        have k6 := k5.trans (x6.fr.keep k5.next)
        refine wp_bind (wp_Xk h6 (by tok) ?_)
        intro s7 T7 h7 e7 r7
        have k7 := k6.trans ((r7.fr s0.next).keep (Nat.le_refl _))
        refine wp_bind (wp_keep (he s0.next _ _) k7.next (hev h7 (by tok) ?_))
        intro val s8 T8 h8 e8 q8
        have k8 := k7.trans q8
        refine wp_bind (wp_bindH n h8 (by tok) ?_)
        intro nxt s9 T9 h9 e9 f9 b9
        have k9 := k8.trans (f9.keep k8.next)
        have larg : u = .useAfterFree → Live s9 arg := by
          intro hu'
          obtain ⟨p, tp, wi⟩ := hu hu'
          have lp : Live s9 p := h9.live (by tok)
          have la := ((wi ⟨c0, hc0, hp0⟩).keep h0 h9 k9 N0 lp).2
          have lx := (k9.car h9 lta la hc0 hd0).1
          exact (k9.car h9 (lx0.lt h0) lx hcx hdx).1
        refine wp_bind (wp_keep evo_letMarkH k9.next (wp_letMark h8 h9 f9 (h8.live (by tok)) larg b9 (by tok) ?_))
        intro s10 h10 q10
        have k10 := k9.trans q10
        refine wp_bind (wp_Xk h10 (by tok) ?_)
        intro s11 T11 h11 e11 r11
        have k11 := k10.trans ((r11.fr s0.next).keep (Nat.le_refl _))
        refine ih h11 (by tok) ?_ ?_
        · intro hu'
          obtain ⟨p, tp, wi⟩ := hu hu'
          refine ⟨p, by tok, ?_⟩
          rintro ⟨cy, hcy, py⟩
          obtain ⟨cy0, _, _, hcy0, hdy0⟩ := k11.pair (ly0.lt h0) hcy py
          have w0 := (wi ⟨c0, hc0, hp0⟩).step hc0 hd0 ⟨cx, hcx, by rw [hdx]; rfl⟩ ⟨cy0, hcy0, by rw [hdy0]; rfl⟩
          exact (w0.keep h0 h11 k11 N0 (h11.live (by tok))).1
        · intro r s12 T12 h12 e12
          exact k r s12 T12 h12 (by tok)
      · refine wp_bind (wp_Xs h3 (by tok) ?_)
        intro s4 T4 h4 e4
        exact wp_pure (k env s4 T4 h4 (by tok))
    · refine wp_bind (wp_X h0 (by tok) ?_)
      intro s1 T1 h1 e1
      exact wp_pure (k env s1 T1 h1 (by tok))

theorem wp_let (he : ∀ N c a, Evo N (ev c a)) {u : UB} (n : Nat) {Q : Addr → HSt → Prop} {s0 : HSt} {T0 : Addr → Nat}
    {closure a : Addr} (h0 : Inv s0 T0) (t : ∀ b, ones [closure, a] b ≤ T0 b)
    (hu : u = .useAfterFree → ∀ b, ones [closure, a, a] b ≤ T0 b) (k : Post Q T0 [a]) :
    wp (letH ev u n closure a) Q s0 := by
  refine wp_bind (wp_carC h0 (h0.live (by tok)) ?_)
  intro bind s1 T1 h1 e1 x1 v1
  have N1 := Nat.le_refl s1.next
  refine wp_bind (wp_cdr h1 (h1.live (by tok)) ?_)
  intro prog s2 T2 h2 e2 x2
  have k2 : Keep s1.next s1 s2 := x2.fr.keep N1
  refine wp_bind (wp_Xk h2 (by tok) ?_)
  intro s3 T3 h3 e3 r3
  have k3 := k2.trans ((r3.fr s1.next).keep (Nat.le_refl _))
  refine wp_bind (wp_nil h3 ?_)
  intro nl s4 T4 h4 e4 x4
  have k4 := k3.trans (x4.fr.keep k3.next)
  refine wp_bind (wp_letBind hev he n h4 (by tok) ?_ ?_)
  · intro hu'
    have ta := hu hu'
    refine ⟨a, by tok, ?_⟩
    rintro ⟨cb, hcb, pb⟩
    have lb : Live s1 bind := h1.live (by tok)
    rcases v1 with ⟨ca, y, hca, hda⟩ | v1
    · obtain ⟨ca1, hca1, hda1⟩ := x1.mem a ca hca
      have w1 : Within s1 a bind := .head hca1 (hda1.trans hda)
      exact (w1.keep h1 h4 k4 N1 (h4.live (by tok))).1
    · obtain ⟨c, _, _, hc, hd⟩ := k4.pair (lb.lt h1) hcb pb
      exact absurd ⟨c, hc, by rw [hd]; rfl⟩ v1
  intro next s5 T5 h5 e5
  refine wp_dupMerge h5 (h5.live (by tok)) (by tok) ?_
  intro clos s6 T6 h6 e6 f6
  refine wp_bind (wp_X h6 (by tok) ?_)
  intro s7 T7 h7 e7
  refine wp_bind (wp_nil h7 ?_)
  intro nl' s8 T8 h8 e8 x8
  refine wp_bind (wp_prog hev n h8 (by tok) ?_)
  intro res s9 T9 h9 e9
  refine wp_bind (wp_X h9 (by tok) ?_)
  intro s10 T10 h10 e10
  exact wp_pure (k res s10 T10 h10 (by tok))

theorem wp_while {closure cnd prg : Addr} : ∀ (n : Nat) {Q : Addr → HSt → Prop} {s0 : HSt} {T0 : Addr → Nat}
    {res : Addr}, Inv s0 T0 → (∀ b, ones [closure, cnd, prg, res] b ≤ T0 b) → Post Q T0 [res] →
    wp (whileH ev closure cnd prg n res) Q s0 := by
  intro n
  induction n with
  | zero => intros; exact wp_oof
  | succ n ih =>
    intro Q s0 T0 res h0 t k
    refine wp_bind (wp_up h0 (h0.live (by tok)) ?_)
    intro s1 T1 h1 e1 x1
    refine wp_bind (hev h1 (by tok) ?_)
    intro evl s2 T2 h2 e2
    refine wp_bind (wp_dataOf (h2.live (by tok)) fun c2 hc2 => ?_)
    refine wp_bind (wp_X h2 (by tok) ?_)
    intro s3 T3 h3 e3
    refine wp_ite (fun _ => ?_) (fun _ => ?_)
    · exact wp_pure (k res s3 T3 h3 (by tok))
    · refine wp_bind (wp_X h3 (by tok) ?_)
      intro s4 T4 h4 e4
      refine wp_bind (wp_up h4 (h4.live (by tok)) ?_)
      intro s5 T5 h5 e5 x5
      refine wp_bind (wp_nil h5 ?_)
      intro nl s6 T6 h6 e6 x6
      refine wp_bind (wp_prog hev n h6 (by tok) ?_)
      intro r' s7 T7 h7 e7
      refine ih h7 (by tok) ?_
      intro r s8 T8 h8 e8
      exact k r s8 T8 h8 (by tok)

omit hev in
theorem wp_sep {Q : Unit → HSt → Prop} {s : HSt} {T : Addr → Nat} {b : Bool} (h : Inv s T)
    (k : ∀ s', Inv s' T → Ext s s' → Q () s') : wp (sepH b) Q s :=
  wp_ite (fun _ => wp_emit h k) (fun _ => wp_pure (k s h (Ext.refl s)))

theorem wp_prinAll {q : Bool} : ∀ (n : Nat) {Q : Addr → HSt → Prop} {s0 : HSt} {T0 : Addr → Nat}
    {closure a result : Addr}, Inv s0 T0 → (∀ b, ones [closure, a, result] b ≤ T0 b) → Post Q T0 [a, result] →
    wp (prinAllH ev q n closure a result) Q s0 := by
  intro n
  induction n with
  | zero => intros; exact wp_oof
  | succ n ih =>
    intro Q s0 T0 closure a result h0 t k
    refine wp_bind (wp_dataOf (h0.live (by tok)) fun c0 hc0 => ?_)
    refine wp_ite (fun _ => ?_) (fun _ => ?_)
    · refine wp_bind (wp_X h0 (by tok) ?_)
      intro s1 T1 h1 e1
      exact wp_pure (k result s1 T1 h1 (by tok))
    · refine wp_bind (wp_X h0 (by tok) ?_)
      intro s1 T1 h1 e1
      refine wp_bind (wp_car h1 (h1.live (by tok)) ?_)
      intro e s2 T2 h2 e2 x2
      refine wp_bind (hev h2 (by tok) ?_)
      intro car s3 T3 h3 e3
      refine wp_bind (wp_cdr h3 (h3.live (by tok)) ?_)
      intro cdr s4 T4 h4 e4 x4
      refine wp_bind (wp_X h4 (by tok) ?_)
      intro s5 T5 h5 e5
      refine wp_bind (wp_prin h5 (h5.live (by tok)) ?_)
      intro s6 h6 _
      refine wp_bind (wp_dataOf (h6.live (by tok)) fun c6 _ => ?_)
      refine wp_bind (wp_sep h6 ?_)
      intro s7 h7 _
      refine ih h7 (by tok) ?_
      intro r s8 T8 h8 e8
      exact k r s8 T8 h8 (by tok)

omit hev in
theorem wp_doc {Q : Addr → HSt → Prop} {s0 : HSt} {T0 : Addr → Nat} {prog : Addr}
    (h0 : Inv s0 T0) (t : ∀ b, ones [prog] b ≤ T0 b) (k : Post Q T0 [prog]) :
    wp (docH prog) Q s0 := by
  refine wp_bind (wp_car h0 (h0.live (by tok)) ?_)
  intro doc s1 T1 h1 e1 x1
  have ld : Live s1 doc := h1.live (by tok)
  have same : wp (do X doc; pure prog) Q s1 := by
    refine wp_bind (wp_X h1 (by tok) ?_)
    intro s2 T2 h2 e2
    exact wp_pure (k prog s2 T2 h2 (by tok))
  refine wp_bind (wp_dataOf (h1.live (by tok)) fun c1 hc1 => ?_)
  cases hd : c1.data with
  | pair x y =>
    refine wp_bind (wp_dataOf (h1.childCar ld (by simp) hc1 hd) fun cx _ => ?_)
    refine wp_ite (fun _ => ?_) (fun _ => same)
    refine wp_bind (wp_cdr h1 (h1.live (by tok)) ?_)
    intro nxt s2 T2 h2 e2 x2
    refine wp_bind (wp_X h2 (by tok) ?_)
    intro s3 T3 h3 e3
    refine wp_bind (wp_X h3 (by tok) ?_)
    intro s4 T4 h4 e4
    exact wp_pure (k nxt s4 T4 h4 (by tok))
  | _ => exact same

omit hev in
theorem wp_def (n : Nat) {Q : Addr → HSt → Prop} {s0 : HSt} {T0 : Addr → Nat} {full any : Addr}
    (h0 : Inv s0 T0) (lf : Live s0 full) (l : Live s0 any) (k : Post Q T0 []) : wp (defH n full any) Q s0 := by
  refine wp_bind (wp_lone h0 lf l fun p => ?_)
  refine wp_bind (wp_car h0 (l) ?_)
  intro symb s1 T1 h1 e1 x1
  refine wp_bind (wp_dataOf (h1.live (by tok)) fun c1 hc1 => ?_)
  cases c1.data with
  | sym sy =>
    refine wp_bind (wp_cdr h1 (l.ext x1) ?_)
    intro cdr0 s2 T2 h2 e2 x2
    refine wp_bind (wp_car h2 (h2.live (by tok)) ?_)
    intro args s3 T3 h3 e3 x3
    refine wp_bind (wp_dataOf (h3.live (by tok)) fun c3 hc3 => ?_)
    refine wp_ite (fun _ => ?_) (fun _ => ?_)
    · refine wp_bind (wp_cdr h3 (h3.live (by tok)) ?_)
      intro prog0 s4 T4 h4 e4 x4
      refine wp_bind (wp_X h4 (by tok) ?_)
      intro s5 T5 h5 e5
      refine wp_bind (wp_doc h5 (by tok) ?_)
      intro prog s6 T6 h6 e6
      refine wp_bind (wp_markTailCalls h6 (h6.live (by tok)) ?_ ?_)
      · intro s' T' h' tt _
        exact h'.live (by tok)
      · intro s7 h7
        refine wp_bind (wp_nil h7 ?_)
        intro nl s8 T8 h8 e8 x8
        refine wp_bind (wp_cons h8 (by tok) ?_)
        intro con0 s9 T9 h9 e9 x9
        refine wp_bind (wp_cons h9 (by tok) ?_)
        intro con1 s10 T10 h10 e10 x10
        refine wp_bind (wp_up h10 (h10.live (by tok)) ?_)
        intro s11 T11 h11 e11 x11
        refine wp_bind (wp_cons h11 (by tok) ?_)
        intro elt s12 T12 h12 e12 x12
        refine wp_bind (wp_setq h12 (by tok) ?_)
        intro s13 T13 h13 e13
        exact wp_pure (k symb s13 T13 h13 (by tok))
    · refine wp_bind (wp_Xs h3 (by tok) ?_)
      intro s4 T4 h4 e4
      refine wp_nil h4 ?_
      intro r s5 T5 h5 e5 _
      exact k r s5 T5 h5 (by tok)
  | _ =>
    refine wp_bind (wp_leak h1 (by tok) ?_)
    intro s2 T2 h2 e2 _
    refine wp_nil h2 ?_
    intro r s3 T3 h3 e3 _
    exact k r s3 T3 h3 (by tok)

theorem wp_set {u : UB} (n : Nat) {Q : Addr → HSt → Prop} {s0 : HSt} {T0 : Addr → Nat} {c any : Addr}
    (h0 : Inv s0 T0) (l : Live s0 any) (t : ∀ b, ones [c] b ≤ T0 b)
    (hu : u = .useAfterFree → ∀ b, ones [c, any] b ≤ T0 b) (k : Post Q T0 []) : wp (setH ev u n c any) Q s0 := by
  refine wp_bind (wp_car h0 (l) ?_)
  intro a0 s1 T1 h1 e1 x1
  refine wp_bind (hev h1 (by tok) ?_)
  intro sym s2 T2 h2 e2
  refine wp_bind (wp_fresh (fun hu' => ?_) fun l2 => ?_)
  · have ta := hu hu'
    exact h2.live (by tok)
  refine wp_bind (wp_cdr h2 (l2) ?_)
  intro cdr s3 T3 h3 e3 x3
  refine wp_bind (wp_car h3 (h3.live (by tok)) ?_)
  intro a1 s4 T4 h4 e4 x4
  refine wp_bind (wp_leak h4 (by tok) ?_)
  intro s5 T5 h5 e5 _
  refine wp_bind (hev h5 (by tok) ?_)
  intro val s6 T6 h6 e6
  refine wp_assign h6 (h6.live (by tok)) (by tok) ?_
  intro r s7 T7 h7 e7
  exact k r s7 T7 h7 (by tok)

theorem wp_setqNat {Q : Addr → HSt → Prop} {s0 : HSt} {T0 : Addr → Nat} {c any : Addr}
    (h0 : Inv s0 T0) (l : Live s0 any) (t : ∀ b, ones [c] b ≤ T0 b) (k : Post Q T0 []) :
    wp (setqNatH ev c any) Q s0 := by
  refine wp_bind (wp_car h0 (l) ?_)
  intro sym s1 T1 h1 e1 x1
  refine wp_bind (wp_cdr h1 (l.ext x1) ?_)
  intro cdr s2 T2 h2 e2 x2
  refine wp_bind (wp_car h2 (h2.live (by tok)) ?_)
  intro a1 s3 T3 h3 e3 x3
  refine wp_bind (hev h3 (by tok) ?_)
  intro res s4 T4 h4 e4
  refine wp_bind (wp_X h4 (by tok) ?_)
  intro s5 T5 h5 e5
  refine wp_bind (wp_dataOf (h5.live (by tok)) fun c5 hc5 => ?_)
  refine wp_ite (fun _ => ?_) (fun _ => ?_)
  · refine wp_bind (wp_X h5 (by tok) ?_)
    intro s6 T6 h6 e6
    exact wp_pure (k res s6 T6 h6 (by tok))
  · refine wp_bind (wp_up h5 (h5.live (by tok)) ?_)
    intro s6 T6 h6 e6 x6
    refine wp_bind (wp_cons h6 (by tok) ?_)
    intro elt s7 T7 h7 e7 x7
    refine wp_bind (wp_setq h7 (by tok) ?_)
    intro s8 T8 h8 e8
    exact wp_pure (k res s8 T8 h8 (by tok))

theorem wp_or {Q : Addr → HSt → Prop} {s0 : HSt} {T0 : Addr → Nat} {c any : Addr}
    (h0 : Inv s0 T0) (l : Live s0 any) (t : ∀ b, ones [c] b ≤ T0 b) (k : Post Q T0 []) :
    wp (orH ev c any) Q s0 := by
  refine wp_bind (wp_car h0 (l) ?_)
  intro ar0 s1 T1 h1 e1 x1
  refine wp_bind (wp_cdr h1 (l.ext x1) ?_)
  intro cdr s2 T2 h2 e2 x2
  refine wp_bind (wp_car h2 (h2.live (by tok)) ?_)
  intro ar1 s3 T3 h3 e3 x3
  refine wp_bind (wp_X h3 (by tok) ?_)
  intro s4 T4 h4 e4
  refine wp_bind (hev h4 (by tok) ?_)
  intro ra0 s5 T5 h5 e5
  refine wp_bind (wp_dataOf (h5.live (by tok)) fun c5 hc5 => ?_)
  refine wp_ite (fun _ => ?_) (fun _ => ?_)
  · refine wp_bind (wp_X h5 (by tok) ?_)
    intro s6 T6 h6 e6
    refine wp_bind (hev h6 (by tok) ?_)
    intro ra1 s7 T7 h7 e7
    refine wp_bind (wp_dataOf (h7.live (by tok)) fun c7 hc7 => ?_)
    refine wp_ite (fun _ => ?_) (fun _ => ?_)
    · exact wp_pure (k ra1 s7 T7 h7 (by tok))
    · refine wp_bind (wp_X h7 (by tok) ?_)
      intro s8 T8 h8 e8
      refine wp_true h8 ?_
      intro r s9 T9 h9 e9 _
      exact k r s9 T9 h9 (by tok)
  · refine wp_bind (wp_Xs h5 (by tok) ?_)
    intro s6 T6 h6 e6
    refine wp_true h6 ?_
    intro r s7 T7 h7 e7 _
    exact k r s7 T7 h7 (by tok)

omit hev

theorem wp_ofAtom {Q : Addr → HSt → Prop} {s0 : HSt} {T0 : Addr → Nat} {v : Val} (h0 : Inv s0 T0)
    (k : Post Q T0 []) : wp (ofAtom v) Q s0 := by
  have mk : ∀ d : Data, d.isPair = false → wp (alloc d) Q s0 := by
    intro d hd
    refine wp_mk h0 hd ?_
    intro r s1 T1 h1 e1 _
    exact k r s1 T1 h1 (by tok)
  cases v with
  | pair => exact wp_unsupported
  | wild => exact wp_unsupported
  | _ => exact mk _ rfl

theorem wp_boolP {Q : Addr → HSt → Prop} {s0 : HSt} {T0 : Addr → Nat} {v : Bool} (h0 : Inv s0 T0)
    (k : Post Q T0 []) : wp (mkBool v) Q s0 := by
  refine wp_bool h0 ?_
  intro r s1 T1 h1 e1 _
  exact k r s1 T1 h1 (by tok)

theorem wp_mkP {Q : Addr → HSt → Prop} {s0 : HSt} {T0 : Addr → Nat} {d : Data} (h0 : Inv s0 T0)
    (hd : d.isPair = false) (k : Post Q T0 []) : wp (alloc d) Q s0 := by
  refine wp_mk h0 hd ?_
  intro r s1 T1 h1 e1 _
  exact k r s1 T1 h1 (by tok)

theorem store_ne {cap : Nat} {l : List UInt8} : store cap l ≠ .ub .useAfterFree := by
  unfold store
  split <;> intro e <;> cases e

theorem wp_symNat (n : Nat) {Q : Addr → HSt → Prop} {s0 : HSt} {T0 : Addr → Nat} {x : Addr}
    (h0 : Inv s0 T0) (l : Live s0 x) (k : Post Q T0 []) : wp (symNatH n x) Q s0 := by
  refine wp_bind (wp_isString h0 n l fun b => ?_)
  refine wp_ite (fun _ => ?_) (fun _ => wp_mkP h0 rfl k)
  refine wp_bind (wp_cstring h0 n l fun r => ?_)
  refine wp_bind (wp_lift store_ne fun _ _ => ?_)
  exact wp_ite (fun _ => wp_mkP h0 rfl k) (fun _ => wp_mkP h0 rfl k)

theorem wp_unary (n : Nat) {Q : Addr → HSt → Prop} {s0 : HSt} {T0 : Addr → Nat} {op : Native} {x : Addr}
    (h0 : Inv s0 T0) (l : Live s0 x) (k : Post Q T0 []) : wp (unaryH n op x) Q s0 := by
  refine wp_bind (wp_dataOf l fun c hc => ?_)
  cases op with
  | car =>
    refine wp_car h0 l ?_
    intro r s1 T1 h1 e1 _
    exact k r s1 T1 h1 (by tok)
  | cdr =>
    refine wp_cdr h0 l ?_
    intro r s1 T1 h1 e1 _
    exact k r s1 T1 h1 (by tok)
  | chr => exact wp_bind (wp_lift (Data.number_ne _) fun _ _ => wp_mkP h0 rfl k)
  | len =>
    exact wp_ite (fun _ => wp_bind (wp_len h0 n l fun _ => wp_mkP h0 rfl k)) (fun _ => wp_mkP h0 rfl k)
  | isatm => exact wp_boolP h0 k
  | ischr => exact wp_boolP h0 k
  | islst => exact wp_boolP h0 k
  | isnil => exact wp_boolP h0 k
  | isnum => exact wp_boolP h0 k
  | isstr => exact wp_bind (wp_isString h0 n l fun _ => wp_boolP h0 k)
  | issym => exact wp_boolP h0 k
  | istru => exact wp_boolP h0 k
  | not => exact wp_boolP h0 k
  | str =>
    simp only
    cases c.data.tag with
    | some s =>
      refine wp_makeString h0 ?_
      intro r s1 T1 h1 e1
      exact k r s1 T1 h1 (by tok)
    | none => exact wp_ub (by simp)
  | sym => exact wp_ite (fun _ => wp_symNat n h0 l k) (fun _ => wp_mkP h0 rfl k)
  | _ => exact wp_unsupported

theorem arith_ne (z : Int) : arith z ≠ .ub .useAfterFree := by
  unfold arith
  split <;> intro e <;> cases e

theorem mathV_ne (op : Native) (x y : Val) : mathV op x y ≠ .ub .useAfterFree := by
  unfold mathV
  refine Res.ne_bind ?_ fun a => Res.ne_bind ?_ fun b => ?_
  · cases x <;> simp [Val.number]
  · cases y <;> simp [Val.number]
  · repeat' split
    all_goals first | exact arith_ne _ | (intro e; cases e)

theorem compareV_ne (op : Native) (x y : Val) : compareV op x y ≠ .ub .useAfterFree := by
  unfold compareV
  refine Res.ne_bind ?_ fun a => Res.ne_bind ?_ fun b => ?_
  · cases x <;> simp [Val.number]
  · cases y <;> simp [Val.number]
  · repeat' split
    all_goals (intro e; cases e)

theorem wp_binary (n : Nat) {Q : Addr → HSt → Prop} {s0 : HSt} {T0 : Addr → Nat} {op : Native} {x y : Addr}
    (h0 : Inv s0 T0) (lx : Live s0 x) (ly : Live s0 y) (k : Post Q T0 []) : wp (binaryH n op x y) Q s0 := by
  refine wp_bind (wp_dataOf lx fun cx _ => ?_)
  refine wp_bind (wp_dataOf ly fun cy _ => ?_)
  have math : wp (do
      let a ← HM.lift cx.data.number
      let b ← HM.lift cy.data.number
      let v ← HM.lift (mathV op (.num a) (.num b))
      ofAtom v) Q s0 :=
    wp_bind (wp_lift (Data.number_ne _) fun _ _ => wp_bind (wp_lift (Data.number_ne _) fun _ _ =>
      wp_bind (wp_lift (mathV_ne _ _ _) fun _ _ => wp_ofAtom h0 k)))
  have comp : wp (do
      let a ← HM.lift cx.data.number
      let b ← HM.lift cy.data.number
      let v ← HM.lift (compareV op (.num a) (.num b))
      ofAtom v) Q s0 :=
    wp_bind (wp_lift (Data.number_ne _) fun _ _ => wp_bind (wp_lift (Data.number_ne _) fun _ _ =>
      wp_bind (wp_lift (compareV_ne _ _ _) fun _ _ => wp_ofAtom h0 k)))
  cases op with
  | cons =>
    refine wp_bind (wp_up h0 (lx) ?_)
    intro s1 T1 h1 e1 x1
    refine wp_bind (wp_up h1 (ly.ext x1) ?_)
    intro s2 T2 h2 e2 _
    refine wp_cons h2 (by tok) ?_
    intro r s3 T3 h3 e3 _
    exact k r s3 T3 h3 (by tok)
  | conc =>
    refine wp_bind (wp_guard ?_)
    refine wp_bind (wp_up h0 (lx) ?_)
    intro s1 T1 h1 e1 x1
    refine wp_bind (wp_up h1 (ly.ext x1) ?_)
    intro s2 T2 h2 e2 _
    refine wp_conc h2 (by tok) ?_
    intro r s3 T3 h3 e3
    exact k r s3 T3 h3 (by tok)
  | equ => exact wp_bind (wp_equ h0 n lx ly fun _ => wp_boolP h0 k)
  | neq => exact wp_bind (wp_neq h0 n lx ly fun _ => wp_boolP h0 k)
  | and => exact wp_boolP h0 k
  | add => exact math
  | sub => exact math
  | mul => exact math
  | div => exact math
  | mod => exact math
  | lt => exact comp
  | le => exact comp
  | gt => exact comp
  | ge => exact comp
  | _ => exact wp_unsupported

include hev

theorem wp_nativeAny (he : ∀ N c a, Evo N (ev c a)) (n : Nat) {Q : Addr → HSt → Prop} {s0 : HSt} {T0 : Addr → Nat} {op : Native} {full c any : Addr}
    (h0 : Inv s0 T0) (l : Live s0 any) (t : ∀ b, ones [full, c] b ≤ T0 b) (k : Post Q T0 []) :
    wp (nativeAnyH n ev op .staleArg full c any) Q s0 := by
  have pr : ∀ q (fin : Addr → HM Addr), (∀ {r s1 T1}, Inv s1 T1 → (∀ b, T1 b = T0 b + one r b) → wp (fin r) Q s1) →
      wp (do up any; let nl ← mkNil; let r ← prinAllH ev q n c any nl; fin r) Q s0 := by
    intro q fin hfin
    refine wp_bind (wp_up h0 (l) ?_)
    intro s1 T1 h1 e1 x1
    refine wp_bind (wp_nil h1 ?_)
    intro nl s2 T2 h2 e2 x2
    refine wp_bind (wp_prinAll hev n h2 (by tok) ?_)
    intro r s3 T3 h3 e3
    exact hfin h3 (by tok)
  have pr1 : ∀ q, wp (do up any; let nl ← mkNil; prinAllH ev q n c any nl) Q s0 := by
    intro q
    refine wp_bind (wp_up h0 (l) ?_)
    intro s1 T1 h1 e1 x1
    refine wp_bind (wp_nil h1 ?_)
    intro nl s2 T2 h2 e2 x2
    refine wp_prinAll hev n h2 (by tok) ?_
    intro r s3 T3 h3 e3
    exact k r s3 T3 h3 (by tok)
  have nlf : ∀ {r : Addr} {s1 : HSt} {T1 : Addr → Nat}, Inv s1 T1 → (∀ b, T1 b = T0 b + one r b) →
      wp (do emitH [10]; pure r) Q s1 := by
    intro r s1 T1 h1 e1
    refine wp_bind (wp_emit h1 ?_)
    intro s2 h2 _
    exact wp_pure (k r s2 T1 h2 (by tok))
  cases op with
  | cond =>
    refine wp_bind (wp_car h0 (l) ?_)
    intro car s1 T1 h1 e1 x1
    refine wp_bind (wp_cdr h1 (l.ext x1) ?_)
    intro cdr s2 T2 h2 e2 x2
    refine wp_cond hev n h2 (by tok) ?_
    intro r s3 T3 h3 e3
    exact k r s3 T3 h3 (by tok)
  | def_ => exact wp_def n (full := full) h0 (h0.live (by tok)) l k
  | lambda =>
    refine wp_bind (wp_car h0 (l) ?_)
    intro args s1 T1 h1 e1 x1
    refine wp_bind (wp_cdr h1 (l.ext x1) ?_)
    intro prog s2 T2 h2 e2 x2
    refine wp_bind (wp_dup n h2 (h2.live (by tok)) ?_)
    intro clos s3 T3 h3 e3 _ _
    refine wp_bind (wp_cons h3 (by tok) ?_)
    intro con0 s4 T4 h4 e4 x4
    refine wp_cons h4 (by tok) ?_
    intro r s5 T5 h5 e5 _
    exact k r s5 T5 h5 (by tok)
  | let_ =>
    refine wp_bind (wp_up h0 (l) ?_)
    intro s1 T1 h1 e1 x1
    refine wp_let hev he n h1 (by tok) (fun x => by cases x) ?_
    intro r s2 T2 h2 e2
    exact k r s2 T2 h2 (by tok)
  | list =>
    refine wp_bind (wp_up h0 (l) ?_)
    intro s1 T1 h1 e1 x1
    refine wp_list hev n h1 (by tok) ?_
    intro r s2 T2 h2 e2
    exact k r s2 T2 h2 (by tok)
  | match_ =>
    refine wp_bind (wp_car h0 (l) ?_)
    intro a0 s1 T1 h1 e1 x1
    refine wp_bind (hev h1 (by tok) ?_)
    intro car s2 T2 h2 e2
    refine wp_bind (wp_fresh (fun x => by cases x) fun l2 => ?_)
    refine wp_bind (wp_cdr h2 (l2) ?_)
    intro cdr s3 T3 h3 e3 x3
    refine wp_matchLoop hev n h3 (by tok) ?_
    intro r s4 T4 h4 e4
    exact k r s4 T4 h4 (by tok)
  | prog =>
    refine wp_bind (wp_up h0 (l) ?_)
    intro s1 T1 h1 e1 x1
    refine wp_bind (wp_nil h1 ?_)
    intro nl s2 T2 h2 e2 x2
    refine wp_prog hev n h2 (by tok) ?_
    intro r s3 T3 h3 e3
    exact k r s3 T3 h3 (by tok)
  | quote =>
    refine wp_bind (wp_up h0 (l) ?_)
    intro s1 T1 h1 e1 x1
    exact wp_pure (k any s1 T1 h1 (by tok))
  | set => exact wp_set hev n h0 l (by tok) (fun x => by cases x) k
  | setq => exact wp_setqNat hev h0 l (by tok) k
  | stream =>
    refine wp_bind (wp_car h0 (l) ?_)
    intro car s1 T1 h1 e1 x1
    refine wp_bind (wp_cdr h1 (l.ext x1) ?_)
    intro cdr s2 T2 h2 e2 x2
    refine wp_stream hev n h2 (by tok) ?_
    intro r s3 T3 h3 e3
    exact k r s3 T3 h3 (by tok)
  | while_ =>
    refine wp_bind (wp_car h0 (l) ?_)
    intro cnd s1 T1 h1 e1 x1
    refine wp_bind (wp_cdr h1 (l.ext x1) ?_)
    intro prg s2 T2 h2 e2 x2
    refine wp_bind (wp_nil h2 ?_)
    intro nl s3 T3 h3 e3 x3
    refine wp_bind (wp_while hev n h3 (by tok) ?_)
    intro res s4 T4 h4 e4
    refine wp_bind (wp_Xs h4 (by tok) ?_)
    intro s5 T5 h5 e5
    exact wp_pure (k res s5 T5 h5 (by tok))
  | or => exact wp_or hev h0 l (by tok) k
  | prin => exact pr1 false
  | prinl => exact pr false (fun r => do emitH [10]; pure r) nlf
  | print => exact pr1 true
  | printl => exact pr true (fun r => do emitH [10]; pure r) nlf
  | _ => exact wp_unsupported

theorem wp_nativeRem (n : Nat) {Q : Addr → HSt → Prop} {s0 : HSt} {T0 : Addr → Nat} {op : Native} {c cnd rem : Addr}
    (h0 : Inv s0 T0) (lc : Live s0 cnd) (l : Live s0 rem) (t : ∀ b, ones [c] b ≤ T0 b) (k : Post Q T0 []) :
    wp (nativeRemH n ev op c cnd rem) Q s0 := by
  refine wp_bind (wp_dataOf lc fun cc _ => ?_)
  have run : wp (do up rem; let nl ← mkNil; progH ev n c rem nl) Q s0 := by
    refine wp_bind (wp_up h0 (l) ?_)
    intro s1 T1 h1 e1 x1
    refine wp_bind (wp_nil h1 ?_)
    intro nl s2 T2 h2 e2 x2
    refine wp_prog hev n h2 (by tok) ?_
    intro r s3 T3 h3 e3
    exact k r s3 T3 h3 (by tok)
  cases op with
  | if_ =>
    refine wp_ite (fun _ => ?_) (fun _ => ?_)
    · refine wp_bind (wp_cdr h0 (l) ?_)
      intro cd1 s1 T1 h1 e1 x1
      refine wp_bind (wp_car h1 (h1.live (by tok)) ?_)
      intro els s2 T2 h2 e2 x2
      refine wp_bind (wp_X h2 (by tok) ?_)
      intro s3 T3 h3 e3
      refine hev h3 (by tok) ?_
      intro r s4 T4 h4 e4
      exact k r s4 T4 h4 (by tok)
    · refine wp_bind (wp_car h0 (l) ?_)
      intro thn s1 T1 h1 e1 x1
      refine hev h1 (by tok) ?_
      intro r s2 T2 h2 e2
      exact k r s2 T2 h2 (by tok)
  | when_ => exact wp_ite (fun _ => wp_mkP h0 rfl k) (fun _ => run)
  | unless_ => exact wp_ite (fun _ => run) (fun _ => wp_mkP h0 rfl k)
  | _ => exact wp_unsupported

omit hev in
theorem wp_expect {Q : Unit → HSt → Prop} {s : HSt} {c closure : Addr} (k : c = closure → Q () s) :
    wp (expectEnv c closure) Q s :=
  wp_ite (fun e => wp_pure (k e)) (fun _ => wp_unsupported)

theorem wp_callNative (he : ∀ N c a, Evo N (ev c a)) (hl : ∀ H c a, Blind H (ev c a)) (n : Nat) {Q : Addr → HSt → Prop} {s0 : HSt} {T0 : Addr → Nat} {op : Native}
    {clos closure : Addr} (h0 : Inv s0 T0) (t : ∀ b, ones [clos, closure] b ≤ T0 b) (k : Post Q T0 []) :
    wp (callNativeH n ev op clos closure) Q s0 := by
  have lc : Live s0 clos := h0.live (by tok)
  unfold callNativeH
  cases op.shape with
  | one =>
    refine wp_bind (wp_pop h0 lc fun x c lx _ => ?_)
    refine wp_bind (wp_expect fun e => ?_)
    subst e
    refine wp_ite (fun _ => ?_) (fun _ => wp_unary n h0 lx k)
    refine wp_bind (wp_up h0 (lx) ?_)
    intro s1 T1 h1 e1 x1
    refine hev h1 (by tok) ?_
    intro r s2 T2 h2 e2
    exact k r s2 T2 h2 (by tok)
  | two =>
    refine wp_bind (wp_pop h0 lc fun y c ly lc1 => ?_)
    refine wp_bind (wp_pop h0 lc1 fun x c lx _ => ?_)
    refine wp_bind (wp_expect fun e => ?_)
    exact wp_binary n h0 lx ly k
  | any =>
    refine wp_bind (wp_bind (wp_pairOf lc fun cf kv c hf df => ?_))
    have lk : Live s0 kv := h0.childCar lc (by simp) hf df
    refine wp_bind (wp_pairOf lk fun ck ky any hk dk => ?_)
    have la : Live s0 any := h0.childCdr lk (by simp) hk dk
    refine wp_pure ?_
    refine wp_bind (wp_expect fun e => ?_)
    subst e
    have st := wp_nativeAny hev he n (op := op) h0 la (by tok) k
    refine wp_bind (wp_bind (wp_cell lc fun cf' hf' => ?_))
    rw [hf] at hf'; cases hf'
    refine wp_bind (wp_pairOf lc fun cf' kv' c' hf' df' => ?_)
    rw [hf] at hf'; cases hf'
    rw [df] at df'; cases df'
    refine wp_bind (wp_cell lk fun ck' hk' => ?_)
    rw [hk] at hk'; cases hk'
    refine wp_pure ?_
    split
    · rename_i hr
      cases op with
      | let_ =>
        refine wp_own (m' := nativeAnyH n ev .let_ .staleArg clos c any) (fun H => loc_nativeAnyH (hl H))
          (.seq fun _ => .let_) h0 (by tok) hf hr.1 df hk hr.2 dk ?_ st
        intro s1 T1 h1 e1
        refine wp_bind (wp_up h1 (h1.live (by tok)) ?_)
        intro s2 T2 h2 e2 _
        exact wp_let hev he n h2 (by tok) (fun _ => by tok) (fun _ _ _ _ _ => trivial)
      | set =>
        refine wp_own (m' := nativeAnyH n ev .set .staleArg clos c any) (fun H => loc_nativeAnyH (hl H))
          .set h0 (by tok) hf hr.1 df hk hr.2 dk ?_ st
        intro s1 T1 h1 e1
        exact wp_set hev n h1 (h1.live (by tok)) (by tok) (fun _ => by tok) (fun _ _ _ _ _ => trivial)
      | _ => exact st
    · exact st
  | rem =>
    refine wp_bind (wp_pop h0 lc fun rem c lr lc1 => ?_)
    refine wp_bind (wp_pop h0 lc1 fun cnd c lx _ => ?_)
    refine wp_bind (wp_expect fun e => ?_)
    subst e
    exact wp_nativeRem hev n h0 lx lr (by tok) k
  | none => exact wp_unsupported

omit hev in
theorem wp_nativeClos (n : Nat) {Q : Addr → HSt → Prop} {s0 : HSt} {T0 : Addr → Nat} {closure bscl dscl : Addr}
    (h0 : Inv s0 T0) (t : ∀ b, ones [closure, bscl, dscl] b ≤ T0 b) (k : Post Q T0 [bscl, dscl]) :
    wp (nativeClosH n closure bscl dscl) Q s0 := by
  refine wp_bind (wp_dataOf (h0.live (by tok)) fun c0 hc0 => ?_)
  refine wp_ite (fun _ => ?_) (fun _ => ?_)
  · refine wp_bind (wp_up h0 (h0.live (by tok)) ?_)
    intro s1 T1 h1 e1 x1
    refine wp_bind (wp_conc h1 (by tok) ?_)
    intro clos s2 T2 h2 e2
    refine wp_bind (wp_X h2 (by tok) ?_)
    intro s3 T3 h3 e3
    exact wp_pure (k clos s3 T3 h3 (by tok))
  · refine wp_bind (wp_dup n h0 (h0.live (by tok)) ?_)
    intro d0 s1 T1 h1 e1 _ _
    refine wp_bind (wp_conc h1 (by tok) ?_)
    intro c1 s2 T2 h2 e2
    refine wp_bind (wp_up h2 (h2.live (by tok)) ?_)
    intro s3 T3 h3 e3 x3
    refine wp_bind (wp_conc h3 (by tok) ?_)
    intro clos s4 T4 h4 e4
    refine wp_bind (wp_X h4 (by tok) ?_)
    intro s5 T5 h5 e5
    exact wp_pure (k clos s5 T5 h5 (by tok))

theorem wp_apply (he : ∀ N c a, Evo N (ev c a)) (hl : ∀ H c a, Blind H (ev c a)) (n : Nat) {Q : Addr → HSt → Prop} {s0 : HSt} {T0 : Addr → Nat}
    {closure symb dscl body bscl narg : Addr} (h0 : Inv s0 T0)
    (t : ∀ b, ones [closure, symb, dscl, body, bscl, narg] b ≤ T0 b)
    (k : Post Q T0 [dscl, body, bscl, narg]) : wp (applyH n ev closure symb dscl body bscl narg) Q s0 := by
  have fn : wp (do
      let cs ← cell symb
      if cs.tc then do
        up symb
        let rslt ← consH symb bscl
        setTail rslt
        Xs [body, dscl, narg]
        pure rslt
      else do
        let d0 ← dupH n closure
        let cls0 ← mergeH n d0 dscl
        X dscl
        let (rslt, bscl') ← tailLoopH ev symb body cls0 n bscl
        Xs [body, bscl', narg, cls0]
        pure rslt) Q s0 := by
    refine wp_bind (wp_cell (h0.live (by tok)) fun cs _ => ?_)
    refine wp_ite (fun _ => ?_) (fun _ => ?_)
    · refine wp_bind (wp_up h0 (h0.live (by tok)) ?_)
      intro s1 T1 h1 e1 x1
      refine wp_bind (wp_cons h1 (by tok) ?_)
      intro rslt s2 T2 h2 e2 x2
      refine wp_bind (wp_setTail h2 (h2.live (by tok)) ?_)
      intro s3 h3 _
      refine wp_bind (wp_Xs h3 (by tok) ?_)
      intro s4 T4 h4 e4
      exact wp_pure (k rslt s4 T4 h4 (by tok))
    · refine wp_dupMerge h0 (h0.live (by tok)) (by tok) ?_
      intro cls0 s1 T1 h1 e1 f1
      refine wp_bind (wp_X h1 (by tok) ?_)
      intro s2 T2 h2 e2
      refine wp_bind (wp_tailLoop hev n h2 (by tok) ?_)
      rintro ⟨rslt, bscl'⟩ s3 T3 h3 e3
      simp only at e3
      refine wp_bind (wp_Xs h3 (by tok) ?_)
      intro s4 T4 h4 e4
      exact wp_pure (k rslt s4 T4 h4 (by tok))
  refine wp_bind (wp_dataOf (h0.live (by tok)) fun c0 hc0 => ?_)
  cases c0.data with
  | num a =>
    refine wp_bind (wp_nativeClos n h0 (by tok) ?_)
    intro clos s1 T1 h1 e1
    cases nativeOfAddr a with
    | some op =>
      refine wp_bind (wp_callNative hev he hl n h1 (by tok) ?_)
      intro rslt s2 T2 h2 e2
      refine wp_bind (wp_Xs h2 (by tok) ?_)
      intro s3 T3 h3 e3
      exact wp_pure (k rslt s3 T3 h3 (by tok))
    | none => exact wp_ub (by simp)
  | _ => exact fn

theorem wp_evalFunc (he : ∀ N c a, Evo N (ev c a)) (hl : ∀ H c a, Blind H (ev c a)) (n : Nat) {Q : Addr → HSt → Prop} {s0 : HSt} {T0 : Addr → Nat}
    {closure symb func vals : Addr} (h0 : Inv s0 T0) (t : ∀ b, ones [closure, symb, func, vals] b ≤ T0 b)
    (k : Post Q T0 [func, vals]) : wp (evalFuncH n ev closure symb func vals) Q s0 := by
  refine wp_bind (wp_car h0 (h0.live (by tok)) ?_)
  intro args s1 T1 h1 e1 x1
  refine wp_bind (wp_mayApply h1 n (h1.live (by tok)) (h1.live (by tok)) fun ok => ?_)
  refine wp_ite (fun _ => ?_) (fun _ => ?_)
  · refine wp_bind (wp_cdr h1 (h1.live (by tok)) ?_)
    intro cdr0 s2 T2 h2 e2 x2
    refine wp_bind (wp_car h2 (h2.live (by tok)) ?_)
    intro dscl s3 T3 h3 e3 x3
    refine wp_bind (wp_cdr h3 (h3.live (by tok)) ?_)
    intro body s4 T4 h4 e4 x4
    refine wp_bind (wp_Xs h4 (by tok) ?_)
    intro s5 T5 h5 e5
    refine wp_bind (wp_nil h5 ?_)
    intro nl s6 T6 h6 e6 x6
    refine wp_bind (wp_evalArgs hev n h6 (by tok) ?_)
    intro bind s7 T7 h7 e7
    refine wp_bind (wp_car h7 (h7.live (by tok)) ?_)
    intro bscl s8 T8 h8 e8 x8
    refine wp_bind (wp_cdr h8 (h8.live (by tok)) ?_)
    intro narg s9 T9 h9 e9 x9
    refine wp_bind (wp_X h9 (by tok) ?_)
    intro s10 T10 h10 e10
    refine wp_bind (wp_dataOf (h10.live (by tok)) fun c10 hc10 => ?_)
    refine wp_ite (fun _ => ?_) (fun _ => ?_)
    · refine wp_apply hev he hl n h10 (by tok) ?_
      intro r s11 T11 h11 e11
      exact k r s11 T11 h11 (by tok)
    · refine wp_bind (wp_conc h10 (by tok) ?_)
      intro clos s11 T11 h11 e11
      refine wp_bind (wp_cons h11 (by tok) ?_)
      intro con0 s12 T12 h12 e12 x12
      refine wp_cons h12 (by tok) ?_
      intro r s13 T13 h13 e13 _
      exact k r s13 T13 h13 (by tok)
  · refine wp_bind (wp_Xs h1 (by tok) ?_)
    intro s2 T2 h2 e2
    refine wp_nil h2 ?_
    intro r s3 T3 h3 e3 _
    exact k r s3 T3 h3 (by tok)

theorem wp_evalNext (he : ∀ N c a, Evo N (ev c a)) (hl : ∀ H c a, Blind H (ev c a)) (n : Nat) {Q : Addr → HSt → Prop} {s0 : HSt} {T0 : Addr → Nat}
    {closure car nxt cdr : Addr} (h0 : Inv s0 T0) (t : ∀ b, ones [closure, car, nxt, cdr] b ≤ T0 b)
    (k : Post Q T0 [nxt, cdr]) : wp (evalNextH n ev closure car nxt cdr) Q s0 := by
  have con : wp (consH nxt cdr) Q s0 := by
    refine wp_cons h0 (by tok) ?_
    intro r s1 T1 h1 e1 _
    exact k r s1 T1 h1 (by tok)
  refine wp_bind (wp_isFunc h0 (h0.live (by tok)) fun f => ?_)
  refine wp_ite (fun _ => wp_evalFunc hev he hl n h0 (by tok) k) (fun _ => ?_)
  refine wp_bind (wp_equ h0 n (h0.live (by tok)) (h0.live (by tok)) fun e => ?_)
  refine wp_ite (fun _ => con) (fun _ => ?_)
  refine wp_bind (wp_dataOf (h0.live (by tok)) fun c0 hc0 => ?_)
  refine wp_ite (fun _ => ?_) (fun _ => con)
  refine wp_bind (wp_cons h0 (by tok) ?_)
  intro cell s1 T1 h1 e1 x1
  refine hev h1 (by tok) ?_
  intro r s2 T2 h2 e2
  exact k r s2 T2 h2 (by tok)

theorem wp_evalPair (he : ∀ N c a, Evo N (ev c a)) (hl : ∀ H c a, Blind H (ev c a)) (n : Nat) {Q : Addr → HSt → Prop} {s0 : HSt} {T0 : Addr → Nat}
    {closure a : Addr} (h0 : Inv s0 T0) (t : ∀ b, ones [closure, a] b ≤ T0 b)
    (k : Post Q T0 [a]) : wp (evalPairH n ev closure a) Q s0 := by
  refine wp_bind (wp_car h0 (h0.live (by tok)) ?_)
  intro car s1 T1 h1 e1 x1
  refine wp_bind (wp_cdr h1 (h1.live (by tok)) ?_)
  intro cdr s2 T2 h2 e2 x2
  refine wp_bind (wp_X h2 (by tok) ?_)
  intro s3 T3 h3 e3
  refine wp_bind (wp_up h3 (h3.live (by tok)) ?_)
  intro s4 T4 h4 e4 x4
  refine wp_bind (hev h4 (by tok) ?_)
  intro nxt s5 T5 h5 e5
  refine wp_bind (wp_evalNext hev he hl n h5 (by tok) ?_)
  intro rslt s6 T6 h6 e6
  refine wp_bind (wp_X h6 (by tok) ?_)
  intro s7 T7 h7 e7
  exact wp_pure (k rslt s7 T7 h7 (by tok))

theorem wp_evalStep (he : ∀ N c a, Evo N (ev c a)) (hl : ∀ H c a, Blind H (ev c a)) (n : Nat) : EvSpec (evalStepH n ev) := by
  intro Q s0 T0 closure a h0 t k
  refine wp_bind (wp_dataOf (h0.live (by tok)) fun c0 hc0 => ?_)
  cases c0.data with
  | pair x y => exact wp_evalPair hev he hl n h0 t k
  | sym sy =>
    refine wp_bind (wp_lookup h0 (h0.live (by tok)) (h0.live (by tok)) ?_)
    intro rslt s1 T1 h1 e1
    refine wp_bind (wp_X h1 (by tok) ?_)
    intro s2 T2 h2 e2
    exact wp_pure (k rslt s2 T2 h2 (by tok))
  | _ => exact wp_pure (k a s0 T0 h0 (by tok))

end

/-- The evaluator accesses live cells only, consumes the expression and gives one reference to its result. -/
theorem wp_evalN : ∀ n, EvSpec (evalNH n) := by
  intro n
  induction n with
  | zero => intro Q s0 T0 closure a _ _ _; exact wp_oof
  | succ n ih => exact wp_evalStep ih (fun _ => evo_evalNH n) (fun _ => loc_evalNH n) n

/-! ## Sessions -/

theorem wp_build (v : Val) : ∀ {Q : Addr → HSt → Prop} {s0 : HSt} {T0 : Addr → Nat}, Inv s0 T0 → Post Q T0 [] →
    wp (buildH v) Q s0 := by
  induction v with
  | pair tc a d iha ihd =>
    intro Q s0 T0 h0 k
    refine wp_bind (iha h0 ?_)
    intro x s1 T1 h1 e1
    refine wp_bind (ihd h1 ?_)
    intro y s2 T2 h2 e2
    refine wp_cons h2 (by tok) ?_
    intro r s3 T3 h3 e3 _
    exact k r s3 T3 h3 (by tok)
  | _ => intro Q s0 T0 h0 k; exact wp_mkP h0 rfl k

theorem wp_loadNative (op : Native) {Q : Unit → HSt → Prop} {s0 : HSt} {T0 : Addr → Nat} (h0 : Inv s0 T0)
    (k : ∀ s', Inv s' T0 → Q () s') : wp (loadNativeH op) Q s0 := by
  refine wp_bind (wp_mk h0 rfl ?_)
  intro sym s1 T1 h1 e1 x1
  refine wp_bind (wp_build op.args h1 ?_)
  intro arg s2 T2 h2 e2
  refine wp_bind (wp_mk h2 rfl ?_)
  intro adr s3 T3 h3 e3 x3
  refine wp_bind (wp_nil h3 ?_)
  intro nl s4 T4 h4 e4 x4
  refine wp_bind (wp_cons h4 (by tok) ?_)
  intro cn0 s5 T5 h5 e5 x5
  refine wp_bind (wp_cons h5 (by tok) ?_)
  intro val s6 T6 h6 e6 x6
  refine wp_bind (wp_up h6 (h6.live (by tok)) ?_)
  intro s7 T7 h7 e7 x7
  refine wp_bind (wp_cons h7 (by tok) ?_)
  intro cns s8 T8 h8 e8 x8
  refine wp_bind (wp_setq h8 (by tok) ?_)
  intro s9 T9 h9 e9
  refine wp_X h9 (by tok) ?_
  intro s10 T10 h10 e10
  exact k s10 (h10.congr (by tok))

theorem wp_load (ops : List Native) : ∀ {Q : Unit → HSt → Prop} {s0 : HSt} {T0 : Addr → Nat}, Inv s0 T0 →
    (∀ s', Inv s' T0 → Q () s') → wp (loadH ops) Q s0 := by
  induction ops with
  | nil => intro Q s0 T0 h0 k; exact wp_pure (k s0 h0)
  | cons op ops ih =>
    intro Q s0 T0 h0 k
    refine wp_bind (wp_loadNative op h0 ?_)
    intro s1 h1
    exact ih h1 k

theorem wp_topLoop (n : Nat) {nl : Addr} (es : List Val) : ∀ {Q : Addr → HSt → Prop} {s0 : HSt} {T0 : Addr → Nat}
    {res : Addr}, Inv s0 T0 → (∀ b, ones [nl, res] b ≤ T0 b) → Post Q T0 [res] → wp (topLoopH n nl es res) Q s0 := by
  induction es with
  | nil => intro Q s0 T0 res h0 _ k; exact wp_pure (k res s0 T0 h0 (by tok))
  | cons e es ih =>
    intro Q s0 T0 res h0 t k
    refine wp_bind (wp_build e h0 ?_)
    intro input s1 T1 h1 e1
    refine wp_bind (wp_X h1 (by tok) ?_)
    intro s2 T2 h2 e2
    refine wp_bind (wp_evalN n h2 (by tok) ?_)
    intro r' s3 T3 h3 e3
    refine ih h3 (by tok) ?_
    intro r s4 T4 h4 e4
    exact k r s4 T4 h4 (by tok)

theorem wp_session (n : Nat) (ops : List Native) (es : List Val) {Q : Addr → HSt → Prop} {s0 : HSt} {T0 : Addr → Nat}
    (h0 : Inv s0 T0) (k : Post Q T0 []) : wp (sessionH n ops es) Q s0 := by
  refine wp_bind (wp_load ops h0 ?_)
  intro s1 h1
  refine wp_bind (wp_nil h1 ?_)
  intro nl s2 T2 h2 e2 _
  refine wp_bind (wp_nil h2 ?_)
  intro res s3 T3 h3 e3 x3
  refine wp_bind (wp_topLoop n es h3 (by tok) ?_)
  intro r s4 T4 h4 e4
  refine wp_bind (wp_X h4 (by tok) ?_)
  intro s5 T5 h5 e5
  exact wp_pure (k r s5 T5 h5 (by tok))

/-- The empty memory satisfies the invariant. -/
theorem inv_empty : Inv emptyH (fun _ => 0) := by
  refine ⟨fun _ _ => rfl, ?_, ?_, ?_, ?_, ?_, ?_⟩
  · intro a c h; cases h
  · intro a _; rfl
  · intro a c h; cases h
  · intro o h; cases h
  · intro z h; cases h
  · intro a c d h; cases h

end Heap
end Mnml
