import Verif.HeapPrim

/-!
# Rules for the collection and the marking of tail calls

The lists built by the collection consist of new cells only, so that nothing else is written.
-/

namespace Mnml
namespace Heap

/-- What the collections give. -/
def TailsPost (Q : Addr → HSt → Prop) (s : HSt) (T : Addr → Nat) (a : Addr) : Prop :=
  ∀ r s' T', Inv s' T' → (∀ b, T' b + one a b = T b + one r b) → Fr s.next s s' → Fresh s.next s' r → Q r s'

theorem Fresh.atom {n : Nat} {s : HSt} {a : Addr} {c : Cell} (hc : s.mem a = some c)
    (hd : c.data.isPair = false) : Fresh n s a := by
  have key : ∀ b, CdrReach s a b → b = a := by
    intro b r
    induction r with
    | refl => rfl
    | step _ hc' hd' ih =>
      subst ih
      rw [hc] at hc'; cases hc'
      rw [hd'] at hd; cases hd
  intro b c' x y r hc' hd'
  rw [key b r, hc] at hc'
  cases hc'
  rw [hd'] at hd; cases hd

theorem Fresh.mono {n m : Nat} {s : HSt} {a : Addr} (h : Fresh n s a) (hm : m ≤ n) : Fresh m s a :=
  fun b c x y r hc hd => Nat.le_trans hm (h b c x y r hc hd)

/-- A list of one element. -/
theorem wp_single {Q : Addr → HSt → Prop} {s : HSt} {T : Addr → Nat} {a : Addr} (h : Inv s T)
    (t : ∀ b, one a b ≤ T b) (k : TailsPost Q s T a) : wp (do let nl ← mkNil; consH a nl) Q s := by
  refine wp_bind (wp_alloc h .nil (by intro b; exact Nat.zero_le _) ?_)
  intro nl s1 T1 h1 e1 x1 _ hn1 hm1
  have e1' : ∀ b, T1 b = T b + one nl b := e1
  refine wp_alloc h1 (.pair a nl) (by tok) ?_
  intro r s2 T2 h2 e2 x2 _ hn2 hm2
  refine k r s2 T2 h2 (by tok) (x1.trans x2).fr ?_
  obtain ⟨cn, hcn, en⟩ := x2.mem _ _ hm1
  have key : ∀ b, CdrReach s2 r b → b = r ∨ b = nl := by
    intro b rr
    induction rr with
    | refl => exact Or.inl rfl
    | step _ hc hd ih =>
      rcases ih with e | e
      · subst e
        rw [hm2] at hc; cases hc
        cases hd
        exact Or.inr rfl
      · subst e
        rw [hcn] at hc; cases hc
        rw [en] at hd; cases hd
  intro b c x y rr hc hd
  have := x1.next
  rcases key b rr with e | e
  · omega
  · omega

theorem wp_tails : ∀ (n : Nat), (∀ {Q : Addr → HSt → Prop} {s : HSt} {T : Addr → Nat} {a : Addr}, Inv s T →
    (∀ b, one a b ≤ T b) → TailsPost Q s T a → wp (tailsH n a) Q s) ∧
    (∀ {Q : Addr → HSt → Prop} {s : HSt} {T : Addr → Nat} {a : Addr}, Inv s T →
    (∀ b, one a b ≤ T b) → TailsPost Q s T a → wp (tailsAssocH n a) Q s) := by
  intro n
  induction n with
  | zero =>
    constructor
    · intros; unfold tailsH; exact wp_oof
    · intros; unfold tailsAssocH; exact wp_oof
  | succ n ih =>
    obtain ⟨ih, iha⟩ := ih
    constructor
    · intro Q s T a h t k
      unfold tailsH
      have la : Live s a := h.live t
      refine wp_bind (wp_dataOf la fun c hc => ?_)
      cases hd : c.data with
      | nil => exact wp_pure (k a s T h (by tok) (Fr.refl _ _) (Fresh.atom hc (by rw [hd]; rfl)))
      | pair x y =>
        refine wp_bind (wp_dataOf (h.childCar la (by simp) hc hd) fun cx hcx => ?_)
        cases hdx : cx.data with
        | sym sy =>
          refine wp_ite (fun _ => ?_) (fun _ => wp_ite (fun _ => ?_) (fun _ => wp_ite (fun _ => ?_)
            (fun _ => wp_ite (fun _ => ?_) (fun _ => wp_single h t k))))
          · refine wp_bind (wp_cdr h la ?_)
            intro cd0 s1 T1 h1 e1 x1
            refine wp_bind (wp_cdr h1 (h1.live (by tok)) ?_)
            intro cd1 s2 T2 h2 e2 x2
            refine wp_bind (wp_car h2 (h2.live (by tok)) ?_)
            intro e1' s3 T3 h3 e3 x3
            refine wp_bind (ih h3 (by tok) ?_)
            intro thn s4 T4 h4 e4 f4 g4
            refine wp_bind (wp_cdr h4 (h4.live (by tok)) ?_)
            intro cd2 s5 T5 h5 e5 x5
            refine wp_bind (wp_car h5 (h5.live (by tok)) ?_)
            intro e2' s6 T6 h6 e6 x6
            refine wp_bind (ih h6 (by tok) ?_)
            intro els s7 T7 h7 e7 f7 g7
            refine wp_bind (wp_Xsk h7 (by tok) ?_)
            intro s8 T8 h8 e8 k8
            refine wp_conc' h8 (by tok) ?_
            intro r s9 T9 h9 e9 fc
            have lt4 : Live s4 thn := h4.live (by tok)
            have n1 := ((x1.trans x2).trans x3).next
            have n4 := f4.next
            have x56 := x5.trans x6
            have n6 := x56.next
            have n7 := f7.next
            have f47 : Fr s4.next s4 s7 := x56.fr.trans (f7.mono (by omega))
            have gt : Fresh s.next s8 thn := ((g4.fr h4 f47 lt4).shrink k8).mono (by omega)
            have ge : Fresh s.next s8 els := (g7.shrink k8).mono (by omega)
            have ff : Fr s.next s s8 :=
              ((((x1.trans x2).trans x3).fr.trans (f4.mono (by omega))).trans (f47.mono (by omega))).trans
                (k8.fr _)
            obtain ⟨f9, g9⟩ := fc s.next gt
            exact k r s9 T9 h9 (by tok) (ff.trans f9) (g9 ge)
          · refine wp_bind (wp_cdr h la ?_)
            intro cd0 s1 T1 h1 e1 x1
            refine wp_bind (wp_cdr h1 (h1.live (by tok)) ?_)
            intro cd1 s2 T2 h2 e2 x2
            refine wp_bind (iha h2 (by tok) ?_)
            intro res s3 T3 h3 e3 f3 g3
            refine wp_bind (wp_Xsk h3 (by tok) ?_)
            intro s4 T4 h4 e4 k4
            have n1 := (x1.trans x2).next
            exact wp_pure (k res s4 T4 h4 (by tok)
              (((x1.trans x2).fr.trans (f3.mono (by omega))).trans (k4.fr _))
              ((g3.shrink k4).mono (by omega)))
          · refine wp_bind (wp_lastPair h ?_ n .refl la)
            intro p cp u v _ _ lp hcp hdp _ _ _
            refine wp_bind (wp_pairOf lp fun c' u' v' hc' hd' => ?_)
            refine wp_bind (wp_up h (h.childCar lp (by simp) hc' hd') ?_)
            intro s1 T1 h1 e1 x1
            refine wp_bind (ih h1 (by tok) ?_)
            intro res s2 T2 h2 e2 f2 g2
            refine wp_bind (wp_Xk h2 (by tok) ?_)
            intro s3 T3 h3 e3 k3
            have n1 := x1.next
            exact wp_pure (k res s3 T3 h3 (by tok) ((x1.fr.trans (f2.mono (by omega))).trans (k3.fr _))
              ((g2.shrink k3).mono (by omega)))
          · refine wp_bind (wp_cdr h la ?_)
            intro cd0 s1 T1 h1 e1 x1
            refine wp_bind (wp_cdr h1 (h1.live (by tok)) ?_)
            intro cd1 s2 T2 h2 e2 x2
            refine wp_bind (wp_car h2 (h2.live (by tok)) ?_)
            intro e1' s3 T3 h3 e3 x3
            refine wp_bind (ih h3 (by tok) ?_)
            intro res s4 T4 h4 e4 f4 g4
            refine wp_bind (wp_Xsk h4 (by tok) ?_)
            intro s5 T5 h5 e5 k5
            have n1 := ((x1.trans x2).trans x3).next
            exact wp_pure (k res s5 T5 h5 (by tok)
              ((((x1.trans x2).trans x3).fr.trans (f4.mono (by omega))).trans (k5.fr _))
              ((g4.shrink k5).mono (by omega)))
        | _ => exact wp_single h t k
      | _ => exact wp_single h t k
    · intro Q s T a h t k
      unfold tailsAssocH
      have la : Live s a := h.live t
      refine wp_bind (wp_dataOf la fun c hc => ?_)
      refine wp_ite (fun hn => ?_) (fun _ => wp_ite (fun _ => ?_) (fun _ => ?_))
      · refine wp_pure (k a s T h (by tok) (Fr.refl _ _) (Fresh.atom hc ?_))
        cases hd : c.data <;> first | rfl | (rw [hd] at hn; cases hn)
      · refine wp_bind (wp_Xk h t ?_)
        intro s1 T1 h1 e1 k1
        refine wp_alloc h1 .nil (by intro b; exact Nat.zero_le _) ?_
        intro r s2 T2 h2 e2 x2 _ _ hm2
        have e2' : ∀ b, T2 b = T1 b + one r b := e2
        refine k r s2 T2 h2 (by tok) ((k1.fr _).trans (x2.fr.mono ?_)) (Fresh.atom hm2 rfl)
        rw [k1.next]; exact Nat.le_refl _
      · refine wp_bind (wp_car h la ?_)
        intro car s1 T1 h1 e1 x1
        refine wp_bind (wp_cdr h1 (h1.live (by tok)) ?_)
        intro cdr s2 T2 h2 e2 x2
        refine wp_bind (wp_Xk h2 (by tok) ?_)
        intro s3 T3 h3 e3 k3
        refine wp_bind (wp_cdr h3 (h3.live (by tok)) ?_)
        intro e s4 T4 h4 e4 x4
        refine wp_bind (ih h4 (by tok) ?_)
        intro head s5 T5 h5 e5 f5 g5
        refine wp_bind (wp_Xk h5 (by tok) ?_)
        intro s6 T6 h6 e6 k6
        refine wp_bind (iha h6 (by tok) ?_)
        intro tail s7 T7 h7 e7 f7 g7
        refine wp_conc' h7 (by tok) ?_
        intro r s8 T8 h8 e8 fc
        have n2 := (x1.trans x2).next
        have n3 := k3.next
        have n4 := x4.next
        have n5 := f5.next
        have n6 := k6.next
        have l6 : Live s6 head := h6.live (by tok)
        have gh : Fresh s.next s7 head := ((g5.shrink k6).fr h6 f7 l6).mono (by omega)
        have gt : Fresh s.next s7 tail := g7.mono (by omega)
        have ff : Fr s.next s s7 :=
          (((((x1.trans x2).fr.trans (k3.fr _)).trans (x4.fr.mono (by omega))).trans
            (f5.mono (by omega))).trans (k6.fr _)).trans (f7.mono (by omega))
        obtain ⟨f8, g8⟩ := fc s.next gh
        exact k r s8 T8 h8 (by tok) (ff.trans f8) (g8 gt)

theorem wp_mark {Q : Unit → HSt → Prop} {p : Bool} {s : HSt} {T : Addr → Nat} {a : Addr} (h : Inv s T)
    (l : Live s a) (k : ∀ s', Inv s' T → Ext s s' → Q () s') : wp (markH p a) Q s :=
  wp_bind (wp_cell l fun _ _ => wp_bind (wp_guard (wp_setTail h l k)))

theorem wp_markOne {Q : Unit → HSt → Prop} {p : Bool} {n : Nat} {sy : Sym} {s : HSt} {T : Addr → Nat} {args t : Addr}
    (h : Inv s T) (la : Live s args) (lt : Live s t) (k : ∀ s', Inv s' T → Ext s s' → Q () s') :
    wp (markOneH p n sy args t) Q s := by
  refine wp_bind (wp_dataOf lt fun c hc => ?_)
  cases hd : c.data with
  | pair x y =>
    have lx := h.childCar lt (by simp) hc hd
    refine wp_bind (wp_dataOf lx fun cx _ => ?_)
    refine wp_ite (fun _ => ?_) (fun _ => wp_pure (k s h (Ext.refl _)))
    refine wp_bind (wp_mayApply h n la (h.childCdr lt (by simp) hc hd) fun r => ?_)
    exact wp_ite (fun _ => wp_mark h lx k) (fun _ => wp_pure (k s h (Ext.refl _)))
  | _ => exact wp_pure (k s h (Ext.refl _))

theorem wp_markLoop {Q : Unit → HSt → Prop} {pr : Bool} {sy : Sym} {T : Addr → Nat} {args : Addr} : ∀ (n : Nat) {s : HSt}
    {p : Addr}, Inv s T → Live s args → Live s p → (∀ s', Inv s' T → Ext s s' → Q () s') →
    wp (markLoopH pr n sy args p) Q s := by
  intro n
  induction n with
  | zero => intros; exact wp_oof
  | succ n ih =>
    intro s p h la lp k
    refine wp_bind (wp_pairOf' h lp fun t y lt ly => ?_)
    refine wp_bind (wp_markOne h la lt ?_)
    intro s1 h1 x1
    refine wp_bind (wp_dataOf (ly.ext x1) fun c _ => ?_)
    refine wp_ite (fun _ => ?_) (fun _ => wp_pure (k s1 h1 x1))
    refine ih h1 (la.ext x1) (ly.ext x1) ?_
    intro s2 h2 x2
    exact k s2 h2 (x1.trans x2)

/-- Marking keeps everything; `keep` gives the liveness of the arguments, which are borrowed. -/
theorem wp_markTailCalls {Q : Unit → HSt → Prop} {pr : Bool} {n : Nat} {sy : Sym} {s : HSt} {T : Addr → Nat}
    {args body : Addr} (h : Inv s T) (lb : Live s body)
    (keep : ∀ s' T', Inv s' T' → (∀ b, T b ≤ T' b) → Fr s.next s s' → Live s' args)
    (k : ∀ s', Inv s' T → Q () s') : wp (markTailCallsH pr n sy args body) Q s := by
  refine wp_bind (wp_lastPair h ?_ n .refl lb)
  intro p cp u v _ _ lp hcp hdp _ _ _
  refine wp_bind (wp_pairOf lp fun c' u' v' hc' hd' => ?_)
  refine wp_bind (wp_up h (h.childCar lp (by simp) hc' hd') ?_)
  intro s1 T1 h1 e1 x1
  refine wp_bind ((wp_tails n).1 h1 (by tok) ?_)
  intro tails s2 T2 h2 e2 f2 _
  have f : Fr s.next s s2 := x1.fr.trans (f2.mono x1.next)
  have la : Live s2 args := keep s2 T2 h2 (by tok) f
  refine wp_bind (wp_dataOf (h2.live (by tok)) fun c _ => ?_)
  refine wp_ite (fun _ => ?_) (fun _ => ?_)
  · refine wp_X h2 (by tok) ?_
    intro s3 T3 h3 e3
    exact k s3 (h3.congr (by tok))
  · refine wp_bind (wp_markLoop n h2 la (h2.live (by tok)) ?_)
    intro s3 h3 x3
    refine wp_X h3 (by tok) ?_
    intro s4 T4 h4 e4
    exact k s4 (h4.congr (by tok))

end Heap
end Mnml
