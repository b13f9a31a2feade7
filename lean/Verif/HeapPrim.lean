import Verif.HeapRead

/-!
# Rules for the list primitives

`lisp_bind`, `lisp_dup`, `lisp_sss`, `lisp_merge`, the escapes of strings and the collection and marking of tail calls.
-/

namespace Mnml
namespace Heap

/-! ## DUP and MERGE -/

/-- A list whose pairs are exactly at the addresses `L`, with elements below `n`. -/
inductive Spine (n : Nat) (s : HSt) : Addr → List Addr → Prop
  | nil {a c} : s.mem a = some c → c.data.isPair = false → Spine n s a []
  | cons {a c x y L} : s.mem a = some c → c.data = .pair x y → x < n → Spine n s y L → Spine n s a (a :: L)

theorem Spine.live {n : Nat} {s : HSt} {a : Addr} {L : List Addr} (h : Spine n s a L) :
    ∀ l, l ∈ L → ∃ c, s.mem l = some c := by
  induction h with
  | nil => intro l hl; cases hl
  | cons hc _ _ _ ih =>
    intro l hl
    rcases List.mem_cons.1 hl with e | e
    · subst e; exact ⟨_, hc⟩
    · exact ih l e

/-- A spine stays when its cells keep their content. -/
theorem Spine.keep {n : Nat} {s s' : HSt} {a : Addr} {L : List Addr} (h : Spine n s a L)
    (k : ∀ b c, s.mem b = some c → (b ∈ L ∨ c.data.isPair = false) →
      ∃ c', s'.mem b = some c' ∧ c'.data = c.data) : Spine n s' a L := by
  induction h with
  | nil hc hd =>
    obtain ⟨c', hc', e⟩ := k _ _ hc (Or.inr hd)
    exact .nil hc' (by rw [e]; exact hd)
  | cons hc hd hx _ ih =>
    obtain ⟨c', hc', e⟩ := k _ _ hc (Or.inl (by simp))
    exact .cons hc' (e.trans hd) hx (ih fun b c hb h => k b c hb (h.imp (List.mem_cons_of_mem _) id))

/-- Releasing something else keeps the spine of a live list. -/
theorem Spine.shrink {n : Nat} {O : List Addr} {s s' : HSt} {T : Addr → Nat} {a : Addr} {L : List Addr}
    (h : Spine n s a L) (i : InvO O s' T) (k : Shrink s s') (l : Live s' a) (hO : ∀ b, b ∈ L → b ∉ O) :
    Spine n s' a L := by
  induction h with
  | nil hc hd =>
    obtain ⟨⟨c', hc'⟩, _⟩ := l
    obtain ⟨c0, hc0, e, _⟩ := k.mem _ _ hc'
    rw [hc] at hc0; cases hc0
    exact .nil hc' (by rw [e]; exact hd)
  | cons hc hd hx _ ih =>
    obtain ⟨⟨c', hc'⟩, hz⟩ := l
    obtain ⟨c0, hc0, e, _⟩ := k.mem _ _ hc'
    rw [hc] at hc0; cases hc0
    have ly := i.childCdr ⟨⟨c', hc'⟩, hz⟩ (hO _ (by simp)) hc' (e.trans hd)
    exact .cons hc' (e.trans hd) hx (ih ly fun b hb => hO b (List.mem_cons_of_mem _ hb))

theorem Spine.ext {n : Nat} {s s' : HSt} {a : Addr} {L : List Addr} (h : Spine n s a L) (e : Ext s s') :
    Spine n s' a L := h.keep fun b c hb _ => e.mem b c hb

theorem wp_dup {Q : Addr → HSt → Prop} : ∀ (n : Nat) {s : HSt} {T : Addr → Nat} {a : Addr},
    Inv s T → Live s a →
    (∀ r s' T', Inv s' T' → (∀ b, T' b = T b + one r b) → Ext s s' →
      (∃ L, Spine s.next s' r L ∧ L.Nodup ∧ ∀ l, l ∈ L → s.next ≤ l) → Q r s') →
    wp (dupH n a) Q s := by
  intro n
  induction n generalizing Q with
  | zero => intros; exact wp_oof
  | succ n ih =>
    intro s T a h l k
    refine wp_bind (wp_dataOf l fun c hc => ?_)
    have atom : c.data.isPair = false → wp (do up a; pure a) Q s := by
      intro hd
      refine wp_bind (wp_up h l ?_)
      intro s1 T1 h1 e1 x1
      obtain ⟨c', hc', e⟩ := x1.mem a c hc
      exact wp_pure (k a s1 T1 h1 e1 x1 ⟨[], .nil hc' (by rw [e]; exact hd), .nil, by simp⟩)
    cases hd : c.data with
    | pair x y =>
      have lx := h.childCar l (by simp) hc hd
      refine wp_bind (wp_noFlag l ?_)
      refine wp_bind (ih h (h.childCdr l (by simp) hc hd) ?_)
      intro rem s1 T1 h1 e1 x1 ⟨L, sp, nd, ge⟩
      refine wp_bind (wp_up h1 (lx.ext x1) ?_)
      intro s2 T2 h2 e2 x2
      refine wp_alloc h2 (.pair x rem) (by tok) ?_
      intro r s3 T3 h3 e3 x3 _ hr hm
      refine k r s3 T3 h3 (by tok) ((x1.trans x2).trans x3) ⟨r :: L, ?_, ?_, ?_⟩
      · exact .cons hm rfl (lx.lt h) ((sp.ext x2).ext x3)
      · refine List.nodup_cons.2 ⟨?_, nd⟩
        intro hm'
        obtain ⟨c', hc'⟩ := (sp.ext x2).live r hm'
        have := h2.lt hc'
        omega
      · intro b hb
        rcases List.mem_cons.1 hb with e | e
        · subst e; have := x1.next; have := x2.next; omega
        · exact ge b e
    | nil => exact atom (by rw [hd]; rfl)
    | tru => exact atom (by rw [hd]; rfl)
    | wild => exact atom (by rw [hd]; rfl)
    | chr => exact atom (by rw [hd]; rfl)
    | num => exact atom (by rw [hd]; rfl)
    | sym => exact atom (by rw [hd]; rfl)

/-- What `lisp_sss` gives: the same list with the pair inserted or replaced; only cells of the list are written. -/
structure SssPost (n0 : Nat) (O : List Addr) (s : HSt) (T : Addr → Nat) (root kvp r : Addr) (s' : HSt) :
    Prop where
  mk ::
  inv : ∃ T', InvO O s' T' ∧ ∀ b, T' b + one root b + one kvp b = T b + one r b
  fr : Fr n0 s s'
  spine : ∃ L, Spine n0 s' r L ∧ L.Nodup ∧ (∀ l, l ∈ L → n0 ≤ l ∧ l ∉ O)
  opn : ∀ o c, o ∈ O → s.mem o = some c → ∃ c', s'.mem o = some c' ∧ c'.data = c.data

theorem sss_cons {n0 : Nat} {O : List Addr} {s : HSt} {T : Addr → Nat} {root kvp : Addr} {L : List Addr}
    (h : InvO O s T) (sp : Spine n0 s root L) (nd : L.Nodup) (hL : ∀ l, l ∈ L → n0 ≤ l ∧ l ∉ O)
    (hn : n0 ≤ s.next) (hk : kvp < n0) (t : ∀ b, one root b + one kvp b ≤ T b) :
    wp (consH kvp root) (SssPost n0 O s T root kvp) s := by
  refine wp_alloc h (.pair kvp root) (by tok) ?_
  intro r s1 T1 h1 e1 x1 f1 hr hm
  refine ⟨⟨T1, h1, by tok⟩, f1.mono hn, ⟨r :: L, .cons hm rfl hk (sp.ext x1), ?_, ?_⟩, ?_⟩
  · refine List.nodup_cons.2 ⟨?_, nd⟩
    intro hm'
    obtain ⟨c', hc'⟩ := sp.live r hm'
    have := h.lt hc'
    omega
  · intro b hb
    rcases List.mem_cons.1 hb with e | e
    · subst e
      refine ⟨by omega, ?_⟩
      intro ho
      exact h.opn _ ho (h.fresh _ (by omega))
    · exact hL b e
  · intro o c _ hc
    exact x1.mem o c hc

theorem wp_sss : ∀ (n : Nat) {n0 : Nat} {O : List Addr} {s : HSt} {T : Addr → Nat} {root kvp : Addr}
    {L : List Addr}, InvO O s T → Spine n0 s root L → L.Nodup → (∀ l, l ∈ L → n0 ≤ l ∧ l ∉ O) →
    (∀ o, o ∈ O → n0 ≤ o) → n0 ≤ s.next → kvp < n0 →
    (∀ b, one root b + one kvp b ≤ T b) →
    (∀ o, o ∈ O → ∀ b, one o b + one root b + one kvp b ≤ T b) →
    wp (sssH n root kvp) (SssPost n0 O s T root kvp) s := by
  intro n
  induction n with
  | zero => intros; exact wp_oof
  | succ n ih =>
    intro n0 O s T root kvp L h sp nd hL hO hn hk t tO
    have lroot : Live s root := h.live (by tok)
    have lkvp : Live s kvp := h.live (by tok)
    have hkO : kvp ∉ O := fun hk' => by have := hO _ hk'; omega
    refine wp_bind (wp_dataOf lroot fun c hc => ?_)
    refine wp_ite (fun _ => sss_cons h sp nd hL hn hk t) (fun _ => ?_)
    refine wp_bind (wp_pairOf lroot fun c' x y hc' hd => ?_)
    rw [hc] at hc'; cases hc'
    cases sp with
    | nil hc' hp => rw [hc] at hc'; cases hc'; rw [hd] at hp; cases hp
    | @cons _ c' x' y' L hc' hd' hx sp' =>
      have sp : Spine n0 s root (root :: L) := .cons hc' hd' hx sp'
      rw [hc] at hc'; cases hc'
      rw [hd] at hd'; cases hd'
      have hr0 := hL root (by simp)
      have lx := h.childCar lroot hr0.2 hc hd
      have hxO : x ∉ O := fun hk' => by have := hO _ hk'; omega
      refine wp_bind (wp_pairOf lx fun cx k _ hcx hdx => ?_)
      refine wp_bind (wp_pairOf lkvp fun ck k' _ hck hdk => ?_)
      refine wp_bind (wp_compare (h.childCar lx hxO hcx hdx) (h.childCar lkvp hkO hck hdk) fun o => ?_)
      have ndL := List.nodup_cons.1 nd
      cases o with
      | gt => exact sss_cons h sp nd hL hn hk t
      | lt =>
        have ho := h.open_ (T' := fun b => T b + (one x b + one y b)) lroot hr0.2 hc
          (fun b => by rw [hd, occ_pair])
        refine wp_bind (wp_mono (ih ho sp' ndL.2 ?_ ?_ hn hk ?_ ?_) ?_)
        · intro l hl
          have := hL l (List.mem_cons_of_mem _ hl)
          refine ⟨this.1, ?_⟩
          intro hm
          rcases List.mem_cons.1 hm with e | e
          · subst e; exact ndL.1 hl
          · exact this.2 e
        · intro o ho'
          rcases List.mem_cons.1 ho' with e | e
          · subst e; exact hr0.1
          · exact hO o e
        · tok
        · intro o ho'
          rcases List.mem_cons.1 ho' with e | e
          · subst e; tok
          · have := tO o e; tok
        · rintro r s1 ⟨⟨T1, h1, e1⟩, f1, ⟨L1, sp1, nd1, hL1⟩, o1⟩
          obtain ⟨cr, hcr, hdr⟩ := o1 root c (by simp) hc
          have z1 : root ∉ s1.zombies := f1.zombies ▸ lroot.2
          refine wp_bind (wp_pairOf ⟨⟨cr, hcr⟩, z1⟩ fun c2 x2 y2 hc2 hd2 => ?_)
          rw [hcr] at hc2; cases hc2
          rw [hdr, hd] at hd2; cases hd2
          refine wp_bind (wp_setData h1 (by simp) hcr ?_)
          intro s2 h2 hm2 other2 z2 n2 _
          have hnot : root ∉ L1 := fun hm => (hL1 root hm).2 (by simp)
          have t1 : 0 < T1 root := by
            have := e1 root
            have := t root
            rw [one_self] at this
            omega
          refine wp_pure ⟨⟨fun b => T b - one kvp b, ?_, ?_⟩, ?_, ?_, ?_⟩
          · refine h2.close (by rw [z2]; exact z1) hr0.2 hm2 ?_ ?_
            · show 0 < cr.refs
              have := h1.exact root cr hcr
              unfold total at this
              omega
            · tok
          · tok
          · refine f1.trans ⟨z2, by rw [n2]; exact Nat.le_refl _, ?_⟩
            intro a ca ha hca
            rw [other2 a (by have := hr0.1; omega)] at hca
            exact ⟨ca, hca, rfl⟩
          · refine ⟨root :: L1, .cons hm2 rfl hx (sp1.keep ?_), List.nodup_cons.2 ⟨hnot, nd1⟩, ?_⟩
            · intro b cb hb hor
              have hne : b ≠ root := by
                rintro rfl
                rcases hor with hor | hor
                · exact hnot hor
                · rw [hcr] at hb; cases hb
                  rw [hdr, hd] at hor; cases hor
              exact ⟨cb, by rw [other2 b hne]; exact hb, rfl⟩
            · intro l hl
              rcases List.mem_cons.1 hl with e | e
              · subst e; exact hr0
              · exact ⟨(hL1 l e).1, fun hm => (hL1 l e).2 (List.mem_cons_of_mem _ hm)⟩
          · intro o co ho' hco
            obtain ⟨c3, hc3, e3⟩ := o1 o co (List.mem_cons_of_mem _ ho') hco
            have hne : o ≠ root := by rintro rfl; exact hr0.2 ho'
            exact ⟨c3, by rw [other2 o hne]; exact hc3, e3⟩
      | eq =>
        have ho := h.open_ (T' := fun b => T b + (one x b + one y b)) lroot hr0.2 hc
          (fun b => by rw [hd, occ_pair])
        refine wp_bind (wp_setData ho (by simp) hc ?_)
        intro s1 h1 hm1 other1 z1 n1 _
        have hc1 : InvO O s1 (fun b => T b + one x b - one kvp b) := by
          refine h1.close (by rw [z1]; exact lroot.2) hr0.2 hm1 (h.pos root c hc hr0.2) ?_
          tok
        have spk : Spine n0 s1 root (root :: L) := by
          refine .cons hm1 rfl hk (sp'.keep ?_)
          intro b cb hb hor
          have hne : b ≠ root := by
            rintro rfl
            rcases hor with hor | hor
            · exact ndL.1 hor
            · rw [hc] at hb; cases hb
              rw [hd] at hor; cases hor
          exact ⟨cb, by rw [other1 b hne]; exact hb, rfl⟩
        refine wp_bind (wp_X' hc1 (by tok) ?_ ?_)
        · intro o ho'
          have := tO o ho'
          tok
        · intro s2 T2 h2 e2 k2
          refine wp_pure ⟨⟨T2, h2, by tok⟩, ?_, ?_, ?_⟩
          · refine Fr.trans ⟨z1, by rw [n1]; exact Nat.le_refl _, ?_⟩ (k2.fr n0)
            intro a ca ha hca
            rw [other1 a (by have := hr0.1; omega)] at hca
            exact ⟨ca, hca, rfl⟩
          · exact ⟨root :: L, spk.shrink h2 k2 (h2.live (by tok)) (fun b hb => (hL b hb).2), nd, hL⟩
          · intro o co ho' hco
            have hne : o ≠ root := by rintro rfl; exact hr0.2 ho'
            have hm := h2.opn o ho'
            cases hm' : s2.mem o with
            | none => exact absurd hm' hm
            | some c3 =>
              obtain ⟨c4, hc4, e4, _⟩ := k2.mem o c3 hm'
              rw [other1 o hne, hco] at hc4
              cases hc4
              exact ⟨c3, rfl, e4⟩

/-- Reachability along CDRs below `n`. -/
inductive Chain (n : Nat) (s : HSt) (a : Addr) : Addr → Prop
  | refl : a < n → Chain n s a a
  | step {b c x y} : Chain n s a b → s.mem b = some c → c.data = .pair x y → y < n → Chain n s a y

theorem Chain.lt {n : Nat} {s : HSt} {a b : Addr} (h : Chain n s a b) : b < n := by
  cases h <;> assumption

theorem Chain.keep {n : Nat} {s s' : HSt} {T : Addr → Nat} {a b : Addr} (h : Chain n s a b) (i : Inv s' T)
    (f : Fr n s s') (l : Live s' a) : Chain n s' a b ∧ Live s' b := by
  induction h with
  | refl ha => exact ⟨.refl ha, l⟩
  | step h' hc hd hy ih =>
    obtain ⟨c', lb⟩ := ih
    have lb' := lb
    obtain ⟨⟨cb, hcb⟩, _⟩ := lb
    obtain ⟨c0, hc0, e⟩ := f.mem _ _ h'.lt hcb
    rw [hc] at hc0; cases hc0
    exact ⟨.step c' hcb (e.trans hd) hy, i.childCdr lb' (by simp) hcb (e.trans hd)⟩

theorem wp_mergeLoop {Q : Addr → HSt → Prop} {s0 : HSt} {T0 : Addr → Nat} (h0 : Inv s0 T0) {alst : Addr} :
    ∀ (n : Nat) {s : HSt} {T : Addr → Nat} {root a : Addr} {L : List Addr}, Inv s T → Fr s0.next s0 s →
    Spine s0.next s root L → L.Nodup → (∀ l, l ∈ L → s0.next ≤ l) → Chain s0.next s alst a →
    (∀ b, one root b + one alst b ≤ T b) →
    (∀ r s' T', Inv s' T' → (∀ b, T' b + one root b = T b + one r b) → Fr s0.next s0 s' → Q r s') →
    wp (mergeLoop n root a) Q s := by
  intro n
  induction n generalizing Q with
  | zero => intros; exact wp_oof
  | succ n ih =>
    intro s T root a L h f sp nd hL ch t k
    have la := (ch.keep h (Fr.refl _ _) (h.live (by tok))).2
    refine wp_bind (wp_pairOf la fun c kvp y hc hd => ?_)
    have lk := h.childCar la (by simp) hc hd
    obtain ⟨c0, hc0, e0⟩ := f.mem a c ch.lt hc
    have la0 : Live s0 a := ⟨⟨c0, hc0⟩, f.zombies ▸ la.2⟩
    have hk : kvp < s0.next := (h0.childCar la0 (by simp) hc0 (e0.symm.trans hd)).lt h0
    have hy : y < s0.next := (h0.childCdr la0 (by simp) hc0 (e0.symm.trans hd)).lt h0
    have chy : Chain s0.next s alst y := .step ch hc hd hy
    refine wp_bind (wp_up h lk ?_)
    intro s1 T1 h1 e1 x1
    have f1 : Fr s0.next s s1 := x1.fr.mono f.next
    refine wp_bind (wp_mono (wp_sss n (n0 := s0.next) h1 (sp.ext x1) nd (fun l hl => ⟨hL l hl, by simp⟩) (by simp)
      (Nat.le_trans f.next x1.next) hk (by tok) (by simp)) ?_)
    rintro r s2 ⟨⟨T2, h2, e2⟩, f2, ⟨L2, sp2, nd2, hL2⟩, _⟩
    have f12 := f1.trans f2
    have la2 : Live s2 alst := h2.live (by tok)
    obtain ⟨cha2, la2'⟩ := ch.keep h2 f12 la2
    obtain ⟨chy2, ly2⟩ := chy.keep h2 f12 la2
    refine wp_bind (wp_pairOf la2' fun c2 kv2 y2 hc2 hd2 => ?_)
    obtain ⟨c3, hc3, e3⟩ := f12.mem a c2 ch.lt hc2
    rw [hc] at hc3; cases hc3
    rw [e3, hd] at hd2; cases hd2
    refine wp_bind (wp_dataOf ly2 fun cy _ => ?_)
    refine wp_ite (fun _ => ?_) (fun _ => ?_)
    · refine ih h2 (f.trans f12) sp2 nd2 (fun l hl => (hL2 l hl).1) chy2 (by tok) ?_
      intro r' s3 T3 h3 e3 f3
      exact k r' s3 T3 h3 (by tok) f3
    · exact wp_pure (k r s2 T2 h2 (by tok) (f.trans f12))

/-- `DUP` followed by `MERGE`: a new environment is built, nothing else is written. -/
theorem wp_dupMerge {α : Type} {Q : α → HSt → Prop} {f : Addr → HM α} {n : Nat} {s : HSt} {T : Addr → Nat}
    {c alst : Addr} (h : Inv s T) (l : Live s c) (t : ∀ b, one alst b ≤ T b)
    (k : ∀ r s' T', Inv s' T' → (∀ b, T' b = T b + one r b) → Fr s.next s s' → wp (f r) Q s') :
    wp (dupH n c >>= fun d => mergeH n d alst >>= f) Q s := by
  refine wp_bind (wp_dup n h l ?_)
  intro d s1 T1 h1 e1 x1 ⟨L, sp, nd, ge⟩
  refine wp_bind (wp_bind (wp_dataOf (h1.live (by tok)) fun c _ => ?_))
  refine wp_ite (fun _ => ?_) (fun _ => ?_)
  · exact wp_pure (k d s1 T1 h1 e1 x1.fr)
  · refine wp_mergeLoop h n h1 x1.fr sp nd ge (.refl ?_) (by tok) ?_
    · exact (h.live t).lt h
    · intro r s2 T2 h2 e2 f2
      exact k r s2 T2 h2 (by tok) f2

/-! ## BIND -/

theorem wp_bindH {Q : Addr → HSt → Prop} : ∀ (n : Nat) {s : HSt} {T : Addr → Nat} {closure arg val : Addr},
    Inv s T → (∀ b, one closure b + one arg b + one val b ≤ T b) →
    (∀ r s' T', Inv s' T' → (∀ b, T' b + one closure b + one arg b + one val b = T b + one r b) →
      Fr s.next s s' →
      (∀ c sy, s.mem arg = some c → c.data = .sym sy → ∃ cr kvp ck, s'.mem r = some cr ∧
        cr.data = .pair kvp closure ∧ s'.mem kvp = some ck ∧ ck.data = .pair arg val) → Q r s') →
    wp (bindH n closure arg val) Q s := by
  intro n
  induction n generalizing Q with
  | zero => intros; exact wp_oof
  | succ n ih =>
    intro s T closure arg val h t k
    refine wp_bind (wp_dataOf (h.live (by tok)) fun c hc => ?_)
    have atom : c.data.isSym = false → wp (do Xs [arg, val]; pure closure) Q s := by
      intro hs
      refine wp_bind (wp_Xsk h (by tok) ?_)
      intro s1 T1 h1 e1 k1
      refine wp_pure (k closure s1 T1 h1 (by tok) (k1.fr _) ?_)
      intro c' sy hc' hd
      rw [hc] at hc'; cases hc'
      rw [hd] at hs; cases hs
    cases hd : c.data with
    | pair x y =>
      refine wp_bind (wp_car h (h.live (by tok)) ?_)
      intro sym s1 T1 h1 e1 x1
      refine wp_bind (wp_car h1 (h1.live (by tok)) ?_)
      intro vl0 s2 T2 h2 e2 x2
      refine wp_bind (wp_cdr h2 (h2.live (by tok)) ?_)
      intro oth s3 T3 h3 e3 x3
      refine wp_bind (wp_cdr h3 (h3.live (by tok)) ?_)
      intro rem s4 T4 h4 e4 x4
      refine wp_bind (wp_Xsk h4 (by tok) ?_)
      intro s5 T5 h5 e5 k5
      refine wp_bind (ih h5 (by tok) ?_)
      intro cl0 s6 T6 h6 e6 f6 _
      refine ih h6 (by tok) ?_
      intro r s7 T7 h7 e7 f7 _
      refine k r s7 T7 h7 (by tok) ?_ ?_
      · have xx := ((x1.trans x2).trans x3).trans x4
        have n5 := k5.next
        have := xx.next
        have := f6.next
        exact ((xx.fr.trans (k5.fr _)).trans (f6.mono (by omega))).trans (f7.mono (by omega))
      · intro c' sy hc' hd'
        rw [hc] at hc'; cases hc'
        rw [hd] at hd'; cases hd'
    | sym sy =>
      refine wp_bind (wp_alloc h (.pair arg val) (by tok) ?_)
      intro kvp s1 T1 h1 e1 x1 _ _ hm1
      refine wp_alloc h1 (.pair kvp closure) (by tok) ?_
      intro r s2 T2 h2 e2 x2 _ _ hm2
      refine k r s2 T2 h2 (by tok) (x1.trans x2).fr ?_
      intro _ _ _ _
      obtain ⟨ck, hck, e⟩ := x2.mem _ _ hm1
      exact ⟨_, kvp, ck, hm2, rfl, hck, e⟩
    | nil => exact atom (by rw [hd]; rfl)
    | tru => exact atom (by rw [hd]; rfl)
    | wild => exact atom (by rw [hd]; rfl)
    | chr => exact atom (by rw [hd]; rfl)
    | num => exact atom (by rw [hd]; rfl)

/-! ## Strings -/

theorem wp_escapes {Q : Addr → HSt → Prop} : ∀ (n : Nat) {s : HSt} {T : Addr → Nat} {a res : Addr} {esc : Bool},
    Inv s T → (∀ b, one a b + one res b ≤ T b) →
    (∀ r s' T', Inv s' T' → (∀ b, T' b + one a b + one res b = T b + one r b) → Q r s') →
    wp (escapesH n a esc res) Q s := by
  intro n
  induction n with
  | zero => intros; exact wp_oof
  | succ n ih =>
    intro s T a res esc h t k
    refine wp_bind (wp_dataOf (h.live (by tok)) fun c hc => ?_)
    refine wp_ite (fun _ => ?_) (fun _ => ?_)
    · refine wp_bind (wp_X h (by tok) ?_)
      intro s1 T1 h1 e1
      exact wp_pure (k res s1 T1 h1 (by tok))
    · refine wp_bind (wp_car h (h.live (by tok)) ?_)
      intro car s1 T1 h1 e1 x1
      refine wp_bind (wp_cdr h1 (h1.live (by tok)) ?_)
      intro cdr s2 T2 h2 e2 x2
      refine wp_bind (wp_X h2 (by tok) ?_)
      intro s3 T3 h3 e3
      refine wp_bind (wp_dataOf (h3.live (by tok)) fun c3 _ => ?_)
      refine wp_bind (wp_lift (Data.number_ne _) fun kk _ => ?_)
      have app : wp (do let nxt ← appendH n res car; escapesH n cdr false nxt) Q s3 := by
        refine wp_bind (wp_append h3 (by tok) ?_)
        intro nxt s4 T4 h4 e4
        refine ih h4 (by tok) ?_
        intro r s5 T5 h5 e5
        exact k r s5 T5 h5 (by tok)
      have repl : ∀ z, wp (do X car; let car' ← mkChr z; let nxt ← appendH n res car'; escapesH n cdr false nxt) Q s3 := by
        intro z
        refine wp_bind (wp_X h3 (by tok) ?_)
        intro s4 T4 h4 e4
        refine wp_bind (wp_mk h4 rfl ?_)
        intro car' s5 T5 h5 e5 _
        refine wp_bind (wp_append h5 (by tok) ?_)
        intro nxt s6 T6 h6 e6
        refine ih h6 (by tok) ?_
        intro r s7 T7 h7 e7
        exact k r s7 T7 h7 (by tok)
      refine wp_ite (fun _ => ?_) (fun _ => ?_)
      · refine wp_ite (fun _ => repl _) (fun _ => ?_)
        exact wp_ite (fun _ => repl _) (fun _ => app)
      · refine wp_ite (fun _ => ?_) (fun _ => app)
        refine wp_bind (wp_X h3 (by tok) ?_)
        intro s4 T4 h4 e4
        refine ih h4 (by tok) ?_
        intro r s5 T5 h5 e5
        exact k r s5 T5 h5 (by tok)

theorem wp_chars {Q : Addr → HSt → Prop} : ∀ (l : List Int) {s : HSt} {T : Addr → Nat}, Inv s T →
    (∀ r s' T', Inv s' T' → (∀ b, T' b = T b + one r b) → Q r s') → wp (charsH l) Q s := by
  intro l
  induction l generalizing Q with
  | nil => intro s T h k; exact wp_nil h fun r s' T' h' e _ => k r s' T' h' e
  | cons z l ih =>
    intro s T h k
    refine wp_bind (ih h ?_)
    intro res s1 T1 h1 e1
    refine wp_bind (wp_mk h1 rfl ?_)
    intro c s2 T2 h2 e2 _
    refine wp_cons h2 (by tok) ?_
    intro r s3 T3 h3 e3 _
    exact k r s3 T3 h3 (by tok)

theorem wp_makeString {Q : Addr → HSt → Prop} {n : Nat} {l : List UInt8} {s : HSt} {T : Addr → Nat}
    (h : Inv s T) (k : ∀ r s' T', Inv s' T' → (∀ b, T' b = T b + one r b) → Q r s') :
    wp (makeStringH n l) Q s := by
  refine wp_bind (wp_chars _ h ?_)
  intro res s1 T1 h1 e1
  refine wp_bind (wp_nil h1 ?_)
  intro nl s2 T2 h2 e2 _
  refine wp_escapes n h2 (by tok) ?_
  intro r s3 T3 h3 e3
  exact k r s3 T3 h3 (by tok)

end Heap
end Mnml
