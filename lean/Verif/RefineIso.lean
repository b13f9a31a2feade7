import Verif.RefineEval

/-!
# Refinement: cells that nothing else refers to

If every cell of a region has a single reference, and that reference comes from the region or from the running code,
then no other value contains a cell of the region. Flags set in the region are then not visible anywhere else.
-/

namespace Mnml
namespace Heap

theorem sumTo_two {f : Nat → Nat} {n k l : Nat} (hk : k < n) (hl : l < n) (hne : k ≠ l) : f k + f l ≤ sumTo f n := by
  induction n with
  | zero => omega
  | succ n ih =>
    simp only [sumTo]
    by_cases ek : k = n
    · subst ek
      have := le_sumTo (f := f) (n := k) (k := l) (by omega)
      omega
    · by_cases el : l = n
      · subst el
        have := le_sumTo (f := f) (n := l) (k := k) (by omega)
        omega
      · have := ih (by omega) (by omega)
        omega

/-! ## Regions -/

/-- No cell of `D` is part of the value at `r`. -/
def Away (D : List Addr) (m : Addr → Option Cell) (r : Addr) : Prop := ∀ x, Part m r x → x ∉ D

/-- … and all its parts are there. -/
def Apart (D : List Addr) (m : Addr → Option Cell) (r : Addr) : Prop := ∀ x, Part m r x → x ∉ D ∧ m x ≠ none

/-- Every cell of `D` has one reference, which is the code's to `full` or is in a cell of `D`. -/
structure Region (O : List Addr) (s : HSt) (full : Addr) (D : List Addr) : Prop where
  one : ∀ d, d ∈ D → ∃ c, s.mem d = some c ∧ c.refs = 1
  src : ∀ d, d ∈ D → d = full ∨ ∃ p c, p ∈ D ∧ p ∉ O ++ s.zombies ∧ s.mem p = some c ∧ 0 < occ c.data d

section
variable {O D : List Addr} {s : HSt} {T : Addr → Nat} {full : Addr}

/-- The reference that the region accounts for. -/
theorem Region.ref (g : Region O s full D) (i : InvO O s T) {d : Addr} (hd : d ∈ D) :
    total O s T d = 1 ∧ (d = full ∨ 0 < edges (O ++ s.zombies) s.mem s.next d) := by
  obtain ⟨c, hc, hr⟩ := g.one d hd
  refine ⟨(i.exact d c hc).symm.trans hr, ?_⟩
  rcases g.src d hd with e | ⟨p, cp, hp, hn, hm, ho⟩
  · exact .inl e
  · refine .inr ?_
    have := le_sumTo (f := contrib (O ++ s.zombies) s.mem d) (i.lt hm)
    rw [contrib_some hn hm] at this
    unfold edges
    omega

theorem Region.glob (g : Region O s full D) (i : InvO O s T) (hf : 0 < T full) {r : Addr}
    (hr : r ∈ s.globals.map Prod.snd) : r ∉ D := by
  intro hd
  obtain ⟨h1, h2⟩ := g.ref i hd
  have : 0 < (s.globals.map Prod.snd).count r := List.count_pos_iff.2 hr
  unfold total roots at h1
  rcases h2 with rfl | h2 <;> omega

theorem Region.own (g : Region O s full D) (i : InvO O s T) {r : Addr} (h0 : 0 < T r) (hf : r = full → 1 < T r) : r ∉ D := by
  intro hd
  obtain ⟨h1, h2⟩ := g.ref i hd
  unfold total at h1
  rcases h2 with e | h2
  · have := hf e; omega
  · omega

theorem Region.edge (g : Region O s full D) (i : InvO O s T) (hf : 0 < T full) {b d : Addr} {c : Cell} (hb : b ∉ D)
    (hn : b ∉ O ++ s.zombies) (hc : s.mem b = some c) (ho : 0 < occ c.data d) : d ∉ D := by
  intro hd
  obtain ⟨h1, _⟩ := g.ref i hd
  unfold total at h1
  have e1 := le_sumTo (f := contrib (O ++ s.zombies) s.mem d) (i.lt hc)
  rw [contrib_some hn hc] at e1
  unfold edges at h1
  rcases g.src d hd with e | ⟨p, cp, hp, hnp, hm, hop⟩
  · subst e; omega
  · have := sumTo_two (f := contrib (O ++ s.zombies) s.mem d) (i.lt hc) (i.lt hm) (fun e => hb (e ▸ hp))
    rw [contrib_some hn hc, contrib_some hnp hm] at this
    omega

/-- Values outside of a region do not meet it. -/
theorem Region.apart (g : Region O s full D) (i : InvO O s T) (hf : 0 < T full) {A : List Addr} (hA : ∀ a, a ∈ O → a ∈ A)
    {r : Addr} (hd : r ∉ D) (l : Live s r) (np : r ∉ O) (kids : ∀ c x y, s.mem r = some c → c.data = .pair x y →
      (∃ v, Repr A s.mem x v) ∧ ∃ v, Repr A s.mem y v) : Apart D s.mem r := by
  have key : ∀ x, Part s.mem r x → x ∉ D ∧ Live s x ∧ x ∉ O ∧ ∀ c y z, s.mem x = some c → c.data = .pair y z →
      (∃ v, Repr A s.mem y v) ∧ ∃ v, Repr A s.mem z v := by
    have sub : ∀ {x : Addr}, (∃ v, Repr A s.mem x v) → x ∉ O ∧ ∀ c y z, s.mem x = some c → c.data = .pair y z →
        (∃ v, Repr A s.mem y v) ∧ ∃ v, Repr A s.mem z v := by
      rintro x ⟨v, hv⟩
      refine ⟨fun h => hv.out (hA x h), ?_⟩
      intro c y z hc hcd
      cases hv with
      | @atom _ c' _ _ hc' hv' => rw [hc] at hc'; cases hc'; unfold Cell.val at hv'; rw [hcd] at hv'; cases hv'
      | @pair _ x' y' c' u w _ hc' hd' hx' hy' =>
        rw [hc] at hc'; cases hc'; rw [hcd] at hd'; cases hd'
        exact ⟨⟨_, hx'⟩, ⟨_, hy'⟩⟩
    intro x hx
    induction hx with
    | refl => exact ⟨hd, l, np, kids⟩
    | @car b x y c _ hc hcd ih =>
      obtain ⟨h1, h2, h3, h4⟩ := ih
      have hn : b ∉ O ++ s.zombies := by simp only [List.mem_append, not_or]; exact ⟨h3, h2.2⟩
      have := sub (h4 c x y hc hcd).1
      refine ⟨g.edge i hf h1 hn hc ?_, i.childCar h2 h3 hc hcd, this.1, this.2⟩
      rw [hcd, occ_pair, one_self]; omega
    | @cdr b x y c _ hc hcd ih =>
      obtain ⟨h1, h2, h3, h4⟩ := ih
      have hn : b ∉ O ++ s.zombies := by simp only [List.mem_append, not_or]; exact ⟨h3, h2.2⟩
      have := sub (h4 c x y hc hcd).2
      refine ⟨g.edge i hf h1 hn hc ?_, i.childCdr h2 h3 hc hcd, this.1, this.2⟩
      rw [hcd, occ_pair, one_self]; omega
  intro x hx
  obtain ⟨h1, ⟨⟨c, hc⟩, _⟩, _⟩ := key x hx
  exact ⟨h1, by rw [hc]; simp⟩
end

/-- The addresses of the plain values. -/
def B.toks : B → List Addr
  | tok a _ _ => [a]
  | ref _ => []
  | pc .. => []
  | node _ _ x y => x.toks ++ y.toks

theorem B.Ok.toks {A : List Addr} {m : Addr → Option Cell} {σ : B} (h : σ.Ok A m) {r : Addr} (hr : r ∈ σ.toks) :
    r ∈ σ.own ∧ ∃ v, Repr A m r v := by
  induction σ with
  | tok a v ps =>
    rw [List.mem_singleton.1 hr]
    exact ⟨by simp [B.own], v, h.1⟩
  | ref => cases hr
  | pc => cases hr
  | node a t x y ix iy =>
    rcases List.mem_append.1 hr with hr | hr
    · have := ix h.2.1 hr
      exact ⟨by simp [B.own, this.1], this.2⟩
    · have := iy h.2.2 hr
      exact ⟨by simp [B.own, this.1], this.2⟩

/-- Nothing else that the code owns, and no global variable, meets the region. -/
def Alone (D : List Addr) (Γ : List B) (s : HSt) : Prop :=
  (∀ σ, σ ∈ Γ → ∀ r, r ∈ σ.toks → Apart D s.mem r) ∧ ∀ r, r ∈ s.globals.map Prod.snd → Apart D s.mem r

theorem SimG.alone {G : List Ent} {Γ : List B} {s : HSt} {st : St} {full : Addr} {v : Val} {ps : List (Addr × Val)}
    {D : List Addr} (h : SimG G (.tok full v ps :: Γ) s st) (g : Region (priv (.tok full v ps :: Γ)) s full D) : Alone D Γ s := by
  have hf : 0 < ones (own (.tok full v ps :: Γ)) full := by
    have := ones_mem (l := own (.tok full v ps :: Γ)) (a := full) (by simp [own_cons, B.own]) full
    rw [one_self] at this
    exact this
  have hA : ∀ a, a ∈ priv (.tok full v ps :: Γ) → a ∈ avoid G (.tok full v ps :: Γ) := fun a ha => List.mem_append_left _ ha
  constructor
  · intro σ hσ r hr
    obtain ⟨ho, w, hw⟩ := (h.ok σ (List.mem_cons_of_mem _ hσ)).toks hr
    have hm := own_mem (List.mem_cons_of_mem (.tok full v ps) hσ) ho
    have hm' := ones_mem (own_mem hσ ho) r
    rw [one_self] at hm'
    have hone := ones_mem hm r
    rw [one_self] at hone
    refine g.apart h.inv hf hA (g.own h.inv hone ?_) (h.live hm) (fun hp => hw.out (hA r hp)) ?_
    · rintro rfl
      rw [own_cons, ones_append]
      simp only [B.own, ones_cons, ones_nil, one_self]
      omega
    · intro c x y hc hcd
      cases hw with
      | @atom _ c' _ _ hc' hv' => rw [hc] at hc'; cases hc'; unfold Cell.val at hv'; rw [hcd] at hv'; cases hv'
      | @pair _ x' y' c' u w _ hc' hd' hx' hy' =>
        rw [hc] at hc'; cases hc'; rw [hcd] at hd'; cases hd'
        exact ⟨⟨_, hx'⟩, ⟨_, hy'⟩⟩
  · intro r hr
    have hr' := hr
    rw [h.glob, List.map_map] at hr'
    obtain ⟨e, he, rfl⟩ := List.mem_map.1 hr'
    have hnp : e.addr ∉ priv (.tok full v ps :: Γ) := fun hp => h.priv_entry hp (List.mem_map.2 ⟨e, he, rfl⟩)
    refine g.apart h.inv hf hA (g.glob h.inv hf hr) (h.entry_live he) hnp ?_
    intro c x y hc hcd
    obtain ⟨⟨c', hc', hd'⟩, hk, hv⟩ := h.ent e he
    have hc2 : s.mem e.addr = some c := hc
    rw [hc'] at hc2; cases hc2
    rw [hd'] at hcd; cases hcd
    exact ⟨hk, ⟨_, hv⟩⟩

/-- What happens to new cells does not matter. -/
theorem Apart.later {D : List Addr} {s s' : HSt} {n : Nat} {r : Addr} (h : Apart D s.mem r)
    (hn : ∀ a c, s.mem a = some c → a < n) (k : Kp n s s') : Away D s'.mem r := by
  have key : ∀ x, Part s'.mem r x → Part s.mem r x := by
    intro x hx
    induction hx with
    | refl => exact .refl
    | @car b x y c _ hc hd ih =>
      cases hb : s.mem b with
      | none => exact absurd hb (h b ih).2
      | some cb =>
        obtain ⟨c0, h0, e0, _⟩ := k.2.2 b c (hn b cb hb) hc
        exact .car ih h0 (e0.symm.trans hd)
    | @cdr b x y c _ hc hd ih =>
      cases hb : s.mem b with
      | none => exact absurd hb (h b ih).2
      | some cb =>
        obtain ⟨c0, h0, e0, _⟩ := k.2.2 b c (hn b cb hb) hc
        exact .cdr ih h0 (e0.symm.trans hd)
  exact fun x hx => (h x (key x hx)).1

/-! ## Setting flags -/

/-- Set the flags of the cells in `F`. -/
def flagM (F : List Addr) (m : Addr → Option Cell) : Addr → Option Cell := fun a =>
  (m a).map fun c => if a ∈ F then { c with tc := true } else c

/-- The state with these flags. -/
def flagS (F : List Addr) (s : HSt) : HSt := { s with mem := flagM F s.mem }

theorem flagM_some {F : List Addr} {m : Addr → Option Cell} {a : Addr} {c : Cell} (h : m a = some c) :
    flagM F m a = some (if a ∈ F then { c with tc := true } else c) := by simp [flagM, h]

theorem flagM_inv {F : List Addr} {m : Addr → Option Cell} {a : Addr} {c : Cell} (h : flagM F m a = some c) :
    ∃ c0, m a = some c0 ∧ c = if a ∈ F then { c0 with tc := true } else c0 := by
  unfold flagM at h
  cases hm : m a with
  | none => rw [hm] at h; cases h
  | some c0 => rw [hm] at h; cases h; exact ⟨c0, rfl, rfl⟩

theorem flag_data {F : List Addr} {a : Addr} {c : Cell} : (if a ∈ F then { c with tc := true } else c).data = c.data := by
  split <;> rfl
theorem flag_refs {F : List Addr} {a : Addr} {c : Cell} : (if a ∈ F then { c with tc := true } else c).refs = c.refs := by
  split <;> rfl
theorem flag_cache {F : List Addr} {a : Addr} {c : Cell} : (if a ∈ F then { c with tc := true } else c).cache = c.cache := by
  split <;> rfl

theorem flagM_none {F : List Addr} {m : Addr → Option Cell} {a : Addr} : flagM F m a = none ↔ m a = none := by
  unfold flagM
  cases m a <;> simp

theorem InvO.flag {O F : List Addr} {s : HSt} {T : Addr → Nat} (h : InvO O s T) : InvO O (flagS F s) T := by
  have he : ∀ b, edges (O ++ (flagS F s).zombies) (flagS F s).mem (flagS F s).next b = edges (O ++ s.zombies) s.mem s.next b := by
    intro b
    refine edges_eq fun x _ => ?_
    show contrib (O ++ s.zombies) (flagM F s.mem) b x = _
    unfold contrib
    split
    · rfl
    · cases hx : s.mem x with
      | none => rw [flagM_none.2 hx]
      | some c => rw [flagM_some hx]; simp only [flag_data]
  have ht : ∀ a, total O (flagS F s) T a = total O s T a := by
    intro a
    unfold total
    rw [he]
    rfl
  refine ⟨?_, ?_, ?_, ?_, ?_, ?_, ?_⟩
  · intro a ha; exact flagM_none.2 (h.fresh a ha)
  · intro a c hc
    obtain ⟨c0, h0, rfl⟩ := flagM_inv hc
    rw [ht, flag_refs]; exact h.exact a c0 h0
  · intro a ha; rw [ht]; exact h.dead a (flagM_none.1 ha)
  · intro a c hc ho
    obtain ⟨c0, h0, rfl⟩ := flagM_inv hc
    rw [flag_refs]; exact h.pos a c0 h0 ho
  · intro o ho hn; exact h.opn o ho (flagM_none.1 hn)
  · intro z hz; rw [he]; exact h.zomb z hz
  · intro a c d hc hd
    obtain ⟨c0, h0, rfl⟩ := flagM_inv hc
    rw [flag_cache] at hd
    exact h.cache a c0 d h0 hd

theorem Repr.flag {A F : List Addr} {m : Addr → Option Cell} {a : Addr} {v : Val} (h : Repr A m a v) (w : Away F m a) :
    Repr A (flagM F m) a v := by
  induction h with
  | @atom a c v ha hc hv =>
    have hn : a ∉ F := w a .refl
    refine .atom ha (c := c) ?_ hv
    rw [flagM_some hc, if_neg hn]
  | @pair a x y c u v ha hc hd _ _ ix iy =>
    have hn : a ∉ F := w a .refl
    refine .pair ha (c := c) ?_ hd (ix fun z hz => w z (Part.trans (.car .refl hc hd) hz))
      (iy fun z hz => w z (Part.trans (.cdr .refl hc hd) hz))
    rw [flagM_some hc, if_neg hn]

theorem Part.flag {F : List Addr} {m : Addr → Option Cell} {a b : Addr} (h : Part m a b) : Part (flagM F m) a b := by
  induction h with
  | refl => exact .refl
  | car _ hc hd ih => exact .car ih (flagM_some hc) (flag_data.trans hd)
  | cdr _ hc hd ih => exact .cdr ih (flagM_some hc) (flag_data.trans hd)

theorem B.Ok.flag {A F : List Addr} {m : Addr → Option Cell} {σ : B} (h : σ.Ok A m) (hp : ∀ a, a ∈ σ.priv → a ∉ F)
    (w : ∀ r, r ∈ σ.toks → Away F m r) : σ.Ok A (flagM F m) := by
  induction σ with
  | tok a v ps =>
    have wa := w a (by simp [B.toks])
    refine ⟨h.1.flag wa, fun p hp' => ?_⟩
    obtain ⟨r, hr⟩ := h.2 p hp'
    exact ⟨r.flag, hr.flag fun z hz => wa z (r.trans hz)⟩
  | ref => trivial
  | pc a t x y =>
    obtain ⟨c, hc, h1, h2, h3⟩ := h
    refine ⟨c, ?_, h1, h2, h3⟩
    rw [flagM_some hc, if_neg (hp a (by simp [B.priv]))]
  | node a t x y ix iy =>
    obtain ⟨⟨c, hc, h1, h2, h3⟩, hx, hy⟩ := h
    refine ⟨⟨c, ?_, h1, h2, h3⟩, ix hx (fun b hb => hp b (by simp [B.priv, hb])) (fun r hr => w r (by simp [B.toks, hr])),
      iy hy (fun b hb => hp b (by simp [B.priv, hb])) (fun r hr => w r (by simp [B.toks, hr]))⟩
    rw [flagM_some hc, if_neg (hp a (by simp [B.priv]))]

/-- A tree with flags is a tree. -/
theorem Repr.flagged {A : List Addr} {m : Addr → Option Cell} {a : Addr} {v : Val} (h : Repr A m a v) (F : List Addr) :
    ∃ w, Repr A (flagM F m) a w := by
  induction h with
  | @atom a c v hn hc hv =>
    have hm := flagM_some (F := F) hc
    by_cases e : a ∈ F
    · rw [if_pos e] at hm
      unfold Cell.val at hv
      cases hd : c.data with
      | pair x y => rw [hd] at hv; cases hv
      | sym k => exact ⟨.sym true k, .atom hn hm (by unfold Cell.val; simp only [hd])⟩
      | _ => exact ⟨_, .atom hn hm (by unfold Cell.val; simp only [hd]; rfl)⟩
    · rw [if_neg e] at hm
      exact ⟨v, .atom hn hm hv⟩
  | @pair a x y c u w hn hc hd _ _ ix iy =>
    obtain ⟨u', hu⟩ := ix
    obtain ⟨w', hw⟩ := iy
    exact ⟨_, .pair hn (flagM_some hc) (flag_data.trans hd) hu hw⟩

/-- Flags in cells that only the references `Δ` meet. -/
theorem SimG.flag {G : List Ent} {Δ Δ' Γ : List B} {s : HSt} {st : St} {F : List Addr} (h : SimG G (Δ ++ Γ) s st)
    (ho : own Δ' = own Δ) (hp : priv Δ' = priv Δ) (hF : ∀ x, x ∈ F → x ∉ avoid G (Δ ++ Γ))
    (hΓ : ∀ σ, σ ∈ Γ → ∀ r, r ∈ σ.toks → Away F s.mem r) (hG : ∀ r, r ∈ s.globals.map Prod.snd → Away F s.mem r)
    (hΔ : ∀ σ, σ ∈ Δ' → σ.Ok (avoid G (Δ ++ Γ)) (flagM F s.mem)) : SimG G (Δ' ++ Γ) (flagS F s) st := by
  have eo : own (Δ' ++ Γ) = own (Δ ++ Γ) := by simp only [own, List.flatMap_append] at ho ⊢; rw [ho]
  have ep : priv (Δ' ++ Γ) = priv (Δ ++ Γ) := by simp only [priv, List.flatMap_append] at hp ⊢; rw [hp]
  have ea : avoid G (Δ' ++ Γ) = avoid G (Δ ++ Γ) := by unfold avoid; rw [ep]
  refine ⟨?_, ?_, ?_, h.glob, h.keys, h.addrs, h.vals, ?_, h.out, h.strict, ?_⟩
  · rw [eo, ep]; exact h.inv.flag
  · intro σ hσ
    rw [ea]
    rcases List.mem_append.1 hσ with hσ | hσ
    · exact hΔ σ hσ
    · refine (h.ok σ (List.mem_append_right _ hσ)).flag (fun a ha hf => ?_) (hΓ σ hσ)
      exact hF a hf (List.mem_append_left _ (priv_mem (List.mem_append_right _ hσ) ha))
  · intro e he
    rw [ea]
    obtain ⟨⟨c, hc, hd⟩, ⟨v, hk⟩, hv⟩ := h.ent e he
    have w : Away F s.mem e.addr := hG _ (by rw [h.glob, List.map_map]; exact List.mem_map.2 ⟨e, he, rfl⟩)
    exact ⟨⟨_, flagM_some hc, flag_data.trans hd⟩, ⟨v, hk.flag fun z hz => w z (Part.trans (.car .refl hc hd) hz)⟩,
      hv.flag fun z hz => w z (Part.trans (.cdr .refl hc hd) hz)⟩
  · intro a c d k hc hd hk
    obtain ⟨c0, h0, rfl⟩ := flagM_inv hc
    rw [flag_cache] at hd
    rw [flag_data] at hk
    exact h.cache a c0 d k h0 hd hk
  · intro a l na
    rw [ea] at na ⊢
    obtain ⟨⟨c, hc⟩, hz⟩ := l
    obtain ⟨c0, h0, _⟩ := flagM_inv hc
    obtain ⟨v, hv⟩ := h.all a ⟨⟨c0, h0⟩, hz⟩ na
    exact hv.flagged F

end Heap
end Mnml
