import Verif.RefineStep

/-!
# Refinement: abandoned references, output and the global table
-/

namespace Mnml
namespace Heap

/-! ## Output and abandoned references -/

theorem sat_emit {Q : Unit → HSt → Prop} {Γ : List B} {s : HSt} {st : St} {l : List UInt8} (h : Sim Γ s st)
    (k : ∀ s', Sim Γ s' { st with out := st.out ++ l } → Q () s') : Sat (emitH l) Q s := by
  obtain ⟨G, h⟩ := h
  refine Sat.ok rfl (k _ ⟨G, ?_⟩)
  have hi := h.inv
  exact ⟨⟨hi.fresh, hi.exact, hi.dead, hi.pos, hi.opn, hi.zomb, hi.cache⟩, h.ok, h.ent, h.glob, h.keys, h.addrs,
    h.vals, h.cache, by rw [← h.out], h.strict, h.all⟩

theorem count_cons_one (a b : Addr) (l : List Addr) : (a :: l).count b = l.count b + one a b := by
  rw [List.count_cons]
  simp only [one, beq_iff_eq]
  by_cases hb : a = b
  · simp [hb]
  · have : ¬ b = a := fun x => hb x.symm
    simp [hb, this]

theorem sat_leak {Q : Unit → HSt → Prop} {Γ : List B} {s : HSt} {st : St} {a : Addr} (h : Sim (.ref a :: Γ) s st)
    (k : ∀ s', Sim Γ s' st → Q () s') : Sat (leak a) Q s := by
  obtain ⟨G, h⟩ := h
  refine Sat.ok rfl (k _ ⟨G, ?_⟩)
  have e : ∀ b, ones (own (.ref a :: Γ)) b = one a b + ones (own Γ) b := fun b => by rw [own_cons]; rfl
  have ep : priv (.ref a :: Γ) = priv Γ := by simp [priv_cons, B.priv]
  have hi := h.inv
  rw [ep] at hi
  have tot : ∀ b, total (priv Γ) { s with leaked := a :: s.leaked } (ones (own Γ)) b
      = total (priv Γ) s (ones (own (.ref a :: Γ))) b := by
    intro b
    have h1 := e b
    have h2 := count_cons_one a b s.leaked
    simp only [total, roots]
    omega
  refine h.step (W := []) (U := []) (s' := { s with leaked := a :: s.leaked }) ⟨hi.fresh, ?_, ?_, hi.pos, hi.opn, ?_, hi.cache⟩
    ?_ (by simp) (fun b hb => .inl (ep ▸ hb)) rfl rfl rfl h.cache ?_
    (fun b lb hb => .inl ⟨lb, by unfold avoid; rw [ep]; exact hb⟩)
  · intro b c hb; rw [tot]; exact hi.exact b c hb
  · intro b hb; rw [tot]; exact hi.dead b hb
  · intro z hz
    refine ⟨List.mem_cons_of_mem _ (hi.zomb z hz).1, ?_⟩
    have h1 := (hi.zomb z hz).2
    have h2 := e z
    simp only
    omega
  · intro b c c' hb hb'
    simp only at hb'
    rw [hb] at hb'; cases hb'
    exact ⟨fun _ => ⟨rfl, rfl⟩, fun _ => Nat.le_refl _⟩
  · intro σ hσ; exact .inl ⟨h.ok σ (by simp [hσ]), by simp⟩

theorem sat_abandon {Q : Unit → HSt → Prop} {Γ : List B} {s : HSt} {st : St} {a x y : Addr} {t : Bool}
    (h : Sim (.pc a t x y :: Γ) s st) (k : ∀ s', Sim Γ s' st → Q () s') : Sat (abandon a) Q s := by
  obtain ⟨G, h⟩ := h
  refine Sat.ok rfl (k _ ⟨G, ?_⟩)
  have hu := h.pc_unique
  have e : ∀ b, ones (own (.pc a t x y :: Γ)) b = one a b + ones (own Γ) b := fun b => by rw [own_cons]; rfl
  have ep : priv (.pc a t x y :: Γ) = a :: priv Γ := by simp [priv_cons, B.priv]
  have ho := h.priv_once (a := a) (by simp [priv_cons, B.priv])
  have hi := h.inv
  obtain ⟨c, hc, hr, ht, hd⟩ := h.ok _ (List.mem_cons_self ..)
  rw [ep] at hi ho
  have ed : ∀ b, edges (priv Γ ++ a :: s.zombies) s.mem s.next b = edges (a :: priv Γ ++ s.zombies) s.mem s.next b := by
    intro b
    refine edges_eq fun z _ => ?_
    unfold contrib
    have : z ∈ priv Γ ++ a :: s.zombies ↔ z ∈ a :: priv Γ ++ s.zombies := by
      simp only [List.mem_append, List.mem_cons]
      constructor
      · rintro (h | h | h) <;> simp [h]
      · rintro ((h | h) | h) <;> simp [h]
    by_cases hz : z ∈ a :: priv Γ ++ s.zombies
    · rw [if_pos hz, if_pos (this.2 hz)]
    · rw [if_neg hz, if_neg (fun h => hz (this.1 h))]
  have tot : ∀ b, total (priv Γ) { s with leaked := a :: s.leaked, zombies := a :: s.zombies } (ones (own Γ)) b
      = total (a :: priv Γ) s (ones (own (.pc a t x y :: Γ))) b := by
    intro b
    have h1 := e b
    have h2 := count_cons_one a b s.leaked
    have h3 := ed b
    simp only [total, roots]
    omega
  refine h.step (W := []) (U := []) (s' := { s with leaked := a :: s.leaked, zombies := a :: s.zombies })
    ⟨hi.fresh, ?_, ?_, ?_, ?_, ?_, hi.cache⟩
    ?_ (by simp) (fun b hb => .inl (by rw [ep]; simp [hb])) rfl rfl rfl h.cache ?_ ?_
  · intro b c hb; rw [tot]; exact hi.exact b c hb
  · intro b hb; rw [tot]; exact hi.dead b hb
  · intro b c' hb hp
    by_cases eb : b = a
    · subst eb
      simp only at hb
      rw [hc] at hb; cases hb
      omega
    · exact hi.pos b c' hb (by simp [eb, hp])
  · intro o hO; exact hi.opn o (by simp [hO])
  · intro z hz
    simp only at hz ⊢
    rw [ed z]
    by_cases eb : z = a
    · subst eb
      refine ⟨by simp, ?_⟩
      have h1 := e z
      rw [one_self] at h1
      have h2 := ho.2.2
      unfold roots at h2
      omega
    · have hz' : z ∈ s.zombies := by simpa [eb] using hz
      refine ⟨List.mem_cons_of_mem _ (hi.zomb z hz').1, ?_⟩
      have h1 := (hi.zomb z hz').2
      have h2 := e z
      omega
  · intro b c c' hb hb'
    simp only at hb'
    rw [hb] at hb'; cases hb'
    exact ⟨fun _ => ⟨rfl, rfl⟩, fun _ => Nat.le_refl _⟩
  · intro σ hσ; exact .inl ⟨h.ok σ (by simp [hσ]), by simp⟩
  · intro b l nb
    have l2 := l.2
    simp only [List.mem_cons, not_or] at l2
    refine .inl ⟨⟨l.1, l2.2⟩, ?_⟩
    simp only [avoid, ep, List.mem_append, List.mem_cons, not_or] at nb ⊢
    exact ⟨⟨l2.1, nb.1⟩, nb.2⟩

theorem sat_fresh {Q : Unit → HSt → Prop} {s : HSt} {u : UB} {a : Addr} (k : Live s a → Q () s) : Sat (fresh u a) Q s := by
  intro r s' e
  unfold fresh at e
  split at e
  · rename_i hc
    cases e
    exact k ⟨Option.isSome_iff_exists.1 hc.1, hc.2⟩
  · cases e

theorem sat_entry {Q : Addr × Addr → HSt → Prop} {s : HSt} {sy : Sym} {a x y : Addr} {c : Cell} (hc : s.mem a = some c)
    (hd : c.data = .pair x y) (k : Q (x, y) s) : Sat (entryH sy a) Q s := by
  rintro ⟨x', y'⟩ s' e
  obtain ⟨rfl, c', _, hc', hd', _⟩ := entryH_ok e
  rw [hc] at hc'; cases hc'
  rw [hd] at hd'; cases hd'
  exact k

theorem sat_own {Q : UB → HSt → Prop} {s : HSt} {a : Addr} (k : ∀ u, Q u s) : Sat (ownH a) Q s := by
  intro u s' e
  unfold ownH at e
  replace e := HM.ok_inv e; obtain ⟨c, s1, e1, e⟩ := e
  obtain ⟨rfl, _⟩ := cell_inv e1
  replace e := HM.ok_inv e; obtain ⟨p, s2, e2, e⟩ := e
  obtain ⟨rfl, _⟩ := pairOf_inv e2
  replace e := HM.ok_inv e; obtain ⟨c2, s3, e3, e⟩ := e
  obtain ⟨rfl, _⟩ := cell_inv e3
  cases e
  exact k _

/-! ## Reading the environment -/

/-- `findH` finds the binding that `assq` finds. -/
theorem sat_find {Q : Option Addr → HSt → Prop} {s : HSt} {k : Sym} (n : Nat) : ∀ {a : Addr} {v : Val},
    Rep s.mem a v →
    (v.assq k = .ok none → Q none s) →
    (∀ kv t u w, v.assq k = .ok (some w) → Rep s.mem kv (.pair t u w) → (∀ b, Part s.mem b a → Part s.mem b kv) →
      Q (some kv) s) → Sat (findH n a k) Q s := by
  induction n with
  | zero => intros; exact Sat.oof
  | succ n ih =>
    intro a v r k1 k2
    refine Sat.bind (sat_pairOf r ?_)
    intro kv y t u w e hkv hy rkv ry
    refine Sat.bind (sat_pairOf hkv ?_)
    intro kk vv t' u' w' e' hk hv rk rv
    refine Sat.bind (sat_data hk ?_)
    intro d hd
    rw [hd.symIs k]
    subst e e'
    refine Sat.ite (fun hc => ?_) (fun hc => ?_)
    · exact Sat.pure (k2 kv t' u' w' (by simp [Val.assq, hc]) hkv rkv)
    · refine Sat.bind (sat_data hy ?_)
      intro d' hd'
      rw [hd'.isPair]
      refine Sat.ite (fun hp => ?_) (fun hp => ?_)
      · obtain ⟨t2, u2, w2, rfl⟩ : ∃ t u v, w = .pair t u v := by
          cases w <;> simp [Val.isPair] at hp ⊢
        refine ih hy (fun e => k1 (by simp [Val.assq, hc]; exact e)) ?_
        intro kv2 t3 u3 w3 e3 r3 reach
        exact k2 kv2 t3 u3 w3 (by rw [← e3]; simp [Val.assq, hc]) r3 (fun b hb => reach b (ry b hb))
      · refine Sat.pure (k1 ?_)
        simp only [Val.assq, hc]
        cases w <;> first | rfl | (simp [Val.isPair] at hp)

theorem sat_assoc {Q : Option Addr → HSt → Prop} {s : HSt} {k : Sym} {n : Nat} {a : Addr} {v : Val} (r : Rep s.mem a v)
    (k1 : v.assq k = .ok none → Q none s)
    (k2 : ∀ kv t u w, v.assq k = .ok (some w) → Rep s.mem kv (.pair t u w) →
      (∀ b, Part s.mem b a → Part s.mem b kv) → Q (some kv) s) : Sat (assocH n a k) Q s := by
  refine Sat.bind (sat_data r fun d hd => ?_)
  rw [hd.isNil]
  refine Sat.ite (fun hn => ?_) (fun _ => sat_find n r k1 k2)
  cases v <;> simp [Val.isNil] at hn
  exact Sat.pure (k1 rfl)

/-! ## The global table -/

theorem SimG.globalOf {G : List Ent} {Γ : List B} {s : HSt} {st : St} {k : Sym} (h : SimG G Γ s st) :
    globalOf k s = .ok ((G.find? fun e => e.key = k).map Ent.addr, s) := by
  unfold Heap.globalOf
  rw [h.glob, List.find?_map]
  simp only [Option.map_map]
  rfl

theorem SimG.find {G : List Ent} {Γ : List B} {s : HSt} {st : St} {k : Sym} {e : Ent} (_h : SimG G Γ s st)
    (f : (G.find? fun e => e.key = k) = some e) : e ∈ G ∧ e.key = k :=
  ⟨List.mem_of_find?_eq_some f, by simpa using List.find?_some f⟩

theorem find_key {G : List Ent} (hk : (G.map Ent.key).Nodup) {e : Ent} (he : e ∈ G) :
    (G.find? fun e' => e'.key = e.key) = some e := by
  induction G with
  | nil => cases he
  | cons g G ih =>
    simp only [List.map_cons, List.nodup_cons] at hk
    rcases List.mem_cons.1 he with h | h
    · subst h; simp
    · have : g.key ≠ e.key := fun h' => hk.1 (List.mem_map.2 ⟨e, h, h'.symm⟩)
      rw [List.find?_cons]
      simp only [this, decide_false]
      exact ih hk.2 h

theorem SimG.entryOf {G : List Ent} {Γ : List B} {s : HSt} {st : St} {k : Sym} {d : Addr} (h : SimG G Γ s st)
    (hd : (k, d) ∈ s.globals) : ∃ e, e ∈ G ∧ e.key = k ∧ e.addr = d ∧ st.globals k = some e.val := by
  rw [h.glob] at hd
  obtain ⟨e, he, ee⟩ := List.mem_map.1 hd
  have h1 : e.key = k := congrArg Prod.fst ee
  have h2 : e.addr = d := congrArg Prod.snd ee
  refine ⟨e, he, h1, h2, ?_⟩
  rw [h.vals k, ← h1, find_key h.keys he]
  rfl

/-- One more reference to the value of a variable. -/
theorem SimG.upEnt {G : List Ent} {Γ : List B} {s : HSt} {st : St} {e : Ent} (h : SimG G Γ s st) (he : e ∈ G) :
    ∃ c, s.mem e.vc = some c ∧
      SimG G (.tok e.vc e.val [] :: Γ) { s with mem := upd s.mem e.vc (some { c with refs := c.refs + 1 }) } st := by
  obtain ⟨⟨ce, hce, hd⟩, _, hv⟩ := h.ent e he
  have l : Live s e.vc := h.inv.childCdr (h.entry_live he)
    (fun hp => h.priv_entry hp (List.mem_map.2 ⟨e, he, rfl⟩)) hce hd
  obtain ⟨⟨c, hc⟩, hz⟩ := l
  exact ⟨c, hc, h.up hv ⟨⟨c, hc⟩, hz⟩ hc⟩

/-- One more reference to a cell. -/
theorem SimG.upRef {G : List Ent} {Γ : List B} {s : HSt} {st : St} {a : Addr} {c : Cell} (h : SimG G Γ s st)
    (l : Live s a) (hp : a ∉ priv Γ) (hc : s.mem a = some c) :
    SimG G (.ref a :: Γ) { s with mem := upd s.mem a (some { c with refs := c.refs + 1 }) } st := by
  have ep : priv (.ref a :: Γ) = priv Γ := by simp [priv_cons, B.priv]
  have i : InvO (priv (.ref a :: Γ)) { s with mem := upd s.mem a (some { c with refs := c.refs + 1 }) }
      (ones (own (.ref a :: Γ))) := by
    rw [ep]
    refine h.inv.touch l hc rfl ?_ (.inr (Nat.succ_pos _)) ?_
    · intro b
      show ones (own (.ref a :: Γ)) b + one a b * c.refs = ones (own Γ) b + one a b * (c.refs + 1)
      rw [own_cons, Nat.mul_add, Nat.mul_one]
      show one a b + ones (own Γ) b + _ = _
      omega
    · intro d hd; exact h.inv.cache a c d hc hd
  refine h.step i (W := []) (U := [a]) ?_ (by simp) (fun b hb => .inl (ep ▸ hb)) rfl rfl rfl ?_ ?_
    (fun b lb hb => .inl ⟨live_upd hc lb, by unfold avoid at hb ⊢; rwa [ep] at hb⟩)
  · intro b d d' hb hb'
    by_cases e : b = a
    · subst e
      simp only [upd_self] at hb'
      cases hb'
      rw [hc] at hb; cases hb
      exact ⟨fun _ => ⟨rfl, rfl⟩, fun hn => absurd (List.mem_singleton.2 rfl) hn⟩
    · simp only [upd_ne e] at hb'
      rw [hb] at hb'; cases hb'
      exact ⟨fun _ => ⟨rfl, rfl⟩, fun _ => Nat.le_refl _⟩
  · intro b d x k hb hx hk
    by_cases e : b = a
    · subst e
      simp only [upd_self] at hb
      cases hb
      exact h.cache b c x k hc hx hk
    · simp only [upd_ne e] at hb
      exact h.cache b d x k hb hx hk
  · intro σ hσ
    left
    rcases List.mem_cons.1 hσ with e | e
    · subst e; exact ⟨trivial, by simp [B.priv]⟩
    · refine ⟨h.ok σ e, fun b hb => ⟨by simp, ?_⟩⟩
      rw [List.mem_singleton]
      rintro rfl
      exact hp (priv_mem e hb)

theorem SimG.setCache {G : List Ent} {Γ : List B} {s : HSt} {st : St} {a d : Addr} {k : Sym} {c : Cell}
    (h : SimG G Γ s st) (l : Live s a) (hc : s.mem a = some c) (hk : c.data = .sym k) (hd : (k, d) ∈ s.globals) :
    SimG G Γ { s with mem := upd s.mem a (some { c with cache := some d }) } st := by
  have i : InvO (priv Γ) { s with mem := upd s.mem a (some { c with cache := some d }) } (ones (own Γ)) := by
    refine h.inv.touch l hc rfl (fun b => rfl) ?_ ?_
    · by_cases hp : a ∈ priv Γ
      · exact .inl hp
      · exact .inr (h.inv.pos a c hc hp)
    · intro d' hd'
      simp only [Option.some.injEq] at hd'
      subst hd'
      exact List.mem_map.2 ⟨_, hd, rfl⟩
  refine h.step i (W := []) (U := []) ?_ (by simp) (fun b hb => .inl hb) rfl rfl rfl ?_ ?_
    (fun b lb hb => .inl ⟨live_upd hc lb, hb⟩)
  · intro b c1 c2 hb hb'
    by_cases e : b = a
    · subst e
      simp only [upd_self] at hb'
      cases hb'
      rw [hc] at hb; cases hb
      exact ⟨fun _ => ⟨rfl, rfl⟩, fun _ => Nat.le_refl _⟩
    · simp only [upd_ne e] at hb'
      rw [hb] at hb'; cases hb'
      exact ⟨fun _ => ⟨rfl, rfl⟩, fun _ => Nat.le_refl _⟩
  · intro b c1 x k' hb hx hk'
    by_cases e : b = a
    · subst e
      simp only [upd_self] at hb
      cases hb
      simp only [Option.some.injEq] at hx
      subst hx
      rw [hk] at hk'; cases hk'
      exact hd
    · simp only [upd_ne e] at hb
      exact h.cache b c1 x k' hb hx hk'
  · intro σ hσ; exact .inl ⟨h.ok σ hσ, by simp⟩

/-- The cell of a symbol. -/
theorem Repr.symCell {A : List Addr} {m : Addr → Option Cell} {a : Addr} {t : Bool} {k : Sym}
    (h : Repr A m a (.sym t k)) : ∃ c, m a = some c ∧ c.tc = t ∧ c.data = .sym k := by
  cases h with
  | @atom _ c _ _ hc hv =>
    unfold Cell.val at hv
    cases hd : c.data <;> rw [hd] at hv <;> simp [Data.atom] at hv
    exact ⟨c, hc, hv.1, by rw [hd, hv.2]⟩

theorem sat_lookup {Q : Addr → HSt → Prop} {n : Nat} {k : Sym} {Γ : List B} {s : HSt} {st : St} {κ a : Addr} {vκ : Val}
    {t : Bool} (h : Sim Γ s st) (bκ : Bor Γ s κ vκ) (ba : Bor Γ s a (.sym t k))
    (kk : ∀ r v s', lookup vκ k st = .ok (v, st) → Sim (.tok r v [] :: Γ) s' st → Q r s') :
    Sat (lookupH n κ a k) Q s := by
  refine Sat.bind (sat_assoc bκ.rep ?_ ?_)
  · intro hn
    have hl : lookup vκ k st = .ok ((st.globals k).getD .nil, st) := by
      unfold lookup; rw [hn]; rfl
    obtain ⟨G, h⟩ := h
    obtain ⟨ha, la⟩ := h.bor ba
    obtain ⟨c, hc, ht, hk⟩ := ha.symCell
    refine Sat.bind (Sat.ok (cell_ok hc) ?_)
    cases hch : c.cache with
    | some d =>
      obtain ⟨e, he, e1, e2, e3⟩ := h.entryOf (h.cache a c d k hc hch hk)
      obtain ⟨⟨ce, hce, hd⟩, _, _⟩ := h.ent e he
      obtain ⟨cv, hcv, h'⟩ := h.upEnt he
      subst e2
      refine Sat.bind (Sat.bind (Sat.bind (Sat.ok (cell_ok hce) (Sat.pure ?_))))
      rw [hd]
      refine Sat.pure (Sat.bind (Sat.ok (modify_ok _ hcv) (Sat.pure ?_)))
      refine kk _ e.val _ ?_ ⟨G, h'⟩
      rw [hl, e3]; rfl
    | none =>
      refine Sat.bind (Sat.bind (Sat.ok h.globalOf ?_))
      cases hf : G.find? fun e => e.key = k with
      | none =>
        refine Sat.bind (sat_nil ⟨G, h⟩ fun r s1 h1 => Sat.pure ?_)
        refine Sat.bind (sat_cdr h1 (h1.bor (List.mem_cons_self ..)) fun r2 s2 h2 => ?_)
        refine Sat.bind (sat_X h2.mv2 fun s3 h3 => Sat.pure (kk r2 .nil s3 ?_ h3))
        rw [hl, h.vals k, hf]; rfl
      | some e =>
        obtain ⟨he, ek⟩ := h.find hf
        obtain ⟨⟨ce, hce, hd⟩, _, _⟩ := h.ent e he
        have hnp : e.addr ∉ priv Γ := fun hp => h.priv_entry hp (List.mem_map.2 ⟨e, he, rfl⟩)
        have h1 := h.upRef (h.entry_live he) hnp hce
        refine Sat.bind (Sat.ok (modify_ok _ hce) (Sat.pure ?_))
        obtain ⟨cv, hcv, h2⟩ := h1.upEnt he
        refine Sat.bind (Sat.ok (cdrH_ok (upd_self _ _ _) hd hcv) ?_)
        simp only [if_true]
        have hg : (k, e.addr) ∈ s.globals := by
          rw [h.glob]; exact List.mem_map.2 ⟨e, he, by rw [ek]⟩
        -- the atom is still there
        obtain ⟨ba', wa, pa, hma, ra, _⟩ := ba
        have sa : ∃ c2, (upd (upd s.mem e.addr (some { ce with refs := ce.refs + 1 })) e.vc
            (some { cv with refs := cv.refs + 1 })) a = some c2 ∧ c2.data = .sym k := by
          by_cases e1 : a = e.vc
          · subst e1
            refine ⟨_, upd_self _ _ _, ?_⟩
            simp only at hcv
            by_cases e2 : e.vc = e.addr
            · rw [e2] at hc; rw [hce] at hc; cases hc; rw [hd] at hk; cases hk
            · rw [upd_ne e2, hc] at hcv; cases hcv; exact hk
          · rw [upd_ne e1]
            by_cases e2 : a = e.addr
            · rw [e2, hce] at hc; cases hc; rw [hd] at hk; cases hk
            · exact ⟨c, by rw [upd_ne e2]; exact hc, hk⟩
        obtain ⟨c2, hc2, hk2⟩ := sa
        have h3 := h2.setCache (a := a) (d := e.addr) ⟨⟨c2, hc2⟩, la.2⟩ hc2 hk2 hg
        refine Sat.bind (Sat.ok (modify_ok _ hc2) ?_)
        refine Sat.bind (sat_Xr (Sim.mv2 ⟨G, h3⟩) fun s4 h4 => Sat.pure (kk _ e.val s4 ?_ h4))
        rw [hl, h.vals k, hf]; rfl
  · intro kv t' u w hw hr reach
    refine Sat.bind (sat_pairOf hr ?_)
    intro x y t2 u2 w2 e hx hy rx ry
    cases e
    obtain ⟨b, vb, ps, hm, rb, _⟩ := bκ
    refine Sat.bind (sat_up h ⟨b, vb, ps, hm, ry b (reach b rb), hy⟩ fun s1 h1 => Sat.pure (kk y w s1 ?_ h1))
    unfold lookup; rw [hw]; rfl

/-! ## Assignment -/

/-- The entry with the key of `e` gets a new value. -/
def reval (e : Ent) (v : Addr) (vv : Val) (e' : Ent) : Ent :=
  if e'.key = e.key then { e' with vc := v, val := vv } else e'

theorem reval_key (e : Ent) (v : Addr) (vv : Val) (e' : Ent) : (reval e v vv e').key = e'.key := by
  unfold reval; split <;> rfl
theorem reval_addr (e : Ent) (v : Addr) (vv : Val) (e' : Ent) : (reval e v vv e').addr = e'.addr := by
  unfold reval; split <;> rfl

theorem nodup_inj {α β : Type} {f : α → β} {l : List α} (h : (l.map f).Nodup) {a b : α} (ha : a ∈ l) (hb : b ∈ l)
    (e : f a = f b) : a = b := by
  induction l with
  | nil => cases ha
  | cons x l ih =>
    simp only [List.map_cons, List.nodup_cons] at h
    rcases List.mem_cons.1 ha with h1 | h1 <;> rcases List.mem_cons.1 hb with h2 | h2
    · rw [h1, h2]
    · subst h1; exact absurd (List.mem_map.2 ⟨b, h2, e.symm⟩) h.1
    · subst h2; exact absurd (List.mem_map.2 ⟨a, h1, e⟩) h.1
    · exact ih h.2 h1 h2

/-- The entry of a variable swaps its value with the one of a private pair. -/
theorem SimG.swap {G : List Ent} {Γ : List B} {s : HSt} {st : St} {e : Ent} {p k v : Addr} {t : Bool} {vv : Val}
    {ps : List (Addr × Val)} {ce cp : Cell} (h : SimG G (.pc p t k v :: .tok v vv ps :: Γ) s st) (he : e ∈ G)
    (hce : s.mem e.addr = some ce) (hcp : s.mem p = some cp) :
    SimG (G.map (reval e v vv)) (.pc p t k e.vc :: .tok e.vc e.val [] :: Γ)
      { s with mem := (upd (upd s.mem e.addr (some { ce with data := .pair e.kc v })) p
        (some { cp with data := .pair k e.vc })) }
      { st with globals := fun k' => if k' = e.key then some vv else st.globals k' } := by
  obtain ⟨⟨ce', hce', hde⟩, ⟨kv, hkv⟩, hev⟩ := h.ent e he
  rw [hce] at hce'; cases hce'
  obtain ⟨cp', hcp', hpr, hpt, hpd⟩ := h.ok _ (List.mem_cons_self ..)
  rw [hcp] at hcp'; cases hcp'
  have hv := (h.ok (.tok v vv ps) (by simp)).1
  have hu := h.pc_unique
  have hpu : p ∉ priv Γ := fun hp => hu.2 (by simp [priv_cons, hp])
  have hea : e.addr ∈ G.map Ent.addr := List.mem_map.2 ⟨e, he, rfl⟩
  have hep : e.addr ∉ p :: priv Γ := by
    intro hp
    exact h.priv_entry (a := e.addr) (by simpa [priv_cons, B.priv] using hp) hea
  have hne : e.addr ≠ p := fun x => hep (by simp [x])
  have hne' : p ≠ e.addr := fun x => hne x.symm
  have le : Live s e.addr := h.entry_live he
  have eP : priv (.pc p t k v :: .tok v vv ps :: Γ) = p :: priv Γ := by simp [priv_cons, B.priv]
  have eP' : priv (.pc p t k e.vc :: .tok e.vc e.val [] :: Γ) = p :: priv Γ := by simp [priv_cons, B.priv]
  have eA : avoid (G.map (reval e v vv)) (.pc p t k e.vc :: .tok e.vc e.val [] :: Γ)
      = avoid G (.pc p t k v :: .tok v vv ps :: Γ) := by
    unfold avoid
    rw [eP, eP', List.map_map]
    congr 1
    refine List.map_congr_left fun a _ => reval_addr ..
  let s1 : HSt := { s with mem := upd s.mem e.addr (some { ce with data := .pair e.kc v }) }
  let s2 : HSt := { s with mem := (upd (upd s.mem e.addr (some { ce with data := .pair e.kc v })) p
        (some { cp with data := .pair k e.vc })) }
  have hi := h.inv
  rw [eP] at hi
  have o1 := hi.open_ (T' := fun b => ones (own (.pc p t k v :: .tok v vv ps :: Γ)) b + occ ce.data b) le hep hce
    (fun b => rfl)
  have o2 : InvO (e.addr :: p :: priv Γ) s1 _ := o1.write (by simp) hce rfl rfl
  have o3 : InvO (e.addr :: p :: priv Γ) s2 _ := o2.write (a := p) (c := cp)
    (c' := { cp with data := .pair k e.vc }) (by simp)
    (by show upd s.mem e.addr _ p = _; rw [upd_ne hne']; exact hcp) rfl rfl
  have m2e : s2.mem e.addr = some { ce with data := .pair e.kc v } := by
    show upd (upd _ _ _) p _ e.addr = _
    rw [upd_ne hne, upd_self]
  have m2p : s2.mem p = some { cp with data := .pair k e.vc } := upd_self _ _ _
  have m2o : ∀ b, b ≠ e.addr → b ≠ p → s2.mem b = s.mem b := by
    intro b h1 h2
    show upd (upd _ _ _) p _ b = _
    rw [upd_ne h2, upd_ne h1]
  have o4 : InvO (p :: priv Γ) s2 (ones (own (.pc p t k e.vc :: .tok e.vc e.val [] :: Γ))) := by
    refine o3.close le.2 hep m2e (show 0 < ce.refs from hi.pos _ _ hce hep) fun b => ?_
    simp only [own_cons, B.own, ones_append, ones_cons, ones_nil, hde, occ_pair]
    omega
  have hs : Step [e.addr, p] [] s s2 := by
    intro b c c' hb hb'
    by_cases e1 : b = e.addr
    · subst e1
      rw [hce] at hb; cases hb
      rw [m2e] at hb'; cases hb'
      exact ⟨fun hn => absurd (by simp) hn, fun _ => Nat.le_refl _⟩
    · by_cases e2 : b = p
      · subst e2
        rw [hcp] at hb; cases hb
        rw [m2p] at hb'; cases hb'
        exact ⟨fun hn => absurd (by simp) hn, fun _ => Nat.le_refl _⟩
      · rw [m2o b e1 e2, hb] at hb'; cases hb'
        exact ⟨fun _ => ⟨rfl, rfl⟩, fun _ => Nat.le_refl _⟩
  have hW : ∀ a, a ∈ [e.addr, p] → a ∈ avoid G (.pc p t k v :: .tok v vv ps :: Γ) := by
    intro a ha
    simp only [List.mem_cons, List.not_mem_nil, or_false] at ha
    simp only [avoid, eP, List.mem_append]
    rcases ha with rfl | rfl
    · exact .inr hea
    · exact .inl (by simp)
  have hA : ∀ b, b ∈ avoid (G.map (reval e v vv)) (.pc p t k e.vc :: .tok e.vc e.val [] :: Γ) →
      b ∈ avoid G (.pc p t k v :: .tok v vv ps :: Γ) ∨ s.mem b = none := fun b hb => .inl (eA ▸ hb)
  have hO : ∀ b, b ∈ p :: priv Γ → b ∈ avoid (G.map (reval e v vv)) (.pc p t k e.vc :: .tok e.vc e.val [] :: Γ) := by
    intro b hb
    simp only [avoid, eP', List.mem_append]
    exact .inl hb
  have i' := o4
  rw [← eP'] at i'
  refine ⟨i', ?_, ?_, ?_, ?_, ?_, ?_, ?_, h.out, h.strict, ?_⟩
  · intro σ hσ
    have pos : ∀ a, a ∈ σ.own → 0 < ones (own (.pc p t k e.vc :: .tok e.vc e.val [] :: Γ)) a := by
      intro a ha
      have := ones_mem (own_mem hσ ha) a
      rw [one_self] at this
      exact this
    simp only [List.mem_cons] at hσ
    rcases hσ with e1 | e1 | e1
    · subst e1
      exact ⟨_, m2p, hpr, hpt, rfl⟩
    · subst e1
      exact B.Ok.step hs hW hA hO o4 (σ := .tok e.vc e.val []) ⟨hev, by simp⟩ pos (by simp [B.priv])
    · refine B.Ok.step hs hW hA hO o4 (h.ok σ (by simp [e1])) pos ?_
      intro a ha
      refine ⟨?_, by simp⟩
      simp only [List.mem_cons, List.not_mem_nil, or_false, not_or]
      refine ⟨?_, ?_⟩
      · rintro rfl; exact hep (by simp [priv_mem e1 ha])
      · rintro rfl; exact hpu (priv_mem e1 ha)
  · intro e' he'
    obtain ⟨e0, he0, rfl⟩ := List.mem_map.1 he'
    by_cases ek : e0.key = e.key
    · have : e0 = e := nodup_inj h.keys he0 he ek
      subst this
      have er : reval e0 v vv e0 = { e0 with vc := v, val := vv } := if_pos rfl
      rw [er]
      have l2 : Live s2 e0.addr := ⟨⟨_, m2e⟩, le.2⟩
      refine ⟨⟨_, m2e, rfl⟩, ⟨kv, ?_⟩, ?_⟩
      · exact hkv.step hs hW hA hO o4 (o4.childCar l2 hep m2e rfl)
      · exact hv.step hs hW hA hO o4 (o4.childCdr l2 hep m2e rfl)
    · have er : reval e v vv e0 = e0 := if_neg ek
      rw [er]
      obtain ⟨⟨c0, hc0, hd0⟩, ⟨kv0, hkv0⟩, hv0⟩ := h.ent e0 he0
      have n1 : e0.addr ≠ e.addr := by
        intro x
        exact ek (by rw [nodup_inj h.addrs he0 he x])
      have n2 : e0.addr ∉ p :: priv Γ := by
        intro hp
        exact h.priv_entry (a := e0.addr) (by simpa [priv_cons, B.priv] using hp) (List.mem_map.2 ⟨e0, he0, rfl⟩)
      have n3 : e0.addr ≠ p := fun x => n2 (by simp [x])
      have m0 : s2.mem e0.addr = some c0 := by rw [m2o _ n1 n3]; exact hc0
      have l2 : Live s2 e0.addr := ⟨⟨_, m0⟩, (h.entry_live he0).2⟩
      refine ⟨⟨c0, m0, hd0⟩, ⟨kv0, ?_⟩, ?_⟩
      · exact hkv0.step hs hW hA hO o4 (o4.childCar l2 n2 m0 hd0)
      · exact hv0.step hs hW hA hO o4 (o4.childCdr l2 n2 m0 hd0)
  · show s.globals = _
    rw [h.glob, List.map_map]
    refine List.map_congr_left fun a _ => ?_
    show _ = ((reval e v vv a).key, (reval e v vv a).addr)
    rw [reval_key, reval_addr]
  · rw [List.map_map]
    have : (Ent.key ∘ reval e v vv) = Ent.key := funext fun a => reval_key ..
    rw [this]; exact h.keys
  · rw [List.map_map]
    have : (Ent.addr ∘ reval e v vv) = Ent.addr := funext fun a => reval_addr ..
    rw [this]; exact h.addrs
  · intro k'
    show (if k' = e.key then some vv else st.globals k') = _
    rw [List.find?_map]
    have : ((fun e' => decide (e'.key = k')) ∘ reval e v vv) = fun e' : Ent => decide (e'.key = k') := by
      funext a; show decide ((reval e v vv a).key = k') = _; rw [reval_key]
    rw [this]
    by_cases ek : k' = e.key
    · subst ek
      rw [find_key h.keys he, if_pos rfl]
      show some vv = some (reval e v vv e).val
      unfold reval; rw [if_pos rfl]
    · rw [if_neg ek, h.vals k']
      cases hf : G.find? fun e' => e'.key = k' with
      | none => rfl
      | some e0 =>
        have h0 := h.find hf
        show some e0.val = some (reval e v vv e0).val
        unfold reval; rw [if_neg (by rw [h0.2]; exact ek)]
  · intro a c d kk hb hd hk
    by_cases e1 : a = e.addr
    · subst e1; rw [m2e] at hb; cases hb; cases hk
    · by_cases e2 : a = p
      · subst e2; rw [m2p] at hb; cases hb; cases hk
      · rw [m2o a e1 e2] at hb
        exact h.cache a c d kk hb hd hk
  · intro b l nb
    have nb' : b ∉ avoid G (.pc p t k v :: .tok v vv ps :: Γ) := by rwa [eA] at nb
    have n1 : b ≠ e.addr := by rintro rfl; exact nb' (hW _ (by simp))
    have n2 : b ≠ p := by rintro rfl; exact nb' (hW _ (by simp))
    obtain ⟨c, hc⟩ := l.1
    rw [m2o b n1 n2] at hc
    obtain ⟨w, hw⟩ := h.all b ⟨⟨c, hc⟩, l.2⟩ nb'
    exact ⟨w, hw.step hs hW hA hO o4 l⟩

/-- A private pair becomes a new entry. -/
theorem SimG.push {G : List Ent} {Γ : List B} {s : HSt} {st : St} {p k v : Addr} {t : Bool} {kv vv : Val} {kk : Sym}
    {pk pv : List (Addr × Val)} (h : SimG G (.pc p t k v :: .tok k kv pk :: .tok v vv pv :: Γ) s st)
    (hn : (G.find? fun e => e.key = kk) = none) :
    SimG (G ++ [⟨kk, p, k, v, vv⟩]) Γ { s with globals := s.globals ++ [(kk, p)] }
      { st with globals := fun k' => if k' = kk then some vv else st.globals k' } := by
  obtain ⟨c, hc, hr, ht, hd⟩ := h.ok _ (List.mem_cons_self ..)
  have hk := (h.ok (.tok k kv pk) (by simp)).1
  have hv := (h.ok (.tok v vv pv) (by simp)).1
  have hu := h.pc_unique
  have hpu : p ∉ priv Γ := fun hp => hu.2 (by simp [priv_cons, hp])
  have eP : priv (.pc p t k v :: .tok k kv pk :: .tok v vv pv :: Γ) = p :: priv Γ := by simp [priv_cons, B.priv]
  have hap : p ∉ G.map Ent.addr := h.priv_entry (by rw [eP]; simp)
  have hi := h.inv
  rw [eP] at hi
  have lp : Live s p := h.live (by simp [own_cons, B.own])
  have i1 : InvO (priv Γ) s (fun b => one p b + ones (own Γ) b) := by
    refine hi.close lp.2 hpu hc (by omega) fun b => ?_
    simp only [own_cons, B.own, ones_append, ones_cons, ones_nil, hd, occ_pair]
    omega
  have hct : ∀ b, ((s.globals ++ [(kk, p)]).map Prod.snd).count b = (s.globals.map Prod.snd).count b + one p b := by
    intro b
    rw [List.map_append, List.count_append]
    have := count_cons_one p b []
    simp only [List.count_nil, Nat.zero_add] at this
    simp only [List.map_cons, List.map_nil, this]
  have tot : ∀ b, total (priv Γ) { s with globals := s.globals ++ [(kk, p)] } (ones (own Γ)) b
      = total (priv Γ) s (fun b => one p b + ones (own Γ) b) b := by
    intro b
    have := hct b
    simp only [total, roots]
    omega
  have i : InvO (priv Γ) { s with globals := s.globals ++ [(kk, p)] } (ones (own Γ)) := by
    refine ⟨i1.fresh, ?_, ?_, i1.pos, i1.opn, ?_, ?_⟩
    · intro b c hb; rw [tot]; exact i1.exact b c hb
    · intro b hb; rw [tot]; exact i1.dead b hb
    · intro z hz
      refine ⟨(i1.zomb z hz).1, ?_⟩
      have h1 := (i1.zomb z hz).2
      have h2 := hct z
      simp only
      omega
    · intro b c d hb hd
      have := i1.cache b c d hb hd
      simp only [List.map_append, List.mem_append]
      exact .inl this
  have eA : ∀ b, b ∈ avoid (G ++ [⟨kk, p, k, v, vv⟩]) Γ →
      b ∈ avoid G (.pc p t k v :: .tok k kv pk :: .tok v vv pv :: Γ) := by
    intro b hb
    simp only [avoid, eP, List.mem_append, List.map_append, List.map_cons, List.map_nil, List.mem_cons,
      List.not_mem_nil, or_false] at hb ⊢
    rcases hb with hb | hb | hb
    · exact .inl (.inr hb)
    · exact .inr hb
    · exact .inl (.inl hb)
  have hfk : kk ∉ G.map Ent.key := by
    intro hm
    obtain ⟨e, he, ek⟩ := List.mem_map.1 hm
    have := List.find?_eq_none.1 hn e he
    simp [ek] at this
  refine ⟨i, ?_, ?_, ?_, ?_, ?_, ?_, ?_, h.out, h.strict, ?_⟩
  · intro σ hσ
    exact (h.ok σ (by simp [hσ])).avoid eA
  · intro e he
    rcases List.mem_append.1 he with he | he
    · obtain ⟨h1, ⟨w, h2⟩, h3⟩ := h.ent e he
      exact ⟨h1, ⟨w, h2.mono fun b hb => .inl (eA b hb)⟩, h3.mono fun b hb => .inl (eA b hb)⟩
    · rw [List.mem_singleton] at he
      subst he
      exact ⟨⟨c, hc, hd⟩, ⟨kv, hk.mono fun b hb => .inl (eA b hb)⟩, hv.mono fun b hb => .inl (eA b hb)⟩
  · show s.globals ++ _ = _
    rw [h.glob, List.map_append]; rfl
  · rw [List.map_append, List.nodup_append]
    refine ⟨h.keys, by simp, ?_⟩
    intro a ha b hb
    simp only [List.map_cons, List.map_nil, List.mem_singleton] at hb
    subst hb
    rintro rfl
    exact hfk ha
  · rw [List.map_append, List.nodup_append]
    refine ⟨h.addrs, by simp, ?_⟩
    intro a ha b hb
    simp only [List.map_cons, List.map_nil, List.mem_singleton] at hb
    subst hb
    rintro rfl
    exact hap ha
  · intro k'
    show (if k' = kk then some vv else st.globals k') = _
    rw [List.find?_append, h.vals k']
    by_cases ek : k' = kk
    · subst ek
      rw [hn, if_pos rfl]
      simp
    · have : ¬ kk = k' := fun x => ek x.symm
      rw [if_neg ek]
      cases G.find? fun e => e.key = k' with
      | none => simp [this]
      | some e => rfl
  · intro a c d k' hb hd' hk'
    show (k', d) ∈ s.globals ++ _
    exact List.mem_append.2 (.inl (h.cache a c d k' hb hd' hk'))
  · intro b l nb
    have nb' : b ∉ avoid G (.pc p t k v :: .tok k kv pk :: .tok v vv pv :: Γ) := by
      intro hb
      apply nb
      simp only [avoid, eP, List.mem_append, List.map_append, List.map_cons, List.map_nil, List.mem_cons,
        List.not_mem_nil, or_false] at hb ⊢
      rcases hb with (hb | hb) | hb
      · exact .inr (.inr hb)
      · exact .inl hb
      · exact .inr (.inl hb)
    obtain ⟨w, hw⟩ := h.all b l nb'
    exact ⟨w, hw.mono fun b hb => .inl (eA b hb)⟩

theorem modify_modify {α : Type} {f : Unit → HM α} {s : HSt} {e p : Addr} {ce cp : Cell} {g g' : Cell → Cell} (hne : p ≠ e)
    (he : s.mem e = some ce) (hp : s.mem p = some cp) :
    (modify e g >>= fun _ => modify p g' >>= f) s
      = f () { s with mem := upd (upd s.mem e (some (g ce))) p (some (g' cp)) } := by
  rw [HM.bind_ok (modify_ok _ he)]
  rw [HM.bind_ok (modify_ok (c := cp) _ (by show upd s.mem e _ p = _; rw [upd_ne hne]; exact hp))]

/-- `lisp_setq` on a new pair. -/
theorem sat_setq {Q : Unit → HSt → Prop} {Γ : List B} {s : HSt} {st : St} {p k v : Addr} {t : Bool} {kv vv : Val}
    {pk pv : List (Addr × Val)} (h : Sim (.pc p t k v :: .tok k kv pk :: .tok v vv pv :: Γ) s st)
    (kk : ∀ s' st', setq kv vv st = .ok ((), st') → Sim Γ s' st' → Q () s') : Sat (setqH p) Q s := by
  have hk := h.rep (a := k) (v := kv) (ps := pk) (by simp)
  have other : (∀ a b, kv ≠ .sym a b) → Sat (X p) Q s := by
    intro hn
    have h1 := (Sim.fold (σ := .tok k kv pk) (τ := .tok v vv pv) h).publish
    refine sat_X h1 fun s' h' => kk s' st ?_ h'
    cases kv <;> first | rfl | exact absurd rfl (hn _ _)
  refine Sat.bind (sat_dataPc h (List.mem_cons_self ..) ?_)
  refine Sat.bind (sat_data hk ?_)
  intro d hd
  cases hd with
  | sym tk sy =>
    obtain ⟨G, h⟩ := h
    refine Sat.bind (Sat.ok h.globalOf ?_)
    cases hf : G.find? fun e => e.key = sy with
    | none => exact Sat.ok rfl (kk _ _ rfl ⟨_, h.push hf⟩)
    | some e =>
      obtain ⟨he, ek⟩ := h.find hf
      obtain ⟨⟨ce, hce, hd⟩, _, _⟩ := h.ent e he
      obtain ⟨cp, hcp, _, _, _⟩ := h.ok _ (List.mem_cons_self ..)
      have hne : p ≠ e.addr := by
        rintro rfl
        exact h.priv_entry (by simp [priv_cons, B.priv]) (List.mem_map.2 ⟨e, he, rfl⟩)
      refine Sat.bind (sat_entry hce hd ?_)
      have h1 : SimG G (.pc p t k v :: .tok v vv pv :: .tok k (.sym tk sy) pk :: Γ) s st :=
        h.perm (.cons _ (.swap _ _ _))
      have h2 := h1.swap he hce hcp
      intro a s' hrun
      change (setData e.addr (.pair e.kc v) >>= fun _ => setData p (.pair k e.vc) >>= fun _ => X p) s = _ at hrun
      rw [show (setData e.addr (.pair e.kc v) >>= fun _ => setData p (.pair k e.vc) >>= fun _ => X p) s = _ from
        modify_modify hne hce hcp] at hrun
      have h3 : Sim (.pc p t k e.vc :: .tok k (.sym tk sy) pk :: .tok e.vc e.val [] :: Γ) _ _ :=
        ⟨_, h2.perm (.cons _ (.swap _ _ _))⟩
      have h4 := (Sim.fold (σ := .tok k (.sym tk sy) pk) (τ := .tok e.vc e.val []) h3).publish
      refine (sat_X h4 fun s5 h5 => ?_) a s' hrun
      refine kk s5 _ ?_ h5
      subst ek; rfl
  | nil => exact other (by intro a b x; cases x)
  | tru => exact other (by intro a b x; cases x)
  | wild => exact other (by intro a b x; cases x)
  | chr => exact other (by intro a b x; cases x)
  | num => exact other (by intro a b x; cases x)
  | pair => exact other (by intro a b x; cases x)

/-- The last part of `<-`. -/
def assignV (closure symb val : Val) : M Val :=
  match symb with
  | .sym _ s => do
    match ← M.lift (closure.assq s) with
    | some _ => M.unsupported
    | none => fun st =>
      match st.globals s with
      | some old => do
        let (_, st') ← setGlobal s val st
        .ok (.cons symb old, st')
      | none => .ok (.nil, st)
  | _ => pure .nil

theorem sat_Xs2 {Q : Unit → HSt → Prop} {Γ : List B} {s : HSt} {st : St} {a b : Addr} {u v : Val}
    {pa pb : List (Addr × Val)} (h : Sim (.tok a u pa :: .tok b v pb :: Γ) s st) (k : ∀ s', Sim Γ s' st → Q () s') :
    Sat (Xs [a, b]) Q s :=
  Sat.bind (sat_X h fun _ h1 => Sat.bind (sat_X h1 fun s2 h2 => Sat.pure (k s2 h2)))
theorem sat_Xs3 {Q : Unit → HSt → Prop} {Γ : List B} {s : HSt} {st : St} {a b c : Addr} {u v w : Val}
    {pa pb pc : List (Addr × Val)} (h : Sim (.tok a u pa :: .tok b v pb :: .tok c w pc :: Γ) s st)
    (k : ∀ s', Sim Γ s' st → Q () s') : Sat (Xs [a, b, c]) Q s :=
  Sat.bind (sat_X h fun _ h1 => sat_Xs2 h1 k)
theorem sat_Xs4 {Q : Unit → HSt → Prop} {Γ : List B} {s : HSt} {st : St} {a b c d : Addr} {u v w x : Val}
    {pa pb pc pd : List (Addr × Val)} (h : Sim (.tok a u pa :: .tok b v pb :: .tok c w pc :: .tok d x pd :: Γ) s st)
    (k : ∀ s', Sim Γ s' st → Q () s') : Sat (Xs [a, b, c, d]) Q s :=
  Sat.bind (sat_X h fun _ h1 => sat_Xs3 h1 k)

theorem sat_assign {Q : Addr → HSt → Prop} {n : Nat} {Γ : List B} {s : HSt} {st : St} {κ sym val : Addr} {vκ sv vv : Val}
    {p1 p2 : List (Addr × Val)} (h : Sim (.tok sym sv p1 :: .tok val vv p2 :: Γ) s st)
    (bκ : Bor (.tok sym sv p1 :: .tok val vv p2 :: Γ) s κ vκ)
    (kk : ∀ r v s' st', assignV vκ sv vv st = .ok (v, st') → Sim (.tok r v [] :: Γ) s' st' → Q r s') :
    Sat (assignH n κ sym val) Q s := by
  have other : (∀ a b, sv ≠ .sym a b) → Sat (do Xs [sym, val]; mkNil) Q s := by
    intro hn
    refine Sat.bind (sat_Xs2 h fun s1 h1 => sat_nil h1 fun r s2 h2 => kk r .nil s2 st ?_ h2)
    cases sv <;> first | rfl | exact absurd rfl (hn _ _)
  refine Sat.bind (sat_data (h.rep (a := sym) (v := sv) (ps := p1) (by simp)) ?_)
  intro d hd
  cases hd with
  | sym tk sy =>
    refine Sat.bind (sat_assoc bκ.rep ?_ ?_)
    · intro hn
      refine Sat.bind (sat_pc h fun p s1 h1 => ?_)
      obtain ⟨G, h1⟩ := h1
      refine Sat.bind (Sat.ok h1.globalOf ?_)
      cases hf : G.find? fun e => e.key = sy with
      | none =>
        refine Sat.bind (sat_nil ⟨G, h1⟩ fun r s2 h2 => ?_)
        refine Sat.bind (sat_X h2 fun s3 h3 => ?_)
        refine Sat.bind (sat_abandon h3 fun s4 h4 => ?_)
        refine Sat.bind (sat_Xs2 h4 fun s5 h5 => sat_nil h5 fun r s6 h6 => kk r .nil s6 st ?_ h6)
        simp only [assignV, M.bind_apply, M.lift_apply, hn, Res.ok_bind, h1.vals sy, hf, Option.map_none]
      | some e =>
        obtain ⟨he, ek⟩ := h1.find hf
        obtain ⟨⟨ce, hce, hd⟩, _, _⟩ := h1.ent e he
        obtain ⟨cp, hcp, _, _, _⟩ := h1.ok _ (List.mem_cons_self ..)
        have hne : p ≠ e.addr := by
          rintro rfl
          exact h1.priv_entry (by simp [priv_cons, B.priv]) (List.mem_map.2 ⟨e, he, rfl⟩)
        refine Sat.bind (sat_entry hce hd ?_)
        have h1' : SimG G (.pc p false sym val :: .tok val vv p2 :: .tok sym (.sym tk sy) p1 :: Γ) s1 st :=
          h1.perm (.cons _ (.swap _ _ _))
        have h2 := h1'.swap he hce hcp
        intro a s' hrun
        change (setData e.addr (.pair e.kc val) >>= fun _ => setData p (.pair sym e.vc) >>= fun _ => pure p) s1 = _ at hrun
        rw [show (setData e.addr (.pair e.kc val) >>= fun _ => setData p (.pair sym e.vc) >>= fun _ => pure p) s1 = _ from
          modify_modify hne hce hcp] at hrun
        cases hrun
        have h3 : Sim (.pc p false sym e.vc :: .tok sym (.sym tk sy) p1 :: .tok e.vc e.val [] :: Γ) _ _ :=
          ⟨_, h2.perm (.cons _ (.swap _ _ _))⟩
        have h4 := (Sim.fold (σ := .tok sym (.sym tk sy) p1) (τ := .tok e.vc e.val []) h3).publish
        refine kk _ _ _ _ ?_ (h4.unpin (by simp))
        have hg : st.globals sy = some e.val := by rw [h1.vals sy, hf]; rfl
        simp only [assignV, M.bind_apply, M.lift_apply, hn, Res.ok_bind, hg, setGlobal]
        subst ek; rfl
    · intro kv t' u w hw hr reach
      exact Sat.bind (sat_guard h.strict (by intro e; cases e))
  | nil => exact other (by intro a b x; cases x)
  | tru => exact other (by intro a b x; cases x)
  | wild => exact other (by intro a b x; cases x)
  | chr => exact other (by intro a b x; cases x)
  | num => exact other (by intro a b x; cases x)
  | pair => exact other (by intro a b x; cases x)

end Heap
end Mnml
