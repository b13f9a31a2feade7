import Verif.Refine

/-!
# Refinement: the primitive steps

The rules for the primitives of the cell model, in terms of the represented values.
-/

namespace Mnml
namespace Heap

/-! ## Changing the description -/

theorem B.Ok.avoid {A A' : List Addr} {m : Addr → Option Cell} : ∀ {σ : B}, σ.Ok A m →
    (∀ a, a ∈ A' → a ∈ A) → σ.Ok A' m := by
  intro σ
  induction σ with
  | tok a v ps =>
    intro h i
    refine ⟨h.1.mono fun b hb => .inl (i b hb), fun q hq => ?_⟩
    exact ⟨(h.2 q hq).1, (h.2 q hq).2.mono fun b hb => .inl (i b hb)⟩
  | ref => intro h _; exact h
  | pc => intro h _; exact h
  | node a t x y ix iy => intro h i; exact ⟨h.1, ix h.2.1 i, iy h.2.2 i⟩

/-- The same cells described differently. -/
theorem SimG.recast {G : List Ent} {Γ Γ' : List B} {s : HSt} {st : St} (h : SimG G Γ s st)
    (i : InvO (priv Γ') s (ones (own Γ'))) (hp : ∀ b, b ∈ priv Γ' → b ∈ priv Γ)
    (new : ∀ σ, σ ∈ Γ' → σ.Ok (Heap.avoid G Γ) s.mem ∨ σ.Ok (Heap.avoid G Γ') s.mem)
    (hn : ∀ b, b ∈ priv Γ → b ∉ priv Γ' → ∃ v, Repr (Heap.avoid G Γ') s.mem b v) : SimG G Γ' s st := by
  have ha : ∀ b, b ∈ Heap.avoid G Γ' → b ∈ Heap.avoid G Γ := by
    intro b hb
    simp only [Heap.avoid, List.mem_append] at hb ⊢
    rcases hb with hb | hb
    · exact .inl (hp b hb)
    · exact .inr hb
  refine ⟨i, ?_, ?_, h.glob, h.keys, h.addrs, h.vals, h.cache, h.out, h.strict, ?_⟩
  · intro σ hσ
    rcases new σ hσ with h1 | h1
    · exact h1.avoid ha
    · exact h1
  · intro e he
    obtain ⟨h1, ⟨v, h2⟩, h3⟩ := h.ent e he
    exact ⟨h1, ⟨v, h2.mono fun b hb => .inl (ha b hb)⟩, h3.mono fun b hb => .inl (ha b hb)⟩
  · intro a l na
    simp only [Heap.avoid, List.mem_append, not_or] at na
    by_cases hp' : a ∈ priv Γ
    · exact hn a hp' na.1
    · obtain ⟨v, hv⟩ := h.all a l (by simp only [Heap.avoid, List.mem_append, not_or]; exact ⟨hp', na.2⟩)
      exact ⟨v, hv.mono fun b hb => .inl (ha b hb)⟩

/-- A cell that is written is as alive as before. -/
theorem live_upd {s : HSt} {a b : Addr} {c c' : Cell} (hc : s.mem a = some c)
    (l : Live { s with mem := upd s.mem a (some c') } b) : Live s b := by
  refine ⟨?_, l.2⟩
  by_cases e : b = a
  · subst e; exact ⟨c, hc⟩
  · obtain ⟨d, hd⟩ := l.1
    simp only [upd_ne e] at hd
    exact ⟨d, hd⟩

theorem Sim.perm {Γ Γ' : List B} {s : HSt} {st : St} (h : Sim Γ s st) (p : Γ.Perm Γ') : Sim Γ' s st := by
  obtain ⟨G, h⟩ := h; exact ⟨G, h.perm p⟩

section
variable {Γ : List B} {s : HSt} {st : St} {α β γ δ ε : B}
theorem Sim.mv2 (h : Sim (α :: β :: Γ) s st) : Sim (β :: α :: Γ) s st := h.perm (.swap _ _ _)
theorem Sim.mv3 (h : Sim (α :: β :: γ :: Γ) s st) : Sim (γ :: α :: β :: Γ) s st :=
  h.perm (List.perm_middle (l₁ := [α, β]))
theorem Sim.mv4 (h : Sim (α :: β :: γ :: δ :: Γ) s st) : Sim (δ :: α :: β :: γ :: Γ) s st :=
  h.perm (List.perm_middle (l₁ := [α, β, γ]))
theorem Sim.mv5 (h : Sim (α :: β :: γ :: δ :: ε :: Γ) s st) : Sim (ε :: α :: β :: γ :: δ :: Γ) s st :=
  h.perm (List.perm_middle (l₁ := [α, β, γ, δ]))
/-- Put the first at place 3. -/
theorem Sim.to3 (h : Sim (α :: β :: γ :: Γ) s st) : Sim (β :: γ :: α :: Γ) s st :=
  h.perm (List.perm_middle (l₁ := [β, γ])).symm
theorem Sim.to4 (h : Sim (α :: β :: γ :: δ :: Γ) s st) : Sim (β :: γ :: δ :: α :: Γ) s st :=
  h.perm (List.perm_middle (l₁ := [β, γ, δ])).symm
end

/-- A private cell with its fields is a private pair. -/
theorem Sim.fold {Γ : List B} {s : HSt} {st : St} {a : Addr} {t : Bool} {σ τ : B}
    (h : Sim (.pc a t σ.addr τ.addr :: σ :: τ :: Γ) s st) : Sim (.node a t σ τ :: Γ) s st := by
  obtain ⟨G, h⟩ := h
  have e1 : own (.pc a t σ.addr τ.addr :: σ :: τ :: Γ) = own (.node a t σ τ :: Γ) := by
    simp [own_cons, B.own]
  have e2 : priv (.pc a t σ.addr τ.addr :: σ :: τ :: Γ) = priv (.node a t σ τ :: Γ) := by
    simp [priv_cons, B.priv]
  refine ⟨G, h.recast ?_ ?_ ?_ ?_⟩
  · rw [← e1, ← e2]; exact h.inv
  · intro b hb; rw [e2]; exact hb
  · intro ρ hρ
    rcases List.mem_cons.1 hρ with e | e
    · subst e
      left
      exact ⟨h.ok (.pc a t σ.addr τ.addr) (by simp), h.ok σ (by simp), h.ok τ (by simp)⟩
    · left; exact h.ok ρ (by simp [e])
  · intro b hb hb'; rw [e2] at hb; exact absurd hb hb'

/-- And vice versa. -/
theorem Sim.unfold {Γ : List B} {s : HSt} {st : St} {a : Addr} {t : Bool} {σ τ : B}
    (h : Sim (.node a t σ τ :: Γ) s st) : Sim (.pc a t σ.addr τ.addr :: σ :: τ :: Γ) s st := by
  obtain ⟨G, h⟩ := h
  have e1 : own (.pc a t σ.addr τ.addr :: σ :: τ :: Γ) = own (.node a t σ τ :: Γ) := by
    simp [own_cons, B.own]
  have e2 : priv (.pc a t σ.addr τ.addr :: σ :: τ :: Γ) = priv (.node a t σ τ :: Γ) := by
    simp [priv_cons, B.priv]
  refine ⟨G, h.recast ?_ ?_ ?_ (fun b hb hb' => absurd (e2 ▸ hb) hb')⟩
  · rw [e1, e2]; exact h.inv
  · intro b hb; rw [← e2]; exact hb
  · intro ρ hρ
    have hn := h.ok (.node a t σ τ) (by simp)
    left
    simp only [List.mem_cons] at hρ
    rcases hρ with e | e | e | e
    · subst e; exact hn.1
    · subst e; exact hn.2.1
    · subst e; exact hn.2.2
    · exact h.ok ρ (by simp [e])

/-- Forget the pins. -/
theorem Sim.unpin {Γ : List B} {s : HSt} {st : St} {a : Addr} {v : Val} {ps ps' : List (Addr × Val)}
    (h : Sim (.tok a v ps :: Γ) s st) (hp : ∀ p, p ∈ ps' → p ∈ ps) : Sim (.tok a v ps' :: Γ) s st := by
  obtain ⟨G, h⟩ := h
  refine ⟨G, h.recast h.inv (fun b hb => hb) ?_ (fun b hb hb' => absurd hb hb')⟩
  intro ρ hρ
  left
  rcases List.mem_cons.1 hρ with e | e
  · subst e
    have := h.ok (.tok a v ps) (by simp)
    exact ⟨this.1, fun p hq => this.2 p (hp p hq)⟩
  · exact h.ok ρ (by simp [e])

/-- Add a pin. -/
theorem Sim.pin {Γ : List B} {s : HSt} {st : St} {a x : Addr} {v u : Val} {ps : List (Addr × Val)}
    (h : Sim (.tok a v ps :: Γ) s st) (r : Part s.mem a x) (hu : Rep s.mem x u) :
    Sim (.tok a v ((x, u) :: ps) :: Γ) s st := by
  obtain ⟨G, h⟩ := h
  refine ⟨G, h.recast h.inv (fun b hb => hb) ?_ (fun b hb hb' => absurd hb hb')⟩
  intro ρ hρ
  left
  rcases List.mem_cons.1 hρ with e | e
  · subst e
    have := h.ok (.tok a v ps) (by simp)
    refine ⟨this.1, fun p hq => ?_⟩
    rcases List.mem_cons.1 hq with e | e
    · subst e
      obtain ⟨u', hu'⟩ := r.repr this.1
      rw [hu.det hu']
      exact ⟨r, hu'⟩
    · exact this.2 p e
  · exact h.ok ρ (by simp [e])

/-! ## What is known about values -/

theorem Sim.rep {Γ : List B} {s : HSt} {st : St} {a : Addr} {v : Val} {ps : List (Addr × Val)} (h : Sim Γ s st)
    (hm : B.tok a v ps ∈ Γ) : Rep s.mem a v := by
  obtain ⟨G, h⟩ := h; exact (h.ok _ hm).1.rep

theorem Sim.pinned {Γ : List B} {s : HSt} {st : St} {a : Addr} {v : Val} {ps : List (Addr × Val)} (h : Sim Γ s st)
    (hm : B.tok a v ps ∈ Γ) {x : Addr} {u : Val} (hp : (x, u) ∈ ps) : Part s.mem a x ∧ Rep s.mem x u := by
  obtain ⟨G, h⟩ := h; exact ⟨((h.ok _ hm).2 _ hp).1, ((h.ok _ hm).2 _ hp).2.rep⟩

/-- A value that the code may refer to: part of an owned one. -/
def Bor (Γ : List B) (s : HSt) (a : Addr) (v : Val) : Prop :=
  ∃ b w ps, B.tok b w ps ∈ Γ ∧ Part s.mem b a ∧ Rep s.mem a v

theorem Bor.rep {Γ : List B} {s : HSt} {a : Addr} {v : Val} (b : Bor Γ s a v) : Rep s.mem a v := by
  obtain ⟨_, _, _, _, _, h⟩ := b; exact h

theorem Sim.bor {Γ : List B} {s : HSt} {st : St} {a : Addr} {v : Val} {ps : List (Addr × Val)} (h : Sim Γ s st)
    (hm : B.tok a v ps ∈ Γ) : Bor Γ s a v := ⟨a, v, ps, hm, .refl, h.rep hm⟩

theorem Sim.borPin {Γ : List B} {s : HSt} {st : St} {a : Addr} {v : Val} {ps : List (Addr × Val)} (h : Sim Γ s st)
    (hm : B.tok a v ps ∈ Γ) {x : Addr} {u : Val} (hp : (x, u) ∈ ps) : Bor Γ s x u :=
  ⟨a, v, ps, hm, (h.pinned hm hp).1, (h.pinned hm hp).2⟩

theorem SimG.bor {G : List Ent} {Γ : List B} {s : HSt} {st : St} {a : Addr} {v : Val} (h : SimG G Γ s st)
    (b : Bor Γ s a v) : Repr (avoid G Γ) s.mem a v ∧ Live s a := by
  obtain ⟨b, w, ps, hm, r, hv⟩ := b
  have hb := (h.ok _ hm).1
  obtain ⟨u, hu⟩ := r.repr hb
  refine ⟨hu.det hv ▸ hu, ?_⟩
  have l : Live s b := h.live (own_mem hm (by simp [B.own]))
  refine (Part.step (W := []) (U := []) (O' := priv Γ) (s' := s) ?_ (by simp) ?_ h.inv hb l r).2
  · intro x c c' h1 h2; rw [h1] at h2; cases h2; exact ⟨fun _ => ⟨rfl, rfl⟩, fun _ => Nat.le_refl _⟩
  · intro x hx; left; simp only [avoid, List.mem_append]; exact .inl hx

theorem Sim.strict {Γ : List B} {s : HSt} {st : St} (h : Sim Γ s st) : s.strict = true := by
  obtain ⟨G, h⟩ := h; exact h.strict

/-! ## References -/

theorem not_avoid {G : List Ent} {Γ : List B} {a : Addr} (h : a ∉ avoid G Γ) : a ∉ priv Γ ∧ a ∉ G.map Ent.addr := by
  simp only [avoid, List.mem_append, not_or] at h; exact h

theorem avoid_tok (G : List Ent) (Γ : List B) (a : Addr) (v : Val) (ps : List (Addr × Val)) :
    avoid G (.tok a v ps :: Γ) = avoid G Γ := by simp [avoid, priv_cons, B.priv]

theorem SimG.up {G : List Ent} {Γ : List B} {s : HSt} {st : St} {a : Addr} {v : Val} {c : Cell} (h : SimG G Γ s st)
    (hv : Repr (avoid G Γ) s.mem a v) (l : Live s a) (hc : s.mem a = some c) :
    SimG G (.tok a v [] :: Γ) { s with mem := upd s.mem a (some { c with refs := c.refs + 1 }) } st := by
  have na := not_avoid hv.out
  have i : InvO (priv (.tok a v [] :: Γ)) { s with mem := upd s.mem a (some { c with refs := c.refs + 1 }) }
      (ones (own (.tok a v [] :: Γ))) := by
    refine h.inv.touch l hc rfl ?_ (.inr (Nat.succ_pos _)) ?_
    · intro b
      show ones (own (.tok a v [] :: Γ)) b + one a b * c.refs = ones (own Γ) b + one a b * (c.refs + 1)
      rw [own_cons, Nat.mul_add, Nat.mul_one]
      show one a b + ones (own Γ) b + _ = _
      omega
    · intro d hd; exact h.inv.cache a c d hc hd
  refine h.step i (W := []) (U := [a]) ?_ (by simp) ?_ rfl rfl rfl ?_ ?_
    (fun b lb hb => .inl ⟨live_upd hc lb, by rwa [avoid_tok] at hb⟩)
  · intro b d d' hb hb'
    by_cases e : b = a
    · subst e
      simp only [upd_self] at hb'
      cases hb'
      rw [hc] at hb; cases hb
      exact ⟨fun _ => ⟨rfl, rfl⟩, fun hn => absurd (List.mem_singleton.2 rfl) hn⟩
    · simp only [upd_ne e] at hb'
      rw [hb] at hb'; cases hb'
      exact ⟨fun _ => ⟨rfl, rfl⟩, fun _ => Nat.le_refl _⟩
  · intro b hb; left; simpa [priv_cons, B.priv] using hb
  · intro b d x k hb hx hk
    by_cases e : b = a
    · subst e
      simp only [upd_self] at hb
      cases hb
      exact h.cache b c x k hc hx hk
    · simp only [upd_ne e] at hb
      exact h.cache b d x k hb hx hk
  · intro σ hσ
    left
    rcases List.mem_cons.1 hσ with e | e
    · subst e; exact ⟨⟨hv, by simp⟩, by simp [B.priv]⟩
    · refine ⟨h.ok σ e, fun b hb => ⟨by simp, ?_⟩⟩
      rw [List.mem_singleton]
      rintro rfl
      exact na.1 (priv_mem e hb)

theorem sat_up {Q : Unit → HSt → Prop} {Γ : List B} {s : HSt} {st : St} {a : Addr} {v : Val} (h : Sim Γ s st)
    (b : Bor Γ s a v) (k : ∀ s', Sim (.tok a v [] :: Γ) s' st → Q () s') : Sat (Heap.up a) Q s := by
  obtain ⟨G, h⟩ := h
  obtain ⟨hv, l⟩ := h.bor b
  obtain ⟨⟨c, hc⟩, hz⟩ := l
  exact Sat.ok (modify_ok _ hc) (k _ ⟨G, h.up hv ⟨⟨c, hc⟩, hz⟩ hc⟩)

theorem SimG.shrink {G : List Ent} {Γ Γ' : List B} {s s' : HSt} {st : St} (h : SimG G Γ s st)
    (i : InvO (priv Γ') s' (ones (own Γ'))) (k : Shrink s s') (hp : ∀ b, b ∈ priv Γ' → b ∈ priv Γ)
    (sub : ∀ σ, σ ∈ Γ' → σ ∈ Γ) (hn : ∀ b, b ∈ priv Γ → b ∈ priv Γ' ∨ s'.mem b = none) : SimG G Γ' s' st := by
  refine h.step i (W := []) (U := []) ?_ (by simp) (fun b hb => .inl (hp b hb)) k.globals k.out k.strict ?_ ?_ ?_
  · intro b c c' hb hb'
    obtain ⟨c1, h1, h2, h3, h4, h5⟩ := k.mem b c' hb'
    rw [hb] at h1; cases h1
    exact ⟨fun _ => ⟨h2, h3⟩, fun _ => h5⟩
  · intro b c d x hb hd hx
    obtain ⟨c1, h1, h2, h3, h4, h5⟩ := k.mem b c hb
    exact h.cache b c1 d x h1 (h4 ▸ hd) (h2 ▸ hx)
  · intro σ hσ; exact .inl ⟨h.ok σ (sub σ hσ), by simp⟩
  · intro a l na
    left
    obtain ⟨⟨c, hc⟩, hz⟩ := l
    obtain ⟨c1, h1, _⟩ := k.mem a c hc
    refine ⟨⟨⟨c1, h1⟩, k.zombies ▸ hz⟩, ?_⟩
    simp only [avoid, List.mem_append, not_or] at na ⊢
    refine ⟨fun hp' => ?_, na.2⟩
    rcases hn a hp' with h' | h'
    · exact na.1 h'
    · rw [hc] at h'; cases h'

/-- Forget what a value is. -/
theorem SimG.forget {G : List Ent} {Γ : List B} {s : HSt} {st : St} {a : Addr} {v : Val} {ps : List (Addr × Val)}
    (h : SimG G (.tok a v ps :: Γ) s st) : SimG G (.ref a :: Γ) s st := by
  refine h.recast h.inv (fun b hb => hb) ?_ (fun b hb hb' => absurd hb hb')
  intro ρ hρ
  left
  rcases List.mem_cons.1 hρ with e | e
  · subst e; exact trivial
  · exact h.ok ρ (by simp [e])

theorem Sim.forget {Γ : List B} {s : HSt} {st : St} {a : Addr} {v : Val} {ps : List (Addr × Val)}
    (h : Sim (.tok a v ps :: Γ) s st) : Sim (.ref a :: Γ) s st := by
  obtain ⟨G, h⟩ := h; exact ⟨G, h.forget⟩

theorem SimG.release {G : List Ent} {Γ : List B} {s : HSt} {st : St} {a : Addr} (h : SimG G (.ref a :: Γ) s st) :
    ∃ s', X a s = .ok ((), s') ∧ SimG G Γ s' st ∧ Shrink s s' := by
  have e : ∀ b, ones (own (.ref a :: Γ)) b = one a b + ones (own Γ) b := fun b => by
    rw [own_cons]; rfl
  have ep : priv (.ref a :: Γ) = priv Γ := by simp [priv_cons, B.priv]
  have hi := h.inv
  rw [ep] at hi
  obtain ⟨s', T', r, i, e', sh⟩ := X_spec hi (a := a) (fun b => by rw [e b]; omega) (by
    intro o ho b
    have := ones_mem (priv_sub_own ho) b
    rw [e b]; omega)
  refine ⟨s', r, h.shrink (i.congr fun b => ?_) sh (fun b hb => ep ▸ hb) (fun σ hσ => by simp [hσ])
    (fun b hb => .inl (ep ▸ hb)), sh⟩
  have := e b
  have := e' b
  omega

theorem sat_Xr {Q : Unit → HSt → Prop} {Γ : List B} {s : HSt} {st : St} {a : Addr}
    (h : Sim (.ref a :: Γ) s st) (k : ∀ s', Sim Γ s' st → Q () s') : Sat (X a) Q s := by
  obtain ⟨G, h⟩ := h
  obtain ⟨s', r, h', _⟩ := h.release
  exact Sat.ok r (k s' ⟨G, h'⟩)

theorem sat_X {Q : Unit → HSt → Prop} {Γ : List B} {s : HSt} {st : St} {a : Addr} {v : Val} {ps : List (Addr × Val)}
    (h : Sim (.tok a v ps :: Γ) s st) (k : ∀ s', Sim Γ s' st → Q () s') : Sat (X a) Q s := sat_Xr h.forget k

/-! ## New cells -/

theorem alloc_step {s : HSt} {d : Data} {W U : List Addr} (hf : s.mem s.next = none) :
    Step W U s { s with mem := upd s.mem s.next (some ⟨1, false, none, d⟩), next := s.next + 1 } := by
  intro b c c' hb hb'
  have e : b ≠ s.next := by rintro rfl; rw [hf] at hb; cases hb
  simp only [upd_ne e] at hb'
  rw [hb] at hb'; cases hb'
  exact ⟨fun _ => ⟨rfl, rfl⟩, fun _ => Nat.le_refl _⟩

theorem sat_mk {Q : Addr → HSt → Prop} {Γ : List B} {s : HSt} {st : St} {d : Data} {v : Val} (h : Sim Γ s st)
    (hd : d.atom = some v) (k : ∀ r s', Sim (.tok r v [] :: Γ) s' st → Q r s') : Sat (alloc d) Q s := by
  obtain ⟨G, h⟩ := h
  have hf := h.inv.fresh s.next (Nat.le_refl _)
  have hp : d.isPair = false := by cases d <;> first | rfl | (simp [Data.atom] at hd)
  refine Sat.ok rfl (k _ _ ⟨G, ?_⟩)
  have na : s.next ∉ avoid G Γ := by
    simp only [avoid, List.mem_append, not_or]
    refine ⟨fun hp => h.inv.opn _ hp hf, fun hg => ?_⟩
    obtain ⟨e, he, hx⟩ := List.mem_map.1 hg
    obtain ⟨⟨c, hc⟩, _⟩ := h.entry_live he
    rw [hx, hf] at hc; cases hc
  have hr : Repr (avoid G (.tok s.next v [] :: Γ)) (upd s.mem s.next (some ⟨1, false, none, d⟩)) s.next v := by
    refine .atom (by rw [avoid_tok]; exact na) (upd_self _ _ _) ?_
    unfold Cell.val
    cases d <;> first | exact hd | (simp [Data.atom] at hd)
  refine h.step (W := []) (U := []) ?_ (alloc_step hf) (by simp) ?_ rfl rfl rfl ?_ ?_ ?_
  · refine h.inv.alloc d fun b => ?_
    rw [own_cons, occ_atom hp]
    show one s.next b + ones (own Γ) b + 0 = _
    omega
  · intro b hb; left; simpa [priv_cons, B.priv] using hb
  · intro b c x y hb hx hy
    by_cases e : b = s.next
    · subst e; simp only [upd_self] at hb; cases hb; cases hx
    · simp only [upd_ne e] at hb; exact h.cache b c x y hb hx hy
  · intro σ hσ
    rcases List.mem_cons.1 hσ with e | e
    · subst e
      right
      exact ⟨hr, by simp⟩
    · exact .inl ⟨h.ok σ e, by simp⟩
  · intro b l hb
    by_cases e : b = s.next
    · subst e; exact .inr ⟨v, hr⟩
    · left
      obtain ⟨⟨c, hc⟩, hz⟩ := l
      simp only [upd_ne e] at hc
      exact ⟨⟨⟨c, hc⟩, hz⟩, by rwa [avoid_tok] at hb⟩

theorem sat_nil {Q : Addr → HSt → Prop} {Γ : List B} {s : HSt} {st : St} (h : Sim Γ s st)
    (k : ∀ r s', Sim (.tok r .nil [] :: Γ) s' st → Q r s') : Sat mkNil Q s := sat_mk h rfl k
theorem sat_true {Q : Addr → HSt → Prop} {Γ : List B} {s : HSt} {st : St} (h : Sim Γ s st)
    (k : ∀ r s', Sim (.tok r .tru [] :: Γ) s' st → Q r s') : Sat mkTrue Q s := sat_mk h rfl k
theorem sat_bool {Q : Addr → HSt → Prop} {Γ : List B} {s : HSt} {st : St} {b : Bool} (h : Sim Γ s st)
    (k : ∀ r s', Sim (.tok r (ofBool b) [] :: Γ) s' st → Q r s') : Sat (mkBool b) Q s := by
  cases b
  · exact sat_nil h k
  · exact sat_true h k

/-- A new pair is private. -/
theorem sat_pc {Q : Addr → HSt → Prop} {Γ : List B} {s : HSt} {st : St} {x y : Addr} (h : Sim Γ s st)
    (k : ∀ r s', Sim (.pc r false x y :: Γ) s' st → Q r s') : Sat (consH x y) Q s := by
  obtain ⟨G, h⟩ := h
  have hf := h.inv.fresh s.next (Nat.le_refl _)
  refine Sat.ok rfl (k _ _ ⟨G, ?_⟩)
  have hno : s.next ∉ priv Γ := fun ho => h.inv.opn _ ho hf
  refine h.step (W := []) (U := []) ?_ (alloc_step hf) (by simp) ?_ rfl rfl rfl ?_ ?_ ?_
  · -- a closed cell that is opened
    have t0 := h.inv.dead s.next hf
    have hnz : s.next ∉ s.zombies := by
      intro hz
      have := List.count_pos_iff.2 (h.inv.zomb _ hz).1
      unfold total roots at t0
      omega
    have he : ∀ b, edges (s.next :: priv Γ ++ s.zombies) (upd s.mem s.next (some ⟨1, false, none, .pair x y⟩))
        (s.next + 1) b = edges (priv Γ ++ s.zombies) s.mem s.next b := by
      intro b
      unfold edges
      rw [sumTo, contrib_open (by simp)]
      refine sumTo_congr fun z hz => ?_
      have : z ≠ s.next := by omega
      simp [contrib, upd_ne this, this]
    have ht : ∀ b, ones (own (.pc s.next false x y :: Γ)) b = one s.next b + ones (own Γ) b := fun b => by
      rw [own_cons]; rfl
    show InvO (s.next :: priv Γ) _ _
    have hi := h.inv
    refine ⟨?_, ?_, ?_, ?_, ?_, ?_, ?_⟩
    · intro b hb
      simp only at hb
      have : b ≠ s.next := by omega
      simp only [upd_ne this]
      exact hi.fresh b (by omega)
    · intro b c hb
      simp only at hb
      by_cases eb : b = s.next
      · subst eb
        rw [upd_self] at hb
        cases hb
        have := ht s.next
        rw [one_self] at this
        simp only [total, he, roots] at t0 ⊢
        omega
      · rw [upd_ne eb] at hb
        have h1 := hi.exact b c hb
        have h2 := ht b
        rw [one_ne eb] at h2
        simp only [total, he, roots] at h1 ⊢
        omega
    · intro b hb
      simp only at hb
      have eb : b ≠ s.next := by rintro rfl; rw [upd_self] at hb; cases hb
      rw [upd_ne eb] at hb
      have h1 := hi.dead b hb
      have h2 := ht b
      rw [one_ne eb] at h2
      simp only [total, he, roots] at h1 ⊢
      omega
    · intro b c hb hO
      simp only at hb
      have eb : b ≠ s.next := by rintro rfl; exact hO (by simp)
      rw [upd_ne eb] at hb
      exact hi.pos b c hb (fun h' => hO (by simp [h']))
    · intro o hO
      by_cases eb : o = s.next
      · subst eb; simp [upd_self]
      · simp only [upd_ne eb]
        rcases List.mem_cons.1 hO with e | e
        · exact absurd e eb
        · exact hi.opn o e
    · intro z hz
      have eb : z ≠ s.next := by rintro rfl; exact hnz hz
      refine ⟨(hi.zomb z hz).1, ?_⟩
      have h1 := (hi.zomb z hz).2
      have h2 := ht z
      rw [one_ne eb] at h2
      simp only [he]
      omega
    · intro b c d hb hd
      simp only at hb
      by_cases eb : b = s.next
      · subst eb; rw [upd_self] at hb; cases hb; cases hd
      · rw [upd_ne eb] at hb
        exact hi.cache b c d hb hd
  · intro b hb
    simp only [priv_cons, B.priv, List.mem_append, List.mem_singleton] at hb
    rcases hb with e | e
    · subst e; exact .inr hf
    · exact .inl e
  · intro b c d z hb hd hz
    by_cases e : b = s.next
    · subst e; simp only [upd_self] at hb; cases hb; cases hd
    · simp only [upd_ne e] at hb; exact h.cache b c d z hb hd hz
  · intro σ hσ
    rcases List.mem_cons.1 hσ with e | e
    · subst e
      right
      exact ⟨_, upd_self _ _ _, rfl, rfl, rfl⟩
    · exact .inl ⟨h.ok σ e, by simp⟩
  · intro b l hb
    simp only [avoid, priv_cons, B.priv, List.mem_append, List.mem_singleton, not_or] at hb
    left
    obtain ⟨⟨c, hc⟩, hz⟩ := l
    simp only [upd_ne hb.1.1] at hc
    exact ⟨⟨⟨c, hc⟩, hz⟩, by simp only [avoid, List.mem_append, not_or]; exact ⟨hb.1.2, hb.2⟩⟩

/-- Make a private pair of values public. -/
theorem Sim.publish {Γ : List B} {s : HSt} {st : St} {a x y : Addr} {t : Bool} {u w : Val}
    {px py : List (Addr × Val)} (h : Sim (.node a t (.tok x u px) (.tok y w py) :: Γ) s st) :
    Sim (.tok a (.pair t u w) ((x, u) :: (y, w) :: (px ++ py)) :: Γ) s st := by
  obtain ⟨G, h⟩ := h
  have hn := h.ok _ (List.mem_cons_self ..)
  obtain ⟨⟨c, hc, hr, ht, hd⟩, hx, hy⟩ := hn
  have ha : a ∈ priv (.node a t (.tok x u px) (.tok y w py) :: Γ) := by simp [priv_cons, B.priv]
  have hone := h.priv_once ha
  have hap : a ∉ priv Γ := by
    intro h'
    have h1 := ones_mem (priv_sub_own h') a
    have h2 := hone.1
    rw [own_cons, ones_append] at h2
    simp only [B.own, ones_cons, List.singleton_append, ones_nil, one_self] at h1 h2
    omega
  have hl : Live s a := h.live (by simp [own_cons, B.own])
  have eP : priv (.node a t (.tok x u px) (.tok y w py) :: Γ) = a :: priv Γ := by simp [priv_cons, B.priv]
  have hi := h.inv
  rw [eP] at hi
  have i : InvO (priv Γ) s (ones (own (.tok a (.pair t u w) ((x, u) :: (y, w) :: (px ++ py)) :: Γ))) := by
    refine hi.close hl.2 hap hc (by omega) fun b => ?_
    rw [hd]
    simp only [own_cons, B.own, ones_cons, List.nil_append, List.cons_append, occ_pair, B.addr]
    omega
  have hA : ∀ b, b ∈ avoid G Γ → b ∈ avoid G (.node a t (.tok x u px) (.tok y w py) :: Γ) := by
    intro b hb
    simp only [avoid, List.mem_append, eP, List.mem_cons] at hb ⊢
    rcases hb with hb | hb
    · exact .inl (.inr hb)
    · exact .inr hb
  have na : a ∉ avoid G Γ := by
    simp only [avoid, List.mem_append, not_or]
    exact ⟨hap, h.priv_entry ha⟩
  have hx' := hx.avoid hA
  have hy' := hy.avoid hA
  refine ⟨G, h.recast i ?_ ?_ ?_⟩
  · intro b hb; rw [eP]; simp only [priv_cons, B.priv, List.nil_append] at hb; simp [hb]
  · intro σ hσ
    rcases List.mem_cons.1 hσ with e | e
    · subst e
      right
      rw [avoid_tok]
      refine ⟨?_, ?_⟩
      · rw [← ht]; exact .pair na hc hd hx'.1 hy'.1
      · intro p hp
        have r1 : Part s.mem a x := .car .refl hc hd
        have r2 : Part s.mem a y := .cdr .refl hc hd
        simp only [List.mem_cons, List.mem_append] at hp
        rcases hp with e | e | e | e
        · subst e; exact ⟨r1, hx'.1⟩
        · subst e; exact ⟨r2, hy'.1⟩
        · exact ⟨r1.trans (hx'.2 p e).1, (hx'.2 p e).2⟩
        · exact ⟨r2.trans (hy'.2 p e).1, (hy'.2 p e).2⟩
    · left; exact h.ok σ (by simp [e])
  · intro b hb hb'
    rw [eP] at hb
    rcases List.mem_cons.1 hb with e | e
    · subst e
      rw [avoid_tok]
      exact ⟨_, .pair na hc hd hx'.1 hy'.1⟩
    · exact absurd (by simpa [priv_cons, B.priv] using e) hb'

/-- The pair of two owned values. -/
theorem sat_cons {Q : Addr → HSt → Prop} {Γ : List B} {s : HSt} {st : St} {x y : Addr} {u w : Val}
    {px py : List (Addr × Val)} (h : Sim (.tok x u px :: .tok y w py :: Γ) s st)
    (k : ∀ r s', Sim (.tok r (.cons u w) ((x, u) :: (y, w) :: (px ++ py)) :: Γ) s' st → Q r s') :
    Sat (consH x y) Q s := by
  refine sat_pc h fun r s' h' => k r s' ?_
  have := Sim.fold (σ := .tok x u px) (τ := .tok y w py) h'
  exact this.publish

theorem sat_cons' {Q : Addr → HSt → Prop} {Γ : List B} {s : HSt} {st : St} {x y : Addr} {u w : Val}
    {px py : List (Addr × Val)} (h : Sim (.tok x u px :: .tok y w py :: Γ) s st)
    (k : ∀ r s', Sim (.tok r (.cons u w) [] :: Γ) s' st → Q r s') :
    Sat (consH x y) Q s := sat_cons h fun r s' h' => k r s' (h'.unpin (by simp))

/-! ## CAR and CDR -/

theorem sat_car {Q : Addr → HSt → Prop} {Γ : List B} {s : HSt} {st : St} {a : Addr} {v : Val} (h : Sim Γ s st)
    (b : Bor Γ s a v) (k : ∀ r s', Sim (.tok r v.car [] :: Γ) s' st → Q r s') : Sat (carH a) Q s := by
  obtain ⟨t, w, ps, hm, r, hv⟩ := b
  refine Sat.bind (Sat.bind (sat_cell fun c hc => Sat.pure ?_))
  cases hv with
  | @atom _ c' _ _ hc' hv' =>
    rw [hc] at hc'; cases hc'
    unfold Cell.val at hv'
    cases hd : c.data with
    | pair x y => rw [hd] at hv'; cases hv'
    | _ =>
      rw [hd] at hv'
      simp only [Data.atom, Option.some.injEq] at hv'
      subst hv'
      exact sat_nil h k
  | @pair _ x y c' u w' _ hc' hd hx hy =>
    rw [hc] at hc'; cases hc'
    rw [hd]
    refine Sat.bind (sat_up h ⟨t, w, ps, hm, .car r hc hd, hx⟩ fun s' h' => Sat.pure (k x s' h'))

theorem sat_cdr {Q : Addr → HSt → Prop} {Γ : List B} {s : HSt} {st : St} {a : Addr} {v : Val} (h : Sim Γ s st)
    (b : Bor Γ s a v) (k : ∀ r s', Sim (.tok r v.cdr [] :: Γ) s' st → Q r s') : Sat (cdrH a) Q s := by
  obtain ⟨t, w, ps, hm, r, hv⟩ := b
  refine Sat.bind (Sat.bind (sat_cell fun c hc => Sat.pure ?_))
  cases hv with
  | @atom _ c' _ _ hc' hv' =>
    rw [hc] at hc'; cases hc'
    unfold Cell.val at hv'
    cases hd : c.data with
    | pair x y => rw [hd] at hv'; cases hv'
    | _ =>
      rw [hd] at hv'
      simp only [Data.atom, Option.some.injEq] at hv'
      subst hv'
      exact sat_nil h k
  | @pair _ x y c' u w' _ hc' hd hx hy =>
    rw [hc] at hc'; cases hc'
    rw [hd]
    refine Sat.bind (sat_up h ⟨t, w, ps, hm, .cdr r hc hd, hy⟩ fun s' h' => Sat.pure (k y s' h'))

/-! ## Private cells -/

theorem SimG.pc_unique {G : List Ent} {Γ : List B} {s : HSt} {st : St} {a x y : Addr} {t : Bool}
    (h : SimG G (.pc a t x y :: Γ) s st) : a ∉ own Γ ∧ a ∉ priv Γ := by
  have ha : a ∈ priv (.pc a t x y :: Γ) := by simp [priv_cons, B.priv]
  have h2 := (h.priv_once ha).1
  rw [own_cons, ones_append] at h2
  simp only [B.own, ones_cons, ones_nil, one_self] at h2
  have : a ∉ own Γ := by
    intro h'
    have h1 := ones_mem h' a
    rw [one_self] at h1
    omega
  exact ⟨this, fun h' => this (priv_sub_own h')⟩

/-- Write a private cell. -/
theorem SimG.write {G : List Ent} {Γ : List B} {s : HSt} {st : St} {a x y x' y' : Addr} {t t' : Bool} {c : Cell}
    (h : SimG G (.pc a t x y :: Γ) s st) (hc : s.mem a = some c) :
    SimG G (.pc a t' x' y' :: Γ) { s with mem := upd s.mem a (some { c with tc := t', data := .pair x' y' }) } st := by
  obtain ⟨c', hc', hr, ht, hd⟩ := h.ok _ (List.mem_cons_self ..)
  rw [hc] at hc'; cases hc'
  have hu := h.pc_unique
  have i : InvO (priv (.pc a t' x' y' :: Γ)) { s with mem := upd s.mem a (some { c with tc := t', data := .pair x' y' }) }
      (ones (own (.pc a t' x' y' :: Γ))) := h.inv.write (by simp [priv_cons, B.priv]) hc rfl rfl
  refine h.step i (W := [a]) (U := []) ?_ ?_ ?_ rfl rfl rfl ?_ ?_
    (fun b lb hb => .inl ⟨live_upd hc lb, by simpa only [avoid, priv_cons, B.priv] using hb⟩)
  · intro b d d' hb hb'
    by_cases e : b = a
    · subst e
      simp only [upd_self] at hb'
      cases hb'
      rw [hc] at hb; cases hb
      exact ⟨fun hn => absurd (List.mem_singleton.2 rfl) hn, fun _ => Nat.le_refl _⟩
    · simp only [upd_ne e] at hb'
      rw [hb] at hb'; cases hb'
      exact ⟨fun _ => ⟨rfl, rfl⟩, fun _ => Nat.le_refl _⟩
  · intro b hb; rw [List.mem_singleton] at hb; subst hb; simp [priv_cons, B.priv]
  · intro b hb; left; simpa [priv_cons, B.priv] using hb
  · intro b d z k hb hz hk
    by_cases e : b = a
    · subst e
      simp only [upd_self] at hb
      cases hb
      cases hk
    · simp only [upd_ne e] at hb
      exact h.cache b d z k hb hz hk
  · intro σ hσ
    rcases List.mem_cons.1 hσ with e | e
    · subst e
      right
      exact ⟨_, upd_self _ _ _, hr, rfl, rfl⟩
    · left
      refine ⟨h.ok σ (by simp [e]), fun b hb => ⟨?_, by simp⟩⟩
      rw [List.mem_singleton]
      rintro rfl
      exact hu.2 (priv_mem e hb)

theorem sat_setData {Q : Unit → HSt → Prop} {Γ : List B} {s : HSt} {st : St} {a x y x' y' : Addr} {t : Bool}
    (h : Sim (.pc a t x y :: Γ) s st) (k : ∀ s', Sim (.pc a t x' y' :: Γ) s' st → Q () s') :
    Sat (setData a (.pair x' y')) Q s := by
  obtain ⟨G, h⟩ := h
  obtain ⟨c, hc, hr, ht, hd⟩ := h.ok _ (List.mem_cons_self ..)
  refine Sat.ok (modify_ok _ hc) (k _ ⟨G, ?_⟩)
  have := h.write (t' := t) (x' := x') (y' := y') hc
  rw [← ht] at this ⊢
  exact this

theorem sat_setTail {Q : Unit → HSt → Prop} {Γ : List B} {s : HSt} {st : St} {a x y : Addr} {t : Bool}
    (h : Sim (.pc a t x y :: Γ) s st) (k : ∀ s', Sim (.pc a true x y :: Γ) s' st → Q () s') :
    Sat (setTail a) Q s := by
  obtain ⟨G, h⟩ := h
  obtain ⟨c, hc, hr, ht, hd⟩ := h.ok _ (List.mem_cons_self ..)
  refine Sat.ok (modify_ok _ hc) (k _ ⟨G, ?_⟩)
  have := h.write (t' := true) (x' := x) (y' := y) hc
  rw [← hd] at this
  exact this

theorem sat_pairPc {Q : Addr × Addr → HSt → Prop} {Γ : List B} {s : HSt} {st : St} {a x y : Addr} {t : Bool}
    (h : Sim Γ s st) (hm : .pc a t x y ∈ Γ) (k : Q (x, y) s) : Sat (pairOf a) Q s := by
  obtain ⟨G, h⟩ := h
  obtain ⟨c, hc, hr, ht, hd⟩ := h.ok _ hm
  refine Sat.bind (Sat.bind (Sat.ok (cell_ok hc) (Sat.pure ?_)))
  rw [hd]
  exact Sat.pure k

theorem sat_dataPc {Q : Data → HSt → Prop} {Γ : List B} {s : HSt} {st : St} {a x y : Addr} {t : Bool}
    (h : Sim Γ s st) (hm : .pc a t x y ∈ Γ) (k : Q (.pair x y) s) : Sat (dataOf a) Q s := by
  obtain ⟨G, h⟩ := h
  obtain ⟨c, hc, hr, ht, hd⟩ := h.ok _ hm
  refine Sat.bind (Sat.ok (cell_ok hc) (Sat.pure ?_))
  rw [hd]
  exact k

/-- Discard a private cell whose fields are owned. -/
theorem SimG.drop {G : List Ent} {Γ : List B} {s : HSt} {st : St} {a x y : Addr} {t : Bool}
    (h : SimG G (.pc a t x y :: Γ) s st) : SimG G Γ { s with mem := upd s.mem a none } st := by
  obtain ⟨c, hc, hr, ht, hd⟩ := h.ok _ (List.mem_cons_self ..)
  have hu := h.pc_unique
  have hl : Live s a := h.live (by simp [own_cons, B.own])
  have h0 : InvO (a :: priv Γ) (dec s a c) (ones (own Γ)) := by
    refine h.inv.touch hl hc rfl ?_ (.inl (by simp [priv_cons, B.priv])) (fun d hd => h.inv.cache a c d hc hd)
    intro b
    rw [own_cons]
    show ones (own Γ) b + one a b * c.refs = one a b + ones (own Γ) b + one a b * (c.refs - 1)
    by_cases e : b = a
    · subst e; rw [one_self]; omega
    · rw [one_ne e]; omega
  have i := h0.free hu.2 (upd_self _ _ _) (by show c.refs - 1 = 0; omega)
  have em : upd (dec s a c).mem a none = upd s.mem a none := by
    funext b
    unfold dec
    by_cases e : b = a
    · subst e; simp [upd_self]
    · simp [upd_ne e]
  rw [em] at i
  refine h.shrink i (free_shrink s a) (fun b hb => by simp [priv_cons, hb]) (fun σ hσ => by simp [hσ]) fun b hb => ?_
  simp only [priv_cons, B.priv, List.mem_append, List.mem_singleton] at hb
  rcases hb with e | e
  · subst e; exact .inr (upd_self _ _ _)
  · exact .inl e

theorem carH_ok {s : HSt} {a x y : Addr} {c cx : Cell} (hc : s.mem a = some c) (hd : c.data = .pair x y)
    (hx : s.mem x = some cx) : carH a s = .ok (x, { s with mem := upd s.mem x (some { cx with refs := cx.refs + 1 }) }) := by
  have h1 : dataOf a s = .ok (.pair x y, s) := by
    unfold dataOf; rw [HM.bind_ok (cell_ok hc), hd]; rfl
  unfold carH
  rw [HM.bind_ok h1]
  show (Heap.up x >>= fun _ => pure x) s = _
  rw [HM.bind_ok (show Heap.up x s = _ from modify_ok _ hx)]
  rfl

theorem cdrH_ok {s : HSt} {a x y : Addr} {c cy : Cell} (hc : s.mem a = some c) (hd : c.data = .pair x y)
    (hy : s.mem y = some cy) : cdrH a s = .ok (y, { s with mem := upd s.mem y (some { cy with refs := cy.refs + 1 }) }) := by
  have h1 : dataOf a s = .ok (.pair x y, s) := by
    unfold dataOf; rw [HM.bind_ok (cell_ok hc), hd]; rfl
  unfold cdrH
  rw [HM.bind_ok h1]
  show (Heap.up y >>= fun _ => pure y) s = _
  rw [HM.bind_ok (show Heap.up y s = _ from modify_ok _ hy)]
  rfl

/-- Taking both fields of a cell with one reference and releasing it frees the cell. -/
theorem unpair_run {α : Type} {f : Addr → Addr → HM α} {s : HSt} {b x y : Addr} {c cx cy : Cell}
    (hb : s.mem b = some c) (hr : c.refs = 1) (hd : c.data = .pair x y) (hx : s.mem x = some cx)
    (hy : s.mem y = some cy) (px : 0 < cx.refs) (py : 0 < cy.refs) (nx : x ≠ b) (ny : y ≠ b) (hn : b < s.next) :
    (carH b >>= fun p => cdrH b >>= fun q => X b >>= fun _ => f p q) s
      = f x y { s with mem := upd s.mem b none } := by
  obtain ⟨N, hN⟩ : ∃ N, s.next = N + 1 := ⟨s.next - 1, by omega⟩
  rw [HM.bind_ok (carH_ok hb hd hx)]
  have nx' : b ≠ x := fun e => nx e.symm
  have ny' : b ≠ y := fun e => ny e.symm
  by_cases e : y = x
  · subst e
    rw [hx] at hy; cases hy
    rw [HM.bind_ok (cdrH_ok (c := c) (cy := { cx with refs := cx.refs + 1 }) (by simp only [upd_ne nx']; exact hb) hd
      (by simp only [upd_self]))]
    simp only
    have hX : X b { s with mem := (upd (upd s.mem y (some { cx with refs := cx.refs + 1 })) y
          (some { cx with refs := cx.refs + 1 + 1 })) } = .ok ((), { s with mem := upd s.mem b none }) := by
      unfold X
      simp only
      rw [hN, release_last_pair (c := c) (by simp only [upd_ne nx']; exact hb) hr hd]
      unfold dec
      simp only
      rw [HM.bind_ok (release_many (c := { cx with refs := cx.refs + 1 + 1 })
        (by simp only [upd_ne nx, upd_self]) (by show 1 < cx.refs + 1 + 1; omega))]
      unfold dec
      simp only
      rw [HM.bind_ok (release_many (c := { cx with refs := cx.refs + 1 + 1 - 1 })
        (by simp only [upd_self]) (by show 1 < cx.refs + 1 + 1 - 1; omega))]
      unfold dec
      simp only
      rw [free_ok (c := { c with refs := c.refs - 1 }) (by simp only [upd_ne nx', upd_self])]
      have : upd (upd (upd (upd (upd (upd s.mem y (some { cx with refs := cx.refs + 1 })) y
          (some { cx with refs := cx.refs + 1 + 1 })) b (some { c with refs := c.refs - 1 })) y
          (some { cx with refs := cx.refs + 1 + 1 - 1 })) y (some { cx with refs := cx.refs + 1 + 1 - 1 - 1 })) b none
          = upd s.mem b none := by
        funext z
        by_cases e1 : z = b
        · subst e1; simp [upd_self]
        · by_cases e2 : z = y
          · subst e2
            simp only [upd_ne e1, upd_self, hx]
            rfl
          · simp [upd_ne e1, upd_ne e2]
      rw [this]
    rw [HM.bind_ok hX]
  · have e' : x ≠ y := fun h => e h.symm
    rw [HM.bind_ok (cdrH_ok (c := c) (cy := cy) (by simp only [upd_ne nx']; exact hb) hd
      (by simp only [upd_ne e]; exact hy))]
    simp only
    have hX : X b { s with mem := (upd (upd s.mem x (some { cx with refs := cx.refs + 1 })) y
          (some { cy with refs := cy.refs + 1 })) } = .ok ((), { s with mem := upd s.mem b none }) := by
      unfold X
      simp only
      rw [hN, release_last_pair (c := c) (by simp only [upd_ne nx', upd_ne ny']; exact hb) hr hd]
      unfold dec
      simp only
      rw [HM.bind_ok (release_many (c := { cx with refs := cx.refs + 1 })
        (by simp only [upd_ne nx, upd_ne e', upd_self]) (by show 1 < cx.refs + 1; omega))]
      unfold dec
      simp only
      rw [HM.bind_ok (release_many (c := { cy with refs := cy.refs + 1 })
        (by simp only [upd_ne e, upd_ne ny, upd_self]) (by show 1 < cy.refs + 1; omega))]
      unfold dec
      simp only
      rw [free_ok (c := { c with refs := c.refs - 1 }) (by simp only [upd_ne nx', upd_ne ny', upd_self])]
      have : upd (upd (upd (upd (upd (upd s.mem x (some { cx with refs := cx.refs + 1 })) y
          (some { cy with refs := cy.refs + 1 })) b (some { c with refs := c.refs - 1 })) x
          (some { cx with refs := cx.refs + 1 - 1 })) y (some { cy with refs := cy.refs + 1 - 1 })) b none
          = upd s.mem b none := by
        funext z
        by_cases e1 : z = b
        · subst e1; simp [upd_self]
        · by_cases e2 : z = y
          · subst e2
            simp only [upd_ne e1, upd_self, hy]
            rfl
          · by_cases e3 : z = x
            · subst e3
              simp only [upd_ne e1, upd_ne e2, upd_self, hx]
              rfl
            · simp [upd_ne e1, upd_ne e2, upd_ne e3]
      rw [this]
    rw [HM.bind_ok hX]

/-- Take a private pair apart. -/
theorem sat_unpair {α : Type} {f : Addr → Addr → HM α} {Q : α → HSt → Prop} {Γ : List B} {s : HSt} {st : St}
    {b x y : Addr} {t : Bool} (h : Sim (.pc b t x y :: Γ) s st) (hx : x ∈ own Γ) (hy : y ∈ own Γ)
    (k : ∀ s', Sim Γ s' st → Sat (f x y) Q s') :
    Sat (carH b >>= fun p => cdrH b >>= fun q => X b >>= fun _ => f p q) Q s := by
  obtain ⟨G, h⟩ := h
  obtain ⟨c, hc, hr, ht, hd⟩ := h.ok _ (List.mem_cons_self ..)
  have hu := h.pc_unique
  have g : ∀ z, z ∈ own Γ → ∃ cz, s.mem z = some cz ∧ 0 < cz.refs := by
    intro z hz
    obtain ⟨⟨cz, hcz⟩, _⟩ := h.live (a := z) (by rw [own_cons]; simp [hz])
    refine ⟨cz, hcz, ?_⟩
    have h1 := h.inv.exact z cz hcz
    have h2 := ones_mem hz z
    rw [one_self] at h2
    unfold total at h1
    rw [own_cons, ones_append] at h1
    omega
  obtain ⟨cx, hcx, px⟩ := g x hx
  obtain ⟨cy, hcy, py⟩ := g y hy
  have e := unpair_run (f := f) hc hr hd hcx hcy px py (fun e => hu.1 (e ▸ hx)) (fun e => hu.1 (e ▸ hy))
    (h.inv.lt hc)
  intro a s' hrun
  rw [e] at hrun
  exact k _ ⟨G, h.drop⟩ a s' hrun

end Heap
end Mnml
