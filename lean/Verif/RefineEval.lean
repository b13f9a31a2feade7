import Verif.RefineStr
import Verif.Eval

/-!
# Refinement: the evaluator

Every run of the evaluator on cells in strict mode is a run of the evaluator on trees.
-/

namespace Mnml
namespace Heap

/-! ## Frames -/

/-- Old cells keep their data and flags, and the global table is the same. -/
def Kp (n : Nat) (s s' : HSt) : Prop :=
  s.next ≤ s'.next ∧ s'.globals = s.globals ∧
    ∀ a c', a < n → s'.mem a = some c' → ∃ c, s.mem a = some c ∧ c'.data = c.data ∧ c'.tc = c.tc

/-- Every run keeps the data of old cells. -/
def KP {α : Type} (m : HM α) : Prop := ∀ n s, n ≤ s.next → Sat m (fun _ s' => Kp n s s') s

theorem Kp.refl (n : Nat) (s : HSt) : Kp n s s := ⟨Nat.le_refl _, rfl, fun _ c _ h => ⟨c, h, rfl, rfl⟩⟩

theorem Kp.trans {n : Nat} {s s' s'' : HSt} (h : Kp n s s') (h' : Kp n s' s'') : Kp n s s'' := by
  refine ⟨Nat.le_trans h.1 h'.1, h'.2.1.trans h.2.1, fun a c ha hc => ?_⟩
  obtain ⟨c1, h1, e1, t1⟩ := h'.2.2 a c ha hc
  obtain ⟨c2, h2, e2, t2⟩ := h.2.2 a c1 ha h1
  exact ⟨c2, h2, e1.trans e2, t1.trans t2⟩

theorem KP.bind {α β : Type} {m : HM α} {f : α → HM β} (h : KP m) (h' : ∀ a, KP (f a)) : KP (m >>= f) := by
  intro n s hn
  refine Sat.bind ((h n s hn).mono fun a s1 k1 => ?_)
  exact (h' a n s1 (Nat.le_trans hn k1.1)).mono fun _ s2 k2 => k1.trans k2

theorem KP.pure {α : Type} {a : α} : KP (Pure.pure a : HM α) := fun n s _ => Sat.pure (Kp.refl n s)

theorem kp_cell {a : Addr} : KP (cell a) := fun n s _ => sat_cell fun _ _ => Kp.refl n s
theorem kp_data {a : Addr} : KP (dataOf a) := kp_cell.bind fun _ => .pure

theorem kp_modify {a : Addr} {f : Cell → Cell} (hf : ∀ c, (f c).data = c.data ∧ (f c).tc = c.tc) : KP (modify a f) := by
  intro n s hn _ s' e
  cases hc : s.mem a with
  | none => unfold modify at e; rw [hc] at e; cases e
  | some c =>
    rw [modify_ok f hc] at e
    cases e
    refine ⟨Nat.le_refl _, rfl, fun b c' hb hc' => ?_⟩
    by_cases hba : b = a
    · subst hba
      have := (upd_self _ _ _).symm.trans hc'
      cases this
      exact ⟨c, hc, hf c⟩
    · exact ⟨c', (upd_ne hba).symm.trans hc', rfl, rfl⟩

theorem kp_free {a : Addr} : KP (free a) := by
  intro n s hn _ s' e
  unfold free at e
  cases hm : s.mem a with
  | none => rw [hm] at e; cases e
  | some c =>
  rw [hm] at e
  cases e
  refine ⟨Nat.le_refl _, rfl, fun b c' hb hc' => ?_⟩
  by_cases hba : b = a
  · subst hba
    have := (upd_self _ _ _).symm.trans hc'
    cases this
  · exact ⟨c', (upd_ne hba).symm.trans hc', rfl, rfl⟩

theorem kp_alloc {d : Data} : KP (alloc d) := by
  intro n s hn _ s' e
  unfold alloc at e
  cases e
  refine ⟨Nat.le_succ _, rfl, fun b c' hb hc' => ?_⟩
  exact ⟨c', (upd_ne (Nat.ne_of_lt (Nat.lt_of_lt_of_le hb hn))).symm.trans hc', rfl, rfl⟩

theorem kp_up {a : Addr} : KP (Heap.up a) := kp_modify fun _ => ⟨rfl, rfl⟩

theorem kp_release (k : Nat) : ∀ a, KP (release k a) := by
  induction k with
  | zero => intro a n s _; exact Sat.oof
  | succ k ih =>
    intro a
    refine kp_cell.bind fun c => ?_
    split
    · intro n s _; exact Sat.ub
    · refine (kp_modify (f := fun c => { c with refs := c.refs - 1 }) fun _ => ⟨rfl, rfl⟩).bind fun _ => ?_
      split
      · split
        · exact (ih _).bind fun _ => (ih _).bind fun _ => kp_free
        · exact kp_free
      · exact .pure

theorem kp_X {a : Addr} : KP (X a) := fun n s hn => kp_release _ a n s hn
theorem kp_Xs {l : List Addr} : KP (Xs l) := by
  induction l with
  | nil => exact .pure
  | cons a l ih => exact kp_X.bind fun _ => ih

theorem kp_car {a : Addr} : KP (carH a) := by
  refine kp_data.bind fun d => ?_
  split
  · exact kp_up.bind fun _ => .pure
  · exact kp_alloc

theorem kp_cdr {a : Addr} : KP (cdrH a) := by
  refine kp_data.bind fun d => ?_
  split
  · exact kp_up.bind fun _ => .pure
  · exact kp_alloc

theorem kp_bind (k : Nat) : ∀ closure arg val, KP (bindH k closure arg val) := by
  induction k with
  | zero => intro _ _ _ n s _; exact Sat.oof
  | succ k ih =>
    intro closure arg val
    refine kp_data.bind fun d => ?_
    split
    · exact kp_car.bind fun _ => kp_car.bind fun _ => kp_cdr.bind fun _ => kp_cdr.bind fun _ => kp_Xs.bind fun _ =>
        (ih _ _ _).bind fun _ => ih _ _ _
    · exact kp_alloc.bind fun _ => kp_alloc
    · exact kp_Xs.bind fun _ => .pure

/-! ## References that stay -/

/-- The code owns the value, or a value that it is a recorded part of. -/
def Pin (Γ : List B) (a : Addr) (v : Val) : Prop :=
  ∃ b w ps, B.tok b w ps ∈ Γ ∧ ((a, v) ∈ ps ∨ (a = b ∧ v = w))

theorem Pin.of {Γ : List B} {a : Addr} {v : Val} {ps : List (Addr × Val)} (h : B.tok a v ps ∈ Γ) : Pin Γ a v :=
  ⟨a, v, ps, h, .inr ⟨rfl, rfl⟩⟩
theorem Pin.at {Γ : List B} {b a : Addr} {w v : Val} {ps : List (Addr × Val)} (h : B.tok b w ps ∈ Γ) (hp : (a, v) ∈ ps) :
    Pin Γ a v := ⟨b, w, ps, h, .inl hp⟩
theorem Pin.sub {Γ Γ' : List B} {a : Addr} {v : Val} (h : Pin Γ a v) (i : ∀ σ, σ ∈ Γ → σ ∈ Γ') : Pin Γ' a v := by
  obtain ⟨b, w, ps, hm, hp⟩ := h
  exact ⟨b, w, ps, i _ hm, hp⟩
theorem Pin.cons {Γ : List B} {σ : B} {a : Addr} {v : Val} (h : Pin Γ a v) : Pin (σ :: Γ) a v :=
  h.sub fun _ => List.mem_cons_of_mem _
theorem Pin.c2 {Γ : List B} {σ τ : B} {a : Addr} {v : Val} (h : Pin Γ a v) : Pin (σ :: τ :: Γ) a v := h.cons.cons
theorem Pin.c3 {Γ : List B} {σ τ ρ : B} {a : Addr} {v : Val} (h : Pin Γ a v) : Pin (σ :: τ :: ρ :: Γ) a v := h.c2.cons
theorem Pin.c4 {Γ : List B} {σ τ ρ υ : B} {a : Addr} {v : Val} (h : Pin Γ a v) : Pin (σ :: τ :: ρ :: υ :: Γ) a v := h.c3.cons
theorem Pin.c5 {Γ : List B} {σ τ ρ υ φ : B} {a : Addr} {v : Val} (h : Pin Γ a v) : Pin (σ :: τ :: ρ :: υ :: φ :: Γ) a v :=
  h.c4.cons

theorem Sim.pbor {Γ : List B} {s : HSt} {st : St} {a : Addr} {v : Val} (h : Sim Γ s st) (p : Pin Γ a v) : Bor Γ s a v := by
  obtain ⟨b, w, ps, hm, hp | ⟨rfl, rfl⟩⟩ := p
  · exact h.borPin hm hp
  · exact h.bor hm

theorem Sim.prep {Γ : List B} {s : HSt} {st : St} {a : Addr} {v : Val} (h : Sim Γ s st) (p : Pin Γ a v) : Rep s.mem a v :=
  (h.pbor p).rep

theorem Pin.perm {Γ : List B} {a : Addr} {v : Val} (h : Pin Γ a v) :
    ∃ b w ps Γ', Γ.Perm (.tok b w ps :: Γ') ∧ ((a, v) ∈ ps ∨ (a = b ∧ v = w)) := by
  obtain ⟨b, w, ps, hm, hp⟩ := h
  obtain ⟨l, r, rfl⟩ := List.append_of_mem hm
  exact ⟨b, w, ps, l ++ r, List.perm_middle, hp⟩

theorem sat_dupP {Q : Addr → HSt → Prop} {n : Nat} {Γ : List B} {s : HSt} {st : St} {a : Addr} {v : Val} (h : Sim Γ s st)
    (p : Pin Γ a v) (k : ∀ σ s', Own σ → σ.val = v → Sim (σ :: Γ) s' st → Q σ.addr s') : Sat (dupH n a) Q s := by
  obtain ⟨b, w, ps, Γ', pm, hp⟩ := p.perm
  have h1 := h.perm pm
  have hr : Part s.mem b a ∧ Rep s.mem a v := by
    rcases hp with hp | ⟨rfl, rfl⟩
    · exact h1.pinned (List.mem_cons_self ..) hp
    · exact ⟨.refl, h1.rep (List.mem_cons_self ..)⟩
  refine sat_dup n h1 hr.1 hr.2 ?_
  intro σ s' oσ eσ h'
  exact k σ s' oσ eσ (h'.perm (.cons _ pm.symm))

theorem sat_mergeP {Q : Addr → HSt → Prop} {n : Nat} {Γ : List B} {s : HSt} {st : St} {σ : B} {a : Addr} {v : Val}
    (hσ : Own σ) (h : Sim (σ :: Γ) s st) (p : Pin Γ a v)
    (k : ∀ ρ s', Own ρ → Val.merge σ.val v = .ok ρ.val → Sim (ρ :: Γ) s' st → Q ρ.addr s') : Sat (mergeH n σ.addr a) Q s := by
  obtain ⟨b, w, ps, Γ', pm, hp⟩ := p.perm
  have h1 := h.perm (.cons _ pm)
  have hr : Part s.mem b a ∧ Rep s.mem a v := by
    rcases hp with hp | ⟨rfl, rfl⟩
    · exact h1.pinned (a := b) (v := w) (ps := ps) (by simp) hp
    · exact ⟨.refl, h1.rep (v := v) (ps := ps) (by simp)⟩
  refine Sat.bind (sat_data hr.2 fun d hd => ?_)
  rw [hd.isNil]
  refine Sat.ite (fun e => Sat.pure ?_) (fun e => sat_mergeLoop n hσ h1 hr.1 hr.2 ?_)
  · have : v = .nil := by cases v <;> simp [Val.isNil] at e; rfl
    subst this
    exact k σ s hσ rfl h
  · intro ρ s' oρ eρ h'
    exact k ρ s' oρ eρ (h'.perm (.cons _ pm.symm))

/-- Merging a copy of `a` with `b`, as a plain value. -/
theorem sat_dupMerge {α : Type} {Q : α → HSt → Prop} {f : Addr → HM α} {n : Nat} {Γ : List B} {s : HSt} {st : St} {a b : Addr}
    {v w : Val} (h : Sim Γ s st) (pa : Pin Γ a v) (pb : Pin Γ b w)
    (k : ∀ r u s', Val.merge v w = .ok u → Sim (.tok r u [] :: Γ) s' st → Sat (f r) Q s') :
    Sat (dupH n a >>= fun d0 => mergeH n d0 b >>= f) Q s := by
  refine Sat.bind (sat_dupP h pa ?_)
  intro σ s1 oσ eσ h1
  refine Sat.bind (sat_mergeP oσ h1 pb ?_)
  intro ρ s2 oρ eρ h2
  rw [eσ] at eρ
  exact k _ _ s2 eρ (h2.plain oρ.spine)

/-! ## Marking that changes nothing -/

theorem setTail_id {s : HSt} {x : Addr} {c : Cell} (hc : s.mem x = some c) (ht : c.tc = true) : setTail x s = .ok ((), s) := by
  unfold setTail
  rw [modify_ok _ hc]
  have e1 : ({ c with tc := true } : Cell) = c := by cases c; simp at ht; subst ht; rfl
  have e2 : upd s.mem x (some c) = s.mem := by
    funext b
    by_cases hb : b = x
    · subst hb; rw [upd_self, hc]
    · rw [upd_ne hb]
  rw [e1, e2]

theorem sat_markOne {n : Nat} {Q : Unit → HSt → Prop} {s : HSt} {f : Sym} {args t : Addr} {va tv : Val} (hs : s.strict = true)
    (ha : Rep s.mem args va) (ht : Rep s.mem t tv) (k : markCall f va tv = tv → Q () s) :
    Sat (markOneH false n f args t) Q s := by
  refine sat_cases ht ?_ ?_
  · intro d _ hd hp
    cases hd <;> first | (exfalso; exact Bool.noConfusion hp) | exact Sat.pure (k rfl)
  · intro x y tc u w e hx hy _ _
    subst e
    refine Sat.bind (sat_data hx fun dx hdx => ?_)
    rw [hdx.symIs]
    refine Sat.ite (fun e => ?_) (fun e => Sat.pure (k ?_))
    · refine Sat.bind (sat_mayApply n ha hy ?_)
      refine Sat.ite (fun e' => ?_) (fun e' => Sat.pure (k ?_))
      · refine Sat.bind (sat_cell fun c hc => ?_)
        refine Sat.bind (sat_guard hs fun g => ?_)
        have hct : c.tc = true := by simpa using g
        refine Sat.ok (setTail_id hc hct) (k ?_)
        cases u with
        | sym st sy =>
          obtain ⟨c', hc', e1, e2⟩ := hx.symCell
          rw [hc] at hc'; cases hc'
          rw [hct] at e1
          subst e1
          rw [markCall]
          split <;> rfl
        | _ => rfl
      · cases u with
        | sym st sy =>
          rw [Bool.not_eq_true] at e'
          rw [markCall, e', Bool.and_false]
          rfl
        | _ => rfl
    · cases u with
      | sym st sy =>
        have : symMatch sy f = false := by simpa [Val.symIs, Val.tag] using e
        rw [markCall, this, Bool.false_and]
        rfl
      | _ => rfl

theorem sat_markLoop (n : Nat) : ∀ {Q : Unit → HSt → Prop} {s : HSt} {f : Sym} {args a : Addr} {va : Val} {l : List Val},
    s.strict = true → Rep s.mem args va → Rep s.mem a (Val.ofList l) →
    ((∀ t, t ∈ l → markCall f va t = t) → Q () s) → Sat (markLoopH false n f args a) Q s := by
  induction n with
  | zero => intros; exact Sat.oof
  | succ n ih =>
    intro Q s f args a va l hs ha h k
    refine Sat.bind (sat_pairOf h ?_)
    intro x y t u w e hx hy _ _
    cases l with
    | nil => cases e
    | cons u' l =>
      cases e
      refine Sat.bind (sat_markOne hs ha hx fun e1 => ?_)
      refine Sat.bind (sat_data hy fun d hd => ?_)
      rw [hd.isPair]
      refine Sat.ite (fun e => ?_) (fun e => Sat.pure (k ?_))
      · refine ih hs ha hy fun e2 => k ?_
        intro t ht
        rcases List.mem_cons.1 ht with rfl | ht
        · exact e1
        · exact e2 t ht
      · cases l with
        | nil =>
          intro t ht
          rw [List.mem_singleton.1 ht]
          exact e1
        | cons _ _ => exact absurd rfl e

theorem sat_markTailCalls {Q : Unit → HSt → Prop} {n : Nat} {Γ : List B} {s : HSt} {st : St} {f : Sym} {args body : Addr}
    {va vb : Val} (h : Sim Γ s st) (pa : Pin Γ args va) (pb : Pin Γ body vb)
    (k : ∀ s', markBody f va vb = .ok vb → Sim Γ s' st → Q () s') : Sat (markTailCallsH false n f args body) Q s := by
  obtain ⟨b, w, ps, hm, r, hb⟩ := h.pbor pb
  refine Sat.bind (sat_lastPair n hb ?_)
  intro p x y t u w' hp e2 _ _ hx _ h4 h5
  refine Sat.bind (Sat.ok h4 ?_)
  refine Sat.bind (sat_up h ⟨b, w, ps, hm, h5 b r, hx⟩ fun s1 h1 => ?_)
  refine Sat.bind (sat_tails h1 ?_)
  intro ρ s2 oρ eρ h2
  have h3 := h2.plain oρ.spine
  have hr := h3.rep (List.mem_cons_self ..)
  refine Sat.bind (sat_data hr fun d hd => ?_)
  rw [hd.isNil]
  have key : (∀ t, t ∈ tailsV u → markCall f va t = t) → markBody f va vb = .ok vb := by
    intro hk
    have : markLast f va vb = vb := markLast_id vb (by rw [tailsLast_eq, e2]; exact hk)
    cases vb <;> first | (cases hp) | skip
    rw [markBody, this]
  refine Sat.ite (fun e => ?_) (fun e => ?_)
  · refine sat_X h3 fun s3 h6 => k s3 (key ?_) h6
    intro t ht
    rw [eρ] at e
    cases hl : tailsV u with
    | nil => rw [hl] at ht; cases ht
    | cons _ _ => rw [hl] at e; cases e
  · rw [eρ] at hr
    refine Sat.bind (sat_markLoop n h3.strict (h3.prep pa.cons) hr fun hk => ?_)
    exact sat_X h3 fun s3 h6 => k s3 (key hk) h6

/-! ## Evaluation -/

/-- The computation `t` on trees gives the value that `r` represents. -/
def Goal (t : M Val) (st : St) (Γ : List B) (r : Addr) (s' : HSt) : Prop :=
  ∃ v st', t st = .ok (v, st') ∧ Sim (.tok r v [] :: Γ) s' st'

theorem Goal.pure {Γ : List B} {s : HSt} {st : St} {r : Addr} {v : Val} (h : Sim (.tok r v [] :: Γ) s st) :
    Goal (Pure.pure v) st Γ r s := ⟨v, st, rfl, h⟩

theorem Goal.step {α : Type} {x : M α} {f : α → M Val} {st st' : St} {Γ : List B} {r : Addr} {s' : HSt} {a : α}
    (e : x st = .ok (a, st')) (g : Goal (f a) st' Γ r s') : Goal (x >>= f) st Γ r s' := by
  obtain ⟨v, st2, e2, h⟩ := g
  refine ⟨v, st2, ?_, h⟩
  rw [M.bind_apply, e]
  exact e2

theorem Sat.step {α : Type} {m : HM Addr} {x : M α} {f : α → M Val} {st st' : St} {Γ : List B} {s : HSt} {a : α}
    (e : x st = .ok (a, st')) (g : Sat m (Goal (f a) st' Γ) s) : Sat m (Goal (x >>= f) st Γ) s :=
  g.mono fun _ _ => Goal.step e

theorem lift_ok {α : Type} {r : Res α} {a : α} (st : St) (e : r = .ok a) : M.lift r st = .ok (a, st) := by
  subst e; rfl

/-- `ev` on cells computes `evt` on trees. -/
def EvSim (ev : HEv) (evt : Ev) : Prop :=
  ∀ {Γ : List B} {s : HSt} {st : St} {κ a : Addr} {vκ v : Val} {ps : List (Addr × Val)}, Sim (.tok a v ps :: Γ) s st →
    Pin Γ κ vκ → Sat (ev κ a) (Goal (evt vκ v) st Γ) s

section
variable {ev : HEv} {evt : Ev} (hev : EvSim ev evt)
include hev

/-- The use of a nested evaluation. -/
theorem sat_ev {f : Addr → HM Addr} {g : Val → M Val} {Γ Γ' : List B} {s : HSt} {st : St} {κ a : Addr}
    {vκ v : Val} {ps : List (Addr × Val)} (h : Sim (.tok a v ps :: Γ) s st) (p : Pin Γ κ vκ)
    (k : ∀ r v' s' st', Sim (.tok r v' [] :: Γ) s' st' → Sat (f r) (Goal (g v') st' Γ') s') :
    Sat (ev κ a >>= f) (Goal (evt vκ v >>= g) st Γ') s := by
  refine Sat.bind ((hev h p).mono ?_)
  rintro r s' ⟨v', st', e, h'⟩
  exact Sat.step e (k r v' s' st' h')

theorem sat_prog (n : Nat) : ∀ {Γ : List B} {s : HSt} {st : St} {κ a res : Addr} {vκ v vr : Val} {ps pr : List (Addr × Val)},
    Sim (.tok a v ps :: .tok res vr pr :: Γ) s st → Pin Γ κ vκ →
    Sat (progH ev n κ a res) (Goal (progV evt vκ v vr) st Γ) s := by
  induction n with
  | zero => intros; exact Sat.oof
  | succ n ih =>
    intro Γ s st κ a res vκ v vr ps pr h p
    refine Sat.bind (sat_data (h.rep (List.mem_cons_self ..)) fun d hd => ?_)
    rw [hd.isPair]
    refine Sat.ite (fun e => ?_) (fun e => ?_)
    · obtain ⟨t, u, w, rfl⟩ : ∃ t u w, v = .pair t u w := by cases v <;> simp [Val.isPair] at e ⊢
      refine Sat.bind (sat_car h (h.bor (List.mem_cons_self ..)) fun e0 s1 h1 => ?_)
      rw [progV]
      refine sat_ev hev h1 p.c2 ?_
      intro r v' s2 st2 h2
      refine Sat.bind (sat_cdr h2 (h2.bor (a := a) (v := .pair t u w) (ps := ps) (by simp)) fun cdr s3 h3 => ?_)
      have h4 : Sim (.tok a (.pair t u w) ps :: .tok res vr pr :: .tok cdr w [] :: .tok r v' [] :: Γ) s3 st2 := h3.perm (by pm)
      refine Sat.bind (sat_Xs2 h4 fun s4 h5 => ?_)
      exact ih h5 p
    · refine Sat.bind (sat_X h fun s1 h1 => Sat.pure ?_)
      have : progV evt vκ v vr = Pure.pure vr := by
        cases v <;> first | rfl | exact absurd rfl e
      rw [this]
      exact Goal.pure (h1.unpin (by simp))

theorem sat_evalArgs (n : Nat) : ∀ {Q : Addr → HSt → Prop} {Γ : List B} {s : HSt} {st : St} {κ : Addr} {σ : B} {args vals : Addr}
    {vκ va vv : Val} {pa pv : List (Addr × Val)}, Own σ → Sim (σ :: .tok args va pa :: .tok vals vv pv :: Γ) s st → Pin Γ κ vκ →
    (∀ r ρ na nv pn s' st', evalArgs evt vκ va σ.val vv st = .ok ((ρ.val, nv), st') → Own ρ →
      Sim (.node r false ρ (.tok na nv pn) :: Γ) s' st' → Q r s') → Sat (evalArgsH ev n κ σ.addr args vals) Q s := by
  induction n with
  | zero => intros; exact Sat.oof
  | succ n ih =>
    intro Q Γ s st κ σ args vals vκ va vv pa pv hσ h p k
    refine Sat.bind (sat_data (h.rep (a := args) (v := va) (ps := pa) (by simp)) fun d hd => ?_)
    rw [hd.isNil, hd.isSym]
    refine Sat.ite (fun e => ?_) (fun e => ?_)
    · have : va = .nil := by cases va <;> simp [Val.isNil] at e; rfl
      subst this
      refine Sat.bind (sat_pc h fun r s1 h1 => ?_)
      have h2 := Sim.fold (σ := σ) (τ := .tok args .nil pa) h1
      refine Sat.bind (sat_X h2.mv2 fun s2 h3 => Sat.pure ?_)
      exact k r σ args .nil pa s2 st rfl hσ h3
    · refine Sat.ite (fun e' => ?_) (fun e' => ?_)
      · obtain ⟨t, sy, rfl⟩ : ∃ t sy, va = .sym t sy := by cases va <;> simp [Val.isSym] at e' ⊢
        refine Sat.bind (sat_bind n h ?_)
        intro ρ s1 o1 _ e1 h1
        refine Sat.bind (sat_nil h1 fun nl s2 h2 => ?_)
        refine sat_pc h2 fun r s3 h3 => ?_
        have h4 := Sim.fold (σ := ρ) (τ := .tok nl .nil []) (h3.perm (by pm))
        refine k r ρ nl .nil [] s3 st ?_ (o1 hσ) h4
        rw [e1]; rfl
      · refine Sat.bind (sat_data (h.rep (a := vals) (v := vv) (ps := pv) (by simp)) fun d' hd' => ?_)
        rw [hd'.isNil]
        refine Sat.ite (fun e2 => ?_) (fun e2 => ?_)
        · refine Sat.bind (sat_pc h fun r s1 h1 => ?_)
          have h2 := Sim.fold (σ := σ) (τ := .tok args va pa) h1
          refine Sat.bind (sat_X h2.mv2 fun s2 h3 => Sat.pure ?_)
          refine k r σ args va pa s2 st ?_ hσ h3
          cases va <;> first | (exact absurd rfl e) | (exact absurd rfl e') | (simp only [evalArgs, e2, if_true]; rfl)
        · refine Sat.bind (sat_car h (h.bor (a := args) (v := va) (ps := pa) (by simp)) fun arg s1 h1 => ?_)
          refine Sat.bind (sat_cdr h1 (h1.bor (a := args) (v := va) (ps := pa) (by simp)) fun oth s2 h2 => ?_)
          refine Sat.bind (sat_X h2.mv4 fun s3 h3 => ?_)
          refine Sat.bind (sat_car h3 (h3.bor (a := vals) (v := vv) (ps := pv) (by simp)) fun v0 s4 h4 => ?_)
          refine Sat.bind ((hev h4 p.c4).mono ?_)
          rintro val s5 ⟨vval, st5, e5, h5⟩
          refine Sat.bind (sat_cdr h5 (h5.bor (a := vals) (v := vv) (ps := pv) (by simp)) fun rem s6 h6 => ?_)
          have h7 : Sim (.tok vals vv pv :: σ :: .tok arg va.car [] :: .tok val vval [] :: .tok oth va.cdr [] ::
              .tok rem vv.cdr [] :: Γ) s6 st5 := h6.perm (by pm)
          refine Sat.bind (sat_X h7 fun s7 h8 => ?_)
          refine Sat.bind (sat_bind n h8 ?_)
          intro ρ s8 o1 _ e1 h9
          refine ih (o1 hσ) h9 p ?_
          intro r ρ' na nv pn s9 st9 e9 oρ' h10
          refine k r ρ' na nv pn s9 st9 ?_ oρ' h10
          rw [← e9, e1]
          cases va with
          | nil => exact absurd rfl e
          | sym => exact absurd rfl e'
          | pair t u w =>
            rw [evalArgs, if_neg e2, M.bind_apply, e5]
            rfl
          | _ =>
            simp only [evalArgs]
            rw [if_neg e2, M.bind_apply, e5]
            rfl

omit hev in
theorem sat_isSelfTail {Q : Bool → HSt → Prop} {s : HSt} {symb res : Addr} {vs vr : Val} (hs : Rep s.mem symb vs)
    (hr : Rep s.mem res vr) (k : ∀ b, isSelfTail vs vr = .ok b → Q b s) : Sat (isSelfTailH symb res) Q s := by
  refine Sat.bind (sat_cell fun c hc => ?_)
  refine Sat.ite (fun e => ?_) (fun e => Sat.pure (k false ?_))
  · refine Sat.bind (sat_pairOf hr ?_)
    intro x y t u w ev hx hy _ _
    subst ev
    refine Sat.bind (sat_data hx fun d hd => ?_)
    refine Sat.bind (sat_data hs fun d' hd' => ?_)
    rw [hd'.tag]
    obtain ⟨c', x', y', hc', e1, _⟩ := hr.pair_inv
    rw [hc] at hc'; cases hc'
    rw [e] at e1
    subst e1
    unfold isSelfTail at k
    cases ht : vs.tag with
    | none => rw [ht] at k; exact Sat.pure (k _ rfl)
    | some tg => rw [ht] at k; refine Sat.pure (k _ ?_); rw [hd.symIs]
  · rw [Bool.not_eq_true] at e
    cases vr with
    | pair t u w =>
      obtain ⟨c', x', y', hc', e1, _⟩ := hr.pair_inv
      rw [hc] at hc'; cases hc'
      rw [e] at e1
      subst e1
      rfl
    | sym t sy =>
      obtain ⟨c', hc', e1, _⟩ := hr.symCell
      rw [hc] at hc'; cases hc'
      rw [e] at e1
      subst e1
      rfl
    | _ => rfl

theorem sat_tailLoop (n : Nat) : ∀ {Q : Addr × Addr → HSt → Prop} {Γ : List B} {s : HSt} {st : St} {symb body cls0 bscl : Addr}
    {vs vb vc vl : Val} {pl : List (Addr × Val)}, Sim (.tok bscl vl pl :: Γ) s st → Pin Γ symb vs → Pin Γ body vb → Pin Γ cls0 vc →
    (∀ r b v w pb s' st', tailLoop evt vs vb vc n vl st = .ok (v, st') → Sim (.tok r v [] :: .tok b w pb :: Γ) s' st' → Q (r, b) s') →
    Sat (tailLoopH ev symb body cls0 n bscl) Q s := by
  induction n with
  | zero => intros; exact Sat.oof
  | succ n ih =>
    intro Q Γ s st symb body cls0 bscl vs vb vc vl pl h ps pb pc k
    refine sat_dupMerge h pc.cons (.of (List.mem_cons_self ..)) ?_
    intro cls1 v1 s1 em h1
    refine Sat.bind (sat_up h1 (h1.pbor pb.c2) fun s2 h2 => ?_)
    refine Sat.bind (sat_nil h2 fun nl s3 h3 => ?_)
    refine Sat.bind ((sat_prog hev n h3.mv2 (.of (ps := []) (a := cls1) (v := v1) (by simp))).mono ?_)
    rintro res s4 ⟨vr, st4, e4, h4⟩
    refine Sat.bind (sat_X h4.mv2 fun s5 h5 => ?_)
    refine Sat.bind (sat_isSelfTail (h5.prep ps.c2) (h5.rep (List.mem_cons_self ..)) ?_)
    intro again ha
    have unf : tailLoop evt vs vb vc (n + 1) vl st =
        (if again then tailLoop evt vs vb vc n vr.cdr else Pure.pure vr : M Val) st4 := by
      rw [tailLoop]
      simp only [M.bind_apply, lift_ok st em, Res.ok_bind, e4, lift_ok st4 ha]
    rw [unf] at k
    refine Sat.ite (fun e => ?_) (fun e => ?_)
    · rw [if_pos e] at k
      refine Sat.bind (sat_X h5.mv2 fun s6 h6 => ?_)
      refine Sat.bind (sat_cdr h6 (h6.bor (List.mem_cons_self ..)) fun b' s7 h7 => ?_)
      refine Sat.bind (sat_X h7.mv2 fun s8 h8 => ?_)
      exact ih h8 ps pb pc k
    · rw [if_neg e] at k
      exact Sat.pure (k res bscl vr vl pl s5 st4 rfl h5)

/-! ## Natives -/

theorem sat_cond (n : Nat) : ∀ {Γ : List B} {s : HSt} {st : St} {κ a m : Addr} {vκ va vm : Val} {pa pm : List (Addr × Val)},
    Sim (.tok a va pa :: .tok m vm pm :: Γ) s st → Pin Γ κ vκ → Sat (condH ev n κ a m) (Goal (condV evt vκ va vm) st Γ) s := by
  induction n with
  | zero => intros; exact Sat.oof
  | succ n ih =>
    intro Γ s st κ a m vκ va vm pa pm h p
    have stop : (∀ t t' u w x, vm ≠ .pair t (.pair t' u w) x) →
        Sat (do Xs [a, m]; mkNil) (Goal (condV evt vκ va vm) st Γ) s := by
      intro hn
      refine Sat.bind (sat_Xs2 h fun s1 h1 => sat_nil h1 fun r s2 h2 => ?_)
      have : condV evt vκ va vm = Pure.pure .nil := by
        unfold condV
        split
        · exact absurd rfl (hn _ _ _ _ _)
        · rfl
      rw [this]
      exact Goal.pure h2
    refine sat_cases (h.rep (a := m) (v := vm) (ps := pm) (by simp)) ?_ ?_
    · intro d _ hd hp
      cases hd <;> first | (exfalso; exact Bool.noConfusion hp) | exact stop (by intros; simp)
    · intro x y t u w e hx hy _ _
      subst e
      refine Sat.bind (sat_data hx fun d hd => ?_)
      rw [hd.isPair]
      refine Sat.ite (fun e => ?_) (fun e => ?_)
      · obtain ⟨t', u1, u2, rfl⟩ : ∃ t u1 u2, u = .pair t u1 u2 := by cases u <;> simp [Val.isPair] at e ⊢
        refine Sat.bind (sat_car h (h.bor (a := m) (v := .pair t (.pair t' u1 u2) w) (ps := pm) (by simp)) fun car s1 h1 => ?_)
        refine Sat.bind (sat_cdr h1 (h1.bor (a := m) (v := .pair t (.pair t' u1 u2) w) (ps := pm) (by simp)) fun cdr s2 h2 => ?_)
        refine Sat.bind (sat_X h2.mv4 fun s3 h3 => ?_)
        refine Sat.bind (sat_car h3 (h3.bor (a := car) (v := .pair t' u1 u2) (ps := []) (by simp [Val.car])) fun args s4 h4 => ?_)
        refine Sat.bind (sat_cdr h4 (h4.bor (a := car) (v := .pair t' u1 u2) (ps := []) (by simp [Val.car])) fun prog s5 h5 => ?_)
        have h6 : Sim (.tok car (.pair t' u1 u2) [] :: .tok args u1 [] :: .tok prog u2 [] :: .tok cdr w [] :: .tok a va pa :: Γ) s5 st :=
          h5.perm (by pm)
        refine Sat.bind (sat_X h6 fun s6 h7 => ?_)
        refine Sat.bind (sat_data (h7.rep (List.mem_cons_self ..)) fun da hda => ?_)
        rw [hda.isWild]
        refine Sat.ite (fun e1 => ?_) (fun e1 => ?_)
        · have h8 : Sim (.tok args u1 [] :: .tok cdr w [] :: .tok a va pa :: .tok prog u2 [] :: Γ) s6 st := h7.perm (by pm)
          refine Sat.bind (sat_Xs3 h8 fun s7 h9 => ?_)
          rw [condV, if_pos e1]
          exact hev h9 p
        · rw [condV, if_neg e1]
          refine Sat.bind (sat_up h7 (h7.bor (a := a) (v := va) (ps := pa) (by simp)) fun s7 h8 => ?_)
          refine Sat.bind (sat_nil h8 fun nl s8 h9 => ?_)
          refine Sat.bind (sat_cons' h9.mv2 fun con s9 h10 => ?_)
          refine Sat.bind (sat_cons' h10.mv2 fun evl s10 h11 => ?_)
          refine sat_ev hev h11 p.c3 ?_
          intro res vres s11 st11 h12
          refine Sat.bind (sat_data (h12.rep (List.mem_cons_self ..)) fun dr hdr => ?_)
          rw [hdr.isTrue]
          refine Sat.ite (fun e2 => ?_) (fun e2 => ?_)
          · rw [if_pos e2]
            have h13 : Sim (.tok cdr w [] :: .tok a va pa :: .tok res vres [] :: .tok prog u2 [] :: Γ) s11 st11 := h12.perm (by pm)
            refine Sat.bind (sat_Xs3 h13 fun s12 h14 => ?_)
            exact hev h14 p
          · rw [if_neg e2]
            have h13 : Sim (.tok prog u2 [] :: .tok res vres [] :: .tok a va pa :: .tok cdr w [] :: Γ) s11 st11 := h12.perm (by pm)
            refine Sat.bind (sat_Xs2 h13 fun s12 h14 => ?_)
            exact ih h14 p
      · refine stop ?_
        intro t1 t2 u1 w1 x1 e'
        cases e'
        exact e rfl

theorem sat_matchLoop (n : Nat) : ∀ {Γ : List B} {s : HSt} {st : St} {κ a m : Addr} {vκ va vm : Val} {pa pm : List (Addr × Val)},
    Sim (.tok a va pa :: .tok m vm pm :: Γ) s st → Pin Γ κ vκ → Sat (matchLoopH ev n κ a m) (Goal (matchV evt vκ va vm) st Γ) s := by
  induction n with
  | zero => intros; exact Sat.oof
  | succ n ih =>
    intro Γ s st κ a m vκ va vm pa pm h p
    have stop : (∀ t t' u w x, vm ≠ .pair t (.pair t' u w) x) →
        Sat (do Xs [a, m]; mkNil) (Goal (matchV evt vκ va vm) st Γ) s := by
      intro hn
      refine Sat.bind (sat_Xs2 h fun s1 h1 => sat_nil h1 fun r s2 h2 => ?_)
      have : matchV evt vκ va vm = Pure.pure .nil := by
        unfold matchV
        split
        · exact absurd rfl (hn _ _ _ _ _)
        · rfl
      rw [this]
      exact Goal.pure h2
    refine sat_cases (h.rep (a := m) (v := vm) (ps := pm) (by simp)) ?_ ?_
    · intro d _ hd hp
      cases hd <;> first | (exfalso; exact Bool.noConfusion hp) | exact stop (by intros; simp)
    · intro x y t u w e hx hy _ _
      subst e
      refine Sat.bind (sat_data hx fun d hd => ?_)
      rw [hd.isPair]
      refine Sat.ite (fun e => ?_) (fun e => ?_)
      · obtain ⟨t', u1, u2, rfl⟩ : ∃ t u1 u2, u = .pair t u1 u2 := by cases u <;> simp [Val.isPair] at e ⊢
        refine Sat.bind (sat_car h (h.bor (a := m) (v := .pair t (.pair t' u1 u2) w) (ps := pm) (by simp)) fun car s1 h1 => ?_)
        refine Sat.bind (sat_cdr h1 (h1.bor (a := m) (v := .pair t (.pair t' u1 u2) w) (ps := pm) (by simp)) fun cdr s2 h2 => ?_)
        refine Sat.bind (sat_X h2.mv4 fun s3 h3 => ?_)
        refine Sat.bind (sat_car h3 (h3.bor (a := car) (v := .pair t' u1 u2) (ps := []) (by simp [Val.car])) fun args s4 h4 => ?_)
        refine Sat.bind (sat_cdr h4 (h4.bor (a := car) (v := .pair t' u1 u2) (ps := []) (by simp [Val.car])) fun prog s5 h5 => ?_)
        have h6 : Sim (.tok car (.pair t' u1 u2) [] :: .tok args u1 [] :: .tok prog u2 [] :: .tok cdr w [] :: .tok a va pa :: Γ) s5 st :=
          h5.perm (by pm)
        refine Sat.bind (sat_X h6 fun s6 h7 => ?_)
        refine Sat.bind (sat_match n (h7.rep (List.mem_cons_self ..)) (h7.rep (a := a) (v := va) (ps := pa) (by simp)) ?_)
        refine Sat.ite (fun e1 => ?_) (fun e1 => ?_)
        · have h8 : Sim (.tok args u1 [] :: .tok cdr w [] :: .tok a va pa :: .tok prog u2 [] :: Γ) s6 st := h7.perm (by pm)
          refine Sat.bind (sat_Xs3 h8 fun s7 h9 => ?_)
          rw [matchV, if_pos e1]
          exact hev h9 p
        · rw [matchV, if_neg e1]
          have h13 : Sim (.tok args u1 [] :: .tok prog u2 [] :: .tok a va pa :: .tok cdr w [] :: Γ) s6 st := h7.perm (by pm)
          refine Sat.bind (sat_Xs2 h13 fun s12 h14 => ?_)
          exact ih h14 p
      · refine stop ?_
        intro t1 t2 u1 w1 x1 e'
        cases e'
        exact e rfl

theorem sat_list (n : Nat) : ∀ {Γ : List B} {s : HSt} {st : St} {κ a : Addr} {vκ va : Val} {pa : List (Addr × Val)},
    Sim (.tok a va pa :: Γ) s st → Pin Γ κ vκ → Sat (listH ev n κ a) (Goal (listV evt vκ va) st Γ) s := by
  induction n with
  | zero => intros; exact Sat.oof
  | succ n ih =>
    intro Γ s st κ a vκ va pa h p
    refine Sat.bind (sat_data (h.rep (List.mem_cons_self ..)) fun d hd => ?_)
    rw [hd.isPair]
    refine Sat.ite (fun e => ?_) (fun e => Sat.pure ?_)
    · obtain ⟨t, u, w, rfl⟩ : ∃ t u w, va = .pair t u w := by cases va <;> simp [Val.isPair] at e ⊢
      refine Sat.bind (sat_car h (h.bor (List.mem_cons_self ..)) fun car s1 h1 => ?_)
      refine Sat.bind (sat_cdr h1 (h1.bor (a := a) (v := .pair t u w) (ps := pa) (by simp)) fun cdr s2 h2 => ?_)
      refine Sat.bind (sat_X h2.mv3 fun s3 h3 => ?_)
      refine Sat.bind ((ih h3 p.cons).mono ?_)
      rintro res s4 ⟨vr, st4, e4, h4⟩
      rw [listV]
      refine Sat.step e4 ?_
      refine sat_ev hev h4.mv2 p.cons ?_
      intro r v' s5 st5 h5
      refine sat_cons' h5 fun r' s6 h6 => ?_
      exact Goal.pure h6
    · have : listV evt vκ va = Pure.pure va := by
        cases va <;> first | rfl | exact absurd rfl e
      rw [this]
      exact Goal.pure (h.unpin (by simp))

theorem sat_stream (n : Nat) : ∀ {Γ : List B} {s : HSt} {st : St} {κ a x : Addr} {vκ va vx : Val} {pa px : List (Addr × Val)},
    Sim (.tok a va pa :: .tok x vx px :: Γ) s st → Pin Γ κ vκ → Sat (streamH ev n κ a x) (Goal (streamV evt vκ va vx) st Γ) s := by
  induction n with
  | zero => intros; exact Sat.oof
  | succ n ih =>
    intro Γ s st κ a x vκ va vx pa px h p
    refine Sat.bind ((hev h.mv2 p.cons).mono ?_)
    rintro res s1 ⟨vr, st1, e1, h1⟩
    refine Sat.bind (sat_data (h1.rep (a := a) (v := va) (ps := pa) (by simp)) fun d hd => ?_)
    rw [hd.isNil]
    refine Sat.ite (fun e => ?_) (fun e => ?_)
    · have : va = .nil := by cases va <;> simp [Val.isNil] at e; rfl
      subst this
      refine Sat.bind (sat_X h1.mv2 fun s2 h2 => Sat.pure ?_)
      exact ⟨vr, st1, e1, h2⟩
    · refine Sat.bind (sat_car h1 (h1.bor (a := a) (v := va) (ps := pa) (by simp)) fun car s2 h2 => ?_)
      refine Sat.bind (sat_cdr h2 (h2.bor (a := a) (v := va) (ps := pa) (by simp)) fun cdr s3 h3 => ?_)
      refine Sat.bind (sat_X h3.mv4 fun s4 h4 => ?_)
      refine Sat.bind (sat_sym h4 fun q s5 h5 => ?_)
      have h6 : Sim (.tok q (Val.ofSym sQuote) [] :: .tok res vr [] :: .tok cdr va.cdr [] :: .tok car va.car [] :: Γ) s5 st1 :=
        h5.perm (by pm)
      refine Sat.bind (sat_cons' h6 fun cn0 s6 h7 => ?_)
      refine Sat.bind (sat_nil h7 fun nl s7 h8 => ?_)
      refine Sat.bind (sat_cons' h8.mv2 fun cn1 s8 h9 => ?_)
      have h10 := h9.mv3
      refine Sat.bind (sat_cons' h10 fun nxt s9 h11 => ?_)
      refine (ih h11.mv2 p).mono ?_
      rintro r s10 ⟨v', st', e', h'⟩
      refine ⟨v', st', ?_, h'⟩
      rw [← e']
      cases va with
      | nil => exact absurd rfl e
      | pair t u w => rw [streamV, M.bind_apply, e1]; rfl
      | _ => simp only [streamV, M.bind_apply, e1, Res.ok_bind, Val.car, Val.cdr]

omit hev in
theorem sat_letMark {Q : Unit → HSt → Prop} {u : UB} {n : Nat} {Γ : List B} {s : HSt} {st : St} {tmp arg val : Addr} {vt va vv : Val}
    (h : Sim Γ s st) (pt : Pin Γ tmp vt)
    (hs : ∀ t sy, va = .sym t sy → Pin Γ arg va ∧ Pin Γ val vv)
    (hn : (∀ t sy, va ≠ .sym t sy) → ∀ c, s.mem arg = some c → c.data.isSym = false)
    (k : ∀ s', letMark vt va vv = .ok vv → Sim Γ s' st → Q () s') : Sat (letMarkH u n tmp arg val) Q s := by
  refine Sat.bind (sat_fresh fun l => ?_)
  refine Sat.bind (Sat.bind (sat_cell fun c hc => Sat.pure ?_))
  by_cases hv : ∃ t sy, va = .sym t sy
  · obtain ⟨t, sy, rfl⟩ := hv
    obtain ⟨pa, pv⟩ := hs t sy rfl
    obtain ⟨c', hc', _, hd⟩ := (h.prep pa).symCell
    rw [hc] at hc'; cases hc'
    rw [hd]
    refine Sat.bind (sat_isFunc (h.prep pv) ?_)
    refine Sat.ite (fun e => ?_) (fun e => Sat.pure (k s ?_ h))
    · obtain ⟨t1, args, t2, clos, body, rfl⟩ : ∃ t1 args t2 clos body, vv = .pair t1 args (.pair t2 clos body) := by
        unfold Val.isFunc at e
        split at e
        · exact ⟨_, _, _, _, _, rfl⟩
        · cases e
      refine Sat.bind (sat_assoc (h.prep pt) ?_ ?_)
      · intro ha
        obtain ⟨b, w, ps, Γ', pm, hp⟩ := pv.perm
        have h1 := h.perm pm
        have hr : Part s.mem b val ∧ Rep s.mem val (.pair t1 args (.pair t2 clos body)) := by
          rcases hp with hp | ⟨rfl, rfl⟩
          · exact h1.pinned (List.mem_cons_self ..) hp
          · exact ⟨.refl, h1.rep (List.mem_cons_self ..)⟩
        refine Sat.bind (sat_pairOf hr.2 ?_)
        intro x y t u w' e1 hx hy rx ry
        cases e1
        refine Sat.bind (sat_pairOf hy ?_)
        intro x2 y2 t' u' w'' e2 hx2 hy2 rx2 ry2
        cases e2
        have h2 := (h1.pin (rx b hr.1) hx).pin (ry2 b (ry b hr.1)) hy2
        refine sat_markTailCalls (va := args) h2 (.at (List.mem_cons_self ..) (by simp)) (.at (List.mem_cons_self ..) (List.mem_cons_self ..)) ?_
        intro s' em h'
        refine k s' ?_ ((h'.unpin (ps' := ps) (by intro q hq; simp [hq])).perm pm.symm)
        rw [letMark, if_pos e, ha]
        simp only [Res.ok_bind, em]
      · intro kv t u w ha _ _
        refine Sat.pure (k s ?_ h)
        rw [letMark, if_pos e, ha]
        rfl
    · unfold letMark
      split
      · rw [if_neg e]
      · rfl
  · have hv' : ∀ t sy, va ≠ .sym t sy := fun t sy e => hv ⟨t, sy, e⟩
    have hd := hn hv' c hc
    have hl : letMark vt va vv = .ok vv := by
      unfold letMark
      split
      · exact absurd rfl (hv' _ _)
      · rfl
    cases hdd : c.data with
    | sym sy => rw [hdd] at hd; cases hd
    | _ => exact Sat.pure (k s hl h)

theorem sat_letBind {u : UB} (n : Nat) : ∀ {Γ : List B} {s : HSt} {st : St} {κ env a : Addr} {vκ ve va : Val} {pe pa : List (Addr × Val)},
    Sim (.tok env ve pe :: .tok a va pa :: Γ) s st → Pin Γ κ vκ →
    Sat (letBindH ev u n κ env a) (Goal (letBind evt vκ va ve) st Γ) s := by
  induction n with
  | zero => intros; exact Sat.oof
  | succ n ih =>
    intro Γ s st κ env a vκ ve va pe pa h p
    refine Sat.bind (sat_data (h.rep (a := a) (v := va) (ps := pa) (by simp)) fun d hd => ?_)
    rw [hd.isPair]
    refine Sat.ite (fun e => ?_) (fun e => ?_)
    · obtain ⟨t, u, w, rfl⟩ : ∃ t u w, va = .pair t u w := by cases va <;> simp [Val.isPair] at e ⊢
      refine Sat.bind (sat_car h (h.bor (a := a) (v := .pair t u w) (ps := pa) (by simp)) fun car s1 h1 => ?_)
      refine Sat.bind (sat_cdr h1 (h1.bor (a := a) (v := .pair t u w) (ps := pa) (by simp)) fun cdr s2 h2 => ?_)
      refine Sat.bind (sat_X h2.mv4 fun s3 h3 => ?_)
      have h3 : Sim (.tok cdr w [] :: .tok car u [] :: .tok env ve pe :: Γ) s3 st := h3
      refine Sat.bind (sat_data (h3.rep (a := car) (v := u) (ps := []) (by simp)) fun dc hdc => ?_)
      rw [hdc.isPair, letBind]
      refine Sat.ite (fun e1 => ?_) (fun e1 => ?_)
      · rw [if_pos e1]
        obtain ⟨tc, k1, x1, rfl⟩ : ∃ t u1 w1, u = .pair t u1 w1 := by cases u <;> simp [Val.isPair] at e1 ⊢
        refine sat_dupMerge h3 p.c3 (.of (ps := pe) (a := env) (v := ve) (by simp)) ?_
        intro tmp vt s4 em h4
        refine Sat.step (lift_ok st em) ?_
        refine Sat.bind (sat_car h4 (h4.bor (a := car) (v := .pair tc k1 x1) (ps := []) (by simp)) fun arg s5 h5 => ?_)
        refine Sat.bind (sat_cdr h5 (h5.bor (a := car) (v := .pair tc k1 x1) (ps := []) (by simp)) fun nvl s6 h6 => ?_)
        have h7 : Sim (.tok car (.pair tc k1 x1) [] :: .tok nvl x1 [] :: .tok arg k1 [] :: .tok env ve pe :: .tok tmp vt [] ::
            .tok cdr w [] :: Γ) s6 st := h6.perm (by pm)
        refine Sat.bind (sat_X h7 fun s7 h8 => ?_)
        refine sat_ev hev h8 (.of (ps := []) (a := tmp) (v := vt) (by simp)) ?_
        intro val vv s8 st8 h9
        have h10 : Sim (.tok env ve pe :: .tok arg k1 [] :: .tok val vv [] :: .tok tmp vt [] :: .tok cdr w [] :: Γ) s8 st8 :=
          h9.perm (by pm)
        have rest : ∀ {nxt vn pn s9}, vn = Val.bind ve k1 vv → Sim (.tok nxt vn pn :: .tok tmp vt [] :: .tok cdr w [] :: Γ) s9 st8 →
            Sat (do X tmp; letBindH ev u n κ nxt cdr) (Goal (letBind evt vκ w (Val.bind ve k1 vv)) st8 Γ) s9 := by
          intro nxt vn pn s9 en h11
          subst en
          refine Sat.bind (sat_X h11.mv2 fun s10 h12 => ?_)
          exact ih h12 p
        by_cases hk : ∃ t sy, k1 = .sym t sy
        · obtain ⟨tk, sy, rfl⟩ := hk
          cases n with
          | zero => exact Sat.bind Sat.oof
          | succ n =>
            have harg := h10.rep (a := arg) (v := .sym tk sy) (ps := []) (by simp)
            refine Sat.bind (Q := _) ?_
            unfold bindH
            refine Sat.bind (sat_data harg fun da hda => ?_)
            cases hda with
            | sym =>
              refine Sat.bind (sat_cons (h10.to3) fun kvp s9 h11 => ?_)
              refine sat_cons h11.mv2.mv2 fun nxt s10 h12 => ?_
              refine Sat.bind (sat_letMark (vv := vv) h12 (.of (ps := []) (a := tmp) (v := vt) (by simp)) ?_ (fun hn => absurd rfl (hn tk sy)) ?_)
              · intro _ _ _
                exact ⟨.at (List.mem_cons_self ..) (by simp), .at (List.mem_cons_self ..) (by simp)⟩
              · intro s11 el h13
                refine Sat.step (lift_ok st8 el) ?_
                exact rest rfl h13
        · have hk' : ∀ t sy, k1 ≠ .sym t sy := fun t sy e => hk ⟨t, sy, e⟩
          have harg := h10.rep (a := arg) (v := k1) (ps := []) (by simp)
          obtain ⟨ca, hca, hda⟩ := harg.is
          have hlt : arg < s8.next := by
            obtain ⟨G, hG⟩ := h10
            exact hG.inv.lt hca
          have hns : ca.data.isSym = false := by
            rw [hda.isSym]
            cases k1 <;> first | rfl | exact absurd rfl (hk' _ _)
          refine Sat.bind (((kp_bind n env arg val s8.next s8 (Nat.le_refl _)).and (sat_bind n h10 (σ := .tok env ve pe)
            (Q := fun r s' => ∃ ρ : B, ρ.addr = r ∧ Line ρ ∧ ρ.val = Val.bind ve k1 vv ∧
              Sim (ρ :: .tok tmp vt [] :: .tok cdr w [] :: Γ) s' st8) ?_)).mono ?_)
          · intro ρ s' _ l e' h'
            exact ⟨ρ, rfl, l (.tok ..), e', h'⟩
          · rintro nxt s9 ⟨kp, ρ, rfl, lρ, eρ, h11⟩
            have h12 := h11.publish' lρ
            refine Sat.bind (sat_letMark (vv := vv) h12 (.of (ps := []) (a := tmp) (v := vt) (by simp)) (fun t sy e => absurd e (hk' t sy)) ?_ ?_)
            · intro _ c hc
              obtain ⟨c0, hc0, e0, _⟩ := kp.2.2 arg c hlt hc
              rw [hca] at hc0; cases hc0
              rw [e0]; exact hns
            · intro s11 el h13
              refine Sat.step (lift_ok st8 el) ?_
              exact rest eρ h13
      · rw [if_neg e1]
        refine Sat.bind (sat_Xs2 h3.mv2 fun s4 h4 => Sat.pure ?_)
        exact Goal.pure (h4.unpin (by simp))
    · refine Sat.bind (sat_X h.mv2 fun s1 h1 => Sat.pure ?_)
      have : letBind evt vκ va ve = Pure.pure ve := by
        cases va <;> first | rfl | exact absurd rfl e
      rw [this]
      exact Goal.pure (h1.unpin (by simp))

theorem sat_let {u : UB} {n : Nat} {Γ : List B} {s : HSt} {st : St} {κ a : Addr} {vκ va : Val} {pa : List (Addr × Val)}
    (h : Sim (.tok a va pa :: Γ) s st) (p : Pin Γ κ vκ) : Sat (letH ev u n κ a) (Goal (letV evt vκ va) st Γ) s := by
  refine Sat.bind (sat_car h (h.bor (List.mem_cons_self ..)) fun bind s1 h1 => ?_)
  refine Sat.bind (sat_cdr h1 (h1.bor (a := a) (v := va) (ps := pa) (by simp)) fun prog s2 h2 => ?_)
  refine Sat.bind (sat_X h2.mv3 fun s3 h3 => ?_)
  refine Sat.bind (sat_nil h3 fun nl s4 h4 => ?_)
  unfold letV
  refine Sat.bind ((sat_letBind hev n (h4.perm (by pm) : Sim (.tok nl .nil [] :: .tok bind va.car [] :: .tok prog va.cdr [] :: Γ) s4 st)
    p.cons).mono ?_)
  rintro next s5 ⟨vn, st5, e5, h5⟩
  refine Sat.step e5 ?_
  refine sat_dupMerge h5 p.c2 (.of (List.mem_cons_self ..)) ?_
  intro clos vc s6 em h6
  refine Sat.step (lift_ok st5 em) ?_
  refine Sat.bind (sat_X h6.mv2 fun s7 h7 => ?_)
  refine Sat.bind (sat_nil h7 fun nl' s8 h8 => ?_)
  refine Sat.bind ((sat_prog hev n (h8.perm (by pm) : Sim (.tok prog va.cdr [] :: .tok nl' .nil [] :: .tok clos vc [] :: Γ) s8 st5)
    (.of (List.mem_cons_self ..))).mono ?_)
  rintro res s9 ⟨vr, st9, e9, h9⟩
  refine Sat.bind (sat_X h9.mv2 fun s10 h10 => Sat.pure ?_)
  exact ⟨vr, st9, e9, h10⟩

theorem sat_while {κ cnd prg : Addr} {vκ vc vp : Val} (n : Nat) : ∀ {Γ : List B} {s : HSt} {st : St} {res : Addr} {vr : Val}
    {pr : List (Addr × Val)}, Sim (.tok res vr pr :: Γ) s st → Pin Γ κ vκ → Pin Γ cnd vc → Pin Γ prg vp →
    Sat (whileH ev κ cnd prg n res) (Goal (whileV evt vκ vc vp n vr) st Γ) s := by
  induction n with
  | zero => intros; exact Sat.oof
  | succ n ih =>
    intro Γ s st res vr pr h p pc pp
    refine Sat.bind (sat_up h (h.pbor pc.cons) fun s1 h1 => ?_)
    rw [whileV]
    refine sat_ev hev h1 p.cons ?_
    intro evl v' s2 st2 h2
    refine Sat.bind (sat_data (h2.rep (List.mem_cons_self ..)) fun d hd => ?_)
    refine Sat.bind (sat_X h2 fun s3 h3 => ?_)
    rw [hd.isNil]
    refine Sat.ite (fun e => ?_) (fun e => ?_)
    · rw [if_pos e]
      exact Sat.pure (Goal.pure (h3.unpin (by simp)))
    · rw [if_neg e]
      refine Sat.bind (sat_X h3 fun s4 h4 => ?_)
      refine Sat.bind (sat_up h4 (h4.pbor pp) fun s5 h5 => ?_)
      refine Sat.bind (sat_nil h5 fun nl s6 h6 => ?_)
      refine Sat.bind ((sat_prog hev n h6.mv2 p).mono ?_)
      rintro r s7 ⟨v7, st7, e7, h7⟩
      exact Sat.step e7 (ih h7 p pc pp)

omit hev in
theorem sat_prin {Q : Unit → HSt → Prop} {n : Nat} {Γ : List B} {s : HSt} {st : St} {a : Addr} {v : Val} {b : Bool} (h : Sim Γ s st)
    (p : Pin Γ a v) (k : ∀ s' st', prinM v b st = .ok ((), st') → Sim Γ s' st' → Q () s') : Sat (prinH n a b) Q s := by
  refine Sat.bind (sat_view n (h.prep p) ?_)
  refine Sat.bind (Sat.lift fun bytes hb => ?_)
  refine sat_emit h fun s' h' => k s' _ ?_ h'
  unfold prinM
  rw [M.bind_apply, lift_ok st hb]
  rfl

omit hev in
theorem sat_sep {Q : Unit → HSt → Prop} {Γ : List B} {s : HSt} {st : St} {b : Bool} (h : Sim Γ s st)
    (k : ∀ s' st', sepM b st = .ok ((), st') → Sim Γ s' st' → Q () s') : Sat (sepH b) Q s := by
  unfold sepH
  refine Sat.ite (fun e => sat_emit h fun s' h' => k s' _ ?_ h') (fun e => Sat.pure (k s st ?_ h))
  · rw [sepM, if_pos e]; rfl
  · rw [sepM, if_neg e]; rfl

theorem sat_prinAll {b : Bool} (n : Nat) : ∀ {Γ : List B} {s : HSt} {st : St} {κ a res : Addr} {vκ va vr : Val}
    {pa pr : List (Addr × Val)}, Sim (.tok a va pa :: .tok res vr pr :: Γ) s st → Pin Γ κ vκ →
    Sat (prinAllH ev b n κ a res) (Goal (prinAll evt vκ b va vr) st Γ) s := by
  induction n with
  | zero => intros; exact Sat.oof
  | succ n ih =>
    intro Γ s st κ a res vκ va vr pa pr h p
    refine Sat.bind (sat_data (h.rep (List.mem_cons_self ..)) fun d hd => ?_)
    rw [hd.isNil]
    refine Sat.ite (fun e => ?_) (fun e => ?_)
    · have : va = .nil := by cases va <;> simp [Val.isNil] at e; rfl
      subst this
      refine Sat.bind (sat_X h fun s1 h1 => Sat.pure ?_)
      exact Goal.pure (h1.unpin (by simp))
    · refine Sat.bind (sat_X h.mv2 fun s1 h1 => ?_)
      refine Sat.bind (sat_car h1 (h1.bor (List.mem_cons_self ..)) fun e0 s2 h2 => ?_)
      refine Sat.bind ((hev h2 p.cons).mono ?_)
      rintro car s3 ⟨v3, st3, e3, h3⟩
      refine Sat.bind (sat_cdr h3 (h3.bor (a := a) (v := va) (ps := pa) (by simp)) fun cdr s4 h4 => ?_)
      refine Sat.bind (sat_X h4.mv3 fun s5 h5 => ?_)
      refine Sat.bind (sat_prin h5 (.of (ps := []) (a := car) (v := v3) (by simp)) ?_)
      intro s6 st6 e6 h6
      refine Sat.bind (sat_data (h6.rep (List.mem_cons_self ..)) fun dc hdc => ?_)
      rw [hdc.isNil]
      refine Sat.bind (sat_sep h6 ?_)
      intro s7 st7 e7 h7
      refine (ih h7 p).mono ?_
      rintro r s8 ⟨v8, st8, e8, h8⟩
      refine ⟨v8, st8, ?_, h8⟩
      rw [← e8]
      cases va with
      | nil => exact absurd rfl e
      | pair t u w =>
        rw [prinAll]
        simp only [Val.car, Val.cdr] at e3 e7 ⊢
        simp only [M.bind_apply, e3, Res.ok_bind, e6, e7]
      | _ =>
        have hs : sepM (b && !Val.nil.isNil) st6 = .ok ((), st6) := by
          simp [Val.isNil, sepM]
        simp only [Val.car, Val.cdr] at e3 e7 ⊢
        rw [hs] at e7
        cases e7
        simp only [prinAll, M.bind_apply, e3, Res.ok_bind, e6]

end

end Heap
end Mnml
