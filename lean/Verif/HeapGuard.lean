import Verif.HeapKeep
import Verif.HeapLoc
import Verif.HeapOps

/-!
# Arguments that a native does not own

`<-` and `let` read their argument again after user code has run, although they do not own it. It is
kept alive by the closure that `lisp_eval_func` has made for the call: a list whose first pair and first
binding belong to the caller alone. Two facts about the evaluator make this precise:

* it leaves cells that it is not given a reference to alone (`Verif.HeapLoc`);
* it does not change the spine of a list of bindings (`Verif.HeapKeep`).
-/

namespace Mnml
namespace Heap

/-! ## Keeping the spine -/

theorem Fr.keep {n N : Nat} {s s' : HSt} (f : Fr n s s') (h : N ≤ n) : Keep N s s' := by
  refine ⟨f.next, fun a ha c' hc' => ?_⟩
  obtain ⟨c, hc, e⟩ := f.mem a c' (Nat.lt_of_lt_of_le ha h) hc'
  exact Keep.same hc e

theorem wp_keep {α : Type} {m : HM α} {Q : α → HSt → Prop} {s : HSt} {N : Nat} (e : Evo N m) (hN : N ≤ s.next)
    (h : wp m (fun a s' => Keep N s s' → Q a s') s) : wp m Q s := by
  unfold wp at *
  cases hm : m s with
  | ok p =>
    rw [hm] at h
    exact h (e s p.1 p.2 hN hm)
  | ub u => rw [hm] at h; exact h
  | _ => trivial

/-- The CAR of what is left of a pair. -/
theorem Keep.car {N : Nat} {s s' : HSt} {T' : Addr → Nat} {a x y : Addr} {c : Cell} (k : Keep N s s') (h' : Inv s' T')
    (ha : a < N) (l : Live s' a) (hc : s.mem a = some c) (hd : c.data = .pair x y) :
    Live s' x ∧ ∃ c' y', s'.mem a = some c' ∧ c'.data = .pair x y' := by
  obtain ⟨c', hc'⟩ := l.1
  obtain ⟨c0, hc0, _, _, q⟩ := k.mem a ha c' hc'
  rw [hc] at hc0; cases hc0
  obtain ⟨y', e, _⟩ := q x y hd
  exact ⟨h'.childCar l (by simp) hc' e, c', y', hc', e⟩

/-- What is left of a pair was a pair. -/
theorem Keep.pair {N : Nat} {s s' : HSt} {a : Addr} {c' : Cell} (k : Keep N s s') (ha : a < N) (hc' : s'.mem a = some c')
    (p : c'.data.isPair = true) : ∃ c x y, s.mem a = some c ∧ c.data = .pair x y := by
  obtain ⟨c, hc, e, _, _⟩ := k.mem a ha c' hc'
  have pc := e.trans p
  cases hd : c.data with
  | pair x y => exact ⟨c, x, y, hc, hd⟩
  | _ => rw [hd] at pc; cases pc

/-- A pair at `a`. -/
def PairAt (s : HSt) (a : Addr) : Prop := ∃ c, s.mem a = some c ∧ c.data.isPair = true

/-- `a` is a suffix of the list that is the CAR of `p`, and what comes before are pairs. -/
inductive Within (s : HSt) (p : Addr) : Addr → Prop
  | head {a c y} : s.mem p = some c → c.data = .pair a y → Within s p a
  | step {a c b y} : Within s p a → s.mem a = some c → c.data = .pair b y → PairAt s b → PairAt s y → Within s p y

/-- The list stays as it is while `p` lives. -/
theorem Within.keep {s s' : HSt} {T T' : Addr → Nat} {N : Nat} {p a : Addr} (h : Inv s T) (h' : Inv s' T') (k : Keep N s s')
    (hN : s.next ≤ N) (l : Live s' p) (c : Within s p a) : Within s' p a ∧ Live s' a := by
  have lt : ∀ {b cb}, s.mem b = some cb → b < N := fun hb => Nat.lt_of_lt_of_le (h.lt hb) hN
  induction c with
  | head hc hd =>
    obtain ⟨la, c', y', hc', e⟩ := k.car h' (lt hc) l hc hd
    exact ⟨.head hc' e, la⟩
  | @step a c b y _ hc hd hb hy ih =>
    obtain ⟨ch, la⟩ := ih
    obtain ⟨cb, hcb, pb⟩ := hb
    obtain ⟨cy, hcy, py⟩ := hy
    obtain ⟨c', hc'⟩ := la.1
    obtain ⟨c0, hc0, _, _, q⟩ := k.mem a (lt hc) c' hc'
    rw [hc] at hc0; cases hc0
    obtain ⟨y', e, w⟩ := q b y hd
    have lb := h'.childCar la (by simp) hc' e
    obtain ⟨cb', hcb'⟩ := lb.1
    obtain ⟨cb0, hcb0, eb, _, _⟩ := k.mem b (lt hcb) cb' hcb'
    rw [hcb] at hcb0; cases hcb0
    have pb' := eb.symm.trans pb
    have := w ⟨cb', hcb', pb'⟩ (lt hcb) (fun cy0 h0 => by rw [hcy] at h0; cases h0; exact py) (lt hcy)
    subst this
    have ly := h'.childCdr la (by simp) hc' e
    obtain ⟨cy', hcy'⟩ := ly.1
    obtain ⟨cy0, hcy0, ey, _, _⟩ := k.mem y' (lt hcy) cy' hcy'
    rw [hcy] at hcy0; cases hcy0
    exact ⟨.step ch hc' e ⟨cb', hcb', pb'⟩ ⟨cy', hcy', ey.symm.trans py⟩, ly⟩

/-- CAR, with what it gives. -/
theorem wp_carC {Q : Addr → HSt → Prop} {s : HSt} {T : Addr → Nat} {a : Addr} (h : Inv s T) (l : Live s a)
    (k : ∀ r s' T', Inv s' T' → (∀ b, T' b = T b + one r b) → Ext s s' →
      ((∃ c y, s.mem a = some c ∧ c.data = .pair r y) ∨ ¬ PairAt s' r) → Q r s') : wp (carH a) Q s := by
  refine wp_bind (wp_dataOf l fun c hc => ?_)
  cases hd : c.data with
  | pair x y =>
    refine wp_bind (wp_up h (h.childCar l (by simp) hc hd) ?_)
    intro s' T' h' e i
    exact wp_pure (k x s' T' h' e i (.inl ⟨c, y, hc, hd⟩))
  | _ =>
    refine wp_alloc h .nil (by intro b; rw [occ_atom rfl]; omega) ?_
    intro r s' T' h' e x _ _ hm
    refine k r s' T' h' (by intro b; have := e b; rw [occ_atom rfl] at this; omega) x (.inr ?_)
    rintro ⟨c', hc', p⟩
    rw [hm] at hc'; cases hc'
    cases p

theorem wp_carP {Q : Addr → HSt → Prop} {s : HSt} {T : Addr → Nat} {a x y : Addr} {c : Cell} (h : Inv s T) (l : Live s a)
    (hc : s.mem a = some c) (hd : c.data = .pair x y)
    (k : ∀ s' T', Inv s' T' → (∀ b, T' b = T b + one x b) → Ext s s' → Q x s') : wp (carH a) Q s := by
  refine wp_bind (wp_dataOf l fun c0 hc0 => ?_)
  rw [hc] at hc0; cases hc0
  rw [hd]
  refine wp_bind (wp_up h (h.childCar l (by simp) hc hd) ?_)
  intro s' T' h' e i
  exact wp_pure (k s' T' h' e i)

theorem wp_cdrP {Q : Addr → HSt → Prop} {s : HSt} {T : Addr → Nat} {a x y : Addr} {c : Cell} (h : Inv s T) (l : Live s a)
    (hc : s.mem a = some c) (hd : c.data = .pair x y)
    (k : ∀ s' T', Inv s' T' → (∀ b, T' b = T b + one y b) → Ext s s' → Q y s') : wp (cdrH a) Q s := by
  refine wp_bind (wp_dataOf l fun c0 hc0 => ?_)
  rw [hc] at hc0; cases hc0
  rw [hd]
  refine wp_bind (wp_up h (h.childCdr l (by simp) hc hd) ?_)
  intro s' T' h' e i
  exact wp_pure (k s' T' h' e i)

/-! ## Hiding cells that belong to the caller -/

theorem edges_drop {O : List Addr} {m : Addr → Option Cell} {n : Nat} {a x : Addr} {c : Cell} (ho : a ∉ O) (ha : a < n)
    (hc : m a = some c) : edges O (fun b => if b ∈ [a] then none else m b) n x + occ c.data x = edges O m n x := by
  have := sumTo_change (f := contrib O (fun b => if b ∈ [a] then none else m b) x) (g := contrib O m x) ha (by
    intro b hb
    simp [contrib, hb])
  rw [contrib_some ho hc, contrib_none (by simp)] at this
  exact this

/-- The invariant without a pair whose only reference is owned; its content becomes owned. -/
theorem InvO.hide1 {s : HSt} {T : Addr → Nat} {a x y : Addr} {c : Cell} (h : Inv s T) (hc : s.mem a = some c)
    (hr : c.refs = 1) (hd : c.data = .pair x y) (t : ∀ b, one a b ≤ T b) : x ≠ a ∧ y ≠ a ∧
    ∃ T', (∀ b, T' b + one a b = T b + one x b + one y b) ∧ Inv (hide [a] s) T' := by
  have l := h.live t
  have key : ∀ b, edges ([] ++ s.zombies) (hide [a] s).mem s.next b + (one x b + one y b)
      = edges ([] ++ s.zombies) s.mem s.next b := by
    intro b
    have := edges_drop (x := b) (O := [] ++ s.zombies) (by simpa using l.2) (h.lt hc) hc
    rw [hd, occ_pair] at this
    exact this
  have ta := h.exact a c hc
  have t1 := t a
  rw [one_self] at t1
  have ka := key a
  unfold total at ta
  have xa : one x a = 0 := by omega
  have ya : one y a = 0 := by omega
  refine ⟨?_, ?_, fun b => T b + one x b + one y b - one a b, by tok, ?_⟩
  · rintro rfl; rw [one_self] at xa; cases xa
  · rintro rfl; rw [one_self] at ya; cases ya
  have tot : ∀ b, b ≠ a → total [] (hide [a] s) (fun b => T b + one x b + one y b - one a b) b = total [] s T b := by
    intro b hb
    have := key b
    have := one_ne hb
    have : roots (hide [a] s) b = roots s b := rfl
    unfold total
    show edges ([] ++ s.zombies) (hide [a] s).mem s.next b + (T b + one x b + one y b - one a b) + _ = _
    omega
  refine ⟨?_, ?_, ?_, ?_, ?_, ?_, ?_⟩
  · intro b hb
    simp only [hide]
    split
    · rfl
    · exact h.fresh b hb
  · intro b cb hb
    obtain ⟨n, hb⟩ := hide_some hb
    rw [tot b (by simpa using n)]
    exact h.exact b cb hb
  · intro b hb
    by_cases e : b = a
    · subst e
      have : roots (hide [b] s) b = roots s b := rfl
      have := one_self b
      unfold total
      show edges ([] ++ s.zombies) (hide [b] s).mem s.next b + (T b + one x b + one y b - one b b) + _ = _
      omega
    · rw [hide_out (by simpa using e)] at hb
      rw [tot b e]
      exact h.dead b hb
  · intro b cb hb _
    exact h.pos b cb (hide_some hb).2 (by simp)
  · intro o ho; cases ho
  · intro z hz
    refine ⟨(h.zomb z hz).1, ?_⟩
    have := (h.zomb z hz).2
    have := key z
    show edges ([] ++ s.zombies) (hide [a] s).mem s.next z + (T z + one x z + one y z - one a z) +
      (s.globals.map Prod.snd).count z = 0
    omega
  · intro b cb d hb hd
    exact h.cache b cb d (hide_some hb).2 hd

theorem hide_hide {a b : Addr} {s : HSt} : hide [b] (hide [a] s) = hide [b, a] s := by
  simp only [hide, HSt.mk.injEq, and_true]
  funext x
  simp only [List.mem_cons, List.not_mem_nil, or_false]
  by_cases e : x = b
  · simp [e]
  · simp [e]

/-- Both computations end in the same way if the first one does. -/
def SameOk {α : Type} (m m' : HM α) : Prop := ∀ s p, m s = .ok p → m' s = .ok p

theorem SameOk.refl {α : Type} {m : HM α} : SameOk m m := fun _ _ e => e

theorem SameOk.bind {α β : Type} {m m' : HM α} {f f' : α → HM β} (h : SameOk m m') (h' : ∀ a, SameOk (f a) (f' a)) :
    SameOk (m >>= f) (m' >>= f') := by
  rintro s ⟨b, s'⟩ e
  replace e := HM.ok_inv e; obtain ⟨a, s1, e1, e2⟩ := e
  show (m' s >>= fun p => f' p.1 p.2) = _
  rw [h s _ e1]
  exact h' a s1 _ e2

theorem SameOk.seq {α β : Type} {m : HM α} {f f' : α → HM β} (h' : ∀ a, SameOk (f a) (f' a)) :
    SameOk (m >>= f) (m >>= f') := SameOk.bind .refl h'

theorem SameOk.fresh {u u' : UB} {a : Addr} : SameOk (fresh u a) (fresh u' a) := by
  intro s p e
  unfold Heap.fresh at *
  split at e
  · rename_i h; rw [if_pos h]; exact e
  · cases e

theorem SameOk.letMark {u u' : UB} {n : Nat} {a b c : Addr} : SameOk (letMarkH u n a b c) (letMarkH u' n a b c) :=
  SameOk.bind .fresh fun _ => .refl

theorem SameOk.letBind {ev : HEv} {u u' : UB} : ∀ (n : Nat) (a b c : Addr),
    SameOk (letBindH ev u n a b c) (letBindH ev u' n a b c) := by
  intro n
  induction n with
  | zero => intros; exact .refl
  | succ n ih =>
    intro a b c
    unfold letBindH
    refine .seq fun d => ?_
    split
    · refine .seq fun _ => .seq fun _ => .seq fun _ => .seq fun d => ?_
      split
      · exact .seq fun _ => .seq fun _ => .seq fun _ => .seq fun _ => .seq fun _ => .seq fun _ => .seq fun _ =>
          .bind .letMark fun _ => .seq fun _ => ih _ _ _
      · exact .refl
    · exact .refl

theorem SameOk.let_ {ev : HEv} {u u' : UB} {n : Nat} {a b : Addr} : SameOk (letH ev u n a b) (letH ev u' n a b) :=
  .seq fun _ => .seq fun _ => .seq fun _ => .seq fun _ => .bind (SameOk.letBind _ _ _ _) fun _ => .refl

theorem SameOk.set {ev : HEv} {u u' : UB} {n : Nat} {a b : Addr} : SameOk (setH ev u n a b) (setH ev u' n a b) :=
  .seq fun _ => .seq fun _ => .bind .fresh fun _ => .refl

/-- A native that is given the environment of its closure `full` but not the closure runs as if it owned its argument `any`, the value
of the first binding, if nothing else refers to `full` and to that binding. -/
theorem wp_own {α : Type} {m m' : HM α} {Q : α → HSt → Prop} {s : HSt} {T : Addr → Nat} {full kv c k any : Addr}
    {cf ck : Cell} (hl : ∀ H, Blind H m) (so : SameOk m m') (h : Inv s T) (t : ∀ b, one full b ≤ T b)
    (hf : s.mem full = some cf) (rf : cf.refs = 1) (df : cf.data = .pair kv c)
    (hk : s.mem kv = some ck) (rk : ck.refs = 1) (dk : ck.data = .pair k any)
    (w : ∀ s1 T1, Inv s1 T1 → (∀ b, T1 b + one full b = T b + one c b + one k b + one any b) → wp m (fun _ _ => True) s1)
    (w' : wp m' Q s) : wp m Q s := by
  obtain ⟨n1, _, T1, e1, h1⟩ := h.hide1 hf rf df t
  have hk1 : (hide [full] s).mem kv = some ck := by rw [hide_out (by simpa using n1)]; exact hk
  obtain ⟨_, _, T2, e2, h2⟩ := h1.hide1 hk1 rk dk (by
    intro b
    have := e1 b
    by_cases e : b = full
    · subst e; rw [one_ne (fun x => n1 x.symm)]; omega
    · rw [one_ne e] at this; omega)
  rw [hide_hide] at h2
  have w2 := w _ T2 h2 (by tok)
  have lt : ∀ x ∈ [kv, full], x < s.next := by
    intro x hx
    simp only [List.mem_cons, List.not_mem_nil, or_false] at hx
    rcases hx with rfl | rfl
    · exact h.lt hk
    · exact h.lt hf
  unfold wp at *
  rcases hl [kv, full] s lt with e | ⟨a, s', e, _⟩ | ⟨e, hn⟩
  · rw [e] at w2; exact absurd rfl w2
  · rw [so s _ e] at w'
    rw [e]
    exact w'
  · rw [e] at w2
    cases hm : m s with
    | ok p => exact absurd hm (hn p)
    | ub u => rw [hm] at w2; exact w2
    | _ => trivial

end Heap
end Mnml
