import Verif.HeapInv

/-!
# Releasing references

The cascade of `X` keeps the invariant, never touches a released cell and never reaches its bound.
-/

namespace Mnml
namespace Heap

/-- The cells that can still be released. -/
def liveCount (O : List Addr) (s : HSt) : Nat :=
  sumTo (fun b => if b ∈ O ++ s.zombies then 0 else if (s.mem b).isSome then 1 else 0) s.next

theorem sumTo_le_n {f : Nat → Nat} {n : Nat} (h : ∀ b, f b ≤ 1) : sumTo f n ≤ n := by
  induction n with
  | zero => exact Nat.le_refl _
  | succ n ih => have := h n; simp only [sumTo]; omega

theorem liveCount_le (O : List Addr) (s : HSt) : liveCount O s ≤ s.next := by
  refine sumTo_le_n fun b => ?_
  by_cases h : b ∈ O ++ s.zombies
  · simp [h]
  · simp only [h, if_false]; split <;> omega

/-- Releasing steps: cells disappear or lose references, nothing else changes. -/
structure Shrink (s s' : HSt) : Prop where
  next : s'.next = s.next
  globals : s'.globals = s.globals
  out : s'.out = s.out
  leaked : s'.leaked = s.leaked
  zombies : s'.zombies = s.zombies
  strict : s'.strict = s.strict
  mem : ∀ b c', s'.mem b = some c' → ∃ c, s.mem b = some c ∧ c'.data = c.data ∧ c'.tc = c.tc ∧
    c'.cache = c.cache ∧ c'.refs ≤ c.refs

theorem Shrink.refl (s : HSt) : Shrink s s :=
  ⟨rfl, rfl, rfl, rfl, rfl, rfl, fun _ c h => ⟨c, h, rfl, rfl, rfl, Nat.le_refl _⟩⟩

theorem Shrink.trans {s s' s'' : HSt} (h : Shrink s s') (h' : Shrink s' s'') : Shrink s s'' := by
  refine ⟨h'.next.trans h.next, h'.globals.trans h.globals, h'.out.trans h.out,
    h'.leaked.trans h.leaked, h'.zombies.trans h.zombies, h'.strict.trans h.strict, ?_⟩
  intro b c hc
  obtain ⟨c1, h1, e1, e2, e3, e4⟩ := h'.mem b c hc
  obtain ⟨c2, h2, f1, f2, f3, f4⟩ := h.mem b c1 h1
  exact ⟨c2, h2, e1.trans f1, e2.trans f2, e3.trans f3, Nat.le_trans e4 f4⟩

theorem Shrink.fr {s s' : HSt} (h : Shrink s s') (n : Nat) : Fr n s s' := by
  refine ⟨h.zombies, by rw [h.next]; exact Nat.le_refl _, ?_⟩
  intro a c _ hc
  obtain ⟨c', h1, h2, _⟩ := h.mem a c hc
  exact ⟨c', h1, h2⟩

theorem Shrink.liveCount {s s' : HSt} (h : Shrink s s') (O : List Addr) :
    Heap.liveCount O s' ≤ Heap.liveCount O s := by
  unfold Heap.liveCount
  rw [h.next, h.zombies]
  refine sumTo_le fun b _ => ?_
  by_cases hb : b ∈ O ++ s.zombies
  · simp [hb]
  · simp only [hb, if_false]
    cases h' : s'.mem b with
    | none => simp
    | some c =>
      obtain ⟨c', hc', _⟩ := h.mem b c h'
      simp [hc']

/-- The bind of heap computations. -/
theorem HM.bind_ok {α β : Type} {x : HM α} {f : α → HM β} {s s' : HSt} {a : α}
    (h : x s = .ok (a, s')) : (x >>= f) s = f a s' := by
  show HM.bind x f s = _
  unfold HM.bind
  rw [h]
  rfl

theorem cell_ok {s : HSt} {a : Addr} {c : Cell} (h : s.mem a = some c) : cell a s = .ok (c, s) := by
  simp [cell, h]

theorem modify_ok {s : HSt} {a : Addr} {c : Cell} (f : Cell → Cell) (h : s.mem a = some c) :
    modify a f s = .ok ((), { s with mem := upd s.mem a (some (f c)) }) := by
  simp [modify, h]

theorem free_ok {s : HSt} {a : Addr} {c : Cell} (h : s.mem a = some c) :
    free a s = .ok ((), { s with mem := upd s.mem a none }) := by
  simp [free, h]; rfl

/-- The state after decrementing a count. -/
def dec (s : HSt) (a : Addr) (c : Cell) : HSt :=
  { s with mem := upd s.mem a (some { c with refs := c.refs - 1 }) }

theorem dec_shrink {s : HSt} {a : Addr} {c : Cell} (h : s.mem a = some c) : Shrink s (dec s a c) := by
  refine ⟨rfl, rfl, rfl, rfl, rfl, rfl, ?_⟩
  intro b c' hb
  simp only [dec] at hb
  by_cases e : b = a
  · subst e
    rw [upd_self] at hb
    cases hb
    exact ⟨c, h, rfl, rfl, rfl, Nat.sub_le _ _⟩
  · rw [upd_ne e] at hb
    exact ⟨c', hb, rfl, rfl, rfl, Nat.le_refl _⟩

theorem free_shrink (s : HSt) (a : Addr) : Shrink s { s with mem := upd s.mem a none } := by
  refine ⟨rfl, rfl, rfl, rfl, rfl, rfl, ?_⟩
  intro b c' hb
  simp only at hb
  by_cases e : b = a
  · subst e; rw [upd_self] at hb; cases hb
  · rw [upd_ne e] at hb
    exact ⟨c', hb, rfl, rfl, rfl, Nat.le_refl _⟩

/-- Releasing a cell that has other references. -/
theorem release_many {n : Nat} {s : HSt} {a : Addr} {c : Cell} (hc : s.mem a = some c)
    (h : 1 < c.refs) : release (n + 1) a s = .ok ((), dec s a c) := by
  have h0 : ¬ c.refs = 0 := by omega
  have h1 : ¬ c.refs = 1 := by omega
  unfold release
  rw [HM.bind_ok (cell_ok hc)]
  simp only [h0, if_false]
  rw [HM.bind_ok (modify_ok _ hc)]
  simp only [h1, if_false]
  rfl

/-- Releasing the last reference to an atom. -/
theorem release_last_atom {n : Nat} {s : HSt} {a : Addr} {c : Cell} (hc : s.mem a = some c)
    (h : c.refs = 1) (hd : c.data.isPair = false) :
    release (n + 1) a s = .ok ((), { dec s a c with mem := upd (dec s a c).mem a none }) := by
  obtain ⟨r, tc, ch, d⟩ := c
  simp only at h hd
  subst h
  unfold release
  rw [HM.bind_ok (cell_ok hc)]
  simp only [Nat.one_ne_zero, if_false]
  rw [HM.bind_ok (modify_ok _ hc)]
  simp only [if_true]
  have : (dec s a ⟨1, tc, ch, d⟩).mem a = some ⟨0, tc, ch, d⟩ := upd_self _ _ _
  have := free_ok this
  cases d <;> first | exact this | cases hd

/-- Releasing the last reference to a pair. -/
theorem release_last_pair {n : Nat} {s : HSt} {a : Addr} {c : Cell} {x y : Addr}
    (hc : s.mem a = some c) (h : c.refs = 1) (hd : c.data = .pair x y) :
    release (n + 1) a s = (release n x >>= fun _ => release n y >>= fun _ => free a) (dec s a c) := by
  obtain ⟨r, tc, ch, d⟩ := c
  simp only at h hd
  subst h
  subst hd
  conv => lhs; unfold release
  rw [HM.bind_ok (cell_ok hc)]
  simp only [Nat.one_ne_zero, if_false]
  rw [HM.bind_ok (modify_ok _ hc)]
  simp only [if_true]
  rfl

/-- The cascade of `X`: it succeeds, keeps the invariant and gives up one owned reference. Open cells must
be owned otherwise, or be on their way out. -/
theorem release_spec (n : Nat) : ∀ {O : List Addr} {s : HSt} {T : Addr → Nat} {a : Addr},
    InvO O s T → (∀ b, one a b ≤ T b) →
    (∀ o, o ∈ O → (∀ b, one a b + one o b ≤ T b) ∨ total O s T o = 0) →
    liveCount O s ≤ n →
    ∃ s' T', release (n + 1) a s = .ok ((), s') ∧ InvO O s' T' ∧ (∀ b, T' b + one a b = T b) ∧
      Shrink s s' := by
  induction n with
  | zero =>
    intro O s T a h ha hO hn
    obtain ⟨⟨c, hc⟩, hz⟩ := h.live ha
    have hT : 1 ≤ T a := by have := ha a; rw [one_self] at this; exact this
    have hex := h.exact a c hc
    have tot : T a ≤ c.refs := by rw [hex]; unfold total; omega
    have hTT : ∀ b, (T b - one a b) + one a b = T b := by intro b; have := ha b; omega
    by_cases h2 : 1 < c.refs
    · refine ⟨_, fun b => T b - one a b, release_many hc h2, ?_, hTT, dec_shrink hc⟩
      refine h.touch ⟨⟨c, hc⟩, hz⟩ hc rfl ?_ (Or.inr (by show 0 < c.refs - 1; omega)) ?_
      · intro b
        show T b - one a b + one a b * c.refs = T b + one a b * (c.refs - 1)
        have h3 := ha b
        by_cases e : b = a
        · subst e; rw [one_self] at h3 ⊢; omega
        · rw [one_ne e]; omega
      · intro d hd; exact h.cache a c d hc hd
    · have hr : c.refs = 1 := by omega
      have hno : a ∉ O := by
        intro hao
        rcases hO a hao with h3 | h3
        · have := h3 a; rw [one_self] at this; omega
        · omega
      -- the cell would count
      have : 1 ≤ liveCount O s := by
        have := le_sumTo (f := fun b => if b ∈ O ++ s.zombies then 0 else
          if (s.mem b).isSome then 1 else 0) (h.lt hc)
        have e : (if a ∈ O ++ s.zombies then 0 else if (s.mem a).isSome then 1 else 0) = 1 := by
          simp [hno, hz, hc]
        simp only [e] at this
        exact this
      omega
  | succ n ih =>
    intro O s T a h ha hO hn
    obtain ⟨⟨c, hc⟩, hz⟩ := h.live ha
    have hT : 1 ≤ T a := by have := ha a; rw [one_self] at this; exact this
    have hex := h.exact a c hc
    have tot : T a ≤ c.refs := by rw [hex]; unfold total; omega
    have hTT : ∀ b, (T b - one a b) + one a b = T b := by intro b; have := ha b; omega
    by_cases h2 : 1 < c.refs
    · refine ⟨_, fun b => T b - one a b, release_many hc h2, ?_, hTT, dec_shrink hc⟩
      refine h.touch ⟨⟨c, hc⟩, hz⟩ hc rfl ?_ (Or.inr (by show 0 < c.refs - 1; omega)) ?_
      · intro b
        show T b - one a b + one a b * c.refs = T b + one a b * (c.refs - 1)
        have h3 := ha b
        by_cases e : b = a
        · subst e; rw [one_self] at h3 ⊢; omega
        · rw [one_ne e]; omega
      · intro d hd; exact h.cache a c d hc hd
    · have hr : c.refs = 1 := by omega
      have hno : a ∉ O := by
        intro hao
        rcases hO a hao with h3 | h3
        · have := h3 a; rw [one_self] at this; omega
        · omega
      -- open the dying cell and decrement its count
      have hopen := h.open_ (T' := fun b => T b + occ c.data b) ⟨⟨c, hc⟩, hz⟩ hno hc (fun _ => rfl)
      have h1 : InvO (a :: O) (dec s a c) (fun b => T b + occ c.data b - one a b) := by
        refine hopen.touch ⟨⟨c, hc⟩, hz⟩ hc rfl ?_ (Or.inl (by simp)) ?_
        · intro b
          show T b + occ c.data b - one a b + one a b * c.refs
            = T b + occ c.data b + one a b * (c.refs - 1)
          have h3 := ha b
          by_cases e : b = a
          · subst e; rw [one_self] at h3 ⊢; omega
          · rw [one_ne e]; omega
        · intro d hd; exact h.cache a c d hc hd
      have hma : (dec s a c).mem a = some { c with refs := c.refs - 1 } := upd_self _ _ _
      cases hp : c.data.isPair with
      | false =>
        refine ⟨_, fun b => T b - one a b, release_last_atom hc hr hp, ?_, hTT,
          (dec_shrink hc).trans (free_shrink _ a)⟩
        refine InvO.congr (h1.free hno hma (by show c.refs - 1 = 0; omega)) ?_
        intro b
        simp only [occ_atom hp]
        omega
      | true =>
        obtain ⟨x, y, hd⟩ : ∃ x y, c.data = .pair x y := by
          cases hd : c.data <;> first | exact ⟨_, _, rfl⟩ | (rw [hd] at hp; cases hp)
        have eocc : ∀ b, occ c.data b = one x b + one y b := by intro b; rw [hd, occ_pair]
        have hcount : liveCount (a :: O) s + 1 = liveCount O s := by
          have := sumTo_change
            (f := fun b => if b ∈ a :: O ++ s.zombies then 0 else if (s.mem b).isSome then 1 else 0)
            (g := fun b => if b ∈ O ++ s.zombies then 0 else if (s.mem b).isSome then 1 else 0)
            (h.lt hc) (by intro b hb; simp [hb])
          simp only [List.cons_append, List.mem_cons, true_or, if_true, List.mem_append, hno, hz,
            or_self, if_false, hc, Option.isSome_some] at this
          unfold liveCount
          simp only [List.cons_append, List.mem_cons, List.mem_append]
          exact this
        have hcount1 : liveCount (a :: O) (dec s a c) ≤ n := by
          have := (dec_shrink hc).liveCount (a :: O)
          omega
        -- the first field
        obtain ⟨s2, T2, r2, i2, e2, k2⟩ := ih (a := x) h1 (by
            intro b; have := ha b; have := eocc b; omega) (by
            intro o ho
            by_cases e : o = a
            · subst e
              right
              rw [← h1.exact o _ hma]
              show c.refs - 1 = 0
              omega
            · have ho' : o ∈ O := by simpa [e] using ho
              rcases hO o ho' with h3 | h3
              · left
                intro b
                have := h3 b
                have := eocc b
                omega
              · right
                cases hmo : s.mem o with
                | none => exact absurd hmo (h.opn o ho')
                | some co =>
                  have hmo' : (dec s a c).mem o = some co := by
                    simp only [dec]; rw [upd_ne e]; exact hmo
                  rw [← h1.exact o co hmo', h.exact o co hmo]
                  exact h3) hcount1
        -- the second field
        obtain ⟨s3, T3, r3, i3, e3, k3⟩ := ih (a := y) i2 (by
            intro b; have := ha b; have := eocc b; have := e2 b; omega) (by
            intro o ho
            by_cases e : o = a
            · subst e
              right
              cases hmo : s2.mem o with
              | none => exact absurd hmo (i2.opn o ho)
              | some co =>
                obtain ⟨c', hc', _, _, _, hle⟩ := k2.mem o co hmo
                rw [hma] at hc'
                cases hc'
                rw [← i2.exact o co hmo]
                have : co.refs ≤ c.refs - 1 := hle
                omega
            · have ho' : o ∈ O := by simpa [e] using ho
              rcases hO o ho' with h3 | h3
              · left
                intro b
                have := h3 b
                have := eocc b
                have := e2 b
                omega
              · right
                cases hmo : s2.mem o with
                | none => exact absurd hmo (i2.opn o ho)
                | some co =>
                  obtain ⟨c', hc', _, _, _, hle⟩ := k2.mem o co hmo
                  simp only [dec] at hc'
                  rw [upd_ne e] at hc'
                  have := h.exact o c' hc'
                  rw [← i2.exact o co hmo]
                  omega) (Nat.le_trans (k2.liveCount _) hcount1)
        -- the cell itself
        cases hma3 : s3.mem a with
        | none => exact absurd hma3 (i3.opn a (by simp))
        | some c3 =>
          obtain ⟨c2, hc2, _, _, _, le3⟩ := k3.mem a c3 hma3
          obtain ⟨c1, hc1, _, _, _, le2⟩ := k2.mem a c2 hc2
          rw [hma] at hc1
          cases hc1
          have hr3 : c3.refs = 0 := by
            have : c2.refs ≤ c.refs - 1 := le2
            omega
          refine ⟨_, fun b => T b - one a b, ?_, InvO.congr (i3.free hno hma3 hr3) ?_, hTT,
            (((dec_shrink hc).trans k2).trans k3).trans (free_shrink _ a)⟩
          · rw [release_last_pair hc hr hd, HM.bind_ok r2, HM.bind_ok r3]
            exact free_ok hma3
          · intro b
            have := ha b
            have := eocc b
            have := e2 b
            have := e3 b
            omega

/-- `X` succeeds and keeps the invariant. -/
theorem X_spec {O : List Addr} {s : HSt} {T : Addr → Nat} {a : Addr} (h : InvO O s T)
    (ha : ∀ b, one a b ≤ T b) (hO : ∀ o, o ∈ O → ∀ b, one a b + one o b ≤ T b) :
    ∃ s' T', X a s = .ok ((), s') ∧ InvO O s' T' ∧ (∀ b, T' b + one a b = T b) ∧ Shrink s s' :=
  release_spec s.next h ha (fun o ho => Or.inl (hO o ho)) (liveCount_le O s)

/-- `X` on an atom that is not a pair has no cascade: it touches no other cell. -/
theorem X_atom_spec {O : List Addr} {s : HSt} {T : Addr → Nat} {a : Addr} {c : Cell} (h : InvO O s T)
    (ha : ∀ b, one a b ≤ T b) (ho : a ∉ O) (hc : s.mem a = some c) (hp : c.data.isPair = false) :
    ∃ s' T', X a s = .ok ((), s') ∧ InvO O s' T' ∧ (∀ b, T' b + one a b = T b) ∧ Shrink s s' ∧
      ∀ b, b ≠ a → s'.mem b = s.mem b := by
  have hz := (h.live ha).2
  have hT : 1 ≤ T a := by have := ha a; rw [one_self] at this; exact this
  have hex := h.exact a c hc
  have tot : T a ≤ c.refs := by rw [hex]; unfold total; omega
  have hTT : ∀ b, (T b - one a b) + one a b = T b := by intro b; have := ha b; omega
  by_cases h2 : 1 < c.refs
  · refine ⟨_, fun b => T b - one a b, release_many hc h2, ?_, hTT, dec_shrink hc, ?_⟩
    · refine h.touch ⟨⟨c, hc⟩, hz⟩ hc rfl ?_ (Or.inr (by show 0 < c.refs - 1; omega)) ?_
      · intro b
        show T b - one a b + one a b * c.refs = T b + one a b * (c.refs - 1)
        have h3 := ha b
        by_cases e : b = a
        · subst e; rw [one_self] at h3 ⊢; omega
        · rw [one_ne e]; omega
      · intro d hd; exact h.cache a c d hc hd
    · intro b hb; simp only [dec]; rw [upd_ne hb]
  · have hr : c.refs = 1 := by omega
    have hopen := h.open_ (T' := fun b => T b + occ c.data b) ⟨⟨c, hc⟩, hz⟩ ho hc (fun _ => rfl)
    have h1 : InvO (a :: O) (dec s a c) (fun b => T b - one a b) := by
      refine hopen.touch ⟨⟨c, hc⟩, hz⟩ hc rfl ?_ (Or.inl (by simp)) ?_
      · intro b
        show T b - one a b + one a b * c.refs = T b + occ c.data b + one a b * (c.refs - 1)
        have h3 := ha b
        rw [occ_atom hp]
        by_cases e : b = a
        · subst e; rw [one_self] at h3 ⊢; omega
        · rw [one_ne e]; omega
      · intro d hd; exact h.cache a c d hc hd
    have hma : (dec s a c).mem a = some { c with refs := c.refs - 1 } := upd_self _ _ _
    refine ⟨_, fun b => T b - one a b, release_last_atom hc hr hp,
      h1.free ho hma (by show c.refs - 1 = 0; omega), hTT,
      (dec_shrink hc).trans (free_shrink _ a), ?_⟩
    intro b hb
    simp only [dec]
    rw [upd_ne hb, upd_ne hb]

end Heap
end Mnml
