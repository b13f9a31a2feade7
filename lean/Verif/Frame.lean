import Verif.Basic

/-!
# The cache of compiled closures

Models `lib/core/closure.c`. A frame is a block with a link and a number of slots; the cache is a chain of frames through their links.
`malloc` may return any address that is not allocated.
-/

namespace Mnml
namespace Frame

/-- `struct closure` (`include/mnml/closure.h:20-24`) with the number of slots it was allocated for. -/
structure Block where
  link : Option Nat
  size : Nat

/-- The memory of frames and the head of the cache. -/
structure St where
  mem : Nat → Option Block
  cache : Option Nat

/-- Memory update. -/
def upd (m : Nat → Option Block) (a : Nat) (b : Option Block) : Nat → Option Block := fun x => if x = a then b else m x

/-- `lisp_closure_get` (`lib/core/closure.c:8-26`); `fresh` is the address that `malloc` returns if it is called. -/
def get (s : St) (parent : Option Nat) (n fresh : Nat) : Res (Nat × St) :=
  match s.cache with
  | some a =>
    match s.mem a with
    | some b => .ok (a, ⟨upd s.mem a (some ⟨parent, b.size⟩), b.link⟩)
    | none => .ub .useAfterFree
  | none => .ok (fresh, ⟨upd s.mem fresh (some ⟨parent, n⟩), none⟩)

/-- `lisp_closure_put` (`lib/core/closure.c:28-33`). -/
def put (s : St) (a : Nat) : Res St :=
  match s.mem a with
  | some b => .ok ⟨upd s.mem a (some ⟨s.cache, b.size⟩), some a⟩
  | none => .ub .useAfterFree

/-- `lisp_closure_clear` (`lib/core/closure.c:35-43`). -/
def clear : Nat → St → Res St
  | 0, _ => .oof
  | n + 1, s =>
    match s.cache with
    | none => .ok s
    | some a =>
      match s.mem a with
      | some b => clear n ⟨upd s.mem a none, b.link⟩
      | none => .ub .useAfterFree

/-- The operations of a history. -/
inductive Op where
  | get (parent : Option Nat) (n fresh : Nat)
  | put (a : Nat)
  | clear (fuel : Nat)

/-- A history: the state, the frames in use and the sizes requested so far. A client only puts back frames that it uses, and `malloc` returns unallocated
addresses. -/
inductive Hist : List Op → St → List Nat → List Nat → Prop where
  | nil : Hist [] ⟨fun _ => none, none⟩ [] []
  | get {h : List Op} {s s' : St} {used sizes : List Nat} {parent : Option Nat} {n fresh a : Nat} (hh : Hist h s used sizes)
      (hf : s.mem fresh = none) (hr : get s parent n fresh = .ok (a, s')) :
      Hist (h ++ [.get parent n fresh]) s' (a :: used) (n :: sizes)
  | put {h : List Op} {s s' : St} {used sizes : List Nat} {a : Nat} (hh : Hist h s used sizes) (ha : a ∈ used)
      (hr : put s a = .ok s') : Hist (h ++ [.put a]) s' (used.erase a) sizes
  | clear {h : List Op} {s s' : St} {used sizes : List Nat} {n : Nat} (hh : Hist h s used sizes) (hr : clear n s = .ok s') :
      Hist (h ++ [.clear n]) s' used sizes

/-! ## The invariant -/

/-- `cs` is the chain of frames from a link. -/
def Chain (m : Nat → Option Block) : Option Nat → List Nat → Prop
  | l, [] => l = none
  | l, a :: cs => l = some a ∧ ∃ b, m a = some b ∧ Chain m b.link cs

/-- The cached frames `cs` and those in use are different allocated frames; every allocated frame is as large as some earlier request. -/
structure Inv (s : St) (used sizes cs : List Nat) : Prop where
  chain : Chain s.mem s.cache cs
  nodup : (cs ++ used).Nodup
  live : ∀ a ∈ used, s.mem a ≠ none
  size : ∀ a b, s.mem a = some b → b.size ∈ sizes

theorem Chain.upd {m : Nat → Option Block} {l : Option Nat} {cs : List Nat} {a : Nat} {b : Option Block} (h : Chain m l cs) (ha : a ∉ cs) :
    Chain (upd m a b) l cs := by
  induction cs generalizing l with
  | nil => exact h
  | cons c cs ih =>
    simp only [List.mem_cons, not_or] at ha
    obtain ⟨rfl, b', hb, hc⟩ := h
    refine ⟨rfl, b', ?_, ih hc ha.2⟩
    simp [Frame.upd, Ne.symm ha.1, hb]

theorem Chain.live {m : Nat → Option Block} {l : Option Nat} {cs : List Nat} (h : Chain m l cs) : ∀ a ∈ cs, m a ≠ none := by
  induction cs generalizing l with
  | nil => simp
  | cons c cs ih =>
    obtain ⟨rfl, b', hb, hc⟩ := h
    intro a ha
    rcases List.mem_cons.1 ha with rfl | ha
    · simp [hb]
    · exact ih hc a ha

theorem get_inv {s : St} {used sizes cs : List Nat} (h : Inv s used sizes cs) (parent : Option Nat) (n fresh : Nat)
    (hf : s.mem fresh = none) :
    ∃ a s' cs' b, get s parent n fresh = .ok (a, s') ∧ a ∉ used ∧ Inv s' (a :: used) (n :: sizes) cs' ∧ s'.mem a = some b ∧
      (b.size = n ∨ b.size ∈ sizes) := by
  obtain ⟨mem, cache⟩ := s
  obtain ⟨hch, hnd, hl, hsz⟩ := h
  cases cs with
  | nil =>
    have hc : cache = none := hch
    subst hc
    have hfu : fresh ∉ used := fun hm => hl _ hm hf
    refine ⟨fresh, _, [], ⟨parent, n⟩, rfl, hfu, ⟨rfl, ?_, ?_, ?_⟩, by simp [Frame.upd], .inl rfl⟩
    · simp at hnd ⊢; exact ⟨hfu, hnd⟩
    · intro a ha
      simp only [Frame.upd]
      split
      · simp
      · next hne => exact hl a ((List.mem_cons.1 ha).resolve_left hne)
    · intro a b hb
      simp only [Frame.upd] at hb
      split at hb
      · cases hb; simp
      · exact List.mem_cons_of_mem _ (hsz a b hb)
  | cons c cs =>
    obtain ⟨rfl, b', hb, hc⟩ := hch
    simp only at hb
    have hnd' := hnd
    simp only [List.cons_append, List.nodup_cons, List.mem_append, not_or] at hnd
    refine ⟨c, ⟨Frame.upd mem c (some ⟨parent, b'.size⟩), b'.link⟩, cs, ⟨parent, b'.size⟩, by simp [get, hb], hnd.1.2,
      ⟨hc.upd hnd.1.1, ?_, ?_, ?_⟩, by simp [Frame.upd], .inr (hsz c b' hb)⟩
    · rw [List.nodup_append] at hnd' ⊢
      simp only [List.nodup_cons] at *
      grind
    · intro a ha
      simp only [Frame.upd]
      split
      · simp
      · next hne => exact hl a ((List.mem_cons.1 ha).resolve_left hne)
    · intro a b hb'
      simp only [Frame.upd] at hb'
      split at hb'
      · cases hb'; exact List.mem_cons_of_mem _ (hsz c b' hb)
      · exact List.mem_cons_of_mem _ (hsz a b hb')

theorem put_inv {s : St} {used sizes cs : List Nat} (h : Inv s used sizes cs) {a : Nat} (ha : a ∈ used) :
    ∃ s', put s a = .ok s' ∧ Inv s' (used.erase a) sizes (a :: cs) := by
  obtain ⟨mem, cache⟩ := s
  obtain ⟨hch, hnd, hl, hsz⟩ := h
  have hnn := hl a ha
  cases hb : mem a with
  | none => exact absurd hb hnn
  | some b =>
    rw [List.nodup_append] at hnd
    have hac : a ∉ cs := fun hm => hnd.2.2 a hm a ha rfl
    refine ⟨⟨Frame.upd mem a (some ⟨cache, b.size⟩), some a⟩, by simp [put, hb], ⟨rfl, ⟨cache, b.size⟩, by simp [Frame.upd], Chain.upd hch hac⟩, ?_, ?_, ?_⟩
    · rw [List.nodup_append]
      refine ⟨List.nodup_cons.2 ⟨hac, hnd.1⟩, hnd.2.1.erase a, ?_⟩
      intro x hx y hy hxy
      subst hxy
      rcases List.mem_cons.1 hx with rfl | hx
      · exact absurd hy (List.Nodup.not_mem_erase hnd.2.1)
      · exact hnd.2.2 x hx x (List.mem_of_mem_erase hy) rfl
    · intro x hx
      simp only [Frame.upd]
      split
      · simp
      · exact hl x (List.mem_of_mem_erase hx)
    · intro x b' hb'
      simp only [Frame.upd] at hb'
      split at hb'
      · cases hb'; exact hsz a b hb
      · exact hsz x b' hb'

theorem clear_inv {n : Nat} {s : St} {used sizes cs : List Nat} (h : Inv s used sizes cs) :
    (∀ u, clear n s ≠ .ub u) ∧ (cs.length < n → ∃ s', clear n s = .ok s') ∧ ∀ s', clear n s = .ok s' → Inv s' used sizes [] := by
  induction n generalizing s cs with
  | zero => exact ⟨by simp [clear], by simp, by simp [clear]⟩
  | succ n ih =>
    obtain ⟨mem, cache⟩ := s
    obtain ⟨hch, hnd, hl, hsz⟩ := h
    cases cs with
    | nil =>
      have hc : cache = none := hch
      subst hc
      refine ⟨by simp [clear], fun _ => ⟨_, rfl⟩, ?_⟩
      intro s' hs'
      simp only [clear] at hs'
      cases hs'
      exact ⟨hch, hnd, hl, hsz⟩
    | cons c cs =>
      obtain ⟨rfl, b, hb, hc⟩ := hch
      simp only at hb
      simp only [List.cons_append, List.nodup_cons, List.mem_append, not_or] at hnd
      have key : Inv ⟨Frame.upd mem c none, b.link⟩ used sizes cs := by
        refine ⟨hc.upd hnd.1.1, hnd.2, ?_, ?_⟩
        · intro a ha
          simp only [Frame.upd]
          split
          · next e => subst e; exact absurd ha hnd.1.2
          · exact hl a ha
        · intro a b' hb'
          simp only [Frame.upd] at hb'
          split at hb'
          · cases hb'
          · exact hsz a b' hb'
      have := ih key
      simp only [clear, hb]
      exact ⟨this.1, fun h => this.2.1 (by simp at h; omega), this.2.2⟩

theorem Hist.inv {h : List Op} {s : St} {used sizes : List Nat} (hh : Hist h s used sizes) : ∃ cs, Inv s used sizes cs := by
  induction hh with
  | nil => exact ⟨[], rfl, by simp, by simp, by simp⟩
  | get _ hf hr ih =>
    obtain ⟨cs, hi⟩ := ih
    obtain ⟨a, s', cs', b, e, _, hi', _⟩ := get_inv hi _ _ _ hf
    rw [e] at hr; cases hr
    exact ⟨cs', hi'⟩
  | put _ ha hr ih =>
    obtain ⟨cs, hi⟩ := ih
    obtain ⟨s', e, hi'⟩ := put_inv hi ha
    rw [e] at hr; cases hr
    exact ⟨_, hi'⟩
  | clear _ hr ih =>
    obtain ⟨cs, hi⟩ := ih
    exact ⟨[], (clear_inv hi).2.2 _ hr⟩

/-! ## C48 -/

/-- **C48.** After any history a request succeeds and returns an allocated frame that is not in use. -/
theorem C48_exclusive {h : List Op} {s : St} {used sizes : List Nat} (hh : Hist h s used sizes) (parent : Option Nat) (n fresh : Nat)
    (hf : s.mem fresh = none) : ∃ a s', get s parent n fresh = .ok (a, s') ∧ a ∉ used ∧ s'.mem a ≠ none := by
  obtain ⟨cs, hi⟩ := hh.inv
  obtain ⟨a, s', _, b, e, hu, _, hb, _⟩ := get_inv hi parent n fresh hf
  exact ⟨a, s', e, hu, by simp [hb]⟩

/-- **C48.** The frames in use are pairwise different and allocated, after any history: clearing the cache does not free them. -/
theorem C48_in_use {h : List Op} {s : St} {used sizes : List Nat} (hh : Hist h s used sizes) :
    used.Nodup ∧ ∀ a ∈ used, s.mem a ≠ none := by
  obtain ⟨cs, hi⟩ := hh.inv
  exact ⟨(List.nodup_append.1 hi.nodup).2.1, hi.live⟩

/-- **C48.** Neither giving a frame back nor clearing the cache touches a frame that has been freed. -/
theorem C48_no_use_after_free {h : List Op} {s : St} {used sizes : List Nat} (hh : Hist h s used sizes) :
    (∀ a ∈ used, ∃ s', put s a = .ok s') ∧ ∃ k, ∀ n, k < n → ∃ s', clear n s = .ok s' := by
  obtain ⟨cs, hi⟩ := hh.inv
  refine ⟨fun a ha => ?_, cs.length, fun n hn => (clear_inv hi).2.1 hn⟩
  obtain ⟨s', e, _⟩ := put_inv hi ha
  exact ⟨s', e⟩

/-- **C48.** A frame is large enough for a request that is not larger than any earlier one. Missing for the full statement: requests that are larger than an
earlier one (`C48_size_counterexample`). -/
theorem C48_size_partial {h : List Op} {s : St} {used sizes : List Nat} (hh : Hist h s used sizes) (parent : Option Nat) (n fresh : Nat)
    (hf : s.mem fresh = none) (hn : ∀ k ∈ sizes, n ≤ k) :
    ∃ a s' b, get s parent n fresh = .ok (a, s') ∧ s'.mem a = some b ∧ n ≤ b.size := by
  obtain ⟨cs, hi⟩ := hh.inv
  obtain ⟨a, s', _, b, e, _, _, hb, hs⟩ := get_inv hi parent n fresh hf
  refine ⟨a, s', b, e, hb, ?_⟩
  rcases hs with hs | hs
  · omega
  · exact hn _ hs

/-- **C48.** The cache ignores the size: after a frame of one slot has been used and given back, a request for two slots gets that frame. The
compiler uses one cache for all functions of a module (`share/mnml/cc.l:339`, `523`, `572`). -/
theorem C48_size_counterexample : ∃ h s used sizes, Hist h s used sizes ∧ s.mem 8 = none ∧
    ∃ a s' b, get s none 2 8 = .ok (a, s') ∧ s'.mem a = some b ∧ b.size < 2 := by
  have h0 : Hist [] ⟨fun _ => none, none⟩ [] [] := .nil
  have h1 := Hist.get (parent := none) (n := 1) (fresh := 7) h0 rfl rfl
  have h2 := Hist.put (a := 7) h1 (by simp) rfl
  exact ⟨_, _, _, _, h2, rfl, _, _, _, rfl, rfl, by decide⟩

end Frame
end Mnml
