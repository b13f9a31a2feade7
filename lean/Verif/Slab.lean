import Verif.Basic

/-!
# The slab allocator

Models `lib/core/slab.c` and `include/mnml/slab.h` concretely: an array of 32-byte cells, a free
list threaded through the first word of the free cells, and on-demand expansion.
-/

namespace Mnml.Slab

/-- The raw contents of a `struct atom` (`include/mnml/types.h:73-89`): `link` is the union of
`next` (when the cell is free) and `refs` (when it is in use); `w0 w1` are the two payload words. -/
structure RawCell where
  link : Nat
  type : Nat
  flags : Nat
  cache : Nat
  w0 : Nat
  w1 : Nat
deriving DecidableEq, Repr

/-- `memset(entry, 0, sizeof(struct atom))` (`lib/core/slab.c:150`). -/
def RawCell.zero : RawCell := ⟨0, 0, 0, 0, 0, 0⟩

/-- `struct slab` (`include/mnml/slab.h:11-18`); `cells` is the array `entries`. -/
structure Slab where
  first : Nat
  nAlloc : Nat
  nFree : Nat
  nPages : Nat
  cells : Nat → RawCell

/-- `END_MK`, `(-1U)` (`lib/core/slab.c:8`). -/
def endMk : Nat := 4294967295
/-- `SLAB_SIZE` (`include/mnml/slab.h:24`). -/
def slabSize : Nat := 64 * 1024 * 1024
/-- `PAGE_SIZE` (`include/mnml/slab.h:25`). -/
def pageSize : Nat := 4096
/-- `sizeof(struct atom)`: 4 + 2 + 2 + 8 + 16, packed (`include/mnml/types.h:73-89`). -/
def cellSize : Nat := 32
/-- `uint32_t` truncation of the `next` field (`include/mnml/types.h:77`). -/
def u32 (n : Nat) : Nat := n % 4294967296

/-- `CELL_COUNT` (`include/mnml/slab.h:27`). -/
def cellCount (s : Slab) : Nat := s.nPages * pageSize / cellSize

/-- The initialisation loops of `slab_new` (`lib/core/slab.c:72-75`) and `slab_expand`
(`lib/core/slab.c:102-105`): thread cells `lo ≤ i < hi` and terminate the last one. -/
def thread (cells : Nat → RawCell) (lo hi : Nat) : Nat → RawCell := fun i =>
  if lo ≤ i ∧ i < hi then
    { cells i with link := if i = hi - 1 then endMk else u32 (i + 1) }
  else cells i

/-- `slab_new` (`lib/core/slab.c:42-77`). Memory fresh from `mmap` is zero. Simplification: the
`mmap`/`mprotect` calls succeed. -/
def new : Slab :=
  { first := 0, nAlloc := 0, nFree := 0, nPages := 16,
    cells := thread (fun _ => RawCell.zero) 0 (16 * pageSize / cellSize) }

/-- `slab_expand` (`lib/core/slab.c:79-112`); `none` is the `false` return. Simplification: the
`mprotect` call succeeds. -/
def expand (s : Slab) : Option Slab :=
  if s.nPages * 2 * pageSize > slabSize then none
  else some
    { s with
      cells := thread s.cells (cellCount s) (2 * cellCount s)
      first := cellCount s
      nPages := s.nPages * 2 }

/-- `slab_allocate` after the expansion check (`lib/core/slab.c:142-151`). -/
def take (s : Slab) : Nat × Slab :=
  let next := s.first
  (next,
   { s with
     first := (s.cells next).link
     nAlloc := s.nAlloc + 1
     cells := fun i => if i = next then RawCell.zero else s.cells i })

/-- `slab_allocate` (`lib/core/slab.c:127-152`); `none` is `abort()`. -/
def allocate (s : Slab) : Option (Nat × Slab) :=
  if s.first = endMk then
    match expand s with
    | none => none
    | some s' => some (take s')
  else some (take s)

/-- `slab_deallocate` (`lib/core/slab.c:154-167`), on the index computed from the pointer. -/
def deallocate (s : Slab) (n : Nat) : Slab :=
  { s with
    cells := fun i => if i = n then { s.cells n with link := u32 s.first, type := 0 } else s.cells i
    first := n
    nFree := s.nFree + 1 }

/-! ## Histories -/

/-- What a client of the slab can do. -/
inductive Op where
  /-- `slab_allocate` -/
  | alloc
  /-- `slab_deallocate` of a cell it holds -/
  | free (a : Nat)
  /-- arbitrary write into a cell it holds (reference count, type, payload, ...) -/
  | write (a : Nat) (c : RawCell)

/-- A slab together with the cells its client currently holds. -/
structure World where
  slab : Slab
  held : List Nat

/-- One client action; `none` when the client breaks the protocol (touches a cell that it does not
hold) or when the slab aborts. -/
def step (w : World) : Op → Option World
  | .alloc =>
    match allocate w.slab with
    | none => none
    | some (a, s) => some ⟨s, a :: w.held⟩
  | .free a =>
    if a ∈ w.held then some ⟨deallocate w.slab a, w.held.erase a⟩ else none
  | .write a c =>
    if a ∈ w.held then
      some ⟨{ w.slab with cells := fun i => if i = a then c else w.slab.cells i }, w.held⟩
    else none

/-- Worlds reachable from a new slab by any history. -/
inductive Reachable : World → Prop where
  | new : Reachable ⟨new, []⟩
  | step {w w' : World} (op : Op) : Reachable w → step w op = some w' → Reachable w'

/-! ## Invariant -/

/-- `Chain cells first l`: following `link` from `first` visits exactly `l` and ends on `END_MK`. -/
def Chain (cells : Nat → RawCell) : Nat → List Nat → Prop
  | f, [] => f = endMk
  | f, a :: l => f = a ∧ Chain cells (cells a).link l

theorem Chain.congr {c c' : Nat → RawCell} {f : Nat} {l : List Nat}
    (h : Chain c f l) (hc : ∀ a ∈ l, (c' a).link = (c a).link) : Chain c' f l := by
  induction l generalizing f with
  | nil => exact h
  | cons a l ih =>
    refine ⟨h.1, ?_⟩
    rw [hc a (by simp)]
    exact ih h.2 (fun b hb => hc b (by simp [hb]))

theorem chain_thread (c : Nat → RawCell) (lo hi n : Nat) (hn : lo + n = hi) (h0 : 0 < n)
    (hhi : hi < 4294967296) (m : Nat) (hm : m < n) :
    Chain (thread c lo hi) (lo + m) (List.range' (lo + m) (n - m)) := by
  induction k : n - m - 1 generalizing m with
  | zero =>
    have e : n - m = 1 := by omega
    rw [e]
    refine ⟨rfl, ?_⟩
    have : lo ≤ lo + m ∧ lo + m < hi := by omega
    simp only [thread, this, and_self, if_true]
    rw [if_pos (by omega)]
    rfl
  | succ k ih =>
    have e : n - m = (n - (m + 1)) + 1 := by omega
    rw [e, List.range'_succ]
    refine ⟨rfl, ?_⟩
    have h1 : lo ≤ lo + m ∧ lo + m < hi := by omega
    have h2 : ((thread c lo hi) (lo + m)).link = lo + (m + 1) := by
      simp only [thread, h1, and_self, if_true]
      rw [if_neg (by omega)]
      simp only [u32]; omega
    rw [h2]
    have := ih (m + 1) (by omega) (by omega)
    simpa [Nat.add_assoc] using this

/-- The allocator invariant. -/
structure Inv (w : World) (free : List Nat) : Prop where
  chain : Chain w.slab.cells w.slab.first free
  part : (free ++ w.held).Perm (List.range (cellCount w.slab))
  pages : ∃ k, k ≤ 10 ∧ w.slab.nPages = 16 * 2 ^ k
  count : w.slab.nFree + w.held.length = w.slab.nAlloc

theorem pow_le_1024 {k : Nat} (h : k ≤ 10) : 2 ^ k ≤ 1024 :=
  Nat.le_trans (Nat.pow_le_pow_right (by decide) h) (by decide)

theorem Inv.cellCount_eq {w : World} {free : List Nat} (_h : Inv w free) :
    cellCount w.slab = w.slab.nPages * 128 := by
  simp only [cellCount, pageSize, cellSize]; omega

theorem Inv.cellCount_le {w : World} {free : List Nat} (h : Inv w free) :
    cellCount w.slab ≤ 2097152 := by
  obtain ⟨k, hk, e⟩ := h.pages
  have := pow_le_1024 hk
  rw [h.cellCount_eq, e]; omega

theorem Inv.mem_lt {w : World} {free : List Nat} (h : Inv w free) {a : Nat}
    (ha : a ∈ free ++ w.held) : a < cellCount w.slab := by
  have := h.part.subset ha
  simpa using this

theorem Inv.nodup {w : World} {free : List Nat} (h : Inv w free) : (free ++ w.held).Nodup :=
  h.part.nodup_iff.2 List.nodup_range

theorem inv_new : Inv ⟨new, []⟩ (List.range 2048) := by
  refine ⟨?_, ?_, ⟨0, by omega, rfl⟩, rfl⟩
  · have := chain_thread (fun _ => RawCell.zero) 0 2048 2048 rfl (by omega) (by omega) 0 (by omega)
    rw [List.range_eq_range']
    exact this
  · simp [cellCount, new, pageSize, cellSize]

/-- Taking the head of a non-empty free list. -/
theorem inv_take {w : World} {a : Nat} {l : List Nat} (h : Inv w (a :: l)) :
    (take w.slab).1 = a ∧ Inv ⟨(take w.slab).2, a :: w.held⟩ l := by
  have hf : w.slab.first = a := h.chain.1
  have hnd : (a :: (l ++ w.held)).Nodup := h.nodup
  refine ⟨hf, ?_, ?_, h.pages, ?_⟩
  · simp only [take, hf]
    refine Chain.congr h.chain.2 ?_
    intro b hb
    have : b ≠ a := by
      intro e; subst e
      exact (List.nodup_cons.1 hnd).1 (by simp [hb])
    simp [this]
  · have h1 := h.part
    simp only [take, cellCount] at *
    exact List.perm_middle.trans h1
  · have := h.count
    simp only [take, List.length_cons]; omega

theorem expand_spec {w : World} (h : Inv w []) :
    (expand w.slab = none ∧ cellCount w.slab = 2097152) ∨
    ∃ s', expand w.slab = some s' ∧
      Inv ⟨s', w.held⟩ (List.range' (cellCount w.slab) (cellCount w.slab)) ∧
      (∀ a ∈ w.held, s'.cells a = w.slab.cells a) := by
  obtain ⟨k, hk, e⟩ := h.pages
  have hc : cellCount w.slab = 16 * 2 ^ k * 128 := by rw [h.cellCount_eq, e]
  have h2 := pow_le_1024 hk
  have h1 : 1 ≤ 2 ^ k := Nat.one_le_two_pow
  by_cases hx : w.slab.nPages * 2 * pageSize > slabSize
  · left
    refine ⟨by simp [expand, hx], ?_⟩
    simp only [pageSize, slabSize, e] at hx
    by_cases hk' : k ≤ 9
    · have : 2 ^ k ≤ 512 := Nat.le_trans (Nat.pow_le_pow_right (by decide) hk') (by decide)
      omega
    · have : k = 10 := by omega
      subst this; omega
  · right
    refine ⟨_, by rw [expand, if_neg hx], ?_, ?_⟩
    · have hk' : k ≤ 9 := by
        apply Nat.le_of_not_lt; intro hh
        have : k = 10 := by omega
        subst this
        simp only [pageSize, slabSize, e] at hx; omega
      have hcc : ∀ c f, cellCount { w.slab with nPages := w.slab.nPages * 2, cells := c, first := f }
          = 2 * cellCount w.slab := by
        intro c f; simp only [cellCount, pageSize, cellSize]; omega
      refine ⟨?_, ?_, ⟨k + 1, by omega, ?_⟩, h.count⟩
      · have := chain_thread w.slab.cells (cellCount w.slab) (2 * cellCount w.slab)
          (cellCount w.slab) (by omega) (by omega) (by omega) 0 (by omega)
        simpa using this
      · have hp := h.part
        simp only [List.nil_append] at hp
        rw [hcc, Nat.two_mul, List.range_add, List.range'_eq_map_range]
        exact List.perm_append_comm.trans (hp.append_right _)
      · show w.slab.nPages * 2 = _
        rw [e, Nat.pow_succ]; omega
    · intro a ha
      have := h.mem_lt (a := a) (by simpa using ha)
      simp only [thread]
      rw [if_neg (by omega)]

theorem first_ne_end {w : World} {a : Nat} {l : List Nat} (h : Inv w (a :: l)) :
    w.slab.first ≠ endMk := by
  have h1 : w.slab.first = a := h.chain.1
  have h2 := h.mem_lt (a := a) (by simp)
  have h3 := h.cellCount_le
  rw [h1]; simp only [endMk]; omega

/-- Full specification of `allocate` under the invariant. -/
theorem allocate_spec {w : World} {free : List Nat} (h : Inv w free) :
    (allocate w.slab = none ∧ w.held.length = 2097152) ∨
    ∃ a s', allocate w.slab = some (a, s') ∧ a ∉ w.held ∧ a < cellCount s' ∧
      s'.cells a = RawCell.zero ∧ (∀ b ∈ w.held, s'.cells b = w.slab.cells b) ∧
      ∃ free', Inv ⟨s', a :: w.held⟩ free' := by
  cases free with
  | cons a l =>
    right
    have ⟨h1, h2⟩ := inv_take h
    have hnd : (a :: (l ++ w.held)).Nodup := h.nodup
    have hna : a ∉ w.held := fun hm => (List.nodup_cons.1 hnd).1 (by simp [hm])
    refine ⟨a, (take w.slab).2, ?_, hna, ?_, ?_, ?_, l, h2⟩
    · rw [allocate, if_neg (first_ne_end h), ← h1]
    · exact h2.mem_lt (by simp)
    · simp only [take]; rw [if_pos]; exact h.chain.1.symm
    · intro b hb
      have : b ≠ w.slab.first := by rw [h.chain.1]; intro e; subst e; exact hna hb
      simp [take, this]
  | nil =>
    have hf : w.slab.first = endMk := h.chain
    rcases expand_spec h with ⟨h1, h2⟩ | ⟨s', h1, h2, h3⟩
    · left
      refine ⟨by simp [allocate, hf, h1], ?_⟩
      have := h.part.length_eq
      simp only [List.nil_append, List.length_range] at this
      omega
    · right
      have hpos : 0 < cellCount w.slab := by
        obtain ⟨k, hk, e⟩ := h.pages
        have h1 : 1 ≤ 2 ^ k := Nat.one_le_two_pow
        rw [h.cellCount_eq, e]; omega
      obtain ⟨n, hn⟩ : ∃ n, cellCount w.slab = n + 1 := ⟨cellCount w.slab - 1, by omega⟩
      have e : List.range' (cellCount w.slab) (cellCount w.slab)
          = cellCount w.slab :: List.range' (cellCount w.slab + 1) n := by
        conv => lhs; arg 2; rw [hn]
        rw [List.range'_succ]
      rw [e] at h2
      have ⟨h4, h5⟩ := inv_take (w := ⟨s', w.held⟩) h2
      have hna : cellCount w.slab ∉ w.held := by
        intro hm
        have := h.mem_lt (a := cellCount w.slab) (by simpa using hm)
        omega
      refine ⟨cellCount w.slab, (take s').2, ?_, hna, ?_, ?_, ?_, _, h5⟩
      · simp only [allocate, hf, if_true, h1]; rw [← h4]
      · exact h5.mem_lt (by simp)
      · simp only [take]; rw [if_pos]; exact h2.chain.1.symm
      · intro b hb
        have : b ≠ s'.first := by rw [h2.chain.1]; intro e; subst e; exact hna hb
        simp only [take, this, if_false]
        exact h3 b hb

theorem inv_free {w : World} {free : List Nat} (h : Inv w free) {a : Nat} (ha : a ∈ w.held) :
    Inv ⟨deallocate w.slab a, w.held.erase a⟩ (a :: free) := by
  have hna : a ∉ free := by
    intro hm
    exact (List.nodup_append.1 h.nodup).2.2 a hm a ha rfl
  have hfirst : u32 w.slab.first = w.slab.first := by
    have : w.slab.first < 4294967296 := by
      cases free with
      | nil => rw [show w.slab.first = endMk from h.chain]; decide
      | cons b l =>
        rw [h.chain.1]
        have h2 := h.mem_lt (a := b) (by simp)
        have h3 := h.cellCount_le
        omega
    simp only [u32]; omega
  refine ⟨⟨rfl, ?_⟩, ?_, h.pages, ?_⟩
  · simp only [deallocate, if_true, hfirst]
    refine Chain.congr h.chain ?_
    intro b hb
    have : b ≠ a := fun e => hna (e ▸ hb)
    simp [this]
  · have : (a :: free ++ w.held.erase a).Perm (free ++ w.held) := by
      refine List.Perm.trans ?_ ((List.perm_cons_erase ha).symm.append_left free)
      exact List.perm_middle.symm
    exact this.trans h.part
  · have h1 := h.count
    have h2 := List.length_erase_of_mem ha
    have h3 : 0 < w.held.length := List.length_pos_of_mem ha
    simp only [deallocate]
    omega

theorem inv_write {w : World} {free : List Nat} (h : Inv w free) {a : Nat} (ha : a ∈ w.held)
    (c : RawCell) :
    Inv ⟨{ w.slab with cells := fun i => if i = a then c else w.slab.cells i }, w.held⟩ free := by
  have hna : a ∉ free := fun hm => (List.nodup_append.1 h.nodup).2.2 a hm a ha rfl
  refine ⟨?_, h.part, h.pages, h.count⟩
  refine Chain.congr h.chain ?_
  intro b hb
  have : b ≠ a := fun e => hna (e ▸ hb)
  simp [this]

theorem inv_reachable {w : World} (h : Reachable w) : ∃ free, Inv w free := by
  induction h with
  | new => exact ⟨_, inv_new⟩
  | step op _ hs ih =>
    obtain ⟨free, hi⟩ := ih
    cases op with
    | alloc =>
      rcases allocate_spec hi with ⟨h1, _⟩ | ⟨a, s', h1, _, _, _, _, free', h5⟩
      · simp [step, h1] at hs
      · simp only [step, h1, Option.some.injEq] at hs
        subst hs; exact ⟨_, h5⟩
    | free a =>
      simp only [step] at hs
      split at hs
      · next hm => simp only [Option.some.injEq] at hs; subst hs; exact ⟨_, inv_free hi hm⟩
      · cases hs
    | write a c =>
      simp only [step] at hs
      split at hs
      · next hm => simp only [Option.some.injEq] at hs; subst hs; exact ⟨_, inv_write hi hm c⟩
      · cases hs

end Mnml.Slab
