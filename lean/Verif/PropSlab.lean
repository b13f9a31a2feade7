import Verif.Slab

/-!
# C01, C02: properties of the slab allocator

The statements quantify over every history of client actions (`Slab.Reachable`), of any length.
-/

namespace Mnml.Slab

/-- **C01.** Whatever happened before, a successful allocation returns a cell that the client does
not already hold, that lies in the committed part of the slab, that is zeroed, and it leaves the
contents of every held cell untouched. -/
theorem C01_alloc_fresh {w : World} (hr : Reachable w) {a : Nat} {s' : Slab}
    (ha : allocate w.slab = some (a, s')) :
    a ∉ w.held ∧ a < cellCount s' ∧ s'.cells a = RawCell.zero ∧
      ∀ b ∈ w.held, s'.cells b = w.slab.cells b := by
  obtain ⟨free, hi⟩ := inv_reachable hr
  rcases allocate_spec hi with ⟨h1, _⟩ | ⟨a', s'', h1, h2, h3, h4, h5, _⟩
  · rw [h1] at ha; cases ha
  · rw [h1] at ha; cases ha; exact ⟨h2, h3, h4, h5⟩

/-- **C01.** The cells held at the same time are pairwise distinct, along every history. -/
theorem C01_held_distinct {w : World} (hr : Reachable w) : w.held.Nodup := by
  obtain ⟨free, hi⟩ := inv_reachable hr
  exact (List.nodup_append.1 hi.nodup).2.1

/-- **C01.** Releasing a held cell never disturbs the contents of the other held cells. -/
theorem C01_free_isolated {w : World} (_hr : Reachable w) {a b : Nat} (_ha : a ∈ w.held)
    (hne : b ≠ a) : (deallocate w.slab a).cells b = w.slab.cells b := by
  simp [deallocate, hne]

/-- **C02.** The cells held are exactly accounted for by the two counters, all lie within the slab,
and there are never more than 2^21 of them. -/
theorem C02_accounting {w : World} (hr : Reachable w) :
    w.slab.nAlloc = w.slab.nFree + w.held.length ∧
    (∀ a ∈ w.held, a * cellSize + cellSize ≤ slabSize) ∧ w.held.length ≤ 2 ^ 21 := by
  obtain ⟨free, hi⟩ := inv_reachable hr
  have hlen := hi.part.length_eq
  have hc := hi.cellCount_le
  simp only [List.length_append, List.length_range] at hlen
  refine ⟨hi.count.symm, ?_, by omega⟩
  intro a ha
  have := hi.mem_lt (a := a) (by simp [ha])
  simp only [cellSize, slabSize]; omega

/-- **C02.** The process aborts for lack of memory exactly when 2^21 cells are held. -/
theorem C02_abort_iff_full {w : World} (hr : Reachable w) :
    allocate w.slab = none ↔ w.held.length = 2 ^ 21 := by
  obtain ⟨free, hi⟩ := inv_reachable hr
  rcases allocate_spec hi with ⟨h1, h2⟩ | ⟨a', s'', h1, h2, h3, h4, h5, free', h6⟩
  · simp [h1, h2]
  · simp only [h1]
    constructor
    · intro h; cases h
    · intro h
      have hlen := h6.part.length_eq
      have hc := h6.cellCount_le
      dsimp only at hlen hc
      rw [List.length_append, List.length_cons, List.length_range] at hlen
      omega

/-- **C02.** A released cell is available again: it is the next one to be handed out. -/
theorem C02_reuse {w : World} (hr : Reachable w) {a : Nat} (ha : a ∈ w.held) :
    ∃ s', allocate (deallocate w.slab a) = some (a, s') := by
  obtain ⟨free, hi⟩ := inv_reachable hr
  have h1 := inv_free hi ha
  refine ⟨(take (deallocate w.slab a)).2, ?_⟩
  have e : (take (deallocate w.slab a)).1 = a := (inv_take h1).1
  have h2 := first_ne_end h1
  rw [allocate, if_neg h2]
  exact congrArg some (Prod.ext e rfl)

/-- Non-vacuity: a concrete reachable world with two allocations and one release. -/
example : ∃ w, Reachable w ∧ w.held = [1] ∧ w.slab.nAlloc = 2 ∧ w.slab.nFree = 1 :=
  ⟨_, .step (.free 0) (.step .alloc (.step .alloc .new rfl) rfl) rfl, rfl, rfl, rfl⟩

end Mnml.Slab
