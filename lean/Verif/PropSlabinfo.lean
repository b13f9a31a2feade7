import Verif.PropReuse

/-!
# `slabinfo` (C77)
-/

namespace Mnml
namespace Heap

section
variable [Alloc]

/-- The cast of a `size_t` to `int64_t`. -/
def counter (u : Nat) : Int :=
  if u % 18446744073709551616 < 9223372036854775808 then (u % 18446744073709551616 : Nat) else ((u % 18446744073709551616 : Nat) : Int) - 18446744073709551616

/-- `lisp_make_number` of a counter of the slab; the counter is read before the cell is made. -/
def counterH (f : Slab.Slab → Nat) : HM Addr := fun s => alloc (.num (counter (f s.pool))) s

/-- `slabinfo` (`lib/mnml/sys/slabinfo.c:7-13`). The argument is not used. -/
def slabinfoH : HM Addr := do
  let car ← counterH (·.nAlloc)
  let cdr ← counterH (·.nFree)
  alloc (.pair car cdr)

end

/-- A new cell on the slab. -/
theorem alloc_slab {t : HSt} (g : Good t) (d : Data) :
    @alloc slabs d t = .abort ∨ ∃ a u, @alloc slabs d t = .ok (a, u) ∧ t.mem a = none ∧ u.mem = upd t.mem a (some ⟨1, false, none, d⟩) ∧ Good u ∧
      u.pool.nFree = t.pool.nFree ∧ u.globals = t.globals := by
  obtain ⟨held, free, i, hh⟩ := g
  rcases Slab.allocate_spec i with ⟨e, -⟩ | ⟨a, s', e, n, -, -, -, free', i'⟩
  · left; simp only [alloc, Alloc.place] ; simp only at e; rw [e]; rfl
  · right
    simp only at e n
    have hn : t.mem a = none := Classical.byContradiction fun c => n ((hh a).2 c)
    have hf : s'.nFree = t.pool.nFree := by
      unfold Slab.allocate at e
      split at e
      · split at e
        · cases e
        · next q h =>
          cases e
          unfold Slab.expand at h
          split at h
          · cases h
          · cases h; rfl
      · cases e; rfl
    refine ⟨a, { t with mem := upd t.mem a (some ⟨1, false, none, d⟩), next := t.next + 1, pool := s' }, ?_, hn, rfl, ⟨a :: held, free', i', ?_⟩, hf, rfl⟩
    · simp only [alloc, Alloc.place]; rw [e]; rfl
    · intro b
      by_cases c : b = a
      · simp [c, upd]
      · simp [c, upd, hh b]

/-- **C77.** After any session on the slab, `slabinfo` gives a pair of numbers whose difference is the number of the cells that were in use (modulo 2^64, and exactly if fewer than
2^63 cells have been made), unless there is no memory for its three cells. It changes no cell that was in use. -/
theorem C77_slabinfo {n : Nat} {ops : List Native} {es : List Val} {a : Addr} {s : HSt} (h : sessionH n ops es emptyH = .ok (a, s)) {b : Addr} {t : HSt}
    (h' : @sessionH slabs n ops es emptyH = .ok (b, t)) :
    @slabinfoH slabs t = .abort ∨
    ∃ (r : Addr) (u : HSt) (held : List Addr) (x y : Int), @slabinfoH slabs t = .ok (r, u) ∧ Rep u.mem r (.cons (.num x) (.num y)) ∧
      held.Nodup ∧ (∀ c, c ∈ held ↔ t.mem c ≠ none) ∧ (∀ c ∈ held, u.mem c = t.mem c) ∧ u.globals = t.globals ∧
      (x - y - held.length) % 2 ^ 64 = 0 ∧ (t.pool.nAlloc < 2 ^ 63 → x - y = held.length) := by
  have g : Good t := by
    rcases C75_ok h with e | ⟨φ, t', e, _, g⟩
    · rw [h'] at e; cases e
    · rw [h'] at e; cases e; exact g
  obtain ⟨held, hd, hm, hc⟩ := C75_counters h h'
  have step : @slabinfoH slabs t = (@alloc slabs (.num (counter t.pool.nAlloc)) t >>= fun p =>
      @alloc slabs (.num (counter p.2.pool.nFree)) p.2 >>= fun q => @alloc slabs (.pair p.1 q.1) q.2) := rfl
  rcases alloc_slab g (.num (counter t.pool.nAlloc)) with e1 | ⟨a1, u1, e1, f1, m1, g1, n1, l1⟩
  · left; rw [step, e1]; rfl
  rcases alloc_slab g1 (.num (counter u1.pool.nFree)) with e2 | ⟨a2, u2, e2, f2, m2, g2, n2, l2⟩
  · left; rw [step, e1]; show (@alloc slabs _ u1 >>= _) = _; rw [e2]; rfl
  rcases alloc_slab g2 (.pair a1 a2) with e3 | ⟨a3, u3, e3, f3, m3, g3, n3, l3⟩
  · left; rw [step, e1]; show (@alloc slabs _ u1 >>= _) = _; rw [e2]; exact e3
  right
  have k12 : a1 ≠ a2 := by rintro rfl; rw [m1] at f2; simp [upd] at f2
  have k13 : a1 ≠ a3 := by
    rintro rfl; rw [m2, m1] at f3
    simp only [upd, if_neg k12, if_true] at f3
    cases f3
  have k23 : a2 ≠ a3 := by rintro rfl; rw [m2] at f3; simp [upd] at f3
  refine ⟨a3, u3, held, counter t.pool.nAlloc, counter t.pool.nFree, ?_, ?_, hd, hm, ?_, by rw [l3, l2, l1], ?_, ?_⟩
  · rw [step, e1]; show (@alloc slabs _ u1 >>= _) = _; rw [e2]; exact e3
  · refine .pair (c := ⟨1, false, none, .pair a1 a2⟩) (by simp) (by rw [m3]; simp [upd]) rfl ?_ ?_
    · refine .atom (c := ⟨1, false, none, .num (counter t.pool.nAlloc)⟩) (by simp) ?_ rfl
      rw [m3, m2, m1]; simp [upd, k12, k13]
    · refine .atom (c := ⟨1, false, none, .num (counter u1.pool.nFree)⟩) (by simp) ?_ (by rw [n1]; rfl)
      rw [m3, m2]; simp [upd, k23]
  · intro c hc
    have hne := (hm c).1 hc
    have c1 : c ≠ a1 := fun e => hne (e ▸ f1)
    have c2 : c ≠ a2 := by rintro rfl; rw [m1] at f2; simp only [upd, if_neg c1] at f2; exact hne f2
    have c3 : c ≠ a3 := by rintro rfl; rw [m2, m1] at f3; simp only [upd, if_neg c1, if_neg c2] at f3; exact hne f3
    rw [m3, m2, m1]
    simp [upd, c1, c2, c3]
  · simp only [counter]
    split <;> split <;> omega
  · intro hl
    simp only [counter]
    rw [if_pos (by omega), if_pos (by omega)]
    omega

/-- A session that ends on the slab ends where no address is used twice. -/
theorem both_of_slab {n k : Nat} {ops : List Native} {es : List Val} {v : Val × List UInt8} {w : Val × Nat × Nat × Nat} (h : cellsV n ops es = some v)
    (h' : slabV n k ops es = some w) : ∃ a s b t, sessionH n ops es emptyH = .ok (a, s) ∧ @sessionH slabs n ops es emptyH = .ok (b, t) := by
  obtain ⟨a, s, e⟩ := capped_of_slab h h'
  obtain ⟨φ, t, c, -, -⟩ := C75_session e
  rcases C75_capped n ops es with q | q
  · rw [e] at q; cases q
  · exact ⟨a, s, φ a, t, q.symm.trans e, c⟩

set_option maxRecDepth 100000 in
set_option cbv.maxSteps 10000000 in
/-- The hypotheses hold for `progAgain` of C75. -/
example : ∃ a s b t, sessionH 30 [.setq] progAgain emptyH = .ok (a, s) ∧ @sessionH slabs 30 [.setq] progAgain emptyH = .ok (b, t) :=
  both_of_slab (v := (.num 2, [])) (by decide_cbv) slab_progAgain

set_option maxRecDepth 100000 in
set_option cbv.maxSteps 10000000 in
/-- After `progAgain`, which leaves 10 cells in use, `slabinfo` gives `(35 . 25)`. -/
example : (match (@sessionH slabs 30 [.setq] progAgain >>= fun _ => @slabinfoH slabs >>= fun a => viewH 30 a) emptyH with
    | .ok (v, _) => some v
    | _ => none) = some (.cons (.num 35) (.num 25)) := by decide_cbv

end Heap
end Mnml
