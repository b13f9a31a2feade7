import Verif.Capped
import Verif.Follow
import Verif.PropLeak

/-!
# C75: using released cells again changes nothing

The other claims about the cell model are about runs in which no address is used twice. The interpreter takes its cells from the slab, which hands out a released cell
again at once. This module carries the claims over: a session on the slab has the outcome, the output, the variables and the values of the session in which no
address is used twice. The only difference is that the memory of the slab is bounded; the runs compared with are therefore refused a new cell when `2097152` cells
are in use (`capped`), and are otherwise those of the other claims (`C75_capped`).
-/

namespace Mnml
namespace Heap

theorem good_empty : Good emptyH := by
  refine ⟨[], List.range 2048, Slab.inv_new, fun a => ⟨fun h => (List.not_mem_nil h).elim, fun h => (h rfl).elim⟩⟩

theorem copy_empty (φ : Addr → Addr) : Copy φ emptyH emptyH where
  cells h := by cases h
  inj h := (h rfl).elim
  back h := (h rfl).elim
  next := rfl
  globals := rfl
  out := rfl
  loose := rfl
  loose' := rfl

theorem Copy.withPool {φ : Addr → Addr} {s t : HSt} {p : Slab.Slab} (h : Copy φ s (withPool p t)) : Copy φ s t :=
  ⟨h.cells, h.inj, h.back, h.next, h.globals, h.out, h.loose, h.loose'⟩

/-- `r'` is `r` with other addresses, on a slab that is in order. -/
def Moved {α : Type} (g : (Addr → Addr) → α → α) (r r' : Res (α × HSt)) : Prop :=
  match r with
  | .ok (a, s) => ∃ φ t, r' = .ok (g φ a, t) ∧ Copy φ s t ∧ Good t
  | .ub u => u = .useAfterFree ∨ u = .staleArg ∨ r' = .ub u
  | .abort => r' = .abort
  | .oof => r' = .oof
  | .unsupported => True

theorem moved {α : Type} {g : (Addr → Addr) → α → α} {m : Alloc → HM α} (hr : ∀ φ o, Ren φ o (g φ) (m capped) (m (placed φ o)))
    (hf : ∀ o, Fol (m slabs) (fun φ => m (placed φ o))) : Moved g (m capped emptyH) (m slabs emptyH) := by
  have key : ∀ o, m slabs emptyH = clash o ∨ Moved g (m capped emptyH) (m slabs emptyH) := by
    intro o
    obtain ⟨l, h1, h2⟩ := hf o emptyH good_empty
    have h3 := h2 (fun k => l.getD k 0) Slab.new fun i hi => by
      show l.getD (0 + i) 0 = _
      rw [Nat.zero_add, List.getD_eq_getElem?_getD, List.getElem?_eq_getElem hi]; rfl
    have h4 := hr (fun k => l.getD k 0) o emptyH emptyH (copy_empty _)
    change m (placed (fun k => l.getD k 0) o) emptyH = _ at h3
    rw [h3] at h4
    rcases h4 with e | h4
    · left
      cases o <;> cases hm : m slabs emptyH <;> rw [hm] at e <;> cases e <;> rfl
    · right
      unfold Moved
      cases hc : m capped emptyH with
      | ok p =>
        rw [hc] at h4
        obtain ⟨t, e, c⟩ := h4
        cases hm : m slabs emptyH with
        | ok q =>
          obtain ⟨b, t'⟩ := q
          rw [hm] at e
          change Res.ok (b, Heap.withPool Slab.new t') = _ at e
          injection e with e
          injection e with e1 e2
          subst e1 e2
          exact ⟨_, t', rfl, c.withPool, (h1 _ _ hm).1⟩
        | _ => rw [hm] at e; cases e
      | ub u =>
        rw [hc] at h4
        rcases h4 with e | e | e
        · exact .inl e
        · exact .inr (.inl e)
        · refine .inr (.inr ?_)
          cases hm : m slabs emptyH <;> rw [hm] at e <;> cases e
          rfl
      | abort => rw [hc] at h4; cases hm : m slabs emptyH <;> rw [hm] at h4 <;> first | rfl | cases h4
      | oof => rw [hc] at h4; cases hm : m slabs emptyH <;> rw [hm] at h4 <;> first | rfl | cases h4
      | unsupported => trivial
  rcases key true with e | h
  · rcases key false with e' | h
    · rw [e] at e'; cases e'
    · exact h
  · exact h

theorem moved_session (n : Nat) (ops : List Native) (es : List Val) :
    Moved (fun φ => φ) (@sessionH capped n ops es emptyH) (@sessionH slabs n ops es emptyH) :=
  moved (g := fun φ => φ) (m := fun A => @sessionH A n ops es) (fun _ _ => ren_sessionH) (fun _ => fol_sessionH)

theorem moved_drop (n : Nat) (ops : List Native) (es : List Val) :
    Moved (fun _ u => u) ((@sessionH capped n ops es >>= @X capped) emptyH) ((@sessionH slabs n ops es >>= @X slabs) emptyH) :=
  moved (g := fun _ u => u) (m := fun A => @sessionH A n ops es >>= @X A) (fun _ _ => ren_sessionH.bind fun _ => ren_X)
    (fun _ => fol_sessionH.bind fun _ => fol_X)

/-- **C75**: with a bounded memory, a session is refused a new cell or goes as with an unbounded one. -/
theorem C75_capped (n : Nat) (ops : List Native) (es : List Val) :
    @sessionH capped n ops es emptyH = .abort ∨ @sessionH capped n ops es emptyH = sessionH n ops es emptyH := cpd_sessionH emptyH

/-- **C75**: a session that ends ends on the slab too, with the same memory at other addresses (`Copy`), the same output and the same variables. The cells in use are
those that the slab has handed out. -/
theorem C75_session {n : Nat} {ops : List Native} {es : List Val} {a : Addr} {s : HSt} (h : @sessionH capped n ops es emptyH = .ok (a, s)) :
    ∃ φ t, @sessionH slabs n ops es emptyH = .ok (φ a, t) ∧ Copy φ s t ∧ Good t := by
  have := moved_session n ops es
  rw [h] at this
  exact this

/-- **C75**: a session that is refused a new cell is refused one by the slab; one that is not finished is not finished on the slab. -/
theorem C75_abort {n : Nat} {ops : List Native} {es : List Val} :
    (@sessionH capped n ops es emptyH = .abort → @sessionH slabs n ops es emptyH = .abort) ∧
    (@sessionH capped n ops es emptyH = .oof → @sessionH slabs n ops es emptyH = .oof) := by
  have := moved_session n ops es
  exact ⟨fun h => by rw [h] at this; exact this, fun h => by rw [h] at this; exact this⟩

/-- **C75**: undefined behaviour is the same on the slab. The calls of C04 that pass released cells to a native are left out: what they do depends on what the cells
are used for next. -/
theorem C75_ub {n : Nat} {ops : List Native} {es : List Val} {u : UB} (h : @sessionH capped n ops es emptyH = .ub u) (hu : u ≠ .staleArg) :
    @sessionH slabs n ops es emptyH = .ub u := by
  have := moved_session n ops es
  rw [h] at this
  rcases this with e | e | e
  · subst e
    rcases C75_capped n ops es with e' | e'
    · rw [h] at e'; cases e'
    · rw [h] at e'; exact (C04_session_partial n ops es e'.symm).elim
  · exact (hu e).elim
  · exact e

/-- **C75**: a session that ends, ends on the slab or is refused a new cell. -/
theorem C75_ok {n : Nat} {ops : List Native} {es : List Val} {a : Addr} {s : HSt} (h : sessionH n ops es emptyH = .ok (a, s)) :
    @sessionH slabs n ops es emptyH = .abort ∨ ∃ φ t, @sessionH slabs n ops es emptyH = .ok (φ a, t) ∧ Copy φ s t ∧ Good t := by
  rcases C75_capped n ops es with e | e
  · exact .inl (C75_abort.1 e)
  · exact .inr (C75_session (e.trans h))

theorem Copy.rep {φ : Addr → Addr} {s t : HSt} (hc : Copy φ s t) {a : Addr} {v : Val} (h : Rep s.mem a v) : Rep t.mem (φ a) v := by
  induction h with
  | atom _ hm hv =>
    refine .atom (by simp) (hc.cells hm) ?_
    rename_i c _ _
    unfold Cell.val at hv ⊢
    rw [renC_data]
    cases hd : c.data with
    | pair x y => rw [hd] at hv; cases hv
    | _ => rw [hd] at hv; exact hv
  | @pair a x y c u v _ hm hd _ _ ih1 ih2 =>
    exact .pair (c := renC φ c) (by simp) (hc.cells hm) (by rw [renC_data, hd]; rfl) ih1 ih2

/-- **C75**: what C61 says of accepted programs holds on the slab: unless the memory is full, the session ends with the value, the output and the variables that the
program has on trees. -/
theorem C75_trees {n : Nat} {ops : List Native} {es : List Val} (hp : ∀ e ∈ es, plain e = true) (h : accepted n ops es = true) :
    @sessionH slabs n ops es emptyH = .abort ∨
    ∃ b t v st', @sessionH slabs n ops es emptyH = .ok (b, t) ∧ runTop n es (startSt ops) = .ok (v, st') ∧ Rep t.mem b v ∧ t.out = st'.out ∧
      (∀ k, st'.globals k = none ↔ k ∉ t.globals.map Prod.fst) ∧
      ∀ k d, (k, d) ∈ t.globals → ∃ c x y u, t.mem d = some c ∧ c.data = .pair x y ∧ Rep t.mem y u ∧ st'.globals k = some u := by
  unfold accepted at h
  cases hs : sessionH n ops es strictH with
  | ok p =>
    obtain ⟨r, s'⟩ := p
    obtain ⟨hl, v, st', e, hr, ho, hn, hg⟩ := C61_session hp hs
    rcases C75_ok hl with e1 | ⟨φ, t, e1, c, _⟩
    · exact .inl e1
    · refine .inr ⟨φ r, t, v, st', e1, e, c.rep hr, c.out.trans ho.symm, fun k => ?_, fun k d hd => ?_⟩
      · rw [hn k, c.globals, List.map_map]; exact Iff.rfl
      · rw [c.globals] at hd
        obtain ⟨⟨k', d'⟩, hm, ed⟩ := List.mem_map.1 hd
        cases ed
        obtain ⟨ce, x, y, u, h1, h2, h3, h4⟩ := hg k' d' hm
        exact ⟨_, φ x, φ y, u, c.cells h1, by rw [renC_data, h2]; rfl, c.rep h3, h4⟩
  | _ => rw [hs] at h; cases h

/-- **C75**: on the slab, the difference of the counters of allocations and releases is the number of cells in use, whatever the session. -/
theorem C75_counters {n : Nat} {ops : List Native} {es : List Val} {a : Addr} {s : HSt} (h : sessionH n ops es emptyH = .ok (a, s)) {b : Addr} {t : HSt}
    (h' : @sessionH slabs n ops es emptyH = .ok (b, t)) :
    ∃ held : List Addr, held.Nodup ∧ (∀ x, x ∈ held ↔ t.mem x ≠ none) ∧ t.pool.nAlloc = t.pool.nFree + held.length := by
  rcases C75_ok h with e | ⟨φ, t', e, _, held, free, i, hh⟩
  · rw [h'] at e; cases e
  · rw [h'] at e; cases e
    exact ⟨held, (List.nodup_append.1 i.nodup).2.1, hh, i.count.symm⟩

theorem Copy.reach {φ : Addr → Addr} {s t : HSt} (hc : Copy φ s t) {R : Addr → Prop} {R' : Addr → Prop} (hR : ∀ a, R a → R' (φ a)) {a : Addr}
    (h : Reach s R a) : Reach t R' (φ a) := by
  induction h with
  | root h => exact .root (hR _ h)
  | car _ hm hd ih => exact .car (x := φ _) (y := φ _) ih (hc.cells hm) (by rw [renC_data, hd]; rfl)
  | cdr _ hm hd ih => exact .cdr (x := φ _) (y := φ _) ih (hc.cells hm) (by rw [renC_data, hd]; rfl)

/-- **C75**: what C05 says of accepted programs that abandon no reference holds on the slab: after the session, when its value has been released, the cells that the
slab regards as handed out are those that the variables need. -/
theorem C75_clean {n : Nat} {ops : List Native} {es : List Val} (hp : ∀ e ∈ es, plain e = true) (h : accepted n ops es = true) {s : HSt}
    (run : (sessionH n ops es >>= X) emptyH = .ok ((), s)) (hl : s.leaked = []) :
    (@sessionH slabs n ops es >>= @X slabs) emptyH = .abort ∨
    ∃ (t : HSt) (held : List Addr), (@sessionH slabs n ops es >>= @X slabs) emptyH = .ok ((), t) ∧ held.Nodup ∧ t.pool.nAlloc = t.pool.nFree + held.length ∧
      ∀ x, x ∈ held ↔ t.mem x ≠ none ∧ Reach t (fun b => b ∈ t.globals.map Prod.snd) x := by
  have hm := moved_drop n ops es
  rcases (cpd_sessionH.bind fun _ => cpd_X : Cpd (@sessionH capped n ops es >>= @X capped) (sessionH n ops es >>= X)) emptyH with e | e
  · rw [e] at hm; exact .inl hm
  · rw [e, run] at hm
    obtain ⟨φ, t, e1, c, held, free, i, hh⟩ := hm
    refine .inr ⟨t, held, e1, (List.nodup_append.1 i.nodup).2.1, i.count.symm, fun x => ⟨fun hx => ⟨(hh x).1 hx, ?_⟩, fun hx => (hh x).2 hx.1⟩⟩
    obtain ⟨a, ha, rfl⟩ := c.back ((hh x).1 hx)
    refine c.reach (R := fun b => b ∈ s.globals.map Prod.snd) ?_ (C05_clean hp h run hl ha)
    intro b hb
    rw [c.globals, List.map_map]
    obtain ⟨p, hp, rfl⟩ := List.mem_map.1 hb
    exact List.mem_map.2 ⟨p, hp, rfl⟩

/-- The value of a session on the slab, the number of cells made, the difference of the counters, and the number of cells in use among the first `k`. -/
def slabV (n k : Nat) (ops : List Native) (es : List Val) : Option (Val × Nat × Nat × Nat) :=
  match (@sessionH slabs n ops es >>= viewH n) emptyH with
  | .ok (v, t) => some (v, t.next, t.pool.nAlloc - t.pool.nFree, ((List.range k).filter fun a => (t.mem a).isSome).length)
  | _ => none

/-- A session that ends on the slab is not refused a new cell with a bounded memory. -/
theorem capped_of_slab {n k : Nat} {ops : List Native} {es : List Val} {v : Val × List UInt8} {w : Val × Nat × Nat × Nat} (h : cellsV n ops es = some v)
    (h' : slabV n k ops es = some w) : ∃ a s, @sessionH capped n ops es emptyH = .ok (a, s) := by
  rcases C75_capped n ops es with e | e
  · have e' : (@sessionH slabs n ops es >>= viewH n) emptyH = .abort := by
      show (@sessionH slabs n ops es emptyH >>= fun p => viewH n p.1 p.2) = _
      rw [C75_abort.1 e]; rfl
    unfold slabV at h'
    rw [e'] at h'
    cases h'
  · rw [e]
    unfold cellsV at h
    have e' : (sessionH n ops es >>= viewH n) emptyH = (sessionH n ops es emptyH >>= fun p => viewH n p.1 p.2) := rfl
    rw [e'] at h
    cases hs : sessionH n ops es emptyH with
    | ok p => exact ⟨p.1, p.2, rfl⟩
    | _ => rw [hs] at h; cases h

/-- A variable gets a value and then another one. -/
def progAgain : List Val := [L [S "setq", S "x", N 1], L [S "setq", S "x", N 2]]

set_option maxRecDepth 100000 in
set_option cbv.maxSteps 10000000 in
/-- `progAgain` makes 35 cells, and 10 of them are in use in the end; the slab has placed them among its first 20 cells. -/
theorem slab_progAgain : slabV 30 20 [.setq] progAgain = some (.num 2, 35, 10, 10) := by decide_cbv

set_option maxRecDepth 100000 in
set_option cbv.maxSteps 10000000 in
/-- The hypothesis of `C75_session` holds for it. -/
example : ∃ a s, @sessionH capped 30 [.setq] progAgain emptyH = .ok (a, s) :=
  capped_of_slab (v := (.num 2, [])) (by decide_cbv) slab_progAgain

set_option maxRecDepth 100000 in
set_option cbv.maxSteps 10000000 in
/-- So do those of `C75_trees` and `C75_clean`. -/
example : (∀ e ∈ progAgain, plain e = true) ∧ accepted 30 [.setq] progAgain = true ∧ tidy 30 [.setq] progAgain = true :=
  ⟨by decide, by decide_cbv, by decide_cbv⟩

end Heap
end Mnml
