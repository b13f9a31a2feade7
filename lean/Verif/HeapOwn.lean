import Verif.HeapSpec

/-!
# The binding of the argument of an ordinary native call belongs to that call

`<-`, `let` and the other natives with one argument keep that argument in a local variable without owning it
(`lib/mnml/std/set.c:14`, `lib/mnml/std/let.c:46`). They are safe because the list of bindings that `lisp_eval_args` makes for
an ordinary native (`lib/core/eval.c:14-70`, `lib/core/eval.c:131-136`) is referred to by nothing else: `ownH` then answers
`useAfterFree`, which is the outcome that `C04_eval_partial` excludes.
-/

namespace Mnml
namespace Heap

theorem alloc_inv {d : Data} {s s' : HSt} {r : Addr} (e : alloc d s = .ok (r, s')) :
    r = s.next ∧ s' = { s with mem := upd s.mem s.next (some ⟨1, false, none, d⟩), next := s.next + 1 } := by
  cases e; exact ⟨rfl, rfl⟩

theorem free_inv {a : Addr} {s s' : HSt} {u : Unit} (e : free a s = .ok (u, s')) :
    s' = { s with mem := upd s.mem a none } := by
  unfold free at e
  split at e
  · cases e; rfl
  · cases e

/-- Releasing an atom changes no other cell. -/
theorem X_atom_inv {a : Addr} {s s' : HSt} {u : Unit} {c : Cell} (hc : s.mem a = some c) (hd : c.data.isPair = false)
    (e : X a s = .ok (u, s')) : ∀ b, b ≠ a → s'.mem b = s.mem b := by
  intro b hb
  unfold X release at e
  replace e := HM.ok_inv e; obtain ⟨c1, s1, e1, e⟩ := e
  obtain ⟨rfl, hc1⟩ := cell_inv e1
  rw [hc] at hc1; cases hc1
  split at e
  · cases e
  · replace e := HM.ok_inv e; obtain ⟨_, s2, e2, e⟩ := e
    obtain ⟨c2, _, rfl⟩ := modify_inv e2
    split at e
    · cases hdd : c.data with
      | pair x y => rw [hdd] at hd; cases hd
      | _ =>
        rw [hdd] at e
        rw [free_inv e]
        show upd (upd s1.mem a _) a none b = _
        rw [upd_ne hb, upd_ne hb]
    · cases e
      exact upd_ne hb

/-- Releasing the only reference to a pair of cells that have another one. -/
theorem X_pair_inv {a x y : Addr} {s s' : HSt} {u : Unit} {c cx cy : Cell} (hc : s.mem a = some c) (hr : c.refs = 1)
    (hd : c.data = .pair x y) (hx : s.mem x = some cx) (rx : cx.refs = 2) (hy : s.mem y = some cy) (ry : cy.refs = 2)
    (xa : x ≠ a) (ya : y ≠ a) (xy : y ≠ x) (e : X a s = .ok (u, s')) : s'.mem x = some { cx with refs := 1 } ∧
      ∀ b, b ≠ a → b ≠ x → b ≠ y → s'.mem b = s.mem b := by
  unfold X release at e
  replace e := HM.ok_inv e; obtain ⟨c1, s1, e1, e⟩ := e
  obtain ⟨rfl, hc1⟩ := cell_inv e1
  rw [hc] at hc1; cases hc1
  rw [if_neg (by omega)] at e
  replace e := HM.ok_inv e; obtain ⟨_, s2, e2, e⟩ := e
  obtain ⟨c2, _, rfl⟩ := modify_inv e2
  rw [if_pos hr, hd] at e
  have hn : ∃ m, s1.next = m + 1 ∨ s1.next = 0 := ⟨s1.next - 1, by omega⟩
  obtain ⟨m, hm⟩ := hn
  rcases hm with hm | hm
  · rw [hm] at e
    replace e := HM.ok_inv e; obtain ⟨_, s3, e3, e⟩ := e
    rw [release_many (c := cx) (by show upd s1.mem a _ x = _; rw [upd_ne xa]; exact hx) (by omega)] at e3
    cases e3
    replace e := HM.ok_inv e; obtain ⟨_, s4, e4, e⟩ := e
    rw [release_many (c := cy) (by show upd (upd s1.mem a _) x _ y = _; rw [upd_ne xy, upd_ne ya]; exact hy) (by omega)] at e4
    cases e4
    rw [free_inv e]
    constructor
    · show upd (upd (upd (upd s1.mem a _) x _) y _) a none x = _
      rw [upd_ne xa, upd_ne (fun q => xy q.symm), upd_self, rx]
    · intro b ba bx by_
      show upd (upd (upd (upd s1.mem a _) x _) y _) a none b = _
      rw [upd_ne ba, upd_ne by_, upd_ne bx, upd_ne ba]
  · rw [hm] at e
    replace e := HM.ok_inv e; obtain ⟨_, s3, e3, e⟩ := e
    cases e3

theorem pairOf_at {a x y : Addr} {c : Cell} {p : Addr × Addr} {s s' : HSt} (h : s.mem a = some c) (hd : c.data = .pair x y)
    (e : pairOf a s = .ok (p, s')) : p = (x, y) ∧ s' = s := by
  obtain ⟨rfl, c', hc, hcd⟩ := pairOf_inv e
  rw [h] at hc; cases hc
  rw [hd] at hcd
  obtain ⟨p, q⟩ := p
  injection hcd with h1 h2
  exact ⟨by rw [h1, h2], rfl⟩

theorem lastPair_one {n : Nat} {a x y p : Addr} {c cy : Cell} {s s' : HSt} (h : s.mem a = some c) (hd : c.data = .pair x y)
    (hy : s.mem y = some cy) (hn : cy.data = .nil) (e : lastPair n a s = .ok (p, s')) : p = a ∧ s' = s := by
  cases n with
  | zero => cases e
  | succ n =>
    unfold lastPair at e
    replace e := HM.ok_inv e; obtain ⟨q, s1, e1, e⟩ := e
    obtain ⟨rfl, rfl⟩ := pairOf_at h hd e1
    replace e := HM.ok_inv e; obtain ⟨d, s2, e2, e⟩ := e
    obtain ⟨rfl, c', hc, rfl⟩ := dataOf_inv e2
    rw [hy] at hc; cases hc
    rw [hn] at e
    cases e
    exact ⟨rfl, rfl⟩

theorem own_rest {n : Nat} {s s' : HSt} {N closure args vals dscl : Addr} {cd : Cell} {u : UB}
    (lc : closure < N) (ld : dscl < N) (hd : s.mem dscl = some cd) (hn : cd.data = .nil)
    (m0 : s.mem N = some ⟨1, false, none, .nil⟩) (m1 : s.mem (N + 1) = some ⟨1, false, none, .pair args vals⟩)
    (m2 : s.mem (N + 2) = some ⟨1, false, none, .pair (N + 1) N⟩) (m3 : s.mem (N + 3) = some ⟨1, false, none, .nil⟩)
    (m4 : s.mem (N + 4) = some ⟨1, false, none, .pair (N + 2) (N + 3)⟩)
    (run : (do
      let bscl ← carH (N + 4)
      let _ ← cdrH (N + 4)
      X (N + 4)
      let clos ← nativeClosH n closure bscl dscl
      ownH clos) s = .ok (u, s')) : u = .useAfterFree := by
  -- the list of bindings is taken out of the result of `lisp_eval_args`
  replace run := HM.ok_inv run; obtain ⟨bscl, s1, e1, run⟩ := run
  unfold carH at e1
  replace e1 := HM.ok_inv e1; obtain ⟨d, s0, e0, e1⟩ := e1
  obtain ⟨rfl, c, hc, rfl⟩ := dataOf_inv e0
  rw [m4] at hc; cases hc
  replace e1 := HM.ok_inv e1; obtain ⟨_, s2, e2, e1⟩ := e1
  obtain ⟨c, hc, rfl⟩ := modify_inv e2
  rw [m2] at hc; cases hc
  cases e1
  replace run := HM.ok_inv run; obtain ⟨narg, s1, e1, run⟩ := run
  unfold cdrH at e1
  replace e1 := HM.ok_inv e1; obtain ⟨d, s3, e3, e1⟩ := e1
  obtain ⟨rfl, c, hc, rfl⟩ := dataOf_inv e3
  change upd _ _ _ _ = some _ at hc
  rw [upd_ne (by omega), m4] at hc; cases hc
  replace e1 := HM.ok_inv e1; obtain ⟨_, s2, e2, e1⟩ := e1
  obtain ⟨c, hc, rfl⟩ := modify_inv e2
  change upd _ _ _ _ = some _ at hc
  rw [upd_ne (by omega), m3] at hc; cases hc
  cases e1
  replace run := HM.ok_inv run; obtain ⟨_, s4, e4, run⟩ := run
  obtain ⟨h2, ho⟩ := X_pair_inv (x := N + 2) (y := N + 3) (cx := ⟨2, false, none, .pair (N + 1) N⟩) (cy := ⟨2, false, none, .nil⟩)
    (c := ⟨1, false, none, .pair (N + 2) (N + 3)⟩)
    (by show upd (upd s0.mem _ _) _ _ _ = _; rw [upd_ne (by omega), upd_ne (by omega)]; exact m4) rfl rfl
    (by show upd (upd s0.mem _ _) _ _ _ = _; rw [upd_ne (by omega), upd_self]) rfl
    (by show upd (upd s0.mem _ _) _ _ _ = _; rw [upd_self]) rfl (by omega) (by omega) (by omega) e4
  have keep : ∀ b, b < N + 2 → s4.mem b = s0.mem b := by
    intro b hb
    rw [ho b (by omega) (by omega) (by omega)]
    show upd (upd s0.mem _ _) _ _ _ = _
    rw [upd_ne (by omega), upd_ne (by omega)]
  have k0 := (keep N (by omega)).trans m0
  have k1 := (keep (N + 1) (by omega)).trans m1
  have kd := (keep dscl (by omega)).trans hd
  -- the environment is appended
  replace run := HM.ok_inv run; obtain ⟨clos, s5, e5, run⟩ := run
  unfold nativeClosH at e5
  replace e5 := HM.ok_inv e5; obtain ⟨d, s6, e6, e5⟩ := e5
  obtain ⟨rfl, c, hc, rfl⟩ := dataOf_inv e6
  rw [kd] at hc; cases hc
  rw [hn] at e5
  replace e5 := HM.ok_inv e5; obtain ⟨_, s7, e7, e5⟩ := e5
  obtain ⟨cc, hcc, rfl⟩ := modify_inv e7
  have up' : ∀ b, b ≠ closure → (upd s6.mem closure (some { cc with refs := cc.refs + 1 })) b = s6.mem b := fun b hb => upd_ne hb
  replace e5 := HM.ok_inv e5; obtain ⟨cl, s8, e8, e5⟩ := e5
  unfold concH at e8
  replace e8 := HM.ok_inv e8; obtain ⟨d, s9, e9, e8⟩ := e8
  obtain ⟨rfl, c, hc, rfl⟩ := dataOf_inv e9
  change upd _ _ _ _ = some _ at hc
  rw [up' _ (by omega), h2] at hc; cases hc
  replace e8 := HM.ok_inv e8; obtain ⟨p, s9, e9, e8⟩ := e8
  obtain ⟨rfl, rfl⟩ := lastPair_one (c := ⟨1, false, none, .pair (N + 1) N⟩) (cy := ⟨1, false, none, .nil⟩)
    ((up' _ (by omega)).trans h2) rfl ((up' _ (by omega)).trans k0) rfl e9
  replace e8 := HM.ok_inv e8; obtain ⟨q, s10, e10, e8⟩ := e8
  obtain ⟨rfl, rfl⟩ := pairOf_at (c := ⟨1, false, none, .pair (N + 1) N⟩) ((up' _ (by omega)).trans h2) rfl e10
  replace e8 := HM.ok_inv e8; obtain ⟨_, s11, e11, e8⟩ := e8
  have o11 := X_atom_inv (c := ⟨1, false, none, .nil⟩) (by show upd _ _ _ _ = _; rw [up' _ (by omega)]; exact k0) rfl e11
  have q1 : s11.mem (N + 1) = some ⟨1, false, none, .pair args vals⟩ := by
    rw [o11 _ (by omega)]
    exact (up' _ (by omega)).trans k1
  have q2 : s11.mem (N + 2) = some ⟨1, false, none, .pair (N + 1) N⟩ := by
    rw [o11 _ (by omega)]
    exact (up' _ (by omega)).trans h2
  have qd : ∃ c, s11.mem dscl = some c ∧ c.data = .nil := by
    rw [o11 _ (by omega)]
    show ∃ c, upd _ _ _ _ = some c ∧ _
    by_cases e : dscl = closure
    · subst e
      rw [hcc] at kd; cases kd
      exact ⟨_, upd_self _ _ _, hn⟩
    · exact ⟨cd, by rw [up' _ e]; exact kd, hn⟩
  replace e8 := HM.ok_inv e8; obtain ⟨q, s12, e12, e8⟩ := e8
  obtain ⟨rfl, rfl⟩ := pairOf_at q2 rfl e12
  replace e8 := HM.ok_inv e8; obtain ⟨_, s13, e13, e8⟩ := e8
  obtain ⟨c, hc, rfl⟩ := setData_inv e13
  rw [q2] at hc; cases hc
  cases e8
  -- the list of the bound arguments is released
  obtain ⟨cq, hq, hqd⟩ := qd
  replace e5 := HM.ok_inv e5; obtain ⟨_, s14, e14, e5⟩ := e5
  have o14 := X_atom_inv (c := cq) (by show upd _ _ _ _ = _; rw [upd_ne (by omega)]; exact hq) (by rw [hqd]; rfl) e14
  cases e5
  have f1 : s5.mem (N + 1) = some ⟨1, false, none, .pair args vals⟩ := by
    rw [o14 _ (by omega)]
    show upd _ _ _ _ = _
    rw [upd_ne (by omega)]
    exact q1
  have f2 : s5.mem (N + 2) = some ⟨1, false, none, .pair (N + 1) closure⟩ := by
    rw [o14 _ (by omega)]
    exact upd_self _ _ _
  unfold ownH at run
  replace run := HM.ok_inv run; obtain ⟨c1, s15, e15, run⟩ := run
  obtain ⟨rfl, hc1⟩ := cell_inv e15
  rw [f2] at hc1; cases hc1
  replace run := HM.ok_inv run; obtain ⟨q, s16, e16, run⟩ := run
  obtain ⟨rfl, rfl⟩ := pairOf_at f2 rfl e16
  replace run := HM.ok_inv run; obtain ⟨c2, s17, e17, run⟩ := run
  obtain ⟨rfl, hc2⟩ := cell_inv e17
  rw [f1] at hc2; cases hc2
  cases run
  rfl

theorem upd_five (m : Addr → Option Cell) (N : Addr) (v0 v1 v2 v3 v4 : Option Cell) :
    let M := upd (upd (upd (upd (upd m N v0) (N + 1) v1) (N + 2) v2) (N + 3) v3) (N + 4) v4
    (∀ b, b < N → M b = m b) ∧ M N = v0 ∧ M (N + 1) = v1 ∧ M (N + 2) = v2 ∧ M (N + 3) = v3 ∧ M (N + 4) = v4 := by
  intro M
  refine ⟨fun b hb => ?_, ?_, ?_, ?_, ?_, ?_⟩
  all_goals
    show upd (upd (upd (upd (upd m _ _) _ _) _ _) _ _) _ _ _ = _
    repeat first | rw [upd_self] | rw [upd_ne (by omega)]

theorem own_call {ev : HEv} {n : Nat} {s s' : HSt} {T : Addr → Nat} {closure args vals dscl : Addr} {ca cd : Cell} {sy : Sym}
    {u : UB} (h : Inv s T) (t : ∀ b, ones [closure, args, vals, dscl] b ≤ T b)
    (ha : s.mem args = some ca) (hs : ca.data = .sym sy) (hd : s.mem dscl = some cd) (hn : cd.data = .nil)
    (run : (do
      let nl ← mkNil
      let bind ← evalArgsH ev n closure nl args vals
      let bscl ← carH bind
      let _ ← cdrH bind
      X bind
      let clos ← nativeClosH n closure bscl dscl
      ownH clos) s = .ok (u, s')) : u = .useAfterFree := by
  have lac := (h.live (a := closure) (by tok)).lt h
  have laa := h.lt ha
  have lad := h.lt hd
  replace run := HM.ok_inv run; obtain ⟨nl, s1, e1, run⟩ := run
  obtain ⟨rfl, rfl⟩ := alloc_inv e1
  replace run := HM.ok_inv run; obtain ⟨bind, s5, e5, run⟩ := run
  cases n with
  | zero => cases e5
  | succ n =>
  unfold evalArgsH at e5
  have am : ∀ b, b < s.next → upd s.mem s.next (some ⟨1, false, none, .nil⟩) b = s.mem b := fun b hb =>
    upd_ne (by omega)
  replace e5 := HM.ok_inv e5; obtain ⟨d, s2, e2, e5⟩ := e5
  obtain ⟨rfl, c2, hc2, rfl⟩ := dataOf_inv e2
  change upd s.mem s.next _ args = _ at hc2
  rw [am args laa, ha] at hc2; cases hc2
  rw [hs] at e5
  replace e5 := HM.ok_inv e5; obtain ⟨head, s3, e3, e5⟩ := e5
  cases n with
  | zero => cases e3
  | succ n =>
  unfold bindH at e3
  replace e3 := HM.ok_inv e3; obtain ⟨d, s2, e2, e3⟩ := e3
  obtain ⟨rfl, c2, hc2, rfl⟩ := dataOf_inv e2
  change upd s.mem s.next _ args = _ at hc2
  rw [am args laa, ha] at hc2; cases hc2
  rw [hs] at e3
  replace e3 := HM.ok_inv e3; obtain ⟨kv, s2, e2, e3⟩ := e3
  obtain ⟨rfl, rfl⟩ := alloc_inv e2
  obtain ⟨rfl, rfl⟩ := alloc_inv e3
  replace e5 := HM.ok_inv e5; obtain ⟨nl2, s4, e4, e5⟩ := e5
  obtain ⟨rfl, rfl⟩ := alloc_inv e4
  obtain ⟨rfl, rfl⟩ := alloc_inv e5
  obtain ⟨f, f0, f1, f2, f3, f4⟩ := upd_five s.mem s.next (some ⟨1, false, none, .nil⟩) (some ⟨1, false, none, .pair args vals⟩)
    (some ⟨1, false, none, .pair (s.next + 1) s.next⟩) (some ⟨1, false, none, .nil⟩)
    (some ⟨1, false, none, .pair (s.next + 2) (s.next + 3)⟩)
  exact own_rest (N := s.next) (args := args) (vals := vals) lac lad (cd := cd) ((f _ lad).trans hd) hn f0 f1 f2 f3 f4 run
end Heap
end Mnml
