import Lean
import Verif.HeapEval

/-!
# Ownership and reference counts

The invariant of the cell level model. `T a` is the number of references to the cell `a` that are owned by
the code that is running (its local variables). The reference count of a live cell is exactly
the number of pairs' fields that point to it, plus the owned references, plus those of the global table and those that have been abandoned.

`O` is a set of *open* cells: their content does not count, it is part of the owned references
instead. Cells are opened to overwrite their content and while they are being released.
-/

namespace Mnml
namespace Heap

/-! ## Sums -/

/-- Sum of `f` below `n`. -/
def sumTo (f : Nat → Nat) : Nat → Nat
  | 0 => 0
  | n + 1 => sumTo f n + f n

theorem sumTo_congr {f g : Nat → Nat} {n : Nat} (h : ∀ b, b < n → f b = g b) :
    sumTo f n = sumTo g n := by
  induction n with
  | zero => rfl
  | succ n ih =>
    rw [sumTo, sumTo, ih (fun b hb => h b (by omega)), h n (by omega)]

theorem sumTo_le {f g : Nat → Nat} {n : Nat} (h : ∀ b, b < n → f b ≤ g b) :
    sumTo f n ≤ sumTo g n := by
  induction n with
  | zero => exact Nat.le_refl _
  | succ n ih =>
    have := ih (fun b hb => h b (by omega))
    have := h n (by omega)
    simp only [sumTo]
    omega

/-- Two functions that differ at one place. -/
theorem sumTo_change {f g : Nat → Nat} {n k : Nat} (hk : k < n) (h : ∀ b, b ≠ k → f b = g b) :
    sumTo f n + g k = sumTo g n + f k := by
  induction n with
  | zero => omega
  | succ n ih =>
    simp only [sumTo]
    by_cases e : k = n
    · subst e
      rw [sumTo_congr (fun b hb => h b (by omega))]
      omega
    · have := ih (by omega)
      have := h n (fun e' => e e'.symm)
      omega

/-- A term of a sum. -/
theorem le_sumTo {f : Nat → Nat} {n k : Nat} (hk : k < n) : f k ≤ sumTo f n := by
  induction n with
  | zero => omega
  | succ n ih =>
    simp only [sumTo]
    by_cases e : k = n
    · subst e; omega
    · have := ih (by omega); omega

/-- A positive sum has a positive term. -/
theorem sumTo_pos {f : Nat → Nat} {n : Nat} (h : 0 < sumTo f n) : ∃ k, k < n ∧ 0 < f k := by
  induction n with
  | zero => simp [sumTo] at h
  | succ n ih =>
    simp only [sumTo] at h
    by_cases e : 0 < f n
    · exact ⟨n, by omega, e⟩
    · obtain ⟨k, hk, hf⟩ := ih (by omega)
      exact ⟨k, by omega, hf⟩

/-! ## Counting references -/

/-- One reference to `x`. -/
def one (x a : Addr) : Nat := if a = x then 1 else 0

theorem one_self (a : Addr) : one a a = 1 := by simp [one]
theorem one_ne {x a : Addr} (h : a ≠ x) : one x a = 0 := by simp [one, h]
theorem one_le (x a : Addr) : one x a ≤ 1 := by unfold one; split <;> omega

/-- The references contained in a cell. -/
def occ : Data → Addr → Nat
  | .pair x y, a => one x a + one y a
  | _, _ => 0

theorem occ_pair (x y a : Addr) : occ (.pair x y) a = one x a + one y a := rfl

theorem occ_atom {d : Data} (h : d.isPair = false) (a : Addr) : occ d a = 0 := by
  cases d <;> first | rfl | cases h

/-- The references from the cell `b` to `a`. -/
def contrib (O : List Addr) (m : Addr → Option Cell) (a b : Addr) : Nat :=
  if b ∈ O then 0 else
    match m b with
    | some c => occ c.data a
    | none => 0

/-- The references to `a` from all cells that are not open. -/
def edges (O : List Addr) (m : Addr → Option Cell) (n : Nat) (a : Addr) : Nat :=
  sumTo (contrib O m a) n

theorem contrib_open {O : List Addr} {m : Addr → Option Cell} {a b : Addr} (h : b ∈ O) :
    contrib O m a b = 0 := by simp [contrib, h]

theorem contrib_some {O : List Addr} {m : Addr → Option Cell} {a b : Addr} {c : Cell} (h : b ∉ O)
    (hc : m b = some c) : contrib O m a b = occ c.data a := by simp [contrib, h, hc]

theorem contrib_none {O : List Addr} {m : Addr → Option Cell} {a b : Addr}
    (hc : m b = none) : contrib O m a b = 0 := by simp [contrib, hc]

/-- References that belong to no code: abandoned ones and those of the global table. -/
def roots (s : HSt) (a : Addr) : Nat := s.leaked.count a + (s.globals.map Prod.snd).count a

/-- All the references to a cell. -/
def total (O : List Addr) (s : HSt) (T : Addr → Nat) (a : Addr) : Nat :=
  edges (O ++ s.zombies) s.mem s.next a + T a + roots s a

/-- The invariant with open cells `O` and owned references `T`. -/
structure InvO (O : List Addr) (s : HSt) (T : Addr → Nat) : Prop where
  /-- addresses that have not been used -/
  fresh : ∀ a, s.next ≤ a → s.mem a = none
  /-- exact reference counts -/
  exact : ∀ a c, s.mem a = some c → c.refs = total O s T a
  /-- nothing refers to a released cell -/
  dead : ∀ a, s.mem a = none → total O s T a = 0
  /-- a cell without references is released at once -/
  pos : ∀ a c, s.mem a = some c → a ∉ O → 0 < c.refs
  /-- open cells are live -/
  opn : ∀ o, o ∈ O → s.mem o ≠ none
  /-- nothing refers to an abandoned cell whose content has been released -/
  zomb : ∀ z, z ∈ s.zombies → z ∈ s.leaked ∧
    edges (O ++ s.zombies) s.mem s.next z + T z + (s.globals.map Prod.snd).count z = 0
  /-- a cached entry is an entry of the global table -/
  cache : ∀ a c d, s.mem a = some c → c.cache = some d → d ∈ s.globals.map Prod.snd

/-- The invariant without open cells. -/
abbrev Inv (s : HSt) (T : Addr → Nat) : Prop := InvO [] s T

/-- A cell that may be accessed. -/
def Live (s : HSt) (a : Addr) : Prop := (∃ c, s.mem a = some c) ∧ a ∉ s.zombies

theorem InvO.congr {O : List Addr} {s : HSt} {T T' : Addr → Nat} (h : InvO O s T)
    (e : ∀ b, T b = T' b) : InvO O s T' := by
  have : T = T' := funext e
  exact this ▸ h

theorem InvO.lt {O : List Addr} {s : HSt} {T : Addr → Nat} (h : InvO O s T) {a : Addr} {c : Cell}
    (hc : s.mem a = some c) : a < s.next := by
  by_cases e : a < s.next
  · exact e
  · rw [h.fresh a (by omega)] at hc; cases hc

theorem Live.lt {O : List Addr} {s : HSt} {T : Addr → Nat} {a : Addr} (l : Live s a) (h : InvO O s T) :
    a < s.next := by
  obtain ⟨⟨c, hc⟩, _⟩ := l
  exact h.lt hc

/-- Owned cells are live. -/
theorem InvO.live {O : List Addr} {s : HSt} {T : Addr → Nat} (h : InvO O s T) {a : Addr}
    (ha : ∀ b, one a b ≤ T b) : Live s a := by
  have ht : 0 < T a := by have := ha a; rw [one_self] at this; omega
  constructor
  · cases hm : s.mem a with
    | some c => exact ⟨c, rfl⟩
    | none =>
      have := h.dead a hm
      unfold total at this
      omega
  · intro hz
    have := (h.zomb a hz).2
    omega

/-- Entries of the global table are live. -/
theorem InvO.liveGlobal {O : List Addr} {s : HSt} {T : Addr → Nat} (h : InvO O s T) {a : Addr}
    (ha : a ∈ s.globals.map Prod.snd) : Live s a := by
  have ht : 0 < (s.globals.map Prod.snd).count a := List.count_pos_iff.2 ha
  constructor
  · cases hm : s.mem a with
    | some c => exact ⟨c, rfl⟩
    | none =>
      have := h.dead a hm
      unfold total roots at this
      omega
  · intro hz
    have := (h.zomb a hz).2
    omega

/-- What a live cell refers to is live. -/
theorem InvO.child {O : List Addr} {s : HSt} {T : Addr → Nat} (h : InvO O s T) {a : Addr} {c : Cell}
    (l : Live s a) (ho : a ∉ O) (hc : s.mem a = some c) {b : Addr} (hb : 0 < occ c.data b) : Live s b := by
  have hlt := h.lt hc
  have hn : a ∉ O ++ s.zombies := by
    simp only [List.mem_append, not_or]
    exact ⟨ho, l.2⟩
  have he : 0 < edges (O ++ s.zombies) s.mem s.next b := by
    have := le_sumTo (f := contrib (O ++ s.zombies) s.mem b) hlt
    rw [contrib_some hn hc] at this
    unfold edges
    omega
  constructor
  · cases hm : s.mem b with
    | some c => exact ⟨c, rfl⟩
    | none =>
      have := h.dead b hm
      unfold total at this
      omega
  · intro hz
    have := (h.zomb b hz).2
    omega

theorem InvO.childCar {O : List Addr} {s : HSt} {T : Addr → Nat} (h : InvO O s T) {a : Addr} {c : Cell}
    (l : Live s a) (ho : a ∉ O) (hc : s.mem a = some c) {x y : Addr} (hd : c.data = .pair x y) :
    Live s x := by
  refine h.child l ho hc ?_
  rw [hd, occ_pair, one_self]; omega

theorem InvO.childCdr {O : List Addr} {s : HSt} {T : Addr → Nat} (h : InvO O s T) {a : Addr} {c : Cell}
    (l : Live s a) (ho : a ∉ O) (hc : s.mem a = some c) {x y : Addr} (hd : c.data = .pair x y) :
    Live s y := by
  refine h.child l ho hc ?_
  rw [hd, occ_pair, one_self]; omega

/-- The number of references in a list of them. -/
def ones : List Addr → Addr → Nat
  | [], _ => 0
  | a :: as, b => one a b + ones as b

theorem ones_nil (b : Addr) : ones [] b = 0 := rfl
theorem ones_cons (a : Addr) (as : List Addr) (b : Addr) : ones (a :: as) b = one a b + ones as b := rfl

/-! ## The tactic for owned references

Owned references are functions `T` that are related by linear equations `∀ b, T' b + one a b = T b`. The
tactic instantiates all such hypotheses at a variable and calls `omega`. -/

open Lean Elab Tactic Meta in
/-- Prove a pointwise statement about owned references from the pointwise hypotheses. -/
elab "tok" : tactic => do
  liftMetaTactic1 fun g => do
    let (x, g) ← g.intro `b
    g.withContext do
      let mut g := g
      for d in (← getLCtx) do
        if d.isImplementationDetail then continue
        let t ← instantiateMVars d.type
        if let .forallE _ ty body _ := t then
          let ty ← whnfR ty
          if ty.isConstOf ``Nat then
            let fn := body.getAppFn
            if fn.isConstOf ``Eq || fn.isConstOf ``LE.le || fn.isConstOf ``LT.lt then
              let e := mkApp d.toExpr (mkFVar x)
              let et ← instantiateForall t #[mkFVar x]
              let (_, g') ← (← g.assert (← mkFreshUserName `h) et e).intro1
              g := g'
      return some g
  evalTactic (← `(tactic| (try simp only [occ_pair, ones_nil, ones_cons] at *) <;> omega))

/-! ## Opening and closing cells -/

theorem edges_eq {O O' : List Addr} {m m' : Addr → Option Cell} {n : Nat} {a : Addr}
    (h : ∀ b, b < n → contrib O m a b = contrib O' m' a b) : edges O m n a = edges O' m' n a :=
  sumTo_congr h

/-- Open a cell: its content becomes owned. -/
theorem InvO.open_ {O : List Addr} {s : HSt} {T T' : Addr → Nat} (h : InvO O s T) {a : Addr} {c : Cell}
    (l : Live s a) (ho : a ∉ O) (hc : s.mem a = some c) (e : ∀ b, T' b = T b + occ c.data b) :
    InvO (a :: O) s T' := by
  have hn : a ∉ O ++ s.zombies := by
    simp only [List.mem_append, not_or]
    exact ⟨ho, l.2⟩
  have key : ∀ b, edges (a :: O ++ s.zombies) s.mem s.next b + occ c.data b
      = edges (O ++ s.zombies) s.mem s.next b := by
    intro b
    have := sumTo_change (f := contrib (a :: O ++ s.zombies) s.mem b)
      (g := contrib (O ++ s.zombies) s.mem b) (h.lt hc) (by
        intro x hx
        simp [contrib, hx])
    rw [contrib_some hn hc, contrib_open (by simp)] at this
    exact this
  have tot : ∀ b, total (a :: O) s T' b = total O s T b := by
    intro b
    have := key b
    unfold total
    have := e b
    omega
  refine ⟨h.fresh, ?_, ?_, ?_, ?_, ?_, h.cache⟩
  · intro b d hd; rw [tot]; exact h.exact b d hd
  · intro b hb; rw [tot]; exact h.dead b hb
  · intro b d hd hb; exact h.pos b d hd (fun hb' => hb (List.mem_cons_of_mem _ hb'))
  · intro o hO
    rcases List.mem_cons.1 hO with e' | e'
    · subst e'; rw [hc]; simp
    · exact h.opn o e'
  · intro z hz
    refine ⟨(h.zomb z hz).1, ?_⟩
    have := (h.zomb z hz).2
    have := key z
    have := e z
    omega

/-- Close a cell: its content is no longer owned. -/
theorem InvO.close {O : List Addr} {s : HSt} {T T' : Addr → Nat} {a : Addr} (h : InvO (a :: O) s T)
    {c : Cell} (hz : a ∉ s.zombies) (ho : a ∉ O) (hc : s.mem a = some c) (hp : 0 < c.refs)
    (e : ∀ b, T' b + occ c.data b = T b) : InvO O s T' := by
  have hn : a ∉ O ++ s.zombies := by
    simp only [List.mem_append, not_or]
    exact ⟨ho, hz⟩
  have key : ∀ b, edges (a :: O ++ s.zombies) s.mem s.next b + occ c.data b
      = edges (O ++ s.zombies) s.mem s.next b := by
    intro b
    have := sumTo_change (f := contrib (a :: O ++ s.zombies) s.mem b)
      (g := contrib (O ++ s.zombies) s.mem b) (h.lt hc) (by
        intro x hx
        simp [contrib, hx])
    rw [contrib_some hn hc, contrib_open (by simp)] at this
    exact this
  have tot : ∀ b, total (a :: O) s T b = total O s T' b := by
    intro b
    have := key b
    unfold total
    have := e b
    omega
  refine ⟨h.fresh, ?_, ?_, ?_, ?_, ?_, h.cache⟩
  · intro b d hd; rw [← tot]; exact h.exact b d hd
  · intro b hb; rw [← tot]; exact h.dead b hb
  · intro b d hd hb
    by_cases e' : b = a
    · subst e'; rw [hc] at hd; cases hd; exact hp
    · exact h.pos b d hd (by simp [e', hb])
  · intro o hO; exact h.opn o (List.mem_cons_of_mem _ hO)
  · intro z hz'
    refine ⟨(h.zomb z hz').1, ?_⟩
    have := (h.zomb z hz').2
    have := key z
    have := e z
    omega

/-! ## Changes of the memory -/

theorem upd_self (m : Addr → Option Cell) (a : Addr) (v : Option Cell) : upd m a v a = v := by
  simp [upd]
theorem upd_ne {m : Addr → Option Cell} {a b : Addr} {v : Option Cell} (h : b ≠ a) :
    upd m a v b = m b := by simp [upd, h]

/-- Non-releasing steps: live cells stay, with their content. -/
structure Ext (s s' : HSt) : Prop where
  zombies : s'.zombies = s.zombies
  next : s.next ≤ s'.next
  mem : ∀ a c, s.mem a = some c → ∃ c', s'.mem a = some c' ∧ c'.data = c.data
  back : ∀ a c', a < s.next → s'.mem a = some c' → ∃ c, s.mem a = some c ∧ c'.data = c.data

theorem Ext.refl (s : HSt) : Ext s s :=
  ⟨rfl, Nat.le_refl _, fun _ c h => ⟨c, h, rfl⟩, fun _ c _ h => ⟨c, h, rfl⟩⟩

theorem Ext.trans {s s' s'' : HSt} (h : Ext s s') (h' : Ext s' s'') : Ext s s'' := by
  refine ⟨h'.zombies.trans h.zombies, Nat.le_trans h.next h'.next, ?_, ?_⟩
  · intro a c hc
    obtain ⟨c', hc', e⟩ := h.mem a c hc
    obtain ⟨c'', hc'', e'⟩ := h'.mem a c' hc'
    exact ⟨c'', hc'', e'.trans e⟩
  · intro a c ha hc
    obtain ⟨c', hc', e⟩ := h'.back a c (Nat.lt_of_lt_of_le ha h.next) hc
    obtain ⟨c'', hc'', e'⟩ := h.back a c' ha hc'
    exact ⟨c'', hc'', e.trans e'⟩

theorem Live.ext {s s' : HSt} {a : Addr} (l : Live s a) (e : Ext s s') : Live s' a := by
  obtain ⟨⟨c, hc⟩, hz⟩ := l
  obtain ⟨c', hc', _⟩ := e.mem a c hc
  exact ⟨⟨c', hc'⟩, e.zombies ▸ hz⟩

/-- Steps that do not write below `n`: cells below `n` keep their content as long as they live. -/
structure Fr (n : Nat) (s s' : HSt) : Prop where
  zombies : s'.zombies = s.zombies
  next : s.next ≤ s'.next
  mem : ∀ a c', a < n → s'.mem a = some c' → ∃ c, s.mem a = some c ∧ c'.data = c.data

theorem Fr.refl (n : Nat) (s : HSt) : Fr n s s := ⟨rfl, Nat.le_refl _, fun _ c _ h => ⟨c, h, rfl⟩⟩

theorem Fr.trans {n : Nat} {s s' s'' : HSt} (h : Fr n s s') (h' : Fr n s' s'') : Fr n s s'' := by
  refine ⟨h'.zombies.trans h.zombies, Nat.le_trans h.next h'.next, ?_⟩
  intro a c ha hc
  obtain ⟨c', hc', e⟩ := h'.mem a c ha hc
  obtain ⟨c'', hc'', e'⟩ := h.mem a c' ha hc'
  exact ⟨c'', hc'', e.trans e'⟩

theorem Fr.mono {n m : Nat} {s s' : HSt} (h : Fr n s s') (hm : m ≤ n) : Fr m s s' :=
  ⟨h.zombies, h.next, fun a c ha hc => h.mem a c (Nat.lt_of_lt_of_le ha hm) hc⟩

theorem Ext.fr {s s' : HSt} (h : Ext s s') : Fr s.next s s' := ⟨h.zombies, h.next, h.back⟩

/-- Only what does not influence edges changes in the cell `a`. -/
theorem InvO.touch {O : List Addr} {s : HSt} {T T' : Addr → Nat} (h : InvO O s T) {a : Addr} {c c' : Cell}
    (l : Live s a) (hc : s.mem a = some c) (hd : c'.data = c.data)
    (hr : ∀ b, T' b + one a b * c.refs = T b + one a b * c'.refs)
    (hp : a ∈ O ∨ 0 < c'.refs)
    (hch : ∀ d, c'.cache = some d → d ∈ s.globals.map Prod.snd) :
    InvO O { s with mem := upd s.mem a (some c') } T' := by
  have he : ∀ b, edges (O ++ s.zombies) (upd s.mem a (some c')) s.next b
      = edges (O ++ s.zombies) s.mem s.next b := by
    intro b
    refine edges_eq fun x _ => ?_
    by_cases hx : x = a
    · subst hx; simp [contrib, upd_self, hc, hd]
    · simp [contrib, upd_ne hx]
  refine ⟨?_, ?_, ?_, ?_, ?_, ?_, ?_⟩
  · intro b hb
    have : b ≠ a := by rintro rfl; have := h.lt hc; simp at hb; omega
    simp only [upd_ne this]
    exact h.fresh b hb
  · intro b d hb
    simp only at hb
    by_cases e : b = a
    · subst e
      rw [upd_self] at hb
      cases hb
      have h1 := h.exact b c hc
      have h2 := hr b
      rw [one_self] at h2
      simp only [total, he, roots] at h1 ⊢
      omega
    · rw [upd_ne e] at hb
      have h1 := h.exact b d hb
      have h2 := hr b
      rw [one_ne e] at h2
      simp only [total, he, roots] at h1 ⊢
      omega
  · intro b hb
    simp only at hb
    have e : b ≠ a := by rintro rfl; rw [upd_self] at hb; cases hb
    rw [upd_ne e] at hb
    have h1 := h.dead b hb
    have h2 := hr b
    rw [one_ne e] at h2
    simp only [total, he, roots] at h1 ⊢
    omega
  · intro b d hb ho
    simp only at hb
    by_cases e : b = a
    · subst e
      rw [upd_self] at hb
      cases hb
      rcases hp with hp | hp
      · exact absurd hp ho
      · exact hp
    · rw [upd_ne e] at hb
      exact h.pos b d hb ho
  · intro o ho
    by_cases e : o = a
    · subst e; simp [upd_self]
    · simp only [upd_ne e]; exact h.opn o ho
  · intro z hz
    have e : z ≠ a := by rintro rfl; exact l.2 hz
    refine ⟨(h.zomb z hz).1, ?_⟩
    have h1 := (h.zomb z hz).2
    have h2 := hr z
    rw [one_ne e] at h2
    simp only [he]
    omega
  · intro b d x hb hx
    simp only at hb
    by_cases e : b = a
    · subst e
      rw [upd_self] at hb
      cases hb
      exact hch x hx
    · rw [upd_ne e] at hb
      exact h.cache b d x hb hx

/-- Write an open cell. -/
theorem InvO.write {O : List Addr} {s : HSt} {T : Addr → Nat} (h : InvO O s T) {a : Addr} {c c' : Cell}
    (ho : a ∈ O) (hc : s.mem a = some c) (hr : c'.refs = c.refs) (hch : c'.cache = c.cache) :
    InvO O { s with mem := upd s.mem a (some c') } T := by
  have he : ∀ b, edges (O ++ s.zombies) (upd s.mem a (some c')) s.next b
      = edges (O ++ s.zombies) s.mem s.next b := by
    intro b
    refine edges_eq fun x _ => ?_
    by_cases hx : x = a
    · subst hx; rw [contrib_open (by simp [ho]), contrib_open (by simp [ho])]
    · simp [contrib, upd_ne hx]
  have tot : ∀ b, total O { s with mem := upd s.mem a (some c') } T b = total O s T b := by
    intro b; simp only [total, he, roots]
  refine ⟨?_, ?_, ?_, ?_, ?_, ?_, ?_⟩
  · intro b hb
    have : b ≠ a := by rintro rfl; have := h.lt hc; simp at hb; omega
    simp only [upd_ne this]
    exact h.fresh b hb
  · intro b d hb
    rw [tot]
    simp only at hb
    by_cases e : b = a
    · subst e
      rw [upd_self] at hb
      cases hb
      rw [hr]
      exact h.exact b c hc
    · rw [upd_ne e] at hb
      exact h.exact b d hb
  · intro b hb
    rw [tot]
    simp only at hb
    have e : b ≠ a := by rintro rfl; rw [upd_self] at hb; cases hb
    rw [upd_ne e] at hb
    exact h.dead b hb
  · intro b d hb hO
    simp only at hb
    by_cases e : b = a
    · subst e; exact absurd ho hO
    · rw [upd_ne e] at hb
      exact h.pos b d hb hO
  · intro o hO
    by_cases e : o = a
    · subst e; simp [upd_self]
    · simp only [upd_ne e]; exact h.opn o hO
  · intro z hz
    refine ⟨(h.zomb z hz).1, ?_⟩
    simp only [he]
    exact (h.zomb z hz).2
  · intro b d x hb hx
    simp only at hb
    by_cases e : b = a
    · subst e
      rw [upd_self] at hb
      cases hb
      rw [hch] at hx
      exact h.cache b c x hc hx
    · rw [upd_ne e] at hb
      exact h.cache b d x hb hx

/-- Free an open cell without references. -/
theorem InvO.free {O : List Addr} {s : HSt} {T : Addr → Nat} {a : Addr} (h : InvO (a :: O) s T) {c : Cell}
    (ho : a ∉ O) (hc : s.mem a = some c) (hr : c.refs = 0) :
    InvO O { s with mem := upd s.mem a none } T := by
  have t0 : total (a :: O) s T a = 0 := by rw [← h.exact a c hc, hr]
  have hz : a ∉ s.zombies := by
    intro hz
    have := (h.zomb a hz).1
    have := List.count_pos_iff.2 this
    unfold total roots at t0
    omega
  have he : ∀ b, edges (O ++ s.zombies) (upd s.mem a none) s.next b
      = edges (a :: O ++ s.zombies) s.mem s.next b := by
    intro b
    refine edges_eq fun x _ => ?_
    by_cases hx : x = a
    · subst hx; rw [contrib_none (upd_self _ _ _), contrib_open (by simp)]
    · simp [contrib, upd_ne hx, hx]
  have tot : ∀ b, total O { s with mem := upd s.mem a none } T b = total (a :: O) s T b := by
    intro b; simp only [total, he, roots]
  refine ⟨?_, ?_, ?_, ?_, ?_, ?_, ?_⟩
  · intro b hb
    have : b ≠ a := by rintro rfl; have := h.lt hc; simp at hb; omega
    simp only [upd_ne this]
    exact h.fresh b hb
  · intro b d hb
    rw [tot]
    simp only at hb
    have e : b ≠ a := by rintro rfl; rw [upd_self] at hb; cases hb
    rw [upd_ne e] at hb
    exact h.exact b d hb
  · intro b hb
    rw [tot]
    simp only at hb
    by_cases e : b = a
    · subst e; exact t0
    · rw [upd_ne e] at hb
      exact h.dead b hb
  · intro b d hb hO
    simp only at hb
    have e : b ≠ a := by rintro rfl; rw [upd_self] at hb; cases hb
    rw [upd_ne e] at hb
    exact h.pos b d hb (by simp [e, hO])
  · intro o hO
    have e : o ≠ a := by rintro rfl; exact ho hO
    simp only [upd_ne e]; exact h.opn o (List.mem_cons_of_mem _ hO)
  · intro z hz'
    refine ⟨(h.zomb z hz').1, ?_⟩
    simp only [he]
    exact (h.zomb z hz').2
  · intro b d x hb hx
    simp only at hb
    have e : b ≠ a := by rintro rfl; rw [upd_self] at hb; cases hb
    rw [upd_ne e] at hb
    exact h.cache b d x hb hx

/-- Allocate a cell. -/
theorem InvO.alloc {O : List Addr} {s : HSt} {T T' : Addr → Nat} (h : InvO O s T) (d : Data)
    (e : ∀ b, T' b + occ d b = T b + one s.next b) :
    InvO O { s with mem := upd s.mem s.next (some ⟨1, false, none, d⟩), next := s.next + 1 } T' := by
  have hf := h.fresh s.next (Nat.le_refl _)
  have hno : s.next ∉ O := fun ho => h.opn _ ho hf
  have t0 := h.dead s.next hf
  have hnz : s.next ∉ s.zombies := by
    intro hz
    have := List.count_pos_iff.2 (h.zomb _ hz).1
    unfold total roots at t0
    omega
  have he : ∀ b, edges (O ++ s.zombies) (upd s.mem s.next (some ⟨1, false, none, d⟩)) (s.next + 1) b
      = edges (O ++ s.zombies) s.mem s.next b + occ d b := by
    intro b
    unfold edges
    rw [sumTo, contrib_some (by simp [hno, hnz]) (upd_self _ _ _)]
    congr 1
    refine sumTo_congr fun x hx => ?_
    have : x ≠ s.next := by omega
    simp [contrib, upd_ne this]
  refine ⟨?_, ?_, ?_, ?_, ?_, ?_, ?_⟩
  · intro b hb
    simp only at hb
    have : b ≠ s.next := by omega
    simp only [upd_ne this]
    exact h.fresh b (by omega)
  · intro b c hb
    simp only at hb
    by_cases eb : b = s.next
    · subst eb
      rw [upd_self] at hb
      cases hb
      have := e s.next
      rw [one_self] at this
      simp only [total, he, roots] at t0 ⊢
      omega
    · rw [upd_ne eb] at hb
      have h1 := h.exact b c hb
      have h2 := e b
      rw [one_ne eb] at h2
      simp only [total, he, roots] at h1 ⊢
      omega
  · intro b hb
    simp only at hb
    have eb : b ≠ s.next := by rintro rfl; rw [upd_self] at hb; cases hb
    rw [upd_ne eb] at hb
    have h1 := h.dead b hb
    have h2 := e b
    rw [one_ne eb] at h2
    simp only [total, he, roots] at h1 ⊢
    omega
  · intro b c hb hO
    simp only at hb
    by_cases eb : b = s.next
    · subst eb
      rw [upd_self] at hb
      cases hb
      exact Nat.one_pos
    · rw [upd_ne eb] at hb
      exact h.pos b c hb hO
  · intro o hO
    have eb : o ≠ s.next := by rintro rfl; exact hno hO
    simp only [upd_ne eb]; exact h.opn o hO
  · intro z hz
    have eb : z ≠ s.next := by rintro rfl; exact hnz hz
    refine ⟨(h.zomb z hz).1, ?_⟩
    have h1 := (h.zomb z hz).2
    have h2 := e z
    rw [one_ne eb] at h2
    simp only [he]
    omega
  · intro b c x hb hx
    simp only at hb
    by_cases eb : b = s.next
    · subst eb
      rw [upd_self] at hb
      cases hb
      cases hx
    · rw [upd_ne eb] at hb
      exact h.cache b c x hb hx

end Heap
end Mnml
