import Lean.Elab.Tactic
import Verif.HeapEval

/-!
# Where the cells are does not matter

Two runs of the cell model: one in which no address is used twice (`capped`), and one in which the `k`-th new cell is placed at `φ k` (`placed φ o`), which may be
the place of a released cell. In both no more cells can be in use than the slab holds. As long as the first does not access a released cell, the second does the same,
with `φ a` in place of `a`.
-/

namespace Mnml
namespace Heap

/-- As many cells are in use as the slab holds: `SLAB_SIZE / sizeof(struct atom)`, that is 64 MB of cells of 32 bytes (`include/mnml/slab.h:24`, `lib/core/slab.c:79-90`). -/
def Full (s : HSt) : Prop := ∃ l : List Addr, l.Nodup ∧ l.length = 2097152 ∧ ∀ a ∈ l, s.mem a ≠ none

/-- The memory is finite in all runs, but `Full` is decided classically. -/
noncomputable instance {s : HSt} : Decidable (Full s) := Classical.propDecidable _

/-- No address is used twice; a new cell is refused if the memory is full. -/
@[instance_reducible] noncomputable def capped : Alloc where
  place s := if Full s then .abort else .ok (s.next, s.pool)
  give p _ := p
  watch l := l

/-- An outcome that stands for a choice of places that is of no use. -/
def clash {α : Type} : Bool → Res α
  | true => .oof
  | false => .unsupported

/-- The `k`-th new cell is placed at `φ k`; the outcome is `clash o` if that cell is in use. A new cell is refused if the memory is full. -/
@[instance_reducible] noncomputable def placed (φ : Nat → Addr) (o : Bool) : Alloc where
  place s := if Full s then .abort else if (s.mem (φ s.next)).isSome then clash o else .ok (φ s.next, s.pool)
  give p _ := p
  watch _ := []

/-- The payload with other addresses. -/
def renD (φ : Addr → Addr) : Data → Data
  | .nil => .nil
  | .tru => .tru
  | .wild => .wild
  | .chr c => .chr c
  | .num n => .num n
  | .sym s => .sym s
  | .pair x y => .pair (φ x) (φ y)

/-- The cell with other addresses. -/
def renC (φ : Addr → Addr) (c : Cell) : Cell := ⟨c.refs, c.tc, c.cache.map φ, renD φ c.data⟩

/-- `t` holds the cells of `s`, at other addresses, and nothing else. -/
structure Copy (φ : Addr → Addr) (s t : HSt) : Prop where
  cells : ∀ {a c}, s.mem a = some c → t.mem (φ a) = some (renC φ c)
  inj : ∀ {a b}, s.mem a ≠ none → s.mem b ≠ none → φ a = φ b → a = b
  back : ∀ {x}, t.mem x ≠ none → ∃ a, s.mem a ≠ none ∧ φ a = x
  next : t.next = s.next
  globals : t.globals = s.globals.map fun e => (e.1, φ e.2)
  out : t.out = s.out
  loose : s.strict = false
  loose' : t.strict = false

/-- The outcomes of two runs: the second is that of the first with other addresses, or a new cell was to be placed on a cell in use. Nothing is said if the first has
accessed a released cell or left the model. -/
def Same {α : Type} (φ : Addr → Addr) (o : Bool) (g : α → α) (r r' : Res (α × HSt)) : Prop :=
  r' = clash o ∨
    match r with
    | .ok (a, s) => ∃ t, r' = .ok (g a, t) ∧ Copy φ s t
    | .ub u => u = .useAfterFree ∨ u = .staleArg ∨ r' = .ub u
    | .abort => r' = .abort
    | .oof => r' = .oof
    | .unsupported => True

/-- What `m` does, `m'` does with other addresses. -/
def Ren {α : Type} (φ : Addr → Addr) (o : Bool) (g : α → α) (m m' : HM α) : Prop := ∀ s t, Copy φ s t → Same φ o g (m s) (m' t)

/-- `clash` in the middle of a computation. -/
theorem clash_bind {α β : Type} {o : Bool} {f : α → Res β} : (clash o >>= f) = clash o := by cases o <;> rfl

section
variable {φ : Addr → Addr} {o : Bool}

@[simp] theorem renD_isNil {d : Data} : (renD φ d).isNil = d.isNil := by cases d <;> rfl
@[simp] theorem renD_isTrue {d : Data} : (renD φ d).isTrue = d.isTrue := by cases d <;> rfl
@[simp] theorem renD_isWild {d : Data} : (renD φ d).isWild = d.isWild := by cases d <;> rfl
@[simp] theorem renD_isChr {d : Data} : (renD φ d).isChr = d.isChr := by cases d <;> rfl
@[simp] theorem renD_isNum {d : Data} : (renD φ d).isNum = d.isNum := by cases d <;> rfl
@[simp] theorem renD_isPair {d : Data} : (renD φ d).isPair = d.isPair := by cases d <;> rfl
@[simp] theorem renD_isSym {d : Data} : (renD φ d).isSym = d.isSym := by cases d <;> rfl
@[simp] theorem renD_isList {d : Data} : (renD φ d).isList = d.isList := by cases d <;> rfl
@[simp] theorem renD_type {d : Data} : (renD φ d).type = d.type := by cases d <;> rfl
@[simp] theorem renD_tag {d : Data} : (renD φ d).tag = d.tag := by cases d <;> rfl
@[simp] theorem renD_symIs {d : Data} {s : Sym} : (renD φ d).symIs s = d.symIs s := by cases d <;> rfl
@[simp] theorem renD_number {d : Data} : (renD φ d).number = d.number := by cases d <;> rfl
@[simp] theorem renD_nil : renD φ .nil = .nil := rfl
@[simp] theorem renD_tru : renD φ .tru = .tru := rfl
@[simp] theorem renD_wild : renD φ .wild = .wild := rfl
@[simp] theorem renD_chr {c : Int} : renD φ (.chr c) = .chr c := rfl
@[simp] theorem renD_num {c : Int} : renD φ (.num c) = .num c := rfl
@[simp] theorem renD_sym {s : Sym} : renD φ (.sym s) = .sym s := rfl
@[simp] theorem renD_pair {x y : Addr} : renD φ (.pair x y) = .pair (φ x) (φ y) := rfl
@[simp] theorem renC_refs {c : Cell} : (renC φ c).refs = c.refs := rfl
@[simp] theorem renC_tc {c : Cell} : (renC φ c).tc = c.tc := rfl
@[simp] theorem renC_cache {c : Cell} : (renC φ c).cache = c.cache.map φ := rfl
@[simp] theorem renC_data {c : Cell} : (renC φ c).data = renD φ c.data := rfl

theorem Ren.pure {α : Type} {g : α → α} {a b : α} (h : b = g a) : Ren φ o g (Pure.pure a) (Pure.pure b) :=
  fun s t hc => .inr ⟨t, by subst h; rfl, hc⟩

theorem hbind_ok {α β : Type} {m : HM α} {f : α → HM β} {s s' : HSt} {b : β} (e : (m >>= f) s = .ok (b, s')) :
    ∃ a s1, m s = .ok (a, s1) ∧ f a s1 = .ok (b, s') := by
  have e : (m s >>= fun p => f p.1 p.2) = .ok (b, s') := e
  cases hm : m s with
  | ok p => rw [hm] at e; exact ⟨p.1, p.2, rfl, e⟩
  | _ => rw [hm] at e; cases e

/-- The rule with something known about the intermediate result. -/
theorem Ren.bindQ {α β : Type} {g : α → α} {h : β → β} {m m' : HM α} {f f' : α → HM β} {Q : α → Prop} (hm : Ren φ o g m m')
    (hq : ∀ s a s', m s = .ok (a, s') → Q a) (hf : ∀ a, Q a → Ren φ o h (f a) (f' (g a))) : Ren φ o h (m >>= f) (m' >>= f') := by
  intro s t hc
  show Same φ o h (m s >>= fun p => f p.1 p.2) (m' t >>= fun p => f' p.1 p.2)
  rcases hm s t hc with e | hm
  · left; rw [e]; exact clash_bind
  · cases e : m s with
    | ok p =>
      rw [e] at hm
      obtain ⟨t', h1, h2⟩ := hm
      rw [h1]
      exact hf p.1 (hq _ _ _ e) p.2 t' h2
    | ub u =>
      rw [e] at hm
      right
      rcases hm with h1 | h1 | h1
      · exact .inl h1
      · exact .inr (.inl h1)
      · exact .inr (.inr (by rw [h1]; rfl))
    | abort => rw [e] at hm; right; show _ = Res.abort; rw [show m' t = .abort from hm]; rfl
    | oof => rw [e] at hm; right; show _ = Res.oof; rw [show m' t = .oof from hm]; rfl
    | unsupported => right; trivial

theorem Ren.bind {α β : Type} {g : α → α} {h : β → β} {m m' : HM α} {f f' : α → HM β} (hm : Ren φ o g m m')
    (hf : ∀ a, Ren φ o h (f a) (f' (g a))) : Ren φ o h (m >>= f) (m' >>= f') :=
  hm.bindQ (Q := fun _ => True) (fun _ _ _ _ => trivial) fun a _ => hf a

theorem Ren.ite {α : Type} {g : α → α} {c c' : Prop} [Decidable c] [Decidable c'] {m m' k k' : HM α} (hc : c' ↔ c) (h : Ren φ o g m m') (h' : Ren φ o g k k') :
    Ren φ o g (if c then m else k) (if c' then m' else k') := by
  by_cases e : c
  · rw [if_pos e, if_pos (hc.2 e)]; exact h
  · rw [if_neg e, if_neg (fun x => e (hc.1 x))]; exact h'

theorem ren_oof {α : Type} {g : α → α} : Ren φ o g HM.oof HM.oof := fun _ _ _ => .inr rfl
theorem ren_unsupported {α : Type} {g : α → α} {m' : HM α} : Ren φ o g HM.unsupported m' := fun _ _ _ => .inr trivial
theorem ren_ub {α : Type} {g : α → α} {u : UB} : Ren φ o g (HM.ub u) (HM.ub u) := fun _ _ _ => .inr (.inr (.inr rfl))
theorem ren_lift {α : Type} {r : Res α} : Ren φ o (fun x => x) (HM.lift r) (HM.lift r) := by
  intro s t hc
  cases r with
  | ok a => exact .inr ⟨t, rfl, hc⟩
  | ub u => exact .inr (.inr (.inr rfl))
  | abort => exact .inr rfl
  | oof => exact .inr rfl
  | unsupported => exact .inr trivial

theorem ren_cell {a : Addr} : Ren φ o (renC φ) (cell a) (cell (φ a)) := by
  intro s t hc
  right
  unfold cell
  cases e : s.mem a with
  | none => exact .inl rfl
  | some c => rw [hc.cells e]; exact ⟨t, rfl, hc⟩

theorem Copy.upd {s t : HSt} (hc : Copy φ s t) {a : Addr} {c : Cell} (h : s.mem a ≠ none) :
    Copy φ { s with mem := upd s.mem a (some c) } { t with mem := upd t.mem (φ a) (some (renC φ c)) } := by
  have live : ∀ {b}, Heap.upd s.mem a (some c) b ≠ none → s.mem b ≠ none := by
    intro b hb
    unfold Heap.upd at hb
    split at hb
    · rename_i e; rw [e]; exact h
    · exact hb
  refine ⟨?_, ?_, ?_, hc.next, hc.globals, hc.out, hc.loose, hc.loose'⟩
  · intro b c' hb
    show Heap.upd t.mem (φ a) _ (φ b) = _
    change Heap.upd s.mem a _ b = _ at hb
    unfold Heap.upd at hb ⊢
    by_cases e : b = a
    · subst e; rw [if_pos rfl] at hb ⊢; cases hb; rfl
    · rw [if_neg e] at hb
      rw [if_neg]
      · exact hc.cells hb
      · intro e'; exact e (hc.inj (by rw [hb]; simp) h e')
  · intro b b' h1 h2 e
    exact hc.inj (live h1) (live h2) e
  · intro x hx
    change Heap.upd t.mem (φ a) _ x ≠ none at hx
    show ∃ b, Heap.upd s.mem a _ b ≠ none ∧ _
    unfold Heap.upd at hx ⊢
    by_cases e : x = φ a
    · exact ⟨a, by simp, e.symm⟩
    · rw [if_neg e] at hx
      obtain ⟨b, h1, h2⟩ := hc.back hx
      refine ⟨b, ?_, h2⟩
      split
      · simp
      · exact h1

theorem ren_modify {a : Addr} {f f' : Cell → Cell} (h : ∀ c, f' (renC φ c) = renC φ (f c)) : Ren φ o (fun x => x) (modify a f) (modify (φ a) f') := by
  intro s t hc
  right
  unfold modify
  cases e : s.mem a with
  | none => exact .inl rfl
  | some c => rw [hc.cells e]; exact ⟨_, rfl, by rw [h]; exact hc.upd (by rw [e]; simp)⟩

theorem ren_free {a : Addr} : Ren φ o (fun x => x) (@free capped a) (@free (placed φ o) (φ a)) := by
  intro s t hc
  right
  unfold free
  cases e : s.mem a with
  | none => exact .inl rfl
  | some c =>
    rw [hc.cells e]
    refine ⟨_, rfl, ?_, ?_, ?_, hc.next, hc.globals, hc.out, hc.loose, hc.loose'⟩
    · intro b c' hb
      show upd t.mem (φ a) _ (φ b) = _
      change upd s.mem a _ b = _ at hb
      unfold upd at hb ⊢
      by_cases e' : b = a
      · subst e'; simp at hb
      · rw [if_neg e'] at hb
        rw [if_neg]
        · exact hc.cells hb
        · intro e''; exact e' (hc.inj (by rw [hb]; simp) (by rw [e]; simp) e'')
    · intro b b' h1 h2
      change upd s.mem a _ b ≠ _ at h1
      change upd s.mem a _ b' ≠ _ at h2
      unfold upd at h1 h2
      split at h1
      · cases h1 rfl
      split at h2
      · cases h2 rfl
      exact hc.inj h1 h2
    · intro x hx
      change upd t.mem (φ a) _ x ≠ none at hx
      show ∃ b, upd s.mem a _ b ≠ none ∧ _
      unfold upd at hx ⊢
      split at hx
      · cases hx rfl
      obtain ⟨b, h1, h2⟩ := hc.back hx
      refine ⟨b, ?_, h2⟩
      rename_i e'
      rw [if_neg]
      · exact h1
      · rintro rfl; exact e' h2.symm

theorem Copy.full {s t : HSt} (hc : Copy φ s t) : Full s ↔ Full t := by
  constructor
  · rintro ⟨l, h1, h2, h3⟩
    refine ⟨l.map φ, ?_, by rw [List.length_map, h2], ?_⟩
    · refine List.pairwise_map.2 (h1.imp_of_mem fun ha hb hne e => hne (hc.inj (h3 _ ha) (h3 _ hb) e))
    · intro x hx
      obtain ⟨a, ha, rfl⟩ := List.mem_map.1 hx
      obtain ⟨c, hc'⟩ := Option.ne_none_iff_exists'.1 (h3 a ha)
      rw [hc.cells hc']; simp
  · rintro ⟨l, h1, h2, h3⟩
    have key : ∀ l : List Addr, l.Nodup → (∀ x ∈ l, t.mem x ≠ none) → ∃ l' : List Addr, l'.map φ = l ∧ ∀ a ∈ l', s.mem a ≠ none := by
      intro l
      induction l with
      | nil => exact fun _ _ => ⟨[], rfl, by simp⟩
      | cons x l ih =>
        intro hn hx
        obtain ⟨l', e, h⟩ := ih (List.nodup_cons.1 hn).2 (fun y hy => hx y (.tail _ hy))
        obtain ⟨a, ha, e'⟩ := hc.back (hx x (.head _))
        refine ⟨a :: l', by rw [List.map_cons, e, e'], ?_⟩
        intro b hb
        cases hb with
        | head => exact ha
        | tail _ hb => exact h b hb
    obtain ⟨l', e, h⟩ := key l h1 h3
    subst e
    exact ⟨l', List.Pairwise.of_map _ (fun a b hne e => hne (congrArg φ e)) h1, by rw [← h2, List.length_map], h⟩

theorem alloc_capped {s : HSt} {d : Data} (h : ¬ Full s) :
    @alloc capped d s = .ok (s.next, { s with mem := upd s.mem s.next (some ⟨1, false, none, d⟩), next := s.next + 1 }) := by
  show ((if Full s then Res.abort else .ok (s.next, s.pool)) >>= _) = _
  rw [if_neg h]; rfl
theorem alloc_capped_full {s : HSt} {d : Data} (h : Full s) : @alloc capped d s = .abort := by
  show ((if Full s then Res.abort else .ok (s.next, s.pool)) >>= _) = _
  rw [if_pos h]; rfl
theorem alloc_placed {t : HSt} {d : Data} (h : ¬ Full t) (e : t.mem (φ t.next) = none) :
    @alloc (placed φ o) d t = .ok (φ t.next, { t with mem := upd t.mem (φ t.next) (some ⟨1, false, none, d⟩), next := t.next + 1 }) := by
  show ((if Full t then Res.abort else if (t.mem (φ t.next)).isSome then clash o else .ok (φ t.next, t.pool)) >>= _) = _
  rw [if_neg h, e]; rfl
theorem alloc_placed_full {t : HSt} {d : Data} (h : Full t) : @alloc (placed φ o) d t = .abort := by
  show ((if Full t then Res.abort else if (t.mem (φ t.next)).isSome then clash o else .ok (φ t.next, t.pool)) >>= _) = _
  rw [if_pos h]; rfl
theorem alloc_placed_clash {t : HSt} {d : Data} (h : ¬ Full t) (e : (t.mem (φ t.next)).isSome = true) : @alloc (placed φ o) d t = clash o := by
  show ((if Full t then Res.abort else if (t.mem (φ t.next)).isSome then clash o else .ok (φ t.next, t.pool)) >>= _) = _
  rw [if_neg h, if_pos e]; exact clash_bind

theorem ren_alloc {d d' : Data} (h : d' = renD φ d) : Ren φ o φ (@alloc capped d) (@alloc (placed φ o) d') := by
  intro s t hc
  subst h
  by_cases hf : Full s
  · right
    rw [alloc_capped_full hf]
    exact alloc_placed_full (hc.full.1 hf)
  have hf' : ¬ Full t := fun h => hf (hc.full.2 h)
  cases e : t.mem (φ t.next) with
  | some c =>
    left
    exact alloc_placed_clash hf' (by rw [e]; rfl)
  | none =>
    right
    rw [alloc_capped hf]
    refine ⟨{ t with mem := upd t.mem (φ t.next) (some ⟨1, false, none, renD φ d⟩), next := t.next + 1 }, ?_, ?_, ?_, ?_, ?_, hc.globals, hc.out, hc.loose, hc.loose'⟩
    · rw [← hc.next]; exact alloc_placed hf' e
    · rw [hc.next] at e ⊢
      intro b c' hb
      show upd t.mem (φ s.next) _ (φ b) = _
      change upd s.mem s.next _ b = _ at hb
      unfold upd at hb ⊢
      by_cases e' : b = s.next
      · subst e'; rw [if_pos rfl] at hb ⊢; cases hb; rfl
      · rw [if_neg e'] at hb
        rw [if_neg]
        · exact hc.cells hb
        · intro e''; rw [← e'', hc.cells hb] at e; cases e
    · rw [hc.next] at e
      intro b b' h1 h2 eq
      change upd s.mem s.next _ b ≠ _ at h1
      change upd s.mem s.next _ b' ≠ _ at h2
      unfold upd at h1 h2
      have key : ∀ x, s.mem x ≠ none → φ x = φ s.next → False := by
        intro x hx ex
        obtain ⟨c, hc'⟩ := Option.ne_none_iff_exists'.1 hx
        rw [← ex, hc.cells hc'] at e; cases e
      by_cases e1 : b = s.next
      · by_cases e2 : b' = s.next
        · rw [e1, e2]
        · rw [if_neg e2] at h2; rw [e1] at eq; exact (key _ h2 eq.symm).elim
      · rw [if_neg e1] at h1
        by_cases e2 : b' = s.next
        · rw [e2] at eq; exact (key _ h1 eq).elim
        · rw [if_neg e2] at h2; exact hc.inj h1 h2 eq
    · rw [hc.next] at e ⊢
      intro x hx
      change upd t.mem (φ s.next) _ x ≠ none at hx
      show ∃ b, upd s.mem s.next _ b ≠ none ∧ _
      unfold upd at hx ⊢
      by_cases e' : x = φ s.next
      · exact ⟨s.next, by simp, e'.symm⟩
      · rw [if_neg e'] at hx
        obtain ⟨b, h1, h2⟩ := hc.back hx
        refine ⟨b, ?_, h2⟩
        split
        · simp
        · exact h1
    · show t.next + 1 = s.next + 1
      rw [hc.next]

theorem ren_guard {b b' : Bool} : Ren φ o (fun x => x) (guard b) (guard b') := by
  intro s t hc
  right
  unfold guard
  rw [hc.loose, hc.loose']
  exact ⟨t, rfl, hc⟩

theorem ren_leak {a : Addr} : Ren φ o (fun x => x) (leak a) (leak (φ a)) := fun _ _ hc =>
  .inr ⟨_, rfl, hc.cells, hc.inj, hc.back, hc.next, hc.globals, hc.out, hc.loose, hc.loose'⟩
theorem ren_abandon {a : Addr} : Ren φ o (fun x => x) (abandon a) (abandon (φ a)) := fun _ _ hc =>
  .inr ⟨_, rfl, hc.cells, hc.inj, hc.back, hc.next, hc.globals, hc.out, hc.loose, hc.loose'⟩
theorem ren_push {k : Sym} {a : Addr} : Ren φ o (fun x => x) (pushGlobal k a) (pushGlobal k (φ a)) := fun s t hc =>
  .inr ⟨_, rfl, hc.cells, hc.inj, hc.back, hc.next, by
    show t.globals ++ _ = (s.globals ++ _).map _
    rw [hc.globals, List.map_append]; rfl, hc.out, hc.loose, hc.loose'⟩
theorem ren_emit {l : List UInt8} : Ren φ o (fun x => x) (emitH l) (emitH l) := fun _ _ hc =>
  .inr ⟨_, rfl, hc.cells, hc.inj, hc.back, hc.next, hc.globals, congrArg (· ++ l) hc.out, hc.loose, hc.loose'⟩
theorem ren_global {k : Sym} : Ren φ o (Option.map φ) (globalOf k) (globalOf k) := fun s t hc =>
  .inr ⟨t, by
    unfold globalOf
    rw [hc.globals, List.find?_map]
    cases h : s.globals.find? ((fun e => decide (e.1 = k)) ∘ fun e => (e.1, φ e.2)) with
    | none => rw [show s.globals.find? (fun e => decide (e.1 = k)) = none from h]; rfl
    | some e => rw [show s.globals.find? (fun e => decide (e.1 = k)) = some e from h]; rfl, hc⟩
theorem ren_fresh {u : UB} (hu : u = .useAfterFree ∨ u = .staleArg) {a : Addr} : Ren φ o (fun x => x) (@fresh capped u a) (@fresh (placed φ o) u (φ a)) := by
  intro s t hc
  right
  rw [show @fresh capped u a s = @fresh apart u a s from rfl, fresh_apart]
  by_cases h : (s.mem a).isSome ∧ a ∉ s.zombies
  · rw [if_pos h]
    obtain ⟨c, h1⟩ := Option.isSome_iff_exists.1 h.1
    refine ⟨t, ?_, hc⟩
    refine if_pos ⟨?_, ?_⟩
    · rw [hc.cells h1]; rfl
    · intro x; cases x
  · rw [if_neg h]
    rcases hu with h | h
    · exact .inl h
    · exact .inr (.inl h)

theorem Copy.there {s t : HSt} (hc : Copy φ s t) (n : Nat) : ∀ {a}, there s.mem n a = true → there t.mem n (φ a) = true := by
  induction n with
  | zero => intro a _; rfl
  | succ n ih =>
    intro a h
    unfold Heap.there at h ⊢
    cases e : s.mem a with
    | none => rw [e] at h; cases h
    | some c =>
      rw [e] at h
      rw [hc.cells e]
      simp only [renC_data]
      cases ed : c.data with
      | pair x y =>
        simp only [ed, Bool.and_eq_true] at h
        simp only [renD, Bool.and_eq_true]
        exact ⟨ih h.1, ih h.2⟩
      | _ => rfl

/-- The answer of `loneH` plays no role. -/
theorem ren_lone {α : Type} {g : α → α} {n : Nat} {x a : Addr} {f f' : Bool → HM α} (hf : ∀ b b', Ren φ o g (f b) (f' b')) :
    Ren φ o g (loneH n x a >>= f) (loneH n (φ x) (φ a) >>= f') := by
  intro s t hc
  show Same φ o g (loneH n x a s >>= fun p => f p.1 p.2) (loneH n (φ x) (φ a) t >>= fun p => f' p.1 p.2)
  unfold loneH
  split
  · rename_i h
    simp only [Bool.and_eq_true] at h
    rw [if_pos (by simp only [Bool.and_eq_true]; exact ⟨hc.there _ h.1, hc.there _ h.2⟩)]
    exact hf _ _ s t hc
  · exact .inr (.inl rfl)

theorem ren_X_of (h : ∀ n a, Ren φ o (fun x => x) (@release capped n a) (@release (placed φ o) n (φ a))) {a : Addr} :
    Ren φ o (fun x => x) (@X capped a) (@X (placed φ o) (φ a)) := by
  intro s t hc
  show Same φ o _ (@release capped (s.next + 1) a s) (@release (placed φ o) (t.next + 1) (φ a) t)
  rw [hc.next]
  exact h _ _ s t hc

end

open Lean Meta Elab Tactic in
/-- Case distinction on what the computations of the goal look at first. -/
elab "look" : tactic => withMainContext do
  let g ← getMainGoal
  let t ← instantiateMVars (← g.getType)
  let t := t.consumeMData
  let m := t.getArg! (t.getAppNumArgs - 2)
  let some app ← matchMatcherApp? m | throwError "no match"
  for d in app.discrs do
    unless d.isFVar do
      let (_, g') ← g.generalize #[{ expr := d }]
      replaceMainGoal [g']
      return
  let mut gs := [g]
  for d in app.discrs do
    let mut gs' := []
    for g in gs do
      let r ← g.withContext do
        try
          let subs ← g.cases d.fvarId!
          pure (subs.toList.map (·.mvarId))
        catch _ => pure [g]
      gs' := gs' ++ r
    gs := gs'
  replaceMainGoal gs

/-- The leaves; extended below. -/
syntax "renl" : tactic
macro_rules | `(tactic| renl) => `(tactic| with_reducible first
  | assumption
  | exact Ren.pure (by with_unfolding_all rfl) | exact ren_oof | exact ren_unsupported | exact ren_ub | exact ren_lift
  | exact ren_cell | exact ren_modify (fun _ => by with_unfolding_all rfl) | exact ren_free | exact ren_alloc (by with_unfolding_all rfl) | exact ren_guard
  | exact ren_leak | exact ren_abandon | exact ren_push | exact ren_global | exact ren_emit)
macro_rules | `(tactic| renl) => `(tactic| with_reducible first
  | exact $(Lean.mkIdent `ih) _ | exact $(Lean.mkIdent `ih) _ _ | exact $(Lean.mkIdent `ih) _ _ _ | exact $(Lean.mkIdent `ih) _ _ _ _
  | exact $(Lean.mkIdent `ih1) _ | exact $(Lean.mkIdent `ih2) _ | exact $(Lean.mkIdent `hev) _ _ | exact ren_fresh $(Lean.mkIdent `hu) | exact ren_fresh (.inr rfl))

/-- Tests give the same on both sides. -/
macro "rens" : tactic => `(tactic| simp only [renD_isNil, renD_isTrue, renD_isWild, renD_isChr, renD_isNum, renD_isPair, renD_isSym, renD_isList, renD_type, renD_tag,
  renD_symIs, renD_number, renD_nil, renD_tru, renD_wild, renD_chr, renD_num, renD_sym, renD_pair, renC_refs, renC_tc, renC_cache, renC_data,
  Option.map_some, Option.map_none])

/-- The structural steps. -/
macro "ren" : tactic => `(tactic| repeat' first
  | renl
  | with_reducible refine Ren.bind (by renl) (fun _ => ?_)
  | with_reducible refine Ren.ite (by first | exact Iff.rfl | rens) ?_ ?_
  | rens
  | dsimp only
  | look)

section
variable {φ : Addr → Addr} {o : Bool}

theorem ren_up {a : Addr} : Ren φ o (fun x => x) (up a) (up (φ a)) := by unfold up; ren
macro_rules | `(tactic| renl) => `(tactic| with_reducible exact ren_up)
theorem ren_dataOf {a : Addr} : Ren φ o (renD φ) (dataOf a) (dataOf (φ a)) := by unfold dataOf; ren
macro_rules | `(tactic| renl) => `(tactic| with_reducible exact ren_dataOf)
theorem ren_pairOf {a : Addr} : Ren φ o (fun p => (φ p.1, φ p.2)) (pairOf a) (pairOf (φ a)) := by unfold pairOf; ren
macro_rules | `(tactic| renl) => `(tactic| with_reducible exact ren_pairOf)
theorem ren_setData {a : Addr} {d d' : Data} (h : d' = renD φ d) : Ren φ o (fun x => x) (setData a d) (setData (φ a) d') := by
  subst h; unfold setData; ren
macro_rules | `(tactic| renl) => `(tactic| with_reducible exact ren_setData (by with_unfolding_all rfl))
theorem ren_setTail {a : Addr} : Ren φ o (fun x => x) (setTail a) (setTail (φ a)) := by unfold setTail; ren
macro_rules | `(tactic| renl) => `(tactic| with_reducible exact ren_setTail)
theorem ren_release (n : Nat) : ∀ (a : Addr), Ren φ o (fun x => x) (@release capped n a) (@release (placed φ o) n (φ a)) := by
  induction n with
  | zero => intro a; unfold release; ren
  | succ n ih => intro a; unfold release; ren
macro_rules | `(tactic| renl) => `(tactic| with_reducible exact ren_release _ _)
theorem ren_X {a : Addr} : Ren φ o (fun x => x) (@X capped a) (@X (placed φ o) (φ a)) := ren_X_of ren_release
macro_rules | `(tactic| renl) => `(tactic| with_reducible exact ren_X)
theorem ren_Xs {l l' : List Addr} (h : l' = l.map φ) : Ren φ o (fun x => x) (@Xs capped l) (@Xs (placed φ o) l') := by
  subst h
  induction l with
  | nil => unfold Xs; exact Ren.pure rfl
  | cons a l ih => unfold Xs; exact ren_X.bind fun _ => ih
macro_rules | `(tactic| renl) => `(tactic| with_reducible exact ren_Xs (by with_unfolding_all rfl))
theorem ren_mkNil  : Ren φ o φ (@mkNil capped ) (@mkNil (placed φ o) ) := by unfold mkNil; ren
macro_rules | `(tactic| renl) => `(tactic| with_reducible exact ren_mkNil)
theorem ren_mkTrue  : Ren φ o φ (@mkTrue capped ) (@mkTrue (placed φ o) ) := by unfold mkTrue; ren
macro_rules | `(tactic| renl) => `(tactic| with_reducible exact ren_mkTrue)
theorem ren_mkNum {i : Int} : Ren φ o φ (@mkNum capped i) (@mkNum (placed φ o) i) := by unfold mkNum; ren
macro_rules | `(tactic| renl) => `(tactic| with_reducible exact ren_mkNum)
theorem ren_mkChr {i : Int} : Ren φ o φ (@mkChr capped i) (@mkChr (placed φ o) i) := by unfold mkChr; ren
macro_rules | `(tactic| renl) => `(tactic| with_reducible exact ren_mkChr)
theorem ren_mkSym {k : Sym} : Ren φ o φ (@mkSym capped k) (@mkSym (placed φ o) k) := by unfold mkSym; ren
macro_rules | `(tactic| renl) => `(tactic| with_reducible exact ren_mkSym)
theorem ren_mkBool {b : Bool} : Ren φ o φ (@mkBool capped b) (@mkBool (placed φ o) b) := by unfold mkBool; ren
macro_rules | `(tactic| renl) => `(tactic| with_reducible exact ren_mkBool)
theorem ren_consH {x : Addr} {y : Addr} : Ren φ o φ (@consH capped x y) (@consH (placed φ o) (φ x) (φ y)) := by unfold consH; ren
macro_rules | `(tactic| renl) => `(tactic| with_reducible exact ren_consH)
theorem ren_carH {a : Addr} : Ren φ o φ (@carH capped a) (@carH (placed φ o) (φ a)) := by unfold carH; ren
macro_rules | `(tactic| renl) => `(tactic| with_reducible exact ren_carH)
theorem ren_cdrH {a : Addr} : Ren φ o φ (@cdrH capped a) (@cdrH (placed φ o) (φ a)) := by unfold cdrH; ren
macro_rules | `(tactic| renl) => `(tactic| with_reducible exact ren_cdrH)
theorem ren_lastPair  (n : Nat) : ∀ (a : Addr), Ren φ o φ (lastPair n a) (lastPair n (φ a)) := by
  induction n with
  | zero => intro a; unfold lastPair; ren
  | succ n ih => intro a; unfold lastPair; ren
macro_rules | `(tactic| renl) => `(tactic| with_reducible exact ren_lastPair _ _)
theorem ren_concH {n : Nat} {x : Addr} {y : Addr} : Ren φ o φ (@concH capped n x y) (@concH (placed φ o) n (φ x) (φ y)) := by unfold concH; ren
macro_rules | `(tactic| renl) => `(tactic| with_reducible exact ren_concH)
theorem ren_appendH {n : Nat} {x : Addr} {y : Addr} : Ren φ o φ (@appendH capped n x y) (@appendH (placed φ o) n (φ x) (φ y)) := by unfold appendH; ren
macro_rules | `(tactic| renl) => `(tactic| with_reducible exact ren_appendH)
theorem ren_noFlag {a : Addr} : Ren φ o (fun x => x) (noFlag a) (noFlag (φ a)) := by unfold noFlag; ren
macro_rules | `(tactic| renl) => `(tactic| with_reducible exact ren_noFlag)
theorem ren_dupH  (n : Nat) : ∀ (a : Addr), Ren φ o φ (@dupH capped n a) (@dupH (placed φ o) n (φ a)) := by
  induction n with
  | zero => intro a; unfold dupH; ren
  | succ n ih => intro a; unfold dupH; ren
macro_rules | `(tactic| renl) => `(tactic| with_reducible exact ren_dupH _ _)
theorem ren_compareH {a : Addr} {b : Addr} : Ren φ o (fun x => x) (compareH a b) (compareH (φ a) (φ b)) := by unfold compareH; ren
macro_rules | `(tactic| renl) => `(tactic| with_reducible exact ren_compareH)
theorem ren_sssH  (n : Nat) : ∀ (a : Addr) (b : Addr), Ren φ o φ (@sssH capped n a b) (@sssH (placed φ o) n (φ a) (φ b)) := by
  induction n with
  | zero => intro a b; unfold sssH; ren
  | succ n ih => intro a b; unfold sssH; ren
macro_rules | `(tactic| renl) => `(tactic| with_reducible exact ren_sssH _ _ _)
theorem ren_mergeLoop  (n : Nat) : ∀ (a : Addr) (b : Addr), Ren φ o φ (@mergeLoop capped n a b) (@mergeLoop (placed φ o) n (φ a) (φ b)) := by
  induction n with
  | zero => intro a b; unfold mergeLoop; ren
  | succ n ih => intro a b; unfold mergeLoop; ren
macro_rules | `(tactic| renl) => `(tactic| with_reducible exact ren_mergeLoop _ _ _)
theorem ren_mergeH {n : Nat} {x : Addr} {y : Addr} : Ren φ o φ (@mergeH capped n x y) (@mergeH (placed φ o) n (φ x) (φ y)) := by unfold mergeH; ren
macro_rules | `(tactic| renl) => `(tactic| with_reducible exact ren_mergeH)
theorem ren_equH  (n : Nat) : ∀ (a : Addr) (b : Addr), Ren φ o (fun x => x) (equH n a b) (equH n (φ a) (φ b)) := by
  induction n with
  | zero => intro a b; unfold equH; ren
  | succ n ih => intro a b; unfold equH; ren
macro_rules | `(tactic| renl) => `(tactic| with_reducible exact ren_equH _ _ _)
theorem ren_neqH  (n : Nat) : ∀ (a : Addr) (b : Addr), Ren φ o (fun x => x) (neqH n a b) (neqH n (φ a) (φ b)) := by
  induction n with
  | zero => intro a b; unfold neqH; ren
  | succ n ih => intro a b; unfold neqH; ren
macro_rules | `(tactic| renl) => `(tactic| with_reducible exact ren_neqH _ _ _)
theorem ren_matchH  (n : Nat) : ∀ (a : Addr) (b : Addr), Ren φ o (fun x => x) (matchH n a b) (matchH n (φ a) (φ b)) := by
  induction n with
  | zero => intro a b; unfold matchH; ren
  | succ n ih => intro a b; unfold matchH; ren
macro_rules | `(tactic| renl) => `(tactic| with_reducible exact ren_matchH _ _ _)
theorem ren_lenH  (n : Nat) : ∀ (a : Addr), Ren φ o (fun x => x) (lenH n a) (lenH n (φ a)) := by
  induction n with
  | zero => intro a; unfold lenH; ren
  | succ n ih => intro a; unfold lenH; ren
macro_rules | `(tactic| renl) => `(tactic| with_reducible exact ren_lenH _ _)
theorem ren_isStringH  (n : Nat) : ∀ (a : Addr), Ren φ o (fun x => x) (isStringH n a) (isStringH n (φ a)) := by
  induction n with
  | zero => intro a; unfold isStringH; ren
  | succ n ih => intro a; unfold isStringH; ren
macro_rules | `(tactic| renl) => `(tactic| with_reducible exact ren_isStringH _ _)
theorem ren_cstringH  (n : Nat) : ∀ (a : Addr) (i : Nat) (j : Nat), Ren φ o (fun x => x) (cstringH n a i j) (cstringH n (φ a) i j) := by
  induction n with
  | zero => intro a i j; unfold cstringH; ren
  | succ n ih => intro a i j; unfold cstringH; ren
macro_rules | `(tactic| renl) => `(tactic| with_reducible exact ren_cstringH _ _ _ _)
theorem ren_escapesH  (n : Nat) : ∀ (a : Addr) (b : Bool) (r : Addr), Ren φ o φ (@escapesH capped n a b r) (@escapesH (placed φ o) n (φ a) b (φ r)) := by
  induction n with
  | zero => intro a b r; unfold escapesH; ren
  | succ n ih => intro a b r; unfold escapesH; ren
macro_rules | `(tactic| renl) => `(tactic| with_reducible exact ren_escapesH _ _ _ _)
theorem ren_charsH {l : List Int} : Ren φ o φ (@charsH capped l) (@charsH (placed φ o) l) := by
  induction l with
  | nil => unfold charsH; ren
  | cons a l ih => unfold charsH; ren
macro_rules | `(tactic| renl) => `(tactic| with_reducible exact ren_charsH)
theorem ren_makeStringH {n : Nat} {l : List UInt8} : Ren φ o φ (@makeStringH capped n l) (@makeStringH (placed φ o) n l) := by unfold makeStringH; ren
macro_rules | `(tactic| renl) => `(tactic| with_reducible exact ren_makeStringH)
theorem ren_mayApplyH  (n : Nat) : ∀ (a : Addr) (b : Addr), Ren φ o (fun x => x) (mayApplyH n a b) (mayApplyH n (φ a) (φ b)) := by
  induction n with
  | zero => intro a b; unfold mayApplyH; ren
  | succ n ih => intro a b; unfold mayApplyH; ren
macro_rules | `(tactic| renl) => `(tactic| with_reducible exact ren_mayApplyH _ _ _)
theorem ren_bindH  (n : Nat) : ∀ (a : Addr) (b : Addr) (c : Addr), Ren φ o φ (@bindH capped n a b c) (@bindH (placed φ o) n (φ a) (φ b) (φ c)) := by
  induction n with
  | zero => intro a b c; unfold bindH; ren
  | succ n ih => intro a b c; unfold bindH; ren
macro_rules | `(tactic| renl) => `(tactic| with_reducible exact ren_bindH _ _ _ _)
theorem ren_tails (n : Nat) : (∀ a, Ren φ o φ (@tailsAssocH capped n a) (@tailsAssocH (placed φ o) n (φ a))) ∧
    (∀ a, Ren φ o φ (@tailsH capped n a) (@tailsH (placed φ o) n (φ a))) := by
  induction n with
  | zero => exact ⟨fun a => by unfold tailsAssocH; ren, fun a => by unfold tailsH; ren⟩
  | succ n ih =>
    obtain ⟨ih1, ih2⟩ := ih
    exact ⟨fun a => by unfold tailsAssocH; ren, fun a => by unfold tailsH; ren⟩
theorem ren_tailsH {n : Nat} {a : Addr} : Ren φ o φ (@tailsH capped n a) (@tailsH (placed φ o) n (φ a)) := (ren_tails n).2 a
macro_rules | `(tactic| renl) => `(tactic| with_reducible exact ren_tailsH)
theorem ren_markH {p p' : Bool} {a : Addr} : Ren φ o (fun x => x) (markH p a) (markH p' (φ a)) := by unfold markH; ren
macro_rules | `(tactic| renl) => `(tactic| with_reducible exact ren_markH)
theorem ren_markOneH {p p' : Bool} {n : Nat} {k : Sym} {a : Addr} {b : Addr} : Ren φ o (fun x => x) (markOneH p n k a b) (markOneH p' n k (φ a) (φ b)) := by unfold markOneH; ren
macro_rules | `(tactic| renl) => `(tactic| with_reducible exact ren_markOneH)
theorem ren_markLoopH {p p' : Bool} (n : Nat) : ∀ (k : Sym) (a : Addr) (b : Addr), Ren φ o (fun x => x) (markLoopH p n k a b) (markLoopH p' n k (φ a) (φ b)) := by
  induction n with
  | zero => intro k a b; unfold markLoopH; ren
  | succ n ih => intro k a b; unfold markLoopH; ren
macro_rules | `(tactic| renl) => `(tactic| with_reducible exact ren_markLoopH _ _ _ _)
theorem ren_markTailCallsH {p p' : Bool} {n : Nat} {k : Sym} {a : Addr} {b : Addr} : Ren φ o (fun x => x) (@markTailCallsH capped p n k a b) (@markTailCallsH (placed φ o) p' n k (φ a) (φ b)) := by unfold markTailCallsH; ren
macro_rules | `(tactic| renl) => `(tactic| with_reducible exact ren_markTailCallsH)
theorem ren_isFuncH {a : Addr} : Ren φ o (fun x => x) (isFuncH a) (isFuncH (φ a)) := by unfold isFuncH; ren
macro_rules | `(tactic| renl) => `(tactic| with_reducible exact ren_isFuncH)
theorem ren_findH  (n : Nat) : ∀ (a : Addr) (k : Sym), Ren φ o (Option.map φ) (findH n a k) (findH n (φ a) k) := by
  induction n with
  | zero => intro a k; unfold findH; ren
  | succ n ih => intro a k; unfold findH; ren
macro_rules | `(tactic| renl) => `(tactic| with_reducible exact ren_findH _ _ _)
theorem ren_assocH {n : Nat} {a : Addr} {k : Sym} : Ren φ o (Option.map φ) (assocH n a k) (assocH n (φ a) k) := by unfold assocH; ren
macro_rules | `(tactic| renl) => `(tactic| with_reducible exact ren_assocH)
theorem ren_treeGetH {k : Sym} : Ren φ o (fun p => (φ p.1, p.2)) (@treeGetH capped k) (@treeGetH (placed φ o) k) := by unfold treeGetH; ren
macro_rules | `(tactic| renl) => `(tactic| with_reducible exact ren_treeGetH)
theorem ren_setCache {a : Addr} {b : Addr} : Ren φ o (fun x => x) (setCache a b) (setCache (φ a) (φ b)) := by unfold setCache; ren
macro_rules | `(tactic| renl) => `(tactic| with_reducible exact ren_setCache)
theorem ren_lookupH {n : Nat} {a : Addr} {b : Addr} {k : Sym} : Ren φ o φ (@lookupH capped n a b k) (@lookupH (placed φ o) n (φ a) (φ b) k) := by unfold lookupH; ren
macro_rules | `(tactic| renl) => `(tactic| with_reducible exact ren_lookupH)
theorem ren_entryH {k : Sym} {a : Addr} : Ren φ o (fun p => (φ p.1, φ p.2)) (entryH k a) (entryH k (φ a)) := by unfold entryH; ren
macro_rules | `(tactic| renl) => `(tactic| with_reducible exact ren_entryH)
theorem ren_ownH {a : Addr} : Ren φ o (fun x => x) (ownH a) (ownH (φ a)) := by unfold ownH; ren
theorem ownH_val {a : Addr} {s s' : HSt} {u : UB} (e : ownH a s = .ok (u, s')) : u = .useAfterFree ∨ u = .staleArg := by
  unfold ownH at e
  obtain ⟨_, _, _, e⟩ := hbind_ok e
  obtain ⟨⟨_, _⟩, _, _, e⟩ := hbind_ok e
  obtain ⟨_, _, _, e⟩ := hbind_ok e
  cases e
  split
  · exact .inl rfl
  · exact .inr rfl
theorem ren_own {α : Type} {g : α → α} {a : Addr} {f f' : UB → HM α} (hf : ∀ u, u = .useAfterFree ∨ u = .staleArg → Ren φ o g (f u) (f' u)) :
    Ren φ o g (ownH a >>= f) (ownH (φ a) >>= f') := ren_ownH.bindQ (fun _ _ _ => ownH_val) hf
theorem ren_setqH {a : Addr} : Ren φ o (fun x => x) (@setqH capped a) (@setqH (placed φ o) (φ a)) := by unfold setqH; ren
macro_rules | `(tactic| renl) => `(tactic| with_reducible exact ren_setqH)
theorem ren_progH {ev ev' : HEv} (hev : ∀ c a, Ren φ o φ (ev c a) (ev' (φ c) (φ a))) (n : Nat) : ∀ (c : Addr) (a : Addr) (r : Addr), Ren φ o φ (@progH capped ev n c a r) (@progH (placed φ o) ev' n (φ c) (φ a) (φ r)) := by
  induction n with
  | zero => intro c a r; unfold progH; ren
  | succ n ih => intro c a r; unfold progH; ren
macro_rules | `(tactic| renl) => `(tactic| with_reducible exact ren_progH $(Lean.mkIdent `hev) _ _ _ _)
theorem ren_evalArgsH {ev ev' : HEv} (hev : ∀ c a, Ren φ o φ (ev c a) (ev' (φ c) (φ a))) (n : Nat) : ∀ (c : Addr) (x : Addr) (y : Addr) (z : Addr), Ren φ o φ (@evalArgsH capped ev n c x y z) (@evalArgsH (placed φ o) ev' n (φ c) (φ x) (φ y) (φ z)) := by
  induction n with
  | zero => intro c x y z; unfold evalArgsH; ren
  | succ n ih => intro c x y z; unfold evalArgsH; ren
macro_rules | `(tactic| renl) => `(tactic| with_reducible exact ren_evalArgsH $(Lean.mkIdent `hev) _ _ _ _ _)
theorem ren_isSelfTailH {a : Addr} {b : Addr} : Ren φ o (fun x => x) (isSelfTailH a b) (isSelfTailH (φ a) (φ b)) := by unfold isSelfTailH; ren
macro_rules | `(tactic| renl) => `(tactic| with_reducible exact ren_isSelfTailH)
theorem ren_tailLoopH {ev ev' : HEv} {symb : Addr} {body : Addr} {cls : Addr} (hev : ∀ c a, Ren φ o φ (ev c a) (ev' (φ c) (φ a))) (n : Nat) : ∀ (r : Addr), Ren φ o (fun p => (φ p.1, φ p.2)) (@tailLoopH capped ev symb body cls n r) (@tailLoopH (placed φ o) ev' (φ symb) (φ body) (φ cls) n (φ r)) := by
  induction n with
  | zero => intro r; unfold tailLoopH; ren
  | succ n ih => intro r; unfold tailLoopH; ren
macro_rules | `(tactic| renl) => `(tactic| with_reducible exact ren_tailLoopH $(Lean.mkIdent `hev) _ _)
theorem ren_popH {a : Addr} : Ren φ o (fun p => (φ p.1, φ p.2)) (popH a) (popH (φ a)) := by unfold popH; ren
macro_rules | `(tactic| renl) => `(tactic| with_reducible exact ren_popH)
theorem ren_condH {ev ev' : HEv} (hev : ∀ c a, Ren φ o φ (ev c a) (ev' (φ c) (φ a))) (n : Nat) : ∀ (c : Addr) (x : Addr) (y : Addr), Ren φ o φ (@condH capped ev n c x y) (@condH (placed φ o) ev' n (φ c) (φ x) (φ y)) := by
  induction n with
  | zero => intro c x y; unfold condH; ren
  | succ n ih => intro c x y; unfold condH; ren
macro_rules | `(tactic| renl) => `(tactic| with_reducible exact ren_condH $(Lean.mkIdent `hev) _ _ _ _)
theorem ren_matchLoopH {ev ev' : HEv} (hev : ∀ c a, Ren φ o φ (ev c a) (ev' (φ c) (φ a))) (n : Nat) : ∀ (c : Addr) (x : Addr) (y : Addr), Ren φ o φ (@matchLoopH capped ev n c x y) (@matchLoopH (placed φ o) ev' n (φ c) (φ x) (φ y)) := by
  induction n with
  | zero => intro c x y; unfold matchLoopH; ren
  | succ n ih => intro c x y; unfold matchLoopH; ren
macro_rules | `(tactic| renl) => `(tactic| with_reducible exact ren_matchLoopH $(Lean.mkIdent `hev) _ _ _ _)
theorem ren_listH {ev ev' : HEv} (hev : ∀ c a, Ren φ o φ (ev c a) (ev' (φ c) (φ a))) (n : Nat) : ∀ (c : Addr) (x : Addr), Ren φ o φ (@listH capped ev n c x) (@listH (placed φ o) ev' n (φ c) (φ x)) := by
  induction n with
  | zero => intro c x; unfold listH; ren
  | succ n ih => intro c x; unfold listH; ren
macro_rules | `(tactic| renl) => `(tactic| with_reducible exact ren_listH $(Lean.mkIdent `hev) _ _ _)
theorem ren_streamH {ev ev' : HEv} (hev : ∀ c a, Ren φ o φ (ev c a) (ev' (φ c) (φ a))) (n : Nat) : ∀ (c : Addr) (x : Addr) (y : Addr), Ren φ o φ (@streamH capped ev n c x y) (@streamH (placed φ o) ev' n (φ c) (φ x) (φ y)) := by
  induction n with
  | zero => intro c x y; unfold streamH; ren
  | succ n ih => intro c x y; unfold streamH; ren
macro_rules | `(tactic| renl) => `(tactic| with_reducible exact ren_streamH $(Lean.mkIdent `hev) _ _ _ _)
theorem ren_letMarkH {u : UB} {n : Nat} {x : Addr} {y : Addr} {z : Addr} (hu : u = .useAfterFree ∨ u = .staleArg) : Ren φ o (fun x => x) (@letMarkH capped u n x y z) (@letMarkH (placed φ o) u n (φ x) (φ y) (φ z)) := by unfold letMarkH; ren
macro_rules | `(tactic| renl) => `(tactic| with_reducible exact ren_letMarkH $(Lean.mkIdent `hu))
theorem ren_letBindH {ev ev' : HEv} {u : UB} (hev : ∀ c a, Ren φ o φ (ev c a) (ev' (φ c) (φ a))) (hu : u = .useAfterFree ∨ u = .staleArg) (n : Nat) : ∀ (c : Addr) (x : Addr) (y : Addr), Ren φ o φ (@letBindH capped ev u n c x y) (@letBindH (placed φ o) ev' u n (φ c) (φ x) (φ y)) := by
  induction n with
  | zero => intro c x y; unfold letBindH; ren
  | succ n ih => intro c x y; unfold letBindH; ren
macro_rules | `(tactic| renl) => `(tactic| with_reducible exact ren_letBindH $(Lean.mkIdent `hev) $(Lean.mkIdent `hu) _ _ _ _)
theorem ren_letH {ev ev' : HEv} {u : UB} {n : Nat} {c : Addr} {a : Addr} (hev : ∀ c a, Ren φ o φ (ev c a) (ev' (φ c) (φ a))) (hu : u = .useAfterFree ∨ u = .staleArg) : Ren φ o φ (@letH capped ev u n c a) (@letH (placed φ o) ev' u n (φ c) (φ a)) := by unfold letH; ren
macro_rules | `(tactic| renl) => `(tactic| with_reducible exact ren_letH $(Lean.mkIdent `hev) $(Lean.mkIdent `hu))
theorem ren_whileH {ev ev' : HEv} {c : Addr} {cnd : Addr} {prg : Addr} (hev : ∀ c a, Ren φ o φ (ev c a) (ev' (φ c) (φ a))) (n : Nat) : ∀ (r : Addr), Ren φ o φ (@whileH capped ev c cnd prg n r) (@whileH (placed φ o) ev' (φ c) (φ cnd) (φ prg) n (φ r)) := by
  induction n with
  | zero => intro r; unfold whileH; ren
  | succ n ih => intro r; unfold whileH; ren
macro_rules | `(tactic| renl) => `(tactic| with_reducible exact ren_whileH $(Lean.mkIdent `hev) _ _)
theorem ren_viewH  (n : Nat) : ∀ (a : Addr), Ren φ o (fun x => x) (viewH n a) (viewH n (φ a)) := by
  induction n with
  | zero => intro a; unfold viewH; ren
  | succ n ih => intro a; unfold viewH; ren
macro_rules | `(tactic| renl) => `(tactic| with_reducible exact ren_viewH _ _)
theorem ren_prinH {n : Nat} {a : Addr} {b : Bool} : Ren φ o (fun x => x) (prinH n a b) (prinH n (φ a) b) := by unfold prinH; ren
macro_rules | `(tactic| renl) => `(tactic| with_reducible exact ren_prinH)
theorem ren_sepH {b : Bool} : Ren φ o (fun x => x) (sepH b) (sepH b) := by unfold sepH; ren
macro_rules | `(tactic| renl) => `(tactic| with_reducible exact ren_sepH)
theorem ren_prinAllH {ev ev' : HEv} {b : Bool} (hev : ∀ c a, Ren φ o φ (ev c a) (ev' (φ c) (φ a))) (n : Nat) : ∀ (c : Addr) (x : Addr) (y : Addr), Ren φ o φ (@prinAllH capped ev b n c x y) (@prinAllH (placed φ o) ev' b n (φ c) (φ x) (φ y)) := by
  induction n with
  | zero => intro c x y; unfold prinAllH; ren
  | succ n ih => intro c x y; unfold prinAllH; ren
macro_rules | `(tactic| renl) => `(tactic| with_reducible exact ren_prinAllH $(Lean.mkIdent `hev) _ _ _ _)
theorem ren_docH {a : Addr} : Ren φ o φ (@docH capped a) (@docH (placed φ o) (φ a)) := by unfold docH; ren
macro_rules | `(tactic| renl) => `(tactic| with_reducible exact ren_docH)
theorem ren_defH {n : Nat} {x a : Addr} : Ren φ o φ (@defH capped n x a) (@defH (placed φ o) n (φ x) (φ a)) := by
  unfold defH
  refine ren_lone fun _ _ => ?_
  ren
macro_rules | `(tactic| renl) => `(tactic| with_reducible exact ren_defH)
theorem ren_assignH {n : Nat} {c : Addr} {x : Addr} {y : Addr} : Ren φ o φ (@assignH capped n c x y) (@assignH (placed φ o) n (φ c) (φ x) (φ y)) := by unfold assignH; ren
macro_rules | `(tactic| renl) => `(tactic| with_reducible exact ren_assignH)
theorem ren_setH {ev ev' : HEv} {u : UB} {n : Nat} {c : Addr} {a : Addr} (hev : ∀ c a, Ren φ o φ (ev c a) (ev' (φ c) (φ a))) (hu : u = .useAfterFree ∨ u = .staleArg) : Ren φ o φ (@setH capped ev u n c a) (@setH (placed φ o) ev' u n (φ c) (φ a)) := by unfold setH; ren
macro_rules | `(tactic| renl) => `(tactic| with_reducible exact ren_setH $(Lean.mkIdent `hev) $(Lean.mkIdent `hu))
theorem ren_setqNatH {ev ev' : HEv} {c : Addr} {a : Addr} (hev : ∀ c a, Ren φ o φ (ev c a) (ev' (φ c) (φ a))) : Ren φ o φ (@setqNatH capped ev c a) (@setqNatH (placed φ o) ev' (φ c) (φ a)) := by unfold setqNatH; ren
macro_rules | `(tactic| renl) => `(tactic| with_reducible exact ren_setqNatH $(Lean.mkIdent `hev))
theorem ren_orH {ev ev' : HEv} {c : Addr} {a : Addr} (hev : ∀ c a, Ren φ o φ (ev c a) (ev' (φ c) (φ a))) : Ren φ o φ (@orH capped ev c a) (@orH (placed φ o) ev' (φ c) (φ a)) := by unfold orH; ren
macro_rules | `(tactic| renl) => `(tactic| with_reducible exact ren_orH $(Lean.mkIdent `hev))
theorem ren_ofAtom {v : Val} : Ren φ o φ (@ofAtom capped v) (@ofAtom (placed φ o) v) := by unfold ofAtom; ren
macro_rules | `(tactic| renl) => `(tactic| with_reducible exact ren_ofAtom)
theorem ren_symNatH {n : Nat} {x : Addr} : Ren φ o φ (@symNatH capped n x) (@symNatH (placed φ o) n (φ x)) := by unfold symNatH; ren
macro_rules | `(tactic| renl) => `(tactic| with_reducible exact ren_symNatH)
theorem ren_unaryH {n : Nat} {op : Native} {x : Addr} : Ren φ o φ (@unaryH capped n op x) (@unaryH (placed φ o) n op (φ x)) := by unfold unaryH; ren
macro_rules | `(tactic| renl) => `(tactic| with_reducible exact ren_unaryH)
theorem ren_binaryH {n : Nat} {op : Native} {x : Addr} {y : Addr} : Ren φ o φ (@binaryH capped n op x y) (@binaryH (placed φ o) n op (φ x) (φ y)) := by unfold binaryH; ren
macro_rules | `(tactic| renl) => `(tactic| with_reducible exact ren_binaryH)
theorem ren_nativeAnyH {n : Nat} {ev ev' : HEv} {op : Native} {u : UB} {f : Addr} {c : Addr} {a : Addr} (hev : ∀ c a, Ren φ o φ (ev c a) (ev' (φ c) (φ a))) (hu : u = .useAfterFree ∨ u = .staleArg) : Ren φ o φ (@nativeAnyH capped n ev op u f c a) (@nativeAnyH (placed φ o) n ev' op u (φ f) (φ c) (φ a)) := by unfold nativeAnyH; ren
macro_rules | `(tactic| renl) => `(tactic| with_reducible exact ren_nativeAnyH $(Lean.mkIdent `hev) $(Lean.mkIdent `hu))
theorem ren_nativeRemH {n : Nat} {ev ev' : HEv} {op : Native} {c : Addr} {a : Addr} {b : Addr} (hev : ∀ c a, Ren φ o φ (ev c a) (ev' (φ c) (φ a))) : Ren φ o φ (@nativeRemH capped n ev op c a b) (@nativeRemH (placed φ o) n ev' op (φ c) (φ a) (φ b)) := by unfold nativeRemH; ren
macro_rules | `(tactic| renl) => `(tactic| with_reducible exact ren_nativeRemH $(Lean.mkIdent `hev))
theorem ren_expectEnv {a b : Addr} : Ren φ o (fun x => x) (expectEnv a b) (expectEnv (φ a) (φ b)) := by
  unfold expectEnv
  split
  · rename_i h; subst h; rw [if_pos rfl]; exact Ren.pure rfl
  · exact ren_unsupported
macro_rules | `(tactic| renl) => `(tactic| with_reducible exact ren_expectEnv)
theorem ren_callNativeH {n : Nat} {ev ev' : HEv} {op : Native} {x y : Addr} (hev : ∀ c a, Ren φ o φ (ev c a) (ev' (φ c) (φ a))) :
    Ren φ o φ (@callNativeH capped n ev op x y) (@callNativeH (placed φ o) n ev' op (φ x) (φ y)) := by
  unfold callNativeH
  cases op.shape with
  | any =>
    dsimp only
    refine Ren.bind ren_popH fun p => ?_
    obtain ⟨p, q⟩ := p
    dsimp only
    refine Ren.bind ren_expectEnv fun _ => ren_own fun u hu => ?_
    ren
  | _ => ren
macro_rules | `(tactic| renl) => `(tactic| with_reducible exact ren_callNativeH $(Lean.mkIdent `hev))
theorem ren_nativeClosH {n : Nat} {x : Addr} {y : Addr} {z : Addr} : Ren φ o φ (@nativeClosH capped n x y z) (@nativeClosH (placed φ o) n (φ x) (φ y) (φ z)) := by unfold nativeClosH; ren
macro_rules | `(tactic| renl) => `(tactic| with_reducible exact ren_nativeClosH)
theorem ren_applyH {n : Nat} {ev ev' : HEv} {a : Addr} {b : Addr} {c : Addr} {d : Addr} {e : Addr} {f : Addr} (hev : ∀ c a, Ren φ o φ (ev c a) (ev' (φ c) (φ a))) : Ren φ o φ (@applyH capped n ev a b c d e f) (@applyH (placed φ o) n ev' (φ a) (φ b) (φ c) (φ d) (φ e) (φ f)) := by unfold applyH; ren
macro_rules | `(tactic| renl) => `(tactic| with_reducible exact ren_applyH $(Lean.mkIdent `hev))
theorem ren_evalFuncH {n : Nat} {ev ev' : HEv} {a : Addr} {b : Addr} {c : Addr} {d : Addr} (hev : ∀ c a, Ren φ o φ (ev c a) (ev' (φ c) (φ a))) : Ren φ o φ (@evalFuncH capped n ev a b c d) (@evalFuncH (placed φ o) n ev' (φ a) (φ b) (φ c) (φ d)) := by unfold evalFuncH; ren
macro_rules | `(tactic| renl) => `(tactic| with_reducible exact ren_evalFuncH $(Lean.mkIdent `hev))
theorem ren_evalNextH {n : Nat} {ev ev' : HEv} {a : Addr} {b : Addr} {c : Addr} {d : Addr} (hev : ∀ c a, Ren φ o φ (ev c a) (ev' (φ c) (φ a))) : Ren φ o φ (@evalNextH capped n ev a b c d) (@evalNextH (placed φ o) n ev' (φ a) (φ b) (φ c) (φ d)) := by unfold evalNextH; ren
macro_rules | `(tactic| renl) => `(tactic| with_reducible exact ren_evalNextH $(Lean.mkIdent `hev))
theorem ren_evalPairH {n : Nat} {ev ev' : HEv} {a : Addr} {b : Addr} (hev : ∀ c a, Ren φ o φ (ev c a) (ev' (φ c) (φ a))) : Ren φ o φ (@evalPairH capped n ev a b) (@evalPairH (placed φ o) n ev' (φ a) (φ b)) := by unfold evalPairH; ren
macro_rules | `(tactic| renl) => `(tactic| with_reducible exact ren_evalPairH $(Lean.mkIdent `hev))
theorem ren_evalStepH {n : Nat} {ev ev' : HEv} {a : Addr} {b : Addr} (hev : ∀ c a, Ren φ o φ (ev c a) (ev' (φ c) (φ a))) : Ren φ o φ (@evalStepH capped n ev a b) (@evalStepH (placed φ o) n ev' (φ a) (φ b)) := by unfold evalStepH; ren
macro_rules | `(tactic| renl) => `(tactic| with_reducible exact ren_evalStepH $(Lean.mkIdent `hev))
theorem ren_evalNH (n : Nat) : ∀ c a, Ren φ o φ (@evalNH capped n c a) (@evalNH (placed φ o) n (φ c) (φ a)) := by
  induction n with
  | zero => intro c a; exact ren_oof
  | succ n ih => intro c a; exact ren_evalStepH ih
macro_rules | `(tactic| renl) => `(tactic| with_reducible exact ren_evalNH _ _ _)
theorem ren_buildH (v : Val) : Ren φ o φ (@buildH capped v) (@buildH (placed φ o) v) := by
  induction v with
  | pair t a d iha ihd => unfold buildH; ren
  | _ => unfold buildH; ren
macro_rules | `(tactic| renl) => `(tactic| with_reducible exact ren_buildH _)
theorem ren_loadNativeH {op : Native} : Ren φ o (fun x => x) (@loadNativeH capped op) (@loadNativeH (placed φ o) op) := by unfold loadNativeH; ren
macro_rules | `(tactic| renl) => `(tactic| with_reducible exact ren_loadNativeH)
theorem ren_loadH {l : List Native} : Ren φ o (fun x => x) (@loadH capped l) (@loadH (placed φ o) l) := by
  induction l with
  | nil => unfold loadH; ren
  | cons a l ih => unfold loadH; ren
macro_rules | `(tactic| renl) => `(tactic| with_reducible exact ren_loadH)
theorem ren_topLoopH {n : Nat} {nl : Addr} {l : List Val} : ∀ r, Ren φ o φ (@topLoopH capped n nl l r) (@topLoopH (placed φ o) n (φ nl) l (φ r)) := by
  induction l with
  | nil => intro r; unfold topLoopH; ren
  | cons a l ih => intro r; unfold topLoopH; ren
macro_rules | `(tactic| renl) => `(tactic| with_reducible exact ren_topLoopH _)
theorem ren_sessionH {n : Nat} {ops : List Native} {es : List Val} : Ren φ o φ (@sessionH capped n ops es) (@sessionH (placed φ o) n ops es) := by unfold sessionH; ren
macro_rules | `(tactic| renl) => `(tactic| with_reducible exact ren_sessionH)

end

end Heap
end Mnml
