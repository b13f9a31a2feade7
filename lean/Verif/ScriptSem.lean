import Verif.Module
import Verif.ReadSem
import Verif.PropStr

/-!
# Scripts: fuel, channels and what a script does

More fuel does not change the outcome of a script; the stack of directories is restored; loading a file evaluates its values in order.
-/

namespace Mnml
namespace Module

open Val Lex

/-! ## Fuel -/

/-- `x` is `oof` or agrees with `y`. -/
def RLe {α : Type} (x y : Res α) : Prop := x = .oof ∨ x = y

theorem RLe.refl {α : Type} (x : Res α) : RLe x x := .inr rfl

theorem RLe.oof {α : Type} (y : Res α) : RLe .oof y := .inl rfl

theorem RLe.bind {α β : Type} {x y : Res α} {f g : α → Res β} (h1 : RLe x y) (h2 : ∀ a, RLe (f a) (g a)) : RLe (x >>= f) (y >>= g) := by
  rcases h1 with rfl | rfl
  · exact .inl rfl
  · cases x with
    | ok a => exact h2 a
    | _ => exact .inr rfl

theorem RLe.ok {α : Type} {x y : Res α} {a : α} (h : RLe x y) (hx : x = .ok a) : y = .ok a := by
  rcases h with h | h
  · rw [h] at hx; cases hx
  · rw [← h, hx]

theorem readLoop_le (ev : Val → Res Val) {n m : Nat} (h : n ≤ m) (st : LSt) (l : List UInt8) : RLe (readLoop ev n st l) (readLoop ev m st l) := by
  induction n generalizing m st l with
  | zero => exact .oof _
  | succ n ih =>
    obtain ⟨m, rfl⟩ : ∃ k, m = k + 1 := ⟨m - 1, by omega⟩
    simp only [readLoop]
    split
    · exact .refl _
    · refine RLe.bind (.refl _) fun st' => ?_
      split
      · exact ih (by omega) _ _
      · exact .refl _

theorem readCh_le (ev : Val → Res Val) {n m : Nat} (h : n ≤ m) (c : IChan) : RLe (readCh ev n c) (readCh ev m c) := by
  simp only [readCh]
  split
  · exact RLe.bind (readLoop_le ev h _ _) fun _ => .refl _
  · exact .refl _

/-- More fuel never changes an outcome other than `oof`. -/
theorem script_le (os : Os) (ev : Val → M Val) (n : Nat) : ∀ m, n ≤ m →
    (∀ e s, RLe (evalTop os ev n e s) (evalTop os ev m e s)) ∧
    (∀ e s, RLe (loadArgs os ev n e s) (loadArgs os ev m e s)) ∧
    (∀ e s, RLe (loadOne os ev n e s) (loadOne os ev m e s)) ∧
    (∀ f s, RLe (loadFile os ev n f s) (loadFile os ev m f s)) ∧
    (∀ c r s, RLe (loadLoop os ev n c r s) (loadLoop os ev m c r s)) := by
  induction n with
  | zero =>
    intro m _
    refine ⟨?_, ?_, ?_, ?_, ?_⟩ <;> intros <;> exact .inl rfl
  | succ n ih =>
    intro m hm
    obtain ⟨m, rfl⟩ : ∃ k, m = k + 1 := ⟨m - 1, by omega⟩
    obtain ⟨i1, i2, i3, i4, i5⟩ := ih m (by omega)
    refine ⟨?_, ?_, ?_, ?_, ?_⟩
    · intro e s
      simp only [evalTop]
      split
      · exact i2 _ _
      · exact .refl _
    · intro e s
      simp only [loadArgs]
      refine RLe.bind (.refl _) fun p => RLe.bind (i3 _ _) fun q => ?_
      split
      · exact .refl _
      · exact i2 _ _
    · intro e s
      simp only [loadOne]
      split
      · exact .refl _
      · split
        · exact RLe.bind (.refl _) fun f => i4 _ _
        · exact .refl _
      · exact .refl _
    · intro f s
      simp only [loadFile]
      refine RLe.bind (.refl _) fun q => ?_
      split
      · exact .refl _
      · exact RLe.bind (i5 _ _ _) fun _ => .refl _
    · intro c r s
      simp only [loadLoop]
      refine RLe.bind (readCh_le _ (by omega) _) fun q => ?_
      split
      · exact .refl _
      · exact RLe.bind (i1 _ _) fun p => i5 _ _ _

/-! ## The stack of directories -/

theorem moduleLoad_dirs {os : Os} {cell r : Val} {s s' : SSt} (h : moduleLoad os cell s = .ok (r, s')) : s'.dirs = s.dirs := by
  rw [moduleLoad] at h
  split at h
  · next name _ =>
    obtain ⟨q, hq, h⟩ := Res.bind_eq_ok.1 h
    cases q with
    | none => cases h; rfl
    | some p =>
      simp only [Res.ok.injEq] at h
      have e : s' = (loadBinary os p name cell.cdr s).2 := by rw [h]
      subst e
      simp only [loadBinary, openLib]
      split
      · split <;> rfl
      · split
        · next h1 =>
          split at h1
          · cases h1; rfl
          · split at h1
            · cases h1; rfl
            · split at h1 <;> cases h1 <;> rfl
        · next h1 =>
          split at h1
          · cases h1
          · split at h1
            · cases h1
            · split at h1
              · cases h1
                split
                · rfl
                · split <;> rfl
              · cases h1
  · cases h; rfl

/-- Nothing changes the stack of directories. -/
theorem script_dirs (os : Os) (ev : Val → M Val) (n : Nat) :
    (∀ e s r s', evalTop os ev n e s = .ok (r, s') → s'.dirs = s.dirs) ∧
    (∀ e s r s', loadArgs os ev n e s = .ok (r, s') → s'.dirs = s.dirs) ∧
    (∀ e s r s', loadOne os ev n e s = .ok (r, s') → s'.dirs = s.dirs) ∧
    (∀ f s r s', loadFile os ev n f s = .ok (r, s') → s'.dirs = s.dirs) ∧
    (∀ c v s r s', loadLoop os ev n c v s = .ok (r, s') → s'.dirs = s.dirs) := by
  induction n with
  | zero =>
    refine ⟨?_, ?_, ?_, ?_, ?_⟩ <;> (intros; rename_i h; simp [evalTop, loadArgs, loadOne, loadFile, loadLoop] at h)
  | succ n ih =>
    obtain ⟨i1, i2, i3, i4, i5⟩ := ih
    refine ⟨?_, ?_, ?_, ?_, ?_⟩
    · intro e s r s' h
      simp only [evalTop] at h
      split at h
      · exact i2 _ _ _ _ h
      · obtain ⟨p, -, h⟩ := Res.bind_eq_ok.1 h
        cases h; rfl
    · intro e s r s' h
      simp only [loadArgs] at h
      obtain ⟨p, -, h⟩ := Res.bind_eq_ok.1 h
      obtain ⟨q, h1, h⟩ := Res.bind_eq_ok.1 h
      have hd := i3 _ _ _ _ h1
      split at h
      · cases h; exact hd
      · exact (i2 _ _ _ _ h).trans hd
    · intro e s r s' h
      simp only [loadOne] at h
      split at h
      · exact moduleLoad_dirs h
      · split at h
        · obtain ⟨p, -, h⟩ := Res.bind_eq_ok.1 h
          exact i4 _ _ _ _ h
        · exact moduleLoad_dirs h
      · cases h; rfl
    · intro f s r s' h
      simp only [loadFile] at h
      obtain ⟨p, -, h⟩ := Res.bind_eq_ok.1 h
      split at h
      · cases h; rfl
      · obtain ⟨q, h1, h⟩ := Res.bind_eq_ok.1 h
        have := i5 _ _ _ _ _ h1
        cases h
        simp only [this, push, List.tail_cons]
    · intro c v s r s' h
      simp only [loadLoop] at h
      obtain ⟨p, -, h⟩ := Res.bind_eq_ok.1 h
      split at h
      · cases h; rfl
      · obtain ⟨q, h1, h⟩ := Res.bind_eq_ok.1 h
        exact (i5 _ _ _ _ _ h).trans (i1 _ _ _ _ h1)

/-! ## The values of a file -/

/-- The channel `c` still delivers the values `vs`, then the end of the file. -/
inductive Delivers : IChan → List Val → Prop where
  | nil {c c' : IChan} {n : Nat} (h : readCh (fun _ => .unsupported) n c = .ok (none, c')) : Delivers c []
  | cons {c c' : IChan} {n : Nat} {v : Val} {vs : List Val} (h : readCh (fun _ => .unsupported) n c = .ok (some v, c'))
      (ht : Delivers c' vs) : Delivers c (v :: vs)

theorem delivers_buf {rest : List UInt8} {vs ws : List Val} (h : Delivers ⟨rest, []⟩ ws) : Delivers ⟨rest, vs⟩ (vs ++ ws) := by
  induction vs with
  | nil => exact h
  | cons v vs ih => exact .cons (n := 0) (c' := ⟨rest, vs⟩) rfl ih

theorem delivers_empty : Delivers ⟨[], []⟩ [] := .nil (n := 1) (c' := ⟨[], []⟩) rfl

/-- If one pass of a single lexer over a file yields the values `vs`, a channel on the file delivers them. -/
theorem delivers_drain {n : Nat} {t : List UInt8} {fin : LSt} (h : drain (fun _ => .unsupported) n .init t = .ok fin) :
    Delivers ⟨t, []⟩ fin.ps.vals := by
  induction n using Nat.strongRecOn generalizing t fin with
  | ind n ih =>
    obtain ⟨st', l', r1, r2, r3⟩ := readLoop_drain (fun _ => .unsupported) (Nat.le_refl n) h clean_init
    have e : readCh (fun _ => .unsupported) n ⟨t, []⟩ = .ok (readPop ⟨l', st'.ps.vals⟩) := by
      simp [readCh, r1]
    rcases r3 with ⟨rfl, rfl⟩ | ⟨n', hn', hd, hrem, hfr, hv⟩
    · cases hb : st'.ps.vals with
      | nil => exact .nil (by rw [e, hb]; rfl)
      | cons v vs =>
        rw [hb] at e
        have := delivers_buf (vs := vs) delivers_empty
        rw [List.append_nil] at this
        exact .cons e this
    · have hst : st' = LSt.after st'.ps.vals .init := by
        obtain ⟨rem, fs, p, vs⟩ := st'
        have := r2 hfr
        simp only at hrem hfr this
        subst hrem hfr this
        simp [LSt.after, PSt.after, LSt.init, PSt.init]
      rw [hst, drain_after] at hd
      obtain ⟨fin2, h2, e2⟩ := Res.bind_eq_ok.1 hd
      have hv2 : fin.ps.vals = st'.ps.vals ++ fin2.ps.vals := by cases e2; rfl
      have hk := ih n' hn' h2
      cases hb : st'.ps.vals with
      | nil => exact absurd hb hv
      | cons v vs =>
        rw [hb] at e
        rw [hv2, hb]
        exact .cons e (delivers_buf hk)

/-- What a channel delivers is determined. -/
theorem Delivers.unique {c : IChan} {vs ws : List Val} (h1 : Delivers c vs) (h2 : Delivers c ws) : vs = ws := by
  have key : ∀ {n m : Nat} {a b : Option Val × IChan}, readCh (fun _ => .unsupported) n c = .ok a →
      readCh (fun _ => .unsupported) m c = .ok b → a = b := by
    intro n m a b ha hb
    have ha := (readCh_le _ (Nat.le_max_left n m) c).ok ha
    have hb := (readCh_le _ (Nat.le_max_right n m) c).ok hb
    rw [ha] at hb
    exact Res.ok.inj hb
  induction h1 generalizing ws with
  | nil h =>
    cases h2 with
    | nil h' => rfl
    | cons h' ht => cases key h h'
  | cons h ht ih =>
    cases h2 with
    | nil h' => cases key h h'
    | cons h' ht' =>
      cases key h h'
      rw [ih ht' ?_]
      intro n m a b ha hb
      have ha := (readCh_le _ (Nat.le_max_left n m) _).ok ha
      have hb := (readCh_le _ (Nat.le_max_right n m) _).ok hb
      rw [ha] at hb
      exact Res.ok.inj hb

/-! ## Running a script -/

/-- The expressions are evaluated one after the other at top level; the result is that of the last one. -/
inductive Runs (os : Os) (ev : Val → M Val) : List Val → Val → SSt → Val → SSt → Prop where
  | nil {r : Val} {s : SSt} : Runs os ev [] r s r s
  | cons {n : Nat} {e r v w : Val} {es : List Val} {s s1 s2 : SSt} (h : evalTop os ev n e s = .ok (v, s1)) (ht : Runs os ev es v s1 w s2) :
      Runs os ev (e :: es) r s w s2

theorem loadLoop_runs {os : Os} {ev : Val → M Val} {c : IChan} {vs : List Val} (hd : Delivers c vs) (r : Val) (s : SSt) (w : Val) (s' : SSt) :
    (∃ n, loadLoop os ev n c r s = .ok (w, s')) ↔ Runs os ev vs r s w s' := by
  constructor
  · rintro ⟨n, h⟩
    induction n generalizing c vs r s with
    | zero => simp [loadLoop] at h
    | succ n ih =>
      simp only [loadLoop] at h
      obtain ⟨⟨v, c1⟩, h1, h⟩ := Res.bind_eq_ok.1 h
      have key : ∀ {m : Nat} {b : Option Val × IChan}, readCh (fun _ => .unsupported) m c = .ok b → (v, c1) = b := by
        intro m b hb
        have ha := (readCh_le _ (Nat.le_max_left n m) c).ok h1
        have hb := (readCh_le _ (Nat.le_max_right n m) c).ok hb
        rw [ha] at hb
        exact Res.ok.inj hb
      cases hd with
      | nil h2 => cases key h2; cases h; exact .nil
      | cons h2 ht =>
        cases key h2
        simp only at h
        obtain ⟨⟨u, s1⟩, h3, h4⟩ := Res.bind_eq_ok.1 h
        exact .cons h3 (ih ht _ _ h4)
  · intro h
    induction hd generalizing r s with
    | @nil c c' n h1 =>
      cases h
      exact ⟨n + 1, by simp [loadLoop, h1]⟩
    | @cons c c' n v vs h1 ht ih =>
      cases h with
      | @cons k _ _ u _ _ _ s1 _ h2 h3 =>
        obtain ⟨m, hm⟩ := ih u s1 h3
        refine ⟨max n (max k m) + 1, ?_⟩
        have a1 := (readCh_le _ (Nat.le_max_left n (max k m)) c).ok h1
        have a2 := ((script_le os ev k (max n (max k m)) (by omega)).1 v s).ok h2
        have a3 := ((script_le os ev m (max n (max k m)) (by omega)).2.2.2.2 c' u s1).ok hm
        simp [loadLoop, a1, a2, a3]

end Module
end Mnml
