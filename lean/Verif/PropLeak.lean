import Verif.PropRefine
import Verif.PropHeap

/-!
# C05 for accepted programs

`C05_session_partial` assumes that the memory has no cycle in the end. The programs that strict mode accepts (C61) never make
one, so that the assumption can be dropped for them: the simulation of `Refine` keeps that all cells, whether reachable or not,
are roots of finite trees.
-/

namespace Mnml
namespace Heap

/-- The height of a tree. -/
def height : Val → Nat
  | .pair _ a d => height a + height d + 1
  | _ => 0

/-- When no cell is private, each live cell is the root of a tree. -/
theorem SimG.tree {G : List Ent} {Γ : List B} {s : HSt} {st : St} (h : SimG G Γ s st) (hp : priv Γ = []) {a : Addr}
    (l : Live s a) : ∃ v, Rep s.mem a v := by
  by_cases ha : a ∈ avoid G Γ
  · simp only [avoid, hp, List.nil_append] at ha
    obtain ⟨e, he, rfl⟩ := List.mem_map.1 ha
    obtain ⟨⟨c, hc, hd⟩, ⟨v, hk⟩, hv⟩ := h.ent e he
    exact ⟨_, .pair (by simp) hc hd hk.rep hv.rep⟩
  · obtain ⟨v, hv⟩ := h.all a l ha
    exact ⟨v, hv.rep⟩

open Classical in
theorem SimG.acyclic {G : List Ent} {Γ : List B} {s : HSt} {st : St} (h : SimG G Γ s st) (hp : priv Γ = []) : Acyclic s := by
  refine ⟨fun a => if p : ∃ v, Rep s.mem a v then height p.choose else 0, ?_⟩
  intro a c x y hz hc hd
  have key : ∀ {b : Addr} {v : Val}, Rep s.mem b v →
      (if p : ∃ v, Rep s.mem b v then height p.choose else 0) = height v := by
    intro b v hv
    have p : ∃ v, Rep s.mem b v := ⟨v, hv⟩
    rw [dif_pos p, p.choose_spec.det hv]
  obtain ⟨v, hv⟩ := h.tree hp ⟨⟨c, hc⟩, hz⟩
  cases hv with
  | atom _ hc' hv' =>
    rw [hc] at hc'; cases hc'
    unfold Cell.val at hv'
    rw [hd] at hv'; cases hv'
  | pair hn hc' hd' hx hy =>
    rw [hc] at hc'; cases hc'
    rw [hd] at hd'; cases hd'
    have e1 := key hx
    have e2 := key hy
    have e3 := key (Repr.pair hn hc hd hx hy)
    simp only [e1, e2, e3, height]
    omega

/-- **C05** for programs that strict mode accepts, without an assumption on the memory: such a program makes no cycle; its result
can be dropped, and then every cell that is still allocated is reachable from the table of globals or from a reference
that the code has abandoned. -/
theorem C05_accepted {n : Nat} {ops : List Native} {es : List Val} (hp : ∀ e ∈ es, plain e = true)
    (h : accepted n ops es = true) :
    ∃ s', (sessionH n ops es >>= X) emptyH = .ok ((), s') ∧ Acyclic s' ∧
      ∀ a, s'.mem a ≠ none → Reach s' (fun b => b ∈ s'.globals.map Prod.snd ∨ b ∈ s'.leaked) a := by
  unfold accepted at h
  cases hs : sessionH n ops es strictH with
  | ok p =>
    obtain ⟨r, s1⟩ := p
    obtain ⟨v, st', _, G, g⟩ := sat_session hp _ _ hs
    obtain ⟨s2, hx, g2, _⟩ := g.forget.release
    have ac : Acyclic { s2 with strict := false } := g2.acyclic rfl
    have run : (sessionH n ops es >>= X) emptyH = .ok ((), { s2 with strict := false }) := by
      show (sessionH n ops es emptyH >>= fun p => X p.1 p.2) = _
      rw [show sessionH n ops es emptyH = .ok (r, loose s1) from rlx_sessionH _ _ _ hs]
      exact rlx_X _ _ _ hx
    refine ⟨_, run, ac, fun a ha => ?_⟩
    cases hc : s2.mem a with
    | none => exact absurd hc ha
    | some c => exact C05_session_partial run ac hc
  | _ => rw [hs] at h; cases h

/-- **C05** in its full form for accepted programs that abandon no reference: what is left is what the globals reach. -/
theorem C05_clean {n : Nat} {ops : List Native} {es : List Val} (hp : ∀ e ∈ es, plain e = true)
    (h : accepted n ops es = true) {s' : HSt} (run : (sessionH n ops es >>= X) emptyH = .ok ((), s'))
    (hl : s'.leaked = []) {a : Addr} (ha : s'.mem a ≠ none) : Reach s' (fun b => b ∈ s'.globals.map Prod.snd) a := by
  obtain ⟨s2, run2, _, hr⟩ := C05_accepted hp h
  rw [run] at run2
  cases run2
  have := hr a ha
  rw [hl] at this
  simpa using this

/-- Does the program abandon references? -/
def tidy (n : Nat) (ops : List Native) (es : List Val) : Bool :=
  match (sessionH n ops es >>= X) emptyH with
  | .ok (_, s) => s.leaked.isEmpty
  | _ => false

set_option maxRecDepth 100000 in
set_option cbv.maxSteps 10000000 in
/-- The hypotheses hold for `progTwice` and `progSum`. -/
example : tidy 40 [.def_, .lambda, .print, .mul] progTwice = true ∧ tidy 40 [.def_, .if_, .equ, .add, .sub] progSum = true :=
  ⟨by decide_cbv, by decide_cbv⟩

end Heap
end Mnml
