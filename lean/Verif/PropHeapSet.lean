import Verif.HeapSpec
import Verif.Dsl

/-!
# Assignment of local variables: C41
-/

namespace Mnml
namespace Heap

/-! ## C41: `<-` on a local variable

Complements `Verif.PropFun`: the update of a local binding is an update of a shared cell. -/

/-- The first binding of the name `nm` in the environment `a` is the pair `kv`. -/
inductive Binds (s : HSt) (nm : Sym) (kv : Addr) : Addr → Prop
  | here {a ca y ck k old dk} : s.mem a = some ca → ca.data = .pair kv y → s.mem kv = some ck →
      ck.data = .pair k old → s.mem k = some dk → dk.data.symIs nm = true → Binds s nm kv a
  | there {a ca kv' y ck k old dk} : s.mem a = some ca → ca.data = .pair kv' y → s.mem kv' = some ck →
      ck.data = .pair k old → s.mem k = some dk → dk.data.symIs nm = false → Binds s nm kv y → Binds s nm kv a

theorem dataOf_ok {s : HSt} {a : Addr} {c : Cell} (h : s.mem a = some c) : dataOf a s = .ok (c.data, s) :=
  HM.bind_ok (cell_ok h)

theorem pairOf_ok {s : HSt} {a x y : Addr} {c : Cell} (h : s.mem a = some c) (hd : c.data = .pair x y) :
    pairOf a s = .ok ((x, y), s) := by
  unfold pairOf
  rw [HM.bind_ok (dataOf_ok h), hd]
  rfl

theorem Binds.pair {s : HSt} {nm : Sym} {kv a : Addr} (b : Binds s nm kv a) :
    ∃ ca x y, s.mem a = some ca ∧ ca.data = .pair x y := by
  cases b with
  | here ha hd => exact ⟨_, _, _, ha, hd⟩
  | there ha hd => exact ⟨_, _, _, ha, hd⟩

theorem Binds.find {s : HSt} {nm : Sym} {kv a : Addr} (b : Binds s nm kv a) :
    ∃ n0, ∀ n, n0 ≤ n → findH n a nm s = .ok (some kv, s) := by
  induction b with
  | here ha hd hk hdk hkk hm =>
    refine ⟨1, fun n hn => ?_⟩
    obtain ⟨n, rfl⟩ : ∃ m, n = m + 1 := ⟨n - 1, by omega⟩
    rw [findH]
    rw [HM.bind_ok (pairOf_ok ha hd)]
    show (pairOf _ >>= _) s = _
    rw [HM.bind_ok (pairOf_ok hk hdk)]
    show (dataOf _ >>= _) s = _
    rw [HM.bind_ok (dataOf_ok hkk), hm]
    rfl
  | there ha hd hk hdk hkk hm b ih =>
    obtain ⟨n0, ih⟩ := ih
    refine ⟨n0 + 1, fun n hn => ?_⟩
    obtain ⟨n, rfl⟩ : ∃ m, n = m + 1 := ⟨n - 1, by omega⟩
    obtain ⟨cy, x, y, hy, hdy⟩ := b.pair
    rw [findH]
    rw [HM.bind_ok (pairOf_ok ha hd)]
    show (pairOf _ >>= _) s = _
    rw [HM.bind_ok (pairOf_ok hk hdk)]
    show (dataOf _ >>= _) s = _
    rw [HM.bind_ok (dataOf_ok hkk), hm]
    show (dataOf _ >>= _) s = _
    rw [HM.bind_ok (dataOf_ok hy), hdy]
    exact ih n (by omega)

theorem Binds.assoc {s : HSt} {nm : Sym} {kv a : Addr} (b : Binds s nm kv a) :
    ∃ n0, ∀ n, n0 ≤ n → assocH n a nm s = .ok (some kv, s) := by
  obtain ⟨n0, h⟩ := b.find
  obtain ⟨ca, x, y, ha, hd⟩ := b.pair
  refine ⟨n0, fun n hn => ?_⟩
  unfold assocH
  rw [HM.bind_ok (dataOf_ok ha), hd]
  exact h n hn

theorem Binds.kv {s : HSt} {nm : Sym} {kv a : Addr} (b : Binds s nm kv a) :
    ∃ ck k old dk, s.mem kv = some ck ∧ ck.data = .pair k old ∧ s.mem k = some dk ∧ dk.data.symIs nm = true := by
  induction b with
  | here _ _ hk hdk h1 h2 => exact ⟨_, _, _, _, hk, hdk, h1, h2⟩
  | there _ _ _ _ _ _ _ ih => exact ih

/-- **C41**, local variables: when the environment `c` binds the name, `<-` overwrites the value of the first such binding,
`kv`, in place, returns the previous value, and changes no other cell (the reference to the name is dropped). Afterwards the
environment binds the name to the new value; here the binding must not be a cell of the list of bindings itself, which
is the case of all environments made by `lisp_bind`. -/
theorem C41_assign_local {s : HSt} {T : Addr → Nat} {c sym val kv : Addr} {cs : Cell} {nm : Sym}
    (h : Inv s T) (own : ∀ b, ones [c, sym, val] b ≤ T b) (hs : s.mem sym = some cs) (hd : cs.data = .sym nm)
    (hb : Binds s nm kv c) (lkv : kv ∉ s.zombies) (hst : s.strict = false) :
    ∃ ck k old s' n0, s.mem kv = some ck ∧ ck.data = .pair k old ∧
      (∀ n, n0 ≤ n → assignH n c sym val s = .ok (old, s')) ∧
      s'.mem kv = some { ck with data := .pair k val } ∧ (∀ b, b ≠ kv → b ≠ sym → s'.mem b = s.mem b) ∧
      (∀ cb', s'.mem sym = some cb' → cb'.data = .sym nm) ∧ s'.globals = s.globals ∧ s'.out = s.out ∧
      (∃ T', Inv s' T' ∧ ∀ b, T' b + one sym b + one val b = T b + one old b) ∧
      (¬ CdrReach s c kv → Binds s' nm kv c) := by
  obtain ⟨ck, k, old, dk0, hck, hdk, hk0, hm0⟩ := hb.kv
  obtain ⟨n0, ha⟩ := hb.assoc
  have o := h.open_ (T' := fun b => T b + (one k b + one old b)) ⟨⟨ck, hck⟩, lkv⟩ (by simp) hck
    (fun b => by rw [hdk, occ_pair])
  have o' := o.write (by simp) hck (c' := { ck with data := .pair k val }) rfl rfl
  have hne : kv ≠ sym := by
    intro e
    subst e
    rw [hck] at hs; cases hs
    rw [hd] at hdk; cases hdk
  have hm1 : upd s.mem kv (some { ck with data := .pair k val }) kv = some { ck with data := .pair k val } :=
    upd_self _ _ _
  have hs1 : upd s.mem kv (some { ck with data := .pair k val }) sym = some cs := by
    rw [upd_ne (fun e => hne e.symm)]; exact hs
  have c1 := o'.close (T' := fun b => T b + one old b - one val b) lkv (by simp) hm1 (h.pos kv ck hck (by simp)) (by
    intro b; have := own b; simp only [ones_cons, ones_nil, occ_pair] at *; omega)
  obtain ⟨s', T', r, h', e', kk, f⟩ := X_atom_spec c1 (a := sym) (by tok) (by simp) hs1 (by rw [hd]; rfl)
  have hkv' : s'.mem kv = some { ck with data := .pair k val } := by rw [f kv hne]; exact hm1
  have hfr : ∀ b, b ≠ kv → b ≠ sym → s'.mem b = s.mem b := by
    intro b h1 h2
    rw [f b h2]
    exact upd_ne h1
  have hsy : ∀ cb', s'.mem sym = some cb' → cb'.data = .sym nm := by
    intro cb' hcb
    obtain ⟨c0, h0, e0, _⟩ := kk.mem sym cb' hcb
    have h0' : some c0 = some cs := h0.symm.trans hs1
    cases h0'
    exact e0.trans hd
  refine ⟨ck, k, old, s', n0, hck, hdk, ?_, hkv', hfr, hsy, kk.globals, kk.out, ⟨T', h', by tok⟩, ?_⟩
  · intro n hn
    unfold assignH
    rw [HM.bind_ok (dataOf_ok hs), hd]
    show (assocH n c nm >>= _) s = _
    rw [HM.bind_ok (ha n hn)]
    have hg : guard false s = .ok ((), s) := by unfold guard; rw [hst]; rfl
    show (guard false >>= _) s = _
    rw [HM.bind_ok hg]
    show (pairOf kv >>= _) s = _
    rw [HM.bind_ok (pairOf_ok hck hdk)]
    show (modify kv (fun c => { c with data := .pair k val }) >>= _) s = _
    rw [HM.bind_ok (modify_ok _ hck), HM.bind_ok r]
    rfl
  · intro hr
    -- cells that are still there have the same data, except for `kv`
    have same : ∀ b cb, s.mem b = some cb → b ≠ kv → Live s' b → ∃ cb', s'.mem b = some cb' ∧ cb'.data = cb.data := by
      intro b cb hb hn l
      by_cases e : b = sym
      · subst e
        obtain ⟨⟨cb', hcb'⟩, _⟩ := l
        rw [hs] at hb; cases hb
        exact ⟨cb', hcb', (hsy cb' hcb').trans hd.symm⟩
      · exact ⟨cb, (hfr b hn e).trans hb, rfl⟩
    have main : ∀ a, CdrReach s c a → Live s' a → Binds s nm kv a → Binds s' nm kv a := by
      intro a ra la ba
      induction ba with
      | @here a ca y ck2 k2 old2 dk ha had hk hdk2 hkk hm =>
        rw [hck] at hk; cases hk
        rw [hdk] at hdk2; cases hdk2
        have hn : a ≠ kv := fun e => hr (e ▸ ra)
        obtain ⟨ca', ha', hda'⟩ := same a ca ha hn la
        have lk : Live s' k := by
          refine h'.childCar ⟨⟨_, hkv'⟩, ?_⟩ (by simp) hkv' rfl
          rw [kk.zombies]; exact lkv
        have hnk : k ≠ kv := by
          intro e; subst e
          rw [hck] at hkk; cases hkk
          rw [hdk] at hm; cases hm
        obtain ⟨dk', hdk', edk'⟩ := same k dk hkk hnk lk
        exact .here ha' (hda'.trans had) hkv' rfl hdk' (by rw [edk']; exact hm)
      | @there a ca kv2 y ck2 k2 old2 dk ha had hk hdk2 hkk hm b ih =>
        have hn : a ≠ kv := fun e => hr (e ▸ ra)
        obtain ⟨ca', ha', hda'⟩ := same a ca ha hn la
        have ly := h'.childCdr la (by simp) ha' (hda'.trans had)
        have lk2 := h'.childCar la (by simp) ha' (hda'.trans had)
        have ih := ih (.step ra ha had) ly
        have hkv2 : kv2 ≠ kv := by
          intro e; subst e
          rw [hck] at hk; cases hk
          rw [hdk] at hdk2; cases hdk2
          rw [hk0] at hkk; cases hkk
          rw [hm0] at hm; cases hm
        obtain ⟨ck2', hck2', eck2'⟩ := same kv2 ck2 hk hkv2 lk2
        have lk := h'.childCar lk2 (by simp) hck2' (eck2'.trans hdk2)
        by_cases hnk : k2 = kv
        · subst hnk
          exact .there ha' (hda'.trans had) hck2' (eck2'.trans hdk2) hkv' rfl ih
        · obtain ⟨dk', hdk', edk'⟩ := same k2 dk hkk hnk lk
          exact .there ha' (hda'.trans had) hck2' (eck2'.trans hdk2) hdk' (by rw [edk']; exact hm) ih
    exact main c .refl (h'.live (by tok)) hb

/-- The value of a program, if it finishes. -/
def valueH (n : Nat) (ops : List Native) (es : List Val) : Option Data :=
  match (sessionH n ops es >>= dataOf) emptyH with
  | .ok (d, _) => some d
  | _ => none

set_option maxRecDepth 100000 in
/-- `(let ((X . 5)) (<- 'X 7) X)` is 7. -/
example : valueH 30 [.let_, .set, .quote]
    [L [S "let", L [.cons (S "X") (N 5)], L [S "<-", Q (S "X"), N 7], S "X"]] = some (.num 7) := by decide_cbv

set_option maxRecDepth 100000 in
/-- `(let ((X . 5)) (<- 'X 7))` is the previous value. -/
example : valueH 30 [.let_, .set, .quote]
    [L [S "let", L [.cons (S "X") (N 5)], L [S "<-", Q (S "X"), N 7]]] = some (.num 5) := by decide_cbv

/-- The hypotheses of `C41_assign_local` can be met: the environment `((if . 5))`, the name `if` and the value 7. -/
def setEx : HSt where
  mem := fun
    | 0 => some ⟨1, false, none, .sym sIf⟩
    | 1 => some ⟨1, false, none, .num 5⟩
    | 2 => some ⟨1, false, none, .pair 0 1⟩
    | 3 => some ⟨1, false, none, .nil⟩
    | 4 => some ⟨1, false, none, .pair 2 3⟩
    | 5 => some ⟨1, false, none, .sym sIf⟩
    | 6 => some ⟨1, false, none, .num 7⟩
    | _ => none
  next := 7
  globals := []
  out := []
  leaked := []
  zombies := []
  strict := false
  pool := Slab.new

example : Inv setEx (ones [4, 5, 6]) ∧ Binds setEx sIf 2 4 ∧ setEx.strict = false ∧ ¬ CdrReach setEx 4 2 := by
  refine ⟨?_, ?_, rfl, ?_⟩
  · refine ⟨?_, ?_, ?_, ?_, by simp, ?_, ?_⟩
    · intro a ha
      match a, ha with
      | a + 7, _ => rfl
    · intro a c hc
      match a with
      | 0 => cases hc; rfl
      | 1 => cases hc; rfl
      | 2 => cases hc; rfl
      | 3 => cases hc; rfl
      | 4 => cases hc; rfl
      | 5 => cases hc; rfl
      | 6 => cases hc; rfl
      | a + 7 => cases hc
    · intro a ha
      match a with
      | 0 => cases ha
      | 1 => cases ha
      | 2 => cases ha
      | 3 => cases ha
      | 4 => cases ha
      | 5 => cases ha
      | 6 => cases ha
      | a + 7 => simp [total, roots, edges, sumTo, contrib, setEx, occ, one, ones]
    · intro a c hc _
      match a with
      | 0 => cases hc; decide
      | 1 => cases hc; decide
      | 2 => cases hc; decide
      | 3 => cases hc; decide
      | 4 => cases hc; decide
      | 5 => cases hc; decide
      | 6 => cases hc; decide
      | a + 7 => cases hc
    · intro z hz; cases hz
    · intro a c d hc hd
      match a with
      | 0 => cases hc; cases hd
      | 1 => cases hc; cases hd
      | 2 => cases hc; cases hd
      | 3 => cases hc; cases hd
      | 4 => cases hc; cases hd
      | 5 => cases hc; cases hd
      | 6 => cases hc; cases hd
      | a + 7 => cases hc
  · exact .here (a := 4) (y := 3) rfl rfl (k := 0) (old := 1) rfl rfl rfl (by decide +kernel)
  · have key : ∀ b, CdrReach setEx 4 b → b = 4 ∨ b = 3 := by
      intro b r
      induction r with
      | refl => exact .inl rfl
      | step _ hc hd ih =>
        rcases ih with e | e
        · subst e; cases hc; cases hd; exact .inr rfl
        · subst e; cases hc; cases hd
    intro r
    have := key 2 r
    omega

end Heap
end Mnml
