import Verif.PropDepth
import Verif.PropLib

/-!
# C74: how deep the functions of the library nest
-/

namespace Mnml

open Val

/-- Runs an expression made of variables, atoms and natives with one or two arguments, within a depth. -/
syntax "dev" : tactic
macro_rules
  | `(tactic| dev) => `(tactic| first
    | assumption
    | exact d_sym (by res)
    | exact d_nil | exact d_tru | exact d_num _ | exact d_chr _
    | exact d_one (by res) (by dev) rfl (by decide) rfl
    | exact d_two (by res) (by dev) (by dev) rfl rfl)

/-! ## Too little depth -/

section
variable {L d : Nat} {c x y z a r : Val} {st st1 : St} {s : Sym} {tc f t1 t2 t3 : Bool} {op : Native}

theorem oof_bind {α β : Type} {m : M α} {g : α → M β} {st st1 : St} {a : α} (hx : m st = .oof ∨ m st = .ok (a, st1)) (hf : g a st1 = .oof) :
    (m >>= g) st = .oof := by
  rw [M.bind_apply]
  rcases hx with hx | hx
  · rw [hx]; rfl
  · rw [hx]; exact hf

theorem oof_one_level (v : Val) : evalD L 1 c (pair tc (sym f s) v) st = .oof := rfl

theorem oof_if_then (h : Resolves c st s Native.if_.val) (hx : sem c x st = .ok (a, st1)) (ha : a.isNil = false)
    (hy : evalD L d c y st1 = .oof) : evalD L (d + 1) c (pair tc (sym f s) (pair t1 x (pair t2 y r))) st = .oof := by
  cases d with
  | zero => rfl
  | succ d =>
    rw [evalD, step_rem (evalD_sym h) rfl]
    refine oof_bind (le_cases (evalD_le_sem L (d + 1) c x) hx) ?_
    simp only [nativeRem, ha, Bool.false_eq_true, if_false, car]
    exact hy

theorem oof_if_else (h : Resolves c st s Native.if_.val) (hx : sem c x st = .ok (nil, st1))
    (hz : evalD L d c z st1 = .oof) : evalD L (d + 1) c (pair tc (sym f s) (pair t1 x (pair t2 y (pair t3 z r)))) st = .oof := by
  cases d with
  | zero => rfl
  | succ d =>
    rw [evalD, step_rem (evalD_sym h) rfl]
    exact oof_bind (le_cases (evalD_le_sem L (d + 1) c x) hx) hz

/-- The second argument of a native. -/
theorem oof_two (h : Resolves c st s op.val) (ho : op.shape = .two) (hx : sem c x st = .ok (a, st1))
    (hy : evalD L d c y st1 = .oof) : evalD L (d + 1) c (pair tc (sym f s) (pair t1 x (pair t2 y nil))) st = .oof := by
  cases d with
  | zero => rfl
  | succ d =>
    rw [evalD, step_two (evalD_sym h) ho]
    exact oof_bind (le_cases (evalD_le_sem L (d + 1) c x) hx) (by rw [M.bind_apply, hy]; rfl)

/-- The second argument of a function. -/
theorem oof_second {F p q w : Val} (h : Resolves c st s F) (hF : F.isFunc = true) (he : F = cons (ofList [p, q]) w)
    (hx : sem c x st = .ok (a, st1)) (hy : evalD L d c y st1 = .oof) :
    evalD L (d + 1) c (pair tc (sym f s) (pair t1 x (pair t2 y nil))) st = .oof := by
  cases d with
  | zero => rfl
  | succ d =>
    rw [evalD, step_call (evalD_sym h) hF, he]
    simp only [evalFunc, car, cdr, ofList, mayApply, isNil, evalArgs, Bool.not_true, Bool.false_eq_true, if_false]
    simp only [M.bind_assoc]
    exact oof_bind (le_cases (evalD_le_sem L (d + 1) c x) hx) (by rw [M.bind_apply, hy]; rfl)

/-- A call whose body does not have enough depth. -/
theorem oof_body {l dcl : List Entry} {as vs xs : List Val} {body : Val}
    (h : Resolves (envVal l) st s (cons (ofList as) (cons (envVal dcl) body))) (hb : body.isPair = true)
    (hlen : vs.length = as.length) (hx : evalSeq sem (envVal l) vs st = .ok (xs, st1))
    (hr : progV (evalD L d) (envVal (mergeEnv (mergeEnv l dcl) (bindAll as xs []))) body nil st1 = .oof) :
    evalD L (d + 1) (envVal l) (cons (ofSym s) (ofList vs)) st = .oof := by
  cases d with
  | zero => rfl
  | succ d =>
    rw [evalD, ofSym, step_lisp (evalD_sym h) hb hlen]
    refine oof_bind (le_cases (le_evalSeq (evalD_le_sem L (d + 1)) _ _) hx) ?_
    simp only [Bool.false_eq_true, if_false]
    cases L with
    | zero => rfl
    | succ L =>
      simp only [tailLoop, merge_envVal, M.lift_ok, M.pure_bind]
      rw [M.bind_apply, hr]; rfl

theorem oof_prog1 (h : evalD L d c x st = .oof) : progV (evalD L d) c (pair t1 x nil) nil st = .oof := by
  simp only [progV]
  rw [M.bind_apply, h]; rfl

end

namespace Lib

/-! ## `foldl` and `rev` -/

/-- The function value `F` takes two arguments and behaves like `g`, under whatever local name it is called, in the
environments `P` and the states `I`; a call whose arguments stay within the depth `k` stays within the depth `k + 1`. -/
def ActsD2 (k : Nat) (P : List Entry → Prop) (I : St → Prop) (F : Val) (g : Val → Val → M Val) : Prop :=
  ∀ l s e1 e2 x y st st1 st2 v st3, P l → getEnv l s = some F → InDepth k (envVal l) e1 st x st1 →
    InDepth k (envVal l) e2 st1 y st2 → I st2 → g x y st2 = .ok (v, st3) →
    InDepth (k + 1) (envVal l) (L [ofSym s, e1, e2]) st v st3 ∧ I st3

/-- A native with two arguments. -/
theorem actsD2_native (k : Nat) (P : List Entry → Prop) (I : St → Prop) {op : Native} (h : op.shape = .two) :
    ActsD2 (k + 1) P I op.val (fun x y => M.lift (binary op x y)) := by
  intro l s e1 e2 x y st st1 st2 v st3 _ hs hx hy hI hg
  simp only [M.lift_apply] at hg
  cases hu : binary op x y with
  | ok r =>
    rw [hu] at hg
    cases hg
    exact ⟨d_two (resolves_local hs) hx hy h hu, hI⟩
  | _ => rw [hu] at hg; cases hg

/-- A lisp function with two arguments. -/
theorem actsD2_lisp {k : Nat} {P : List Entry → Prop} {I : St → Prop} {d : List Entry} {p q body : Val}
    {g : Val → Val → M Val} (hb : body.isPair = true)
    (h : ∀ l x y st v st', P l → I st → g x y st = .ok (v, st') →
      InProg (k + 1) (envVal (mergeEnv (mergeEnv l d) (bindAll [p, q] [x, y] []))) body st v st' ∧
        v.isTailCall = false ∧ I st') :
    ActsD2 (k + 1) P I (cons (L [p, q]) (cons (envVal d) body)) g := by
  intro l s e1 e2 x y st st1 st2 v st3 hP hs hx hy hI hg
  have := h l x y st2 v st3 hP hI hg
  exact ⟨(C74_call (as := [p, q]) (vs := [e1, e2]) k (resolves_local hs) hb rfl).2
    ⟨[x, y], st2, dSeq_cons hx (dSeq_cons hy dSeq_nil), round_done this.1 this.2.1⟩, this.2.2⟩

theorem foldl_rounds {l : List Entry} (hl : Sorted l) {k : Nat} {I : St → Prop} {F : Val} {g : Val → Val → M Val}
    (hI : ∀ st, I st → Uses foldlUses l st) (hF : ActsD2 (k + 2) (Near foldArgs l) I F g) (w a : Val) (st : St)
    (h : I st) {v : Val} {st' : St} (hr : (elems w).foldlM g a st = .ok (v, st'))
    (hv : v.isTailCall = false) :
    Rounds (k + 6) (n "foldl") foldlV.cdr.cdr l (envVal [⟨false, n "lst", w⟩, ⟨false, n "acc", a⟩, ⟨false, n "fun", F⟩]) st v st' ∧ I st' := by
  have hE : ∀ w a, Near foldArgs l (mergeEnv l [⟨false, n "lst", w⟩, ⟨false, n "acc", a⟩, ⟨false, n "fun", F⟩]) :=
    fun w a => (Near.refl hl).merge (by simp [foldArgs])
  have hU : ∀ w a st, I st →
      Uses foldlUses (mergeEnv l [⟨false, n "lst", w⟩, ⟨false, n "acc", a⟩, ⟨false, n "fun", F⟩]) st :=
    fun w a st h => (hE w a).uses (hI st h) (by decide)
  have last : ∀ (w a : Val) (st st' : St) (v : Val), w.isList = false → I st → [w].foldlM g a st = .ok (v, st') →
      v.isTailCall = false → Rounds (k + 6) (n "foldl") foldlV.cdr.cdr l
        (envVal [⟨false, n "lst", w⟩, ⟨false, n "acc", a⟩, ⟨false, n "fun", F⟩]) st v st' ∧ I st' := by
    intro w a st st' v hw h hr hv
    have u := hU w a st h
    have hc := hF _ (n "fun") (S "acc") (S "lst") a w st st st v st' (hE w a) (getEnv_merge_in hl rfl)
      (by dev) (by dev) h ((congrFun (M.bind_pure (g a w)) st).symm.trans hr)
    refine ⟨round_done (d_prog1 ?_) hv, hc.2⟩
    refine d_if_else (by res) (d_one (op := .islst) (a := w) (by res) (by dev) rfl (by decide) ?_) (hc.1.mono (by omega))
    simp [unary, hw, ofBool]
  induction w generalizing a st with
  | pair t x d _ ih =>
    rw [elems, List.foldlM_cons, M.bind_apply] at hr
    cases hg : g a x st with
    | ok p =>
      obtain ⟨a', st1⟩ := p
      rw [hg] at hr
      have u := hU (pair t x d) a st h
      have hc := hF _ (n "fun") (S "acc") (L [S "car", S "lst"]) a x st st st a' st1 (hE (pair t x d) a)
        (getEnv_merge_in hl rfl) (by dev) (by dev) h hg
      have u1 := hU (pair t x d) a st1 hc.2
      have := ih a' st1 hc.2 hr
      refine ⟨round_next (d_prog1 ?_) this.1, this.2⟩
      refine d_if_then (by res) (by dev) rfl (d_if_else (by res) (by dev) ?_)
      exact d_tail (dcl := []) (as := [S "fun", S "acc", S "lst"]) (body := foldlV.cdr.cdr)
        (vs := [S "fun", L [S "fun", S "acc", L [S "car", S "lst"]], L [S "cdr", S "lst"]])
        (xs := [F, a', d]) (by res) rfl rfl
        (dSeq_cons (by dev) (dSeq_cons hc.1 (dSeq_cons (by dev) dSeq_nil)))
    | _ => rw [hg] at hr; cases hr
  | nil =>
    rw [elems, List.foldlM_nil] at hr
    have u := hU nil a st h
    cases hr
    refine ⟨round_done (d_prog1 ?_) hv, h⟩
    exact d_if_then (by res) (by dev) rfl (d_if_then (by res) (by dev) rfl (by dev))
  | _ => exact last _ a st st' v rfl h hr hv

/-- **C74.** `(foldl F A W)` stays within a depth that does not depend on the length of the list: five more than a call of F. -/
theorem C74_foldl {l : List Entry} (hl : Sorted l) {k : Nat} {I : St → Prop} {F a w : Val} {g : Val → Val → M Val}
    {ef ea ew : Val} {st st1 st2 : St} {v : Val}
    (hI : ∀ st, I st → Uses foldlUses l st) (hF : ActsD2 (k + 2) (Near foldArgs l) I F g)
    (h0 : Uses foldlUses l st) (h1 : I st1)
    (hargs : InSeq (k + 6) (envVal l) [ef, ea, ew] st [F, a, w] st1)
    (hr : (elems w).foldlM g a st1 = .ok (v, st2)) (hv : v.isTailCall = false) :
    InDepth (k + 7) (envVal l) (L [S "foldl", ef, ea, ew]) st v st2 ∧ I st2 := by
  have := foldl_rounds hl hI hF w a st1 h1 hr hv
  exact ⟨(C74_call (dcl := []) (as := [S "fun", S "acc", S "lst"]) (vs := [ef, ea, ew]) (k + 5) (by res) rfl rfl).2 ⟨_, _, hargs, this.1⟩, this.2⟩

/-- **C74.** `(rev W)` nests at most eight deep, for lists of any length. -/
theorem C74_rev {l : List Entry} (hl : Sorted l) {w e : Val} {st st1 : St} (h0 : Uses revUses l st)
    (h1 : Uses revUses l st1) (he : InDepth 7 (envVal l) e st w st1) :
    InDepth 8 (envVal l) (L [S "rev", e]) st (ofList (elems w).reverse) st1 := by
  refine (C74_call (dcl := []) (as := [S "lst"]) (vs := [e]) 6 (by res) rfl rfl).2 ⟨[w], st1, dSeq_cons he dSeq_nil,
    round_done (b := [⟨false, n "lst", w⟩]) (d_prog1 ?_) (tail_ofList _)⟩
  have hs : Sorted (mergeEnv l [⟨false, n "lst", w⟩]) := sorted_mergeEnv _ hl
  have u : Uses revUses (mergeEnv l [⟨false, n "lst", w⟩]) st1 := uses_merge [n "lst"] h1 hl rfl (by decide)
  have uf := u.sub (T' := foldlUses) (fun p hp => by simp [revUses, hp])
  refine (C74_foldl (k := 0) (I := fun s => s = st1) (st1 := st1) (w := w) (a := nil) (g := fun acc e => pure (cons e acc))
    hs (fun s h => by rw [h]; exact uf) ?_ uf rfl
    (dSeq_cons (d_lambda (by res)) (dSeq_cons d_nil (dSeq_cons (d_sym (by res)) dSeq_nil))) ?_
    (tail_ofList _)).1
  · refine actsD2_lisp (p := S "acc") (q := S "e") rfl fun l' x y st v st' hP hI hg => ?_
    cases hg; cases hI
    have u' := (lambda_near (qs := n "e" :: foldArgs) (b := [⟨false, n "e", y⟩, ⟨false, n "acc", x⟩]) hs hP
      (by simp [foldArgs]) (by simp [foldArgs])).uses u (by decide)
    have hs' := hP.sorted
    exact ⟨d_prog1 (by dev), rfl, rfl⟩
  · rw [foldlM_pure]
    have := foldl_cons (elems w) []
    rw [List.append_nil] at this
    exact congrArg (fun v => Res.ok (v, st1)) this

/-! ## `foldr` and `map` -/

/-- **C74.** `(foldr F W A)` nests deeper for longer lists: within a depth of four times the length of the list it has no result. -/
theorem C74_foldr {l : List Entry} {F p q r : Val} (hF : F = cons (L [p, q]) r) (hf : F.isFunc = true) (xs : List Val) :
    ∀ {l' : List Entry} {d : Nat} {ef ew ea a v : Val} {st st1 st2 : St}, Near foldArgs l l' → Uses foldrUses l st → Uses foldrUses l st1 →
      evalSeq sem (envVal l') [ef, ew, ea] st = .ok ([F, ofList xs, a], st1) →
      InDepth d (envVal l') (L [S "foldr", ef, ew, ea]) st v st2 → 4 * xs.length < d := by
  have key : ∀ (L' : Nat) (xs : List Val) {l' : List Entry} {d : Nat} {ef ew ea a : Val} {st st1 : St}, Near foldArgs l l' →
      Uses foldrUses l st → Uses foldrUses l st1 → evalSeq sem (envVal l') [ef, ew, ea] st = .ok ([F, ofList xs, a], st1) →
      d ≤ 4 * xs.length → evalD L' d (envVal l') (L [S "foldr", ef, ew, ea]) st = .oof := by
    intro L' xs
    induction xs with
    | nil =>
      intro l' d ef ew ea a st st1 _ _ _ _ hd
      have : d = 0 := by simpa using hd
      subst this; rfl
    | cons x xs ih =>
      intro l' d ef ew ea a st st1 hn h0 h1 hx hd
      rw [List.length_cons] at hd
      have hs := hn.sorted
      have u0 := hn.uses h0 (by decide)
      have hE : Near foldArgs l (mergeEnv l' [⟨false, n "acc", a⟩, ⟨false, n "lst", ofList (x :: xs)⟩, ⟨false, n "fun", F⟩]) :=
        hn.merge (by simp [foldArgs])
      have u := hE.uses h1 (by decide)
      cases d with
      | zero => rfl
      | succ d =>
        refine oof_body (dcl := []) (as := [S "fun", S "lst", S "acc"]) (vs := [ef, ew, ea]) (body := foldrV.cdr.cdr) (by res) rfl rfl hx (oof_prog1 ?_)
        cases d with
        | zero => rfl
        | succ d =>
          refine oof_if_then (by res) (by ev) rfl ?_
          cases d with
          | zero => rfl
          | succ d =>
            refine oof_if_else (by res) (by ev) ?_
            cases d with
            | zero => rfl
            | succ d =>
              refine oof_second (F := F) (a := x) (st1 := st1) (by res) hf hF (by ev) ?_
              exact ih (ef := S "fun") (ew := L [S "cdr", S "lst"]) (ea := S "acc") (a := a) hE h1 h1
                (okSeq_cons (by ev) (okSeq_cons (by ev) (okSeq_cons (by ev) okSeq_nil))) (by omega)
  intro l' d ef ew ea a v st st1 st2 hn h0 h1 hx ⟨L', h⟩
  apply Classical.byContradiction
  intro hd
  rw [key L' xs hn h0 h1 hx (by omega)] at h
  cases h

/-- **C74.** `(map F W)` nests deeper for longer lists: within a depth of three times the length of the list it has no result. -/
theorem C74_map {l : List Entry} {I : St → Prop} {F : Val} {g : Val → M Val} (hI : ∀ st, I st → Uses mapUses l st)
    (hF : Acts1 (Near mapArgs l) I F g) (xs : List Val) :
    ∀ {l' : List Entry} {d : Nat} {ef ew v : Val} {ys : List Val} {st st1 st2 st3 : St}, Near mapArgs l l' → Uses mapUses l st → I st1 →
      evalSeq sem (envVal l') [ef, ew] st = .ok ([F, ofList xs], st1) → xs.mapM g st1 = .ok (ys, st2) →
      InDepth d (envVal l') (L [S "map", ef, ew]) st v st3 → 3 * xs.length < d := by
  have key : ∀ (L' : Nat) (xs : List Val) {l' : List Entry} {d : Nat} {ef ew : Val} {ys : List Val} {st st1 st2 : St}, Near mapArgs l l' →
      Uses mapUses l st → I st1 → evalSeq sem (envVal l') [ef, ew] st = .ok ([F, ofList xs], st1) → xs.mapM g st1 = .ok (ys, st2) →
      d ≤ 3 * xs.length → evalD L' d (envVal l') (L [S "map", ef, ew]) st = .oof := by
    intro L' xs
    induction xs with
    | nil =>
      intro l' d ef ew ys st st1 st2 _ _ _ _ _ hd
      have : d = 0 := by simpa using hd
      subst this; rfl
    | cons x xs ih =>
      intro l' d ef ew ys st st1 st2 hn h0 h1 hx hm hd
      rw [List.length_cons] at hd
      rw [List.mapM_cons] at hm
      obtain ⟨y, st3, hg, hm⟩ := bind_ok hm
      obtain ⟨zs, st4, hm, _⟩ := bind_ok hm
      have hs := hn.sorted
      have u0 := hn.uses h0 (by decide)
      have hE : Near mapArgs l (mergeEnv l' [⟨false, n "lst", ofList (x :: xs)⟩, ⟨false, n "fun", F⟩]) := hn.merge (by simp [mapArgs])
      have u := hE.uses (hI _ h1) (by decide)
      have hc := hF _ (n "fun") (L [S "car", S "lst"]) x st1 st1 y st3 hE (getEnv_merge_in hs rfl) (by ev) h1 hg
      have u1 := hE.uses (hI _ hc.2) (by decide)
      cases d with
      | zero => rfl
      | succ d =>
        refine oof_body (dcl := []) (as := [S "fun", S "lst"]) (vs := [ef, ew]) (body := mapV.cdr.cdr) (by res) rfl rfl hx (oof_prog1 ?_)
        cases d with
        | zero => rfl
        | succ d =>
          refine oof_if_then (by res) (by ev) rfl ?_
          cases d with
          | zero => rfl
          | succ d =>
            refine oof_two (op := .cons) (by res) rfl hc.1 ?_
            exact ih (ef := S "fun") (ew := L [S "cdr", S "lst"]) hE (hI _ hc.2) hc.2
              (okSeq_cons (by ev) (okSeq_cons (by ev) okSeq_nil)) hm (by omega)
  intro l' d ef ew v ys st st1 st2 st3 hn h0 h1 hx hm ⟨L', h⟩
  apply Classical.byContradiction
  intro hd
  rw [key L' xs hn h0 h1 hx hm (by omega)] at h
  cases h

/-! ### Examples -/

/-- `(foldl - 10 W)` in the library needs the depth 7, whatever the list of numbers; the hypotheses of `C74_foldl`. -/
example (w : Val) (v : Val) (h : (elems w).foldlM (fun x y => M.lift (binary .sub x y)) (N 10) libSt = .ok (v, libSt)) (hv : v.isTailCall = false) :
    InDepth 7 nil (L [S "foldl", S "-", N 10, Q w]) libSt v libSt := by
  have u : Uses foldlUses [] libSt := by unfold Uses; decide +kernel
  have hm : Resolves nil libSt (n "-") Native.sub.val := by unfold Resolves; rfl
  have hq : Resolves nil libSt (n "quote") Native.quote.val := by unfold Resolves; rfl
  exact (C74_foldl (l := []) (k := 0) (I := fun s => s = libSt) (F := Native.sub.val) (a := N 10) (w := w)
    List.Pairwise.nil (fun s h => by rw [h]; exact u) (actsD2_native 1 _ _ rfl) u rfl
    (dSeq_cons (d_sym hm) (dSeq_cons (d_num _) (dSeq_cons (d_quote hq) dSeq_nil))) h hv).1

/-- There is no depth in which `(foldr + W 0)` has a result for every list W; the hypotheses of `C74_foldr`. -/
example (d : Nat) : ∃ xs : List Val, ∀ v st, ¬ InDepth d nil (L [S "foldr", S "+", Q (ofList xs), N 0]) libSt v st := by
  refine ⟨List.replicate d (N 0), fun v st h => ?_⟩
  have u : Uses foldrUses [] libSt := by unfold Uses; decide +kernel
  have hm : Resolves nil libSt (n "+") Native.add.val := by unfold Resolves; rfl
  have hq : Resolves nil libSt (n "quote") Native.quote.val := by unfold Resolves; rfl
  have := C74_foldr (l := []) (l' := []) (F := Native.add.val) (p := ofSym aX) (q := ofSym aY) rfl rfl (List.replicate d (N 0))
    (Near.refl List.Pairwise.nil) u u (okSeq_cons (ok_sym hm) (okSeq_cons (ok_quote hq) (okSeq_cons (ok_num _) okSeq_nil))) h
  simp at this
  omega

/-- There is no depth in which `(map nil? W)` has a result for every list W; the hypotheses of `C74_map`. -/
example (d : Nat) : ∃ xs : List Val, ∀ v st, ¬ InDepth d nil (L [S "map", S "nil?", Q (ofList xs)]) libSt v st := by
  refine ⟨List.replicate d (N 0), fun v st h => ?_⟩
  have u : Uses mapUses [] libSt := by unfold Uses; decide +kernel
  have hm : Resolves nil libSt (n "nil?") Native.isnil.val := by unfold Resolves; rfl
  have hq : Resolves nil libSt (n "quote") Native.quote.val := by unfold Resolves; rfl
  have hg : ∀ k, (List.replicate k (N 0)).mapM (fun x => M.lift (unary .isnil x)) libSt = .ok (List.replicate k nil, libSt) := by
    intro k
    induction k with
    | zero => rfl
    | succ k ih =>
      rw [List.replicate_succ, List.mapM_cons]
      have e1 : M.lift (unary .isnil (N 0)) libSt = .ok (nil, libSt) := rfl
      rw [M.bind_congr_ok e1, M.bind_congr_ok ih]; rfl
  have := C74_map (l := []) (l' := []) (I := fun s => s = libSt) (F := Native.isnil.val) (fun s h => by rw [h]; exact u)
    (acts1_native _ _ rfl (by decide)) (List.replicate d (N 0))
    (Near.refl List.Pairwise.nil) u rfl (okSeq_cons (ok_sym hm) (okSeq_cons (ok_quote hq) okSeq_nil)) (hg d) h
  simp at this
  omega

/-- The hypotheses of `C74_rev`: `(rev (quote 1 2 3))`. -/
example : InDepth 8 nil (L [S "rev", Q (L [N 1, N 2, N 3])]) libSt (L [N 3, N 2, N 1]) libSt := by
  have u : Uses revUses [] libSt := by unfold Uses; decide +kernel
  have hq : Resolves nil libSt (n "quote") Native.quote.val := by unfold Resolves; rfl
  exact C74_rev (l := []) List.Pairwise.nil u u (d_quote hq)

/-- A loop that takes the elements off a list: depth 4, whatever the length of the list. -/
example (xs : List Val) : ∀ (y : Val) (st : St), st.globals (n "x") = some (ofList (y :: xs)) → st.globals (n "while") = some Native.while_.val →
    st.globals (n "cdr") = some Native.cdr.val → st.globals (n "setq") = some Native.setq.val →
    ∃ v st', InDepth 4 nil (L [S "while", L [S "cdr", S "x"], L [S "setq", S "x", L [S "cdr", S "x"]]]) st v st' := by
  have glob : ∀ {st : St} {s : Sym} {v : Val}, st.globals s = some v → Resolves nil st s v := by
    intro st s v h
    exact resolves_global (l := []) rfl h
  suffices h : ∀ (y : Val) (st : St) (r : Val), st.globals (n "x") = some (ofList (y :: xs)) → st.globals (n "while") = some Native.while_.val →
      st.globals (n "cdr") = some Native.cdr.val → st.globals (n "setq") = some Native.setq.val →
      ∃ v st', Turns 3 nil (L [S "cdr", S "x"]) (L [L [S "setq", S "x", L [S "cdr", S "x"]]]) r st v st' by
    intro y st h1 h2 h3 h4
    obtain ⟨v, st', h⟩ := h y st nil h1 h2 h3 h4
    exact ⟨v, st', (C74_while 2 (glob h2)).2 h⟩
  induction xs with
  | nil =>
    intro y st r h1 h2 h3 h4
    exact ⟨r, st, .stop (d_one (glob h3) (d_sym (glob h1)) rfl (by decide) rfl)⟩
  | cons z xs ih =>
    intro y st r h1 h2 h3 h4
    have hc : ∀ d, InDepth (d + 2) nil (L [S "cdr", S "x"]) st (ofList (z :: xs)) st := fun d =>
      d_one (glob h3) (d_sym (glob h1)) rfl (by decide) rfl
    obtain ⟨v, st', ih⟩ := ih z { st with globals := fun t => if t = n "x" then some (ofList (z :: xs)) else st.globals t } (ofList (z :: xs))
      (by simp) (by simpa [show n "while" ≠ n "x" by decide] using h2) (by simpa [show n "cdr" ≠ n "x" by decide] using h3)
      (by simpa [show n "setq" ≠ n "x" by decide] using h4)
    refine ⟨v, st', .go (hc 1) (by simp [ofList]) (d_prog1 ?_) ih⟩
    obtain ⟨K, hk⟩ := hc 0
    refine ⟨K, ?_⟩
    have : evalD K 3 nil (pair false (sym false (n "setq")) (L [S "x", L [S "cdr", S "x"]])) st
        = setqV (evalD K 2) nil (L [S "x", L [S "cdr", S "x"]]) st := by
      rw [evalD, step_any (evalD_sym (glob h4)) rfl]; rfl
    refine this.trans ?_
    unfold setqV
    exact (M.bind_congr_ok hk).trans rfl

end Lib
end Mnml
