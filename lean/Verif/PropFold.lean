import Verif.Lib

/-!
# C49: folds and maps of the lisp library
-/

namespace Mnml
namespace Lib

open Val

/-- The elements of a list as the iterators of the library see them: the CARs, then the last CDR unless it is
NIL. A value that is not a list is its own single element. -/
def elems : Val → List Val
  | pair _ a d => a :: elems d
  | nil => []
  | v => [v]

theorem elems_ofList (xs : List Val) : elems (ofList xs) = xs := by
  induction xs with
  | nil => rfl
  | cons x xs ih => simp [ofList, elems, ih]

/-- Environments that agree with `l` on all names outside of `ps`. -/
structure Near (ps : List Sym) (l l' : List Entry) : Prop where
  sorted : Sorted l'
  same : ∀ s, s ∉ ps → getEnv l' s = getEnv l s

theorem Near.refl {ps : List Sym} {l : List Entry} (h : Sorted l) : Near ps l l := ⟨h, fun _ _ => rfl⟩

theorem Near.merge {ps : List Sym} {l l' b : List Entry} (h : Near ps l l')
    (hb : ∀ s ∈ b.map Entry.key, s ∈ ps) : Near ps l (mergeEnv l' b) :=
  ⟨sorted_mergeEnv _ h.sorted, fun s hs => by
    rw [getEnv_merge_out h.sorted (fun hc => hs (hb s hc)), h.same s hs]⟩

theorem Near.mono {ps ps' : List Sym} {l l' : List Entry} (h : Near ps l l') (hs : ∀ s ∈ ps, s ∈ ps') :
    Near ps' l l' := ⟨h.sorted, fun s hn => h.same s fun hc => hn (hs s hc)⟩

theorem Near.trans {ps : List Sym} {l l' l'' : List Entry} (h : Near ps l l') (h' : Near ps l' l'') :
    Near ps l l'' := ⟨h'.sorted, fun s hn => (h'.same s hn).trans (h.same s hn)⟩

/-- Merging the environment captured by a function keeps the names outside of `ps`. -/
theorem Near.capture {ps : List Sym} {l l' d : List Entry} (h : Near ps l l') (hd : Near ps l d) :
    Near ps l (mergeEnv l' d) :=
  ⟨sorted_mergeEnv _ h.sorted, fun s hs => by
    rw [getEnv_mergeEnv _ h.sorted, getEnv_reverse hd.sorted, hd.same s hs, h.same s hs]
    cases getEnv l s <;> rfl⟩

theorem Near.uses {ps : List Sym} {U : List (Sym × Val)} {l l' : List Entry} {st : St} (h : Near ps l l')
    (hu : Uses U l st) (hd : ∀ s ∈ U.map Prod.fst, s ∉ ps) : Uses U l' st :=
  fun p hp => ⟨by rw [h.same p.1 (hd p.1 (List.mem_map_of_mem hp))]; exact (hu p hp).1, (hu p hp).2⟩

theorem uses_merge {U : List (Sym × Val)} {l b : List Entry} {st : St} (ks : List Sym) (h : Uses U l st)
    (hl : Sorted l) (hk : b.map Entry.key = ks) (hd : ∀ s ∈ U.map Prod.fst, s ∉ ks) :
    Uses U (mergeEnv l b) st :=
  h.merge hl fun p hp => by rw [hk]; exact hd p.1 (List.mem_map_of_mem hp)

/-- The function value `F` takes one argument and behaves like `g`, under whatever local name it is called, in the
environments `P` and the states `I`. -/
def Acts1 (P : List Entry → Prop) (I : St → Prop) (F : Val) (g : Val → M Val) : Prop :=
  ∀ l s e x st st1 v st2, P l → getEnv l s = some F → sem (envVal l) e st = .ok (x, st1) → I st1 →
    g x st1 = .ok (v, st2) → sem (envVal l) (L [ofSym s, e]) st = .ok (v, st2) ∧ I st2

/-- The function value `F` takes two arguments and behaves like `g`, under whatever local name it is called, in the
environments `P` and the states `I`. -/
def Acts2 (P : List Entry → Prop) (I : St → Prop) (F : Val) (g : Val → Val → M Val) : Prop :=
  ∀ l s e1 e2 x y st st1 st2 v st3, P l → getEnv l s = some F → sem (envVal l) e1 st = .ok (x, st1) →
    sem (envVal l) e2 st1 = .ok (y, st2) → I st2 → g x y st2 = .ok (v, st3) →
    sem (envVal l) (L [ofSym s, e1, e2]) st = .ok (v, st3) ∧ I st3

/-- A native with one argument. -/
theorem acts1_native (P : List Entry → Prop) (I : St → Prop) {op : Native} (h : op.shape = .one)
    (he : op ≠ .eval) : Acts1 P I op.val (fun x => M.lift (unary op x)) := by
  intro l s e x st st1 v st2 _ hs hx hI hg
  simp only [M.lift_apply] at hg
  cases hu : unary op x with
  | ok r =>
    rw [hu] at hg
    cases hg
    exact ⟨ok_one (resolves_local hs) hx h he hu, hI⟩
  | _ => rw [hu] at hg; cases hg

/-- A native with two arguments. -/
theorem acts2_native (P : List Entry → Prop) (I : St → Prop) {op : Native} (h : op.shape = .two) :
    Acts2 P I op.val (fun x y => M.lift (binary op x y)) := by
  intro l s e1 e2 x y st st1 st2 v st3 _ hs hx hy hI hg
  simp only [M.lift_apply] at hg
  cases hu : binary op x y with
  | ok r =>
    rw [hu] at hg
    cases hg
    exact ⟨ok_two (resolves_local hs) hx hy h hu, hI⟩
  | _ => rw [hu] at hg; cases hg

/-- A lisp function with one argument. -/
theorem acts1_lisp {P : List Entry → Prop} {I : St → Prop} {d : List Entry} {p body : Val} {g : Val → M Val}
    (hb : body.isPair = true)
    (h : ∀ l x st v st', P l → I st → g x st = .ok (v, st') →
      progV sem (envVal (mergeEnv (mergeEnv l d) (bindAll [p] [x] []))) body nil st = .ok (v, st') ∧
        v.isTailCall = false ∧ I st') :
    Acts1 P I (cons (L [p]) (cons (envVal d) body)) g := by
  intro l s e x st st1 v st2 hP hs hx hI hg
  have := h l x st1 v st2 hP hI hg
  exact ⟨ok_call (as := [p]) (vs := [e]) (xs := [x]) (resolves_local hs) hb rfl (okSeq_cons hx okSeq_nil)
    (loop_done this.1 this.2.1), this.2.2⟩

/-- A lisp function with two arguments. -/
theorem acts2_lisp {P : List Entry → Prop} {I : St → Prop} {d : List Entry} {p q body : Val}
    {g : Val → Val → M Val} (hb : body.isPair = true)
    (h : ∀ l x y st v st', P l → I st → g x y st = .ok (v, st') →
      progV sem (envVal (mergeEnv (mergeEnv l d) (bindAll [p, q] [x, y] []))) body nil st = .ok (v, st') ∧
        v.isTailCall = false ∧ I st') :
    Acts2 P I (cons (L [p, q]) (cons (envVal d) body)) g := by
  intro l s e1 e2 x y st st1 st2 v st3 hP hs hx hy hI hg
  have := h l x y st2 v st3 hP hI hg
  exact ⟨ok_call (as := [p, q]) (vs := [e1, e2]) (xs := [x, y]) (resolves_local hs) hb rfl
    (okSeq_cons hx (okSeq_cons hy okSeq_nil)) (loop_done this.1 this.2.1), this.2.2⟩

/-! ## Restricting the values of the accumulator -/

/-- A computation that is only considered under a condition. -/
def need {α : Type} (b : Bool) (m : M α) : M α := if b then m else M.unsupported

theorem need_ok {α : Type} {b : Bool} {m : M α} {st st' : St} {v : α} (h : need b m st = .ok (v, st')) :
    b = true ∧ m st = .ok (v, st') := by
  cases b with
  | true => exact ⟨rfl, h⟩
  | false => cases h

theorem foldrM_need {g : Val → Val → M Val} {Q : Val → Bool} {a : Val}
    (hg : ∀ x y st v st', Q y = true → g x y st = .ok (v, st') → Q v = true) (ha : Q a = true) (xs : List Val)
    {st st' : St} {v : Val} (h : xs.foldrM g a st = .ok (v, st')) :
    xs.foldrM (fun x y => need (Q y) (g x y)) a st = .ok (v, st') ∧ Q v = true := by
  induction xs generalizing v st' with
  | nil => cases h; exact ⟨rfl, ha⟩
  | cons x xs ih =>
    rw [List.foldrM_cons, M.bind_apply] at h ⊢
    cases h3 : List.foldrM g a xs st with
    | ok p =>
      rw [h3] at h
      have := ih h3
      rw [this.1]
      refine ⟨?_, hg x p.1 p.2 v st' this.2 h⟩
      show need (Q p.1) (g x p.1) p.2 = _
      rw [this.2]
      exact h
    | _ => rw [h3] at h; cases h

theorem foldlM_need {g : Val → Val → M Val} {Q : Val → Bool}
    (hg : ∀ y x st v st', Q y = true → g y x st = .ok (v, st') → Q v = true) (xs : List Val) {a : Val}
    (ha : Q a = true) {st st' : St} {v : Val} (h : xs.foldlM g a st = .ok (v, st')) :
    xs.foldlM (fun y x => need (Q y) (g y x)) a st = .ok (v, st') ∧ Q v = true := by
  induction xs generalizing a st with
  | nil => cases h; exact ⟨rfl, ha⟩
  | cons x xs ih =>
    rw [List.foldlM_cons, M.bind_apply] at h ⊢
    rw [ha]
    show (need true (g a x) st >>= _) = _ ∧ _
    cases h3 : g a x st with
    | ok p =>
      rw [h3] at h
      have := ih (hg a x st p.1 p.2 ha h3) h
      exact ⟨by rw [show need true (g a x) st = _ from h3]; exact this.1, this.2⟩
    | _ => rw [h3] at h; cases h

theorem foldlM_pure (f : Val → Val → Val) (xs : List Val) (a : Val) :
    xs.foldlM (fun y x => (pure (f y x) : M Val)) a = pure (xs.foldl f a) := by
  induction xs generalizing a with
  | nil => rfl
  | cons x xs ih => rw [List.foldlM_cons]; exact ih _

theorem foldrM_pure (f : Val → Val → Val) (xs : List Val) (a : Val) :
    xs.foldrM (fun x y => (pure (f x y) : M Val)) a = pure (xs.foldr f a) := by
  induction xs with
  | nil => rfl
  | cons x xs ih => rw [List.foldrM_cons, ih]; rfl

/-! ## `foldl` and `foldr` -/

/-- The definitions that `foldl` relies on. -/
def foldlUses : List (Sym × Val) :=
  [(n "if", Native.if_.val), (n "lst?", Native.islst.val), (n "nil?", Native.isnil.val),
   (n "car", Native.car.val), (n "cdr", Native.cdr.val), (n "foldl", foldlV)]

/-- The argument names of `foldl` and `foldr`. -/
def foldArgs : List Sym := [n "fun", n "acc", n "lst"]

theorem foldl_loop {l : List Entry} (hl : Sorted l) {I : St → Prop} {F : Val} {g : Val → Val → M Val}
    (hI : ∀ st, I st → Uses foldlUses l st) (hF : Acts2 (Near foldArgs l) I F g) (w a : Val) (st : St)
    (h : I st) {v : Val} {st' : St} (hr : (elems w).foldlM g a st = .ok (v, st'))
    (hv : v.isTailCall = false) :
    loopSem (S "foldl") foldlV.cdr.cdr (envVal l)
      (envVal [⟨false, n "lst", w⟩, ⟨false, n "acc", a⟩, ⟨false, n "fun", F⟩]) st = .ok (v, st') ∧ I st' := by
  have hE : ∀ w a, Near foldArgs l (mergeEnv l [⟨false, n "lst", w⟩, ⟨false, n "acc", a⟩, ⟨false, n "fun", F⟩]) :=
    fun w a => (Near.refl hl).merge (by simp [foldArgs])
  have hU : ∀ w a st, I st →
      Uses foldlUses (mergeEnv l [⟨false, n "lst", w⟩, ⟨false, n "acc", a⟩, ⟨false, n "fun", F⟩]) st :=
    fun w a st h => (hE w a).uses (hI st h) (by decide)
  have last : ∀ (w a : Val) (st st' : St) (v : Val), w.isList = false → I st → [w].foldlM g a st = .ok (v, st') →
      v.isTailCall = false → loopSem (S "foldl") foldlV.cdr.cdr (envVal l)
        (envVal [⟨false, n "lst", w⟩, ⟨false, n "acc", a⟩, ⟨false, n "fun", F⟩]) st = .ok (v, st') ∧ I st' := by
    intro w a st st' v hw h hr hv
    have u := hU w a st h
    have hc := hF _ (n "fun") (S "acc") (S "lst") a w st st st v st' (hE w a) (getEnv_merge_in hl rfl)
      (by ev) (by ev) h ((congrFun (M.bind_pure (g a w)) st).symm.trans hr)
    refine ⟨loop_done (ok_prog1.trans ?_) hv, hc.2⟩
    refine ok_if_else (by res) (ok_one (op := .islst) (a := w) (by res) (by ev) rfl (by decide) ?_) hc.1
    simp [unary, hw, ofBool]
  induction w generalizing a st with
  | pair t x d _ ih =>
    rw [elems, List.foldlM_cons, M.bind_apply] at hr
    cases hg : g a x st with
    | ok p =>
      obtain ⟨a', st1⟩ := p
      rw [hg] at hr
      have u := hU (pair t x d) a st h
      have hc := hF _ (n "fun") (S "acc") (L [S "car", S "lst"]) a x st st st a' st1 (hE (pair t x d) a)
        (getEnv_merge_in hl rfl) (by ev) (by ev) h hg
      have u1 := hU (pair t x d) a st1 hc.2
      have := ih a' st1 hc.2 hr
      refine ⟨loop_step (ok_prog1.trans ?_) this.1, this.2⟩
      refine ok_if_then (by res) (by ev) rfl (ok_if_else (by res) (by ev) ?_)
      exact ok_tail (d := []) (as := [S "fun", S "acc", S "lst"]) (body := foldlV.cdr.cdr)
        (vs := [S "fun", L [S "fun", S "acc", L [S "car", S "lst"]], L [S "cdr", S "lst"]])
        (xs := [F, a', d]) (by res) rfl rfl
        (okSeq_cons (by ev) (okSeq_cons hc.1 (okSeq_cons (by ev) okSeq_nil)))
    | _ => rw [hg] at hr; cases hr
  | nil =>
    rw [elems, List.foldlM_nil] at hr
    have u := hU nil a st h
    cases hr
    refine ⟨loop_done (ok_prog1.trans ?_) hv, h⟩
    exact ok_if_then (by res) (by ev) rfl (ok_if_then (by res) (by ev) rfl (by ev))
  | _ => exact last _ a st st' v rfl h hr hv

/-- **C49.** `(foldl F A W)`: the left fold of the elements of W, with the effects of F in that order. -/
theorem C49_foldl {l : List Entry} (hl : Sorted l) {I : St → Prop} {F a w : Val} {g : Val → Val → M Val}
    {ef ea ew : Val} {st st1 st2 : St} {v : Val}
    (hI : ∀ st, I st → Uses foldlUses l st) (hF : Acts2 (Near foldArgs l) I F g)
    (h0 : Uses foldlUses l st) (h1 : I st1)
    (hargs : evalSeq sem (envVal l) [ef, ea, ew] st = .ok ([F, a, w], st1))
    (hr : (elems w).foldlM g a st1 = .ok (v, st2)) (hv : v.isTailCall = false) :
    sem (envVal l) (L [S "foldl", ef, ea, ew]) st = .ok (v, st2) ∧ I st2 := by
  have := foldl_loop hl hI hF w a st1 h1 hr hv
  exact ⟨ok_call (d := []) (as := [S "fun", S "acc", S "lst"]) (vs := [ef, ea, ew]) (by res) rfl rfl hargs this.1,
    this.2⟩

/-- The definitions that `foldr` relies on. -/
def foldrUses : List (Sym × Val) :=
  [(n "if", Native.if_.val), (n "lst?", Native.islst.val), (n "nil?", Native.isnil.val),
   (n "car", Native.car.val), (n "cdr", Native.cdr.val), (n "foldr", foldrV)]

theorem foldr_tail {g : Val → Val → M Val} {a : Val} (ha : a.isTailCall = false)
    (xs : List Val) (hg : ∀ x ∈ xs, ∀ y st v st', y.isTailCall = false → g x y st = .ok (v, st') →
      v.isTailCall = false) {st st' : St} {v : Val}
    (h : xs.foldrM g a st = .ok (v, st')) : v.isTailCall = false := by
  induction xs generalizing v st' with
  | nil => cases h; exact ha
  | cons y ys ih =>
    rw [List.foldrM_cons, M.bind_apply] at h
    cases h3 : List.foldrM g a ys st with
    | ok p =>
      rw [h3] at h
      exact hg y (by simp) _ _ _ _ (ih (fun x hx => hg x (by simp [hx])) h3) h
    | _ => rw [h3] at h; cases h

theorem foldr_loop {l : List Entry} {I : St → Prop} {F : Val} {g : Val → Val → M Val}
    (hI : ∀ st, I st → Uses foldrUses l st) (hF : Acts2 (Near foldArgs l) I F g) (w a : Val) (l' : List Entry)
    (hl : Near foldArgs l l') (st : St) (h : I st) {v : Val} {st' : St}
    (hr : (elems w).foldrM g a st = .ok (v, st'))
    (hg : ∀ x ∈ elems w, ∀ y st v st', y.isTailCall = false → g x y st = .ok (v, st') → v.isTailCall = false)
    (ha : a.isTailCall = false) :
    loopSem (S "foldr") foldrV.cdr.cdr (envVal l')
      (envVal [⟨false, n "acc", a⟩, ⟨false, n "lst", w⟩, ⟨false, n "fun", F⟩]) st = .ok (v, st') ∧ I st' := by
  have hE : ∀ l', Near foldArgs l l' → ∀ w,
      Near foldArgs l (mergeEnv l' [⟨false, n "acc", a⟩, ⟨false, n "lst", w⟩, ⟨false, n "fun", F⟩]) :=
    fun l' hl w => hl.merge (by simp [foldArgs])
  have hU : ∀ l', Near foldArgs l l' → ∀ w st, I st →
      Uses foldrUses (mergeEnv l' [⟨false, n "acc", a⟩, ⟨false, n "lst", w⟩, ⟨false, n "fun", F⟩]) st :=
    fun l' hl w st h => (hE l' hl w).uses (hI st h) (by decide)
  have last : ∀ l', Near foldArgs l l' → ∀ (w : Val) (st st' : St) (v : Val), w.isList = false →
      (∀ y st v st', y.isTailCall = false → g w y st = .ok (v, st') → v.isTailCall = false) → I st →
      [w].foldrM g a st = .ok (v, st') → loopSem (S "foldr") foldrV.cdr.cdr (envVal l')
        (envVal [⟨false, n "acc", a⟩, ⟨false, n "lst", w⟩, ⟨false, n "fun", F⟩]) st = .ok (v, st') ∧ I st' := by
    intro l' hl w st st' v hw hg h hr
    have hs := hl.sorted
    have u := hU l' hl w st h
    have hc := hF _ (n "fun") (S "lst") (S "acc") w a st st st v st' (hE l' hl w) (getEnv_merge_in hs rfl)
      (by ev) (by ev) h (by simpa using hr)
    refine ⟨loop_done (ok_prog1.trans ?_) (foldr_tail ha [w] (by simpa using hg) hr), hc.2⟩
    refine ok_if_else (by res) (ok_one (op := .islst) (a := w) (by res) (by ev) rfl (by decide) ?_) hc.1
    simp [unary, hw, ofBool]
  induction w generalizing l' st v st' with
  | pair t x d _ ih =>
    have hv := foldr_tail ha _ hg hr
    rw [elems, List.foldrM_cons, M.bind_apply] at hr
    cases hd : List.foldrM g a (elems d) st with
    | ok p =>
      obtain ⟨a', st1⟩ := p
      rw [hd] at hr
      have hs := hl.sorted
      have u := hU l' hl (pair t x d) st h
      have hin := ih _ (hE l' hl (pair t x d)) st h hd (fun x hx => hg x (List.mem_cons_of_mem _ hx))
      have hc := hF _ (n "fun") (L [S "car", S "lst"]) (L [S "foldr", S "fun", L [S "cdr", S "lst"], S "acc"])
        x a' st st st1 v st' (hE l' hl (pair t x d))
        (getEnv_merge_in hs rfl) (by ev)
        (ok_call (d := []) (as := [S "fun", S "lst", S "acc"]) (vs := [S "fun", L [S "cdr", S "lst"], S "acc"])
          (by res) rfl rfl
          (okSeq_cons (by ev) (okSeq_cons (by ev) (okSeq_cons (by ev) okSeq_nil))) hin.1) hin.2 hr
      refine ⟨loop_done (ok_prog1.trans ?_) hv, hc.2⟩
      exact ok_if_then (by res) (by ev) rfl (ok_if_else (by res) (by ev) hc.1)
    | _ => rw [hd] at hr; cases hr
  | nil =>
    rw [elems, List.foldrM_nil] at hr
    have hs := hl.sorted
    have u := hU l' hl nil st h
    cases hr
    refine ⟨loop_done (ok_prog1.trans ?_) ha, h⟩
    exact ok_if_then (by res) (by ev) rfl (ok_if_then (by res) (by ev) rfl (by ev))
  | _ => exact last l' hl _ st st' v rfl (hg _ (by simp [elems])) h hr

/-- **C49.** `(foldr F W A)`: the right fold of the elements of W; F is applied to the last element first. The
results of F must not be raw tail call records (values with an internal mark, which no program can make on purpose). -/
theorem C49_foldr {l : List Entry} (hl : Sorted l) {I : St → Prop} {F a w : Val} {g : Val → Val → M Val}
    {ef ea ew : Val} {st st1 st2 : St} {v : Val}
    (hI : ∀ st, I st → Uses foldrUses l st) (hF : Acts2 (Near foldArgs l) I F g)
    (h0 : Uses foldrUses l st) (h1 : I st1)
    (hargs : evalSeq sem (envVal l) [ef, ew, ea] st = .ok ([F, w, a], st1))
    (hr : (elems w).foldrM g a st1 = .ok (v, st2))
    (hg : ∀ x ∈ elems w, ∀ y st v st', y.isTailCall = false → g x y st = .ok (v, st') → v.isTailCall = false)
    (ha : a.isTailCall = false) :
    sem (envVal l) (L [S "foldr", ef, ew, ea]) st = .ok (v, st2) ∧ I st2 := by
  have := foldr_loop hI hF w a l (Near.refl hl) st1 h1 hr hg ha
  exact ⟨ok_call (d := []) (as := [S "fun", S "lst", S "acc"]) (vs := [ef, ew, ea]) (by res) rfl rfl hargs this.1,
    this.2⟩

/-! ## `map`, `map2`, `zip` -/

/-- The CARs of a list. -/
def cars : Val → List Val
  | pair _ a d => a :: cars d
  | _ => []

/-- The last CDR of a list: NIL for a proper list. -/
def lastCdr : Val → Val
  | pair _ _ d => lastCdr d
  | v => v

/-- The definitions that `map` relies on. -/
def mapUses : List (Sym × Val) :=
  [(n "if", Native.if_.val), (n "and", Native.and.val), (n "not", Native.not.val), (n "lst?", Native.islst.val),
   (n "nil?", Native.isnil.val), (n "car", Native.car.val), (n "cdr", Native.cdr.val),
   (n "cons", Native.cons.val), (n "map", mapV)]

/-- The argument names of `map`. -/
def mapArgs : List Sym := [n "fun", n "lst"]

theorem map_loop {l : List Entry} {I : St → Prop} {F : Val} {g : Val → M Val}
    (hI : ∀ st, I st → Uses mapUses l st) (hF : Acts1 (Near mapArgs l) I F g) (w : Val) (l' : List Entry)
    (hl : Near mapArgs l l') (st : St) (h : I st) {ys : List Val} {st' : St}
    (hr : (cars w).mapM g st = .ok (ys, st')) (hw : (lastCdr w).isTailCall = false) :
    loopSem (S "map") mapV.cdr.cdr (envVal l')
      (envVal [⟨false, n "lst", w⟩, ⟨false, n "fun", F⟩]) st = .ok (ys.foldr cons (lastCdr w), st') ∧ I st' := by
  have last : ∀ w : Val, w.isPair = false → ∀ l', Near mapArgs l l' → ∀ st, I st → ∀ {ys : List Val} {st' : St},
      (cars w).mapM g st = .ok (ys, st') → (lastCdr w).isTailCall = false →
      loopSem (S "map") mapV.cdr.cdr (envVal l')
        (envVal [⟨false, n "lst", w⟩, ⟨false, n "fun", F⟩]) st = .ok (ys.foldr cons (lastCdr w), st') ∧ I st' := by
    intro w hp l' hl st h ys st' hr hw
    have h1 : cars w = [] ∧ lastCdr w = w := by cases w <;> first | exact ⟨rfl, rfl⟩ | simp [isPair] at hp
    rw [h1.1] at hr
    rw [h1.2] at hw ⊢
    cases hr
    have hs := hl.sorted
    have u := (hl.merge (b := [⟨false, n "lst", w⟩, ⟨false, n "fun", F⟩]) (by simp [mapArgs])).uses (hI _ h)
      (by decide)
    refine ⟨loop_done (ok_prog1.trans ?_) hw, h⟩
    refine ok_if_else (by res) (ok_two (op := .and) (by res)
      (ok_one (op := .not) (by res) (ok_one (op := .isnil) (a := w) (by res) (by ev) rfl (by decide) rfl) rfl (by decide) rfl)
      (ok_one (op := .islst) (a := w) (by res) (by ev) rfl (by decide) rfl) rfl ?_) (by ev)
    cases w <;> first | rfl | simp [isPair] at hp
  induction w generalizing l' st ys st' with
  | pair t x d _ ih =>
    have hs := hl.sorted
    have hE : Near mapArgs l (mergeEnv l' [⟨false, n "lst", pair t x d⟩, ⟨false, n "fun", F⟩]) :=
      hl.merge (by simp [mapArgs])
    have hU : ∀ st, I st → Uses mapUses (mergeEnv l' [⟨false, n "lst", pair t x d⟩, ⟨false, n "fun", F⟩]) st :=
      fun st h => hE.uses (hI st h) (by decide)
    rw [cars, List.mapM_cons, M.bind_apply] at hr
    cases hx : g x st with
    | ok p =>
      obtain ⟨y, st1⟩ := p
      rw [hx, Res.ok_bind, M.bind_apply] at hr
      have u := hU st h
      have hc := hF _ (n "fun") (L [S "car", S "lst"]) x st st y st1 hE (getEnv_merge_in hs rfl) (by ev) h hx
      cases hd : (cars d).mapM g st1 with
      | ok p =>
        obtain ⟨zs, st2⟩ := p
        rw [hd] at hr
        cases hr
        have u1 := hU st1 hc.2
        have hin := ih _ hE st1 hc.2 hd hw
        refine ⟨loop_done (ok_prog1.trans ?_) rfl, hin.2⟩
        refine ok_if_then (by res) (by ev) rfl (ok_two (op := .cons) (by res) hc.1 (b := zs.foldr cons (lastCdr d))
          ?_ rfl rfl)
        exact ok_call (d := []) (as := [S "fun", S "lst"]) (vs := [S "fun", L [S "cdr", S "lst"]])
          (by res) rfl rfl (okSeq_cons (by ev) (okSeq_cons (by ev) okSeq_nil)) hin.1
      | _ => rw [hd] at hr; cases hr
    | _ => rw [hx] at hr; cases hr
  | _ => exact last _ rfl _ hl st h hr hw

/-- **C49.** `(map F W)`: F is applied to the elements in order, and the results are collected in order. If the
list ends in an atom other than NIL, that atom ends the result too. -/
theorem C49_map {l : List Entry} (hl : Sorted l) {I : St → Prop} {F w : Val} {g : Val → M Val}
    {ef ew : Val} {st st1 st2 : St} {ys : List Val}
    (hI : ∀ st, I st → Uses mapUses l st) (hF : Acts1 (Near mapArgs l) I F g)
    (h0 : Uses mapUses l st) (h1 : I st1)
    (hargs : evalSeq sem (envVal l) [ef, ew] st = .ok ([F, w], st1))
    (hr : (cars w).mapM g st1 = .ok (ys, st2)) (hw : (lastCdr w).isTailCall = false) :
    sem (envVal l) (L [S "map", ef, ew]) st = .ok (ys.foldr cons (lastCdr w), st2) ∧ I st2 := by
  have := map_loop hI hF w l (Near.refl hl) st1 h1 hr hw
  exact ⟨ok_call (d := []) (as := [S "fun", S "lst"]) (vs := [ef, ew]) (by res) rfl rfl hargs this.1, this.2⟩

/-- The definitions that `map2` relies on. -/
def map2Uses : List (Sym × Val) :=
  [(n "if", Native.if_.val), (n "and", Native.and.val), (n "not", Native.not.val), (n "lst?", Native.islst.val),
   (n "nil?", Native.isnil.val), (n "car", Native.car.val), (n "cdr", Native.cdr.val),
   (n "cons", Native.cons.val), (n "map2", map2V)]

/-- The argument names of `map2`. -/
def map2Args : List Sym := [n "fun", n "lst1", n "lst2"]

theorem map2_loop {l : List Entry} {I : St → Prop} {F : Val} {g : Val → Val → M Val}
    (hI : ∀ st, I st → Uses map2Uses l st) (hF : Acts2 (Near map2Args l) I F g) (w1 w2 : Val) (l' : List Entry)
    (hl : Near map2Args l l') (st : St) (h : I st) {ys : List Val} {st' : St}
    (hr : ((cars w1).zip (cars w2)).mapM (fun p => g p.1 p.2) st = .ok (ys, st')) :
    loopSem (S "map2") map2V.cdr.cdr (envVal l')
      (envVal [⟨false, n "lst2", w2⟩, ⟨false, n "lst1", w1⟩, ⟨false, n "fun", F⟩]) st = .ok (ofList ys, st') ∧
      I st' := by
  have last : ∀ w1 w2 : Val, (w1.isPair && w2.isPair) = false → ∀ l', Near map2Args l l' → ∀ st, I st →
      ∀ {ys : List Val} {st' : St}, ((cars w1).zip (cars w2)).mapM (fun p => g p.1 p.2) st = .ok (ys, st') →
      loopSem (S "map2") map2V.cdr.cdr (envVal l')
        (envVal [⟨false, n "lst2", w2⟩, ⟨false, n "lst1", w1⟩, ⟨false, n "fun", F⟩]) st = .ok (ofList ys, st') ∧
        I st' := by
    intro w1 w2 hp l' hl st h ys st' hr
    have h1 : (cars w1).zip (cars w2) = [] := by
      cases w1 <;> cases w2 <;> first | rfl | simp [isPair] at hp
    rw [h1] at hr
    cases hr
    have hs := hl.sorted
    have u := (hl.merge (b := [⟨false, n "lst2", w2⟩, ⟨false, n "lst1", w1⟩, ⟨false, n "fun", F⟩])
      (by simp [map2Args])).uses (hI _ h) (by decide)
    refine ⟨loop_done (ok_prog1.trans ?_) rfl, h⟩
    refine ok_if_none (by res) (ok_two (op := .and) (by res)
      (ok_two (op := .and) (by res)
        (ok_one (op := .not) (by res) (ok_one (op := .isnil) (a := w1) (by res) (by ev) rfl (by decide) rfl) rfl (by decide) rfl)
        (ok_one (op := .islst) (a := w1) (by res) (by ev) rfl (by decide) rfl) rfl rfl)
      (ok_two (op := .and) (by res)
        (ok_one (op := .not) (by res) (ok_one (op := .isnil) (a := w2) (by res) (by ev) rfl (by decide) rfl) rfl (by decide) rfl)
        (ok_one (op := .islst) (a := w2) (by res) (by ev) rfl (by decide) rfl) rfl rfl) rfl ?_)
    cases w1 <;> cases w2 <;> first | rfl | simp [isPair] at hp
  induction w1 generalizing l' st ys st' w2 with
  | pair t x d _ ih =>
    cases w2 with
    | pair t2 x2 d2 =>
      have hs := hl.sorted
      have hE : Near map2Args l (mergeEnv l' [⟨false, n "lst2", pair t2 x2 d2⟩, ⟨false, n "lst1", pair t x d⟩,
          ⟨false, n "fun", F⟩]) := hl.merge (by simp [map2Args])
      have hU : ∀ st, I st → Uses map2Uses (mergeEnv l' [⟨false, n "lst2", pair t2 x2 d2⟩,
          ⟨false, n "lst1", pair t x d⟩, ⟨false, n "fun", F⟩]) st := fun st h => hE.uses (hI st h) (by decide)
      rw [cars, cars, List.zip_cons_cons, List.mapM_cons, M.bind_apply] at hr
      cases hx : g x x2 st with
      | ok p =>
        obtain ⟨y, st1⟩ := p
        rw [hx, Res.ok_bind, M.bind_apply] at hr
        have u := hU st h
        have hc := hF _ (n "fun") (L [S "car", S "lst1"]) (L [S "car", S "lst2"]) x x2 st st st y st1 hE
          (getEnv_merge_in hs rfl) (by ev) (by ev) h hx
        cases hd : ((cars d).zip (cars d2)).mapM (fun p => g p.1 p.2) st1 with
        | ok p =>
          obtain ⟨zs, st2⟩ := p
          rw [hd] at hr
          cases hr
          have u1 := hU st1 hc.2
          have hin := ih d2 _ hE st1 hc.2 hd
          refine ⟨loop_done (ok_prog1.trans ?_) rfl, hin.2⟩
          refine ok_if_then (by res) (by ev) rfl (ok_two (op := .cons) (by res) hc.1 (b := ofList zs) ?_ rfl rfl)
          exact ok_call (d := []) (as := [S "fun", S "lst1", S "lst2"])
            (vs := [S "fun", L [S "cdr", S "lst1"], L [S "cdr", S "lst2"]])
            (by res) rfl rfl (okSeq_cons (by ev) (okSeq_cons (by ev) (okSeq_cons (by ev) okSeq_nil))) hin.1
        | _ => rw [hd] at hr; cases hr
      | _ => rw [hx] at hr; cases hr
    | _ => exact last _ _ rfl _ hl st h hr
  | _ => exact last _ _ rfl _ hl st h hr

/-- **C49.** `(map2 F V W)`: F is applied to the elements of both lists in parallel, up to the end of the
shorter one. -/
theorem C49_map2 {l : List Entry} (hl : Sorted l) {I : St → Prop} {F w1 w2 : Val} {g : Val → Val → M Val}
    {ef e1 e2 : Val} {st st1 st2 : St} {ys : List Val}
    (hI : ∀ st, I st → Uses map2Uses l st) (hF : Acts2 (Near map2Args l) I F g)
    (h0 : Uses map2Uses l st) (h1 : I st1)
    (hargs : evalSeq sem (envVal l) [ef, e1, e2] st = .ok ([F, w1, w2], st1))
    (hr : ((cars w1).zip (cars w2)).mapM (fun p => g p.1 p.2) st1 = .ok (ys, st2)) :
    sem (envVal l) (L [S "map2", ef, e1, e2]) st = .ok (ofList ys, st2) ∧ I st2 := by
  have := map2_loop hI hF w1 w2 l (Near.refl hl) st1 h1 hr
  exact ⟨ok_call (d := []) (as := [S "fun", S "lst1", S "lst2"]) (vs := [ef, e1, e2]) (by res) rfl rfl hargs this.1,
    this.2⟩

/-- The definitions that `zip` relies on. -/
def zipUses : List (Sym × Val) := (n "zip", zipV) :: map2Uses

theorem mapM_pure {α : Type} (f : α → Val) (xs : List α) :
    xs.mapM (fun x => (pure (f x) : M Val)) = pure (xs.map f) := by
  induction xs with
  | nil => rfl
  | cons x xs ih => rw [List.mapM_cons, ih]; rfl

/-- **C49.** `(zip V W)` is the list of pairs of elements at the same place. -/
theorem C49_zip {l : List Entry} (hl : Sorted l) {w1 w2 e1 e2 : Val} {st st1 : St}
    (h0 : Uses zipUses l st) (h1 : Uses zipUses l st1)
    (hargs : evalSeq sem (envVal l) [e1, e2] st = .ok ([w1, w2], st1)) :
    sem (envVal l) (L [S "zip", e1, e2]) st =
      .ok (ofList (((cars w1).zip (cars w2)).map fun p => cons p.1 p.2), st1) := by
  have hE : Near map2Args l (mergeEnv l [⟨false, n "lst2", w2⟩, ⟨false, n "lst1", w1⟩]) :=
    (Near.refl hl).merge (by simp [map2Args])
  have u : Uses zipUses (mergeEnv l [⟨false, n "lst2", w2⟩, ⟨false, n "lst1", w1⟩]) st1 :=
    hE.uses h1 (by decide)
  have um := u.sub (T' := map2Uses) (fun p hp => List.mem_cons_of_mem _ hp)
  have := (C49_map2 (hE.sorted) (I := fun s => s = st1) (F := Native.cons.val) (w1 := w1) (w2 := w2)
    (ef := S "cons") (e1 := S "lst1") (e2 := S "lst2") (st := st1)
    (fun s h => by rw [h]; exact um) (acts2_native _ _ rfl) um rfl
    (okSeq_cons (by ev) (okSeq_cons (by ev) (okSeq_cons (by ev) okSeq_nil)))
    (congrFun (mapM_pure (fun p : Val × Val => cons p.1 p.2) _) st1)).1
  exact ok_call (d := []) (as := [S "lst1", S "lst2"]) (vs := [e1, e2]) (by res) rfl rfl hargs
    (loop_done (ok_prog1.trans this) (by cases (((cars w1).zip (cars w2)).map fun p => cons p.1 p.2) <;> rfl))

/-! ## Examples -/

/-- The state after the definitions of the library. -/
def libSt : St :=
  ([("foldl", foldlV), ("foldr", foldrV), ("map", mapV), ("map2", map2V), ("zip", zipV), ("rev", revV),
    ("filter", filterV), ("has", hasV), ("append", appendV), ("$+", strcatV), ("aton", atonV), ("ntoa", ntoaV),
    ("last", lastV), ("assoc", assocV), ("caar", caarV), ("cddr", cddrV), ("cadar", cadarV), ("caddr", caddrV),
    ("cadddr", cadddrV), ("cadr", cadrV), ("cdar", cdarV), ("rep", repV), ("truncl", trunclV),
    ("whitespace?", isspaceV), ("triml", trimlV), ("trimr", trimrV), ("trim", trimV), ("strlt", strltV),
    ("insert", insertV), ("isort", isortV), ("erase", eraseV), ("replc", replcV), ("flatten", flattenV),
    ("split", splitV), ("dedup", dedupV), ("join", joinV), ("merge", mergeV), ("<|>", orelseV), ("iter", iterV),
    ("iter2", iter2V), ("truncr", truncrV)] : List (String × Val)).foldl (fun st p => define p.1 p.2 st) initSt

/-- The value of an expression at top level after the definitions of the library; `k` bounds the nesting. -/
def runLib (k : Nat) (e : Val) : Res Val := evalN k nil e libSt >>= fun p => .ok p.1

/-- `(foldl - 10 (quote 1 2 3))` is 4. -/
example : sem nil (L [S "foldl", S "-", N 10, Q (L [N 1, N 2, N 3])]) libSt = .ok (N 4, libSt) := by
  have u : Uses foldlUses [] libSt := by unfold Uses; decide +kernel
  have hm : Resolves nil libSt (n "-") Native.sub.val := resolves_global (l := []) rfl (by decide +kernel)
  have hq : Resolves nil libSt sQuote Native.quote.val := resolves_global (l := []) rfl (by decide +kernel)
  exact (C49_foldl (l := []) (I := fun s => s = libSt) (F := Native.sub.val) (a := N 10) (w := L [N 1, N 2, N 3])
    List.Pairwise.nil (fun s h => by rw [h]; exact u) (acts2_native _ _ rfl) u rfl
    (okSeq_cons (ok_sym hm) (okSeq_cons (ok_num _) (okSeq_cons (ok_quote hq) okSeq_nil))) rfl rfl).1

end Lib
end Mnml
