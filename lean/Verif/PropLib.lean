import Verif.PropFold

/-!
# C50: lists in the lisp library
-/

namespace Mnml
namespace Lib

open Val

/-- The environment of the body of a lambda made in `l` and called by a function of the library. -/
theorem lambda_near {ps qs : List Sym} {l l' b : List Entry} (hl : Sorted l) (h : Near ps l l')
    (hb : ∀ s ∈ b.map Entry.key, s ∈ qs) (hs : ∀ s ∈ ps, s ∈ qs) :
    Near qs l (mergeEnv (mergeEnv l' l) b) :=
  ((h.mono hs).capture (Near.refl hl)).merge hb

/-! ## `rev` -/

/-- The definitions that `rev` relies on. -/
def revUses : List (Sym × Val) :=
  (n "rev", revV) :: (n "\\", Native.lambda.val) :: (n "cons", Native.cons.val) :: foldlUses

theorem foldl_cons (xs : List Val) (a : List Val) :
    xs.foldl (fun acc e => cons e acc) (ofList a) = ofList (xs.reverse ++ a) := by
  induction xs generalizing a with
  | nil => rfl
  | cons x xs ih => rw [List.foldl_cons]; refine (ih (x :: a)).trans ?_; simp

theorem tail_ofList (xs : List Val) : (ofList xs).isTailCall = false := by cases xs <;> rfl

/-- **C50.** `(rev W)` is the list of the elements of W in reverse order. -/
theorem C50_rev {l : List Entry} (hl : Sorted l) {w e : Val} {st st1 : St} (h0 : Uses revUses l st)
    (h1 : Uses revUses l st1) (he : sem (envVal l) e st = .ok (w, st1)) :
    sem (envVal l) (L [S "rev", e]) st = .ok (ofList (elems w).reverse, st1) := by
  refine ok_call (d := []) (as := [S "lst"]) (vs := [e]) (by res) rfl rfl (okSeq_cons he okSeq_nil)
    (loop_done (ok_prog1.trans ?_) (tail_ofList _))
  have hs : Sorted (mergeEnv l [⟨false, n "lst", w⟩]) := sorted_mergeEnv _ hl
  have u : Uses revUses (mergeEnv l [⟨false, n "lst", w⟩]) st1 := uses_merge [n "lst"] h1 hl rfl (by decide)
  have uf := u.sub (T' := foldlUses) (fun p hp => by simp [revUses, hp])
  refine (C49_foldl (I := fun s => s = st1) (st1 := st1) (w := w) (a := nil) (g := fun acc e => pure (cons e acc))
    hs (fun s h => by rw [h]; exact uf) ?_ uf rfl
    (okSeq_cons (ok_lambda (by res)) (okSeq_cons ok_nil (okSeq_cons (ok_sym (by res)) okSeq_nil))) ?_
    (tail_ofList _)).1
  · refine acts2_lisp (p := S "acc") (q := S "e") rfl fun l' x y st v st' hP hI hg => ?_
    cases hg; cases hI
    have u' := (lambda_near (qs := n "e" :: foldArgs) (b := [⟨false, n "e", y⟩, ⟨false, n "acc", x⟩]) hs hP
      (by simp [foldArgs]) (by simp [foldArgs])).uses u (by decide)
    have hs' := hP.sorted
    exact ⟨ok_prog1.trans (by ev), rfl, rfl⟩
  · rw [foldlM_pure]
    have := foldl_cons (elems w) []
    rw [List.append_nil] at this
    exact congrArg (fun v => Res.ok (v, st1)) this

/-! ## `filter` -/

/-- The definitions that `filter` relies on. -/
def filterUses : List (Sym × Val) :=
  (n "filter", filterV) :: (n "\\", Native.lambda.val) :: (n "cons", Native.cons.val) :: foldrUses

/-- The names bound by `filter`. -/
def filterArgs : List Sym := [n "fun", n "lst", n "acc", n "e"]

/-- **C50.** `(filter F W)` with effects: F runs on the elements from the last to the first, and the elements for
which it is true are left out. -/
theorem C50_filter_run {l : List Entry} (hl : Sorted l) {I : St → Prop} {F w : Val} {g : Val → M Val}
    {ef ew : Val} {st st1 st2 : St} {v : Val}
    (hI : ∀ st, I st → Uses filterUses l st) (hF : Acts1 (Near filterArgs l) I F g)
    (h0 : Uses filterUses l st) (h1 : I st1)
    (hargs : evalSeq sem (envVal l) [ef, ew] st = .ok ([F, w], st1))
    (hr : (elems w).foldrM (fun x acc => (do let b ← g x; pure (if b.isNil then cons x acc else acc) : M Val))
      nil st1 = .ok (v, st2)) :
    sem (envVal l) (L [S "filter", ef, ew]) st = .ok (v, st2) ∧ I st2 := by
  have hs : Sorted (mergeEnv l [⟨false, n "lst", w⟩, ⟨false, n "fun", F⟩]) := sorted_mergeEnv _ hl
  have hN : Near filterArgs l (mergeEnv l [⟨false, n "lst", w⟩, ⟨false, n "fun", F⟩]) :=
    (Near.refl hl).merge (by simp [filterArgs])
  have u : ∀ s, I s → Uses filterUses (mergeEnv l [⟨false, n "lst", w⟩, ⟨false, n "fun", F⟩]) s :=
    fun s h => hN.uses (hI s h) (by decide)
  have uf : ∀ s, I s → Uses foldrUses (mergeEnv l [⟨false, n "lst", w⟩, ⟨false, n "fun", F⟩]) s :=
    fun s h => (u s h).sub (T' := foldrUses) (fun p hp => by simp [filterUses, hp])
  have hq : ∀ (x y : Val) st v st', (!y.isTailCall) = true →
      (do let b ← g x; pure (if b.isNil then cons x y else y) : M Val) st = .ok (v, st') →
      (!v.isTailCall) = true := by
    intro x y st v st' hy h
    rw [M.bind_apply] at h
    cases hx : g x st with
    | ok p =>
      rw [hx] at h
      cases h
      show (!(if p.1.isNil then cons x y else y).isTailCall) = true
      split
      · rfl
      · exact hy
    | _ => rw [hx] at h; cases h
  have hr' := foldrM_need (Q := fun y => !y.isTailCall) (a := nil) hq rfl _ hr
  have u1 := u _ h1
  suffices hz : sem (envVal (mergeEnv l [⟨false, n "lst", w⟩, ⟨false, n "fun", F⟩])) filterV.cdr.cdr.car st1 =
      .ok (v, st2) ∧ I st2 by
    exact ⟨ok_call (d := []) (as := [S "fun", S "lst"]) (vs := [ef, ew]) (by res) rfl rfl hargs
      (loop_done (ok_prog1.trans hz.1) (by simpa using hr'.2)), hz.2⟩
  refine C49_foldr (st := st1) (st1 := st1) (w := w) (a := nil) hs uf
    (g := fun x y => need (!y.isTailCall) (do let b ← g x; pure (if b.isNil then cons x y else y))) ?_ (uf _ h1) h1
    (okSeq_cons (ok_lambda (by res)) (okSeq_cons (ok_sym (by res)) (okSeq_cons ok_nil okSeq_nil))) hr'.1
    (fun x _ y st v st' _ h => by
      have := need_ok h
      simpa using hq x y st v st' this.1 this.2) rfl
  · refine acts2_lisp (p := S "e") (q := S "acc") rfl fun l' x y st v st' hP hi hg => ?_
    obtain ⟨hy, hg⟩ := need_ok hg
    have hv := hq x y st v st' hy hg
    have hs' := hP.sorted
    have hn := hN.mono (ps' := filterArgs) (fun _ h => h)
    have hP' : Near filterArgs (mergeEnv l [⟨false, n "lst", w⟩, ⟨false, n "fun", F⟩])
        (mergeEnv (mergeEnv l' (mergeEnv l [⟨false, n "lst", w⟩, ⟨false, n "fun", F⟩]))
          [⟨false, n "acc", y⟩, ⟨false, n "e", x⟩]) :=
      lambda_near hs hP (by simp [filterArgs]) (by simp [filterArgs, foldArgs])
    have hP'' := hN.trans hP'
    have u' := hP''.uses (hI st hi) (by decide)
    rw [M.bind_apply] at hg
    cases hx : g x st with
    | ok p =>
      obtain ⟨b, st3⟩ := p
      rw [hx] at hg
      cases hg
      have hc := hF _ (n "fun") (S "e") x st st b st3 hP''
        (getEnv_merge_skip (by sorted) rfl (getEnv_merge_cap (by sorted) hs (getEnv_merge_in hl rfl)))
        (ok_sym (by res)) hi hx
      have u3 := hP''.uses (hI _ hc.2) (by decide)
      refine ⟨ok_prog1.trans ?_, by simpa using hv, hc.2⟩
      cases b with
      | nil => exact ok_if_else (by res) hc.1 (by ev)
      | _ => exact ok_if_then (by res) hc.1 rfl (by ev)
    | _ => rw [hx] at hg; cases hg

theorem foldr_filter (p : Val → Bool) (xs : List Val) :
    xs.foldr (fun x acc => if p x then cons x acc else acc) nil = ofList (xs.filter p) := by
  induction xs with
  | nil => rfl
  | cons x xs ih =>
    rw [List.foldr_cons, ih, List.filter_cons]
    split <;> rfl

/-- **C50.** `(filter F W)` for a function without effects: the elements for which F is true are left out, the others
keep their order. -/
theorem C50_filter {l : List Entry} (hl : Sorted l) {F w : Val} {p : Val → Val} {ef ew : Val} {st st1 : St}
    (h0 : Uses filterUses l st) (h1 : Uses filterUses l st1)
    (hF : Acts1 (Near filterArgs l) (fun s => s = st1) F (fun x => pure (p x)))
    (hargs : evalSeq sem (envVal l) [ef, ew] st = .ok ([F, w], st1)) :
    sem (envVal l) (L [S "filter", ef, ew]) st = .ok (ofList ((elems w).filter fun x => (p x).isNil), st1) := by
  refine (C50_filter_run hl (I := fun s => s = st1) (fun s h => by rw [h]; exact h1) hF h0 rfl hargs ?_).1
  show (elems w).foldrM (fun x y => (pure (if (p x).isNil then cons x y else y) : M Val)) nil st1 = _
  rw [foldrM_pure, foldr_filter]
  rfl

/-! ## `has` -/

/-- The definitions that `has` relies on. -/
def hasUses : List (Sym × Val) :=
  (n "has", hasV) :: (n "\\", Native.lambda.val) :: (n "or", Native.or.val) :: (n "=", Native.equ.val) :: foldlUses

theorem foldl_or (p : Val → Bool) (xs : List Val) (b : Bool) :
    xs.foldl (fun a e => ofBool (p e || !a.isNil)) (ofBool b) = ofBool (b || xs.any p) := by
  induction xs generalizing b with
  | nil => cases b <;> rfl
  | cons x xs ih =>
    rw [List.foldl_cons]
    have : (!(ofBool b).isNil) = b := by cases b <;> rfl
    rw [this, ih, List.any_cons, ← Bool.or_assoc, Bool.or_comm (p x) b]

/-- **C50.** `(has W X)` is T if X is equal to an element of W, and NIL otherwise. -/
theorem C50_has {l : List Entry} (hl : Sorted l) {w x e1 e2 : Val} {st st1 : St} (h0 : Uses hasUses l st)
    (h1 : Uses hasUses l st1) (hargs : evalSeq sem (envVal l) [e1, e2] st = .ok ([w, x], st1)) :
    sem (envVal l) (L [S "has", e1, e2]) st = .ok (ofBool ((elems w).any fun e => equ e x), st1) := by
  have hv : ∀ b, (ofBool b).isTailCall = false := by intro b; cases b <;> rfl
  refine ok_call (d := []) (as := [S "LST", S "X"]) (vs := [e1, e2]) (by res) rfl rfl hargs
    (loop_done (ok_prog1.trans ?_) (hv _))
  have hs : Sorted (mergeEnv l [⟨false, n "X", x⟩, ⟨false, n "LST", w⟩]) := sorted_mergeEnv _ hl
  have u : Uses hasUses (mergeEnv l [⟨false, n "X", x⟩, ⟨false, n "LST", w⟩]) st1 :=
    uses_merge [n "X", n "LST"] h1 hl rfl (by decide)
  have uf := u.sub (T' := foldlUses) (fun p hp => by simp [hasUses, hp])
  refine (C49_foldl (I := fun s => s = st1) (st1 := st1) (w := w) (a := nil)
    (g := fun a e => pure (ofBool (equ e x || !a.isNil)))
    hs (fun s h => by rw [h]; exact uf) ?_ uf rfl
    (okSeq_cons (ok_lambda (by res)) (okSeq_cons ok_nil (okSeq_cons (ok_sym (by res)) okSeq_nil))) ?_ (hv _)).1
  · refine acts2_lisp (p := S "acc") (q := S "e") rfl fun l' a y st v st' hP hI hg => ?_
    cases hg; cases hI
    have u' := (lambda_near (qs := n "e" :: foldArgs) (b := [⟨false, n "e", y⟩, ⟨false, n "acc", a⟩]) hs hP
      (by simp [foldArgs]) (by simp [foldArgs])).uses u (by decide)
    have hs' := hP.sorted
    refine ⟨ok_prog1.trans ?_, hv _, rfl⟩
    have he := ok_two (op := .equ) (tc := false) (f := false) (t1 := false) (t2 := false) (x := S "e") (y := S "X")
      (v := ofBool (equ y x)) (u'.at 3 rfl) (ok_sym (by res)) (ok_sym (by res)) rfl rfl
    cases hq : equ y x with
    | true => rw [hq] at he; exact ok_or_left (by res) he rfl
    | false => rw [hq] at he; exact ok_or_right (by res) he (ok_sym (by res))
  · rw [foldlM_pure]
    exact congrArg (fun v => Res.ok (v, st1)) (foldl_or (fun e => equ e x) (elems w) false)

/-! ## `last` -/

/-- The definitions that `last` (of `last.l`) relies on. -/
def lastUses : List (Sym × Val) :=
  [(n "last", lastV), (n "if", Native.if_.val), (n "car", Native.car.val), (n "cdr", Native.cdr.val)]

theorem last_loop {l : List Entry} (hl : Sorted l) {st : St} (h : Uses lastUses l st) (xs : List Val) (x : Val)
    (hx : x.isTailCall = false) :
    loopSem (S "last") lastV.cdr.cdr (envVal l) (envVal [⟨false, n "LST", ofList (xs ++ [x])⟩]) st =
      .ok (x, st) := by
  induction xs with
  | nil =>
    have u : Uses lastUses (mergeEnv l [⟨false, n "LST", ofList ([] ++ [x])⟩]) st :=
      uses_merge [n "LST"] h hl rfl (by decide)
    exact loop_done (ok_prog1.trans (ok_if_else (by res) (by ev) (by ev))) hx
  | cons y xs ih =>
    have u : Uses lastUses (mergeEnv l [⟨false, n "LST", ofList (y :: xs ++ [x])⟩]) st :=
      uses_merge [n "LST"] h hl rfl (by decide)
    refine loop_step (ok_prog1.trans (ok_if_then (a := ofList (xs ++ [x])) (by res) (by ev) ?_ ?_)) ih
    · cases xs <;> rfl
    · exact ok_tail (d := []) (as := [S "LST"]) (vs := [L [S "cdr", S "LST"]]) (xs := [ofList (xs ++ [x])])
        (body := lastV.cdr.cdr) (by res) rfl rfl (okSeq_cons (by ev) okSeq_nil)

/-- **C50.** `(last W)` of `last.l` is the last element of a list that is not empty. -/
theorem C50_last {l : List Entry} (hl : Sorted l) {e x : Val} {xs : List Val} {st st1 : St}
    (h0 : Uses lastUses l st) (h1 : Uses lastUses l st1)
    (he : sem (envVal l) e st = .ok (ofList (xs ++ [x]), st1)) (hx : x.isTailCall = false) :
    sem (envVal l) (L [S "last", e]) st = .ok (x, st1) :=
  ok_call (d := []) (as := [S "LST"]) (vs := [e]) (by res) rfl rfl (okSeq_cons he okSeq_nil)
    (last_loop hl h1 xs x hx)

/-- The definitions that `last` of `manips.l` relies on. -/
def last2Uses : List (Sym × Val) :=
  [(n "last", last2V), (n "if", Native.if_.val), (n "nil?", Native.isnil.val), (n "cadr", cadrV),
   (n "car", Native.car.val), (n "cdr", Native.cdr.val)]

theorem last2_cadr {l : List Entry} (hl : Sorted l) {e w : Val} {st : St} (h : Uses last2Uses l st)
    (he : sem (envVal l) e st = .ok (w, st)) (hw : w.cdr.car.isTailCall = false) :
    sem (envVal l) (L [S "cadr", e]) st = .ok (w.cdr.car, st) := by
  refine ok_call (d := []) (as := [S "x"]) (vs := [e]) (by res) rfl rfl (okSeq_cons he okSeq_nil)
    (loop_done (ok_prog1.trans ?_) hw)
  have u : Uses last2Uses (mergeEnv l [⟨false, n "x", w⟩]) st := uses_merge [n "x"] h hl rfl (by decide)
  ev

/-- **C50.** `(last W)` of `manips.l` is the last element of a list none of whose elements after the first is
NIL. -/
theorem C50_last_manips_partial {l : List Entry} (hl : Sorted l) {e x : Val} {xs : List Val} {st st1 : St}
    (h0 : Uses last2Uses l st) (h1 : Uses last2Uses l st1)
    (he : sem (envVal l) e st = .ok (ofList (xs ++ [x]), st1))
    (hx : ∀ y ∈ xs ++ [x], y.isTailCall = false) (hn : ∀ y ∈ (xs ++ [x]).tail, y.isNil = false) :
    sem (envVal l) (L [S "last", e]) st = .ok (x, st1) := by
  refine ok_call (d := []) (as := [S "lst"]) (vs := [e]) (body := last2V.cdr.cdr) (by res) rfl rfl
    (okSeq_cons he okSeq_nil) ?_
  show loopSem (S "last") last2V.cdr.cdr (envVal l) (envVal [⟨false, n "lst", ofList (xs ++ [x])⟩]) st1 = _
  clear he
  induction xs with
  | nil =>
    have u : Uses last2Uses (mergeEnv l [⟨false, n "lst", ofList ([] ++ [x])⟩]) st1 :=
      uses_merge [n "lst"] h1 hl rfl (by decide)
    refine loop_done (ok_prog1.trans (ok_if_then (a := tru) (st1 := st1) (by res) ?_ rfl (by ev))) (hx x (by simp))
    exact ok_one (op := .isnil) (a := nil) (by res)
      (last2_cadr (by sorted) u (w := ofList [x]) (ok_sym (by res)) rfl) rfl (by decide) rfl
  | cons y xs ih =>
    have u : Uses last2Uses (mergeEnv l [⟨false, n "lst", ofList (y :: xs ++ [x])⟩]) st1 :=
      uses_merge [n "lst"] h1 hl rfl (by decide)
    have hc : ∃ z ∈ xs ++ [x], (ofList (y :: xs ++ [x])).cdr.car = z := by
      cases xs with
      | nil => exact ⟨x, by simp, rfl⟩
      | cons z zs => exact ⟨z, by simp, rfl⟩
    obtain ⟨z, hz, hc⟩ := hc
    have hz1 := hx z (by simp only [List.cons_append, List.mem_cons]; exact .inr hz)
    have hz2 := hn z (by simpa using hz)
    refine loop_step (ok_prog1.trans (ok_if_else (st1 := st1) (by res) ?_ ?_)) (ih (fun y hy => hx y (by
      simp only [List.cons_append, List.mem_cons]; exact .inr hy)) (fun y hy => hn y (by
      simp only [List.cons_append, List.tail_cons]; exact List.mem_of_mem_tail hy)))
    · refine ok_one (op := .isnil) (a := z) (st1 := st1) (by res) ?_ rfl (by decide) (by simp [unary, hz2, ofBool])
      rw [← hc]
      exact last2_cadr (by sorted) u (ok_sym (by res)) (by rw [hc]; exact hz1)
    · exact ok_tail (d := []) (as := [S "lst"]) (vs := [L [S "cdr", S "lst"]]) (xs := [ofList (xs ++ [x])])
        (body := last2V.cdr.cdr) (by res) rfl rfl (okSeq_cons (by ev) okSeq_nil)

/-- **C50.** `last` of `manips.l` stops at a NIL: `(last (quote 1 NIL 2))` is 1. -/
theorem C50_last_manips_counterexample :
    sem nil (L [S "last", Q (L [N 1, nil, N 2])]) (define "last" last2V libSt) =
      .ok (N 1, define "last" last2V libSt) := by
  have hs : Uses ((sQuote, Native.quote.val) :: last2Uses) [] (define "last" last2V libSt) := by
    unfold Uses; decide +kernel
  have u := hs.sub (T' := last2Uses) (fun p hp => by simp [hp])
  refine ok_call (l := []) (d := []) (as := [S "lst"]) (vs := [Q (L [N 1, nil, N 2])]) (u.at 0 rfl) rfl rfl
    (okSeq_cons (ok_quote (hs.at 0 rfl)) okSeq_nil) ?_
  have hl : Sorted ([] : List Entry) := List.Pairwise.nil
  have u' : Uses last2Uses (mergeEnv [] [⟨false, n "lst", L [N 1, nil, N 2]⟩]) (define "last" last2V libSt) :=
    uses_merge [n "lst"] u hl rfl (by decide)
  refine loop_done (ok_prog1.trans (ok_if_then (a := tru) (st1 := define "last" last2V libSt) (by res) ?_ rfl
    (by ev))) rfl
  exact ok_one (op := .isnil) (a := nil) (by res)
    (last2_cadr (by sorted) u' (w := L [N 1, nil, N 2]) (ok_sym (by res)) rfl) rfl (by decide) rfl

/-! ## `rep` and `truncl` -/

/-- The definitions that `rep` relies on. -/
def repUses : List (Sym × Val) :=
  [(n "rep", repV), (n "if", Native.if_.val), (n ">", Native.gt.val), (n "-", Native.sub.val),
   (n "cons", Native.cons.val)]

/-- The numbers of the language. -/
def IsI64 (k : Int) : Prop := inI64 k = true

theorem isI64_iff {k : Int} : IsI64 k ↔ -9223372036854775808 ≤ k ∧ k ≤ 9223372036854775807 := by
  simp only [IsI64, inI64, i64min, i64max, Bool.and_eq_true]
  exact ⟨fun h => ⟨of_decide_eq_true h.1, of_decide_eq_true h.2⟩, fun h => ⟨decide_eq_true h.1, decide_eq_true h.2⟩⟩

theorem rep_loop {l : List Entry} {a : Val} {st : St} (h : Uses repUses l st) (k : Nat) :
    ∀ (i : Int) (l' : List Entry), i.toNat = k → IsI64 i → Near [n "n", n "atm"] l l' →
      loopSem (S "rep") repV.cdr.cdr (envVal l') (envVal [⟨false, n "atm", a⟩, ⟨false, n "n", num i⟩]) st =
        .ok (ofList (List.replicate k a), st) := by
  induction k with
  | zero =>
    intro i l' hi hr hn
    have hs := hn.sorted
    have u := (hn.merge (b := [⟨false, n "atm", a⟩, ⟨false, n "n", num i⟩]) (by simp)).uses h (by decide)
    refine loop_done (ok_prog1.trans (ok_if_none (by res) (ok_two (op := .gt) (by res) (ok_sym (by res)) (ok_num _)
      rfl ?_))) rfl
    have : ¬ 0 < i := by omega
    simp [binary, compareV, number, this, ofBool]
  | succ k ih =>
    intro i l' hi hr hn
    have hs := hn.sorted
    have hn' := hn.merge (b := [⟨false, n "atm", a⟩, ⟨false, n "n", num i⟩]) (by simp)
    have u := hn'.uses h (by decide)
    have hp : 0 < i := by omega
    have hr' : inI64 (i - 1) = true := isI64_iff.2 (by have := isI64_iff.1 hr; omega)
    refine loop_done (ok_prog1.trans (ok_if_then (a := tru) (by res) (ok_two (op := .gt) (by res) (ok_sym (by res))
      (ok_num _) rfl ?_) rfl (ok_two (op := .cons) (a := a) (b := ofList (List.replicate k a)) (by res)
        (ok_sym (by res)) ?_ rfl ?_))) ?_
    · simp [binary, compareV, number, hp, ofBool]
    · refine ok_call (d := []) (as := [S "n", S "atm"]) (vs := [L [S "-", S "n", N 1], S "atm"])
        (xs := [num (i - 1), a]) (by res) rfl rfl
        (okSeq_cons (ok_two (op := .sub) (a := num i) (b := num 1) (by res) (ok_sym (by res)) (ok_num _) rfl ?_)
          (okSeq_cons (ok_sym (by res)) okSeq_nil)) (ih (i - 1) _ (by omega) hr' hn')
      simp [binary, mathV, number, arith, hr']
    · rfl
    · rfl

/-- **C50.** `(rep N A)` is the list of N times A, and NIL for a negative N. -/
theorem C50_rep {l : List Entry} (hl : Sorted l) {e1 e2 a : Val} {k : Int} {st st1 : St} (h0 : Uses repUses l st)
    (h1 : Uses repUses l st1) (hk : IsI64 k) (hargs : evalSeq sem (envVal l) [e1, e2] st = .ok ([num k, a], st1)) :
    sem (envVal l) (L [S "rep", e1, e2]) st = .ok (ofList (List.replicate k.toNat a), st1) :=
  ok_call (d := []) (as := [S "n", S "atm"]) (vs := [e1, e2]) (by res) rfl rfl hargs
    (rep_loop h1 k.toNat k l rfl hk (Near.refl hl))

/-- The definitions that `truncl` relies on. -/
def trunclUses : List (Sym × Val) :=
  [(n "truncl", trunclV), (n "when", Native.when_.val), (n ">", Native.gt.val), (n "-", Native.sub.val),
   (n "cons", Native.cons.val), (n "car", Native.car.val), (n "cdr", Native.cdr.val)]

/-- The first k elements of a list, filled up with NIL if there are fewer. -/
def takePad : Nat → Val → List Val
  | 0, _ => []
  | k + 1, w => w.car :: takePad k w.cdr

theorem truncl_loop {l : List Entry} {st : St} (h : Uses trunclUses l st) (k : Nat) :
    ∀ (i : Int) (w : Val) (l' : List Entry), i.toNat = k → IsI64 i → Near [n "n", n "lst"] l l' →
      loopSem (S "truncl") trunclV.cdr.cdr (envVal l') (envVal [⟨false, n "lst", w⟩, ⟨false, n "n", num i⟩]) st =
        .ok (ofList (takePad k w), st) := by
  induction k with
  | zero =>
    intro i w l' hi hr hn
    have hs := hn.sorted
    have u := (hn.merge (b := [⟨false, n "lst", w⟩, ⟨false, n "n", num i⟩]) (by simp)).uses h (by decide)
    refine loop_done (ok_prog1.trans (ok_when_none (by res) (ok_two (op := .gt) (by res) (ok_sym (by res)) (ok_num _)
      rfl ?_))) rfl
    have : ¬ 0 < i := by omega
    simp [binary, compareV, number, this, ofBool]
  | succ k ih =>
    intro i w l' hi hr hn
    have hs := hn.sorted
    have hn' := hn.merge (b := [⟨false, n "lst", w⟩, ⟨false, n "n", num i⟩]) (by simp)
    have u := hn'.uses h (by decide)
    have hp : 0 < i := by omega
    have hr' : inI64 (i - 1) = true := isI64_iff.2 (by have := isI64_iff.1 hr; omega)
    refine loop_done (ok_prog1.trans (ok_when (a := tru) (by res) (ok_two (op := .gt) (by res) (ok_sym (by res))
      (ok_num _) rfl ?_) rfl (ok_prog1.trans (ok_two (op := .cons) (a := w.car) (b := ofList (takePad k w.cdr)) (by res)
        (by ev) ?_ rfl ?_)))) ?_
    · simp [binary, compareV, number, hp, ofBool]
    · refine ok_call (d := []) (as := [S "n", S "lst"]) (vs := [L [S "-", S "n", N 1], L [S "cdr", S "lst"]])
        (xs := [num (i - 1), w.cdr]) (by res) rfl rfl
        (okSeq_cons (ok_two (op := .sub) (a := num i) (b := num 1) (by res) (ok_sym (by res)) (ok_num _) rfl ?_)
          (okSeq_cons (by ev) okSeq_nil)) (ih (i - 1) w.cdr _ (by omega) hr' hn')
      simp [binary, mathV, number, arith, hr']
    · rfl
    · rfl

/-- **C50.** `(truncl N W)` is the list of the first N elements of W, filled up with NIL. (Its documentation says
that it removes N elements from the left.) -/
theorem C50_truncl {l : List Entry} (hl : Sorted l) {e1 e2 w : Val} {k : Int} {st st1 : St}
    (h0 : Uses trunclUses l st) (h1 : Uses trunclUses l st1) (hk : IsI64 k)
    (hargs : evalSeq sem (envVal l) [e1, e2] st = .ok ([num k, w], st1)) :
    sem (envVal l) (L [S "truncl", e1, e2]) st = .ok (ofList (takePad k.toNat w), st1) :=
  ok_call (d := []) (as := [S "n", S "lst"]) (vs := [e1, e2]) (by res) rfl rfl hargs
    (truncl_loop h1 k.toNat k w l rfl hk (Near.refl hl))

/-- **C50.** For a list with at least N elements, `truncl` takes the first N. -/
theorem C50_truncl_take {l : List Entry} (hl : Sorted l) {e1 e2 : Val} {k : Nat} {xs : List Val} {st st1 : St}
    (h0 : Uses trunclUses l st) (h1 : Uses trunclUses l st1) (hk : IsI64 k) (hx : k ≤ xs.length)
    (hargs : evalSeq sem (envVal l) [e1, e2] st = .ok ([num k, ofList xs], st1)) :
    sem (envVal l) (L [S "truncl", e1, e2]) st = .ok (ofList (xs.take k), st1) := by
  have ht : ∀ (k : Nat) (xs : List Val), k ≤ xs.length → takePad k (ofList xs) = xs.take k := by
    intro k
    induction k with
    | zero => intro xs _; rfl
    | succ k ih =>
      intro xs h
      cases xs with
      | nil => simp at h
      | cons x xs =>
        simp only [List.length_cons] at h
        simp [takePad, ofList, car, cdr, ih xs (by omega)]
  rw [C50_truncl hl h0 h1 hk hargs]
  simp [ht k xs hx]

/-- The hypotheses of C49 and C50 are met at top level after loading the library. -/
example : Sorted [] ∧ (∀ U ∈ [foldlUses, foldrUses, mapUses, map2Uses, zipUses, revUses, filterUses, hasUses, lastUses, repUses,
    trunclUses], Uses U [] libSt) ∧ Uses last2Uses [] (define "last" last2V libSt) ∧ IsI64 3 := by
  refine ⟨by simp [Sorted], ?_, ?_, isI64_iff.2 (by omega)⟩ <;> unfold Uses <;> decide +kernel

end Lib
end Mnml
