import Verif.PropNum

/-!
# C53: ordering and sorting in the lisp library (`strlt`, `insert`, `isort`)
-/

namespace Mnml
namespace Lib

open Val

theorem nil_ofBool (p : Bool) : (ofBool p).isNil = !p := by cases p <;> rfl

theorem tail_ofBool (p : Bool) : (ofBool p).isTailCall = false := by cases p <;> rfl

/-- `or` on truth values. -/
theorem ok_or_bool {c x y r : Val} {s : Sym} {tc f t1 t2 p q : Bool} {st st1 : St}
    (h : Resolves c st s Native.or.val) (hx : sem c x st = .ok (ofBool p, st1))
    (hy : p = false → sem c y st1 = .ok (ofBool q, st1)) :
    sem c (pair tc (sym f s) (pair t1 x (pair t2 y r))) st = .ok (ofBool (p || q), st1) := by
  cases p with
  | true => exact ok_or_left h hx rfl
  | false =>
    refine (ok_or_right h hx (hy rfl)).trans ?_
    rw [nil_ofBool, Bool.not_not, Bool.false_or]

/-! ## `strlt` -/

/-- The definitions that `strlt` relies on. -/
def strltUses : List (Sym × Val) :=
  [(n "strlt", strltV), (n "and", Native.and.val), (n "or", Native.or.val), (n "not", Native.not.val),
   (n "nil?", Native.isnil.val), (n "let", Native.let_.val), (n "car", Native.car.val), (n "cdr", Native.cdr.val),
   (n "<", Native.lt.val), (n "=", Native.equ.val)]

/-- A string given by the codes of its characters. -/
def codes (xs : List Int) : Val := ofList (xs.map chr)

/-- The names bound by `strlt`. -/
def strltArgs : List Sym := [n "STRA", n "STRB", n "A", n "B"]

theorem car_codes (xs : List Int) : (codes xs).car.isFunc = false := by cases xs <;> rfl

theorem cdr_codes (xs : List Int) : (codes xs).cdr = codes xs.tail := by cases xs <;> rfl

theorem nil_codes (xs : List Int) : (codes xs).isNil = xs.isEmpty := by cases xs <;> rfl

theorem number_car (xs : List Int) : (codes xs).car.number = .ok (xs.head?.getD 0) := by cases xs <;> rfl

theorem strlt_body {l : List Entry} {st : St} (hu : Uses strltUses l st) (xs : List Int) :
    ∀ {l' : List Entry} (ys : List Int), Near strltArgs l l' →
      progV sem (envVal (mergeEnv l' [⟨false, n "STRB", codes ys⟩, ⟨false, n "STRA", codes xs⟩])) strltV.cdr.cdr nil st =
        .ok (ofBool (decide (xs < ys)), st) := by
  induction xs with
  | nil =>
    intro l' ys hl
    have hs := hl.sorted
    refine ok_prog1.trans ?_
    have u := (hl.merge (b := [⟨false, n "STRB", codes ys⟩, ⟨false, n "STRA", codes []⟩]) (by simp [strltArgs])).uses hu
      (by decide)
    refine ok_two (op := .and) (by res) (a := ofBool !ys.isEmpty) (b := tru)
      (ok_one (op := .not) (by res) (ok_one (op := .isnil) (by res) (ok_sym (by res)) rfl (by decide) rfl) rfl (by decide) ?_)
      (ok_or_left (by res) (ok_one (op := .isnil) (by res) (ok_sym (by res)) rfl (by decide) rfl) rfl) rfl ?_
    · rw [unary, nil_ofBool, nil_codes]
    · cases ys with
      | nil => rfl
      | cons y ys => simp [binary, ofBool, isNil]
  | cons x xs ih =>
    intro l' ys hl
    have hs := hl.sorted
    refine ok_prog1.trans ?_
    have hN := hl.merge (b := [⟨false, n "STRB", codes ys⟩, ⟨false, n "STRA", codes (x :: xs)⟩]) (by simp [strltArgs])
    have u := hN.uses hu (by decide)
    have hs1 := hN.sorted
    have hN2 := hN.merge (b := [⟨false, n "B", (codes ys).car⟩, ⟨false, n "A", chr x⟩]) (by simp [strltArgs])
    have u2 := hN2.uses hu (by decide)
    have u1 := (hN.merge (b := [⟨false, n "A", chr x⟩]) (by simp [strltArgs])).uses hu (by decide)
    have hs2 := hN2.sorted
    have hrec : sem (envVal (mergeEnv (mergeEnv l' [⟨false, n "STRB", codes ys⟩, ⟨false, n "STRA", codes (x :: xs)⟩])
        [⟨false, n "B", (codes ys).car⟩, ⟨false, n "A", chr x⟩])) (L [S "strlt", L [S "cdr", S "STRA"], L [S "cdr", S "STRB"]])
        st = .ok (ofBool (decide (xs < ys.tail)), st) :=
      ok_call (d := []) (as := [S "STRA", S "STRB"]) (vs := [L [S "cdr", S "STRA"], L [S "cdr", S "STRB"]])
        (xs := [codes xs, codes ys.tail]) (by res) rfl rfl
        (okSeq_cons (by ev) (okSeq_cons (by rw [← cdr_codes]; ev) okSeq_nil)) (loop_done (ih ys.tail hN2) (tail_ofBool _))
    refine ok_two (op := .and) (by res) (a := ofBool !ys.isEmpty)
      (b := ofBool (false || (decide (x < ys.head?.getD 0) || (equ (chr x) (codes ys).car && decide (xs < ys.tail)))))
      (ok_one (op := .not) (by res) (ok_one (op := .isnil) (by res) (ok_sym (by res)) rfl (by decide) rfl) rfl (by decide) ?_)
      (ok_or_bool (by res) (p := false) (ok_one (op := .isnil) (by res) (ok_sym (by res)) rfl (by decide) rfl) fun _ => ?_)
      rfl ?_
    · rw [unary, nil_ofBool, nil_codes]
    · refine ok_let_env (b := [⟨false, n "B", (codes ys).car⟩, ⟨false, n "A", chr x⟩]) (st1 := st) (by res)
        (okBind_cons (st1 := st) (a := chr x) (show sem (envVal (mergeEnv _ [⟨false, n "STRB", codes ys⟩, ⟨false, n "STRA", codes (x :: xs)⟩])) _ _ = _ by ev) (letMark_of_not_func _ _ _ rfl)
          (okBind_cons (a := (codes ys).car) (by ev) (letMark_of_not_func _ _ _ (car_codes ys)) okBind_nil))
        (ok_prog1.trans ?_)
      refine ok_or_bool (by res) (ok_two (op := .lt) (by res) (ok_sym (by res)) (ok_sym (by res)) rfl ?_) fun _ => ?_
      · simp only [binary, compareV, number_car]; rfl
      · refine ok_two (op := .and) (by res) (ok_two (op := .equ) (by res) (ok_sym (by res)) (ok_sym (by res)) rfl rfl) hrec rfl ?_
        simp only [binary, nil_ofBool, Bool.not_not]
    · simp only [binary, nil_ofBool, Bool.not_not]
      cases ys with
      | nil => rfl
      | cons y ys =>
        have : equ (chr x) (codes (y :: ys)).car = decide (x = y) := by
          rw [Bool.eq_iff_iff]; simp [codes, ofList, equ, car]
        rw [this]
        have hd : decide (x :: xs < y :: ys) = (decide (x < y) || (decide (x = y) && decide (xs < ys))) := by
          rw [Bool.eq_iff_iff]
          simp [List.cons_lt_cons_iff]
        rw [hd]
        rfl

/-- **C53.** `(strlt A B)` is T if the string A is before B in the lexicographic order of the character codes, and NIL
otherwise. -/
theorem C53_strlt {l : List Entry} (hl : Sorted l) {xs ys : List Int} {e1 e2 : Val} {st st1 : St}
    (h0 : Uses strltUses l st) (h1 : Uses strltUses l st1)
    (hargs : evalSeq sem (envVal l) [e1, e2] st = .ok ([codes xs, codes ys], st1)) :
    sem (envVal l) (L [S "strlt", e1, e2]) st = .ok (ofBool (decide (xs < ys)), st1) :=
  ok_call (d := []) (as := [S "STRA", S "STRB"]) (vs := [e1, e2]) (by res) rfl rfl hargs
    (loop_done (strlt_body h1 xs ys (Near.refl hl)) (tail_ofBool _))

/-- The hypotheses are met at top level after loading the library, here for `(strlt "ab" "b")`. -/
example : Sorted [] ∧ Uses strltUses [] libSt := by
  refine ⟨by simp [Sorted], ?_⟩; unfold Uses; decide +kernel

/-! ## `isort` -/

theorem ok_prog_cons {c x r a v w : Val} {t : Bool} {st st1 st2 : St} (hx : sem c x st = .ok (v, st1))
    (hr : progV sem c r v st1 = .ok (w, st2)) : progV sem c (pair t x r) a st = .ok (w, st2) := by
  simp only [progV]
  rw [M.bind_congr_ok hx]; exact hr

theorem ok_prog_last {c x a v : Val} {t : Bool} {st st1 : St} (hx : sem c x st = .ok (v, st1)) :
    progV sem c (pair t x nil) a st = .ok (v, st1) := ok_prog_cons hx rfl

/-- The definitions that `isort` relies on. -/
def isortUses : List (Sym × Val) :=
  [(n "isort", isortV), (n "let", Native.let_.val), (n "\\", Native.lambda.val), (n "or", Native.or.val),
   (n "cons", Native.cons.val)] ++ foldlUses

/-- The names bound by `isort` and by the functions that it calls. -/
def isortArgs : List Sym := [n "LESS", n "LST", n "ins", n "E", n "fun", n "acc", n "lst"]

/-- Insertion of `e` before the first element that is greater. -/
def place {α : Type} (lt : α → α → Bool) (e : α) : List α → List α
  | [] => [e]
  | x :: xs => if lt e x then e :: x :: xs else x :: place lt e xs

/-- The body of the function `ins` of `isort`. -/
def insBody : Val :=
  L [str "Insert E in LST using LESS", L [S "if", L [S "or", L [S "nil?", S "LST"], L [S "LESS", S "E",
    L [S "car", S "LST"]]], L [S "cons", S "E", S "LST"], L [S "cons", L [S "car", S "LST"], L [S "ins",
    L [S "cdr", S "LST"], S "E"]]]]

theorem ok_or_truth {c x y r b : Val} {s : Sym} {tc f t1 t2 p q : Bool} {st : St}
    (h : Resolves c st s Native.or.val) (hx : sem c x st = .ok (ofBool p, st))
    (hy : p = false → sem c y st = .ok (b, st) ∧ b.isNil = !q) :
    sem c (pair tc (sym f s) (pair t1 x (pair t2 y r))) st = .ok (ofBool (p || q), st) := by
  cases p with
  | true => exact ok_or_left h hx rfl
  | false =>
    refine (ok_or_right h hx (hy rfl).1).trans ?_
    rw [(hy rfl).2, Bool.not_not, Bool.false_or]

theorem ins_body {l E0 : List Entry} {st : St} (hu : Uses isortUses l st) (hE0 : Near isortArgs l E0) {F : Val}
    (hF0 : getEnv E0 (n "LESS") = some F) (hi0 : getEnv E0 (n "ins") = none) {g : Val → Val → M Val}
    (hF : Acts2 (Near isortArgs l) (fun s => s = st) F g) {lt : Val → Val → Bool} (e : Val) (xs : List Val) :
    ∀ {l' : List Entry}, (∀ x ∈ xs, ∃ b, g e x st = .ok (b, st) ∧ b.isNil = !lt e x) → Near isortArgs l l' →
      getEnv l' (n "LESS") = some F →
      getEnv l' (n "ins") = some (cons (L [S "LST", S "E"]) (cons (envVal E0) insBody)) →
      progV sem (envVal (mergeEnv l' [⟨false, n "E", e⟩, ⟨false, n "LST", ofList xs⟩])) insBody nil st =
        .ok (ofList (place lt e xs), st) := by
  induction xs with
  | nil =>
    intro l' hg hl hF' hi
    have hs := hl.sorted
    have u := (hl.merge (b := [⟨false, n "E", e⟩, ⟨false, n "LST", ofList []⟩]) (by simp [isortArgs])).uses hu (by decide)
    refine ok_prog_cons ok_string (ok_prog_last ?_)
    exact ok_if_then (by res) (ok_or_left (by res)
      (ok_one (op := .isnil) (by res) (ok_sym (by res)) rfl (by decide) rfl) rfl) rfl (by ev)
  | cons x xs ih =>
    intro l' hg hl hF' hi
    have hs := hl.sorted
    have hN := hl.merge (b := [⟨false, n "E", e⟩, ⟨false, n "LST", ofList (x :: xs)⟩]) (by simp [isortArgs])
    have u := hN.uses hu (by decide)
    have hs1 := hN.sorted
    have hF1 := (getEnv_merge_out (b := [⟨false, n "E", e⟩, ⟨false, n "LST", ofList (x :: xs)⟩]) hs
      (show n "LESS" ∉ [n "E", n "LST"] by decide)).trans hF'
    have hi1 := (getEnv_merge_out (b := [⟨false, n "E", e⟩, ⟨false, n "LST", ofList (x :: xs)⟩]) hs
      (show n "ins" ∉ [n "E", n "LST"] by decide)).trans hi
    obtain ⟨b, hb, hbn⟩ := hg x (by simp)
    have hc := hF _ (n "LESS") (S "E") (L [S "car", S "LST"]) e x st st st b st hN hF1 (ok_sym (by res)) (by ev) rfl hb
    have hor := ok_or_truth (c := envVal (mergeEnv l' [⟨false, n "E", e⟩, ⟨false, n "LST", ofList (x :: xs)⟩]))
      (s := n "or") (x := L [S "nil?", S "LST"]) (r := nil) (tc := false) (f := false) (t1 := false) (t2 := false)
      (p := false) (by res)
      (ok_one (op := .isnil) (by res) (ok_sym (by res)) rfl (by decide) rfl) fun _ => ⟨hc.1, hbn⟩
    refine ok_prog_cons ok_string (ok_prog_last ?_)
    rw [Bool.false_or] at hor
    cases hlt : lt e x with
    | true =>
      rw [hlt] at hor
      rw [place, if_pos hlt]
      exact ok_if_then (by res) hor rfl (by ev)
    | false =>
      rw [hlt] at hor
      rw [place, if_neg (by simp [hlt])]
      have hN2 := hN.capture hE0
      refine ok_if_else (by res) hor (ok_two (op := .cons) (a := x) (b := ofList (place lt e xs)) (by res) (by ev)
        (ok_call (d := E0) (as := [S "LST", S "E"]) (vs := [L [S "cdr", S "LST"], S "E"]) (xs := [ofList xs, e])
          (resolves_local hi1) rfl rfl (okSeq_cons (by ev) (okSeq_cons (ok_sym (by res)) okSeq_nil))
          (loop_done (ih (fun y hy => hg y (by simp [hy])) hN2 ?_ ?_) (tail_ofList _))) rfl rfl)
      · exact getEnv_merge_cap hs1 hE0.sorted hF0
      · rw [getEnv_mergeEnv _ hs1, getEnv_reverse hE0.sorted, hi0]; exact hi1

theorem place_perm {α : Type} (lt : α → α → Bool) (e : α) (xs : List α) : (place lt e xs).Perm (e :: xs) := by
  induction xs with
  | nil => exact .refl _
  | cons x xs ih =>
    rw [place]
    split
    · exact .refl _
    · exact (ih.cons x).trans (.swap e x xs)

/-- Insertion sort. -/
def sortBy {α : Type} (lt : α → α → Bool) (acc xs : List α) : List α := xs.foldl (fun acc e => place lt e acc) acc

theorem sortBy_perm {α : Type} (lt : α → α → Bool) (acc xs : List α) : (sortBy lt acc xs).Perm (acc ++ xs) := by
  induction xs generalizing acc with
  | nil => rw [List.append_nil]; exact .refl _
  | cons x xs ih =>
    exact (ih (place lt x acc)).trans (((place_perm lt x acc).append_right xs).trans List.perm_middle.symm)

/-- `lt` is a strict weak order: the order of a sorting key. -/
structure WeakOrder {α : Type} (lt : α → α → Bool) : Prop where
  asymm : ∀ a b, lt a b = true → lt b a = false
  trans : ∀ a b c, lt a b = false → lt b c = false → lt a c = false

theorem WeakOrder.lt_of_le {α : Type} {lt : α → α → Bool} (h : WeakOrder lt) {a b c : α} (h1 : lt a b = true)
    (h2 : lt c b = false) : lt a c = true := by
  cases h3 : lt a c with
  | true => rfl
  | false => exact absurd (h.trans a c b h3 h2) (by simp [h1])

/-- No element is less than an earlier one. -/
def InOrder {α : Type} (lt : α → α → Bool) (xs : List α) : Prop := xs.Pairwise fun a b => lt b a = false

theorem place_inOrder {α : Type} {lt : α → α → Bool} (h : WeakOrder lt) (e : α) (xs : List α) (hx : InOrder lt xs) :
    InOrder lt (place lt e xs) := by
  induction xs with
  | nil => simp [place, InOrder]
  | cons x xs ih =>
    obtain ⟨h1, h2⟩ := List.pairwise_cons.1 hx
    rw [place]
    split
    · next hlt =>
      refine List.pairwise_cons.2 ⟨fun y hy => ?_, hx⟩
      rcases List.mem_cons.1 hy with rfl | hy
      · exact h.asymm _ _ hlt
      · exact h.asymm _ _ (h.lt_of_le hlt (h1 y hy))
    · next hlt =>
      refine List.pairwise_cons.2 ⟨fun y hy => ?_, ih h2⟩
      rcases List.mem_cons.1 ((place_perm lt e xs).mem_iff.1 hy) with rfl | hy
      · simpa using hlt
      · exact h1 y hy

theorem sortBy_inOrder {α : Type} {lt : α → α → Bool} (h : WeakOrder lt) (acc xs : List α) (ha : InOrder lt acc) :
    InOrder lt (sortBy lt acc xs) := by
  induction xs generalizing acc with
  | nil => exact ha
  | cons x xs ih => exact ih _ (place_inOrder h x acc ha)

/-- The elements that have the same rank as `k`. -/
def peers {α : Type} (lt : α → α → Bool) (k : α) (xs : List α) : List α := xs.filter fun x => !lt x k && !lt k x

theorem place_peers {α : Type} {lt : α → α → Bool} (h : WeakOrder lt) (k e : α) (xs : List α) (hx : InOrder lt xs) :
    peers lt k (place lt e xs) = peers lt k (xs ++ [e]) := by
  induction xs with
  | nil => rfl
  | cons x xs ih =>
    obtain ⟨h1, h2⟩ := List.pairwise_cons.1 hx
    rw [place]
    split
    · next hlt =>
      by_cases he : (!lt e k && !lt k e) = true
      · have hno : ∀ y ∈ x :: xs, ¬(!lt y k && !lt k y) = true := by
          intro y hy hk
          simp only [Bool.and_eq_true, Bool.not_eq_true'] at he hk
          have : lt e y = true := by
            rcases List.mem_cons.1 hy with rfl | hy
            · exact hlt
            · exact h.lt_of_le hlt (h1 y hy)
          exact absurd (h.trans e k y he.1 hk.2) (by simp [this])
        have e1 : peers lt k (x :: xs) = [] := List.filter_eq_nil_iff.2 hno
        unfold peers at e1 ⊢
        rw [List.filter_append, List.filter_cons_of_pos (p := fun x => !lt x k && !lt k x) he, e1, List.filter_cons_of_pos (p := fun x => !lt x k && !lt k x) he]
        rfl
      · unfold peers
        rw [List.filter_append, List.filter_cons_of_neg (p := fun x => !lt x k && !lt k x) he, List.filter_cons_of_neg (p := fun x => !lt x k && !lt k x) he, List.filter_nil, List.append_nil]
    · have := ih h2
      unfold peers at this ⊢
      rw [List.cons_append, List.filter_cons, List.filter_cons, this]

theorem sortBy_peers {α : Type} {lt : α → α → Bool} (h : WeakOrder lt) (k : α) (acc xs : List α)
    (ha : InOrder lt acc) : peers lt k (sortBy lt acc xs) = peers lt k (acc ++ xs) := by
  induction xs generalizing acc with
  | nil => rw [List.append_nil]; rfl
  | cons x xs ih =>
    refine (ih _ (place_inOrder h x acc ha)).trans ?_
    have := place_peers h k x acc ha
    unfold peers at this ⊢
    rw [List.filter_append, this, ← List.filter_append, List.append_assoc]
    rfl

open Classical in
/-- One step of the fold of `isort`, for lists and elements taken from `xs`. -/
noncomputable def isortStep (lt : Val → Val → Bool) (xs : List Val) (acc e : Val) : M Val :=
  need (decide (acc = ofList (elems acc) ∧ (∀ x ∈ elems acc, x ∈ xs) ∧ e ∈ xs)) (pure (ofList (place lt e (elems acc))))

theorem isort_fold (lt : Val → Val → Bool) (xs : List Val) (ys acc : List Val) (ha : ∀ x ∈ acc, x ∈ xs)
    (hy : ∀ x ∈ ys, x ∈ xs) (st : St) :
    ys.foldlM (isortStep lt xs) (ofList acc) st = .ok (ofList (sortBy lt acc ys), st) := by
  induction ys generalizing acc with
  | nil => rfl
  | cons y ys ih =>
    have e : isortStep lt xs (ofList acc) y st = .ok (ofList (place lt y acc), st) := by
      unfold isortStep need
      rw [elems_ofList, if_pos (decide_eq_true ⟨rfl, ha, hy y (by simp)⟩)]
      rfl
    rw [List.foldlM_cons, M.bind_congr_ok e]
    refine ih _ (fun x hx => ?_) (fun x hx => hy x (by simp [hx]))
    rcases List.mem_cons.1 ((place_perm lt y acc).mem_iff.1 hx) with rfl | hx
    · exact hy _ (by simp)
    · exact ha x hx

theorem isort_call {l : List Entry} (hl : Sorted l) {F : Val} {xs : List Val} {e1 e2 : Val} {st st1 : St}
    {g : Val → Val → M Val} {lt : Val → Val → Bool} (h0 : Uses isortUses l st) (h1 : Uses isortUses l st1)
    (hi : getEnv l (n "ins") = none) (hF : Acts2 (Near isortArgs l) (fun s => s = st1) F g)
    (hg : ∀ x ∈ xs, ∀ y ∈ xs, ∃ b, g x y st1 = .ok (b, st1) ∧ b.isNil = !lt x y)
    (hargs : evalSeq sem (envVal l) [e1, e2] st = .ok ([F, ofList xs], st1)) :
    sem (envVal l) (L [S "isort", e1, e2]) st = .ok (ofList (sortBy lt [] xs), st1) := by
  refine ok_call (d := []) (as := [S "LESS", S "LST"]) (vs := [e1, e2]) (by res) rfl rfl hargs
    (loop_done (ok_prog1.trans ?_) (tail_ofList _))
  have hN0 : Near isortArgs l (mergeEnv l [⟨false, n "LST", ofList xs⟩, ⟨false, n "LESS", F⟩]) :=
    (Near.refl hl).merge (by simp [isortArgs])
  have hF0 : getEnv (mergeEnv l [⟨false, n "LST", ofList xs⟩, ⟨false, n "LESS", F⟩]) (n "LESS") = some F :=
    getEnv_merge_in hl rfl
  have hi0 : getEnv (mergeEnv l [⟨false, n "LST", ofList xs⟩, ⟨false, n "LESS", F⟩]) (n "ins") = none := by
    rw [getEnv_merge_out hl (show n "ins" ∉ [n "LST", n "LESS"] by decide), hi]
  have hLST : getEnv (mergeEnv l [⟨false, n "LST", ofList xs⟩, ⟨false, n "LESS", F⟩]) (n "LST") = some (ofList xs) :=
    getEnv_merge_in hl rfl
  have u0 := hN0.uses h1 (by decide)
  change sem (envVal (mergeEnv l [⟨false, n "LST", ofList xs⟩, ⟨false, n "LESS", F⟩])) _ st1 = _
  generalize mergeEnv l [⟨false, n "LST", ofList xs⟩, ⟨false, n "LESS", F⟩] = E0 at hN0 hF0 hi0 u0 hLST ⊢
  have hs0 := hN0.sorted
  have hN1 := hN0.merge (b := [⟨false, n "ins", cons (L [S "LST", S "E"]) (cons (envVal E0) insBody)⟩]) (by simp [isortArgs])
  have hF1 := getEnv_merge_out (b := [⟨false, n "ins", cons (L [S "LST", S "E"]) (cons (envVal E0) insBody)⟩]) hs0
    (show n "LESS" ∉ [n "ins"] by decide)
  have hL1 := (getEnv_merge_out (b := [⟨false, n "ins", cons (L [S "LST", S "E"]) (cons (envVal E0) insBody)⟩]) hs0
    (show n "LST" ∉ [n "ins"] by decide)).trans hLST
  have hi1 : getEnv (mergeEnv E0 [⟨false, n "ins", cons (L [S "LST", S "E"]) (cons (envVal E0) insBody)⟩]) (n "ins") =
      some (cons (L [S "LST", S "E"]) (cons (envVal E0) insBody)) := getEnv_merge_in hs0 rfl
  have u1 := hN1.uses h1 (by decide)
  refine ok_let_env (b := [⟨false, n "ins", cons (L [S "LST", S "E"]) (cons (envVal E0) insBody)⟩]) (by res)
    (okBind_cons (ok_lambda (by res)) (letMark_fun hi0 rfl rfl) okBind_nil) (ok_prog1.trans ?_)
  generalize mergeEnv E0 [⟨false, n "ins", cons (L [S "LST", S "E"]) (cons (envVal E0) insBody)⟩] = E1 at hN1 hi1 u1 hL1 ⊢
  have hs1 := hN1.sorted
  have uf := u1.sub (T' := foldlUses) (fun p hp => by simp [isortUses, hp])
  refine (C49_foldl (I := fun s => s = st1) (st1 := st1) (w := ofList xs) (a := nil) (g := isortStep lt xs)
    hs1 (fun s h => by rw [h]; exact uf) ?_ uf rfl
    (okSeq_cons (ok_sym (resolves_local hi1)) (okSeq_cons ok_nil (okSeq_cons (ok_sym (resolves_local hL1)) okSeq_nil)))
    ?_ (tail_ofList _)).1
  · refine acts2_lisp (p := S "LST") (q := S "E") rfl fun l' x y st v st' hP hI hstep => ?_
    cases hI
    obtain ⟨hc, hv⟩ := need_ok hstep
    cases hv
    obtain ⟨hx, hxs, hy⟩ := of_decide_eq_true hc
    refine ⟨?_, tail_ofList _, rfl⟩
    have hl' : Near isortArgs l l' := hN1.trans (hP.mono (by simp [foldArgs, isortArgs]))
    have hcap := hl'.capture hN0
    have := ins_body h1 hN0 hF0 hi0 hF (lt := lt) y (elems x) (fun z hz => hg y hy z (hxs z hz)) hcap
      (getEnv_merge_cap hl'.sorted hs0 hF0)
      (by rw [getEnv_mergeEnv _ hl'.sorted, getEnv_reverse hs0, hi0]
          exact (hP.same _ (by decide)).trans hi1)
    rw [← hx] at this
    exact this
  · rw [elems_ofList]
    exact isort_fold lt xs xs [] (by simp) (fun x h => h) st1

/-- **C53.** `(isort LESS LST)`, where LESS compares two elements of LST without changing the state, and where the caller has
no variable called `ins`: if LESS is a strict weak order, the result has the same elements as LST, no element is less than
an earlier one, and elements of the same rank keep their order. -/
theorem C53_isort {l : List Entry} (hl : Sorted l) {F : Val} {xs : List Val} {e1 e2 : Val} {st st1 : St}
    {g : Val → Val → M Val} {lt : Val → Val → Bool} (h0 : Uses isortUses l st) (h1 : Uses isortUses l st1)
    (hi : getEnv l (n "ins") = none) (hF : Acts2 (Near isortArgs l) (fun s => s = st1) F g)
    (hg : ∀ x ∈ xs, ∀ y ∈ xs, ∃ b, g x y st1 = .ok (b, st1) ∧ b.isNil = !lt x y) (ho : WeakOrder lt)
    (hargs : evalSeq sem (envVal l) [e1, e2] st = .ok ([F, ofList xs], st1)) :
    ∃ ys, sem (envVal l) (L [S "isort", e1, e2]) st = .ok (ofList ys, st1) ∧ ys.Perm xs ∧ InOrder lt ys ∧
      ∀ k, peers lt k ys = peers lt k xs := by
  have hnil : InOrder lt [] := List.Pairwise.nil
  refine ⟨_, isort_call hl h0 h1 hi hF hg hargs, ?_, sortBy_inOrder ho [] xs hnil, fun k => ?_⟩
  · exact sortBy_perm lt [] xs
  · exact sortBy_peers ho k [] xs hnil

theorem sortBy_map {α : Type} (f : α → Val) {lt : Val → Val → Bool} {lt' : α → α → Bool}
    (h : ∀ a b, lt (f a) (f b) = lt' a b) (acc xs : List α) :
    sortBy lt (acc.map f) (xs.map f) = (sortBy lt' acc xs).map f := by
  have hp : ∀ e xs, place lt (f e) (xs.map f) = (place lt' e xs).map f := by
    intro e xs
    induction xs with
    | nil => rfl
    | cons x xs ih =>
      rw [List.map_cons, place, place, h, ih]
      split <;> rfl
  induction xs generalizing acc with
  | nil => rfl
  | cons x xs ih =>
    show sortBy lt (place lt (f x) (acc.map f)) (xs.map f) = _
    rw [hp]
    exact ih _

/-- For a total order, insertion sort is the sorting function of the Lean library. -/
theorem sortBy_eq {α : Type} {lt : α → α → Bool} (h : WeakOrder lt) (ht : ∀ a b, lt a b = false → lt b a = false → a = b)
    (xs : List α) : sortBy lt [] xs = xs.mergeSort fun a b => !lt b a := by
  have h1 : InOrder lt (sortBy lt [] xs) := sortBy_inOrder h [] xs List.Pairwise.nil
  have h2 := List.pairwise_mergeSort (le := fun a b => !lt b a)
    (fun a b c h1 h2 => by
      simp only [Bool.not_eq_true'] at h1 h2 ⊢
      exact h.trans _ _ _ h2 h1)
    (fun a b => by
      cases h1 : lt b a with
      | false => rfl
      | true => simp [h.asymm _ _ h1]) xs
  refine List.Perm.eq_of_pairwise (le := fun a b => lt b a = false) (fun a b _ _ h1 h2 => ht a b h2 h1) h1
    (h2.imp fun h => by simpa using h) ((sortBy_perm lt [] xs).trans (List.mergeSort_perm xs _).symm)

/-- The number of a value. -/
def numOf : Val → Int
  | num k => k
  | _ => 0

/-- **C53.** `(isort < LST)` sorts a list of numbers. -/
theorem C53_isort_numbers {l : List Entry} (hl : Sorted l) {ks : List Int} {e : Val} {st st1 : St}
    (h0 : Uses isortUses l st) (h1 : Uses isortUses l st1) (hi : getEnv l (n "ins") = none)
    (hlt : Resolves (envVal l) st (n "<") Native.lt.val)
    (he : sem (envVal l) e st = .ok (ofList (ks.map num), st1)) :
    sem (envVal l) (L [S "isort", S "<", e]) st = .ok (ofList ((ks.mergeSort (· ≤ ·)).map num), st1) := by
  have := isort_call (e1 := S "<") (lt := fun a b => decide (numOf a < numOf b)) hl h0 h1 hi (acts2_native _ _ (op := .lt) rfl)
    (xs := ks.map num) (fun x hx y hy => ?_) (okSeq_cons (ok_sym hlt) (okSeq_cons he okSeq_nil))
  · rw [this]
    have e1 := sortBy_map num (lt := fun a b => decide (numOf a < numOf b)) (lt' := fun a b => decide (a < b))
      (fun a b => rfl) [] ks
    have e2 := sortBy_eq (lt := fun a b : Int => decide (a < b))
      ⟨fun a b h => by simp only [decide_eq_true_eq, decide_eq_false_iff_not] at *; omega,
        fun a b c h h' => by simp only [decide_eq_false_iff_not] at *; omega⟩
      (fun a b h h' => by simp only [decide_eq_false_iff_not] at *; omega) ks
    have e3 : (fun a b : Int => !decide (b < a)) = fun a b => decide (a ≤ b) := by
      funext a b
      rw [Bool.eq_iff_iff]
      simp
    rw [e3] at e2
    rw [← e2, ← e1]
    rfl
  · obtain ⟨a, _, rfl⟩ := List.mem_map.1 hx
    obtain ⟨b, _, rfl⟩ := List.mem_map.1 hy
    exact ⟨ofBool (decide (a < b)), rfl, nil_ofBool _⟩

/-- The codes of the characters of a string. -/
def codesOf (v : Val) : List Int := (elems v).map fun | chr c => c | _ => 0

theorem codesOf_codes (xs : List Int) : codesOf (codes xs) = xs := by
  rw [codesOf, codes, elems_ofList, List.map_map]
  exact List.map_id _

open Classical in
/-- The comparison of strings. -/
noncomputable def strltM (x y : Val) : M Val :=
  need (decide (x = codes (codesOf x) ∧ y = codes (codesOf y))) (pure (ofBool (decide (codesOf x < codesOf y))))

theorem acts2_strlt {l : List Entry} {st : St} (hu : Uses strltUses l st) :
    Acts2 (Near isortArgs l) (fun s => s = st) strltV strltM := by
  refine acts2_lisp (d := []) (p := S "STRA") (q := S "STRB") rfl fun l' x y st v st' hP hI hg => ?_
  cases hI
  obtain ⟨hc, hv⟩ := need_ok hg
  cases hv
  obtain ⟨hx, hy⟩ := of_decide_eq_true hc
  have := strlt_body (hP.uses hu (by decide)) (codesOf x) (codesOf y) (Near.refl hP.sorted)
  rw [← hx, ← hy] at this
  exact ⟨this, tail_ofBool _, rfl⟩

/-- **C53.** `(isort strlt LST)` sorts a list of strings in the lexicographic order. -/
theorem C53_isort_strings {l : List Entry} (hl : Sorted l) {ss : List (List Int)} {e : Val} {st st1 : St}
    (h0 : Uses isortUses l st) (h1 : Uses isortUses l st1) (hs0 : Uses strltUses l st) (hs1 : Uses strltUses l st1)
    (hi : getEnv l (n "ins") = none) (he : sem (envVal l) e st = .ok (ofList (ss.map codes), st1)) :
    sem (envVal l) (L [S "isort", S "strlt", e]) st = .ok (ofList ((ss.mergeSort (· ≤ ·)).map codes), st1) := by
  have := isort_call (e1 := S "strlt") (lt := fun a b => decide (codesOf a < codesOf b)) hl h0 h1 hi (acts2_strlt hs1)
    (xs := ss.map codes) (fun x hx y hy => ?_) (okSeq_cons (ok_sym (by res)) (okSeq_cons he okSeq_nil))
  · rw [this]
    have e1 := sortBy_map codes (lt := fun a b => decide (codesOf a < codesOf b)) (lt' := fun a b => decide (a < b))
      (fun a b => by rw [codesOf_codes, codesOf_codes]) [] ss
    have e2 := sortBy_eq (lt := fun a b : List Int => decide (a < b))
      ⟨fun a b h => by
          simp only [decide_eq_true_eq, decide_eq_false_iff_not] at *
          exact List.lt_asymm h,
        fun a b c h h' => by
          simp only [decide_eq_false_iff_not] at *
          exact List.not_lt.2 (List.le_trans (List.not_lt.1 h') (List.not_lt.1 h))⟩
      (fun a b h h' => by
        simp only [decide_eq_false_iff_not] at *
        exact List.le_antisymm (List.not_lt.1 h') (List.not_lt.1 h)) ss
    have e3 : (fun a b : List Int => !decide (b < a)) = fun a b => decide (a ≤ b) := by
      funext a b
      rw [Bool.eq_iff_iff]
      simp
    rw [e3] at e2
    rw [← e2, ← e1]
    rfl
  · obtain ⟨a, _, rfl⟩ := List.mem_map.1 hx
    obtain ⟨b, _, rfl⟩ := List.mem_map.1 hy
    refine ⟨ofBool (decide (codesOf (codes a) < codesOf (codes b))), ?_, nil_ofBool _⟩
    unfold strltM need
    rw [if_pos (decide_eq_true ⟨by rw [codesOf_codes], by rw [codesOf_codes]⟩)]
    rfl

/-- The hypotheses of the theorems on `isort` are met at top level after loading the library. -/
example : Sorted [] ∧ Uses isortUses [] libSt ∧ Uses strltUses [] libSt ∧ getEnv [] (n "ins") = none ∧
    Resolves nil libSt (n "<") Native.lt.val := by
  refine ⟨by simp [Sorted], ?_, ?_, rfl, rfl⟩ <;> unfold Uses <;> decide +kernel

/-- A strict weak order that is not total: pairs compared by their CAR. -/
example : WeakOrder fun a b : Val => decide (numOf a.car < numOf b.car) :=
  ⟨fun a b h => by simp only [decide_eq_true_eq, decide_eq_false_iff_not] at *; omega,
    fun a b c h h' => by simp only [decide_eq_false_iff_not] at *; omega⟩

/-- **C53.** A variable `ins` of the caller is called by `isort`: `(let ((ins . (\\ (a b) b))) (isort < '(1 2)))` is
`(1 . 2)`. -/
theorem C53_scope_counterexample :
    runLib 60 (L [S "let", L [cons (S "ins") (L [S "\\", L [S "a", S "b"], S "b"])],
      L [S "isort", S "<", Q (L [N 1, N 2])]]) = .ok (cons (num 1) (num 2)) := by decide +kernel

end Lib
end Mnml
