import Verif.PropLib

/-!
# C51: association lists in the lisp library
-/

namespace Mnml
namespace Lib

open Val

/-! ## `assoc` -/

/-- The definitions that `assoc` relies on. -/
def assocUses : List (Sym × Val) :=
  [(n "assoc", assocV), (n "if", Native.if_.val), (n "not", Native.not.val), (n "nil?", Native.isnil.val),
   (n "=", Native.equ.val), (n "caar", caarV), (n "cdar", cdarV), (n "car", Native.car.val),
   (n "cdr", Native.cdr.val)]

/-- The value of the first entry with key k. -/
def find (k : Val) (xs : List Val) : Val := ((xs.find? fun x => equ x.car k).map cdr).getD nil

theorem caar_call {l : List Entry} (hl : Sorted l) {e w : Val} {st : St} (h : Uses assocUses l st)
    (he : sem (envVal l) e st = .ok (w, st)) (hw : w.car.car.isTailCall = false) :
    sem (envVal l) (L [S "caar", e]) st = .ok (w.car.car, st) := by
  refine ok_call (d := []) (as := [S "x"]) (vs := [e]) (by res) rfl rfl (okSeq_cons he okSeq_nil)
    (loop_done (ok_prog1.trans ?_) hw)
  have u : Uses assocUses (mergeEnv l [⟨false, n "x", w⟩]) st := uses_merge [n "x"] h hl rfl (by decide)
  ev

theorem cdar_call {l : List Entry} (hl : Sorted l) {e w : Val} {st : St} (h : Uses assocUses l st)
    (he : sem (envVal l) e st = .ok (w, st)) (hw : w.car.cdr.isTailCall = false) :
    sem (envVal l) (L [S "cdar", e]) st = .ok (w.car.cdr, st) := by
  refine ok_call (d := []) (as := [S "x"]) (vs := [e]) (by res) rfl rfl (okSeq_cons he okSeq_nil)
    (loop_done (ok_prog1.trans ?_) hw)
  have u : Uses assocUses (mergeEnv l [⟨false, n "x", w⟩]) st := uses_merge [n "x"] h hl rfl (by decide)
  ev

/-- The keys and values of the entries are not raw tail call records (values with an internal mark, which no
program can make on purpose). -/
def Untailed (xs : List Val) : Prop := ∀ x ∈ xs, x.car.isTailCall = false ∧ x.cdr.isTailCall = false

theorem find_pos {k x : Val} {xs : List Val} (h : equ x.car k = true) : find k (x :: xs) = x.cdr := by
  simp [find, h]

theorem find_neg {k x : Val} {xs : List Val} (h : equ x.car k = false) : find k (x :: xs) = find k xs := by
  simp [find, h]

theorem find_tail {k : Val} {xs : List Val} (h : Untailed xs) : (find k xs).isTailCall = false := by
  unfold find
  cases hf : xs.find? fun x => equ x.car k with
  | none => rfl
  | some x => exact (h x (List.mem_of_find?_eq_some hf)).2

theorem assoc_loop {l : List Entry} (hl : Sorted l) {st : St} (h : Uses assocUses l st) (k : Val) (xs : List Val)
    (hx : Untailed xs) :
    loopSem (S "assoc") assocV.cdr.cdr (envVal l) (envVal [⟨false, n "lst", ofList xs⟩, ⟨false, n "k", k⟩]) st =
      .ok (find k xs, st) := by
  induction xs with
  | nil =>
    have u : Uses assocUses (mergeEnv l [⟨false, n "lst", ofList []⟩, ⟨false, n "k", k⟩]) st :=
      uses_merge [n "lst", n "k"] h hl rfl (by decide)
    exact loop_done (ok_prog1.trans (ok_if_none (by res) (by ev))) rfl
  | cons x xs ih =>
    have u : Uses assocUses (mergeEnv l [⟨false, n "lst", ofList (x :: xs)⟩, ⟨false, n "k", k⟩]) st :=
      uses_merge [n "lst", n "k"] h hl rfl (by decide)
    have hx1 := hx x (by simp)
    have hx2 : Untailed xs := fun y hy => hx y (by simp [hy])
    have hc := ok_two (op := .equ) (tc := false) (f := false) (t1 := false) (t2 := false)
      (x := L [S "caar", S "lst"]) (y := S "k") (v := ofBool (equ x.car k)) (u.at 4 rfl)
      (caar_call (by sorted) u (w := ofList (x :: xs)) (ok_sym (by res)) hx1.1) (ok_sym (by res)) rfl rfl
    cases hq : equ x.car k with
    | true =>
      rw [hq] at hc
      have : find k (x :: xs) = x.cdr := by simp [find, hq]
      rw [this]
      exact loop_done (ok_prog1.trans (ok_if_then (by res) (by ev) rfl (ok_if_then (by res) hc rfl
        (cdar_call (by sorted) u (w := ofList (x :: xs)) (ok_sym (by res)) hx1.2)))) hx1.2
    | false =>
      rw [hq] at hc
      have : find k (x :: xs) = find k xs := by simp [find, hq]
      rw [this]
      exact loop_step (ok_prog1.trans (ok_if_then (by res) (by ev) rfl (ok_if_else (by res) hc
        (ok_tail (d := []) (as := [S "k", S "lst"]) (vs := [S "k", L [S "cdr", S "lst"]]) (xs := [k, ofList xs])
          (body := assocV.cdr.cdr) (by res) rfl rfl (okSeq_cons (by ev) (okSeq_cons (by ev) okSeq_nil))))))
        (ih hx2)

/-- **C51.** `(assoc K W)` is the value of the first entry of W whose key equals K, and NIL if there is none. -/
theorem C51_assoc {l : List Entry} (hl : Sorted l) {e1 e2 k : Val} {xs : List Val} {st st1 : St}
    (h0 : Uses assocUses l st) (h1 : Uses assocUses l st1) (hx : Untailed xs)
    (hargs : evalSeq sem (envVal l) [e1, e2] st = .ok ([k, ofList xs], st1)) :
    sem (envVal l) (L [S "assoc", e1, e2]) st = .ok (find k xs, st1) :=
  ok_call (d := []) (as := [S "k", S "lst"]) (vs := [e1, e2]) (by res) rfl rfl hargs (assoc_loop hl h1 k xs hx)

/-! ## `erase` -/

/-- The definitions that `erase` relies on. -/
def eraseUses : List (Sym × Val) :=
  (n "erase", eraseV) :: (n "\\", Native.lambda.val) :: (n "=", Native.equ.val) :: (n "cons", Native.cons.val) ::
    foldrUses

/-- The entries with another key than k, rebuilt. -/
def eraseKey (k : Val) (xs : List Val) : List Val :=
  (xs.filter fun x => !equ k x.car).map fun x => cons x.car x.cdr

theorem foldr_erase (k : Val) (xs : List Val) :
    xs.foldr (fun x acc => if equ k x.car then acc else cons (cons x.car x.cdr) acc) nil =
      ofList (eraseKey k xs) := by
  induction xs with
  | nil => rfl
  | cons x xs ih =>
    rw [List.foldr_cons, ih]
    cases h : equ k x.car <;> simp [eraseKey, h, ofList]

/-- The names bound by `erase` and `replc`. -/
def alistArgs : List Sym := [n "k", n "v", n "lst", n "fun", n "acc", n "_k", n "_v"]

/-- **C51.** `(erase K W)` is W without the entries whose key equals K. -/
theorem C51_erase {l : List Entry} (hl : Sorted l) {e1 e2 k w : Val} {st st1 : St}
    (h0 : Uses eraseUses l st) (h1 : Uses eraseUses l st1)
    (hargs : evalSeq sem (envVal l) [e1, e2] st = .ok ([k, w], st1)) :
    sem (envVal l) (L [S "erase", e1, e2]) st = .ok (ofList (eraseKey k (elems w)), st1) := by
  have hs : Sorted (mergeEnv l [⟨false, n "lst", w⟩, ⟨false, n "k", k⟩]) := sorted_mergeEnv _ hl
  have u : Uses eraseUses (mergeEnv l [⟨false, n "lst", w⟩, ⟨false, n "k", k⟩]) st1 :=
    uses_merge [n "lst", n "k"] h1 hl rfl (by decide)
  have uf := u.sub (T' := foldrUses) (fun p hp => by simp [eraseUses, hp])
  have hq : ∀ (x y : Val) (st : St) v st', (!y.isTailCall) = true →
      (pure (if equ k x.car then y else cons (cons x.car x.cdr) y) : M Val) st = .ok (v, st') →
      (!v.isTailCall) = true := by
    intro x y st v st' hy h
    cases h
    show (!(if equ k x.car then y else cons (cons x.car x.cdr) y).isTailCall) = true
    split
    · exact hy
    · rfl
  have hr' := foldrM_need (Q := fun y => !y.isTailCall) (a := nil) hq rfl (elems w) (st := st1)
    (by rw [foldrM_pure]; rfl)
  refine ok_call (d := []) (as := [S "k", S "lst"]) (vs := [e1, e2]) (by res) rfl rfl hargs
    (loop_done (ok_prog1.trans ?_) (tail_ofList _))
  rw [← foldr_erase]
  refine (C49_foldr (I := fun s => s = st1) (st := st1) (st1 := st1) (w := w) (a := nil) hs
    (fun s h => by rw [h]; exact uf)
    (g := fun x y => need (!y.isTailCall) (pure (if equ k x.car then y else cons (cons x.car x.cdr) y))) ?_ uf rfl
    (okSeq_cons (ok_lambda (by res)) (okSeq_cons (ok_sym (by res)) (okSeq_cons ok_nil okSeq_nil))) hr'.1
    (fun x _ y st v st' _ h => by
      have := need_ok h
      simpa using hq x y st v st' this.1 this.2) rfl).1
  refine acts2_lisp (p := cons (S "_k") (S "_v")) (q := S "acc") rfl fun l' x y st v st' hP hi hg => ?_
  obtain ⟨hy, hg⟩ := need_ok hg
  have hv := hq x y st v st' hy hg
  have hs' := hP.sorted
  cases hg; cases hi
  have hP' : Near alistArgs (mergeEnv l [⟨false, n "lst", w⟩, ⟨false, n "k", k⟩])
      (mergeEnv (mergeEnv l' (mergeEnv l [⟨false, n "lst", w⟩, ⟨false, n "k", k⟩]))
        [⟨false, n "acc", y⟩, ⟨false, n "_v", x.cdr⟩, ⟨false, n "_k", x.car⟩]) :=
    lambda_near hs hP (by simp [alistArgs]) (by simp [alistArgs, foldArgs])
  have u' := hP'.uses u (by decide)
  have hc := ok_two (op := .equ) (tc := false) (f := false) (t1 := false) (t2 := false)
    (x := S "k") (y := S "_k") (v := ofBool (equ k x.car)) (u'.at 2 rfl)
    (ok_sym (by res)) (ok_sym (by res)) rfl rfl
  refine ⟨ok_prog1.trans ?_, by simpa using hv, rfl⟩
  cases hq : equ k x.car with
  | true => rw [hq] at hc; exact ok_if_then (by res) hc rfl (by ev)
  | false => rw [hq] at hc; exact ok_if_else (by res) hc (by ev)

/-! ## `replc` -/

/-- The definitions that `replc` relies on. -/
def replcUses : List (Sym × Val) :=
  (n "replc", replcV) :: (n "\\", Native.lambda.val) :: (n "=", Native.equ.val) :: (n "cons", Native.cons.val) ::
    foldrUses

/-- The entries, rebuilt, with the value of those with key k replaced. -/
def replaceKey (k z : Val) (xs : List Val) : List Val :=
  xs.map fun x => if equ k x.car then cons k z else cons x.car x.cdr

theorem foldr_replc (k z : Val) (xs : List Val) :
    xs.foldr (fun x acc => if equ k x.car then cons (cons k z) acc else cons (cons x.car x.cdr) acc) nil =
      ofList (replaceKey k z xs) := by
  induction xs with
  | nil => rfl
  | cons x xs ih =>
    rw [List.foldr_cons, ih]
    cases h : equ k x.car <;> simp [replaceKey, h, ofList]

/-- **C51.** `(replc K V W)` is W with the value of every entry whose key equals K replaced by V. -/
theorem C51_replc {l : List Entry} (hl : Sorted l) {e1 e2 e3 k z w : Val} {st st1 : St}
    (h0 : Uses replcUses l st) (h1 : Uses replcUses l st1)
    (hargs : evalSeq sem (envVal l) [e1, e2, e3] st = .ok ([k, z, w], st1)) :
    sem (envVal l) (L [S "replc", e1, e2, e3]) st = .ok (ofList (replaceKey k z (elems w)), st1) := by
  have hs : Sorted (mergeEnv l [⟨false, n "lst", w⟩, ⟨false, n "v", z⟩, ⟨false, n "k", k⟩]) := sorted_mergeEnv _ hl
  have u : Uses replcUses (mergeEnv l [⟨false, n "lst", w⟩, ⟨false, n "v", z⟩, ⟨false, n "k", k⟩]) st1 :=
    uses_merge [n "lst", n "v", n "k"] h1 hl rfl (by decide)
  have uf := u.sub (T' := foldrUses) (fun p hp => by simp [replcUses, hp])
  have hq : ∀ (x y : Val) (st : St) v st', (!y.isTailCall) = true →
      (pure (if equ k x.car then cons (cons k z) y else cons (cons x.car x.cdr) y) : M Val) st = .ok (v, st') →
      (!v.isTailCall) = true := by
    intro x y st v st' _ h
    cases h
    show (!(if equ k x.car then cons (cons k z) y else cons (cons x.car x.cdr) y).isTailCall) = true
    split <;> rfl
  have hr' := foldrM_need (Q := fun y => !y.isTailCall) (a := nil) hq rfl (elems w) (st := st1)
    (by rw [foldrM_pure]; rfl)
  refine ok_call (d := []) (as := [S "k", S "v", S "lst"]) (vs := [e1, e2, e3]) (by res) rfl rfl hargs
    (loop_done (ok_prog1.trans ?_) (tail_ofList _))
  rw [← foldr_replc]
  refine (C49_foldr (I := fun s => s = st1) (st := st1) (st1 := st1) (w := w) (a := nil) hs
    (fun s h => by rw [h]; exact uf)
    (g := fun x y => need (!y.isTailCall) (pure (if equ k x.car then cons (cons k z) y else cons (cons x.car x.cdr) y))) ?_ uf rfl
    (okSeq_cons (ok_lambda (by res)) (okSeq_cons (ok_sym (by res)) (okSeq_cons ok_nil okSeq_nil))) hr'.1
    (fun x _ y st v st' _ h => by
      have := need_ok h
      simpa using hq x y st v st' this.1 this.2) rfl).1
  refine acts2_lisp (p := cons (S "_k") (S "_v")) (q := S "acc") rfl fun l' x y st v st' hP hi hg => ?_
  obtain ⟨hy, hg⟩ := need_ok hg
  have hv := hq x y st v st' hy hg
  have hs' := hP.sorted
  cases hg; cases hi
  have hP' : Near alistArgs (mergeEnv l [⟨false, n "lst", w⟩, ⟨false, n "v", z⟩, ⟨false, n "k", k⟩])
      (mergeEnv (mergeEnv l' (mergeEnv l [⟨false, n "lst", w⟩, ⟨false, n "v", z⟩, ⟨false, n "k", k⟩]))
        [⟨false, n "acc", y⟩, ⟨false, n "_v", x.cdr⟩, ⟨false, n "_k", x.car⟩]) :=
    lambda_near hs hP (by simp [alistArgs]) (by simp [alistArgs, foldArgs])
  have u' := hP'.uses u (by decide)
  have hc := ok_two (op := .equ) (tc := false) (f := false) (t1 := false) (t2 := false)
    (x := S "k") (y := S "_k") (v := ofBool (equ k x.car)) (u'.at 2 rfl)
    (ok_sym (by res)) (ok_sym (by res)) rfl rfl
  refine ⟨ok_prog1.trans ?_, by simpa using hv, rfl⟩
  cases hq : equ k x.car with
  | true => rw [hq] at hc; exact ok_if_then (by res) hc rfl (by ev)
  | false => rw [hq] at hc; exact ok_if_else (by res) hc (by ev)

/-! ## Laws -/

theorem equ_iff_erase (a b : Val) : equ a b = true ↔ a.erase = b.erase := by
  induction a generalizing b with
  | pair t x d ihx ihd =>
    cases b with
    | pair t' x' d' => simp [equ, erase, ihx, ihd]
    | _ => simp [equ, erase]
  | sym t s =>
    cases b with
    | sym t' s' => simp [equ, erase, symMatch_eq_decide]
    | _ => simp [equ, erase]
  | _ => cases b <;> simp [equ, erase]

theorem equ_trans' {a b c : Val} (h : equ a b = true) : equ b c = equ a c := by
  have := (equ_iff_erase a b).1 h
  rw [Bool.eq_iff_iff, equ_iff_erase, equ_iff_erase, this]

theorem equ_comm' (a b : Val) : equ a b = equ b a := by
  rw [Bool.eq_iff_iff, equ_iff_erase, equ_iff_erase]; exact eq_comm

/-- After `erase`, the key is gone. -/
theorem find_erase (k k' : Val) (xs : List Val) (h : equ k k' = true) : find k' (eraseKey k xs) = nil := by
  have : (eraseKey k xs).find? (fun x => equ x.car k') = none := by
    rw [List.find?_eq_none]
    intro x hx
    simp only [eraseKey, List.mem_map, List.mem_filter] at hx
    obtain ⟨y, ⟨_, hy⟩, rfl⟩ := hx
    show ¬ equ y.car k' = true
    rw [equ_comm', equ_trans' h]
    simpa using hy
  rw [find, this]; rfl

/-- Erasing a key keeps the values of the other keys. -/
theorem find_erase_ne (k k' : Val) (xs : List Val) (h : equ k k' = false) :
    find k' (eraseKey k xs) = find k' xs := by
  induction xs with
  | nil => rfl
  | cons x xs ih =>
    cases hk : equ k x.car with
    | true =>
      have h1 : equ x.car k' = false := by rw [equ_trans' hk]; exact h
      have h2 : eraseKey k (x :: xs) = eraseKey k xs := by simp [eraseKey, hk]
      have h3 : find k' (x :: xs) = find k' xs := by simp [find, h1]
      rw [h2, h3, ih]
    | false =>
      have h2 : eraseKey k (x :: xs) = cons x.car x.cdr :: eraseKey k xs := by simp [eraseKey, hk]
      rw [h2]
      cases hx : equ x.car k' with
      | true => exact (find_pos (x := cons x.car x.cdr) hx).trans (find_pos hx).symm
      | false =>
        have h3 : find k' (x :: xs) = find k' xs := by simp [find, hx]
        have h4 : find k' (cons x.car x.cdr :: eraseKey k xs) = find k' (eraseKey k xs) :=
          find_neg (x := cons x.car x.cdr) hx
        rw [h3, h4, ih]

/-- After `replc`, a key that was present has the new value. -/
theorem find_replc (k k' z : Val) (xs : List Val) (h : equ k k' = true)
    (hp : ∃ x ∈ xs, equ k x.car = true) : find k' (replaceKey k z xs) = z := by
  induction xs with
  | nil => obtain ⟨x, hx, _⟩ := hp; simp at hx
  | cons x xs ih =>
    cases hk : equ k x.car with
    | true =>
      have h2 : replaceKey k z (x :: xs) = cons k z :: replaceKey k z xs := by simp [replaceKey, hk]
      rw [h2]
      exact find_pos (x := cons k z) h
    | false =>
      have h1 : equ x.car k' = false := by rw [equ_comm', equ_trans' h, hk]
      have h2 : find k' (replaceKey k z (x :: xs)) = find k' (replaceKey k z xs) := by
        have h3 : replaceKey k z (x :: xs) = cons x.car x.cdr :: replaceKey k z xs := by simp [replaceKey, hk]
        rw [h3]
        exact find_neg (x := cons x.car x.cdr) h1
      rw [h2]
      apply ih
      obtain ⟨y, hy, hy'⟩ := hp
      rcases List.mem_cons.1 hy with rfl | hy
      · rw [hk] at hy'; cases hy'
      · exact ⟨y, hy, hy'⟩

/-- Replacing the value of a key keeps the values of the other keys. -/
theorem find_replc_ne (k k' z : Val) (xs : List Val) (h : equ k k' = false) :
    find k' (replaceKey k z xs) = find k' xs := by
  induction xs with
  | nil => rfl
  | cons x xs ih =>
    have h2 : ∀ y ys, replaceKey k z (y :: ys) =
        (if equ k y.car then cons k z else cons y.car y.cdr) :: replaceKey k z ys := fun _ _ => rfl
    rw [h2]
    cases hk : equ k x.car with
    | true =>
      have h1 : equ x.car k' = false := by rw [equ_trans' hk]; exact h
      have h3 : find k' (x :: xs) = find k' xs := by simp [find, h1]
      have h4 : find k' (cons k z :: replaceKey k z xs) = find k' (replaceKey k z xs) := find_neg (x := cons k z) h
      rw [if_pos rfl, h3, h4, ih]
    | false =>
      rw [if_neg (by simp)]
      cases hx : equ x.car k' with
      | true => exact (find_pos (x := cons x.car x.cdr) hx).trans (find_pos hx).symm
      | false =>
        have h3 : find k' (x :: xs) = find k' xs := by simp [find, hx]
        have h4 : find k' (cons x.car x.cdr :: replaceKey k z xs) = find k' (replaceKey k z xs) :=
          find_neg (x := cons x.car x.cdr) hx
        rw [h3, h4, ih]

/-- **C51.** `(assoc K (erase J W))` is NIL if K equals J, and `(assoc K W)` otherwise. -/
theorem C51_assoc_erase {l : List Entry} (hl : Sorted l) {e1 e2 e3 j k : Val} {xs : List Val} {st st1 st2 : St}
    (ha : Uses assocUses l st) (hb : Uses eraseUses l st1) (hc : Uses assocUses l st2) (hd : Uses eraseUses l st2)
    (hx : Untailed xs) (h1 : sem (envVal l) e1 st = .ok (k, st1))
    (h2 : evalSeq sem (envVal l) [e2, e3] st1 = .ok ([j, ofList xs], st2)) :
    sem (envVal l) (L [S "assoc", e1, L [S "erase", e2, e3]]) st =
      .ok (if equ j k then nil else find k xs, st2) := by
  have := C51_erase hl hb hd h2
  rw [elems_ofList] at this
  rw [C51_assoc hl (xs := eraseKey j xs) ha hc ?_ (okSeq_cons h1 (okSeq_cons this okSeq_nil))]
  · cases h : equ j k with
    | true => rw [find_erase _ _ _ h]; rfl
    | false => rw [find_erase_ne _ _ _ h]; rfl
  · intro x hm
    simp only [eraseKey, List.mem_map, List.mem_filter] at hm
    obtain ⟨y, ⟨hy, _⟩, rfl⟩ := hm
    exact hx y hy

/-- **C51.** `(assoc K (replc J V W))` is V if K equals J and J is a key of W, and `(assoc K W)` if K does not
equal J. -/
theorem C51_assoc_replc {l : List Entry} (hl : Sorted l) {e1 e2 e3 e4 j k z : Val} {xs : List Val}
    {st st1 st2 : St} (ha : Uses assocUses l st) (hb : Uses replcUses l st1) (hc : Uses assocUses l st2)
    (hd : Uses replcUses l st2) (hx : Untailed xs) (hj : j.isTailCall = false) (hz : z.isTailCall = false)
    (h1 : sem (envVal l) e1 st = .ok (k, st1))
    (h2 : evalSeq sem (envVal l) [e2, e3, e4] st1 = .ok ([j, z, ofList xs], st2))
    (hp : equ j k = true → ∃ x ∈ xs, equ j x.car = true) :
    sem (envVal l) (L [S "assoc", e1, L [S "replc", e2, e3, e4]]) st =
      .ok (if equ j k then z else find k xs, st2) := by
  have := C51_replc hl hb hd h2
  rw [elems_ofList] at this
  rw [C51_assoc hl (xs := replaceKey j z xs) ha hc ?_ (okSeq_cons h1 (okSeq_cons this okSeq_nil))]
  · cases h : equ j k with
    | true => rw [find_replc _ _ _ _ h (hp h)]; rfl
    | false => rw [find_replc_ne _ _ _ _ h]; rfl
  · intro x hm
    simp only [replaceKey, List.mem_map] at hm
    obtain ⟨y, hy, rfl⟩ := hm
    split
    · exact ⟨hj, hz⟩
    · exact hx y hy

/-- The hypotheses hold after the library has been loaded. -/
example : Uses assocUses [] libSt ∧ Uses eraseUses [] libSt ∧ Uses replcUses [] libSt := by
  unfold Uses; decide +kernel

end Lib
end Mnml
