import Verif.LibTerm

/-!
# C78: `args:skip`, `term:left`, `term:right`, `term:esc` and `dedup`
-/

namespace Mnml
namespace Lib

open Val

/-! ## Lists of fixed width -/

/-- The definitions that `term:left` relies on. -/
def termLeftUses : List (Sym × Val) :=
  [(n "term:left", termLeftV), (n "let", Native.let_.val), (n "if", Native.if_.val), (n "-", Native.sub.val),
   (n "len", Native.len.val), (n ">=", Native.ge.val)] ++ strcatUses ++ repUses ++ trunclUses

/-- The definitions that `term:right` relies on. -/
def termRightUses : List (Sym × Val) :=
  [(n "term:right", termRightV), (n "let", Native.let_.val), (n "if", Native.if_.val), (n "-", Native.sub.val),
   (n "len", Native.len.val), (n ">=", Native.ge.val)] ++ strcatUses ++ repUses ++ truncrUses

/-- The names bound by `term:left` and `term:right`. -/
def padArgs : List Sym := [n "WLEN", n "STR", n "delta"]

theorem len_ofList (xs : List Val) : (ofList xs).len = xs.length := by
  induction xs with
  | nil => rfl
  | cons x xs ih => show (ofList xs).len + 1 = _; rw [ih]; rfl

/-- The common part of `term:left` and `term:right`: the difference of the widths is bound, and its sign decides. -/
theorem pad_body {l : List Entry} {k : Int} {xs : List Val} {st : St} {e1 e2 v : Val}
    (hl : Sorted l) (hlet : Resolves (envVal l) st (n "let") Native.let_.val)
    (hif : Resolves (envVal (mergeEnv l [⟨false, n "delta", num (k - xs.length)⟩])) st (n "if") Native.if_.val)
    (hge : Resolves (envVal (mergeEnv l [⟨false, n "delta", num (k - xs.length)⟩])) st (n ">=") Native.ge.val)
    (hsub : Resolves (envVal l) st (n "-") Native.sub.val) (hlen : Resolves (envVal l) st (n "len") Native.len.val)
    (hw : getEnv l (n "WLEN") = some (num k)) (hx : getEnv l (n "STR") = some (ofList xs))
    (hd : IsI64 (k - xs.length))
    (h1 : xs.length ≤ k → sem (envVal (mergeEnv l [⟨false, n "delta", num (k - xs.length)⟩])) e1 st = .ok (v, st))
    (h2 : k < xs.length → sem (envVal (mergeEnv l [⟨false, n "delta", num (k - xs.length)⟩])) e2 st = .ok (v, st)) :
    sem (envVal l) (L [S "let", L [cons (S "delta") (L [S "-", S "WLEN", L [S "len", S "STR"]])],
      L [S "if", L [S ">=", S "delta", N 0], e1, e2]]) st = .ok (v, st) := by
  have hsub' : sem (envVal l) (L [S "-", S "WLEN", L [S "len", S "STR"]]) st = .ok (num (k - xs.length), st) := by
    refine ok_two (op := .sub) (a := num k) (b := num xs.length) hsub (ok_sym (resolves_local hw))
      (ok_one (op := .len) (a := ofList xs) hlen (ok_sym (resolves_local hx)) rfl (by decide) ?_) rfl ?_
    · have : (ofList xs).isList = true := by cases xs <;> rfl
      simp [unary, this, len_ofList]
    · have : inI64 (k - xs.length) = true := hd
      simp [binary, mathV, number, arith, this]
  refine ok_let_env (b := [⟨false, n "delta", num (k - xs.length)⟩]) hlet
    (okBind_cons (a := num (k - xs.length)) (st1 := st) (show sem (envVal l) _ _ = _ from hsub')
      (letMark_of_not_func _ _ _ rfl) okBind_nil) (ok_prog1.trans ?_)
  have hD : sem (envVal (mergeEnv l [⟨false, n "delta", num (k - xs.length)⟩])) (S "delta") st =
    .ok (num (k - xs.length), st) := ok_sym (resolves_local (getEnv_merge_in hl rfl))
  by_cases hc : (xs.length : Int) ≤ k
  · refine ok_if_then (a := tru) (st1 := st) hif (ok_two (op := .ge) hge hD (ok_num _) rfl ?_) rfl (h1 hc)
    have : 0 ≤ k - (xs.length : Int) := by omega
    simp [binary, compareV, number, ofBool, hc]
  · refine ok_if_else (st1 := st) hif (ok_two (op := .ge) hge hD (ok_num _) rfl ?_) (h2 (by omega))
    simp [binary, compareV, number, ofBool, hc]

/-- The body of `term:left`. -/
theorem left_body {l E : List Entry} {k : Int} {xs : List Val} {st1 : St} (hn : Near padArgs l E) (h1 : Uses termLeftUses l st1) (hk : IsI64 k)
    (hd : IsI64 (k - xs.length)) (hW : getEnv E (n "WLEN") = some (num k)) (hX : getEnv E (n "STR") = some (ofList xs)) :
    sem (envVal E) termLeftV.cdr.cdr.car st1 =
      .ok (ofList (xs.take k.toNat ++ List.replicate (k.toNat - xs.length) (chr 32)), st1) := by
  have u := hn.uses h1 (by decide)
  have hs := hn.sorted
  have hn' := hn.merge (b := [⟨false, n "delta", num (k - xs.length)⟩]) (by simp [padArgs])
  have u' := hn'.uses h1 (by decide)
  have hX' := getEnv_merge_skip (b := [⟨false, n "delta", num (k - xs.length)⟩]) hs rfl hX
  have hW' := getEnv_merge_skip (b := [⟨false, n "delta", num (k - xs.length)⟩]) hs rfl hW
  have us := u'.sub (T' := strcatUses) (fun p hp => by simp [termLeftUses, hp])
  have ur := u'.sub (T' := repUses) (fun p hp => by simp [termLeftUses, hp])
  have ut := u'.sub (T' := trunclUses) (fun p hp => by simp [termLeftUses, hp])
  refine pad_body hs (u.at 1 rfl) (u'.at 2 rfl) (u'.at 5 rfl) (u.at 3 rfl) (u.at 4 rfl) hW hX hd (fun hc => ?_) fun hc => ?_
  · refine (C72_strcat hn'.sorted us us (okSeq_cons (ok_sym (resolves_local hX')) (okSeq_cons (C50_rep hn'.sorted ur ur hd
      (okSeq_cons (ok_sym (resolves_local (getEnv_merge_in hs rfl))) (okSeq_cons (ok_chr _) okSeq_nil))) okSeq_nil))).trans ?_
    rw [List.take_of_length_le (by omega), show (k - (xs.length : Int)).toNat = k.toNat - xs.length by omega]
  · refine (C50_truncl hn'.sorted ut ut hk (okSeq_cons (ok_sym (resolves_local hW')) (okSeq_cons
      (ok_sym (resolves_local hX')) okSeq_nil))).trans ?_
    rw [takePad_ofList, show k.toNat - xs.length = 0 by omega]
    rfl

/-- **C78.** `(term:left W S)` has the width W (0 if W is negative): S followed by spaces, or the first W elements of S. -/
theorem C78_left {l : List Entry} (hl : Sorted l) {e1 e2 : Val} {k : Int} {xs : List Val} {st st1 : St}
    (h0 : Uses termLeftUses l st) (h1 : Uses termLeftUses l st1) (hk : IsI64 k) (hd : IsI64 (k - xs.length))
    (hargs : evalSeq sem (envVal l) [e1, e2] st = .ok ([num k, ofList xs], st1)) :
    sem (envVal l) (L [S "term:left", e1, e2]) st =
      .ok (ofList (xs.take k.toNat ++ List.replicate (k.toNat - xs.length) (chr 32)), st1) := by
  refine ok_call (d := []) (as := [S "WLEN", S "STR"]) (vs := [e1, e2]) (by res) rfl rfl hargs
    (loop_done (ok_prog1.trans ?_) (tail_ofList _))
  have hn : Near padArgs l (mergeEnv l [⟨false, n "STR", ofList xs⟩, ⟨false, n "WLEN", num k⟩]) :=
    (Near.refl hl).merge (by simp [padArgs])
  have hW : getEnv (mergeEnv l [⟨false, n "STR", ofList xs⟩, ⟨false, n "WLEN", num k⟩]) (n "WLEN") = some (num k) :=
    getEnv_merge_in hl rfl
  have hX : getEnv (mergeEnv l [⟨false, n "STR", ofList xs⟩, ⟨false, n "WLEN", num k⟩]) (n "STR") = some (ofList xs) :=
    getEnv_merge_in hl rfl
  exact left_body hn h1 hk hd hW hX

/-- **C78.** `(term:right W S)` has the width W (0 if W is negative): S after spaces, or the last W elements of S. -/
theorem C78_right {l : List Entry} (hl : Sorted l) {e1 e2 : Val} {k : Int} {xs : List Val} {st st1 : St}
    (h0 : Uses termRightUses l st) (h1 : Uses termRightUses l st1) (hk : IsI64 k) (hd : IsI64 (k - xs.length))
    (hargs : evalSeq sem (envVal l) [e1, e2] st = .ok ([num k, ofList xs], st1)) :
    sem (envVal l) (L [S "term:right", e1, e2]) st =
      .ok (ofList (List.replicate (k.toNat - xs.length) (chr 32) ++ xs.drop (xs.length - k.toNat)), st1) := by
  refine ok_call (d := []) (as := [S "WLEN", S "STR"]) (vs := [e1, e2]) (by res) rfl rfl hargs
    (loop_done (ok_prog1.trans ?_) (tail_ofList _))
  have hn : Near padArgs l (mergeEnv l [⟨false, n "STR", ofList xs⟩, ⟨false, n "WLEN", num k⟩]) :=
    (Near.refl hl).merge (by simp [padArgs])
  have hW : getEnv (mergeEnv l [⟨false, n "STR", ofList xs⟩, ⟨false, n "WLEN", num k⟩]) (n "WLEN") = some (num k) :=
    getEnv_merge_in hl rfl
  have hX : getEnv (mergeEnv l [⟨false, n "STR", ofList xs⟩, ⟨false, n "WLEN", num k⟩]) (n "STR") = some (ofList xs) :=
    getEnv_merge_in hl rfl
  have u := hn.uses h1 (by decide)
  change sem (envVal (mergeEnv l [⟨false, n "STR", ofList xs⟩, ⟨false, n "WLEN", num k⟩])) _ st1 = _
  generalize mergeEnv l [⟨false, n "STR", ofList xs⟩, ⟨false, n "WLEN", num k⟩] = E at hn hW hX u ⊢
  have hs := hn.sorted
  have hn' := hn.merge (b := [⟨false, n "delta", num (k - xs.length)⟩]) (by simp [padArgs])
  have u' := hn'.uses h1 (by decide)
  have hX' := getEnv_merge_skip (b := [⟨false, n "delta", num (k - xs.length)⟩]) hs rfl hX
  have hW' := getEnv_merge_skip (b := [⟨false, n "delta", num (k - xs.length)⟩]) hs rfl hW
  have us := u'.sub (T' := strcatUses) (fun p hp => by simp [termRightUses, hp])
  have ur := u'.sub (T' := repUses) (fun p hp => by simp [termRightUses, hp])
  have ut := u'.sub (T' := truncrUses) (fun p hp => by simp [termRightUses, hp])
  refine pad_body hs (u.at 1 rfl) (u'.at 2 rfl) (u'.at 5 rfl) (u.at 3 rfl) (u.at 4 rfl) hW hX hd (fun hc => ?_) fun hc => ?_
  · refine (C72_strcat hn'.sorted us us (okSeq_cons (C50_rep hn'.sorted ur ur hd
      (okSeq_cons (ok_sym (resolves_local (getEnv_merge_in hs rfl))) (okSeq_cons (ok_chr _) okSeq_nil)))
      (okSeq_cons (ok_sym (resolves_local hX')) okSeq_nil))).trans ?_
    rw [show xs.length - k.toNat = 0 by omega, show (k - (xs.length : Int)).toNat = k.toNat - xs.length by omega]
    rfl
  · refine (C72_truncr hn'.sorted ut ut hk (okSeq_cons (ok_sym (resolves_local hW')) (okSeq_cons
      (ok_sym (resolves_local hX')) okSeq_nil))).trans ?_
    rw [elems_ofList, show k.toNat - xs.length = 0 by omega]
    rfl

/-! ## `args:skip` -/

/-- The definitions that `args:skip` relies on. -/
def skipUses : List (Sym × Val) :=
  [(n "args:skip", argsSkipV), (n "if", Native.if_.val), (n "or", Native.or.val), (n "=", Native.equ.val),
   (n "nil?", Native.isnil.val), (n "cdr", Native.cdr.val), (n "-", Native.sub.val)]

theorem skip_loop {l : List Entry} (hl : Sorted l) {st : St} (h : Uses skipUses l st) (xs : List Val) :
    ∀ (k : Nat), IsI64 k →
      loopSem (S "args:skip") argsSkipV.cdr.cdr (envVal l) (envVal [⟨false, n "LEN", num k⟩, ⟨false, n "LST", ofList xs⟩]) st =
        .ok (ofList (xs.drop k), st) := by
  induction xs with
  | nil =>
    intro k hk
    have u : Uses skipUses (mergeEnv l [⟨false, n "LEN", num k⟩, ⟨false, n "LST", ofList []⟩]) st :=
      uses_merge [n "LEN", n "LST"] h hl rfl (by decide)
    rw [List.drop_nil]
    have he := ok_two (op := .equ) (tc := false) (f := false) (t1 := false) (t2 := false) (x := N 0) (y := S "LEN")
      (v := ofBool (equ (num 0) (num k))) (u.at 3 rfl) (ok_num _) (ok_sym (by res)) rfl rfl
    cases hq : equ (num 0) (num k) with
    | true =>
      rw [hq] at he
      exact loop_done (ok_prog1.trans (ok_if_then (a := tru) (by res) (ok_or_left (by res) he rfl) rfl (ok_sym (by res)))) rfl
    | false =>
      rw [hq] at he
      exact loop_done (ok_prog1.trans (ok_if_then (a := tru) (by res) (ok_or_right (b := tru) (s := n "or") (r := nil) (by res) he (by ev)) rfl
        (ok_sym (by res)))) rfl
  | cons x xs ih =>
    intro k hk
    have u : Uses skipUses (mergeEnv l [⟨false, n "LEN", num k⟩, ⟨false, n "LST", ofList (x :: xs)⟩]) st :=
      uses_merge [n "LEN", n "LST"] h hl rfl (by decide)
    have he := ok_two (op := .equ) (tc := false) (f := false) (t1 := false) (t2 := false) (x := N 0) (y := S "LEN")
      (v := ofBool (equ (num 0) (num k))) (u.at 3 rfl) (ok_num _) (ok_sym (by res)) rfl rfl
    cases k with
    | zero => exact loop_done (ok_prog1.trans (ok_if_then (a := tru) (by res) (ok_or_left (by res) he rfl) rfl (ok_sym (by res)))) rfl
    | succ k =>
      have hr : inI64 k = true := isI64_iff.2 (by have := isI64_iff.1 hk; omega)
      have hq : equ (num 0) (num (k + 1 : Nat)) = false := by
        simp [equ]
        omega
      rw [hq] at he
      have hnn : sem (envVal (mergeEnv l [⟨false, n "LEN", num (k + 1 : Nat)⟩, ⟨false, n "LST", ofList (x :: xs)⟩]))
          (L [S "nil?", S "LST"]) st = .ok (nil, st) :=
        ok_one (op := .isnil) (a := ofList (x :: xs)) (by res) (ok_sym (by res)) rfl (by decide) rfl
      refine loop_step (b' := [⟨false, n "LEN", num k⟩, ⟨false, n "LST", ofList xs⟩]) (ok_prog1.trans
        (ok_if_else (by res) (ok_or_right (b := nil) (s := n "or") (r := nil) (by res) he hnn) ?_)) (ih k hr)
      refine ok_tail (d := []) (as := [S "LST", S "LEN"]) (vs := [L [S "cdr", S "LST"], L [S "-", S "LEN", N 1]])
        (xs := [ofList xs, num k]) (body := argsSkipV.cdr.cdr) (by res) rfl rfl (okSeq_cons
          (ok_one (op := .cdr) (a := ofList (x :: xs)) (by res) (ok_sym (by res)) rfl (by decide) rfl) (okSeq_cons
          (ok_two (op := .sub) (a := num (k + 1 : Nat)) (b := num 1) (by res) (ok_sym (by res)) (ok_num _) rfl ?_) okSeq_nil))
      have e : ((k + 1 : Nat) : Int) - 1 = k := by omega
      simp only [binary, mathV, number, arith, Res.ok_bind, e, if_pos hr]

/-- **C78.** `(args:skip LST N)` is LST without its first N elements. -/
theorem C78_skip {l : List Entry} (hl : Sorted l) {e1 e2 : Val} {k : Nat} {xs : List Val} {st st1 : St}
    (h0 : Uses skipUses l st) (h1 : Uses skipUses l st1) (hk : IsI64 k)
    (hargs : evalSeq sem (envVal l) [e1, e2] st = .ok ([ofList xs, num k], st1)) :
    sem (envVal l) (L [S "args:skip", e1, e2]) st = .ok (ofList (xs.drop k), st1) :=
  ok_call (d := []) (as := [S "LST", S "LEN"]) (vs := [e1, e2]) (by res) rfl rfl hargs (skip_loop hl h1 xs k hk)

/-! ## `term:esc` -/

/-- The definitions that `term:esc` relies on. -/
def escUses : List (Sym × Val) :=
  [(n "term:esc", termEscV), (n "|>", Native.stream.val), (n "chr", Native.chr.val), (sQuote, Native.quote.val)] ++ strcatUses

/-- A native with two arguments, given one argument and then the other. -/
theorem ok_curry {c x y a b v : Val} {op : Native} {s : Sym} {st st1 st2 : St} (h : Resolves c st s op.val)
    (hs : op.shape = .two) (hx : sem c x st = .ok (a, st1)) (hy : sem c y st1 = .ok (b, st2)) (hu : binary op a b = .ok v) :
    sem c (L [L [ofSym s, x], y]) st = .ok (v, st2) := by
  have e1 : sem c (L [ofSym s, x]) st =
      .ok (cons (cons (ofSym aY) nil) (cons (cons (cons (ofSym aX) a) nil) (num op.addr)), st1) := by
    show sem c (pair false (sym false s) (pair false x nil)) st = _
    rw [sem_call h op.isFunc_val]
    simp only [semFunc, Native.val, car, cdr, Native.args, hs, mayApply, evalArgs, Val.bind, ofList,
      M.pure_bind, isNil, conc, Bool.not_true, Bool.false_eq_true, if_false, if_true, M.bind_assoc]
    rw [M.bind_congr_ok hx]
    rfl
  show sem c (pair false (L [ofSym s, x]) (pair false y nil)) st = _
  have hf : isFunc (cons (cons (ofSym aY) nil) (cons (cons (cons (ofSym aX) a) nil) (num op.addr))) = true := rfl
  rw [sem_pair, M.bind_congr_ok e1, if_pos hf]
  simp only [semFunc, car, cdr, mayApply, evalArgs, Val.bind,
    M.pure_bind, isNil, conc, Bool.not_true, Bool.false_eq_true, if_false, if_true, M.bind_assoc]
  rw [M.bind_congr_ok hy]
  simp only [nativeOfAddr_addr, semNative, hs]
  show M.lift (binary op a b) st2 = _
  rw [hu]
  rfl

/-- `$+` given one list and then the other. -/
theorem strcat_curry {l : List Entry} (hl : Sorted l) {st : St} (h : Uses strcatUses l st) {e1 e2 : Val} {xs ys : List Val}
    (hx : sem (envVal l) e1 st = .ok (ofList xs, st)) (hy : sem (envVal l) e2 st = .ok (ofList ys, st)) :
    sem (envVal l) (L [L [S "$+", e1], e2]) st = .ok (ofList (xs ++ ys), st) := by
  refine ok_call_head (vs := [e2]) (as := [S "y"]) (d := [⟨false, n "x", ofList xs⟩]) (xs := [ofList ys])
    (ok_call_one (s := n "$+") (p := S "x") (q := S "y") rfl (by res) rfl hx) rfl rfl rfl
    (okSeq_cons hy okSeq_nil) (loop_end (ok_prog1.trans ?_) (tail_ofList _))
  have hn : Near [n "x", n "y"] l (mergeEnv (mergeEnv l [⟨false, n "x", ofList xs⟩]) [⟨false, n "y", ofList ys⟩]) :=
    ((Near.refl hl).merge (by simp)).merge (by simp)
  have hs1 : Sorted (mergeEnv l [⟨false, n "x", ofList xs⟩]) := sorted_mergeEnv _ hl
  have gY : getEnv (mergeEnv (mergeEnv l [⟨false, n "x", ofList xs⟩]) [⟨false, n "y", ofList ys⟩]) (n "y") =
    some (ofList ys) := getEnv_merge_in hs1 rfl
  have gX : getEnv (mergeEnv (mergeEnv l [⟨false, n "x", ofList xs⟩]) [⟨false, n "y", ofList ys⟩]) (n "x") =
    some (ofList xs) := getEnv_merge_skip hs1 rfl (getEnv_merge_in hl rfl)
  have ua := (hn.uses h (by decide)).sub (T' := appendUses) (fun p hp => by simp [strcatUses, hp])
  have := C72_append hn.sorted (e := S "x") (xs := xs) (ps := [(S "y", ys)]) ua ua (ok_sym (resolves_local gX))
    (by
      intro p hp E hE
      rw [List.mem_singleton.1 hp]
      exact ok_sym (resolves_local ((hE.same (n "y") (by decide) (.inl (by decide))).trans gY)))
  refine this.trans ?_
  simp

/-- **C78.** `(term:esc CODE STR)` is STR between the escape sequence `ESC [ CODE m` and the escape sequence `ESC [ 0 m`. -/
theorem C78_esc {l : List Entry} (hl : Sorted l) {e1 e2 : Val} {code xs : List Val} {st st1 : St}
    (h0 : Uses escUses l st) (h1 : Uses escUses l st1)
    (hargs : evalSeq sem (envVal l) [e1, e2] st = .ok ([ofList code, ofList xs], st1)) :
    sem (envVal l) (L [S "term:esc", e1, e2]) st =
      .ok (ofList ([chr 27, chr 91] ++ code ++ [chr 109] ++ xs ++ [chr 27, chr 91, chr 48, chr 109]), st1) := by
  refine ok_call (d := []) (as := [S "CODE", S "STR"]) (vs := [e1, e2]) (by res) rfl rfl hargs
    (loop_done (ok_prog1.trans ?_) (tail_ofList _))
  have hn : Near [n "STR", n "CODE"] l (mergeEnv l [⟨false, n "STR", ofList xs⟩, ⟨false, n "CODE", ofList code⟩]) :=
    (Near.refl hl).merge (by simp)
  have gC : getEnv (mergeEnv l [⟨false, n "STR", ofList xs⟩, ⟨false, n "CODE", ofList code⟩]) (n "CODE") =
    some (ofList code) := getEnv_merge_in hl rfl
  have gX : getEnv (mergeEnv l [⟨false, n "STR", ofList xs⟩, ⟨false, n "CODE", ofList code⟩]) (n "STR") =
    some (ofList xs) := getEnv_merge_in hl rfl
  change sem (envVal (mergeEnv l [⟨false, n "STR", ofList xs⟩, ⟨false, n "CODE", ofList code⟩])) _ st1 = _
  generalize mergeEnv l [⟨false, n "STR", ofList xs⟩, ⟨false, n "CODE", ofList code⟩] = E at hn gC gX ⊢
  have hs := hn.sorted
  have u := hn.uses h1 (by decide)
  have us := u.sub (T' := strcatUses) (fun p hp => by simp [escUses, hp])
  have hq : Resolves (envVal E) st1 sQuote Native.quote.val := u.resolves (by simp [escUses])
  have hc : Resolves (envVal E) st1 (n "cons") Native.cons.val := u.resolves (by simp [escUses, strcatUses, appendUses])
  have h27 : sem (envVal E) (L [S "chr", N 27]) st1 = .ok (chr 27, st1) :=
    ok_one (op := .chr) (u.at 2 rfl) (ok_num _) rfl (by decide) rfl
  have hX : sem (envVal E) (S "STR") st1 = .ok (ofList xs, st1) := ok_sym (resolves_local gX)
  have hC : sem (envVal E) (S "CODE") st1 = .ok (ofList code, st1) := ok_sym (resolves_local gC)
  have step1 : ∀ (e a : Val) (ys : List Val), sem (envVal E) e st1 = .ok (a, st1) →
      sem (envVal E) (cons (L [S "cons", e]) (cons (cons (ofSym sQuote) (ofList ys)) nil)) st1 = .ok (ofList (a :: ys), st1) :=
    fun e a ys h => ok_curry hc rfl h (ok_quote hq) rfl
  have step2 : ∀ (e : Val) (zs ys : List Val), sem (envVal E) e st1 = .ok (ofList zs, st1) →
      sem (envVal E) (cons (L [S "$+", e]) (cons (cons (ofSym sQuote) (ofList ys)) nil)) st1 = .ok (ofList (zs ++ ys), st1) :=
    fun e zs ys h => strcat_curry hs us h (ok_quote hq)
  refine ok_stream (u.at 1 rfl) (ok_stream_cons (a := ofList [chr 91, chr 48, chr 109]) ok_string
    (ok_stream_cons (step1 _ _ _ h27) (ok_stream_cons (step2 _ _ _ hX) (ok_stream_cons (step1 _ _ _ (ok_chr _))
      (ok_stream_cons (step2 _ _ _ hC) (ok_stream_cons (step1 _ _ _ (ok_chr _)) (ok_stream_nil.trans
        ((step1 _ _ _ h27).trans ?_))))))))
  simp

/-! ## `dedup` -/

/-- The definitions that `dedup` relies on. -/
def dedupUses : List (Sym × Val) :=
  [(n "dedup", dedupV), (n "\\", Native.lambda.val), (n "nil?", Native.isnil.val), (n "cons", Native.cons.val),
   (n "let", Native.let_.val), (n "match", Native.match_.val)] ++ foldrUses

/-- The names bound by `dedup`. -/
def dedupArgs : List Sym := [n "cmp", n "lst", n "elt", n "acc", n "cmd", n "val", n "fun"]

/-- What a comparator answers (`share/mnml/dedup.l:3-8`). -/
inductive Verdict where
  | append (v : Val)
  | replace (v : Val)
  | skip (v : Val)

/-- The value of an answer: a command and a value. -/
def Verdict.val : Verdict → Val
  | append v => cons (S "APPEND") v
  | replace v => cons (S "REPLACE") v
  | skip v => cons (S "SKIP") v

/-- What the answer does to an accumulator with a first element. -/
def Verdict.apply (h : Val) (t : List Val) : Verdict → List Val
  | append v => v :: h :: t
  | replace v => v :: t
  | skip _ => h :: t

/-- The list after one more element in front. -/
def dedupStep (d : Val → Val → Verdict) (x : Val) : List Val → List Val
  | [] => [x]
  | h :: t => (d x h).apply h t

/-- A binding of a `let` with a pattern of two names. -/
theorem okBind_pair {l : List Entry} {st st1 st2 : St} {t1 t2 t3 f1 f2 : Bool} {s1 s2 : Sym} {e r a w : Val}
    (hx : sem (envVal l) e st = .ok (a, st1))
    (hr : letBind sem (envVal l) r (envVal [⟨f2, s2, a.cdr⟩, ⟨f1, s1, a.car⟩]) st1 = .ok (w, st2)) :
    letBind sem (envVal l) (pair t1 (pair t2 (pair t3 (sym f1 s1) (sym f2 s2)) e) r) (envVal []) st = .ok (w, st2) := by
  have e0 : letBind sem (envVal l) (pair t1 (pair t2 (pair t3 (sym f1 s1) (sym f2 s2)) e) r) (envVal []) = (do
      let tmp ← M.lift (merge (envVal l) (envVal []))
      let val ← sem tmp e
      let val' ← M.lift (letMark tmp (pair t3 (sym f1 s1) (sym f2 s2)) val)
      letBind sem (envVal l) r (Val.bind (envVal []) (pair t3 (sym f1 s1) (sym f2 s2)) val')) := rfl
  have hm : ∀ tmp, letMark tmp (pair t3 (sym f1 s1) (sym f2 s2)) a = .ok a := fun tmp => rfl
  rw [e0, merge_envVal, M.lift_ok, M.pure_bind]
  show (sem (envVal l) e >>= _) st = _
  rw [M.bind_congr_ok hx, hm, M.lift_ok, M.pure_bind]
  exact hr

open Classical in
/-- One step of the fold of `dedup`. -/
noncomputable def dedupM (d : Val → Val → Verdict) (x acc : Val) : M Val :=
  need (decide (acc = ofList (elems acc))) (pure (ofList (dedupStep d x (elems acc))))

theorem dedup_fold (d : Val → Val → Verdict) (xs : List Val) (st : St) :
    xs.foldrM (dedupM d) nil st = .ok (ofList (xs.foldr (dedupStep d) []), st) := by
  induction xs with
  | nil => rfl
  | cons x xs ih =>
    rw [List.foldrM_cons, M.bind_congr_ok ih]
    unfold dedupM need
    rw [elems_ofList, if_pos (decide_eq_true rfl)]
    rfl

/-- **C78.** `(dedup CMP W)`, where CMP answers for an element and the element kept last, without changing the state: from the
last element to the first, each element is put in front, merged into the front or dropped, as CMP says. -/
theorem C78_dedup {l : List Entry} (hl : Sorted l) {F w : Val} {d : Val → Val → Verdict} {e1 e2 : Val} {st st1 : St}
    (h0 : Uses dedupUses l st) (h1 : Uses dedupUses l st1)
    (hF : Acts2 (Near dedupArgs l) (fun s => s = st1) F (fun x y => pure (d x y).val))
    (hargs : evalSeq sem (envVal l) [e1, e2] st = .ok ([F, w], st1)) :
    sem (envVal l) (L [S "dedup", e1, e2]) st = .ok (ofList ((elems w).foldr (dedupStep d) []), st1) := by
  refine ok_call (d := []) (as := [S "cmp", S "lst"]) (vs := [e1, e2]) (by res) rfl rfl hargs
    (loop_done (ok_prog1.trans ?_) (tail_ofList _))
  have hN : Near dedupArgs l (mergeEnv l [⟨false, n "lst", w⟩, ⟨false, n "cmp", F⟩]) :=
    (Near.refl hl).merge (by simp [dedupArgs])
  have gF : getEnv (mergeEnv l [⟨false, n "lst", w⟩, ⟨false, n "cmp", F⟩]) (n "cmp") = some F := getEnv_merge_in hl rfl
  have gW : getEnv (mergeEnv l [⟨false, n "lst", w⟩, ⟨false, n "cmp", F⟩]) (n "lst") = some w := getEnv_merge_in hl rfl
  change sem (envVal (mergeEnv l [⟨false, n "lst", w⟩, ⟨false, n "cmp", F⟩])) _ st1 = _
  generalize mergeEnv l [⟨false, n "lst", w⟩, ⟨false, n "cmp", F⟩] = E at hN gF gW ⊢
  have hs := hN.sorted
  have u := hN.uses h1 (by decide)
  have uf := u.sub (T' := foldrUses) (fun p hp => by simp [dedupUses, hp])
  have hstep : ∀ {x y : Val} {st v st'}, dedupM d x y st = .ok (v, st') →
      ∃ ys, y = ofList ys ∧ v = ofList (dedupStep d x ys) ∧ st' = st := by
    intro x y st v st' h
    obtain ⟨hc, h⟩ := need_ok h
    cases h
    exact ⟨_, of_decide_eq_true hc, rfl, rfl⟩
  refine (C49_foldr (I := fun s => s = st1) (st1 := st1) (w := w) (a := nil) (g := dedupM d) hs
    (fun s h => by rw [h]; exact uf) ?_ uf rfl
    (okSeq_cons (ok_lambda (by res)) (okSeq_cons (ok_sym (resolves_local gW)) (okSeq_cons ok_nil okSeq_nil)))
    (dedup_fold d _ _) (fun x _ y st v st' _ h => by obtain ⟨ys, _, rfl, _⟩ := hstep h; exact tail_ofList _) rfl).1
  refine acts2_lisp (p := S "elt") (q := S "acc") rfl fun m x y st v st' hP hI hg => ?_
  cases hI
  obtain ⟨ys, rfl, rfl, rfl⟩ := hstep hg
  refine ⟨ok_prog1.trans ?_, tail_ofList _, rfl⟩
  have hsm := hP.sorted
  have hm : Near dedupArgs l m := hN.trans (hP.mono (by simp [foldArgs, dedupArgs]))
  have hM := (hm.capture hN).merge (b := [⟨false, n "acc", ofList ys⟩, ⟨false, n "elt", x⟩]) (by simp [dedupArgs])
  have gF' : getEnv (mergeEnv (mergeEnv m E) [⟨false, n "acc", ofList ys⟩, ⟨false, n "elt", x⟩]) (n "cmp") = some F :=
    getEnv_merge_skip (by sorted) rfl (getEnv_merge_cap (by sorted) hs gF)
  have gA : getEnv (mergeEnv (mergeEnv m E) [⟨false, n "acc", ofList ys⟩, ⟨false, n "elt", x⟩]) (n "acc") =
    some (ofList ys) := getEnv_merge_in (by sorted) rfl
  have gX : getEnv (mergeEnv (mergeEnv m E) [⟨false, n "acc", ofList ys⟩, ⟨false, n "elt", x⟩]) (n "elt") =
    some x := getEnv_merge_in (by sorted) rfl
  change sem (envVal (mergeEnv (mergeEnv m E) [⟨false, n "acc", ofList ys⟩, ⟨false, n "elt", x⟩])) _ _ = _
  generalize mergeEnv (mergeEnv m E) [⟨false, n "acc", ofList ys⟩, ⟨false, n "elt", x⟩] = G at hM gF' gA gX ⊢
  have hsG := hM.sorted
  have u' := hM.uses h1 (by decide)
  have hA : ∀ {st : St}, sem (envVal G) (S "acc") st = .ok (ofList ys, st) := ok_sym (resolves_local gA)
  cases ys with
  | nil =>
    exact ok_if_then (a := tru) (by res) (ok_one (op := .isnil) (u'.at 2 rfl) hA rfl (by decide) rfl) rfl
      (ok_two (op := .cons) (u'.at 3 rfl) (ok_sym (resolves_local gX)) hA rfl rfl)
  | cons h t =>
    refine ok_if_else (by res) (ok_one (op := .isnil) (u'.at 2 rfl) hA rfl (by decide) rfl) ?_
    have hc := (hF G (n "cmp") (S "elt") (L [S "car", S "acc"]) x h _ _ _ _ _ hM gF' (ok_sym (resolves_local gX))
      (ok_one (op := .car) (by res) hA rfl (by decide) rfl) rfl rfl).1
    refine ok_let_env (b := [⟨false, n "val", (d x h).val.cdr⟩, ⟨false, n "cmd", (d x h).val.car⟩]) (u'.at 4 rfl)
      (okBind_pair hc okBind_nil) (ok_prog1.trans ?_)
    have hG2 := hM.merge (b := [⟨false, n "val", (d x h).val.cdr⟩, ⟨false, n "cmd", (d x h).val.car⟩]) (by simp [dedupArgs])
    have gC : getEnv (mergeEnv G [⟨false, n "val", (d x h).val.cdr⟩, ⟨false, n "cmd", (d x h).val.car⟩]) (n "cmd") =
      some (d x h).val.car := getEnv_merge_in hsG rfl
    have gV : getEnv (mergeEnv G [⟨false, n "val", (d x h).val.cdr⟩, ⟨false, n "cmd", (d x h).val.car⟩]) (n "val") =
      some (d x h).val.cdr := getEnv_merge_in hsG rfl
    have gA2 : getEnv (mergeEnv G [⟨false, n "val", (d x h).val.cdr⟩, ⟨false, n "cmd", (d x h).val.car⟩]) (n "acc") =
      some (ofList (h :: t)) := getEnv_merge_skip hsG rfl gA
    generalize mergeEnv G [⟨false, n "val", (d x h).val.cdr⟩, ⟨false, n "cmd", (d x h).val.car⟩] = H at hG2 gC gV gA2 ⊢
    have u2 := hG2.uses h1 (by decide)
    have hcmd : ∀ (q : Val) (st : St), sem (cons (cons (ofSym aANY) q) (envVal H)) (S "cmd") st =
        .ok ((d x h).val.car, st) := by
      intro q st
      refine ok_sym (show Resolves (envVal (⟨false, aANY, q⟩ :: H)) st (n "cmd") _ from resolves_local ?_)
      rw [getEnv_cons, if_neg (show ¬ aANY = n "cmd" by decide)]
      exact gC
    have hAcc : ∀ {st : St}, sem (envVal H) (S "acc") st = .ok (ofList (h :: t), st) := ok_sym (resolves_local gA2)
    have hVal : ∀ {st : St}, sem (envVal H) (S "val") st = .ok ((d x h).val.cdr, st) := ok_sym (resolves_local gV)
    have hCons : ∀ {e v r}, sem (envVal H) e st' = .ok (r, st') → v = cons (d x h).val.cdr r →
        sem (envVal H) (L [S "cons", S "val", e]) st' = .ok (v, st') := by
      intro e v r he hv
      subst hv
      exact ok_two (op := .cons) (u2.at 3 rfl) hVal he rfl rfl
    refine ok_match (u2.at 5 rfl) (hcmd _ _) ?_
    show matchV sem (envVal H) (d x h).val.car _ _ = .ok (ofList ((d x h).apply h t), _)
    cases hd : d x h with
    | append v =>
      rw [hd] at hCons
      exact hCons hAcc rfl
    | replace v =>
      rw [hd] at hCons
      exact hCons (ok_one (op := .cdr) (by res) hAcc rfl (by decide) rfl) rfl
    | skip v => exact hAcc

/-- **C78.** If CMP says to skip an element that is related to the element kept last and to append it otherwise, then the result
of `dedup` is a part of the list, no element of it is related to the next one, and each element of the list is in it or is
related to an element of it. -/
theorem C78_dedup_runs {d : Val → Val → Verdict} {r : Val → Val → Bool}
    (hd : ∀ x y, d x y = if r x y then .skip x else .append x) (xs : List Val) :
    (xs.foldr (dedupStep d) []).Sublist xs ∧
      (∀ p a b q, xs.foldr (dedupStep d) [] = p ++ a :: b :: q → r a b = false) ∧
      ∀ x ∈ xs, ∃ y ∈ xs.foldr (dedupStep d) [], x = y ∨ r x y = true := by
  induction xs with
  | nil => exact ⟨List.Sublist.refl _, by simp, by simp⟩
  | cons x xs ih =>
    obtain ⟨h1, h2, h3⟩ := ih
    rw [List.foldr_cons]
    generalize xs.foldr (dedupStep d) [] = zs at h1 h2 h3 ⊢
    cases zs with
    | nil =>
      refine ⟨List.Sublist.cons_cons x h1, ?_, ?_⟩
      · intro p a b q h
        have := congrArg List.length h
        simp [dedupStep] at this
        omega
      · intro y hy
        rcases List.mem_cons.1 hy with rfl | hy
        · exact ⟨y, by simp [dedupStep], .inl rfl⟩
        · obtain ⟨z, hz, _⟩ := h3 y hy
          simp at hz
    | cons z zs =>
      show ((d x z).apply z zs).Sublist (x :: xs) ∧ (∀ p a b q, (d x z).apply z zs = p ++ a :: b :: q → r a b = false) ∧
        ∀ y ∈ x :: xs, ∃ w ∈ (d x z).apply z zs, y = w ∨ r y w = true
      rw [hd]
      cases hr : r x z with
      | true =>
        refine ⟨h1.cons x, h2, fun y hy => ?_⟩
        rcases List.mem_cons.1 hy with rfl | hy
        · exact ⟨z, by simp [Verdict.apply], .inr hr⟩
        · exact h3 y hy
      | false =>
        refine ⟨List.Sublist.cons_cons x h1, ?_, ?_⟩
        · intro p a b q h
          cases p with
          | nil =>
            have h' : x :: z :: zs = a :: b :: q := h
            cases h'
            exact hr
          | cons w p =>
            have h' : x :: z :: zs = w :: (p ++ a :: b :: q) := h
            exact h2 p a b q (List.cons.inj h').2
        · intro y hy
          rcases List.mem_cons.1 hy with rfl | hy
          · exact ⟨y, by simp [Verdict.apply], .inl rfl⟩
          · obtain ⟨w, hw, he⟩ := h3 y hy
            exact ⟨w, List.mem_cons_of_mem _ hw, he⟩

/-! ## The formats of `term.l` -/

/-- The formats and their codes (`share/mnml/term.l:30-53`). -/
def formats : List (String × String) :=
  [("normal", "0"), ("bold", "1"), ("italic", "3"), ("underlined", "4"), ("reversed", "7"), ("striked", "9"),
   ("black", "0;30"), ("red", "0;31"), ("green", "0;32"), ("orange", "0;33"), ("blue", "0;34"), ("purple", "0;35"),
   ("cyan", "0;36"), ("gray+", "0;37"), ("gray-", "1;30"), ("red+", "1;31"), ("green+", "1;32"), ("yellow", "1;33"),
   ("blue+", "1;34"), ("purple+", "1;35"), ("cyan+", "1;36"), ("white", "1;37")]

/-- The function that is defined for a code. -/
def formatV (code : String) : Val := cons (L [S "STR"]) (cons nil (L [L [S "term:esc", str code, S "STR"]]))

/-- The definitions that the form relies on. -/
def formatUses : List (Sym × Val) :=
  [(n "sym", Native.sym.val), (n "list", Native.list.val), (n "def", Native.def_.val), (n "eval", Native.eval.val)] ++
    iterUses ++ escUses

/-- The names bound in the form. -/
def formatArgs : List Sym := iterArgs ++ [n "name", n "code", n "symb", n "body"]

/-- The body of the function in the form. -/
def formatBody : Val := termIter.cdr.car.cdr.cdr

/-- One step of the form. -/
def formatStep (x : Val) : M Val := fun st =>
  match formats.find? fun p => decide (cons (str p.1) (str p.2) = x) with
  | some p => .ok (S ("term:" ++ p.1), define ("term:" ++ p.1) (formatV p.2) st)
  | none => .unsupported

theorem ok_def_env {l : List Entry} {st : St} {s : Sym} {any v : Val} (h : Resolves (envVal l) st (n "def") Native.def_.val)
    (hd : defV any = (do setGlobal s v; pure (ofSym s))) :
    sem (envVal l) (cons (S "def") any) st =
      .ok (ofSym s, { st with globals := fun t => if t = s then some v else st.globals t }) := by
  show sem (envVal l) (pair false (sym false (n "def")) any) st = _
  rw [sem_any _ h rfl]
  simp only [semAny, nativeAny]
  rw [hd]
  rfl

/-- The facts about the formats that the form depends on. -/
theorem format_facts : ∀ p ∈ formats,
    unary .sym (ofList ((("term:".toList.map fun c => chr c.toNat)) ++ p.1.toList.map fun c => chr c.toNat)) =
      .ok (S ("term:" ++ p.1)) ∧
    markBody (n "body") (S "term:esc") (L [S "STR"]) = .ok (L [S "STR"]) ∧
    markBody (n ("term:" ++ p.1)) (L [S "STR"]) (L [L [S "term:esc", str p.2, S "STR"]]) =
      .ok (L [L [S "term:esc", str p.2, S "STR"]]) ∧
    (∀ q ∈ formatUses, q.1 ≠ n ("term:" ++ p.1)) := by
  decide +kernel

theorem format_body {st : St} (hu : Uses formatUses [] st) {p : String × String} (hp : p ∈ formats) {m : List Entry}
    (hm : Near formatArgs [] m) :
    progV sem (envVal (mergeEnv (mergeEnv m []) (bindAll [cons (S "name") (S "code")] [cons (str p.1) (str p.2)] [])))
      formatBody nil st = .ok (S ("term:" ++ p.1), define ("term:" ++ p.1) (formatV p.2) st) := by
  obtain ⟨f1, f2, f3, f4⟩ := format_facts p hp
  have hE : Near formatArgs [] (mergeEnv m [⟨false, n "code", str p.2⟩, ⟨false, n "name", str p.1⟩]) :=
    hm.merge (by simp [formatArgs])
  have hsm := hm.sorted
  have gN : getEnv (mergeEnv m [⟨false, n "code", str p.2⟩, ⟨false, n "name", str p.1⟩]) (n "name") = some (str p.1) :=
    getEnv_merge_in hsm rfl
  have gC : getEnv (mergeEnv m [⟨false, n "code", str p.2⟩, ⟨false, n "name", str p.1⟩]) (n "code") = some (str p.2) :=
    getEnv_merge_in hsm rfl
  show progV sem (envVal (mergeEnv m [⟨false, n "code", str p.2⟩, ⟨false, n "name", str p.1⟩])) _ nil st = _
  generalize mergeEnv m [⟨false, n "code", str p.2⟩, ⟨false, n "name", str p.1⟩] = E at hE gN gC ⊢
  have hsE := hE.sorted
  have u := hE.uses hu (by decide)
  have ua := u.sub (T' := appendUses) (fun q hq => by simp [formatUses, escUses, strcatUses, hq])
  have hE1 := hE.merge (b := [⟨false, n "symb", S ("term:" ++ p.1)⟩]) (by simp [formatArgs])
  have hE2 := hE.merge (b := [⟨false, n "body", L [S "term:esc", str p.2, S "STR"]⟩, ⟨false, n "symb", S ("term:" ++ p.1)⟩])
    (by simp [formatArgs])
  have u1 := hE1.uses hu (by decide)
  have u2 := hE2.uses hu (by decide)
  have gC1 := getEnv_merge_skip (b := [⟨false, n "symb", S ("term:" ++ p.1)⟩]) hsE rfl gC
  have hq : ∀ {E}, Uses formatUses E st → Resolves (envVal E) st sQuote Native.quote.val :=
    fun h => h.resolves (by simp [formatUses, escUses])
  have hsymb : sem (envVal E) (L [S "sym", L [S "append", str "term:", S "name"]]) st = .ok (S ("term:" ++ p.1), st) := by
    refine ok_one (op := .sym) (u.at 0 rfl) ?_ rfl (by decide) f1
    refine (C72_append hsE (e := str "term:") (xs := "term:".toList.map fun c => chr c.toNat)
      (ps := [(S "name", p.1.toList.map fun c => chr c.toNat)]) ua ua ok_string ?_).trans ?_
    · intro q hq' F hF
      rw [List.mem_singleton.1 hq']
      exact ok_sym (resolves_local ((hF.same (n "name") (by decide) (.inl (by decide))).trans gN))
    · simp
  refine ok_prog1.trans (ok_let_env (b := [⟨false, n "body", L [S "term:esc", str p.2, S "STR"]⟩,
    ⟨false, n "symb", S ("term:" ++ p.1)⟩]) (u.at 6 rfl)
    (okBind_cons (a := S ("term:" ++ p.1)) (st1 := st) (show sem (envVal E) _ _ = _ from hsymb) (letMark_of_not_func _ _ _ rfl)
      (okBind_cons (a := L [S "term:esc", str p.2, S "STR"]) (st1 := st) ?_ ?_ okBind_nil)) (ok_prog1.trans ?_))
  · exact ok_list (u1.at 1 rfl) (ok_list_cons (ok_list_cons (ok_list_cons ok_list_nil (ok_quote (hq u1)))
      (ok_sym (resolves_local gC1))) (ok_quote (hq u1)))
  · show letMark (envVal (mergeEnv E [⟨false, n "symb", S ("term:" ++ p.1)⟩])) (sym false (n "body"))
      (pair false (S "term:esc") (pair false (str p.2) (L [S "STR"]))) = _
    unfold letMark
    simp only [assq_envVal]
    split
    · show ((Res.ok (getEnv _ _) : Res _) >>= _) = _
      rw [Res.ok_bind]
      cases getEnv (mergeEnv E [⟨false, n "symb", S ("term:" ++ p.1)⟩]) (n "body") with
      | some w => rfl
      | none =>
        show (markBody (n "body") (S "term:esc") (L [S "STR"]) >>= _) = _
        rw [f2]
        rfl
    · rfl
  · have gS := getEnv_merge_in (s := n "symb") (v := S ("term:" ++ p.1)) (b := [⟨false, n "body", L [S "term:esc", str p.2, S "STR"]⟩,
      ⟨false, n "symb", S ("term:" ++ p.1)⟩]) hsE rfl
    have gB := getEnv_merge_in (s := n "body") (v := L [S "term:esc", str p.2, S "STR"]) (b := [⟨false, n "body", L [S "term:esc", str p.2, S "STR"]⟩,
      ⟨false, n "symb", S ("term:" ++ p.1)⟩]) hsE rfl
    refine ok_eval (u2.at 3 rfl) (ok_list (u2.at 1 rfl) (ok_list_cons (ok_list_cons (ok_list_cons (ok_list_cons ok_list_nil
      (ok_sym (resolves_local gB))) (ok_quote (hq u2))) (ok_sym (resolves_local gS))) (ok_quote (hq u2)))) ?_
    refine ok_def_env (s := n ("term:" ++ p.1)) (v := formatV p.2) (u2.at 2 rfl) ?_
    show (M.lift (markBody (n ("term:" ++ p.1)) (L [S "STR"]) (L [L [S "term:esc", str p.2, S "STR"]])) >>= _) = _
    rw [f3]
    rfl

/-- The state after the formats have been defined. -/
def withFormats (fs : List (String × String)) (st : St) : St :=
  fs.foldl (fun st p => define ("term:" ++ p.1) (formatV p.2) st) st

theorem uses_define {U : List (Sym × Val)} {s : String} {v : Val} {st : St} (h : Uses U [] st) (hs : ∀ q ∈ U, q.1 ≠ n s) :
    Uses U [] (define s v st) := by
  intro q hq
  refine ⟨rfl, ?_⟩
  show (if q.1 = n s then some v else st.globals q.1) = _
  rw [if_neg (hs q hq)]
  exact (h q hq).2

theorem format_mapM (fs : List (String × String)) (hfs : ∀ p ∈ fs, p ∈ formats) (st : St) :
    (fs.map fun p => cons (str p.1) (str p.2)).mapM formatStep st =
      .ok (fs.map fun p => S ("term:" ++ p.1), withFormats fs st) := by
  have hfind : ∀ p ∈ formats, (formats.find? fun q => decide (cons (str q.1) (str q.2) = cons (str p.1) (str p.2))) = some p := by
    decide +kernel
  induction fs generalizing st with
  | nil => rfl
  | cons p fs ih =>
    have e : formatStep (cons (str p.1) (str p.2)) st = .ok (S ("term:" ++ p.1), define ("term:" ++ p.1) (formatV p.2) st) := by
      have := hfind p (hfs p (by simp))
      simp only [formatStep, this]
    rw [List.map_cons, List.mapM_cons, M.bind_congr_ok e, M.bind_congr_ok (ih (fun q hq => hfs q (by simp [hq])) _)]
    rfl

theorem termIter_eq : termIter = L [S "iter", cons (S "\\") (cons (L [cons (S "name") (S "code")]) formatBody),
    Q (ofList (formats.map fun p => cons (str p.1) (str p.2)))] := by decide +kernel

theorem format_acts : Acts1 (Near iterArgs []) (fun s => Uses formatUses [] s)
    (cons (L [cons (S "name") (S "code")]) (cons (envVal []) formatBody)) formatStep := by
  refine acts1_lisp rfl fun m x st v st' hP hI hg => ?_
  unfold formatStep at hg
  split at hg
  · rename_i p hf
    cases hg
    have hp := List.mem_of_find?_eq_some hf
    have h0 := List.find?_some hf
    have hx : cons (str p.1) (str p.2) = x := of_decide_eq_true h0
    rw [← hx]
    exact ⟨format_body hI hp (hP.mono fun s h => List.mem_append.2 (.inl h)), rfl,
      uses_define hI (format_facts p hp).2.2.2⟩
  · cases hg

theorem format_form {st : St} (hu : Uses formatUses [] st) (hl : st.globals (n "\\") = some Native.lambda.val) :
    ∃ v, sem nil termIter st = .ok (v, withFormats formats st) ∧ Uses formatUses [] (withFormats formats st) := by
  have ui := hu.sub (T' := iterUses) (fun q hq => by simp [formatUses, hq])
  have hm := format_mapM formats (fun _ h => h) st
  have hy : ∀ y ∈ formats.map (fun p => S ("term:" ++ p.1)), y.isFunc = false ∧ y.isTailCall = false := by
    intro y hy
    obtain ⟨p, _, rfl⟩ := List.mem_map.1 hy
    exact ⟨rfl, rfl⟩
  have hq : Resolves (envVal []) st sQuote Native.quote.val := hu.resolves (by simp [formatUses, escUses])
  have hb : formatBody.isPair = true := rfl
  have ha := format_acts
  rw [termIter_eq]
  generalize (formats.map fun p => S ("term:" ++ p.1)) = ys at hm hy
  generalize (formats.map fun p => cons (str p.1) (str p.2)) = xs at hm
  generalize formatBody = body at ha hb
  generalize withFormats formats st = st2 at hm
  exact ⟨_, C72_iter (l := []) List.Pairwise.nil (fun s h => h.sub (fun q hq => by simp [formatUses, hq])) ha ui hu
    (okSeq_cons (ok_lambda (resolves_global (l := []) rfl hl)) (okSeq_cons (ok_quote hq) okSeq_nil)) hm hy⟩

theorem withFormats_get (fs : List (String × String)) (hfs : (fs.map fun p => n ("term:" ++ p.1)).Nodup)
    (p : String × String) (hp : p ∈ fs) (st : St) : (withFormats fs st).globals (n ("term:" ++ p.1)) = some (formatV p.2) := by
  have keep : ∀ (fs : List (String × String)) (s : Sym) (st : St), s ∉ fs.map (fun p => n ("term:" ++ p.1)) →
      (withFormats fs st).globals s = st.globals s := by
    intro fs
    induction fs with
    | nil => intro s st _; rfl
    | cons q fs ih =>
      intro s st h
      simp only [List.map_cons, List.mem_cons, not_or] at h
      show (withFormats fs (define ("term:" ++ q.1) (formatV q.2) st)).globals s = _
      rw [ih _ _ h.2]
      show (if s = n ("term:" ++ q.1) then _ else _) = _
      rw [if_neg h.1]
  induction fs generalizing st with
  | nil => simp at hp
  | cons q fs ih =>
    rw [List.map_cons, List.nodup_cons] at hfs
    rcases List.mem_cons.1 hp with rfl | hp
    · show (withFormats fs (define ("term:" ++ p.1) (formatV p.2) st)).globals _ = _
      rw [keep _ _ _ hfs.1]
      show (if n ("term:" ++ p.1) = n ("term:" ++ p.1) then _ else _) = _
      rw [if_pos rfl]
    · exact ih hfs.2 hp _

/-- **C78.** The form at `share/mnml/term.l:26-53` defines a function for each format, which puts a string between the escape
sequence of the format and the one that ends it. -/
theorem C78_formats {st : St} (hu : Uses formatUses [] st) (hl : st.globals (n "\\") = some Native.lambda.val) :
    ∃ v st', sem nil termIter st = .ok (v, st') ∧ ∀ p ∈ formats, ∀ (e : Val) (xs : List Val),
      sem nil e st' = .ok (ofList xs, st') → sem nil (L [S ("term:" ++ p.1), e]) st' =
        .ok (ofList ([chr 27, chr 91] ++ elems (str p.2) ++ [chr 109] ++ xs ++ [chr 27, chr 91, chr 48, chr 109]), st') := by
  obtain ⟨v, h1, h2⟩ := format_form hu hl
  refine ⟨_, _, h1, fun p hp e xs he => ?_⟩
  have hg := withFormats_get formats (by decide +kernel) p hp st
  generalize withFormats formats st = st' at h2 hg he
  refine ok_call (l := []) (d := []) (as := [S "STR"]) (vs := [e]) (resolves_global (l := []) rfl hg) rfl rfl
    (okSeq_cons he okSeq_nil) (loop_end (ok_prog1.trans ?_) (tail_ofList _))
  have hn : Near [n "STR"] [] (mergeEnv [] [⟨false, n "STR", ofList xs⟩]) :=
    (Near.refl List.Pairwise.nil).merge (by simp)
  have ue := (hn.uses h2 (by decide)).sub (T' := escUses) (fun q hq => by simp [formatUses, hq])
  have hs : str p.2 = ofList (elems (str p.2)) := by unfold str; rw [elems_ofList]
  have hc : ∀ E st, sem (envVal E) (str p.2) st = .ok (ofList (elems (str p.2)), st) := by
    intro E st
    rw [← hs]
    have : ∀ cs : List Char, sem (envVal E) (ofList (cs.map fun c => chr c.toNat)) st =
        .ok (ofList (cs.map fun c => chr c.toNat), st) := by
      intro cs
      cases cs with
      | nil => exact ok_nil
      | cons c cs => exact ok_string
    exact this _
  exact C78_esc hn.sorted ue ue (okSeq_cons (hc _ _) (okSeq_cons
    (ok_sym (resolves_local (getEnv_merge_in List.Pairwise.nil rfl))) okSeq_nil))

/-! ## The files -/

open Module

/-- The functions of the formats, the last one first. -/
def formatsT : List (Sym × Val) := (formats.map fun p => (n ("term:" ++ p.1), formatV p.2)).reverse

theorem withFormats_over (fs : List (String × String)) (st : St) :
    withFormats fs st = over (fs.map fun p => (n ("term:" ++ p.1), formatV p.2)).reverse st := by
  induction fs generalizing st with
  | nil => rfl
  | cons p fs ih =>
    rw [List.map_cons, List.reverse_cons, over_append, ← over_define]
    exact ih _

/-- Expressions that depend on the definitions before them. -/
theorem ExprsAdd.then {os : Os} {d : List UInt8} {es fs : List Val} {t u : List (Sym × Val)} (h1 : ExprsAdd os d es t)
    (h2 : ∀ r s st0, Ready os s → s.st = over t st0 → curdir os s = .ok d → s.dirs ≠ [] →
      ∃ w s', Runs os (sem Val.nil) fs r s w s' ∧ Adds os s u s') : ExprsAdd os d (es ++ fs) (u ++ t) := by
  intro r s hr hc hd
  obtain ⟨w1, s1, r1, a1⟩ := h1 r s hr hc hd
  obtain ⟨w2, s2, r2, a2⟩ := h2 w1 s1 s.st a1.1 a1.2.2 ((curdir_dirs os a1.2.1).trans hc) (by rw [a1.2.1]; exact hd)
  refine ⟨w2, s2, ?_, a1.trans a2⟩
  clear a1 a2 h1 h2 hr hc hd
  induction r1 with
  | nil => exact r2
  | cons h ht ih => exact .cons h (ih r2)

/-- The definitions that `share/mnml/args.l` adds, the last one first. -/
def argsT : List (Sym × Val) :=
  [(n "args:parse", argsParseV), (n "args:parse_r", argsParseRV), (n "args:skip", argsSkipV)] ++
    (nats [.if_, .isnil, .cdr, .cons, .car, .eval, .len, .let_, .prog]) ++ (nats [.sub, .gt]) ++ (nats [.prinl]) ++
    (nats [.or, .equ]) ++ manipsT

/-- The definitions of `share/mnml/term.l` before the form for the formats. -/
def termT0 : List (Sym × Val) :=
  [(n "term:esc", termEscV)] ++ (nats [.stream, .if_, .sym, .len, .list, .eval, .cons, .chr, .lambda]) ++ (nats [.ge, .sub]) ++
    truncrT ++ manipsT ++ iterT ++ appendT

/-- The definitions that `share/mnml/term.l` adds, the last one first. -/
def termT : List (Sym × Val) := ([(n "term:right", termRightV), (n "term:left", termLeftV)] ++ formatsT) ++ termT0

theorem args_adds {os : Os} (hi : Installed os) :
    ExprsAdd os (share os) [argsLoad, argsSkipSrc, argsParseRSrc, argsParseSrc] argsT :=
  .eq (.cons (.load (.more (.lib hi (manips_adds hi)) (by simp) (.more (.natives (m := (n "logic", logicNatives)) (by simp [modules])
      (ns := [.or, .equ]) (by decide)) (by simp) (.more (.natives (m := (n "io", ioNatives)) (by simp [modules]) (ns := [.prinl]) (by decide))
      (by simp) (.more (.natives (m := (n "math", mathNatives)) (by simp [modules]) (ns := [.sub, .gt]) (by decide)) (by simp) (.one
      (.natives (m := (n "std", stdNatives)) (by simp [modules]) (ns := [.if_, .isnil, .cdr, .cons, .car, .eval, .len, .let_, .prog])
        (by decide)))))))) (.cons (.def_ argsSkip_def (by decide +kernel)) (.cons (.def_ argsParseR_def (by decide +kernel)) (.cons
      (.def_ argsParse_def (by decide +kernel)) (.nil _ _))))) (by rfl)

theorem term_adds0 {os : Os} (hi : Installed os) : ExprsAdd os (share os) [termLoad, termEscSrc] termT0 :=
  .eq (.cons (.load (.more (.lib hi (append_adds hi)) (by simp) (.more (.lib hi (iter_adds hi)) (by simp) (.more
      (.lib hi (manips_adds hi)) (by simp) (.more (.lib hi (truncr_adds hi)) (by simp) (.more
      (.natives (m := (n "math", mathNatives)) (by simp [modules]) (ns := [.ge, .sub]) (by decide)) (by simp) (.one
      (.natives (m := (n "std", stdNatives)) (by simp [modules]) (ns := [.stream, .if_, .sym, .len, .list, .eval, .cons, .chr, .lambda])
        (by decide))))))))) (.cons (.def_ termEsc_def (by decide +kernel)) (.nil _ _))) (by rfl)

theorem formats_harmless : Harmless formatsT := by decide +kernel

/-- **C78.** The expressions of `term.l` and `args.l`, run in an installed interpreter, terminate and add these definitions. -/
theorem C78_load {os : Os} (hi : Installed os) :
    (∃ k es, Lex.drain (fun _ => .unsupported) k .init argsText = .ok ⟨[], [], none, es⟩ ∧ ExprsAdd os (share os) es argsT) ∧
    ∃ k es, Lex.drain (fun _ => .unsupported) k .init termText = .ok ⟨[], [], none, es⟩ ∧ ExprsAdd os (share os) es termT := by
  refine ⟨⟨_, _, args_text, args_adds hi⟩, _, _, term_text, ?_⟩
  refine ExprsAdd.then (es := [termLoad, termEscSrc]) (term_adds0 hi) fun r s st0 hr hst hc hd => ?_
  have hu : Uses (formatUses.filter fun p => p.1 ≠ sQuote ∧ p.1 ≠ n "def") [] s.st := by
    rw [hst]
    exact uses_over st0 (by decide +kernel)
  have hu' : Uses formatUses [] s.st := by
    have h2 : ∀ p ∈ formatUses, (p.1 = sQuote → p.2 = Native.quote.val) ∧ (p.1 = n "def" → p.2 = Native.def_.val) := by
      decide +kernel
    have e1 : sQuote = Native.quote.name := by decide +kernel
    have e2 : n "def" = Native.def_.name := by decide +kernel
    intro p hp
    by_cases h1 : p.1 = sQuote
    · refine ⟨rfl, ?_⟩
      rw [h1, (h2 p hp).1 h1, e1]
      exact hr.squote
    · by_cases h3 : p.1 = n "def"
      · refine ⟨rfl, ?_⟩
        rw [h3, (h2 p hp).2 h3, e2]
        exact hr.sdef
      · exact hu p (List.mem_filter.2 ⟨hp, by simp [h1, h3]⟩)
  have hl : s.st.globals (n "\\") = some Native.lambda.val := by
    have : Uses [(n "\\", Native.lambda.val)] [] s.st := by
      rw [hst]
      exact uses_over st0 (by decide +kernel)
    exact (this (n "\\", Native.lambda.val) List.mem_cons_self).2
  obtain ⟨v, h1, -⟩ := format_form hu' hl
  have hno : isLoad s termIter = none := by
    rw [termIter_eq]
    exact not_load _ _ (by decide +kernel) s
  have hr1 : Ready os { s with st := over formatsT s.st } := hr.over formats_harmless
  have hrest : ExprsAdd os (share os) [termLeftSrc, termRightSrc] [(n "term:right", termRightV), (n "term:left", termLeftV)] :=
    .eq (.cons (.def_ termLeft_def (by decide +kernel)) (.cons (.def_ termRight_def (by decide +kernel)) (.nil _ _))) (by rfl)
  obtain ⟨w2, s2, r2, a2⟩ := hrest v { s with st := over formatsT s.st } hr1 hc hd
  have h1' : evalTop os (sem Val.nil) 1 termIter s = .ok (v, { s with st := over formatsT s.st }) := by
    rw [withFormats_over] at h1
    simp only [evalTop, hno, h1, Res.ok_bind]
    rfl
  refine ⟨w2, s2, .cons h1' r2, a2.1, a2.2.1, ?_⟩
  rw [a2.2.2, over_append]

/-- **C78.** After `term.l` or `args.l` has been loaded, its functions are defined as their laws demand; `quote` is there in every
program that was not started with `-b`. -/
theorem C78_loaded (st : St) (h : st.globals sQuote = some Native.quote.val) :
    Uses termLeftUses [] (over termT st) ∧ Uses termRightUses [] (over termT st) ∧ Uses escUses [] (over termT st) ∧
      Uses skipUses [] (over argsT st) ∧ Uses dedupUses [] (over dedupT st) ∧
      ∀ p ∈ formats, (over termT st).globals (n ("term:" ++ p.1)) = some (formatV p.2) := by
  have hq : termT.find? (fun p => p.1 = sQuote) = none := by decide +kernel
  have key : ∀ U : List (Sym × Val), (∀ p ∈ U, p.1 = sQuote → p.2 = Native.quote.val) →
      (∀ p ∈ U, p.1 ≠ sQuote → termT.find? (fun q => q.1 = p.1) = some p) → Uses U [] (over termT st) := by
    intro U h1 h2 p hp
    refine ⟨rfl, ?_⟩
    by_cases e : p.1 = sQuote
    · rw [e, h1 p hp e]
      simp only [over, hq, h]
    · simp only [over, h2 p hp e]
  refine ⟨key _ (by decide +kernel) (by decide +kernel), key _ (by decide +kernel) (by decide +kernel),
    key _ (by decide +kernel) (by decide +kernel), uses_over st (by decide +kernel), uses_over st (by decide +kernel), ?_⟩
  have : ∀ p ∈ formats, termT.find? (fun q => q.1 = n ("term:" ++ p.1)) = some (n ("term:" ++ p.1), formatV p.2) := by
    decide +kernel
  intro p hp
  simp only [over, this p hp]

/-! ## Examples for C78 -/

/-- The library with `args.l` and `term.l`. -/
def termSt : St := over (termT ++ argsT) libSt

/-- The hypotheses are met at top level. -/
example : Sorted [] ∧ Uses termLeftUses [] termSt ∧ Uses termRightUses [] termSt ∧ Uses escUses [] termSt ∧ Uses skipUses [] termSt ∧
    Uses dedupUses [] termSt ∧ Uses formatUses [] termSt ∧ termSt.globals (n "\\") = some Native.lambda.val ∧
    libSt.globals sQuote = some Native.quote.val ∧ IsI64 3 ∧ IsI64 (3 - ([chr 65].length : Nat)) := by
  refine ⟨by simp [Sorted], ?_, ?_, ?_, ?_, ?_, ?_, ?_, ?_, isI64_iff.2 (by omega), isI64_iff.2 (by simp)⟩
  all_goals first | (unfold Uses; decide +kernel) | decide +kernel

/-- A comparator for `dedup`: `(\\ (x y) (if (= x y) (cons 'SKIP x) (cons 'APPEND x)))`. -/
def sameV : Val :=
  cons (L [S "x", S "y"]) (cons nil (L [L [S "if", L [S "=", S "x", S "y"], L [S "cons", Q (S "SKIP"), S "x"],
    L [S "cons", Q (S "APPEND"), S "x"]]]))

/-- It answers as `C78_dedup_runs` demands. -/
example {l : List Entry} {st : St}
    (hu : Uses [(n "if", Native.if_.val), (n "=", Native.equ.val), (n "cons", Native.cons.val), (sQuote, Native.quote.val)] l st) :
    Acts2 (Near dedupArgs l) (fun s => s = st) sameV
      (fun x y => pure (if equ x y then Verdict.skip x else Verdict.append x).val) := by
  refine acts2_lisp (d := []) (p := S "x") (q := S "y") rfl fun m x y st' v st'' hP hI hg => ?_
  cases hI
  cases hg
  have hs := hP.sorted
  have hM : Near (n "x" :: n "y" :: dedupArgs) l (mergeEnv m [⟨false, n "y", y⟩, ⟨false, n "x", x⟩]) :=
    (hP.mono (fun s h => by simp [h])).merge (by simp)
  have u := hM.uses hu (by decide)
  have gx : getEnv (mergeEnv m [⟨false, n "y", y⟩, ⟨false, n "x", x⟩]) (n "x") = some x := getEnv_merge_in hs rfl
  have gy : getEnv (mergeEnv m [⟨false, n "y", y⟩, ⟨false, n "x", x⟩]) (n "y") = some y := getEnv_merge_in hs rfl
  have he := ok_two (op := .equ) (tc := false) (f := false) (t1 := false) (t2 := false) (x := S "x") (y := S "y")
    (v := ofBool (equ x y)) (u.at 1 rfl) (ok_sym (resolves_local gx)) (ok_sym (resolves_local gy)) rfl rfl
  cases hq : equ x y with
  | true =>
    rw [hq] at he
    exact ⟨ok_prog1.trans (ok_if_then (u.at 0 rfl) he rfl (ok_two (op := .cons) (u.at 2 rfl) (ok_quote (u.at 3 rfl))
      (ok_sym (resolves_local gx)) rfl rfl)), rfl, rfl⟩
  | false =>
    rw [hq] at he
    exact ⟨ok_prog1.trans (ok_if_else (u.at 0 rfl) he (ok_two (op := .cons) (u.at 2 rfl) (ok_quote (u.at 3 rfl))
      (ok_sym (resolves_local gx)) rfl rfl)), rfl, rfl⟩

/-- Runs. -/
example : ((evalN 80 nil (L [S "term:left", N 4, str "ab"]) termSt >>= fun p => .ok p.1) : Res Val) = .ok (str "ab  ") ∧
    ((evalN 80 nil (L [S "term:left", N 1, str "ab"]) termSt >>= fun p => .ok p.1) : Res Val) = .ok (str "a") ∧
    ((evalN 80 nil (L [S "term:right", N 4, str "ab"]) termSt >>= fun p => .ok p.1) : Res Val) = .ok (str "  ab") ∧
    ((evalN 80 nil (L [S "term:right", N 1, str "ab"]) termSt >>= fun p => .ok p.1) : Res Val) = .ok (str "b") ∧
    ((evalN 80 nil (L [S "args:skip", Q (L [N 1, N 2, N 3]), N 2]) termSt >>= fun p => .ok p.1) : Res Val) = .ok (L [N 3]) ∧
    ((evalN 80 nil (L [S "term:red", str "a"]) termSt >>= fun p => .ok p.1) : Res Val) =
      .ok (L [chr 27, chr 91, chr 48, chr 59, chr 51, chr 49, chr 109, chr 97, chr 27, chr 91, chr 48, chr 109]) := by
  decide +kernel

end Lib
end Mnml
