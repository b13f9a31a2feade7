import Verif.PropLib

/-!
# C54: trimming strings

`share/mnml/trim.l`. `whitespace?` chains partial applications of `or`, which `or` does not support, so that it
is true for every value and the trimming functions never return.
-/

namespace Mnml
namespace Lib

open Val

/-- The definitions that `whitespace?` relies on. -/
def isspaceUses : List (Sym × Val) :=
  [(n "whitespace?", isspaceV), (n "|>", Native.stream.val), (n "=", Native.equ.val), (n "or", Native.or.val)]

/-- The value of one step of the stream in `whitespace?`. -/
def orStep (b : Bool) (r : Val) : Val := L [ofBool b, cons (ofSym sQuote) r]

/-- The value that `whitespace?` returns. -/
def isspaceVal (x : Val) : Val :=
  orStep (equ x (chr 13)) (orStep (equ x (chr 10)) (orStep (equ x (chr 9)) (ofBool (equ x (chr 32)))))

theorem isspace_call {l : List Entry} (hl : Sorted l) {e x : Val} {st st1 : St} (h0 : Uses isspaceUses l st)
    (h1 : Uses isspaceUses l st1) (he : sem (envVal l) e st = .ok (x, st1)) :
    sem (envVal l) (L [S "whitespace?", e]) st = .ok (isspaceVal x, st1) := by
  refine ok_call (d := []) (as := [S "chr"]) (vs := [e]) (by res) rfl rfl (okSeq_cons he okSeq_nil)
    (loop_done (ok_prog1.trans ?_) rfl)
  have u : Uses isspaceUses (mergeEnv l [⟨false, n "chr", x⟩]) st1 := uses_merge [n "chr"] h1 hl rfl (by decide)
  have step : ∀ (k : Int) (r : Val), sem (envVal (mergeEnv l [⟨false, n "chr", x⟩]))
      (L [L [S "or", L [S "=", S "chr", chr k]], cons (ofSym sQuote) r]) st1 =
      .ok (orStep (equ x (chr k)) r, st1) := by
    intro k r
    refine ok_head_bool rfl ?_
    have he := ok_two (op := .equ) (tc := false) (f := false) (t1 := false) (t2 := false) (x := S "chr") (y := chr k)
      (v := ofBool (equ x (chr k))) (u.at 2 rfl) (ok_sym (by res)) (ok_chr _) rfl rfl
    cases hq : equ x (chr k) with
    | true => rw [hq] at he; exact ok_or_left (by res) he rfl
    | false => rw [hq] at he; exact ok_or_single (by res) he
  exact ok_stream (by res) (ok_stream_cons (ok_two (op := .equ) (by res) (ok_sym (by res)) (ok_chr _) rfl rfl)
    (ok_stream_cons (step _ _) (ok_stream_cons (step _ _) (ok_stream_nil.trans (step _ _)))))

/-- **C54.** `(whitespace? X)` is never NIL: it holds for every value, white space or not. -/
theorem C54_whitespace_counterexample {l : List Entry} (hl : Sorted l) {e x : Val} {st st1 : St}
    (h0 : Uses isspaceUses l st) (h1 : Uses isspaceUses l st1) (he : sem (envVal l) e st = .ok (x, st1)) :
    ∃ v, sem (envVal l) (L [S "whitespace?", e]) st = .ok (v, st1) ∧ v.isNil = false :=
  ⟨_, isspace_call hl h0 h1 he, rfl⟩

/-- The definitions that `triml` relies on. -/
def trimlUses : List (Sym × Val) :=
  (n "triml", trimlV) :: (n "if", Native.if_.val) :: (n "car", Native.car.val) :: (n "cdr", Native.cdr.val) ::
    isspaceUses

/-- **C54.** `(triml X)` does not terminate, whatever its argument. -/
theorem C54_triml_counterexample {l : List Entry} (hl : Sorted l) {e x : Val} {st st1 : St}
    (h0 : Uses trimlUses l st) (h1 : Uses trimlUses l st1) (he : sem (envVal l) e st = .ok (x, st1)) :
    sem (envVal l) (L [S "triml", e]) st = .oof := by
  refine oof_call (d := []) (as := [S "strn"]) (vs := [e]) (body := trimlV.cdr.cdr) (by res) rfl rfl
    (okSeq_cons he okSeq_nil)
    (loop_diverge (fun b s => s = st1 ∧ ∃ w, b = [⟨false, n "strn", w⟩]) ?_ ⟨rfl, x, rfl⟩)
  rintro b s ⟨rfl, w, rfl⟩
  refine ⟨[⟨false, n "strn", w.cdr⟩], s, ?_, rfl, _, rfl⟩
  have u : Uses trimlUses (mergeEnv l [⟨false, n "strn", w⟩]) s := uses_merge [n "strn"] h1 hl rfl (by decide)
  have us := u.sub (T' := isspaceUses) (fun p hp => by simp [trimlUses, hp])
  refine ok_prog1.trans (ok_if_then (by res) (isspace_call (by sorted) us us (x := w.car) (by ev)) rfl ?_)
  exact ok_tail (d := []) (as := [S "strn"]) (vs := [L [S "cdr", S "strn"]]) (xs := [w.cdr])
    (body := trimlV.cdr.cdr) (by res) rfl rfl (okSeq_cons (by ev) okSeq_nil)

/-- The definitions that `trimr` and `trim` rely on. -/
def trimUses : List (Sym × Val) :=
  (n "trim", trimV) :: (n "trimr", trimrV) :: trimlUses ++ revUses

/-- **C54.** `(trimr X)` does not terminate. -/
theorem C54_trimr_counterexample {l : List Entry} (hl : Sorted l) {e x : Val} {st st1 : St}
    (h0 : Uses trimUses l st) (h1 : Uses trimUses l st1) (he : sem (envVal l) e st = .ok (x, st1)) :
    sem (envVal l) (L [S "trimr", e]) st = .oof := by
  refine oof_call (d := []) (as := [S "strn"]) (vs := [e]) (body := trimrV.cdr.cdr) (by res) rfl rfl
    (okSeq_cons he okSeq_nil) (oof_loop (ok_prog1.trans ?_))
  have u : Uses trimUses (mergeEnv l [⟨false, n "strn", x⟩]) st1 := uses_merge [n "strn"] h1 hl rfl (by decide)
  have ur := u.sub (T' := revUses) (fun p hp => by simp [trimUses, hp])
  have ut := u.sub (T' := trimlUses) (fun p hp => by simp only [trimUses, List.mem_cons, List.mem_append, List.cons_append]; exact .inr (.inr (.inl hp)))
  refine oof_args (d := []) (as := [S "lst"]) (vs := [L [S "triml", L [S "rev", S "strn"]]]) (body := revV.cdr.cdr)
    (ur.at 0 rfl) rfl rfl ?_
  exact oofSeq_cons (C54_triml_counterexample (by sorted) ut ut (C50_rev (by sorted) ur ur (ok_sym (by res))))

/-- **C54.** `(trim X)` does not terminate. -/
theorem C54_trim_counterexample {l : List Entry} (hl : Sorted l) {e x : Val} {st st1 : St}
    (h0 : Uses trimUses l st) (h1 : Uses trimUses l st1) (he : sem (envVal l) e st = .ok (x, st1)) :
    sem (envVal l) (L [S "trim", e]) st = .oof := by
  refine oof_call (d := []) (as := [S "strn"]) (vs := [e]) (body := trimV.cdr.cdr) (by res) rfl rfl
    (okSeq_cons he okSeq_nil) (oof_loop (ok_prog1.trans ?_))
  have u : Uses trimUses (mergeEnv l [⟨false, n "strn", x⟩]) st1 := uses_merge [n "strn"] h1 hl rfl (by decide)
  have ut := u.sub (T' := trimlUses) (fun p hp => by simp only [trimUses, List.mem_cons, List.mem_append, List.cons_append]; exact .inr (.inr (.inl hp)))
  refine oof_args (d := []) (as := [S "strn"]) (vs := [L [S "triml", S "strn"]]) (body := trimrV.cdr.cdr)
    (u.at 1 rfl) rfl rfl ?_
  exact oofSeq_cons (C54_triml_counterexample (by sorted) ut ut (ok_sym (by res)))

/-- The hypotheses hold after the library has been loaded. -/
example : Uses trimUses [] libSt := by unfold Uses; decide +kernel

/-- `(trim "")` does not terminate. -/
example : sem nil (L [S "trim", nil]) libSt = .oof :=
  C54_trim_counterexample (l := []) List.Pairwise.nil (by unfold Uses; decide +kernel) (by unfold Uses; decide +kernel)
    ok_nil

end Lib
end Mnml
