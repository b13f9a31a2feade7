import Verif.PropLoad

/-!
# C72: further functions of the lisp library

`<|>`, the compositions of `car` and `cdr`, `truncr`, `iter`, `iter2`, `insert`, `merge`, `flatten`, `append`, `$+` and
`join`.
-/

namespace Mnml
namespace Lib

open Val

/-! ## `<|>` -/

/-- The definitions that `<|>` relies on. -/
def orelseUses : List (Sym × Val) := [(n "<|>", orelseV), (n "if", Native.if_.val)]

/-- **C72.** `(<|> V D)` is V, and D if V is NIL. Both arguments are evaluated. -/
theorem C72_orelse {l : List Entry} (hl : Sorted l) {e1 e2 v d : Val} {st st1 : St} (h0 : Uses orelseUses l st)
    (h1 : Uses orelseUses l st1) (hargs : evalSeq sem (envVal l) [e1, e2] st = .ok ([v, d], st1))
    (hv : v.isTailCall = false) (hd : d.isTailCall = false) :
    sem (envVal l) (L [S "<|>", e1, e2]) st = .ok (if v = nil then d else v, st1) := by
  have u : Uses orelseUses (mergeEnv l [⟨false, n "DEF", d⟩, ⟨false, n "VAL", v⟩]) st1 :=
    uses_merge [n "DEF", n "VAL"] h1 hl rfl (by decide)
  refine ok_call (d := []) (as := [S "VAL", S "DEF"]) (vs := [e1, e2]) (by res) rfl rfl hargs
    (loop_done (ok_prog1.trans ?_) (by split <;> assumption))
  cases v with
  | nil => exact ok_if_else (by res) (ok_sym (by res)) (ok_sym (by res))
  | _ => exact ok_if_then (by res) (ok_sym (by res)) rfl (ok_sym (by res))

/-! ## Compositions of `car` and `cdr` -/

/-- The definitions that they rely on. -/
def cxrUses : List (Sym × Val) :=
  [(n "car", Native.car.val), (n "cdr", Native.cdr.val), (n "caar", caarV), (n "cddr", cddrV), (n "cadar", cadarV),
   (n "caddr", caddrV), (n "cadddr", cadddrV), (n "cadr", cadrV), (n "cdar", cdarV)]

/-- The function that a name stands for: each `a` is a CAR and each `d` a CDR, the last letter first. -/
def path (s : String) (v : Val) : Val :=
  s.toList.foldr (fun ch w => if ch = 'a' then w.car else if ch = 'd' then w.cdr else w) v

/-- **C72.** `caar`, `cddr`, `cadar`, `caddr`, `cadddr`, `cadr` and `cdar` follow the path that their name spells. -/
theorem C72_paths {l : List Entry} (hl : Sorted l) {e v : Val} {st st1 : St} (h0 : Uses cxrUses l st)
    (h1 : Uses cxrUses l st1) (he : sem (envVal l) e st = .ok (v, st1)) {s : String}
    (hs : s ∈ ["caar", "cddr", "cadar", "caddr", "cadddr", "cadr", "cdar"]) (hv : (path s v).isTailCall = false) :
    sem (envVal l) (L [S s, e]) st = .ok (path s v, st1) := by
  have u : Uses cxrUses (mergeEnv l [⟨false, n "x", v⟩]) st1 := uses_merge [n "x"] h1 hl rfl (by decide)
  simp only [List.mem_cons, List.not_mem_nil, or_false] at hs
  rcases hs with rfl | rfl | rfl | rfl | rfl | rfl | rfl <;>
    exact ok_call (d := []) (as := [S "x"]) (vs := [e]) (by res) rfl rfl (okSeq_cons he okSeq_nil)
      (loop_done (ok_prog1.trans (by ev)) hv)

/-! ## `truncr` -/

/-- The definitions that `truncr` relies on. -/
def truncrUses : List (Sym × Val) :=
  [(n "truncr", truncrV), (n "|>", Native.stream.val), (sQuote, Native.quote.val)] ++ revUses ++ trunclUses

/-- A body that ends without a tail call, under any head. -/
theorem loop_end {symb body v : Val} {l b : List Entry} {st st1 : St}
    (h : progV sem (envVal (mergeEnv l b)) body nil st = .ok (v, st1)) (hv : v.isTailCall = false) :
    loopSem symb body (envVal l) (envVal b) st = .ok (v, st1) := by
  rw [loopSem_eq, merge_envVal, M.lift_ok, M.pure_bind, M.bind_congr_ok h]
  have : isSelfTail symb v = .ok false := by
    cases v with
    | sym t s => cases t <;> first | rfl | (simp [isTailCall] at hv)
    | pair t a d => cases t <;> first | rfl | (simp [isTailCall] at hv)
    | _ => rfl
  rw [this]; rfl

/-- A call with an expression for the function. -/
theorem ok_call_head {l d : List Entry} {h v body : Val} {as vs xs : List Val} {st st1 st2 st3 : St}
    (hh : sem (envVal l) h st = .ok (cons (ofList as) (cons (envVal d) body), st1)) (ht : h.isTailCall = false)
    (hb : body.isPair = true) (hlen : vs.length = as.length)
    (hx : evalSeq sem (envVal l) vs st1 = .ok (xs, st2))
    (hr : loopSem h body (envVal (mergeEnv l d)) (envVal (bindAll as xs [])) st2 = .ok (v, st3)) :
    sem (envVal l) (cons h (ofList vs)) st = .ok (v, st3) := by
  have hd : (envVal d).isList = true := by cases d <;> rfl
  have hf : isFunc (cons (ofList as) (cons (envVal d) body)) = true := by
    have ha : (ofList as).isList = true := by cases as <;> rfl
    simp only [isFunc, ha, hd, hb, Bool.true_or, Bool.and_true]
  rw [sem_pair, M.bind_congr_ok hh, if_pos hf]
  have hm : mayApply (ofList as) (ofList vs) = true := by
    rw [mayApply_ofList]; exact decide_eq_true (by omega)
  cases body with
  | pair tc b d' =>
    simp only [semFunc, car, cdr, hm, Bool.not_true, C21_positional _ as vs hlen, ht,
      M.bind_assoc, M.pure_bind, isNil, Bool.false_eq_true, if_false, if_true]
    rw [M.bind_congr_ok hx, merge_envVal, M.lift_ok, M.pure_bind, hr]
  | _ => simp [isPair] at hb

/-- A call with one value for two arguments: a function of the other argument. -/
theorem ok_call_one {l : List Entry} {s : Sym} {body p q e x : Val} {st st1 : St} {a : Bool} {ps : Sym}
    (hp : p = sym a ps)
    (h : Resolves (envVal l) st s (cons (L [p, q]) (cons nil body))) (hb : body.isPair = true)
    (hx : sem (envVal l) e st = .ok (x, st1)) :
    sem (envVal l) (L [ofSym s, e]) st = .ok (cons (L [q]) (cons (envVal [⟨a, ps, x⟩]) body), st1) := by
  subst hp
  have hf : isFunc (cons (L [sym a ps, q]) (cons nil body)) = true := by
    have ha : (L [sym a ps, q]).isList = true := rfl
    have hn : nil.isList = true := rfl
    simp only [isFunc, ha, hn, hb, Bool.true_or, Bool.and_true]
  refine (sem_call h hf).trans ?_
  have hm : mayApply (L [sym a ps, q]) (ofList [e]) = true := by
    show mayApply (ofList [sym a ps, q]) (ofList [e]) = true
    rw [mayApply_ofList]; rfl
  have he : evalArgs sem (envVal l) (L [sym a ps, q]) nil (ofList [e]) = _ :=
    C21_fewer (envVal l) [sym a ps] [q] [e] rfl
  simp only [semFunc, car, cdr, hm, he, M.bind_assoc, M.pure_bind, Bool.not_true, Bool.false_eq_true, if_false]
  rw [M.bind_congr_ok (okSeq_cons hx okSeq_nil)]
  rfl

theorem ok_streamLast {c f' x v a : Val} {t1 : Bool} {st st1 st2 : St} (hx : sem c x st = .ok (a, st1))
    (hr : sem c (cons f' (cons (cons (ofSym sQuote) a) nil)) st1 = .ok (v, st2)) :
    streamV sem c (pair t1 f' nil) x st = .ok (v, st2) := ok_stream_cons hx (ok_stream_nil.trans hr)

theorem truncl_body {l l' : List Entry} {st : St} (h : Uses trunclUses l st) {i : Int} (hi : IsI64 i) (w : Val)
    (hn : Near [n "n", n "lst"] l l') (hN : getEnv l' (n "n") = some (num i)) :
    progV sem (envVal (mergeEnv l' [⟨false, n "lst", w⟩])) trunclV.cdr.cdr nil st =
      .ok (ofList (takePad i.toNat w), st) := by
  have hs := hn.sorted
  have hn' := hn.merge (b := [⟨false, n "lst", w⟩]) (by simp)
  have u := hn'.uses h (by decide)
  have hN' : getEnv (mergeEnv l' [⟨false, n "lst", w⟩]) (n "n") = some (num i) := getEnv_merge_skip hs rfl hN
  by_cases hp : 0 < i
  · have hr' : inI64 (i - 1) = true := isI64_iff.2 (by have := isI64_iff.1 hi; omega)
    obtain ⟨k, hk⟩ : ∃ k, i.toNat = k + 1 := ⟨i.toNat - 1, by omega⟩
    rw [hk]
    refine ok_prog1.trans (ok_when (a := tru) (by res) (ok_two (op := .gt) (by res) (ok_sym (by res))
      (ok_num _) rfl ?_) rfl (ok_prog1.trans (ok_two (op := .cons) (a := w.car) (b := ofList (takePad k w.cdr)) (by res)
        (by ev) ?_ rfl rfl)))
    · simp [binary, compareV, number, hp, ofBool]
    · refine ok_call (d := []) (as := [S "n", S "lst"]) (vs := [L [S "-", S "n", N 1], L [S "cdr", S "lst"]])
        (xs := [num (i - 1), w.cdr]) (by res) rfl rfl
        (okSeq_cons (ok_two (op := .sub) (a := num i) (b := num 1) (by res) (ok_sym (by res)) (ok_num _) rfl ?_)
          (okSeq_cons (by ev) okSeq_nil)) (truncl_loop h k (i - 1) w.cdr _ (by omega) hr' hn')
      simp [binary, mathV, number, arith, hr']
  · rw [show i.toNat = 0 by omega]
    refine ok_prog1.trans (ok_when_none (by res) (ok_two (op := .gt) (by res) (ok_sym (by res)) (ok_num _) rfl ?_))
    simp [binary, compareV, number, hp, ofBool]

theorem takePad_ofList (xs : List Val) (k : Nat) :
    takePad k (ofList xs) = xs.take k ++ List.replicate (k - xs.length) nil := by
  have hnil : ∀ k, takePad k nil = List.replicate k nil := by
    intro k
    induction k with
    | zero => rfl
    | succ k ih => rw [takePad, List.replicate_succ]; exact congrArg _ ih
  induction xs generalizing k with
  | nil => exact (hnil k).trans (by simp)
  | cons x xs ih =>
    cases k with
    | zero => simp [takePad]
    | succ k =>
      show x :: takePad k (ofList xs) = _
      rw [ih]
      simp

/-- **C72.** `(truncr N W)` is the list of the last N elements of W, with NILs before them if there are fewer. (Its
documentation says that it removes N elements from the right.) -/
theorem C72_truncr {l : List Entry} (hl : Sorted l) {e1 e2 w : Val} {i : Int} {st st1 : St} (h0 : Uses truncrUses l st)
    (h1 : Uses truncrUses l st1) (hi : IsI64 i)
    (hargs : evalSeq sem (envVal l) [e1, e2] st = .ok ([num i, w], st1)) :
    sem (envVal l) (L [S "truncr", e1, e2]) st =
      .ok (ofList (List.replicate (i.toNat - (elems w).length) nil ++
        (elems w).drop ((elems w).length - i.toNat)), st1) := by
  refine ok_call (d := []) (as := [S "n", S "lst"]) (vs := [e1, e2]) (by res) rfl rfl hargs
    (loop_done (ok_prog1.trans ?_) (tail_ofList _))
  have hn : Near [n "n", n "lst"] l (mergeEnv l [⟨false, n "lst", w⟩, ⟨false, n "n", num i⟩]) :=
    (Near.refl hl).merge (by simp)
  have hN : getEnv (mergeEnv l [⟨false, n "lst", w⟩, ⟨false, n "n", num i⟩]) (n "n") = some (num i) :=
    getEnv_merge_in hl rfl
  have hL : getEnv (mergeEnv l [⟨false, n "lst", w⟩, ⟨false, n "n", num i⟩]) (n "lst") = some w :=
    getEnv_merge_in hl rfl
  have u := hn.uses h1 (by decide)
  change sem (envVal (mergeEnv l [⟨false, n "lst", w⟩, ⟨false, n "n", num i⟩])) _ st1 = _
  generalize mergeEnv l [⟨false, n "lst", w⟩, ⟨false, n "n", num i⟩] = E at hn hN hL u ⊢
  have hs := hn.sorted
  have ur := u.sub (T' := revUses) (fun p hp => by simp [truncrUses, hp])
  have ut := h1.sub (T' := trunclUses) (fun p hp => by simp [truncrUses, hp])
  have hq : Resolves (envVal E) st1 sQuote Native.quote.val := u.resolves (by simp [truncrUses])
  refine ok_stream (by res) (ok_stream_cons (ok_sym (resolves_local hL)) (ok_stream_cons (a := ofList (elems w).reverse)
    (C50_rev hs ur ur (ok_quote hq)) (ok_streamLast (a := ofList (takePad i.toNat (ofList (elems w).reverse)))
      (st1 := st1) ?_ ?_)))
  · exact ok_call_head (vs := [cons (ofSym sQuote) (ofList (elems w).reverse)]) (as := [S "lst"])
      (d := [⟨false, n "n", num i⟩]) (xs := [ofList (elems w).reverse])
      (ok_call_one (s := n "truncl") (p := S "n") (q := S "lst") rfl (by res) rfl (ok_sym (resolves_local hN))) rfl rfl rfl
      (okSeq_cons (ok_quote hq) okSeq_nil)
      (loop_end (truncl_body ut hi _ (hn.merge (by simp)) (getEnv_merge_in hs rfl)) (tail_ofList _))
  · refine (C50_rev hs ur ur (ok_quote hq)).trans ?_
    rw [elems_ofList, takePad_ofList, List.reverse_append, List.reverse_replicate, List.length_reverse,
      List.reverse_take, List.reverse_reverse, List.length_reverse]

/-! ## `iter` and `iter2` -/

/-- Binding a proper list by `let` keeps its truth value, even if the list has the shape of a function. -/
theorem letMark_ofList (l : List Entry) (f : Bool) (s : Sym) (xs : List Val) :
    ∃ a, letMark (envVal l) (sym f s) (ofList xs) = .ok a ∧ a.isNil = xs.isEmpty := by
  cases xs with
  | nil => exact ⟨nil, rfl, rfl⟩
  | cons x xs =>
    cases xs with
    | nil => exact ⟨_, rfl, rfl⟩
    | cons y ys =>
      simp only [ofList, letMark]
      split
      · rw [assq_envVal]
        cases getEnv l s with
        | some v => exact ⟨_, rfl, rfl⟩
        | none =>
          cases ys with
          | nil => next h => simp [ofList, isFunc, isPair, isNum] at h
          | cons z zs => exact ⟨_, rfl, rfl⟩
      · exact ⟨_, rfl, rfl⟩

/-- The last of a list of results, NIL if there is none. -/
def lastOf (ys : List Val) : Val := ys.getLast?.getD nil

theorem lastOf_tail {ys : List Val} (hy : ∀ y ∈ ys, y.isFunc = false ∧ y.isTailCall = false) :
    (lastOf ys).isTailCall = false := by
  unfold lastOf
  cases h3 : ys.getLast? with
  | none => rfl
  | some z => exact (hy z (List.mem_of_getLast? h3)).2

theorem mapM_ne_nil {α : Type} {g : α → M Val} {x : α} {xs : List α} {zs : List Val} {st st' : St}
    (h : (x :: xs).mapM g st = .ok (zs, st')) : zs ≠ [] := by
  intro h0
  subst h0
  rw [List.mapM_cons, M.bind_apply] at h
  cases h1 : g x st with
  | ok p =>
    rw [h1, Res.ok_bind, M.bind_apply] at h
    cases h2 : xs.mapM g p.2 with
    | ok q => rw [h2] at h; cases h
    | _ => rw [h2] at h; cases h
  | _ => rw [h1] at h; cases h

theorem lastOf_cons {y : Val} {zs : List Val} (h : zs ≠ []) : lastOf (y :: zs) = lastOf zs := by
  cases zs with
  | nil => exact absurd rfl h
  | cons z zs => simp [lastOf, List.getLast?_cons_cons]

/-- The definitions that `iter` relies on. -/
def iterUses : List (Sym × Val) :=
  [(n "iter", iterV), (n "if", Native.if_.val), (n "let", Native.let_.val), (n "car", Native.car.val),
   (n "cdr", Native.cdr.val)]

/-- The names bound by `iter`. -/
def iterArgs : List Sym := [n "fun", n "lst", n "rslt", n "tail"]

theorem iter_body {l : List Entry} {I : St → Prop} {F : Val} {g : Val → M Val} (hI : ∀ st, I st → Uses iterUses l st)
    (hF : Acts1 (Near iterArgs l) I F g) (xs : List Val) :
    ∀ {l' : List Entry} {st st' : St} {ys : List Val}, Near iterArgs l l' → I st → xs.mapM g st = .ok (ys, st') →
      (∀ y ∈ ys, y.isFunc = false ∧ y.isTailCall = false) →
      progV sem (envVal (mergeEnv l' [⟨false, n "lst", ofList xs⟩, ⟨false, n "fun", F⟩])) iterV.cdr.cdr nil st =
        .ok (lastOf ys, st') ∧ I st' := by
  induction xs with
  | nil =>
    intro l' st st' ys hl h hr hy
    cases hr
    have hs := hl.sorted
    have u := (hl.merge (b := [⟨false, n "lst", ofList []⟩, ⟨false, n "fun", F⟩]) (by simp [iterArgs])).uses (hI _ h)
      (by decide)
    exact ⟨ok_prog1.trans (ok_if_none (by res) (ok_sym (by res))), h⟩
  | cons x xs ih =>
    intro l' st st' ys hl h hr hy
    have hs := hl.sorted
    have hE := hl.merge (b := [⟨false, n "lst", ofList (x :: xs)⟩, ⟨false, n "fun", F⟩]) (by simp [iterArgs])
    have hL : getEnv (mergeEnv l' [⟨false, n "lst", ofList (x :: xs)⟩, ⟨false, n "fun", F⟩]) (n "lst") =
      some (ofList (x :: xs)) := getEnv_merge_in hs rfl
    have hG : getEnv (mergeEnv l' [⟨false, n "lst", ofList (x :: xs)⟩, ⟨false, n "fun", F⟩]) (n "fun") = some F :=
      getEnv_merge_in hs rfl
    generalize mergeEnv l' [⟨false, n "lst", ofList (x :: xs)⟩, ⟨false, n "fun", F⟩] = E at hE hL hG ⊢
    have hsE := hE.sorted
    rw [List.mapM_cons, M.bind_apply] at hr
    cases hx : g x st with
    | ok p =>
      obtain ⟨y, st1⟩ := p
      rw [hx, Res.ok_bind, M.bind_apply] at hr
      have u := hE.uses (hI _ h) (by decide)
      have hc := hF _ (n "fun") (L [S "car", S "lst"]) x st st y st1 hE hG
        (ok_one (op := .car) (by res) (ok_sym (resolves_local hL)) rfl (by decide) rfl) h hx
      cases hd : xs.mapM g st1 with
      | ok p =>
        obtain ⟨zs, st2⟩ := p
        rw [hd] at hr
        cases hr
        have u1 := hE.uses (hI _ hc.2) (by decide)
        obtain ⟨a, ha, han⟩ := letMark_ofList (mergeEnv E [⟨false, n "rslt", y⟩]) false (n "tail") xs
        have hE1 := hE.merge (b := [⟨false, n "rslt", y⟩]) (by simp [iterArgs])
        have hE2 := hE.merge (b := [⟨false, n "tail", a⟩, ⟨false, n "rslt", y⟩]) (by simp [iterArgs])
        have v1 := hE1.uses (hI _ hc.2) (by decide)
        have v2 := hE2.uses (hI _ hc.2) (by decide)
        have hmem := hy y (by simp)
        have key : progV sem (envVal (mergeEnv E [⟨false, n "tail", a⟩, ⟨false, n "rslt", y⟩]))
            (L [L [S "if", S "tail", L [S "iter", S "fun", L [S "cdr", S "lst"]], S "rslt"]]) nil st1 =
              .ok (lastOf (y :: zs), st2) ∧ I st2 := by
          cases xs with
          | nil =>
            cases hd
            cases a with
            | nil => exact ⟨ok_prog1.trans (ok_if_else (by res) (ok_sym (by res)) (ok_sym (by res))), hc.2⟩
            | _ => simp [isNil] at han
          | cons x' xs' =>
            rw [lastOf_cons (mapM_ne_nil hd)]
            have hin := ih hE2 hc.2 hd (fun z hz => hy z (by simp [hz]))
            have htail : (lastOf zs).isTailCall = false := lastOf_tail fun z hz => hy z (by simp [hz])
            refine ⟨ok_prog1.trans (ok_if_then (by res) (ok_sym (by res)) han ?_), hin.2⟩
            exact ok_call (d := []) (as := [S "fun", S "lst"]) (vs := [S "fun", L [S "cdr", S "lst"]])
              (xs := [F, ofList (x' :: xs')]) (by res) rfl rfl
              (okSeq_cons (ok_sym (by res)) (okSeq_cons (by ev) okSeq_nil)) (loop_done hin.1 htail)
        refine ⟨ok_prog1.trans (ok_if_then (by res) (ok_sym (resolves_local hL)) rfl ?_), key.2⟩
        refine ok_let_env (b := [⟨false, n "tail", a⟩, ⟨false, n "rslt", y⟩]) (by res)
          (okBind_cons hc.1 (letMark_of_not_func _ _ _ hmem.1) (okBind_cons (a := ofList xs) ?_ ha okBind_nil)) key.1
        ev
      | _ => rw [hd] at hr; cases hr
    | _ => rw [hx] at hr; cases hr

/-- **C72.** `(iter F LST)` calls F on the elements of LST in order; the value is the last result, NIL for the empty
list. The results must not be functions, because `iter` binds them with `let`, which marks tail calls in functions. -/
theorem C72_iter {l : List Entry} (hl : Sorted l) {I : St → Prop} {F : Val} {g : Val → M Val} {e1 e2 : Val}
    {xs ys : List Val} {st st1 st2 : St} (hI : ∀ st, I st → Uses iterUses l st) (hF : Acts1 (Near iterArgs l) I F g)
    (h0 : Uses iterUses l st) (h1 : I st1) (hargs : evalSeq sem (envVal l) [e1, e2] st = .ok ([F, ofList xs], st1))
    (hr : xs.mapM g st1 = .ok (ys, st2)) (hy : ∀ y ∈ ys, y.isFunc = false ∧ y.isTailCall = false) :
    sem (envVal l) (L [S "iter", e1, e2]) st = .ok (ys.getLast?.getD nil, st2) ∧ I st2 := by
  have := iter_body hI hF xs (Near.refl hl) h1 hr hy
  exact ⟨ok_call (d := []) (as := [S "fun", S "lst"]) (vs := [e1, e2]) (by res) rfl rfl hargs
    (loop_done this.1 (lastOf_tail hy)), this.2⟩

/-- A list whose elements and final parts do not have the shape of functions. -/
def Data (xs : List Val) : Prop := (∀ x ∈ xs, x.isFunc = false) ∧ ∀ ys, ys <:+ xs → (ofList ys).isFunc = false

theorem Data.tail {x : Val} {xs : List Val} (h : Data (x :: xs)) : Data xs :=
  ⟨fun y hy => h.1 y (by simp [hy]), fun ys hy => h.2 ys (hy.trans (List.suffix_cons x xs))⟩

/-- Lists of numbers, characters and T. -/
theorem data_of_atoms {xs : List Val} (h : ∀ x ∈ xs, x.isList = false ∧ x.isSym = false) : Data xs := by
  refine ⟨fun x hx => ?_, fun ys hy => ?_⟩
  · have := (h x hx).1
    cases x <;> first | rfl | simp [isList, isPair, isNil] at this
  · cases ys with
    | nil => rfl
    | cons y zs =>
      have := h y (hy.mem (by simp))
      cases zs with
      | nil => rfl
      | cons z zs => simp [ofList, isFunc, this.1, this.2]

/-- The definitions that `iter2` relies on. -/
def iter2Uses : List (Sym × Val) :=
  [(n "iter2", iter2V), (n "if", Native.if_.val), (n "let", Native.let_.val), (n "car", Native.car.val),
   (n "cdr", Native.cdr.val), (n "and", Native.and.val)]

/-- The names bound by `iter2`. -/
def iter2Args : List Sym :=
  [n "fun", n "lst1", n "lst2", n "car1", n "car2", n "cdr1", n "cdr2", n "rslt"]

theorem iter2_body {l : List Entry} {I : St → Prop} {F : Val} {g : Val → Val → M Val}
    (hI : ∀ st, I st → Uses iter2Uses l st) (hF : Acts2 (Near iter2Args l) I F g) (xs1 : List Val) :
    ∀ {xs2 : List Val} {l' : List Entry} {st st' : St} {ys : List Val}, Near iter2Args l l' → Data xs1 → Data xs2 →
      I st → (xs1.zip xs2).mapM (fun p => g p.1 p.2) st = .ok (ys, st') →
      (∀ y ∈ ys, y.isFunc = false ∧ y.isTailCall = false) →
      progV sem (envVal (mergeEnv l' [⟨false, n "lst2", ofList xs2⟩, ⟨false, n "lst1", ofList xs1⟩, ⟨false, n "fun", F⟩]))
        iter2V.cdr.cdr nil st = .ok (lastOf ys, st') ∧ I st' := by
  have stop : ∀ (xs1 xs2 : List Val), xs1.zip xs2 = [] → ∀ {l' : List Entry} {st st' : St} {ys : List Val},
      Near iter2Args l l' → I st → (xs1.zip xs2).mapM (fun p => g p.1 p.2) st = .ok (ys, st') →
      progV sem (envVal (mergeEnv l' [⟨false, n "lst2", ofList xs2⟩, ⟨false, n "lst1", ofList xs1⟩, ⟨false, n "fun", F⟩]))
        iter2V.cdr.cdr nil st = .ok (lastOf ys, st') ∧ I st' := by
    intro xs1 xs2 hz l' st st' ys hl h hr
    rw [hz] at hr
    cases hr
    have hs := hl.sorted
    have u := (hl.merge (b := [⟨false, n "lst2", ofList xs2⟩, ⟨false, n "lst1", ofList xs1⟩, ⟨false, n "fun", F⟩])
      (by simp [iter2Args])).uses (hI _ h) (by decide)
    refine ⟨ok_prog1.trans (ok_if_none (by res) (ok_two (op := .and) (by res) (ok_sym (by res)) (ok_sym (by res)) rfl ?_)), h⟩
    cases xs1 with
    | nil => rfl
    | cons x xs1 =>
      cases xs2 with
      | nil => rfl
      | cons y xs2 => simp at hz
  induction xs1 with
  | nil => intro xs2 l' st st' ys hl _ _ h hr _; exact stop [] xs2 (by simp) hl h hr
  | cons x1 xs1 ih =>
    intro xs2 l' st st' ys hl hd1 hd2 h hr hy
    cases xs2 with
    | nil => exact stop _ [] (by simp) hl h hr
    | cons x2 xs2 =>
    have hs := hl.sorted
    have hE := hl.merge (b := [⟨false, n "lst2", ofList (x2 :: xs2)⟩, ⟨false, n "lst1", ofList (x1 :: xs1)⟩, ⟨false, n "fun", F⟩])
      (by simp [iter2Args])
    have hL1 : getEnv (mergeEnv l' [⟨false, n "lst2", ofList (x2 :: xs2)⟩, ⟨false, n "lst1", ofList (x1 :: xs1)⟩, ⟨false, n "fun", F⟩])
      (n "lst1") = some (ofList (x1 :: xs1)) := getEnv_merge_in hs rfl
    have hL2 : getEnv (mergeEnv l' [⟨false, n "lst2", ofList (x2 :: xs2)⟩, ⟨false, n "lst1", ofList (x1 :: xs1)⟩, ⟨false, n "fun", F⟩])
      (n "lst2") = some (ofList (x2 :: xs2)) := getEnv_merge_in hs rfl
    have hG : getEnv (mergeEnv l' [⟨false, n "lst2", ofList (x2 :: xs2)⟩, ⟨false, n "lst1", ofList (x1 :: xs1)⟩, ⟨false, n "fun", F⟩])
      (n "fun") = some F := getEnv_merge_in hs rfl
    generalize mergeEnv l' [⟨false, n "lst2", ofList (x2 :: xs2)⟩, ⟨false, n "lst1", ofList (x1 :: xs1)⟩, ⟨false, n "fun", F⟩] = E
      at hE hL1 hL2 hG ⊢
    have hsE := hE.sorted
    rw [List.zip_cons_cons, List.mapM_cons, M.bind_apply] at hr
    cases hx : g x1 x2 st with
    | ok p =>
      obtain ⟨y, st1⟩ := p
      rw [hx, Res.ok_bind, M.bind_apply] at hr
      cases hd : (xs1.zip xs2).mapM (fun p => g p.1 p.2) st1 with
      | ok p =>
        obtain ⟨zs, st2⟩ := p
        rw [hd] at hr
        cases hr
        have u := hE.uses (hI _ h) (by decide)
        have hE1 := hE.merge (b := [⟨false, n "car1", x1⟩]) (by simp [iter2Args])
        have hE2 := hE.merge (b := [⟨false, n "car2", x2⟩, ⟨false, n "car1", x1⟩]) (by simp [iter2Args])
        have hE3 := hE.merge (b := [⟨false, n "cdr1", ofList xs1⟩, ⟨false, n "car2", x2⟩, ⟨false, n "car1", x1⟩])
          (by simp [iter2Args])
        have hE4 := hE.merge (b := [⟨false, n "cdr2", ofList xs2⟩, ⟨false, n "cdr1", ofList xs1⟩, ⟨false, n "car2", x2⟩,
          ⟨false, n "car1", x1⟩]) (by simp [iter2Args])
        have hE5 := hE.merge (b := [⟨false, n "rslt", y⟩, ⟨false, n "cdr2", ofList xs2⟩, ⟨false, n "cdr1", ofList xs1⟩,
          ⟨false, n "car2", x2⟩, ⟨false, n "car1", x1⟩]) (by simp [iter2Args])
        have u1 := hE1.uses (hI _ h) (by decide)
        have u2 := hE2.uses (hI _ h) (by decide)
        have u3 := hE3.uses (hI _ h) (by decide)
        have u4 := hE4.uses (hI _ h) (by decide)
        have hc := hF _ (n "fun") (S "car1") (S "car2") x1 x2 st st st y st1 hE4 (getEnv_merge_skip hsE rfl hG)
          (ok_sym (by res)) (ok_sym (by res)) h hx
        have u5 := hE5.uses (hI _ hc.2) (by decide)
        have hmem := hy y (by simp)
        have key : progV sem (envVal (mergeEnv E [⟨false, n "rslt", y⟩, ⟨false, n "cdr2", ofList xs2⟩,
            ⟨false, n "cdr1", ofList xs1⟩, ⟨false, n "car2", x2⟩, ⟨false, n "car1", x1⟩]))
            (L [L [S "if", L [S "and", S "cdr1", S "cdr2"], L [S "iter2", S "fun", S "cdr1", S "cdr2"], S "rslt"]]) nil st1 =
              .ok (lastOf (y :: zs), st2) ∧ I st2 := by
          by_cases hz : xs1.zip xs2 = []
          · rw [hz] at hd
            cases hd
            refine ⟨ok_prog1.trans (ok_if_else (by res) (ok_two (op := .and) (by res) (ok_sym (by res)) (ok_sym (by res)) rfl ?_)
              (ok_sym (by res))), hc.2⟩
            cases xs1 with
            | nil => rfl
            | cons a xs1 =>
              cases xs2 with
              | nil => rfl
              | cons b xs2 => simp at hz
          · cases xs1 with
            | nil => simp at hz
            | cons a xs1 =>
            cases xs2 with
            | nil => simp at hz
            | cons b xs2 =>
            rw [lastOf_cons (mapM_ne_nil (by rw [List.zip_cons_cons] at hd; exact hd))]
            have hin := ih hE5 hd1.tail hd2.tail hc.2 hd (fun z hz => hy z (by simp [hz]))
            refine ⟨ok_prog1.trans (ok_if_then (a := tru) (by res) (by ev) rfl ?_), hin.2⟩
            exact ok_call (d := []) (as := [S "fun", S "lst1", S "lst2"]) (vs := [S "fun", S "cdr1", S "cdr2"])
              (xs := [F, ofList (a :: xs1), ofList (b :: xs2)]) (by res) rfl rfl
              (okSeq_cons (ok_sym (by res)) (okSeq_cons (ok_sym (by res)) (okSeq_cons (ok_sym (by res)) okSeq_nil)))
              (loop_done hin.1 (lastOf_tail fun z hz => hy z (by simp [hz])))
        refine ⟨ok_prog1.trans (ok_if_then (a := tru) (by res) (by ev) rfl ?_), key.2⟩
        refine ok_let_env (b := [⟨false, n "rslt", y⟩, ⟨false, n "cdr2", ofList xs2⟩, ⟨false, n "cdr1", ofList xs1⟩,
            ⟨false, n "car2", x2⟩, ⟨false, n "car1", x1⟩]) (by res)
          (okBind_cons (st1 := st) (a := x1) (show sem (envVal E) _ _ = _ by ev) (letMark_of_not_func _ _ _ (hd1.1 _ (by simp)))
          (okBind_cons (st1 := st) (a := x2) (by ev) (letMark_of_not_func _ _ _ (hd2.1 _ (by simp)))
          (okBind_cons (st1 := st) (a := ofList xs1) (by ev) (letMark_of_not_func _ _ _ (hd1.2 _ (List.suffix_cons _ _)))
          (okBind_cons (st1 := st) (a := ofList xs2) (by ev) (letMark_of_not_func _ _ _ (hd2.2 _ (List.suffix_cons _ _)))
          (okBind_cons hc.1 (letMark_of_not_func _ _ _ hmem.1) okBind_nil))))) key.1
      | _ => rw [hd] at hr; cases hr
    | _ => rw [hx] at hr; cases hr

/-- **C72.** `(iter2 F A B)` calls F on the elements of both lists in parallel, up to the end of the shorter one; the
value is the last result. No element, final part or result may have the shape of a function (see `iter`). -/
theorem C72_iter2 {l : List Entry} (hl : Sorted l) {I : St → Prop} {F : Val} {g : Val → Val → M Val} {e1 e2 e3 : Val}
    {xs1 xs2 ys : List Val} {st st1 st2 : St} (hI : ∀ st, I st → Uses iter2Uses l st)
    (hF : Acts2 (Near iter2Args l) I F g) (h0 : Uses iter2Uses l st) (h1 : I st1) (hd1 : Data xs1) (hd2 : Data xs2)
    (hargs : evalSeq sem (envVal l) [e1, e2, e3] st = .ok ([F, ofList xs1, ofList xs2], st1))
    (hr : (xs1.zip xs2).mapM (fun p => g p.1 p.2) st1 = .ok (ys, st2))
    (hy : ∀ y ∈ ys, y.isFunc = false ∧ y.isTailCall = false) :
    sem (envVal l) (L [S "iter2", e1, e2, e3]) st = .ok (ys.getLast?.getD nil, st2) ∧ I st2 := by
  have := iter2_body hI hF xs1 (Near.refl hl) hd1 hd2 h1 hr hy
  exact ⟨ok_call (d := []) (as := [S "fun", S "lst1", S "lst2"]) (vs := [e1, e2, e3]) (by res) rfl rfl hargs
    (loop_done this.1 (lastOf_tail hy)), this.2⟩

/-! ## `insert` and `merge` -/

/-- The definitions that `insert` relies on. -/
def insertUses : List (Sym × Val) :=
  [(n "insert", insertV), (n "if", Native.if_.val), (n "nil?", Native.isnil.val), (n "list", Native.list.val),
   (n "let", Native.let_.val), (n "car", Native.car.val), (n "cdr", Native.cdr.val), (n "cons", Native.cons.val)]

/-- The names bound by `insert`. -/
def insertArgs : List Sym := [n "cmp", n "a", n "lst", n "cur", n "nxt"]

theorem insert_body {l : List Entry} {st : St} (hu : Uses insertUses l st) {F a : Val} {g : Val → Val → M Val}
    (hF : Acts2 (Near insertArgs l) (fun s => s = st) F g) {lt : Val → Val → Bool} (xs : List Val) :
    ∀ {l' : List Entry}, Near insertArgs l l' → Data xs →
      (∀ x ∈ xs, ∃ b, g a x st = .ok (b, st) ∧ b.isNil = !lt a x) →
      progV sem (envVal (mergeEnv l' [⟨false, n "lst", ofList xs⟩, ⟨false, n "a", a⟩, ⟨false, n "cmp", F⟩]))
        insertV.cdr.cdr nil st = .ok (ofList (place lt a xs), st) := by
  induction xs with
  | nil =>
    intro l' hl _ _
    have hs := hl.sorted
    have u := (hl.merge (b := [⟨false, n "lst", ofList []⟩, ⟨false, n "a", a⟩, ⟨false, n "cmp", F⟩])
      (by simp [insertArgs])).uses hu (by decide)
    exact ok_prog1.trans (ok_if_then (by res) (by ev) rfl (ok_list (by res) (ok_list_cons ok_list_nil (ok_sym (by res)))))
  | cons x xs ih =>
    intro l' hl hd hg
    have hs := hl.sorted
    have hE := hl.merge (b := [⟨false, n "lst", ofList (x :: xs)⟩, ⟨false, n "a", a⟩, ⟨false, n "cmp", F⟩])
      (by simp [insertArgs])
    have hL : getEnv (mergeEnv l' [⟨false, n "lst", ofList (x :: xs)⟩, ⟨false, n "a", a⟩, ⟨false, n "cmp", F⟩])
      (n "lst") = some (ofList (x :: xs)) := getEnv_merge_in hs rfl
    have hA : getEnv (mergeEnv l' [⟨false, n "lst", ofList (x :: xs)⟩, ⟨false, n "a", a⟩, ⟨false, n "cmp", F⟩])
      (n "a") = some a := getEnv_merge_in hs rfl
    have hG : getEnv (mergeEnv l' [⟨false, n "lst", ofList (x :: xs)⟩, ⟨false, n "a", a⟩, ⟨false, n "cmp", F⟩])
      (n "cmp") = some F := getEnv_merge_in hs rfl
    generalize mergeEnv l' [⟨false, n "lst", ofList (x :: xs)⟩, ⟨false, n "a", a⟩, ⟨false, n "cmp", F⟩] = E
      at hE hL hA hG ⊢
    have hsE := hE.sorted
    have u := hE.uses hu (by decide)
    have hE1 := hE.merge (b := [⟨false, n "cur", x⟩]) (by simp [insertArgs])
    have hE2 := hE.merge (b := [⟨false, n "nxt", ofList xs⟩, ⟨false, n "cur", x⟩]) (by simp [insertArgs])
    have u1 := hE1.uses hu (by decide)
    have u2 := hE2.uses hu (by decide)
    obtain ⟨b, hb, hbn⟩ := hg x (by simp)
    have hc := (hF _ (n "cmp") (S "a") (S "cur") a x st st st b st hE2 (getEnv_merge_skip hsE rfl hG)
      (ok_sym (by res)) (ok_sym (by res)) rfl hb).1
    refine ok_prog1.trans (ok_if_else (by res) (by ev) ?_)
    refine ok_let_env (b := [⟨false, n "nxt", ofList xs⟩, ⟨false, n "cur", x⟩]) (by res)
      (okBind_cons (st1 := st) (a := x) (show sem (envVal E) _ _ = _ by ev) (letMark_of_not_func _ _ _ (hd.1 _ (by simp)))
      (okBind_cons (st1 := st) (a := ofList xs) (by ev) (letMark_of_not_func _ _ _ (hd.2 _ (List.suffix_cons _ _))) okBind_nil))
      (ok_prog1.trans ?_)
    cases hlt : lt a x with
    | true =>
      rw [place, if_pos hlt]
      exact ok_if_then (by res) hc (by rw [hbn, hlt]; rfl) (by ev)
    | false =>
      rw [place, if_neg (by simp [hlt])]
      have hbnil : b = nil := by
        rw [hlt] at hbn
        cases b <;> first | rfl | simp [isNil] at hbn
      subst hbnil
      refine ok_if_else (by res) hc (ok_two (op := .cons) (a := x) (b := ofList (place lt a xs)) (by res) (by ev) ?_ rfl rfl)
      exact ok_call (d := []) (as := [S "cmp", S "a", S "lst"]) (vs := [S "cmp", S "a", S "nxt"]) (xs := [F, a, ofList xs])
        (by res) rfl rfl
        (okSeq_cons (ok_sym (by res)) (okSeq_cons (ok_sym (by res)) (okSeq_cons (ok_sym (by res)) okSeq_nil)))
        (loop_done (ih hE2 hd.tail fun y hy => hg y (by simp [hy])) (tail_ofList _))

/-- **C72.** `(insert CMP A LST)`, where CMP compares A with the elements of LST without changing the state: A is put
before the first element that it is less than, hence behind the elements of its rank; in a list in order, the result is in order. -/
theorem C72_insert {l : List Entry} (hl : Sorted l) {F a : Val} {xs : List Val} {e1 e2 e3 : Val} {st st1 : St}
    {g : Val → Val → M Val} {lt : Val → Val → Bool} (h0 : Uses insertUses l st) (h1 : Uses insertUses l st1)
    (hF : Acts2 (Near insertArgs l) (fun s => s = st1) F g) (hd : Data xs)
    (hg : ∀ x ∈ xs, ∃ b, g a x st1 = .ok (b, st1) ∧ b.isNil = !lt a x)
    (hargs : evalSeq sem (envVal l) [e1, e2, e3] st = .ok ([F, a, ofList xs], st1)) :
    ∃ p s, xs = p ++ s ∧ (∀ x ∈ p, lt a x = false) ∧ (∀ x, s.head? = some x → lt a x = true) ∧
      sem (envVal l) (L [S "insert", e1, e2, e3]) st = .ok (ofList (p ++ a :: s), st1) ∧
      (WeakOrder lt → InOrder lt xs → InOrder lt (p ++ a :: s)) := by
  have hc := ok_call (d := []) (as := [S "cmp", S "a", S "lst"]) (vs := [e1, e2, e3]) (s := n "insert")
    (by res) rfl rfl hargs (loop_done (insert_body h1 hF xs (Near.refl hl) hd hg) (tail_ofList _))
  have hp : ∀ xs : List Val, ∃ p s, xs = p ++ s ∧ (∀ x ∈ p, lt a x = false) ∧ (∀ x, s.head? = some x → lt a x = true) ∧
      place lt a xs = p ++ a :: s := by
    intro xs
    induction xs with
    | nil => exact ⟨[], [], rfl, by simp, by simp, rfl⟩
    | cons x xs ih =>
      cases hx : lt a x with
      | true => exact ⟨[], x :: xs, rfl, by simp, by simp [hx], by simp [place, hx]⟩
      | false =>
        obtain ⟨p, s, h1, h2, h3, h4⟩ := ih
        refine ⟨x :: p, s, by simp [h1], ?_, h3, by simp [place, hx, h4]⟩
        intro y hy
        rcases List.mem_cons.1 hy with rfl | hy
        · exact hx
        · exact h2 y hy
  obtain ⟨p, s, h2, h3, h4, h5⟩ := hp xs
  exact ⟨p, s, h2, h3, h4, h5 ▸ hc, fun hw ho => h5 ▸ place_inOrder hw a xs ho⟩

/-- The definitions that `merge` relies on. -/
def mergeUses : List (Sym × Val) := (n "merge", mergeV) :: (n "\\", Native.lambda.val) :: foldlUses

/-- The names bound by `merge`. -/
def mergeArgs : List Sym := [n "ded", n "ins", n "lstA", n "lstB", n "e"] ++ foldArgs

/-- **C72.** `(merge DED INS A B)` inserts the elements of A, from the first to the last, into B with INS, and applies DED
to the result. The results of INS and DED must not be raw tail call records. -/
theorem C72_merge {l : List Entry} (hl : Sorted l) {I : St → Prop} {D F wa wb v w : Val} {gd : Val → M Val}
    {gi : Val → Val → M Val} {e1 e2 e3 e4 : Val} {st st1 st2 st3 : St} (hI : ∀ st, I st → Uses mergeUses l st)
    (hD : Acts1 (Near mergeArgs l) I D gd) (hF : Acts2 (Near mergeArgs l) I F gi) (h0 : Uses mergeUses l st) (h1 : I st1)
    (hargs : evalSeq sem (envVal l) [e1, e2, e3, e4] st = .ok ([D, F, wa, wb], st1))
    (hi : ∀ x y st v st', gi x y st = .ok (v, st') → v.isTailCall = false) (hb : wb.isTailCall = false)
    (hr : (elems wa).foldlM (fun acc e => gi e acc) wb st1 = .ok (v, st2)) (hd : gd v st2 = .ok (w, st3))
    (hw : w.isTailCall = false) :
    sem (envVal l) (L [S "merge", e1, e2, e3, e4]) st = .ok (w, st3) ∧ I st3 := by
  have hE : Near mergeArgs l (mergeEnv l [⟨false, n "lstB", wb⟩, ⟨false, n "lstA", wa⟩, ⟨false, n "ins", F⟩,
    ⟨false, n "ded", D⟩]) := (Near.refl hl).merge (by simp [mergeArgs])
  have gD : getEnv (mergeEnv l [⟨false, n "lstB", wb⟩, ⟨false, n "lstA", wa⟩, ⟨false, n "ins", F⟩,
    ⟨false, n "ded", D⟩]) (n "ded") = some D := getEnv_merge_in hl rfl
  have gF : getEnv (mergeEnv l [⟨false, n "lstB", wb⟩, ⟨false, n "lstA", wa⟩, ⟨false, n "ins", F⟩,
    ⟨false, n "ded", D⟩]) (n "ins") = some F := getEnv_merge_in hl rfl
  have gA : getEnv (mergeEnv l [⟨false, n "lstB", wb⟩, ⟨false, n "lstA", wa⟩, ⟨false, n "ins", F⟩,
    ⟨false, n "ded", D⟩]) (n "lstA") = some wa := getEnv_merge_in hl rfl
  have gB : getEnv (mergeEnv l [⟨false, n "lstB", wb⟩, ⟨false, n "lstA", wa⟩, ⟨false, n "ins", F⟩,
    ⟨false, n "ded", D⟩]) (n "lstB") = some wb := getEnv_merge_in hl rfl
  suffices hs : progV sem (envVal (mergeEnv l [⟨false, n "lstB", wb⟩, ⟨false, n "lstA", wa⟩, ⟨false, n "ins", F⟩,
      ⟨false, n "ded", D⟩])) mergeV.cdr.cdr nil st1 = .ok (w, st3) ∧ I st3 from
    ⟨ok_call (d := []) (as := [S "ded", S "ins", S "lstA", S "lstB"]) (vs := [e1, e2, e3, e4]) (by res) rfl rfl hargs
      (loop_done hs.1 hw), hs.2⟩
  generalize mergeEnv l [⟨false, n "lstB", wb⟩, ⟨false, n "lstA", wa⟩, ⟨false, n "ins", F⟩, ⟨false, n "ded", D⟩] = E
    at hE gD gF gA gB ⊢
  have hs := hE.sorted
  have u := hE.uses (hI _ h1) (by decide)
  have uf : ∀ s, I s → Uses foldlUses E s := fun s h =>
    (hE.uses (hI s h) (by decide)).sub (fun p hp => by simp [mergeUses, hp])
  have hv : v.isTailCall = false := by
    have key : ∀ (xs : List Val) (b : Val) (s : St), b.isTailCall = false →
        xs.foldlM (fun acc e => gi e acc) b s = .ok (v, st2) → v.isTailCall = false := by
      intro xs
      induction xs with
      | nil => intro b s hb h; cases h; exact hb
      | cons x xs ih =>
        intro b s _ h
        rw [List.foldlM_cons, M.bind_apply] at h
        cases h3 : gi x b s with
        | ok p => rw [h3] at h; exact ih p.1 p.2 (hi x b s p.1 p.2 h3) h
        | _ => rw [h3] at h; cases h
    exact key _ _ _ hb hr
  have hfold := C49_foldl hs (I := I) (w := wa) (a := wb) (g := fun acc e => gi e acc) (st := st1) (st1 := st1) (st2 := st2) (v := v)
    (ef := L [S "\\", L [S "acc", S "e"], L [S "ins", S "e", S "acc"]]) (ea := S "lstB") (ew := S "lstA") uf
    (F := cons (L [S "acc", S "e"]) (cons (envVal E) (L [L [S "ins", S "e", S "acc"]])))
    (by
      refine acts2_lisp (p := S "acc") (q := S "e") rfl fun l' x y st v st' hP h hg => ?_
      have hl' : Near mergeArgs l l' := hE.trans (hP.mono (by simp [foldArgs, mergeArgs]))
      have hs' := hl'.sorted
      have hN := (hl'.capture hE).merge (b := [⟨false, n "e", y⟩, ⟨false, n "acc", x⟩]) (by simp [mergeArgs, foldArgs])
      have hc := hF _ (n "ins") (S "e") (S "acc") y x st st st v st' hN
        (getEnv_merge_skip (sorted_mergeEnv _ hs') rfl (getEnv_merge_cap hs' hs gF)) (ok_sym (by res)) (ok_sym (by res)) h hg
      exact ⟨ok_prog1.trans hc.1, hi _ _ _ _ _ hg, hc.2⟩)
    (uf _ h1) h1
    (okSeq_cons (ok_lambda (by res)) (okSeq_cons (ok_sym (resolves_local gB)) (okSeq_cons (ok_sym (resolves_local gA)) okSeq_nil)))
    hr hv
  have hc := hD _ (n "ded") _ v st1 st2 w st3 hE gD hfold.1 hfold.2 hd
  exact ⟨ok_prog1.trans hc.1, hc.2⟩

/-! ## `flatten` -/

/-- The definitions that `flatten` relies on. -/
def flattenUses : List (Sym × Val) :=
  [(n "flatten", flattenV), (n "and", Native.and.val), (n "\\", Native.lambda.val), (n "conc", Native.conc.val),
   (n "list", Native.list.val)] ++ foldrUses

/-- The names bound by `flatten`. -/
def flattenArgs : List Sym := [n "fun", n "lst", n "acc"]

/-- The atoms of a value from left to right. The NIL that ends a list is not counted, any other NIL is. -/
def leaves : Val → List Val
  | pair _ a d => leaves a ++ if d.isNil then [] else leaves d
  | v => [v]

theorem leaves_elems (t : Bool) (a d : Val) : leaves (pair t a d) = (elems (pair t a d)).flatMap leaves := by
  induction d generalizing t a with
  | pair t' a' d' _ ih =>
    rw [leaves, ih t' a', elems, List.flatMap_cons]
    rfl
  | _ => simp [leaves, elems, isNil]

open Classical in
/-- One step of the fold of `flatten`, for the elements of `w`. -/
noncomputable def flattenStep (w x y : Val) : M Val :=
  need (decide (x ∈ elems w ∧ y = ofList (elems y))) (pure (ofList (leaves x ++ elems y)))

theorem flatten_fold (w : Val) (xs : List Val) (h : ∀ x ∈ xs, x ∈ elems w) (st : St) :
    xs.foldrM (flattenStep w) nil st = .ok (ofList (xs.flatMap leaves), st) := by
  induction xs with
  | nil => rfl
  | cons x xs ih =>
    rw [List.foldrM_cons, M.bind_congr_ok (ih fun y hy => h y (by simp [hy]))]
    unfold flattenStep need
    rw [elems_ofList, if_pos (decide_eq_true ⟨h x (by simp), rfl⟩)]
    rfl

theorem elems_size {w x : Val} (hp : w.isPair = true) (h : x ∈ elems w) : sizeOf x < sizeOf w := by
  induction w with
  | pair t a d _ ih =>
    rcases List.mem_cons.1 h with rfl | h
    · simp; omega
    · cases d with
      | pair t' a' d' =>
        have := ih rfl h
        simp only [pair.sizeOf_spec] at this ⊢
        omega
      | nil => simp [elems] at h
      | _ =>
        simp only [elems, List.mem_singleton] at h
        subst h
        simp only [pair.sizeOf_spec]
        omega
  | _ => simp [isPair] at hp

theorem flatten_body {l : List Entry} {st : St} (hu : Uses flattenUses l st) (k : Nat) :
    ∀ {w : Val} {l' : List Entry}, sizeOf w ≤ k → Near flattenArgs l l' →
      progV sem (envVal (mergeEnv l' [⟨false, n "lst", w⟩])) flattenV.cdr.cdr nil st = .ok (ofList (leaves w), st) := by
  induction k with
  | zero => intro w l' hk _; cases w <;> simp at hk
  | succ k ih =>
    intro w l' hk hl
    have hs := hl.sorted
    have hE := hl.merge (b := [⟨false, n "lst", w⟩]) (by simp [flattenArgs])
    have hL : getEnv (mergeEnv l' [⟨false, n "lst", w⟩]) (n "lst") = some w := getEnv_merge_in hs rfl
    generalize mergeEnv l' [⟨false, n "lst", w⟩] = E at hE hL ⊢
    have hsE := hE.sorted
    have u := hE.uses hu (by decide)
    have hand : sem (envVal E) (L [S "and", S "lst", L [S "lst?", S "lst"]]) st = .ok (ofBool w.isPair, st) :=
      ok_two (op := .and) (by res) (ok_sym (resolves_local hL)) (ok_one (op := .islst) (by res) (ok_sym (resolves_local hL)) rfl
        (by decide) rfl) rfl (by cases w <;> rfl)
    have atom : w.isPair = false → leaves w = [w] →
        progV sem (envVal E) flattenV.cdr.cdr nil st = .ok (ofList (leaves w), st) := fun h1 h2 => by
      rw [h1] at hand
      rw [h2]
      exact ok_prog1.trans (ok_if_else (by res) hand (ok_list (by res) (ok_list_cons ok_list_nil (ok_sym (resolves_local hL)))))
    cases w with
    | pair t a d =>
      refine ok_prog1.trans (ok_if_then (by res) hand rfl ?_)
      have uf := u.sub (T' := foldrUses) (fun p hp => by simp [flattenUses, hp])
      rw [leaves_elems]
      refine (C49_foldr (I := fun s => s = st) (st1 := st) (w := pair t a d) (a := nil) (g := flattenStep (pair t a d)) hsE
        (fun s h => by rw [h]; exact uf) ?_ uf rfl
        (okSeq_cons (ok_lambda (by res)) (okSeq_cons (ok_sym (resolves_local hL)) (okSeq_cons ok_nil okSeq_nil)))
        (flatten_fold _ _ (fun x h => h) st) ?_ rfl).1
      · refine acts2_lisp (p := S "lst") (q := S "acc") rfl fun m x y st' v st'' hP hI hg => ?_
        cases hI
        obtain ⟨hc, hv⟩ := need_ok hg
        cases hv
        obtain ⟨hx, hy⟩ := of_decide_eq_true hc
        refine ⟨?_, tail_ofList _, rfl⟩
        have hm : Near flattenArgs l m := hE.trans (hP.mono (by simp [foldArgs, flattenArgs]))
        have hsm := hm.sorted
        have hN := (hm.capture hE).merge (b := [⟨false, n "acc", y⟩, ⟨false, n "lst", x⟩]) (by simp [flattenArgs])
        have u' := hN.uses hu (by decide)
        refine ok_prog1.trans (ok_two (op := .conc) (a := ofList (leaves x)) (by res) ?_ (ok_sym (by res)) rfl ?_)
        · exact ok_call (d := []) (as := [S "lst"]) (vs := [S "lst"]) (xs := [x]) (by res) rfl rfl
            (okSeq_cons (ok_sym (by res)) okSeq_nil)
            (loop_done (ih (by have := elems_size rfl hx; omega) hN) (tail_ofList _))
        · rw [hy, elems_ofList]
          show Res.ok (conc _ _) = _
          rw [conc_ofList, ofList_eq_foldr, ofList_eq_foldr, List.foldr_append]
      · intro x _ y st' v st'' _ hg
        obtain ⟨-, hv⟩ := need_ok hg
        cases hv
        exact tail_ofList _
    | _ => exact atom rfl rfl

/-- **C72.** `(flatten W)` is the list of the atoms of W from left to right. A NIL that is an element of a list is an atom
of its own, and `(flatten NIL)` is `(NIL)`. -/
theorem C72_flatten {l : List Entry} (hl : Sorted l) {e w : Val} {st st1 : St} (h0 : Uses flattenUses l st)
    (h1 : Uses flattenUses l st1) (he : sem (envVal l) e st = .ok (w, st1)) :
    sem (envVal l) (L [S "flatten", e]) st = .ok (ofList (leaves w), st1) :=
  ok_call (d := []) (as := [S "lst"]) (vs := [e]) (by res) rfl rfl (okSeq_cons he okSeq_nil)
    (loop_done (flatten_body h1 _ (Nat.le_refl _) (Near.refl hl)) (tail_ofList _))

/-! ## `append`, `$+` and `join` -/

/-- A call of a function that takes one argument and the rest of the values unevaluated. -/
theorem ok_call_rest {l d : List Entry} {s r p : Sym} {e x body v : Val} {es : List Val} {st st1 st2 : St}
    (h : Resolves (envVal l) st s (cons (cons (ofSym p) (ofSym r)) (cons (envVal d) body))) (hb : body.isPair = true)
    (hx : sem (envVal l) e st = .ok (x, st1))
    (hr : loopSem (ofSym s) body (envVal (mergeEnv l d)) (envVal [⟨false, r, ofList es⟩, ⟨false, p, x⟩]) st1 =
      .ok (v, st2)) :
    sem (envVal l) (cons (ofSym s) (ofList (e :: es))) st = .ok (v, st2) := by
  have hd : (envVal d).isList = true := by cases d <;> rfl
  have hf : isFunc (cons (cons (ofSym p) (ofSym r)) (cons (envVal d) body)) = true := by
    have ha : (cons (ofSym p) (ofSym r)).isList = true := rfl
    simp only [isFunc, ha, hd, hb, Bool.true_or, Bool.and_true]
  refine (sem_call h hf).trans ?_
  have hm : mayApply (cons (ofSym p) (ofSym r)) (ofList (e :: es)) = true := by
    cases es <;> rfl
  have he : evalArgs sem (envVal l) (cons (ofSym p) (ofSym r)) nil (ofList (e :: es)) = _ :=
    C21_catch_all (envVal l) [ofSym p] [e] r (ofList es) rfl
  cases body with
  | pair tc b d' =>
    simp only [semFunc, car, cdr, hm, he, M.bind_assoc, M.pure_bind, Bool.not_true, Bool.false_eq_true, if_false, isNil,
      isTailCall, if_true]
    rw [M.bind_congr_ok (okSeq_cons hx okSeq_nil), merge_envVal, M.lift_ok, M.pure_bind]
    exact hr
  | _ => simp [isPair] at hb

/-- The definitions that `append` relies on. -/
def appendUses : List (Sym × Val) :=
  [(n "append", appendV), (n "\\", Native.lambda.val), (n "eval", Native.eval.val), (n "cons", Native.cons.val),
   (n "foldl", foldlV)] ++ foldrUses

/-- The environments in which `append` evaluates the expressions for its second and further strings: they have the
variables of the caller, except for the names `x`, `@`, `acc0` and `e0`, and except for `fun`, `acc` and `lst` where the
caller has no variables of these names. -/
structure Sees (l E : List Entry) : Prop where
  sorted : Sorted E
  same : ∀ s, s ∉ [n "x", n "@", n "acc0", n "e0"] → (s ∉ foldArgs ∨ getEnv l s ≠ none) → getEnv E s = getEnv l s

/-- The names bound by `append`. -/
def appendArgs : List Sym := [n "x", n "@", n "acc0", n "e0", n "e1", n "acc1"] ++ foldArgs

open Classical in
/-- One step of the fold of `append`. -/
noncomputable def appendStep (l : List Entry) (es : List Val) (acc e : Val) : M Val :=
  need (decide (acc = ofList (elems acc) ∧ e ∈ es)) (do
    let w ← sem (envVal l) e
    pure (ofList (elems acc ++ elems w)))

theorem append_fold {l : List Entry} {st : St} {es : List Val} (ps : List (Val × List Val)) (hes : ∀ p ∈ ps, p.1 ∈ es)
    (h : ∀ p ∈ ps, sem (envVal l) p.1 st = .ok (ofList p.2, st)) (acc : List Val) :
    (ps.map Prod.fst).foldlM (appendStep l es) (ofList acc) st = .ok (ofList (acc ++ ps.flatMap Prod.snd), st) := by
  induction ps generalizing acc with
  | nil => simp
  | cons p ps ih =>
    have e : appendStep l es (ofList acc) p.1 st = .ok (ofList (acc ++ p.2), st) := by
      unfold appendStep need
      rw [elems_ofList, if_pos (decide_eq_true ⟨rfl, hes p (by simp)⟩), M.bind_congr_ok (h p (by simp)), elems_ofList]
      rfl
    rw [List.map_cons, List.foldlM_cons, M.bind_congr_ok e, ih (fun q hq => hes q (by simp [hq])) (fun q hq => h q (by simp [hq]))]
    simp

/-- **C72.** `(append E0 E1 … En)` is the concatenation of the lists that the expressions stand for, provided that the value
of each further expression does not depend on the variables of `append` (see `Sees`) and that it has no effect. -/
theorem C72_append {l : List Entry} (hl : Sorted l) {e : Val} {xs : List Val} {ps : List (Val × List Val)} {st st1 : St}
    (h0 : Uses appendUses l st) (h1 : Uses appendUses l st1) (he : sem (envVal l) e st = .ok (ofList xs, st1))
    (hps : ∀ p ∈ ps, ∀ E, Sees l E → sem (envVal E) p.1 st1 = .ok (ofList p.2, st1)) :
    sem (envVal l) (L (S "append" :: e :: ps.map Prod.fst)) st = .ok (ofList (xs ++ ps.flatMap Prod.snd), st1) := by
  refine ok_call_rest (d := []) (p := n "x") (r := n "@") (es := ps.map Prod.fst) (by res) rfl he
    (loop_done (ok_prog1.trans ?_) (tail_ofList _))
  have hE : Near appendArgs l (mergeEnv l [⟨false, n "@", ofList (ps.map Prod.fst)⟩, ⟨false, n "x", ofList xs⟩]) :=
    (Near.refl hl).merge (by simp [appendArgs])
  have hE2 : Near [n "@", n "x"] l (mergeEnv l [⟨false, n "@", ofList (ps.map Prod.fst)⟩, ⟨false, n "x", ofList xs⟩]) :=
    (Near.refl hl).merge (by simp)
  have gA : getEnv (mergeEnv l [⟨false, n "@", ofList (ps.map Prod.fst)⟩, ⟨false, n "x", ofList xs⟩]) (n "@") =
    some (ofList (ps.map Prod.fst)) := getEnv_merge_in hl rfl
  have gX : getEnv (mergeEnv l [⟨false, n "@", ofList (ps.map Prod.fst)⟩, ⟨false, n "x", ofList xs⟩]) (n "x") =
    some (ofList xs) := getEnv_merge_in hl rfl
  change sem (envVal (mergeEnv l [⟨false, n "@", ofList (ps.map Prod.fst)⟩, ⟨false, n "x", ofList xs⟩])) _ st1 = _
  generalize mergeEnv l [⟨false, n "@", ofList (ps.map Prod.fst)⟩, ⟨false, n "x", ofList xs⟩] = E at hE hE2 gA gX ⊢
  have hs := hE.sorted
  have u := hE.uses h1 (by decide)
  have uf : Uses foldlUses E st1 := u.sub (by decide +kernel)
  refine (C49_foldl (I := fun s => s = st1) (st1 := st1) (w := ofList (ps.map Prod.fst)) (a := ofList xs)
    (g := appendStep l (ps.map Prod.fst)) hs (fun s h => by rw [h]; exact uf) ?_ uf rfl
    (okSeq_cons (ok_lambda (by res)) (okSeq_cons (ok_sym (resolves_local gX)) (okSeq_cons (ok_sym (resolves_local gA)) okSeq_nil)))
    ?_ (tail_ofList _)).1
  · refine acts2_lisp (p := S "acc0") (q := S "e0") rfl fun m x y st v st' hP hI hg => ?_
    cases hI
    obtain ⟨hc, hv⟩ := need_ok hg
    obtain ⟨hx, hy⟩ := of_decide_eq_true hc
    obtain ⟨p, hp, rfl⟩ := List.mem_map.1 hy
    have hsl : Sees l l := ⟨hl, fun _ _ _ => rfl⟩
    rw [M.bind_congr_ok (hps p hp l hsl), elems_ofList] at hv
    cases hv
    refine ⟨?_, tail_ofList _, rfl⟩
    have hm : Near appendArgs l m := hE.trans (hP.mono (by simp [foldArgs, appendArgs]))
    have hsm := hm.sorted
    have hN := (hm.capture hE).merge (b := [⟨false, n "e0", p.1⟩, ⟨false, n "acc0", x⟩]) (by simp [appendArgs])
    have hsee : Sees l (mergeEnv (mergeEnv m E) [⟨false, n "e0", p.1⟩, ⟨false, n "acc0", x⟩]) := by
      refine ⟨hN.sorted, fun s h1 h2 => ?_⟩
      simp only [List.mem_cons, List.not_mem_nil, or_false, not_or] at h1
      rw [getEnv_merge_out (sorted_mergeEnv _ hsm) (by simp [h1]), getEnv_mergeEnv _ hsm, getEnv_reverse hs,
        hE2.same s (by simp [h1])]
      cases hg : getEnv l s with
      | some v => rfl
      | none =>
        have h3 : s ∉ foldArgs := h2.resolve_right (by simp [hg])
        rw [hP.same s h3, hE2.same s (by simp [h1]), hg]
        rfl
    have u' := hN.uses h1 (by decide)
    have uf' := u'.sub (T' := foldrUses) (fun q hq => by simp [appendUses, hq])
    refine ok_prog1.trans ?_
    refine (C49_foldr (I := fun s => s = st1) (st1 := st1) (w := x) (a := ofList p.2) (g := fun e acc => pure (cons e acc))
      hN.sorted (fun s h => by rw [h]; exact uf') ?_ uf' rfl
      (okSeq_cons (ok_lambda (by res)) (okSeq_cons (ok_sym (by res)) (okSeq_cons
        (ok_eval (by res) (ok_sym (by res)) (hps p hp _ hsee)) okSeq_nil))) ?_ ?_ (tail_ofList _)).1
    · refine acts2_lisp (p := S "e1") (q := S "acc1") rfl fun m' x' y' st v st' hP' hI hg => ?_
      cases hI
      cases hg
      refine ⟨ok_prog1.trans ?_, rfl, rfl⟩
      have hsm' := hP'.sorted
      have hN' : Near appendArgs l (mergeEnv (mergeEnv m' (mergeEnv (mergeEnv m E) [⟨false, n "e0", p.1⟩, ⟨false, n "acc0", x⟩]))
          [⟨false, n "acc1", y'⟩, ⟨false, n "e1", x'⟩]) :=
        ((hN.trans (hP'.mono (by simp [foldArgs, appendArgs]))).capture hN).merge (by simp [appendArgs])
      have u'' := hN'.uses h1 (by decide)
      ev
    · rw [foldrM_pure]
      refine congrArg (fun v => Res.ok (v, st1)) ?_
      rw [ofList_eq_foldr, ofList_eq_foldr, List.foldr_append]
    · intro x _ y st v st' _ hg
      cases hg
      rfl
  · rw [elems_ofList]
    exact append_fold ps (fun p hp => List.mem_map.2 ⟨p, hp, rfl⟩) (fun p hp => hps p hp l ⟨hl, fun _ _ _ => rfl⟩) xs

/-- The definitions that `$+` relies on. -/
def strcatUses : List (Sym × Val) := (n "$+", strcatV) :: appendUses

/-- **C72.** `($+ A B)` is the concatenation of two lists. -/
theorem C72_strcat {l : List Entry} (hl : Sorted l) {e1 e2 : Val} {xs ys : List Val} {st st1 : St}
    (h0 : Uses strcatUses l st) (h1 : Uses strcatUses l st1)
    (hargs : evalSeq sem (envVal l) [e1, e2] st = .ok ([ofList xs, ofList ys], st1)) :
    sem (envVal l) (L [S "$+", e1, e2]) st = .ok (ofList (xs ++ ys), st1) := by
  refine ok_call (d := []) (as := [S "x", S "y"]) (vs := [e1, e2]) (by res) rfl rfl hargs
    (loop_done (ok_prog1.trans ?_) (tail_ofList _))
  have u : Uses strcatUses (mergeEnv l [⟨false, n "y", ofList ys⟩, ⟨false, n "x", ofList xs⟩]) st1 :=
    uses_merge [n "y", n "x"] h1 hl rfl (by decide)
  have ua := u.sub (T' := appendUses) (fun p hp => by simp [strcatUses, hp])
  have gY : getEnv (mergeEnv l [⟨false, n "y", ofList ys⟩, ⟨false, n "x", ofList xs⟩]) (n "y") = some (ofList ys) :=
    getEnv_merge_in hl rfl
  have := C72_append (sorted_mergeEnv _ hl) (e := S "x") (xs := xs) (ps := [(S "y", ys)]) ua ua (ok_sym (by res))
    (by
      intro p hp E hE
      rw [List.mem_singleton.1 hp]
      exact ok_sym (resolves_local ((hE.same (n "y") (by decide) (.inl (by decide))).trans gY)))
  refine this.trans ?_
  simp

/-- **C72.** Within `append`, a further argument that is the variable `x` of the caller stands for the first string:
`(let ((x . "b")) (append "a" x))` is "aa". -/
theorem C72_append_counterexample :
    runLib 40 (L [S "let", L [cons (S "x") (str "b")], L [S "append", str "a", S "x"]]) = .ok (str "aa") := by
  decide +kernel

/-- The definitions that `join` relies on. -/
def joinUses : List (Sym × Val) :=
  (n "join", joinV) :: (n "let", Native.let_.val) :: (n "rev", revV) :: (n "list", Native.list.val) :: appendUses

/-- The names bound by `join`. -/
def joinArgs : List Sym := [n "chr", n "rlst", n "e"] ++ foldArgs

theorem markTails_codes (f : Sym) (args : Val) (xs : List Int) : markTails f args (codes xs) = codes xs := by
  cases xs <;> simp [codes, ofList, markTails]

theorem markLast_codes (f : Sym) (args : Val) (ss : List (List Int)) :
    markLast f args (ofList (ss.map codes)) = ofList (ss.map codes) := by
  induction ss with
  | nil => simp [ofList, markLast]
  | cons s ss ih =>
    rw [List.map_cons, ofList, markLast]
    cases ss with
    | nil => simp [ofList, isPair, markTails_codes]
    | cons t ts => rw [ih]; simp [ofList, isPair]

/-- Binding a list of strings by `let` does not change it, even though a list of at least three strings has the shape of
a function. -/
theorem letMark_codes (l : List Entry) (f : Bool) (s : Sym) (ss : List (List Int)) :
    letMark (envVal l) (sym f s) (ofList (ss.map codes)) = .ok (ofList (ss.map codes)) := by
  match ss with
  | [] => rfl
  | [a] => rfl
  | [a, b] => exact letMark_of_not_func _ _ _ (by simp [ofList, isFunc, isPair, isNum])
  | a :: b :: d :: ss =>
    simp only [List.map_cons, ofList, letMark]
    split
    · rw [assq_envVal]
      cases getEnv l s with
      | some v => rfl
      | none =>
        have := markLast_codes s (codes a) (d :: ss)
        simp only [List.map_cons, ofList] at this
        show (do
          let body' ← Res.ok (markLast s (codes a) _)
          Res.ok (pair false (codes a) (pair false (codes b) body'))) = _
        rw [this]
        rfl
    · rfl

open Classical in
/-- One step of the fold of `join`. -/
noncomputable def joinStep (c : Int) (acc e : Val) : M Val :=
  need (decide (∃ a b, acc = codes a ∧ e = codes b)) (pure (ofList (elems e ++ chr c :: elems acc)))

open Classical in
theorem join_fold (c : Int) (ss : List (List Int)) (a : List Int) (st : St) :
    (ss.map codes).foldlM (joinStep c) (codes a) st = .ok (codes (ss.foldl (fun acc e => e ++ c :: acc) a), st) := by
  induction ss generalizing a with
  | nil => rfl
  | cons s ss ih =>
    have e : joinStep c (codes a) (codes s) st = .ok (codes (s ++ c :: a), st) := by
      unfold joinStep need
      rw [if_pos (decide_eq_true ⟨a, s, rfl, rfl⟩)]
      simp only [codes, elems_ofList, List.map_append, List.map_cons]
      rfl
    rw [List.map_cons, List.foldlM_cons, M.bind_congr_ok e, ih]
    rfl

theorem join_intercalate (c : Int) (ss : List (List Int)) (s : List Int) :
    (s :: ss).reverse.tail.foldl (fun acc e => e ++ c :: acc) ((s :: ss).reverse.head?.getD []) =
      List.intercalate [c] (s :: ss) := by
  have key : ∀ (ts : List (List Int)) (t : List Int),
      ts.foldl (fun acc e => e ++ c :: acc) t = List.intercalate [c] (ts.reverse ++ [t]) := by
    intro ts
    induction ts with
    | nil => intro t; simp [List.intercalate]
    | cons u us ih =>
      intro t
      rw [List.foldl_cons, ih]
      have h2 : ∀ (vs : List (List Int)) (a b : List Int),
          List.intercalate [c] (vs ++ [a ++ c :: b]) = List.intercalate [c] (vs ++ [a, b]) := by
        intro vs a b
        induction vs with
        | nil => simp [List.intercalate, List.intersperse]
        | cons v vs ih =>
          cases vs with
          | nil => simp [List.intercalate, List.intersperse]
          | cons w vs =>
            simp only [List.intercalate, List.cons_append, List.intersperse, List.flatten_cons] at ih ⊢
            rw [ih]
      rw [h2]
      simp
  cases h : (s :: ss).reverse with
  | nil => simp at h
  | cons t ts =>
    have : s :: ss = ts.reverse ++ [t] := by
      rw [← List.reverse_reverse (s :: ss), h]; simp
    rw [this]
    exact key ts t

open Classical in
/-- **C72.** `(join LST C)` is the concatenation of the strings of LST with the character C between any two of them. -/
theorem C72_join {l : List Entry} (hl : Sorted l) {e1 e2 : Val} {ss : List (List Int)} {c : Int} {st st1 : St}
    (h0 : Uses joinUses l st) (h1 : Uses joinUses l st1)
    (hargs : evalSeq sem (envVal l) [e1, e2] st = .ok ([ofList (ss.map codes), chr c], st1)) :
    sem (envVal l) (L [S "join", e1, e2]) st = .ok (codes (List.intercalate [c] ss), st1) := by
  refine ok_call (d := []) (as := [S "lst", S "chr"]) (vs := [e1, e2]) (by res) rfl rfl hargs
    (loop_done (ok_prog1.trans ?_) (tail_ofList _))
  have hE : Near joinArgs l (mergeEnv l [⟨false, n "chr", chr c⟩, ⟨false, n "lst", ofList (ss.map codes)⟩]) :=
    (Near.refl hl).merge (by simp [joinArgs, foldArgs])
  have gL : getEnv (mergeEnv l [⟨false, n "chr", chr c⟩, ⟨false, n "lst", ofList (ss.map codes)⟩]) (n "lst") =
    some (ofList (ss.map codes)) := getEnv_merge_in hl rfl
  have gC : getEnv (mergeEnv l [⟨false, n "chr", chr c⟩, ⟨false, n "lst", ofList (ss.map codes)⟩]) (n "chr") =
    some (chr c) := getEnv_merge_in hl rfl
  change sem (envVal (mergeEnv l [⟨false, n "chr", chr c⟩, ⟨false, n "lst", ofList (ss.map codes)⟩])) _ st1 = _
  generalize mergeEnv l [⟨false, n "chr", chr c⟩, ⟨false, n "lst", ofList (ss.map codes)⟩] = E0 at hE gL gC ⊢
  have hs0 := hE.sorted
  have u0 := hE.uses h1 (by decide)
  have ur : Uses revUses E0 st1 := u0.sub (by decide +kernel)
  have hrev : ofList (elems (ofList (ss.map codes))).reverse = ofList (ss.reverse.map codes) := by
    rw [elems_ofList, List.map_reverse]
  have hE1 := hE.merge (b := [⟨false, n "rlst", ofList (ss.reverse.map codes)⟩]) (by simp [joinArgs])
  have gR : getEnv (mergeEnv E0 [⟨false, n "rlst", ofList (ss.reverse.map codes)⟩]) (n "rlst") =
    some (ofList (ss.reverse.map codes)) := getEnv_merge_in hs0 rfl
  have gC1 : getEnv (mergeEnv E0 [⟨false, n "rlst", ofList (ss.reverse.map codes)⟩]) (n "chr") = some (chr c) :=
    getEnv_merge_skip hs0 rfl gC
  refine ok_let_env (b := [⟨false, n "rlst", ofList (ss.reverse.map codes)⟩]) (st1 := st1) (by res)
    (okBind_cons (st1 := st1) (a := ofList (ss.reverse.map codes)) (show sem (envVal E0) _ _ = _ from
      (C50_rev hs0 ur ur (ok_sym (resolves_local gL))).trans (by rw [hrev])) (letMark_codes _ _ _ _) okBind_nil) (ok_prog1.trans ?_)
  generalize mergeEnv E0 [⟨false, n "rlst", ofList (ss.reverse.map codes)⟩] = E at hE1 gR gC1 ⊢
  have hs := hE1.sorted
  have u := hE1.uses h1 (by decide)
  have uf : Uses foldlUses E st1 := u.sub (by decide +kernel)
  have hcar : (ofList (ss.reverse.map codes)).car = codes (ss.reverse.head?.getD []) := by
    cases ss.reverse <;> rfl
  have hcdr : (ofList (ss.reverse.map codes)).cdr = ofList (ss.reverse.tail.map codes) := by
    cases ss.reverse <;> rfl
  have hgoal : codes (List.intercalate [c] ss) =
      codes (ss.reverse.tail.foldl (fun acc e => e ++ c :: acc) (ss.reverse.head?.getD [])) := by
    cases ss with
    | nil => rfl
    | cons s ss => rw [join_intercalate]
  rw [hgoal]
  refine (C49_foldl (I := fun s => s = st1) (st1 := st1) (w := ofList (ss.reverse.tail.map codes))
    (a := codes (ss.reverse.head?.getD [])) (g := joinStep c) hs (fun s h => by rw [h]; exact uf) ?_ uf rfl
    (okSeq_cons (ok_lambda (by res)) (okSeq_cons (ok_one (op := .car) (by res) (ok_sym (resolves_local gR)) rfl (by decide)
        (by rw [← hcar]; rfl))
      (okSeq_cons (ok_one (op := .cdr) (by res) (ok_sym (resolves_local gR)) rfl (by decide) (by rw [← hcdr]; rfl)) okSeq_nil)))
    ?_ (tail_ofList _)).1
  · refine acts2_lisp (p := S "acc") (q := S "e") rfl fun m x y st v st' hP hI hg => ?_
    cases hI
    obtain ⟨hc, hv⟩ := need_ok hg
    cases hv
    obtain ⟨a, b, rfl, rfl⟩ := of_decide_eq_true hc
    refine ⟨?_, tail_ofList _, rfl⟩
    have hm : Near joinArgs l m := hE1.trans (hP.mono fun s hs => by simp [joinArgs, hs])
    have hsm := hm.sorted
    have hN := (hm.capture hE1).merge (b := [⟨false, n "e", codes b⟩, ⟨false, n "acc", codes a⟩]) (by simp [joinArgs, foldArgs])
    have gA : getEnv (mergeEnv (mergeEnv m E) [⟨false, n "e", codes b⟩, ⟨false, n "acc", codes a⟩]) (n "acc") = some (codes a) :=
      getEnv_merge_in (sorted_mergeEnv _ hsm) rfl
    have gC2 : getEnv (mergeEnv (mergeEnv m E) [⟨false, n "e", codes b⟩, ⟨false, n "acc", codes a⟩]) (n "chr") = some (chr c) :=
      getEnv_merge_skip (sorted_mergeEnv _ hsm) rfl (getEnv_merge_cap hsm hs gC1)
    have u' := hN.uses h1 (by decide)
    have hlist := (u'.resolves (s := n "list") (v := Native.list.val) (by simp [joinUses]))
    have ua := u'.sub (T' := appendUses) (fun p hp => by simp [joinUses, hp])
    have glist := (h1 (n "list", Native.list.val) (by simp [joinUses])).2
    have nlist := (u' (n "list", Native.list.val) (by simp [joinUses])).1
    have := C72_append hN.sorted (e := S "e") (xs := b.map chr) (ps := [(L [S "list", S "chr"], [chr c]), (S "acc", a.map chr)])
      ua ua (ok_sym (by res)) (by
        intro p hp E' hE'
        simp only [List.mem_cons, List.not_mem_nil, or_false] at hp
        rcases hp with rfl | rfl
        · refine ok_list (resolves_global ((hE'.same (n "list") (by decide) (.inl (by decide))).trans nlist) glist)
            (ok_list_cons ok_list_nil (ok_sym (resolves_local ((hE'.same (n "chr") (by decide) (.inl (by decide))).trans gC2))))
        · exact ok_sym (resolves_local ((hE'.same (n "acc") (by decide) (.inr (by simp [gA]))).trans gA)))
    refine ok_prog1.trans (this.trans ?_)
    simp [codes, elems_ofList]
  · rw [elems_ofList]
    exact join_fold c _ _ st1

/-! ## The files -/

/-- The definitions that each function relies on, and the file that has it. -/
def moreUses : List (String × List (Sym × Val)) :=
  [("orelse.l", orelseUses), ("manips.l", cxrUses), ("iter.l", iterUses), ("insert.l", insertUses), ("merge.l", mergeUses),
   ("flatten.l", flattenUses), ("append.l", appendUses), ("append.l", strcatUses), ("join.l", joinUses)]

/-- **C72.** After a file has been loaded (C60), its functions are defined as their laws demand. -/
theorem C72_loaded {q p : String × List (Sym × Val)} (hq : q ∈ moreUses) (hp : p ∈ libTables) (h : p.1 = q.1) (st : St) :
    Uses q.2 [] (over p.2 st) := by
  have : ∀ q ∈ moreUses, ∀ p ∈ libTables, p.1 = q.1 → ∀ r ∈ q.2, p.2.find? (fun x => x.1 = r.1) = some r := by
    decide +kernel
  exact uses_over st (this q hq p hp h)

/-- **C72.** `truncr.l` needs `quote`, which every program has that was not started with `-b`. -/
theorem C72_loaded_truncr (st : St) (h : st.globals sQuote = some Native.quote.val) :
    Uses truncrUses [] (over truncrT st) := by
  have h1 : Uses (truncrUses.filter fun p => p.1 ≠ sQuote) [] (over truncrT st) := uses_over st (by decide +kernel)
  have h2 : truncrT.find? (fun p => p.1 = sQuote) = none := by decide +kernel
  have h3 : ∀ p ∈ truncrUses, p.1 = sQuote → p.2 = Native.quote.val := by decide +kernel
  intro p hp
  by_cases hq : p.1 = sQuote
  · refine ⟨rfl, ?_⟩
    rw [hq, h3 p hp hq]
    simp only [over, h2, h]
  · exact h1 p (List.mem_filter.2 ⟨hp, by simpa using hq⟩)

/-- **C72.** `iter2.l` does not load `let`, which `iter2` uses: on its own it leaves the function without it. -/
theorem C72_loaded_counterexample :
    (over iter2T ⟨fun _ => none, []⟩).globals (n "let") = none ∧ (n "let", Native.let_.val) ∈ iter2Uses :=
  ⟨by decide +kernel, by simp [iter2Uses]⟩

/-! ## Examples for C72 -/

/-- The hypotheses are met at top level after loading the library. -/
example : Sorted [] ∧ (∀ q ∈ moreUses, Uses q.2 [] libSt) ∧ Uses truncrUses [] libSt ∧ Uses iter2Uses [] libSt := by
  refine ⟨by simp [Sorted], ?_, ?_, ?_⟩ <;> unfold Uses <;> decide +kernel

/-- Functions for `iter`, `iter2`, `insert` and `merge`: natives. -/
example (P : List Entry → Prop) (I : St → Prop) : Acts1 P I Native.isnil.val (fun x => M.lift (unary .isnil x)) ∧
    Acts2 P I Native.lt.val (fun x y => M.lift (binary .lt x y)) :=
  ⟨acts1_native P I rfl (by decide), acts2_native P I rfl⟩

/-- Lists of numbers. -/
example (ks : List Int) : Data (ks.map num) := data_of_atoms (by simp [isList, isPair, isNil, isSym])

/-- Expressions that mean the same in all environments: quoted lists, if `quote` is not a variable of the caller. -/
example (l E : List Entry) (h : Sees l E) (hq : getEnv l sQuote = none) (xs : List Val) :
    sem (envVal E) (Q (ofList xs)) libSt = .ok (ofList xs, libSt) :=
  ok_quote (resolves_global ((h.same sQuote (by decide) (.inl (by decide))).trans hq) (by decide +kernel))

/-- Runs. -/
example : runLib 60 (L [S "<|>", nil, N 2]) = .ok (N 2) ∧
    runLib 60 (L [S "caddr", Q (L [N 1, N 2, N 3])]) = .ok (N 3) ∧
    runLib 60 (L [S "truncr", N 2, Q (L [N 1, N 2, N 3])]) = .ok (L [N 2, N 3]) ∧
    runLib 60 (L [S "iter", S "nil?", Q (L [N 1, nil])]) = .ok tru ∧
    runLib 60 (L [S "iter2", S "<", Q (L [N 1, N 3]), Q (L [N 2, N 2, N 9])]) = .ok nil ∧
    runLib 60 (L [S "insert", S "<", N 2, Q (L [N 1, N 3])]) = .ok (L [N 1, N 2, N 3]) ∧
    runLib 60 (L [S "merge", S "rev", L [S "insert", S "<"], Q (L [N 1, N 3]), Q (L [N 2])]) = .ok (L [N 3, N 2, N 1]) ∧
    runLib 60 (L [S "flatten", Q (L [N 1, L [N 2, nil], cons (N 3) (N 4)])]) = .ok (L [N 1, N 2, nil, N 3, N 4]) ∧
    runLib 60 (L [S "append", str "a", str "b", str "c"]) = .ok (str "abc") ∧
    runLib 60 (L [S "$+", str "a", str "b"]) = .ok (str "ab") ∧
    runLib 60 (L [S "join", Q (L [str "a", str "b", str "c"]), chr 44]) = .ok (str "a,b,c") := by
  decide +kernel

end Lib
end Mnml
