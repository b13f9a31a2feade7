import Verif.PropLib

/-!
# C52: numbers and strings in the lisp library (`aton`, `ntoa`)
-/

namespace Mnml
namespace Lib

open Val

/-- The value of a character. -/
def chrVal (c : Char) : Val := chr c.toNat

theorem str_eq (s : String) : str s = ofList (s.toList.map chrVal) := rfl

/-- The value of a sequence of decimal digits. -/
def decVal (cs : List Char) : Nat := cs.foldl (fun n c => 10 * n + (c.toNat - 48)) 0

theorem inI64_nat {k : Nat} (h : (k : Int) ≤ i64max) : inI64 (k : Int) = true := by
  simp only [inI64, Bool.and_eq_true, decide_eq_true_eq]
  exact ⟨by have : i64min ≤ 0 := by decide
            omega, h⟩

theorem ok_string {c : Val} {t : Bool} {a : Int} {d : Val} {st : St} :
    sem c (pair t (chr a) d) st = .ok (cons (chr a) d, st) := by
  rw [sem_pair, M.bind_congr_ok (ok_chr a)]
  simp [isFunc, equ]

/-! ## `aton` -/

/-- The definitions that `aton` relies on. -/
def atonUses : List (Sym × Val) :=
  (n "aton", atonV) :: (n "\\", Native.lambda.val) :: (n "+", Native.add.val) :: (n "-", Native.sub.val) ::
    (n "*", Native.mul.val) :: foldlUses

/-- One step of `aton`. -/
def atonStep (a v : Val) : M Val := do
  let p ← M.lift (binary .mul (num 10) a)
  let q ← M.lift (binary .sub v (chr 48))
  M.lift (binary .add p q)

theorem atonStep_ok {k : Nat} {c : Char} (hc : c.isDigit = true) (hk : ((10 * k + (c.toNat - 48) : Nat) : Int) ≤ i64max)
    (st : St) : atonStep (num k) (chrVal c) st = .ok (num ((10 * k + (c.toNat - 48) : Nat) : Int), st) := by
  have h1 : inI64 (10 * (k : Int)) = true := by
    have := inI64_nat (k := 10 * k) (by omega)
    simpa using this
  have hd : 48 ≤ c.toNat ∧ c.toNat ≤ 57 := by
    simp only [Char.isDigit, ge_iff_le, Bool.and_eq_true, decide_eq_true_eq, UInt32.le_iff_toNat_le] at hc
    exact hc
  have e : (c.toNat : Int) - 48 = ((c.toNat - 48 : Nat) : Int) := by omega
  have h2 : inI64 ((c.toNat : Int) - 48) = true := by
    rw [e]; exact inI64_nat (by have : (9 : Int) ≤ i64max := by decide
                                omega)
  have h3 : inI64 (10 * (k : Int) + ((c.toNat : Int) - 48)) = true := by
    have := inI64_nat hk
    rw [e]
    simpa using this
  have e2 : (10 * (k : Int) + ((c.toNat : Int) - 48)) = ((10 * k + (c.toNat - 48) : Nat) : Int) := by
    rw [e]; simp
  simp only [atonStep, binary, mathV, number, chrVal, Res.ok_bind, arith, h1, h2, if_true, M.lift_ok, M.pure_bind]
  rw [if_pos h3, e2]
  rfl

theorem decVal_foldl_le (cs : List Char) (k : Nat) :
    k ≤ cs.foldl (fun n c => 10 * n + (c.toNat - 48)) k := by
  induction cs generalizing k with
  | nil => exact Nat.le_refl _
  | cons c cs ih => exact Nat.le_trans (by show k ≤ 10 * k + _; omega) (ih _)

theorem aton_fold (cs : List Char) (hc : ∀ c ∈ cs, c.isDigit = true) (k : Nat)
    (hk : ((cs.foldl (fun n c => 10 * n + (c.toNat - 48)) k : Nat) : Int) ≤ i64max) (st : St) :
    (cs.map chrVal).foldlM atonStep (num k) st =
      .ok (num ((cs.foldl (fun n c => 10 * n + (c.toNat - 48)) k : Nat) : Int), st) := by
  induction cs generalizing k with
  | nil => rfl
  | cons c cs ih =>
    rw [List.map_cons, List.foldlM_cons]
    have h := decVal_foldl_le cs (10 * k + (c.toNat - 48))
    rw [M.bind_congr_ok (atonStep_ok (hc c (by simp)) (by simp only [List.foldl_cons] at hk; omega) st)]
    exact ih (fun c h => hc c (by simp [h])) _ hk

/-- **C52.** `(aton S)` of a string of digits is the number they denote, if it fits in 64 bits. -/
theorem C52_aton {l : List Entry} (hl : Sorted l) {s : String} {e : Val} {st st1 : St} (h0 : Uses atonUses l st)
    (h1 : Uses atonUses l st1) (hd : ∀ c ∈ s.toList, c.isDigit = true) (hf : (decVal s.toList : Int) ≤ i64max)
    (he : sem (envVal l) e st = .ok (str s, st1)) :
    sem (envVal l) (L [S "aton", e]) st = .ok (num (decVal s.toList), st1) := by
  refine ok_call (d := []) (as := [S "STR"]) (vs := [e]) (by res) rfl rfl (okSeq_cons he okSeq_nil)
    (loop_done (ok_prog1.trans ?_) rfl)
  have hs : Sorted (mergeEnv l [⟨false, n "STR", str s⟩]) := sorted_mergeEnv _ hl
  have u : Uses atonUses (mergeEnv l [⟨false, n "STR", str s⟩]) st1 := uses_merge [n "STR"] h1 hl rfl (by decide)
  have uf := u.sub (T' := foldlUses) (fun p hp => by simp [atonUses, hp])
  refine (C49_foldl (I := fun s => s = st1) (st1 := st1) (w := str s) (a := num 0) (g := atonStep)
    hs (fun s h => by rw [h]; exact uf) ?_ uf rfl
    (okSeq_cons (ok_lambda (by res)) (okSeq_cons (ok_num 0) (okSeq_cons (ok_sym (by res)) okSeq_nil))) ?_ rfl).1
  · refine acts2_lisp (p := S "acc") (q := S "v") rfl fun l' x y st v st' hP hI hg => ?_
    cases hI
    have u' := (lambda_near (qs := n "v" :: foldArgs) (b := [⟨false, n "v", y⟩, ⟨false, n "acc", x⟩]) hs hP
      (by simp [foldArgs]) (by simp [foldArgs])).uses u (by decide)
    have hs' := hP.sorted
    simp only [atonStep, M.bind_apply, M.lift_apply] at hg
    cases hm : binary .mul (num 10) x with
    | ok p =>
      rw [hm] at hg
      simp only [Res.ok_bind] at hg
      cases hq : binary .sub y (chr 48) with
      | ok q =>
        rw [hq] at hg
        simp only [Res.ok_bind] at hg
        cases ha : binary .add p q with
        | ok r =>
          rw [ha] at hg
          cases hg
          refine ⟨ok_prog1.trans (ok_two (op := .add) (by res) (ok_two (op := .mul) (by res) (ok_num 10) (ok_sym (by res)) rfl hm)
            (ok_two (op := .sub) (by res) (ok_sym (by res)) (ok_chr 48) rfl hq) rfl ha), ?_, rfl⟩
          simp only [binary, mathV] at ha
          cases hp1 : p.number with
          | ok i =>
            cases hp2 : q.number with
            | ok j =>
              rw [hp1, hp2] at ha
              simp only [Res.ok_bind, arith] at ha
              split at ha
              · cases ha; rfl
              · cases ha
            | _ => rw [hp1, hp2] at ha; cases ha
          | _ => rw [hp1] at ha; cases ha
        | _ => rw [ha] at hg; cases hg
      | _ => rw [hq] at hg; cases hg
    | _ => rw [hm] at hg; cases hg
  · rw [str_eq, elems_ofList]
    exact aton_fold s.toList hd 0 hf st1

/-! ## `ntoa` -/

/-- The definitions that `ntoa` relies on. -/
def ntoaUses : List (Sym × Val) :=
  [(n "ntoa", ntoaV), (n "let", Native.let_.val), (n "\\", Native.lambda.val), (n "if", Native.if_.val),
   (n "=", Native.equ.val), (n "+", Native.add.val), (n "%", Native.mod.val), (n "/", Native.div.val),
   (n "cons", Native.cons.val), (n "chr", Native.chr.val)]

/-- The body of the function `descend` of `ntoa`, with its tail call marked. -/
def descendBody : Val :=
  L [L [S "if", L [S "=", S "n", N 0], S "res", L [T "descend", L [S "/", S "n", N 10], L [S "cons", L [S "chr", L [S "+",
    L [S "%", S "n", N 10], chr 48]], S "res"]]]]

/-- The digits that are put in front of the result. -/
def ntoaDigits (k : Nat) : List Val := if k = 0 then [] else (Nat.toDigits 10 k).map chrVal

theorem ntoaDigits_step (k : Nat) (hk : k ≠ 0) :
    ntoaDigits k = ntoaDigits (k / 10) ++ [chr ((k % 10 : Nat) + 48)] := by
  have hc : ∀ d, d < 10 → chrVal (Nat.digitChar d) = chr ((d : Nat) + 48) := by
    intro d hd
    rw [chrVal, Nat.toNat_digitChar_of_lt_ten hd]
    congr 1
    omega
  unfold ntoaDigits
  rw [if_neg hk, Nat.toDigits_eq_if (by decide)]
  by_cases h : k < 10
  · rw [if_pos h, if_pos (by omega), List.map_singleton, hc k h, Nat.mod_eq_of_lt h]; rfl
  · rw [if_neg h, if_neg (by omega), List.map_append, List.map_singleton, hc _ (Nat.mod_lt _ (by decide))]

theorem div10 {k : Nat} (hk : (k : Int) ≤ i64max) : binary .div (num k) (num 10) = .ok (num (k / 10 : Nat)) := by
  have e : (k : Int).tdiv 10 = ((k / 10 : Nat) : Int) := rfl
  have h : inI64 ((k / 10 : Nat) : Int) = true := inI64_nat (by omega)
  show (if (10 : Int) = 0 then .ub .divZero else arith ((k : Int).tdiv 10)) = _
  rw [if_neg (by decide), e, arith, if_pos h]

theorem mod10 {k : Nat} (hk : (k : Int) ≤ i64max) : binary .mod (num k) (num 10) = .ok (num (k % 10 : Nat)) := by
  have e : (k : Int).tdiv 10 = ((k / 10 : Nat) : Int) := rfl
  have e' : (k : Int).tmod 10 = ((k % 10 : Nat) : Int) := rfl
  have h : inI64 ((k / 10 : Nat) : Int) = true := inI64_nat (by omega)
  have h' : inI64 ((k % 10 : Nat) : Int) = true := inI64_nat (by omega)
  show (if (10 : Int) = 0 then .ub .divZero
    else if inI64 ((k : Int).tdiv 10) then arith ((k : Int).tmod 10) else .ub .overflow) = _
  rw [if_neg (by decide), e, if_pos h, e', arith, if_pos h']

theorem add48 {d : Nat} (hd : d < 10) : binary .add (num d) (chr 48) = .ok (num (d + 48)) := by
  have : ∀ d, d < 10 → binary .add (num (d : Nat)) (chr 48) = .ok (num ((d : Nat) + 48)) := by decide +kernel
  exact this d hd

theorem chr48 {d : Nat} (hd : d < 10) : unary .chr (num (d + 48)) = .ok (chr (d + 48)) := by
  have : ∀ d, d < 10 → unary .chr (num ((d : Nat) + 48)) = .ok (chr ((d : Nat) + 48)) := by decide +kernel
  exact this d hd

theorem ntoa_loop {E : List Entry} (hE : Sorted E) {st : St} (hu : Uses ntoaUses E st) {d : List Entry}
    (hd : getEnv E (n "descend") = some (cons (L [S "n", S "res"]) (cons (envVal d) descendBody)))
    (k : Nat) (hk : (k : Int) ≤ i64max) (acc : List Val) :
    loopSem (S "descend") descendBody (envVal E) (envVal [⟨false, n "res", ofList acc⟩, ⟨false, n "n", num k⟩]) st =
      .ok (ofList (ntoaDigits k ++ acc), st) := by
  induction k using Nat.strongRecOn generalizing acc with
  | _ k ih =>
    have u : Uses ntoaUses (mergeEnv E [⟨false, n "res", ofList acc⟩, ⟨false, n "n", num k⟩]) st :=
      uses_merge [n "res", n "n"] hu hE rfl (by decide)
    by_cases h0 : k = 0
    · subst h0
      refine loop_done (ok_prog1.trans ?_) (tail_ofList _)
      exact ok_if_then (by res) (ok_two (op := .equ) (a := num 0) (b := num 0) (by res) (ok_sym (by res)) (ok_num 0) rfl rfl)
        rfl (ok_sym (by res))
    · have hlt : k % 10 < 10 := Nat.mod_lt _ (by decide)
      refine loop_step (b' := [⟨false, n "res", ofList (chr ((k % 10 : Nat) + 48) :: acc)⟩, ⟨false, n "n", num (k / 10 : Nat)⟩])
        (ok_prog1.trans ?_) ((ih (k / 10) (by omega) (by omega) _).trans ?_)
      · refine ok_if_else (st1 := st) (by res)
          (ok_two (op := .equ) (a := num k) (b := num 0) (by res) (ok_sym (by res)) (ok_num 0) rfl ?_) ?_
        · have : equ (num k) (num 0) = false := by simp [equ, h0]
          simp [binary, this, ofBool]
        · refine ok_tail (d := d) (as := [S "n", S "res"]) (xs := [num (k / 10 : Nat), ofList (chr ((k % 10 : Nat) + 48) :: acc)])
            (vs := [L [S "/", S "n", N 10], L [S "cons", L [S "chr", L [S "+", L [S "%", S "n", N 10], chr 48]], S "res"]])
            (body := descendBody) (by res) rfl rfl (okSeq_cons (st1 := st) ?_ (okSeq_cons ?_ okSeq_nil))
          · exact ok_two (op := .div) (by res) (ok_sym (by res)) (ok_num 10) rfl (div10 hk)
          · refine ok_two (op := .cons) (by res) (ok_one (op := .chr) (by res) (ok_two (op := .add) (by res)
              (ok_two (op := .mod) (by res) (ok_sym (by res)) (ok_num 10) rfl (mod10 hk)) (ok_chr 48) rfl (add48 hlt))
              rfl (by decide) (chr48 hlt)) (ok_sym (by res)) rfl rfl
      · rw [ntoaDigits_step k h0, List.append_assoc]
        rfl

/-- **C52.** `(ntoa K)` is the decimal text of a number K that is not negative, where the caller has no variable called
`descend`. -/
theorem C52_ntoa {l : List Entry} (hl : Sorted l) {k : Nat} {e : Val} {st st1 : St} (h0 : Uses ntoaUses l st)
    (h1 : Uses ntoaUses l st1) (hd : getEnv l (n "descend") = none) (hk : (k : Int) ≤ i64max)
    (he : sem (envVal l) e st = .ok (num k, st1)) :
    sem (envVal l) (L [S "ntoa", e]) st = .ok (str (toString k), st1) := by
  refine ok_call (d := []) (as := [S "n"]) (vs := [e]) (by res) rfl rfl (okSeq_cons he okSeq_nil)
    (loop_done (ok_prog1.trans ?_) (tail_ofList _))
  have hs : Sorted (mergeEnv l [⟨false, n "n", num k⟩]) := sorted_mergeEnv _ hl
  have u : Uses ntoaUses (mergeEnv l [⟨false, n "n", num k⟩]) st1 := uses_merge [n "n"] h1 hl rfl (by decide)
  have hd0 : getEnv (mergeEnv l [⟨false, n "n", num k⟩]) (n "descend") = none := by
    rw [getEnv_merge_out hl (show n "descend" ∉ [n "n"] by decide), hd]
  have hs1 : Sorted (mergeEnv (mergeEnv l [⟨false, n "n", num k⟩]) [⟨false, n "descend",
      cons (L [S "n", S "res"]) (cons (envVal (mergeEnv l [⟨false, n "n", num k⟩])) descendBody)⟩]) := sorted_mergeEnv _ hs
  have u1 : Uses ntoaUses (mergeEnv (mergeEnv l [⟨false, n "n", num k⟩]) [⟨false, n "descend",
      cons (L [S "n", S "res"]) (cons (envVal (mergeEnv l [⟨false, n "n", num k⟩])) descendBody)⟩]) st1 :=
    uses_merge [n "descend"] u hs rfl (by decide)
  refine ok_let_env (b := [⟨false, n "descend", cons (L [S "n", S "res"]) (cons (envVal (mergeEnv l [⟨false, n "n", num k⟩]))
    descendBody)⟩]) (by res) (okBind_cons (ok_lambda (by res)) (letMark_fun hd0 rfl rfl) okBind_nil) (ok_prog1.trans ?_)
  by_cases hz : k = 0
  · subst hz
    exact ok_if_then (by res) (ok_two (op := .equ) (a := num 0) (b := num 0) (by res) (ok_sym (by res)) (ok_num 0) rfl rfl)
      rfl ok_string
  · refine ok_if_else (st1 := st1) (by res)
      (ok_two (op := .equ) (a := num k) (b := num 0) (by res) (ok_sym (by res)) (ok_num 0) rfl ?_) ?_
    · have : equ (num k) (num 0) = false := by simp [equ, hz]
      simp [binary, this, ofBool]
    · have hs2 := sorted_mergeEnv (mergeEnv l [⟨false, n "n", num k⟩]) hs1
      refine ok_call (d := mergeEnv l [⟨false, n "n", num k⟩]) (as := [S "n", S "res"]) (vs := [S "n", nil])
        (xs := [num k, nil]) (body := descendBody) (by res) rfl rfl
        (okSeq_cons (ok_sym (by res)) (okSeq_cons ok_nil okSeq_nil)) ?_
      refine (ntoa_loop hs2 ?_ (d := mergeEnv l [⟨false, n "n", num k⟩]) ?_ k hk []).trans ?_
      · exact (((Near.refl hs).merge (ps := [n "descend"]) (by simp)).capture (Near.refl hs)).uses u (by decide)
      · rw [getEnv_mergeEnv _ hs1, getEnv_reverse hs, hd0]
        exact getEnv_merge_in hs rfl
      · rw [List.append_nil, ntoaDigits, if_neg hz, str_eq, Nat.toString_eq_repr, Nat.toList_repr]

/-! ## Both together -/

theorem decVal_append (cs : List Char) (c : Char) : decVal (cs ++ [c]) = 10 * decVal cs + (c.toNat - 48) := by
  simp [decVal]

theorem decVal_toDigits (k : Nat) : decVal (Nat.toDigits 10 k) = k := by
  induction k using Nat.strongRecOn with
  | _ k ih =>
    rw [Nat.toDigits_eq_if (by decide)]
    split
    · next h => simp [decVal, Nat.toNat_digitChar_of_lt_ten h]
    · next h =>
      rw [decVal_append, ih _ (by omega), Nat.toNat_digitChar_of_lt_ten (Nat.mod_lt _ (by decide))]
      omega

/-- **C52.** `(aton (ntoa K))` is K for every number K that is not negative, where the caller has no variable called
`descend`. -/
theorem C52_roundtrip {l : List Entry} (hl : Sorted l) {k : Nat} {e : Val} {st st1 : St}
    (ha0 : Uses atonUses l st) (ha1 : Uses atonUses l st1) (h0 : Uses ntoaUses l st)
    (h1 : Uses ntoaUses l st1) (hd : getEnv l (n "descend") = none) (hk : (k : Int) ≤ i64max)
    (he : sem (envVal l) e st = .ok (num k, st1)) :
    sem (envVal l) (L [S "aton", L [S "ntoa", e]]) st = .ok (num k, st1) := by
  have hs : (toString k).toList = Nat.toDigits 10 k := by rw [Nat.toString_eq_repr, Nat.toList_repr]
  have hv : decVal (toString k).toList = k := by rw [hs, decVal_toDigits]
  have := C52_aton hl (s := toString k) ha0 ha1 (fun c hc => by
    rw [hs] at hc
    exact Nat.isDigit_of_mem_toDigits (by decide) (by decide) hc) (by rw [hv]; exact hk)
    (C52_ntoa hl h0 h1 hd hk he)
  rwa [hv] at this

/-- The hypotheses are met at top level after loading the library. -/
example : Sorted [] ∧ Uses atonUses [] libSt ∧ Uses ntoaUses [] libSt ∧ getEnv [] (n "descend") = none := by
  refine ⟨by simp [Sorted], ?_, ?_, rfl⟩ <;> unfold Uses <;> decide +kernel

/-- **C52.** `(ntoa -5)` is not "-5" but "+". -/
theorem C52_negative_counterexample :
    runLib 40 (L [S "ntoa", N (-5)]) = .ok (str "+") := by decide +kernel

/-- **C52.** `(aton "9223372036854775808")` overflows. -/
theorem C52_overflow_counterexample :
    runLib 80 (L [S "aton", str "9223372036854775808"]) = .ub .overflow := by decide +kernel

/-- **C52.** A variable `descend` of the caller is called by `ntoa`: `(let ((descend . (\\ (n res) "?"))) (ntoa 12))` is "?". -/
theorem C52_scope_counterexample :
    runLib 40 (L [S "let", L [cons (S "descend") (L [S "\\", L [S "n", S "res"], str "?"])],
      L [S "ntoa", N 12]]) = .ok (str "?") := by decide +kernel

end Lib
end Mnml
