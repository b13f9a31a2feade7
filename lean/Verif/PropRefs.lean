import Verif.PropCps
import Verif.PropAssoc
import Verif.PropFun

/-!
# C89: counting references

`cps:getrefs` of `share/mnml/cps.l` counts how often each symbol is used by a call in continuation-passing style.
-/

namespace Mnml
namespace Lib

open Val Lex

/-! ## The text -/

/-- The function that `cps:getrefs` folds (`share/mnml/cps.l:118-125`), without its arguments. -/
def getrefsBody : Val :=
  L [L [S "if", L [S "sym?", S "e"], L [S "let", L [cons (S "cur") (L [S "assoc", S "e", S "acc"]), cons (S "inc") (L [S "if",
    L [S "=", S "e", S "kvar"], N 0, N 1])], L [S "if", S "cur", L [S "replc", S "e", L [S "+", S "cur", S "inc"], S "acc"],
    L [S "cons", L [S "cons", S "e", S "inc"], S "acc"]]], S "acc"]]

/-- The body of `cps:getrefs` (`share/mnml/cps.l:115-126`). -/
def getrefsLet : Val :=
  L [S "let", L [cons (cons (S "op") wild) (S "expr"), cons (S "params") (L [S "if", L [S "has", S "ARGS", S "op"], S "expr",
    L [S "cdr", S "expr"]])], L [S "foldl", cons (S "\\") (cons (L [S "acc", S "e"]) getrefsBody), S "acc", S "params"]]

/-- `cps:getrefs` (`share/mnml/cps.l:113-126`). -/
def getrefsSrc : Val :=
  L [S "def", S "cps:getrefs", L [S "ARGS", S "kvar", S "acc", S "expr"], str "Accumulate in ACC references found in EXPR.", getrefsLet]

/-- The value of `cps:getrefs` once defined. -/
def getrefsV : Val := cons (L [S "ARGS", S "kvar", S "acc", S "expr"]) (cons nil (L [getrefsLet]))

theorem getrefs_def (st : St) (h : st.globals Native.def_.name = some Native.def_.val) :
    sem nil getrefsSrc st = .ok (S "cps:getrefs", define "cps:getrefs" getrefsV st) := ok_def h rfl

/-- `share/mnml/cps.l:107-126`. -/
def getrefsText : List UInt8 :=
  fileText ["\n",
      "#\n",
      "# Collect the usage count for each placeholder variable. The first symbol in the\n",
      "# funcall is skipped unless it is the current external continuation variable.\n",
      "# Local symbol (eg. local continuations) are collected with a count of 0.\n",
      "#\n",
      "(def cps:getrefs (ARGS kvar acc expr)\n",
      "\t\"Accumulate in ACC references found in EXPR.\"\n",
      "\t(let (((op . _) . expr)\n",
      "\t\t\t\t(params . (if (has ARGS op) expr (cdr expr))))\n",
      "\t\t(foldl\n",
      "\t\t\t(\\ (acc e)\n",
      "\t\t\t\t(if (sym? e)\n",
      "\t\t\t\t\t(let ((cur . (assoc e acc))\n",
      "\t\t\t\t\t\t\t\t(inc . (if (= e kvar) 0 1)))\n",
      "\t\t\t\t\t\t(if cur\n",
      "\t\t\t\t\t\t\t(replc e (+ cur inc) acc)\n",
      "\t\t\t\t\t\t\t(cons (cons e inc) acc)))\n",
      "\t\t\t\t\tacc))\n",
      "\t\t\tacc params)))\n"]

/-- What the reader makes of it. -/
theorem getrefs_text : drain (fun _ => .unsupported) 21 .init getrefsText = .ok ⟨[], [], none, [getrefsSrc]⟩ := by
  rw [drain_eq]
  simp only [getrefsText, fileText, List.flatMap_cons, List.flatMap_nil, litToList]
  decide +kernel

/-! ## Tables of counts -/

/-- A table of counts: symbols with numbers up to B. -/
def Counts (b : Nat) (xs : List Val) : Prop := ∀ x ∈ xs, ∃ s, ∃ i : Nat, x = cons (ofSym s) (num i) ∧ i ≤ b

/-- One more reference to E. -/
def bump (k : Val) (xs : List Val) (e : Val) : List Val :=
  if e.isSym then
    match find e xs with
    | num i => replaceKey e (num (i + if equ e k then 0 else 1)) xs
    | _ => cons e (num (if equ e k then 0 else 1)) :: xs
  else xs

theorem Counts.mono {b c : Nat} {xs : List Val} (h : Counts b xs) (hbc : b ≤ c) : Counts c xs := fun x hx =>
  let ⟨s, i, e, hi⟩ := h x hx
  ⟨s, i, e, Nat.le_trans hi hbc⟩

theorem Counts.untailed {b : Nat} {xs : List Val} (h : Counts b xs) : Untailed xs := fun x hx => by
  obtain ⟨s, i, rfl, _⟩ := h x hx
  exact ⟨rfl, rfl⟩

/-- What a table has for a key. -/
theorem Counts.find {b : Nat} {xs : List Val} (h : Counts b xs) (e : Val) :
    (find e xs = nil ∧ ∀ x ∈ xs, equ x.car e = false) ∨
      ∃ i : Nat, Lib.find e xs = num i ∧ i ≤ b ∧ ∃ x ∈ xs, equ e x.car = true := by
  unfold Lib.find
  cases hf : xs.find? fun x => equ x.car e with
  | none =>
    left
    refine ⟨rfl, fun x hx => ?_⟩
    simpa using List.find?_eq_none.1 hf x hx
  | some x =>
    right
    have hm := List.mem_of_find?_eq_some hf
    obtain ⟨s, i, rfl, hi⟩ := h x hm
    refine ⟨i, rfl, hi, _, hm, ?_⟩
    rw [equ_comm']
    simpa using List.find?_some hf

theorem isSym_iff {e : Val} (ht : e.isTailCall = false) : e.isSym = true → ∃ s, e = ofSym s := by
  cases e with
  | sym f s => cases f with
    | true => cases ht
    | false => exact fun _ => ⟨s, rfl⟩
  | _ => intro h; cases h

theorem Counts.bump {b : Nat} {xs : List Val} (h : Counts b xs) (k : Val) {e : Val} (ht : e.isTailCall = false) : Counts (b + 1) (bump k xs e) := by
  unfold Lib.bump
  split
  · rename_i hs
    obtain ⟨s, rfl⟩ := isSym_iff ht hs
    rcases h.find (ofSym s) with ⟨hn, _⟩ | ⟨i, hn, hi, _⟩
    · rw [hn]
      intro x hx
      rcases List.mem_cons.1 hx with rfl | hx
      · refine ⟨s, if equ (ofSym s) k then 0 else 1, ?_, by split <;> omega⟩
        split <;> rfl
      · exact (h.mono (by omega)) x hx
    · rw [hn]
      intro x hx
      obtain ⟨y, hy, rfl⟩ := List.mem_map.1 hx
      split
      · refine ⟨s, i + if equ (ofSym s) k then 0 else 1, ?_, by split <;> omega⟩
        split <;> rfl
      · obtain ⟨s', j, rfl, hj⟩ := h y hy
        exact ⟨s', j, rfl, by omega⟩
  · exact h.mono (by omega)

theorem equ_self (v : Val) : equ v v = true := (equ_iff_erase v v).2 rfl

/-- The entry of S after one reference. -/
theorem find_bump {b : Nat} {xs : List Val} (h : Counts b xs) (k e : Val) (s : Sym) :
    find (ofSym s) (bump k xs e) =
      if equ e (ofSym s) then num (natOf (find (ofSym s) xs) + if equ (ofSym s) k then 0 else 1) else find (ofSym s) xs := by
  unfold bump
  cases hs : e.isSym with
  | false =>
    have : equ e (ofSym s) = false := by cases e <;> simp [isSym] at hs <;> rfl
    simp [this]
  | true =>
    rw [if_pos rfl]
    have key : equ e (ofSym s) = true → find (ofSym s) xs = find e xs := by
      intro hq
      unfold find
      congr 3
      funext x
      rw [equ_comm' x.car, equ_comm' x.car, equ_trans' hq]
    have keyk : equ e (ofSym s) = true → equ (ofSym s) k = equ e k := fun hq => equ_trans' hq
    rcases h.find e with ⟨hn, hx⟩ | ⟨i, hn, hi, hx⟩
    · rw [hn]
      cases hq : equ e (ofSym s) with
      | true =>
        simp only [if_true]
        rw [find_pos (x := cons e _) hq, key hq, hn, keyk hq]
        simp [natOf, cdr]
      | false =>
        simp only [Bool.false_eq_true, if_false]
        exact find_neg (x := cons e _) hq
    · rw [hn]
      cases hq : equ e (ofSym s) with
      | true =>
        simp only [if_true]
        rw [find_replc e (ofSym s) _ xs hq hx, key hq, hn, keyk hq]
        simp [natOf]
      | false =>
        simp only [Bool.false_eq_true, if_false]
        exact find_replc_ne e (ofSym s) _ xs hq

/-- The keys are different. -/
def Distinct (xs : List Val) : Prop := xs.Pairwise fun x y => equ x.car y.car = false

theorem Distinct.bump {b : Nat} {xs : List Val} (h : Counts b xs) (hd : Distinct xs) (k e : Val) : Distinct (bump k xs e) := by
  unfold Lib.bump
  split
  · rcases h.find e with ⟨hn, hx⟩ | ⟨i, hn, hi, hx⟩
    · rw [hn]
      refine List.pairwise_cons.2 ⟨fun y hy => ?_, hd⟩
      rw [equ_comm']
      exact hx y hy
    · rw [hn]
      refine List.pairwise_map.2 (hd.imp fun {x y} hxy => ?_)
      cases h1 : equ e x.car <;> cases h2 : equ e y.car <;>
        simp only [if_true, if_false, Bool.false_eq_true, cons, car]
      · exact hxy
      · rw [equ_comm']; exact h1
      · exact h2
      · rw [equ_trans' h1, h2] at hxy; cases hxy
  · exact hd

/-- All references of a list. -/
theorem fold_bump (k : Val) (s : Sym) : ∀ (ps xs : List Val) (b : Nat), (∀ p ∈ ps, p.isTailCall = false) → Counts b xs →
    Counts (b + ps.length) (ps.foldl (bump k) xs) ∧ (Distinct xs → Distinct (ps.foldl (bump k) xs)) ∧
    find (ofSym s) (ps.foldl (bump k) xs) =
      if ps.any (fun p => equ p (ofSym s)) then
        num (natOf (find (ofSym s) xs) + if equ (ofSym s) k then 0 else ps.countP fun p => equ p (ofSym s) : Nat)
      else find (ofSym s) xs := by
  intro ps
  induction ps with
  | nil => intro xs b _ h; exact ⟨h, id, rfl⟩
  | cons p ps ih =>
    intro xs b ht h
    obtain ⟨i1, i2, i3⟩ := ih (bump k xs p) (b + 1) (fun q hq => ht q (by simp [hq])) (h.bump k (ht p (by simp)))
    refine ⟨by rw [List.length_cons, show b + (ps.length + 1) = b + 1 + ps.length by omega]; exact i1, fun hd => i2 (hd.bump h k p), ?_⟩
    rw [List.foldl_cons, i3, find_bump h k p s, List.any_cons, List.countP_cons]
    cases h1 : equ p (ofSym s) <;> cases h2 : ps.any fun p => equ p (ofSym s) <;> cases h3 : equ (ofSym s) k <;>
      simp [natOf]
    · have : ps.countP (fun p => equ p (ofSym s)) = 0 := by
        rw [List.countP_eq_zero]
        intro a ha
        have := List.any_eq_false.1 h2 a ha
        simpa using this
      omega
    · omega

/-! ## `cps:getrefs` -/

/-- The definitions that `cps:getrefs` relies on. -/
def refsUses : List (Sym × Val) :=
  [(n "cps:getrefs", getrefsV), (n "let", Native.let_.val), (n "sym?", Native.issym.val), (n "+", Native.add.val)] ++ hasUses ++ assocUses ++
    replcUses

/-- The names bound by `cps:getrefs`. -/
def refsArgs : List Sym :=
  [n "ARGS", n "kvar", n "expr", n "op", n "params", n "e", n "cur", n "inc"] ++ foldArgs

open Classical in
/-- One step of the fold. -/
noncomputable def refsStep (k acc e : Val) : M Val :=
  need (decide (e.isTailCall = false ∧ ∃ b xs, acc = ofList xs ∧ Counts b xs ∧ ((b + 1 : Nat) : Int) ≤ i64max)) (pure (ofList (bump k (elems acc) e)))

open Classical in
theorem refs_fold {k : Val} {st : St} (ps : List Val) : ∀ (xs : List Val) (b : Nat), (∀ p ∈ ps, p.isTailCall = false) → Counts b xs →
    ((b + ps.length : Nat) : Int) ≤ i64max → ps.foldlM (refsStep k) (ofList xs) st = .ok (ofList (ps.foldl (bump k) xs), st) := by
  induction ps with
  | nil => intros; rfl
  | cons p ps ih =>
    intro xs b ht h hb
    simp only [List.length_cons] at hb
    have hs : refsStep k (ofList xs) p st = .ok (ofList (bump k xs p), st) := by
      unfold refsStep need
      rw [if_pos (decide_eq_true ⟨ht p (by simp), b, xs, rfl, h, by omega⟩), elems_ofList]
      rfl
    rw [List.foldlM_cons, M.bind_congr_ok hs]
    exact ih _ (b + 1) (fun q hq => ht q (by simp [hq])) (h.bump k (ht p (by simp))) (by omega)

/-- A list that does not look like a function, or does not mention `params`. -/
def Unmarked (v : Val) : Prop := isFunc v = false ∨ n "params" ∉ patSyms v ∧ v.cdr.cdr.isNum = false

/-- The arguments of `(? c (x y) z)` have the form of a function, but do not mention `params`. -/
example : isFunc (L [S "c", L [S "x", S "y"], S "z"]) = true ∧ Unmarked (L [S "c", L [S "x", S "y"], S "z"]) :=
  ⟨by decide +kernel, .inr ⟨by decide +kernel, by decide +kernel⟩⟩

/-- Such a list is not changed when it is bound to `params`. -/
theorem letMark_params {E : List Entry} {v : Val} (h : Unmarked v) : letMark (envVal E) (S "params") v = .ok v := by
  cases hf : isFunc v with
  | false => exact letMark_of_not_func _ _ _ hf
  | true =>
    obtain ⟨hp, hn⟩ : n "params" ∉ patSyms v ∧ v.cdr.cdr.isNum = false := by
      rcases h with h | h
      · rw [h] at hf; cases hf
      · exact h
    match v, hf, hp, hn with
    | pair t1 args (pair t2 clos body), hf, hp, hn =>
      have hm : markBody (n "params") args body = .ok body := by
        cases body with
        | pair t a d =>
          show Res.ok (markLast _ _ _) = _
          rw [markLast_id _ (fun hc => hp (by simp only [patSyms, List.mem_append] at hc ⊢; exact .inr (.inr hc)))]
        | num i => cases hn
        | _ => simp [isFunc, isPair, isNum] at hf
      show (if isFunc _ then _ else _) = _
      rw [if_pos hf, assq_envVal, Res.ok_bind]
      show (match getEnv E (n "params") with | some _ => _ | none => _) = _
      cases getEnv E (n "params") with
      | some x => rfl
      | none =>
        show (markBody (n "params") args body >>= _) = _
        rw [hm]
        rfl

/-- The arguments that are counted: without the function, unless it is an argument of the converted function. -/
def counted (A w : Val) : Val := if (elems A).any (fun a => equ a w.car) then w else w.cdr

open Classical in
theorem getrefs_ok {l : List Entry} {st : St} (hl : Sorted l) (hu : Uses refsUses l st) {ea ek et ew A k w : Val} {xs : List Val} {b : Nat}
    (hargs : evalSeq sem (envVal l) [ea, ek, et, ew] st = .ok ([A, k, ofList xs, w], st)) (hx : Counts b xs)
    (ht : ∀ p ∈ elems (counted A w), p.isTailCall = false) (hf : Unmarked (counted A w))
    (hb : ((b + (elems (counted A w)).length : Nat) : Int) ≤ i64max) :
    sem (envVal l) (L [S "cps:getrefs", ea, ek, et, ew]) st = .ok (ofList ((elems (counted A w)).foldl (bump k) xs), st) := by
  refine ok_call (d := []) (as := [S "ARGS", S "kvar", S "acc", S "expr"]) (vs := [ea, ek, et, ew]) (xs := [A, k, ofList xs, w]) (hu.at 0 rfl) rfl rfl
    hargs (loop_done (ok_prog1.trans ?_) (tail_ofList _))
  have hE := (Near.refl (ps := refsArgs) hl).merge (b := [⟨false, n "expr", w⟩, ⟨false, n "acc", ofList xs⟩, ⟨false, n "kvar", k⟩, ⟨false, n "ARGS", A⟩])
    (by simp [refsArgs, foldArgs])
  have gA : getEnv (mergeEnv l [⟨false, n "expr", w⟩, ⟨false, n "acc", ofList xs⟩, ⟨false, n "kvar", k⟩, ⟨false, n "ARGS", A⟩]) (n "ARGS") = some A :=
    getEnv_merge_in hl rfl
  have gK : getEnv (mergeEnv l [⟨false, n "expr", w⟩, ⟨false, n "acc", ofList xs⟩, ⟨false, n "kvar", k⟩, ⟨false, n "ARGS", A⟩]) (n "kvar") = some k :=
    getEnv_merge_in hl rfl
  have gX : getEnv (mergeEnv l [⟨false, n "expr", w⟩, ⟨false, n "acc", ofList xs⟩, ⟨false, n "kvar", k⟩, ⟨false, n "ARGS", A⟩]) (n "acc") =
    some (ofList xs) := getEnv_merge_in hl rfl
  have gW : getEnv (mergeEnv l [⟨false, n "expr", w⟩, ⟨false, n "acc", ofList xs⟩, ⟨false, n "kvar", k⟩, ⟨false, n "ARGS", A⟩]) (n "expr") = some w :=
    getEnv_merge_in hl rfl
  change sem (envVal (mergeEnv l [⟨false, n "expr", w⟩, ⟨false, n "acc", ofList xs⟩, ⟨false, n "kvar", k⟩, ⟨false, n "ARGS", A⟩])) _ st = _
  generalize mergeEnv l [⟨false, n "expr", w⟩, ⟨false, n "acc", ofList xs⟩, ⟨false, n "kvar", k⟩, ⟨false, n "ARGS", A⟩] = E at hE gA gK gX gW ⊢
  have hsE := hE.sorted
  have u := hE.uses hu (by decide +kernel)
  have hE1 := hE.merge (b := [⟨false, n "op", w.car⟩]) (by simp [refsArgs])
  have u1 := hE1.uses hu (by decide +kernel)
  have gA1 := getEnv_merge_skip (b := [⟨false, n "op", w.car⟩]) hsE rfl gA
  have gW1 := getEnv_merge_skip (b := [⟨false, n "op", w.car⟩]) hsE rfl gW
  have gO1 : getEnv (mergeEnv E [⟨false, n "op", w.car⟩]) (n "op") = some w.car := getEnv_merge_in hsE rfl
  have hhas : sem (envVal (mergeEnv E [⟨false, n "op", w.car⟩])) (L [S "has", S "ARGS", S "op"]) st =
      .ok (ofBool ((elems A).any fun e => equ e w.car), st) := by
    have uh := u1.sub (T' := hasUses) (fun p hp => by simp [refsUses, hp])
    exact C50_has hE1.sorted uh uh (okSeq_cons (ok_sym (resolves_local gA1)) (okSeq_cons (ok_sym (resolves_local gO1)) okSeq_nil))
  have hpar : sem (envVal (mergeEnv E [⟨false, n "op", w.car⟩])) (L [S "if", L [S "has", S "ARGS", S "op"], S "expr", L [S "cdr", S "expr"]]) st =
      .ok (counted A w, st) := by
    unfold counted
    cases hc : (elems A).any fun e => equ e w.car with
    | true => rw [hc] at hhas; exact ok_if_then (by res) hhas rfl (ok_sym (resolves_local gW1))
    | false =>
      rw [hc] at hhas
      exact ok_if_else (by res) hhas (ok_one (op := .cdr) (by res) (ok_sym (resolves_local gW1)) rfl (by decide) rfl)
  refine ok_let_env (b := [⟨false, n "params", counted A w⟩, ⟨false, n "op", w.car⟩]) (st1 := st) (u.at 1 rfl)
    (okBind_pat (st1 := st) (a := w) (ok_sym (resolves_local gW)) (okBind_cons (b := [⟨false, n "op", w.car⟩]) (st1 := st) hpar
      (letMark_params hf) okBind_nil)) (ok_prog1.trans ?_)
  have hF := hE.merge (b := [⟨false, n "params", counted A w⟩, ⟨false, n "op", w.car⟩]) (by simp [refsArgs])
  have gP : getEnv (mergeEnv E [⟨false, n "params", counted A w⟩, ⟨false, n "op", w.car⟩]) (n "params") = some (counted A w) :=
    getEnv_merge_in hsE rfl
  have gX2 := getEnv_merge_skip (b := [⟨false, n "params", counted A w⟩, ⟨false, n "op", w.car⟩]) hsE rfl gX
  have gK2 := getEnv_merge_skip (b := [⟨false, n "params", counted A w⟩, ⟨false, n "op", w.car⟩]) hsE rfl gK
  generalize mergeEnv E [⟨false, n "params", counted A w⟩, ⟨false, n "op", w.car⟩] = F at hF gP gX2 gK2 ⊢
  have uF := hF.uses hu (by decide +kernel)
  have ufl : Uses foldlUses F st := uF.sub (fun p hp => by simp [refsUses, hasUses, hp])
  have hsF := hF.sorted
  refine (C49_foldl (I := fun s => s = st) (st1 := st) (F := cons (L [S "acc", S "e"]) (cons (envVal F) getrefsBody))
    (w := counted A w) (a := ofList xs) (g := refsStep k) hsF (fun s h => by rw [h]; exact ufl) ?_ ufl rfl
    (okSeq_cons (ok_lambda (by res)) (okSeq_cons (ok_sym (resolves_local gX2)) (okSeq_cons (ok_sym (resolves_local gP)) okSeq_nil)))
    (refs_fold _ _ _ ht hx hb) (tail_ofList _)).1
  refine acts2_lisp (p := S "acc") (q := S "e") rfl fun m x y st0 v st' hm h0 hg => ?_
  cases h0
  obtain ⟨hx', hv⟩ := need_ok hg
  obtain ⟨hy, c, zs, rfl, hz, hc⟩ := of_decide_eq_true hx'
  rw [elems_ofList] at hv
  cases hv
  refine ⟨?_, tail_ofList _, rfl⟩
  have hN := ((hF.trans (hm.mono (by simp [foldArgs, refsArgs]))).capture hF).merge
    (b := [⟨false, n "e", y⟩, ⟨false, n "acc", ofList zs⟩]) (by simp [refsArgs, foldArgs])
  have hsm := sorted_mergeEnv F hm.sorted
  have gY : getEnv (mergeEnv (mergeEnv m F) [⟨false, n "e", y⟩, ⟨false, n "acc", ofList zs⟩]) (n "e") = some y := getEnv_merge_in hsm rfl
  have gZ : getEnv (mergeEnv (mergeEnv m F) [⟨false, n "e", y⟩, ⟨false, n "acc", ofList zs⟩]) (n "acc") = some (ofList zs) :=
    getEnv_merge_in hsm rfl
  have gK' : getEnv (mergeEnv (mergeEnv m F) [⟨false, n "e", y⟩, ⟨false, n "acc", ofList zs⟩]) (n "kvar") = some k :=
    getEnv_merge_skip hsm rfl (getEnv_merge_cap hm.sorted hsF gK2)
  refine ok_prog1.trans ?_
  change sem (envVal (mergeEnv (mergeEnv m F) [⟨false, n "e", y⟩, ⟨false, n "acc", ofList zs⟩])) _ st = _
  generalize mergeEnv (mergeEnv m F) [⟨false, n "e", y⟩, ⟨false, n "acc", ofList zs⟩] = G at hN gY gZ gK' ⊢
  have uG := hN.uses hu (by decide +kernel)
  have hsG := hN.sorted
  have hsym : sem (envVal G) (L [S "sym?", S "e"]) st = .ok (ofBool y.isSym, st) :=
    ok_one (op := .issym) (uG.at 2 rfl) (ok_sym (resolves_local gY)) rfl (by decide) rfl
  unfold bump
  cases hys : y.isSym with
  | false =>
    rw [hys] at hsym
    exact ok_if_else (by res) hsym (ok_sym (resolves_local gZ))
  | true =>
    rw [hys] at hsym
    refine ok_if_then (a := tru) (by res) hsym rfl ?_
    rw [if_pos rfl]
    have ua := uG.sub (T' := assocUses) (fun p hp => by simp [refsUses, hp])
    have hcur : sem (envVal G) (L [S "assoc", S "e", S "acc"]) st = .ok (find y zs, st) :=
      C51_assoc hsG ua ua hz.untailed (okSeq_cons (ok_sym (resolves_local gY)) (okSeq_cons (ok_sym (resolves_local gZ)) okSeq_nil))
    have hnf : isFunc (find y zs) = false := by
      rcases hz.find y with ⟨e, _⟩ | ⟨i, e, _⟩ <;> rw [e] <;> rfl
    have hG1 := hN.merge (b := [⟨false, n "cur", find y zs⟩]) (by simp [refsArgs])
    have uG1 := hG1.uses hu (by decide +kernel)
    have hinc : sem (envVal (mergeEnv G [⟨false, n "cur", find y zs⟩])) (L [S "if", L [S "=", S "e", S "kvar"], N 0, N 1]) st =
        .ok (num (if equ y k then 0 else 1), st) := by
      have hq := ok_two (op := .equ) (tc := false) (f := false) (t1 := false) (t2 := false) (x := S "e") (y := S "kvar")
        (v := ofBool (equ y k)) (c := envVal (mergeEnv G [⟨false, n "cur", find y zs⟩])) (st := st) (st1 := st) (st2 := st) (s := n "=") (by res)
        (ok_sym (resolves_local (getEnv_merge_skip hsG rfl gY))) (ok_sym (resolves_local (getEnv_merge_skip hsG rfl gK'))) rfl rfl
      cases hqq : equ y k with
      | true => rw [hqq] at hq; exact ok_if_then (by res) hq rfl (ok_num 0)
      | false => rw [hqq] at hq; exact ok_if_else (by res) hq (ok_num 1)
    refine ok_let_env (b := [⟨false, n "inc", num (if equ y k then 0 else 1)⟩, ⟨false, n "cur", find y zs⟩]) (st1 := st) (uG.at 1 rfl)
      (okBind_cons (b := []) (st1 := st) hcur (letMark_of_not_func _ _ _ hnf) (okBind_cons (st1 := st) hinc
        (letMark_of_not_func _ _ _ rfl) okBind_nil)) (ok_prog1.trans ?_)
    have hG2 := hN.merge (b := [⟨false, n "inc", num (if equ y k then 0 else 1)⟩, ⟨false, n "cur", find y zs⟩]) (by simp [refsArgs])
    have gI : getEnv (mergeEnv G [⟨false, n "inc", num (if equ y k then 0 else 1)⟩, ⟨false, n "cur", find y zs⟩]) (n "inc") =
      some (num (if equ y k then 0 else 1)) := getEnv_merge_in hsG rfl
    have gC : getEnv (mergeEnv G [⟨false, n "inc", num (if equ y k then 0 else 1)⟩, ⟨false, n "cur", find y zs⟩]) (n "cur") =
      some (find y zs) := getEnv_merge_in hsG rfl
    have gY2 := getEnv_merge_skip (b := [⟨false, n "inc", num (if equ y k then 0 else 1)⟩, ⟨false, n "cur", find y zs⟩]) hsG rfl gY
    have gZ2 := getEnv_merge_skip (b := [⟨false, n "inc", num (if equ y k then 0 else 1)⟩, ⟨false, n "cur", find y zs⟩]) hsG rfl gZ
    generalize mergeEnv G [⟨false, n "inc", num (if equ y k then 0 else 1)⟩, ⟨false, n "cur", find y zs⟩] = H at hG2 gI gC gY2 gZ2 ⊢
    have uH := hG2.uses hu (by decide +kernel)
    rcases hz.find y with ⟨e, _⟩ | ⟨i, e, hi, _⟩
    · rw [e] at gC ⊢
      exact ok_if_else (by res) (ok_sym (resolves_local gC)) (ok_two (op := .cons) (by res)
        (ok_two (op := .cons) (by res) (ok_sym (resolves_local gY2)) (ok_sym (resolves_local gI)) rfl rfl) (ok_sym (resolves_local gZ2)) rfl rfl)
    · rw [e] at gC ⊢
      have hr : inI64 ((i : Int) + if equ y k then 0 else 1) = true := by
        have : ((i : Int) + if equ y k then 0 else 1) = ((i + if equ y k then 0 else 1 : Nat) : Int) := by split <;> rfl
        rw [this]
        exact inI64_nat (by split <;> omega)
      have ur := uH.sub (T' := replcUses) (fun p hp => by simp [refsUses, hp])
      have := C51_replc (w := ofList zs) hG2.sorted ur ur (e1 := S "e") (e2 := L [S "+", S "cur", S "inc"]) (e3 := S "acc")
        (okSeq_cons (ok_sym (resolves_local gY2)) (okSeq_cons (ok_two (op := .add) (uH.at 3 rfl) (ok_sym (resolves_local gC))
          (ok_sym (resolves_local gI)) rfl (add_num hr)) (okSeq_cons (ok_sym (resolves_local gZ2)) okSeq_nil)))
      rw [elems_ofList] at this
      exact ok_if_then (by res) (ok_sym (resolves_local gC)) rfl this

/-- **C89.** `(cps:getrefs A K T W)` for every call W: a table with the symbols of T and those that W has as arguments (or as function, if it is
among A), where the count of each symbol other than K is increased by the number of its occurrences, and the count of K is not. -/
theorem C89_getrefs {l : List Entry} {st : St} (hl : Sorted l) (hu : Uses refsUses l st) {ea ek et ew A k w : Val} {xs : List Val} {b : Nat}
    (hargs : evalSeq sem (envVal l) [ea, ek, et, ew] st = .ok ([A, k, ofList xs, w], st)) (hx : Counts b xs)
    (ht : ∀ p ∈ elems (counted A w), p.isTailCall = false) (hf : Unmarked (counted A w))
    (hb : ((b + (elems (counted A w)).length : Nat) : Int) ≤ i64max) :
    ∃ ys, sem (envVal l) (L [S "cps:getrefs", ea, ek, et, ew]) st = .ok (ofList ys, st) ∧
      Counts (b + (elems (counted A w)).length) ys ∧ (Distinct xs → Distinct ys) ∧
      ∀ s, find (ofSym s) ys =
        if (elems (counted A w)).any (fun p => equ p (ofSym s)) then
          num (natOf (find (ofSym s) xs) + if equ (ofSym s) k then 0 else (elems (counted A w)).countP fun p => equ p (ofSym s) : Nat)
        else find (ofSym s) xs :=
  ⟨(elems (counted A w)).foldl (bump k) xs, getrefs_ok hl hu hargs hx ht hf hb, (fold_bump k aANY _ _ _ ht hx).1, (fold_bump k aANY _ _ _ ht hx).2.1,
    fun s => (fold_bump k s _ _ _ ht hx).2.2⟩

/-! ## Examples -/

/-- The library with `cps:getrefs`. -/
def refsSt : St := define "cps:getrefs" getrefsV libSt

/-- The call `(* n _2 _1)` with the continuation `_1`, in a function with the arguments `(n _1)`, added to the table `((n . 2))`. -/
def refsCall : Val := L [S "cps:getrefs", Q (L [S "n", S "_1"]), Q (S "_1"), Q (L [cons (S "n") (N 2)]), Q (L [S "*", S "n", S "_2", S "_1"])]

/-- The hypotheses of `C89_getrefs`, and the result: `((_1 . 0) (_2 . 1) (n . 3))`. -/
example : Sorted [] ∧ Uses refsUses [] refsSt ∧ Counts 2 [cons (S "n") (N 2)] ∧
    (∀ p ∈ elems (counted (L [S "n", S "_1"]) (L [S "*", S "n", S "_2", S "_1"])), p.isTailCall = false) ∧
    Unmarked (counted (L [S "n", S "_1"]) (L [S "*", S "n", S "_2", S "_1"])) ∧
    ((evalN 80 nil refsCall refsSt >>= fun p => .ok p.1) : Res Val) = .ok (L [cons (S "_1") (N 0), cons (S "_2") (N 1), cons (S "n") (N 3)]) := by
  refine ⟨by simp [Sorted], ?_, ?_, by decide +kernel, .inl (by decide +kernel), by decide +kernel⟩
  · unfold Uses; decide +kernel
  · intro x hx
    simp only [List.mem_singleton] at hx
    exact ⟨n "n", 2, hx, Nat.le_refl _⟩

/-- A call of the continuation itself counts it as a use with 0: `(_1 n)`. -/
example : ((evalN 80 nil (L [S "cps:getrefs", Q (L [S "n", S "_1"]), Q (S "_1"), nil, Q (L [S "_1", S "n"])]) refsSt >>= fun p => .ok p.1) : Res Val) =
    .ok (L [cons (S "n") (N 1), cons (S "_1") (N 0)]) := by
  decide +kernel

end Lib
end Mnml
