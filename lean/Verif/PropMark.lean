import Verif.PropRefs

/-!
# C91: the tables of types

`cps:replace` and `cps:type:mark` of `share/mnml/cps.l`: how calls get the name of their continuation, and how a type is added to what is known
about a symbol.
-/

namespace Mnml
namespace Lib

open Val Lex

/-! ## The text -/

/-- The body of `cps:replace` (`share/mnml/cps.l:171-173`). -/
def replaceIf : Val :=
  L [S "if", S "nvar", L [S "rev", L [S "cons", S "nvar", L [S "cdr", L [S "rev", S "args"]]]], S "args"]

/-- `cps:replace` (`share/mnml/cps.l:169-173`). -/
def replaceSrc : Val :=
  L [S "def", S "cps:replace", L [S "nvar", S "args"], str "Replace the last argument by the symbol of the next continuation.", replaceIf]

/-- The value of `cps:replace` once defined. -/
def replaceV : Val := cons (L [S "nvar", S "args"]) (cons nil (L [replaceIf]))

/-- The body of `cps:type:mark` (`share/mnml/cps.l:187-192`). -/
def markIf : Val :=
  L [S "if", L [S "sym?", S "key"], L [S "let", L [cons (S "value") (L [S "assoc", S "key", S "acc"])],
    L [S "if", S "value", L [S "replc", S "key", L [S "cons", S "type", S "value"], S "acc"],
      L [S "cons", L [S "cons", S "key", L [S "cons", S "type", nil]], S "acc"]]], S "acc"]

/-- `cps:type:mark` (`share/mnml/cps.l:185-192`). -/
def markSrc : Val :=
  L [S "def", S "cps:type:mark", L [S "key", S "type", S "acc"], str "Add TYPE to KEY in ACC.", markIf]

/-- The value of `cps:type:mark` once defined. -/
def markV : Val := cons (L [S "key", S "type", S "acc"]) (cons nil (L [markIf]))

theorem replace_def (st : St) (h : st.globals Native.def_.name = some Native.def_.val) :
    sem nil replaceSrc st = .ok (S "cps:replace", define "cps:replace" replaceV st) := ok_def h rfl

theorem mark_def (st : St) (h : st.globals Native.def_.name = some Native.def_.val) :
    sem nil markSrc st = .ok (S "cps:type:mark", define "cps:type:mark" markV st) := ok_def h rfl

/-- `share/mnml/cps.l:164-173`. -/
def replaceText : List UInt8 :=
  fileText [
      "\n",
      "#\n",
      "# Infer type signature from a CPS funcall.\n",
      "#\n",
      "\n",
      "(def cps:replace (nvar args)\n",
      "\t\"Replace the last argument by the symbol of the next continuation.\"\n",
      "\t(if nvar\n",
      "\t\t(rev (cons nvar (cdr (rev args))))\n",
      "\t\targs))\n"]

/-- `share/mnml/cps.l:185-192`. -/
def markText : List UInt8 :=
  fileText [
      "(def cps:type:mark (key type acc)\n",
      "\t\"Add TYPE to KEY in ACC.\"\n",
      "\t(if (sym? key)\n",
      "\t\t(let ((value . (assoc key acc)))\n",
      "\t\t\t(if value\n",
      "\t\t\t\t(replc key (cons type value) acc)\n",
      "\t\t\t\t(cons (cons key (cons type NIL)) acc)))\n",
      "\t\tacc))\n"]

theorem replace_text : drain (fun _ => .unsupported) 11 .init replaceText = .ok ⟨[], [], none, [replaceSrc]⟩ := by
  rw [drain_eq]
  simp only [replaceText, fileText, List.flatMap_cons, List.flatMap_nil, litToList]
  decide +kernel

theorem mark_text : drain (fun _ => .unsupported) 9 .init markText = .ok ⟨[], [], none, [markSrc]⟩ := by
  rw [drain_eq]
  simp only [markText, fileText, List.flatMap_cons, List.flatMap_nil, litToList]
  decide +kernel

/-! ## `cps:replace` -/

/-- The definitions that `cps:replace` relies on. -/
def replaceUses : List (Sym × Val) := (n "cps:replace", replaceV) :: revUses

/-- **C91.** `(cps:replace V W)` is the list W with V in the place of its last element, or W itself if V is NIL. -/
theorem C91_replace {l : List Entry} {st : St} (hl : Sorted l) (hu : Uses replaceUses l st) {ev ew v x : Val} {xs : List Val}
    (hargs : evalSeq sem (envVal l) [ev, ew] st = .ok ([v, ofList (xs ++ [x])], st)) :
    sem (envVal l) (L [S "cps:replace", ev, ew]) st = .ok (if v.isNil then ofList (xs ++ [x]) else ofList (xs ++ [v]), st) := by
  refine ok_call (d := []) (as := [S "nvar", S "args"]) (vs := [ev, ew]) (xs := [v, ofList (xs ++ [x])]) (hu.at 0 rfl) rfl rfl hargs
    (loop_done (ok_prog1.trans ?_) (by split <;> exact tail_ofList _))
  have hE := (Near.refl (ps := [n "nvar", n "args"]) hl).merge (b := [⟨false, n "args", ofList (xs ++ [x])⟩, ⟨false, n "nvar", v⟩]) (by simp)
  have gV : getEnv (mergeEnv l [⟨false, n "args", ofList (xs ++ [x])⟩, ⟨false, n "nvar", v⟩]) (n "nvar") = some v := getEnv_merge_in hl rfl
  have gA : getEnv (mergeEnv l [⟨false, n "args", ofList (xs ++ [x])⟩, ⟨false, n "nvar", v⟩]) (n "args") = some (ofList (xs ++ [x])) :=
    getEnv_merge_in hl rfl
  change sem (envVal (mergeEnv l [⟨false, n "args", ofList (xs ++ [x])⟩, ⟨false, n "nvar", v⟩])) _ st = _
  generalize mergeEnv l [⟨false, n "args", ofList (xs ++ [x])⟩, ⟨false, n "nvar", v⟩] = E at hE gV gA ⊢
  have u := hE.uses hu (by decide +kernel)
  have ur := u.sub (T' := revUses) (fun p hp => by simp [replaceUses, hp])
  cases hv : v.isNil with
  | true =>
    have : v = nil := by cases v <;> first | rfl | cases hv
    subst this
    exact ok_if_else (by res) (ok_sym (resolves_local gV)) (ok_sym (resolves_local gA))
  | false =>
    have h1 := C50_rev hE.sorted ur ur (ok_sym (tc := false) (resolves_local gA))
    rw [elems_ofList, List.reverse_append, List.reverse_singleton, List.singleton_append] at h1
    have h2 := ok_two (op := .cons) (tc := false) (f := false) (t1 := false) (t2 := false) (s := n "cons") (by res) (ok_sym (tc := false) (resolves_local gV))
      (ok_one (op := .cdr) (tc := false) (f := false) (t1 := false) (s := n "cdr") (v := ofList xs.reverse) (by res) h1 rfl (by decide) rfl) rfl
      (show binary .cons v (ofList xs.reverse) = .ok (ofList (v :: xs.reverse)) from rfl)
    have h3 := C50_rev hE.sorted ur ur h2
    rw [elems_ofList, List.reverse_cons, List.reverse_reverse] at h3
    exact ok_if_then (by res) (ok_sym (resolves_local gV)) hv h3

/-! ## `cps:type:mark` -/

/-- The definitions that `cps:type:mark` relies on. -/
def markUses : List (Sym × Val) :=
  [(n "cps:type:mark", markV), (n "let", Native.let_.val), (n "sym?", Native.issym.val)] ++ assocUses ++ replcUses

/-- The table after the type T has been added to the key K. -/
def typed (k t : Val) (xs : List Val) : List Val :=
  if k.isSym then if (find k xs).isNil then cons k (L [t]) :: xs else replaceKey k (cons t (find k xs)) xs else xs

theorem find_mem {k : Val} {xs : List Val} (h : (find k xs).isNil = false) : ∃ x ∈ xs, equ k x.car = true := by
  unfold find at h
  cases hf : xs.find? fun x => equ x.car k with
  | none => rw [hf] at h; cases h
  | some x =>
    refine ⟨x, List.mem_of_find?_eq_some hf, ?_⟩
    rw [equ_comm']
    simpa using List.find?_some hf

theorem find_same {j k : Val} (h : equ k j = true) (xs : List Val) : find j xs = find k xs := by
  unfold find
  congr 3
  funext x
  rw [equ_comm' x.car, equ_comm' x.car, equ_trans' h]

/-- What the table says afterwards. -/
theorem find_typed (k t j : Val) (xs : List Val) : find j (typed k t xs) = if k.isSym && equ k j then cons t (find j xs) else find j xs := by
  unfold typed
  cases hs : k.isSym with
  | false => simp
  | true =>
    simp only [if_true, Bool.true_and]
    cases hn : (find k xs).isNil with
    | true =>
      have hnil : find k xs = nil := by cases hf : find k xs <;> rw [hf] at hn <;> first | rfl | cases hn
      cases hq : equ k j with
      | true =>
        simp only [if_true]
        rw [find_pos (x := cons k _) hq, find_same hq, hnil]
        rfl
      | false => exact find_neg (x := cons k _) hq
    | false =>
      cases hq : equ k j with
      | true =>
        simp only [if_true, Bool.false_eq_true, if_false]
        rw [find_replc k j _ xs hq (find_mem hn), find_same hq]
      | false => exact find_replc_ne k j _ xs hq

/-- Tables without marks and without empty entries. -/
def Types (xs : List Val) : Prop := ∀ x ∈ xs, x.car.isTailCall = false ∧ x.cdr.isTailCall = false ∧ x.cdr.isNil = false

theorem Types.typed {k t : Val} {xs : List Val} (h : Types xs) (hk : k.isTailCall = false) : Types (typed k t xs) := by
  unfold Lib.typed
  split
  · split
    · intro x hx
      rcases List.mem_cons.1 hx with rfl | hx
      · exact ⟨hk, rfl, rfl⟩
      · exact h x hx
    · intro x hx
      obtain ⟨y, hy, rfl⟩ := List.mem_map.1 hx
      split
      · exact ⟨hk, rfl, rfl⟩
      · exact h y hy
  · exact h

theorem Types.distinct {k t : Val} {xs : List Val} (h : Types xs) (hd : Distinct xs) : Distinct (Lib.typed k t xs) := by
  unfold Lib.typed
  split
  · split
    · rename_i hn
      refine List.pairwise_cons.2 ⟨fun y hy => ?_, hd⟩
      cases hq : equ k y.car with
      | false => exact hq
      | true =>
        unfold find at hn
        cases hf : xs.find? fun x => equ x.car k with
        | none =>
          have := List.find?_eq_none.1 hf y hy
          rw [equ_comm', hq] at this
          exact absurd rfl this
        | some z =>
          rw [hf] at hn
          have := (h z (List.mem_of_find?_eq_some hf)).2.2
          exact absurd hn (by simp [this])
    · refine List.pairwise_map.2 (hd.imp fun {x y} hxy => ?_)
      cases h1 : equ k x.car <;> cases h2 : equ k y.car <;>
        simp only [if_true, if_false, Bool.false_eq_true, cons, car]
      · exact hxy
      · rw [equ_comm']; exact h1
      · exact h2
      · rw [equ_trans' h1, h2] at hxy; cases hxy
  · exact hd

/-- The body of `cps:type:mark`. -/
theorem mark_body {E : List Entry} {st : St} (hs : Sorted E) (u : Uses markUses E st) {k t : Val} {xs : List Val} (hx : Untailed xs)
    (hf : isFunc (find k xs) = false) (gK : getEnv E (n "key") = some k) (gT : getEnv E (n "type") = some t)
    (gX : getEnv E (n "acc") = some (ofList xs)) : sem (envVal E) markIf st = .ok (ofList (typed k t xs), st) := by
  have hsym : sem (envVal E) (L [S "sym?", S "key"]) st = .ok (ofBool k.isSym, st) :=
    ok_one (op := .issym) (by res) (ok_sym (resolves_local gK)) rfl (by decide) rfl
  unfold typed
  cases hks : k.isSym with
  | false =>
    rw [hks] at hsym
    exact ok_if_else (by res) hsym (ok_sym (resolves_local gX))
  | true =>
    rw [hks] at hsym
    refine ok_if_then (a := tru) (by res) hsym rfl ?_
    rw [if_pos rfl]
    have ua := u.sub (T' := assocUses) (fun p hp => by simp [markUses, hp])
    have hval : sem (envVal E) (L [S "assoc", S "key", S "acc"]) st = .ok (find k xs, st) :=
      C51_assoc hs ua ua hx (okSeq_cons (ok_sym (resolves_local gK)) (okSeq_cons (ok_sym (resolves_local gX)) okSeq_nil))
    refine ok_let_env (b := [⟨false, n "value", find k xs⟩]) (st1 := st) (by res) (okBind_cons (b := []) (st1 := st) hval (letMark_of_not_func _ _ _ hf) okBind_nil)
      (ok_prog1.trans ?_)
    have hF := (Near.refl (ps := [n "key", n "type", n "acc", n "value"]) hs).merge (b := [⟨false, n "value", find k xs⟩]) (by simp)
    have gK1 := getEnv_merge_skip (b := [⟨false, n "value", find k xs⟩]) hs rfl gK
    have gT1 := getEnv_merge_skip (b := [⟨false, n "value", find k xs⟩]) hs rfl gT
    have gX1 := getEnv_merge_skip (b := [⟨false, n "value", find k xs⟩]) hs rfl gX
    have gV1 : getEnv (mergeEnv E [⟨false, n "value", find k xs⟩]) (n "value") = some (find k xs) := getEnv_merge_in hs rfl
    generalize mergeEnv E [⟨false, n "value", find k xs⟩] = F at hF gK1 gT1 gX1 gV1 ⊢
    have u1 := hF.uses u (by decide +kernel)
    cases hn : (find k xs).isNil with
    | true =>
      have hnil : find k xs = nil := by cases hf : find k xs <;> rw [hf] at hn <;> first | rfl | cases hn
      rw [hnil] at gV1
      exact ok_if_else (by res) (ok_sym (resolves_local gV1)) (ok_two (op := .cons) (by res) (ok_two (op := .cons) (by res) (ok_sym (resolves_local gK1))
        (ok_two (op := .cons) (by res) (ok_sym (resolves_local gT1)) ok_nil rfl rfl) rfl rfl) (ok_sym (resolves_local gX1)) rfl rfl)
    | false =>
      have ur := u1.sub (T' := replcUses) (fun p hp => by simp [markUses, hp])
      have := C51_replc (w := ofList xs) hF.sorted ur ur (e1 := S "key") (e2 := L [S "cons", S "type", S "value"]) (e3 := S "acc")
        (okSeq_cons (ok_sym (resolves_local gK1)) (okSeq_cons (ok_two (op := .cons) (by res) (ok_sym (resolves_local gT1))
          (ok_sym (resolves_local gV1)) rfl rfl) (okSeq_cons (ok_sym (resolves_local gX1)) okSeq_nil)))
      rw [elems_ofList] at this
      exact ok_if_then (by res) (ok_sym (resolves_local gV1)) hn this

/-- **C91.** `(cps:type:mark K T L)` puts the type T in front of what the table L has for K, and changes no other entry; nothing is recorded for a K
that is not a symbol. A table with one entry for each key stays one. -/
theorem C91_mark {l : List Entry} {st : St} (hl : Sorted l) (hu : Uses markUses l st) {ek et ex k t : Val} {xs : List Val} (hx : Types xs)
    (hk : k.isTailCall = false) (hf : isFunc (find k xs) = false)
    (hargs : evalSeq sem (envVal l) [ek, et, ex] st = .ok ([k, t, ofList xs], st)) :
    ∃ ys, sem (envVal l) (L [S "cps:type:mark", ek, et, ex]) st = .ok (ofList ys, st) ∧ Types ys ∧ (Distinct xs → Distinct ys) ∧
      ∀ j, find j ys = if k.isSym && equ k j then cons t (find j xs) else find j xs := by
  refine ⟨typed k t xs, ?_, hx.typed hk, hx.distinct, fun j => find_typed k t j xs⟩
  refine ok_call (d := []) (as := [S "key", S "type", S "acc"]) (vs := [ek, et, ex]) (xs := [k, t, ofList xs]) (hu.at 0 rfl) rfl rfl hargs
    (loop_done (ok_prog1.trans ?_) (tail_ofList _))
  have hE := (Near.refl (ps := [n "key", n "type", n "acc", n "value"]) hl).merge (b := [⟨false, n "acc", ofList xs⟩, ⟨false, n "type", t⟩, ⟨false, n "key", k⟩])
    (by simp)
  have gK : getEnv (mergeEnv l [⟨false, n "acc", ofList xs⟩, ⟨false, n "type", t⟩, ⟨false, n "key", k⟩]) (n "key") = some k := getEnv_merge_in hl rfl
  have gT : getEnv (mergeEnv l [⟨false, n "acc", ofList xs⟩, ⟨false, n "type", t⟩, ⟨false, n "key", k⟩]) (n "type") = some t := getEnv_merge_in hl rfl
  have gX : getEnv (mergeEnv l [⟨false, n "acc", ofList xs⟩, ⟨false, n "type", t⟩, ⟨false, n "key", k⟩]) (n "acc") = some (ofList xs) :=
    getEnv_merge_in hl rfl
  change sem (envVal (mergeEnv l [⟨false, n "acc", ofList xs⟩, ⟨false, n "type", t⟩, ⟨false, n "key", k⟩])) _ st = _
  generalize mergeEnv l [⟨false, n "acc", ofList xs⟩, ⟨false, n "type", t⟩, ⟨false, n "key", k⟩] = E at hE gK gT gX ⊢
  exact mark_body hE.sorted (hE.uses hu (by decide +kernel)) (fun x hm => ⟨(hx x hm).1, (hx x hm).2.1⟩) hf gK gT gX

/-! ## Examples -/

/-- The library with the two functions. -/
def markSt : St := define "cps:type:mark" markV (define "cps:replace" replaceV libSt)

/-- The hypotheses of the theorems, and a run of each. -/
example : Sorted [] ∧ Uses replaceUses [] markSt ∧ Uses markUses [] markSt ∧ Types [cons (S "n") (L [S "NUMBER"])] ∧
    Distinct [cons (S "n") (L [S "NUMBER"])] ∧ isFunc (find (S "n") [cons (S "n") (L [S "NUMBER"])]) = false ∧
    ((evalN 60 nil (L [S "cps:replace", Q (S "_2"), Q (L [N 1, S "k"])]) markSt >>= fun p => .ok p.1) : Res Val) = .ok (L [N 1, S "_2"]) ∧
    ((evalN 60 nil (L [S "cps:type:mark", Q (S "n"), Q (S "ATOM"), Q (L [cons (S "n") (L [S "NUMBER"])])]) markSt >>= fun p => .ok p.1) : Res Val) =
      .ok (L [cons (S "n") (L [S "ATOM", S "NUMBER"])]) := by
  refine ⟨List.Pairwise.nil, ?_, ?_, ?_, ?_, by decide +kernel, by decide +kernel, by decide +kernel⟩
  · unfold Uses; decide +kernel
  · unfold Uses; decide +kernel
  · intro x hx
    rw [List.mem_singleton.1 hx]
    exact ⟨rfl, rfl, rfl⟩
  · exact List.pairwise_singleton _ _

end Lib
end Mnml
