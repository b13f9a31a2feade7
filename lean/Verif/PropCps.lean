import Verif.LibCps
import Verif.PropNum
import Verif.PropTerm

/-!
# C82: conversion to continuation-passing style

`cps:lift` and `>&` of `share/mnml/cps.l`: what they compute. What it means is in `Verif.PropCpsDen`.
-/

namespace Mnml
namespace Lib

open Val

/-! ## Placeholders -/

/-- The name of the placeholder with number K: `_K`. -/
def ph (k : Nat) : Sym := Sym.ofChars ('_' :: (toString k).toList)

theorem toString_ascii (k : Nat) : ∀ c ∈ (toString k).toList, 48 ≤ c.toNat ∧ c.toNat < 58 := by
  intro c hc
  have h : c.isDigit = true := by
    rw [Nat.toString_eq_repr, Nat.toList_repr] at hc
    exact Nat.isDigit_of_mem_toDigits (by decide) (by decide) hc
  simp only [Char.isDigit, Bool.and_eq_true, decide_eq_true_eq] at h
  have h1 : (48 : Nat) ≤ c.toNat := h.1
  have h2 : c.toNat ≤ 57 := h.2
  omega

/-- `sym` makes the placeholder from its text. -/
theorem natSym_ph (k : Nat) : natSym (cons (chr 95) (str (toString k))) = .ok (ofSym (ph k)) := by
  have e : cons (chr 95) (str (toString k)) = strVal (95 :: (toString k).toList.map fun c => (c.toNat : Int)) := by
    simp [strVal, ofList, str, Function.comp_def]
  rw [e, natSym_chars _ (by simp)]
  refine congrArg (fun s => Res.ok (ofSym s)) ?_
  have hb : ∀ cs : List Char, (∀ c ∈ cs, 48 ≤ c.toNat ∧ c.toNat < 58) →
      (cs.map fun c => (c.toNat : Int)).map byteOf = cs.map fun c => UInt8.ofNat c.toNat := by
    intro cs h
    rw [List.map_map]
    refine List.map_congr_left fun c hc => ?_
    have := h c hc
    show UInt8.ofNat ((c.toNat : Int) % 256).toNat = _
    congr 1
    omega
  have h95 : byteOf 95 = 95 := by decide
  have h0 : (0 : UInt8) ∉ ((toString k).toList.map fun c => UInt8.ofNat c.toNat) := by
    intro hm
    obtain ⟨c, hc, e⟩ := List.mem_map.1 hm
    have := toString_ascii k c hc
    have h2 := congrArg UInt8.toNat e
    rw [UInt8.toNat_ofNat'] at h2
    simp at h2
    omega
  rw [List.map_take, List.map_cons, hb _ (toString_ascii k), h95]
  unfold ph Sym.ofChars
  generalize (toString k).toList = cs at h0 ⊢
  rw [List.map_cons]
  generalize hd : (cs.map fun c => UInt8.ofNat c.toNat) = ds at h0 ⊢
  show Sym.ofBytes (List.take 16 (95 :: ds) ++ [0]) = Sym.ofBytes (95 :: ds)
  refine Sym.ext' ?_
  have t : ∀ ds : List UInt8, 0 ∉ ds → ds.takeWhile (· ≠ 0) = ds := fun ds h => by
    have := List.takeWhile_append_of_pos (p := (· ≠ (0 : UInt8))) (l₁ := ds) (l₂ := [])
      (fun x hx => decide_eq_true (fun h' => h (h' ▸ hx)))
    simpa using this
  have h1 : (0 : UInt8) ∉ (95 :: ds) := by simp [h0]
  have h2 : (0 : UInt8) ∉ List.take 16 (95 :: ds) := fun h => h1 (List.mem_of_mem_take h)
  have t2 : (List.take 16 (95 :: ds) ++ [0]).takeWhile (· ≠ 0) = List.take 16 (95 :: ds) := by
    rw [List.takeWhile_append_of_pos (p := (· ≠ (0 : UInt8))) (fun x hx => decide_eq_true (fun h' => h2 (h' ▸ hx)))]
    simp
  simp only [Sym.ofBytes, strncpy16]
  rw [t2, t _ h1, List.take_take]
  rfl

/-! ## The environments -/

/-- The definitions that the conversion relies on. -/
def cpsUses : List (Sym × Val) :=
  [(n "cps:lift", cpsLiftV), (n "cps:lift-ith", cpsLiftIthV), (n "cps:lift-ite", cpsLiftIteV), (n "cps:lift-any", cpsLiftAnyV),
   (n "cps:swap", cpsSwapV), (n "cps:symbol", cpsSymbolV), (n "cond", Native.cond.val), (n "match", Native.match_.val),
   (n "list", Native.list.val), (n "sym", Native.sym.val), (n "quote", Native.quote.val),
   (n "len", Native.len.val), (n ">&", toCpsV)] ++ ntoaUses ++ appendUses

/-- The names bound by the conversion. -/
def cpsArgs : List Sym :=
  [n "kvar", n "counter", n "body", n "e", n "id", n "result", n "larg", n "next", n "op", n "stmt", n "then", n "then:next", n "then:body",
   n "nbody", n "stmt:next", n "stmt:body", n "else", n "else:next", n "else:body", n "swapped", n "res", n "largs", n "lfunc",
   n "fsym", n "args", n "closure", n "arglen", n "fargs", n "lifted"] ++ foldArgs

/-- A binding of a `let` with a pattern. -/
theorem okBind_pat {l b : List Entry} {st st1 st2 : St} {t1 t2 t3 : Bool} {p q e r a w : Val}
    (hx : sem (envVal (mergeEnv l b)) e st = .ok (a, st1))
    (hr : letBind sem (envVal l) r (envVal ((bindList (pair t3 p q) a).reverse ++ b)) st1 = .ok (w, st2)) :
    letBind sem (envVal l) (pair t1 (pair t2 (pair t3 p q) e) r) (envVal b) st = .ok (w, st2) := by
  have e0 : letBind sem (envVal l) (pair t1 (pair t2 (pair t3 p q) e) r) (envVal b) = (do
      let tmp ← M.lift (merge (envVal l) (envVal b))
      let val ← sem tmp e
      let val' ← M.lift (letMark tmp (pair t3 p q) val)
      letBind sem (envVal l) r (Val.bind (envVal b) (pair t3 p q) val')) := rfl
  have hm : ∀ tmp, letMark tmp (pair t3 p q) a = .ok a := fun tmp => rfl
  rw [e0, merge_envVal, M.lift_ok, M.pure_bind, M.bind_congr_ok hx, hm, M.lift_ok, M.pure_bind, bind_eq]
  exact hr

theorem cps_symbol {E : List Entry} {st : St} (hE : Sorted E) (u : Uses cpsUses E st) (hd : getEnv E (n "descend") = none)
    {k : Nat} (hk : (k : Int) ≤ i64max) {e : Val} (he : sem (envVal E) e st = .ok (num k, st)) :
    sem (envVal E) (L [S "cps:symbol", e]) st = .ok (ofSym (ph k), st) := by
  refine ok_call (d := []) (as := [S "id"]) (vs := [e]) (xs := [num k]) (u.at 5 rfl) rfl rfl (okSeq_cons he okSeq_nil)
    (loop_done (ok_prog1.trans ?_) rfl)
  show sem (envVal (mergeEnv E [⟨false, n "id", num k⟩])) _ st = _
  have u1 : Uses cpsUses (mergeEnv E [⟨false, n "id", num k⟩]) st := uses_merge [n "id"] u hE rfl (by decide)
  have hs := sorted_mergeEnv [⟨false, n "id", num k⟩] hE
  have hd1 : getEnv (mergeEnv E [⟨false, n "id", num k⟩]) (n "descend") = none := by
    rw [getEnv_merge_out hE (show n "descend" ∉ [n "id"] by decide), hd]
  have un := u1.sub (T' := ntoaUses) (fun p hp => by simp [cpsUses, hp])
  have hn := C52_ntoa hs (k := k) (e := S "id") (st1 := st) un un hd1 hk (ok_sym (by res))
  exact ok_one (op := .sym) (u1.at 9 rfl) (ok_two (op := .cons) (by res) (ok_chr 95) hn rfl rfl) rfl (by decide) (natSym_ph k)

/-! ## `cps:swap` -/

/-- The number of lists within a list, at any depth. -/
def lists : Val → Nat
  | pair _ a d => (if a.isList then 1 + lists a else 0) + lists d
  | _ => 0

/-- What `cps:swap` makes of a list: the next number, and the list with its lists replaced by placeholders, followed by K. -/
def swapped (k : Val) (c : Nat) : List Val → Nat × Val
  | [] => (c, k)
  | x :: xs =>
    let r := swapped k c xs
    if x.isList then (r.1 + 1 + lists x, cons (ofSym (ph r.1)) r.2) else (r.1, cons x r.2)

theorem swapped_next (k : Val) (c : Nat) (w : Val) : (swapped k c (elems w)).1 = c + lists w := by
  induction w with
  | pair t a d _ ih =>
    simp only [elems, swapped, lists]
    split <;> simp only [ih] <;> omega
  | nil => rfl
  | _ => rfl

theorem sizeOf_elems {x w : Val} (hx : x ∈ elems w) (hl : x.isList = true) : sizeOf x < sizeOf w := by
  induction w with
  | pair t a d _ ih =>
    simp only [elems, List.mem_cons] at hx
    rcases hx with rfl | hx
    · simp only [pair.sizeOf_spec]; omega
    · have := ih hx
      simp only [pair.sizeOf_spec]; omega
  | nil => simp [elems] at hx
  | _ => simp [elems] at hx; subst hx; cases hl

/-- The number that a value stands for. -/
def natOf : Val → Nat
  | num i => i.toNat
  | _ => 0

open Classical in
/-- One step of the fold of `cps:swap` over the elements of W. -/
noncomputable def swapStep (w x y : Val) : M Val :=
  need (decide (x ∈ elems w ∧ ∃ (k : Nat) (r : Val), y = cons (num k) r ∧ ((k + (if x.isList then 1 + lists x else 0) : Nat) : Int) ≤ i64max))
    (pure (if x.isList then cons (num (natOf y.car + 1 + lists x : Nat)) (cons (ofSym (ph (natOf y.car))) y.cdr)
      else cons y.car (cons x y.cdr)))

open Classical in
theorem swap_fold {w k : Val} {c : Nat} {st : St} : (xs : List Val) → (∀ x ∈ xs, x ∈ elems w) →
    ((swapped k c xs).1 : Int) ≤ i64max →
    xs.foldrM (swapStep w) (cons (num c) k) st = .ok (cons (num (swapped k c xs).1) (swapped k c xs).2, st)
  | [], _, _ => rfl
  | x :: xs, hw, hb => by
    have hle : (swapped k c xs).1 ≤ (swapped k c (x :: xs)).1 := by
      simp only [swapped]; split <;> simp only <;> omega
    have ih := swap_fold (w := w) (k := k) (c := c) (st := st) xs (fun y hy => hw y (by simp [hy])) (by omega)
    rw [List.foldrM_cons, M.bind_congr_ok ih]
    have hb' : (((swapped k c xs).1 + (if x.isList then 1 + lists x else 0) : Nat) : Int) ≤ i64max := by
      simp only [swapped] at hb
      split at hb <;> simp_all <;> omega
    unfold swapStep need
    rw [if_pos (decide_eq_true ⟨hw x (by simp), _, _, rfl, hb'⟩)]
    simp only [swapped, cons, car, cdr, natOf, Int.toNat_natCast]
    split <;> rfl

/-- The body of the function that `cps:swap` folds. -/
def swapBody : Val :=
  L [L [S "if", L [S "lst?", S "e"], L [S "let",
    L [cons (S "larg") (L [S "cps:symbol", S "id"]), cons (cons (S "next") wild) (L [S "cps:swap", S "kvar",
    L [S "+", S "id", N 1], S "e"])], L [S "cons", S "next", L [S "cons", S "larg", S "result"]]], L [S "cons",
    S "id", L [S "cons", S "e", S "result"]]]]

theorem cast_succ (i : Nat) : (i : Int) + 1 = ((i + 1 : Nat) : Int) := by omega

theorem add_num {i j : Int} (h : inI64 (i + j) = true) : binary .add (num i) (num j) = .ok (num (i + j)) := by
  simp [binary, mathV, number, arith, h]

theorem add_one {i : Nat} (h : ((i + 1 : Nat) : Int) ≤ i64max) : binary .add (num i) (num 1) = .ok (num (i + 1 : Nat)) := by
  rw [add_num]
  · rw [cast_succ]
  · rw [cast_succ]; exact inI64_nat h

open Classical in
/-- **C82.** `(cps:swap K C W)` for every list W: the next number and the list with each list in it replaced by a placeholder,
followed by K. -/
theorem C82_swap {l : List Entry} {st : St} (hl : Sorted l) (hu : Uses cpsUses l st) (hd : getEnv l (n "descend") = none) (w : Val)
    {E : List Entry} (hE : Near cpsArgs l E) {ek ec ew k : Val} {c : Nat} (hc : ((c + lists w : Nat) : Int) ≤ i64max)
    (hargs : evalSeq sem (envVal E) [ek, ec, ew] st = .ok ([k, num c, w], st)) :
    sem (envVal E) (L [S "cps:swap", ek, ec, ew]) st = .ok (cons (num (c + lists w : Nat)) (swapped k c (elems w)).2, st) := by
  have u := hE.uses hu (by decide +kernel)
  refine ok_call (d := []) (as := [S "kvar", S "counter", S "body"]) (vs := [ek, ec, ew]) (xs := [k, num c, w]) (u.at 4 rfl) rfl rfl hargs
    (loop_done (ok_prog1.trans ?_) rfl)
  have hE1 := hE.merge (b := [⟨false, n "body", w⟩, ⟨false, n "counter", num c⟩, ⟨false, n "kvar", k⟩]) (by simp [cpsArgs])
  have gK : getEnv (mergeEnv E [⟨false, n "body", w⟩, ⟨false, n "counter", num c⟩, ⟨false, n "kvar", k⟩]) (n "kvar") = some k :=
    getEnv_merge_in hE.sorted rfl
  have gC : getEnv (mergeEnv E [⟨false, n "body", w⟩, ⟨false, n "counter", num c⟩, ⟨false, n "kvar", k⟩]) (n "counter") = some (num c) :=
    getEnv_merge_in hE.sorted rfl
  have gB : getEnv (mergeEnv E [⟨false, n "body", w⟩, ⟨false, n "counter", num c⟩, ⟨false, n "kvar", k⟩]) (n "body") = some w :=
    getEnv_merge_in hE.sorted rfl
  change sem (envVal (mergeEnv E [⟨false, n "body", w⟩, ⟨false, n "counter", num c⟩, ⟨false, n "kvar", k⟩])) _ st = _
  generalize mergeEnv E [⟨false, n "body", w⟩, ⟨false, n "counter", num c⟩, ⟨false, n "kvar", k⟩] = F at hE1 gK gC gB ⊢
  have u1 := hE1.uses hu (by decide +kernel)
  have uf : Uses foldrUses F st := u1.sub (fun p hp => by simp [cpsUses, appendUses, hp])
  have hsF := hE1.sorted
  refine (C49_foldr (I := fun s => s = st) (st1 := st) (F := cons (L [S "e", cons (S "id") (S "result")]) (cons (envVal F) swapBody))
    (w := w) (a := cons (num c) k) (g := swapStep w) hsF (fun s h => by rw [h]; exact uf) ?_ uf rfl
    (okSeq_cons (ok_lambda (by res)) (okSeq_cons (ok_sym (resolves_local gB)) (okSeq_cons
      (ok_two (op := .cons) (by res) (ok_sym (resolves_local gC)) (ok_sym (resolves_local gK)) rfl rfl) okSeq_nil)))
    ?_ ?_ rfl).1
  · refine acts2_lisp (p := S "e") (q := cons (S "id") (S "result")) rfl fun m x y st0 v st' hm h0 hg => ?_
    cases h0
    obtain ⟨hx, hv⟩ := need_ok hg
    obtain ⟨hxw, i, r, rfl, hi⟩ := of_decide_eq_true hx
    cases hv
    refine ⟨?_, by split <;> rfl, rfl⟩
    have hN := ((hE1.trans (hm.mono (by simp [foldArgs, cpsArgs]))).capture hE1).merge
      (b := [⟨false, n "result", r⟩, ⟨false, n "id", num i⟩, ⟨false, n "e", x⟩]) (by simp [cpsArgs])
    have hsm := sorted_mergeEnv F hm.sorted
    have gX : getEnv (mergeEnv (mergeEnv m F) [⟨false, n "result", r⟩, ⟨false, n "id", num i⟩, ⟨false, n "e", x⟩]) (n "e") = some x :=
      getEnv_merge_in hsm rfl
    have gI : getEnv (mergeEnv (mergeEnv m F) [⟨false, n "result", r⟩, ⟨false, n "id", num i⟩, ⟨false, n "e", x⟩]) (n "id") = some (num i) :=
      getEnv_merge_in hsm rfl
    have gR : getEnv (mergeEnv (mergeEnv m F) [⟨false, n "result", r⟩, ⟨false, n "id", num i⟩, ⟨false, n "e", x⟩]) (n "result") = some r :=
      getEnv_merge_in hsm rfl
    have gK' : getEnv (mergeEnv (mergeEnv m F) [⟨false, n "result", r⟩, ⟨false, n "id", num i⟩, ⟨false, n "e", x⟩]) (n "kvar") = some k :=
      getEnv_merge_skip hsm rfl (getEnv_merge_cap hm.sorted hsF gK)
    refine ok_prog1.trans ?_
    change sem (envVal (mergeEnv (mergeEnv m F) [⟨false, n "result", r⟩, ⟨false, n "id", num i⟩, ⟨false, n "e", x⟩])) _ st = _
    generalize mergeEnv (mergeEnv m F) [⟨false, n "result", r⟩, ⟨false, n "id", num i⟩, ⟨false, n "e", x⟩] = G at hN gX gI gR gK' ⊢
    have u2 := hN.uses hu (by decide +kernel)
    have hsG := hN.sorted
    have hd2 : getEnv G (n "descend") = none := (hN.same _ (by decide +kernel)).trans hd
    have hlst : sem (envVal G) (L [S "lst?", S "e"]) st = .ok (ofBool x.isList, st) :=
      ok_one (op := .islst) (by res) (ok_sym (resolves_local gX)) rfl (by decide) rfl
    cases hxl : x.isList with
    | false =>
      rw [hxl] at hlst
      exact ok_if_else (by res) hlst (ok_two (op := .cons) (by res) (ok_sym (resolves_local gI))
        (ok_two (op := .cons) (by res) (ok_sym (resolves_local gX)) (ok_sym (resolves_local gR)) rfl rfl) rfl rfl)
    | true =>
      rw [hxl] at hlst
      rw [hxl] at hi
      simp only [if_true] at hi
      have hlt := sizeOf_elems hxw hxl
      refine ok_if_then (a := tru) (by res) hlst rfl ?_
      refine ok_let_env (b := [⟨false, n "next", num (i + 1 + lists x : Nat)⟩, ⟨false, n "larg", ofSym (ph i)⟩]) (by res)
        (okBind_cons (a := ofSym (ph i)) (st1 := st) (cps_symbol hsG u2 hd2 (by omega) (ok_sym (resolves_local gI)))
          (letMark_of_not_func _ _ _ rfl)
        (okBind_pat (st1 := st) (a := cons (num (i + 1 + lists x : Nat)) (swapped k (i + 1) (elems x)).2) ?_ okBind_nil)) (ok_prog1.trans ?_)
      · have hG1 := hN.merge (b := [⟨false, n "larg", ofSym (ph i)⟩]) (by simp [cpsArgs])
        have u3 := hG1.uses hu (by decide +kernel)
        have hargs' : evalSeq sem (envVal (mergeEnv G [⟨false, n "larg", ofSym (ph i)⟩])) [S "kvar", L [S "+", S "id", N 1], S "e"] st =
            .ok ([k, num (i + 1 : Nat), x], st) :=
          okSeq_cons (ok_sym (by res)) (okSeq_cons (ok_two (op := .add) (by res) (ok_sym (by res)) (ok_num 1) rfl (add_one (by omega)))
            (okSeq_cons (ok_sym (by res)) okSeq_nil))
        exact C82_swap hl hu hd x hG1 (c := i + 1) (by omega) hargs'
      · have hG2 := hN.merge (b := [⟨false, n "next", num (i + 1 + lists x : Nat)⟩, ⟨false, n "larg", ofSym (ph i)⟩]) (by simp [cpsArgs])
        have u3 := hG2.uses hu (by decide +kernel)
        ev
  · have := swap_fold (w := w) (k := k) (c := c) (st := st) (elems w) (fun _ h => h) (by rw [swapped_next]; exact hc)
    rw [swapped_next] at this
    exact this
  · intro x _ y s v s' _ hg
    obtain ⟨_, hv⟩ := need_ok hg
    cases hv
    split <;> rfl
termination_by sizeOf w

/-! ## Expressions -/

/-- The conditionals that may lack an else branch. -/
inductive Cnd where
  | if_
  | when_
  | unless_
deriving DecidableEq

/-- The name of a conditional. -/
def Cnd.name : Cnd → Sym
  | if_ => n "if"
  | when_ => n "when"
  | unless_ => n "unless"

mutual
/-- The expressions that are converted: atoms, calls of a named function, and conditionals. -/
inductive Ex where
  | atom (v : Val)
  | call (f : Val) (as : Exs)
  | ite (c t e : Ex)
  | ith (op : Cnd) (c t : Ex)
/-- The arguments of a call. -/
inductive Exs where
  | nil
  | cons (a : Ex) (as : Exs)
end

mutual
/-- The value that represents an expression. -/
def Ex.val : Ex → Val
  | .atom v => v
  | .call f as => cons f as.val
  | .ite c t e => L [S "if", c.val, t.val, e.val]
  | .ith op c t => L [ofSym op.name, c.val, t.val]
def Exs.val : Exs → Val
  | .nil => nil
  | .cons a as => cons a.val as.val
end

/-- Not an atom. -/
def Ex.compound : Ex → Bool
  | .atom _ => false
  | _ => true

/-- The number of arguments. -/
def Exs.len : Exs → Nat
  | .nil => 0
  | .cons _ as => as.len + 1

/-- Is a list with this head and so many arguments a conditional? -/
def conditional : Val → Nat → Bool
  | sym _ s, k => k == 2 && (s == n "if" || s == n "when" || s == n "unless") || k == 3 && s == n "if"
  | _, _ => false

mutual
/-- The expressions proper: atoms are not lists, the heads of calls are atoms, and a call is not a conditional. -/
def Ex.Ok : Ex → Prop
  | .atom v => v.isList = false
  | .call f as => f.isList = false ∧ conditional f as.len = false ∧ as.Ok
  | .ite c t e => c.Ok ∧ t.Ok ∧ e.Ok
  | .ith _ c t => c.Ok ∧ t.Ok
def Exs.Ok : Exs → Prop
  | .nil => True
  | .cons a as => a.Ok ∧ as.Ok
end

/-- The representation of `(\\ (P) B)`. -/
def lamV (p : Sym) (b : Val) : Val := L [S "\\", L [ofSym p], b]

mutual
/-- What `cps:lift` makes of an expression: the next number and the form. K: the continuation, as a list that ends the form. -/
def Ex.lift (k : List Val) (c : Nat) : Ex → Nat × Val
  | .atom v => (c, ofList (k ++ [v]))
  | .call f as => as.lifts (cons f (swapped (ofList k) c (elems as.val)).2) c
  | .ite x t e =>
    let r1 := e.lift k c
    let r2 := t.lift k r1.1
    if x.compound then x.lift [lamV (ph r2.1) (L [S "if", ofSym (ph r2.1), r2.2, r1.2])] (r2.1 + 1)
      else (r2.1, L [S "if", x.val, r2.2, r1.2])
  | .ith op x t =>
    let r1 := t.lift k c
    if x.compound then x.lift [lamV (ph r1.1) (L [ofSym op.name, ofSym (ph r1.1), r1.2])] (r1.1 + 1)
      else (r1.1, L [ofSym op.name, x.val, r1.2])
/-- The same for the arguments of a call, around the form B. -/
def Exs.lifts (b : Val) (c : Nat) : Exs → Nat × Val
  | .nil => (c, b)
  | .cons a as =>
    let r := as.lifts b c
    if a.compound then a.lift [lamV (ph r.1) r.2] (r.1 + 1) else r
end

mutual
theorem Ex.isList_val {e : Ex} (h : e.Ok) : e.val.isList = e.compound := by
  cases e with
  | atom v => exact h
  | _ => rfl
end

/-- The arguments as a list. -/
def Exs.toList : Exs → List Ex
  | .nil => []
  | .cons a as => a :: as.toList

theorem Exs.elems_val : (as : Exs) → elems as.val = as.toList.map Ex.val
  | .nil => rfl
  | .cons a as => by
    show a.val :: elems as.val = _
    rw [Exs.elems_val as]
    rfl

theorem Exs.ok_mem : (as : Exs) → as.Ok → ∀ a ∈ as.toList, a.Ok
  | .nil, _, _, h => nomatch h
  | .cons a as, ho, b, h => by
    rcases List.mem_cons.1 h with rfl | h
    · exact ho.1
    · exact Exs.ok_mem as ho.2 b h

theorem lists_atom {v : Val} (h : v.isList = false) : lists v = 0 := by
  cases v <;> first | rfl | cases h

/-- The lists in the argument at the head of a list. -/
def own (e : Ex) : Nat := if e.compound then 1 + lists e.val else 0

theorem lists_arg {e : Ex} (h : e.Ok) (d : Val) : lists (cons e.val d) = own e + lists d := by
  unfold own
  rw [← Ex.isList_val h]
  rfl

theorem lists_le_own {e : Ex} (h : e.Ok) : lists e.val ≤ own e := by
  unfold own
  split
  · omega
  · rename_i hc
    rw [lists_atom (by rw [Ex.isList_val h]; simpa using hc)]
    exact Nat.le_refl _

theorem lists_op (s : Sym) (d : Val) : lists (cons (ofSym s) d) = lists d := by
  show (if false = true then _ else 0) + lists d = _
  simp

theorem lists_ite {x t e : Ex} (h : (Ex.ite x t e).Ok) : lists (Ex.ite x t e).val = own x + own t + own e := by
  show lists (cons (ofSym (n "if")) (cons x.val (cons t.val (cons e.val nil)))) = _
  rw [lists_op, lists_arg h.1, lists_arg h.2.1, lists_arg h.2.2]
  show _ + (_ + (_ + 0)) = _
  omega

theorem lists_ith {op : Cnd} {x t : Ex} (h : (Ex.ith op x t).Ok) : lists (Ex.ith op x t).val = own x + own t := by
  show lists (cons (ofSym op.name) (cons x.val (cons t.val nil))) = _
  rw [lists_op, lists_arg h.1, lists_arg h.2]
  show _ + (_ + 0) = _
  omega

mutual
theorem Ex.lift_next (e : Ex) (he : e.Ok) (k : List Val) (c : Nat) : c ≤ (e.lift k c).1 ∧ (e.lift k c).1 ≤ c + lists e.val := by
  match e with
  | .atom v => simp only [Ex.lift, Ex.val]; omega
  | .call f as =>
    have := Exs.lifts_next as he.2.2 (cons f (swapped (ofList k) c (elems as.val)).2) c
    simp only [Ex.lift, Ex.val]
    have h2 : lists (cons f as.val) = lists as.val := by simp [lists, he.1]
    rw [h2]; exact this
  | .ite x t e =>
    have h1 := Ex.lift_next e he.2.2 k c
    have h2 := Ex.lift_next t he.2.1 k (e.lift k c).1
    have h3 := Ex.lift_next x he.1 [lamV (ph (t.lift k (e.lift k c).1).1) (L [S "if", ofSym (ph (t.lift k (e.lift k c).1).1),
      (t.lift k (e.lift k c).1).2, (e.lift k c).2])] ((t.lift k (e.lift k c).1).1 + 1)
    have o1 := lists_le_own he.2.1
    have o2 := lists_le_own he.2.2
    rw [lists_ite he]
    simp only [Ex.lift]
    split
    · rename_i hx
      simp only [own, hx, if_true] at o1 o2 ⊢
      omega
    · dsimp only
      omega
  | .ith op x t =>
    have h2 := Ex.lift_next t he.2 k c
    have h3 := Ex.lift_next x he.1 [lamV (ph (t.lift k c).1) (L [ofSym op.name, ofSym (ph (t.lift k c).1), (t.lift k c).2])] ((t.lift k c).1 + 1)
    have o1 := lists_le_own he.2
    rw [lists_ith he]
    simp only [Ex.lift]
    split
    · rename_i hx
      simp only [own, hx, if_true] at o1 ⊢
      omega
    · dsimp only
      omega
theorem Exs.lifts_next (as : Exs) (ha : as.Ok) (b : Val) (c : Nat) : c ≤ (as.lifts b c).1 ∧ (as.lifts b c).1 ≤ c + lists as.val := by
  match as with
  | .nil => simp only [Exs.lifts, Exs.val]; omega
  | .cons a as =>
    have h1 := Exs.lifts_next as ha.2 b c
    have h2 := Ex.lift_next a ha.1 [lamV (ph (as.lifts b c).1) (as.lifts b c).2] ((as.lifts b c).1 + 1)
    have hl : lists (Exs.cons a as).val = own a + lists as.val := lists_arg ha.1 _
    rw [hl]
    simp only [Exs.lifts]
    split
    · rename_i hx
      simp only [own, hx, if_true]
      omega
    · omega
end

/-! ## `cps:lift` -/

/-- `cps:lift` makes of the expression what `Ex.lift` says. -/
def LiftOK (l : List Entry) (st : St) (e : Ex) : Prop :=
  ∀ (k : List Val) (c : Nat), ((c + lists e.val : Nat) : Int) ≤ i64max → ∀ {E : List Entry}, Near cpsArgs l E → ∀ {ek ec ex : Val},
    evalSeq sem (envVal E) [ek, ec, ex] st = .ok ([ofList k, num c, e.val], st) →
    sem (envVal E) (L [S "cps:lift", ek, ec, ex]) st = .ok (cons (num (e.lift k c).1) (e.lift k c).2, st)

open Classical in
/-- One step of the fold of `cps:lift-any`. -/
noncomputable def liftStep (l : List Entry) (st : St) (x y : Val) : M Val :=
  need (decide (∃ (a : Ex) (i : Nat) (r : Val), a.Ok ∧ a.val = x ∧ (a.compound = true → LiftOK l st a) ∧ y = cons (num i) r ∧
      ((i + own a : Nat) : Int) ≤ i64max))
    (if x.isList then do
        let v ← sem (envVal l) (L [S "cps:lift", Q (L [lamV (ph (natOf y.car)) y.cdr]), N (natOf y.car + 1 : Nat), Q x])
        need (!v.isTailCall) (pure v)
      else pure y)

theorem ok_cps_quoted {l : List Entry} {st : St} (hl : Sorted l) (hu : Uses cpsUses l st) {a : Ex} (hK : LiftOK l st a) {k : List Val} {c : Nat}
    (hc : ((c + lists a.val : Nat) : Int) ≤ i64max) :
    sem (envVal l) (L [S "cps:lift", Q (ofList k), N c, Q a.val]) st = .ok (cons (num (a.lift k c).1) (a.lift k c).2, st) :=
  hK k c hc (Near.refl hl) (okSeq_cons (ok_quote (hu.at 10 rfl)) (okSeq_cons (ok_num _) (okSeq_cons (ok_quote (hu.at 10 rfl)) okSeq_nil)))

open Classical in
theorem lift_fold {l : List Entry} {st : St} (hl : Sorted l) (hu : Uses cpsUses l st) {b : Val} {c : Nat} : (as : Exs) → as.Ok →
    (∀ a ∈ as.toList, a.compound = true → LiftOK l st a) → ((c + lists as.val : Nat) : Int) ≤ i64max →
    (elems as.val).foldrM (liftStep l st) (cons (num c) b) st = .ok (cons (num (as.lifts b c).1) (as.lifts b c).2, st)
  | .nil, _, _, _ => rfl
  | .cons a as, ho, hK, hb => by
    have hl2 : lists (Exs.cons a as).val = own a + lists as.val := lists_arg ho.1 _
    rw [hl2] at hb
    have ih := lift_fold hl hu (b := b) (c := c) as ho.2 (fun x hx => hK x (by simp [Exs.toList, hx])) (by omega)
    have hn := Exs.lifts_next as ho.2 b c
    show (a.val :: elems as.val).foldrM (liftStep l st) (cons (num c) b) st = _
    rw [List.foldrM_cons, M.bind_congr_ok ih]
    have hcond : ∃ (a' : Ex) (i : Nat) (r : Val), a'.Ok ∧ a'.val = a.val ∧ (a'.compound = true → LiftOK l st a') ∧
        cons (num (as.lifts b c).1) (as.lifts b c).2 = cons (num i) r ∧ ((i + own a' : Nat) : Int) ≤ i64max :=
      ⟨a, _, _, ho.1, rfl, hK a (by simp [Exs.toList]), rfl, by omega⟩
    unfold liftStep need
    rw [if_pos (decide_eq_true hcond), Ex.isList_val ho.1]
    simp only [Exs.lifts]
    cases hc : a.compound with
    | false => rfl
    | true =>
      simp only [if_true]
      have := ok_cps_quoted hl hu (hK a (by simp [Exs.toList]) hc) (k := [lamV (ph (as.lifts b c).1) (as.lifts b c).2])
        (c := (as.lifts b c).1 + 1) (by simp only [own, hc, if_true] at hb; omega)
      exact M.bind_congr_ok this

/-- The body of the function that `cps:lift-any` folds. -/
def liftBody : Val :=
  L [L [S "if", L [S "lst?", S "e"], L [S "let",
    L [cons (S "largs") (L [S "list", L [S "cps:symbol", S "id"]]), cons (S "lfunc") (L [S "list", L [S "list",
    Q (S "\\"), S "largs", S "res"]]), cons (cons (S "next") (S "nbody")) (L [S "cps:lift", S "lfunc", L [S "+",
    S "id", N 1], S "e"])], L [S "cons", S "next", S "nbody"]], L [S "cons", S "id", S "res"]]]

open Classical in
theorem lift_any {l : List Entry} {st : St} (hl : Sorted l) (hu : Uses cpsUses l st) (hd : getEnv l (n "descend") = none)
    {f : Val} {as : Exs} (hf : f.isList = false) (ho : as.Ok) (hK : ∀ a ∈ as.toList, a.compound = true → LiftOK l st a)
    {E : List Entry} (hE : Near cpsArgs l E) {ek ec ew : Val} {k : List Val} {c : Nat} (hc : ((c + lists as.val : Nat) : Int) ≤ i64max)
    (hargs : evalSeq sem (envVal E) [ek, ec, ew] st = .ok ([ofList k, num c, cons f as.val], st)) :
    sem (envVal E) (L [S "cps:lift-any", ek, ec, ew]) st = .ok (cons (num ((Ex.call f as).lift k c).1) ((Ex.call f as).lift k c).2, st) := by
  have u := hE.uses hu (by decide +kernel)
  refine ok_call (d := []) (as := [S "kvar", S "counter", S "body"]) (vs := [ek, ec, ew]) (xs := [ofList k, num c, cons f as.val]) (u.at 3 rfl) rfl rfl hargs
    (loop_done (ok_prog1.trans ?_) rfl)
  have hE1 := hE.merge (b := [⟨false, n "body", cons f as.val⟩, ⟨false, n "counter", num c⟩, ⟨false, n "kvar", ofList k⟩]) (by simp [cpsArgs])
  have gK : getEnv (mergeEnv E [⟨false, n "body", cons f as.val⟩, ⟨false, n "counter", num c⟩, ⟨false, n "kvar", ofList k⟩]) (n "kvar") = some (ofList k) :=
    getEnv_merge_in hE.sorted rfl
  have gC : getEnv (mergeEnv E [⟨false, n "body", cons f as.val⟩, ⟨false, n "counter", num c⟩, ⟨false, n "kvar", ofList k⟩]) (n "counter") = some (num c) :=
    getEnv_merge_in hE.sorted rfl
  have gB : getEnv (mergeEnv E [⟨false, n "body", cons f as.val⟩, ⟨false, n "counter", num c⟩, ⟨false, n "kvar", ofList k⟩]) (n "body") = some (cons f as.val) :=
    getEnv_merge_in hE.sorted rfl
  change sem (envVal (mergeEnv E [⟨false, n "body", cons f as.val⟩, ⟨false, n "counter", num c⟩, ⟨false, n "kvar", ofList k⟩])) _ st = _
  generalize mergeEnv E [⟨false, n "body", cons f as.val⟩, ⟨false, n "counter", num c⟩, ⟨false, n "kvar", ofList k⟩] = F0 at hE1 gK gC gB ⊢
  have u0 := hE1.uses hu (by decide +kernel)
  have hsF0 := hE1.sorted
  have hl2 : lists (cons f as.val) = lists as.val := by simp [lists, hf]
  have hswap := C82_swap hl hu hd (cons f as.val) hE1 (c := c) (k := ofList k) (ek := S "kvar") (ec := S "counter") (ew := S "body") (by rw [hl2]; exact hc)
    (okSeq_cons (ok_sym (resolves_local gK)) (okSeq_cons (ok_sym (resolves_local gC)) (okSeq_cons (ok_sym (resolves_local gB)) okSeq_nil)))
  have hsw : (swapped (ofList k) c (elems (cons f as.val))).2 = cons f (swapped (ofList k) c (elems as.val)).2 := by
    show (swapped _ _ (f :: elems as.val)).2 = _
    simp only [swapped, hf]
    rfl
  rw [hsw] at hswap
  show _ = Res.ok (cons (num (as.lifts (cons f (swapped (ofList k) c (elems as.val)).2) c).1) (as.lifts (cons f (swapped (ofList k) c (elems as.val)).2) c).2, st)
  generalize cons f (swapped (ofList k) c (elems as.val)).2 = sw at hswap ⊢
  refine ok_let_env (b := [⟨false, n "swapped", sw⟩]) (by res) (okBind_pat (st1 := st) (b := []) (a := cons (num (c + lists (cons f as.val) : Nat)) sw)
    hswap okBind_nil) (ok_prog1.trans ?_)
  have hF := hE1.merge (b := [⟨false, n "swapped", sw⟩]) (by simp [cpsArgs])
  have gC1 : getEnv (mergeEnv F0 [⟨false, n "swapped", sw⟩]) (n "counter") = some (num c) := getEnv_merge_skip hsF0 rfl gC
  have gB1 : getEnv (mergeEnv F0 [⟨false, n "swapped", sw⟩]) (n "body") = some (cons f as.val) := getEnv_merge_skip hsF0 rfl gB
  have gS1 : getEnv (mergeEnv F0 [⟨false, n "swapped", sw⟩]) (n "swapped") = some sw := getEnv_merge_in hsF0 rfl
  generalize mergeEnv F0 [⟨false, n "swapped", sw⟩] = F at hF gC1 gB1 gS1 ⊢
  have u1 := hF.uses hu (by decide +kernel)
  have uf : Uses foldrUses F st := u1.sub (fun p hp => by simp [cpsUses, appendUses, hp])
  have hsF := hF.sorted
  refine (C49_foldr (I := fun s => s = st) (st1 := st) (F := cons (L [S "e", cons (S "id") (S "res")]) (cons (envVal F) liftBody))
    (w := as.val) (a := cons (num c) sw) (g := liftStep l st) hsF (fun s h => by rw [h]; exact uf) ?_ uf rfl
    (okSeq_cons (ok_lambda (by res)) (okSeq_cons (ok_one (op := .cdr) (by res) (ok_sym (resolves_local gB1)) rfl (by decide) rfl) (okSeq_cons
      (ok_two (op := .cons) (by res) (ok_sym (resolves_local gC1)) (ok_sym (resolves_local gS1)) rfl rfl) okSeq_nil)))
    (lift_fold hl hu as ho hK hc) ?_ rfl).1
  · refine acts2_lisp (p := S "e") (q := cons (S "id") (S "res")) rfl fun m x y st0 v st' hm h0 hg => ?_
    cases h0
    obtain ⟨hx, hv⟩ := need_ok hg
    obtain ⟨a, i, r, hao, rfl, haK, rfl, hi⟩ := of_decide_eq_true hx
    have hN := ((hF.trans (hm.mono (by simp [foldArgs, cpsArgs]))).capture hF).merge
      (b := [⟨false, n "res", r⟩, ⟨false, n "id", num i⟩, ⟨false, n "e", a.val⟩]) (by simp [cpsArgs])
    have hsm := sorted_mergeEnv F hm.sorted
    have gX : getEnv (mergeEnv (mergeEnv m F) [⟨false, n "res", r⟩, ⟨false, n "id", num i⟩, ⟨false, n "e", a.val⟩]) (n "e") = some a.val :=
      getEnv_merge_in hsm rfl
    have gI : getEnv (mergeEnv (mergeEnv m F) [⟨false, n "res", r⟩, ⟨false, n "id", num i⟩, ⟨false, n "e", a.val⟩]) (n "id") = some (num i) :=
      getEnv_merge_in hsm rfl
    have gR : getEnv (mergeEnv (mergeEnv m F) [⟨false, n "res", r⟩, ⟨false, n "id", num i⟩, ⟨false, n "e", a.val⟩]) (n "res") = some r :=
      getEnv_merge_in hsm rfl
    change progV sem (envVal (mergeEnv (mergeEnv m F) [⟨false, n "res", r⟩, ⟨false, n "id", num i⟩, ⟨false, n "e", a.val⟩])) _ _ st = _ ∧ _
    generalize mergeEnv (mergeEnv m F) [⟨false, n "res", r⟩, ⟨false, n "id", num i⟩, ⟨false, n "e", a.val⟩] = G at hN gX gI gR ⊢
    have u2 := hN.uses hu (by decide +kernel)
    have hsG := hN.sorted
    have hd2 : getEnv G (n "descend") = none := (hN.same _ (by decide +kernel)).trans hd
    have hlst : sem (envVal G) (L [S "lst?", S "e"]) st = .ok (ofBool a.val.isList, st) :=
      ok_one (op := .islst) (by res) (ok_sym (resolves_local gX)) rfl (by decide) rfl
    rw [Ex.isList_val hao] at hlst hv
    cases hxl : a.compound with
    | false =>
      rw [hxl] at hlst hv
      cases hv
      exact ⟨ok_prog1.trans (ok_if_else (by res) hlst (ok_two (op := .cons) (by res) (ok_sym (resolves_local gI)) (ok_sym (resolves_local gR)) rfl rfl)), rfl, rfl⟩
    | true =>
      rw [hxl] at hlst hv
      have hi' : ((i + 1 + lists a.val : Nat) : Int) ≤ i64max := by simp only [own, hxl, if_true] at hi; omega
      have hq := ok_cps_quoted hl hu (haK hxl) (k := [lamV (ph i) r]) (c := i + 1) hi'
      have hv' : (Res.ok (cons (num (a.lift [lamV (ph i) r] (i + 1)).1) (a.lift [lamV (ph i) r] (i + 1)).2, st) : Res (Val × St)) = .ok (v, st') :=
        (M.bind_congr_ok hq).symm.trans hv
      cases hv'
      refine ⟨ok_prog1.trans ?_, rfl, rfl⟩
      refine ok_if_then (a := tru) (by res) hlst rfl ?_
      refine ok_let_env (b := [⟨false, n "nbody", (a.lift [lamV (ph i) r] (i + 1)).2⟩, ⟨false, n "next", num (a.lift [lamV (ph i) r] (i + 1)).1⟩,
          ⟨false, n "lfunc", L [lamV (ph i) r]⟩, ⟨false, n "largs", L [ofSym (ph i)]⟩]) (by res)
        (okBind_cons (a := L [ofSym (ph i)]) (st1 := st) (ok_list (u2.at 8 rfl) (ok_list_cons ok_list_nil
          (cps_symbol hsG u2 hd2 (by omega) (ok_sym (resolves_local gI)))))
          (letMark_of_not_func _ _ _ rfl)
        (okBind_cons (a := L [lamV (ph i) r]) (st1 := st) ?_ (letMark_of_not_func _ _ _ rfl)
        (okBind_pat (st1 := st) (a := cons (num (a.lift [lamV (ph i) r] (i + 1)).1) (a.lift [lamV (ph i) r] (i + 1)).2) ?_ okBind_nil))) (ok_prog1.trans ?_)
      · have hG1 := hN.merge (b := [⟨false, n "largs", L [ofSym (ph i)]⟩]) (by simp [cpsArgs])
        have u3 := hG1.uses hu (by decide +kernel)
        exact ok_list (u3.at 8 rfl) (ok_list_cons ok_list_nil (ok_list (u3.at 8 rfl) (ok_list_cons (ok_list_cons (ok_list_cons ok_list_nil
          (ok_sym (by res))) (ok_sym (by res))) (ok_quote (u3.at 10 rfl)))))
      · have hG1 := hN.merge (b := [⟨false, n "lfunc", L [lamV (ph i) r]⟩, ⟨false, n "largs", L [ofSym (ph i)]⟩]) (by simp [cpsArgs])
        have u3 := hG1.uses hu (by decide +kernel)
        have hargs' : evalSeq sem (envVal (mergeEnv G [⟨false, n "lfunc", L [lamV (ph i) r]⟩, ⟨false, n "largs", L [ofSym (ph i)]⟩]))
            [S "lfunc", L [S "+", S "id", N 1], S "e"] st = .ok ([ofList [lamV (ph i) r], num (i + 1 : Nat), a.val], st) :=
          okSeq_cons (ok_sym (by res)) (okSeq_cons (ok_two (op := .add) (by res) (ok_sym (by res)) (ok_num 1) rfl (add_one (by omega)))
            (okSeq_cons (ok_sym (by res)) okSeq_nil))
        exact haK hxl [lamV (ph i) r] (i + 1) hi' hG1 hargs'
      · have hG2 := hN.merge (b := [⟨false, n "nbody", (a.lift [lamV (ph i) r] (i + 1)).2⟩, ⟨false, n "next", num (a.lift [lamV (ph i) r] (i + 1)).1⟩,
          ⟨false, n "lfunc", L [lamV (ph i) r]⟩, ⟨false, n "largs", L [ofSym (ph i)]⟩]) (by simp [cpsArgs])
        have u3 := hG2.uses hu (by decide +kernel)
        ev
  · intro x _ y s v s' _ hg
    obtain ⟨hx, hv⟩ := need_ok hg
    split at hv
    · obtain ⟨⟨w, s1⟩, _, h2⟩ := Res.bind_eq_ok.1 hv
      obtain ⟨h3, h4⟩ := need_ok h2
      cases h4
      simpa using h3
    · obtain ⟨a, i, r, hao, rfl, haK, rfl, hi⟩ := of_decide_eq_true hx
      cases hv
      rfl

/-- The clauses for lists of `cps:lift`. -/
def liftClauses : Val :=
  L [cons (L [S "when", wild, wild]) (L [S "cps:lift-ith", S "kvar", S "counter", S "body"]),
    cons (L [S "unless", wild, wild]) (L [S "cps:lift-ith", S "kvar", S "counter", S "body"]),
    cons (L [S "if", wild, wild]) (L [S "cps:lift-ith", S "kvar", S "counter", S "body"]),
    cons (L [S "if", wild, wild, wild]) (L [S "cps:lift-ite", S "kvar", S "counter", S "body"]),
    cons wild (L [S "cps:lift-any", S "kvar", S "counter", S "body"])]

/-- The variables of `cps:lift` and of its helpers. -/
structure LiftEnv (l E : List Entry) (k c w : Val) : Prop where
  near : Near cpsArgs l E
  kvar : getEnv E (n "kvar") = some k
  counter : getEnv E (n "counter") = some c
  body : getEnv E (n "body") = some w

theorem LiftEnv.args {l E : List Entry} {k c w : Val} (h : LiftEnv l E k c w) {st : St} :
    evalSeq sem (envVal E) [S "kvar", S "counter", S "body"] st = .ok ([k, c, w], st) :=
  okSeq_cons (ok_sym (resolves_local h.kvar)) (okSeq_cons (ok_sym (resolves_local h.counter)) (okSeq_cons (ok_sym (resolves_local h.body)) okSeq_nil))

theorem liftEnv_merge {l E : List Entry} {k c w : Val} (hE : Near cpsArgs l E) :
    LiftEnv l (mergeEnv E [⟨false, n "body", w⟩, ⟨false, n "counter", c⟩, ⟨false, n "kvar", k⟩]) k c w :=
  ⟨hE.merge (b := [⟨false, n "body", w⟩, ⟨false, n "counter", c⟩, ⟨false, n "kvar", k⟩]) (by simp [cpsArgs]),
    getEnv_merge_in hE.sorted rfl, getEnv_merge_in hE.sorted rfl, getEnv_merge_in hE.sorted rfl⟩

/-- Into `cps:lift`, for a list. -/
theorem lift_list {l : List Entry} {st : St} (hu : Uses cpsUses l st) {E : List Entry} (hE : Near cpsArgs l E) {k c w v ek ec ew : Val}
    (hw : w.isList = true) (hv : v.isTailCall = false)
    (h : ∀ F, LiftEnv l F k c w → matchV sem (envVal F) w liftClauses st = .ok (v, st))
    (hargs : evalSeq sem (envVal E) [ek, ec, ew] st = .ok ([k, c, w], st)) :
    sem (envVal E) (L [S "cps:lift", ek, ec, ew]) st = .ok (v, st) := by
  have u := hE.uses hu (by decide +kernel)
  refine ok_call (d := []) (as := [S "kvar", S "counter", S "body"]) (vs := [ek, ec, ew]) (xs := [k, c, w]) (u.at 0 rfl) rfl rfl hargs
    (loop_done (ok_prog1.trans ?_) hv)
  have hF := liftEnv_merge (l := l) (k := k) (c := c) (w := w) hE
  change sem (envVal (mergeEnv E [⟨false, n "body", w⟩, ⟨false, n "counter", c⟩, ⟨false, n "kvar", k⟩])) _ st = _
  generalize mergeEnv E [⟨false, n "body", w⟩, ⟨false, n "counter", c⟩, ⟨false, n "kvar", k⟩] = F at hF ⊢
  have u1 := hF.near.uses hu (by decide +kernel)
  have hlst : sem (envVal F) (L [S "lst?", S "body"]) st = .ok (tru, st) :=
    ok_one (op := .islst) (by res) (ok_sym (resolves_local hF.body)) rfl (by decide) (by rw [← show ofBool true = tru from rfl, ← hw]; rfl)
  refine (C26_cond_select (envVal F) st st st (n "cond") (S "body") (S "lst?") _ [] [(wild, _)] (u1.at 6 rfl) (.nil _) (.inr ⟨by decide, hlst⟩)).trans ?_
  refine ok_match (u1.at 7 rfl) (a := w) (st1 := st) ?_ (h F hF)
  refine ok_sym (show Resolves (envVal (⟨false, aANY, _⟩ :: F)) st (n "body") _ from resolves_local ?_)
  rw [getEnv_cons, if_neg (show ¬ aANY = n "body" by decide)]
  exact hF.body

theorem lift_atom {l : List Entry} {st : St} (hu : Uses cpsUses l st) {v : Val} (hv : v.isList = false) : LiftOK l st (.atom v) := by
  intro k c hc E hE ek ec ew hargs
  have u := hE.uses hu (by decide +kernel)
  refine ok_call (d := []) (as := [S "kvar", S "counter", S "body"]) (vs := [ek, ec, ew]) (u.at 0 rfl) rfl rfl hargs
    (loop_done (ok_prog1.trans ?_) rfl)
  have hF := liftEnv_merge (l := l) (k := ofList k) (c := num c) (w := v) hE
  change sem (envVal (mergeEnv E [⟨false, n "body", v⟩, ⟨false, n "counter", num c⟩, ⟨false, n "kvar", ofList k⟩])) _ st = _
  generalize mergeEnv E [⟨false, n "body", v⟩, ⟨false, n "counter", num c⟩, ⟨false, n "kvar", ofList k⟩] = F at hF ⊢
  have u1 := hF.near.uses hu (by decide +kernel)
  have hs := hF.near.sorted
  have hlst : sem (envVal F) (L [S "lst?", S "body"]) st = .ok (nil, st) :=
    ok_one (op := .islst) (by res) (ok_sym (resolves_local hF.body)) rfl (by decide) (by rw [← show ofBool false = nil from rfl, ← hv]; rfl)
  refine (C26_cond_select (envVal F) st st st (n "cond") (S "body") wild _ [(S "lst?", _)] [] (u1.at 6 rfl)
    (.cons (v := nil) (st1 := st) (by decide) hlst (by decide) (.nil _)) (.inl ⟨rfl, rfl⟩)).trans ?_
  have ua := u1.sub (T' := appendUses) (fun p hp => by simp [cpsUses, hp])
  refine ok_two (op := .cons) (by res) (ok_sym (resolves_local hF.counter)) ((C72_append hs (e := S "kvar") (xs := k)
    (ps := [(L [S "list", S "body"], [v])]) ua ua (ok_sym (resolves_local hF.kvar)) ?_).trans (by simp; rfl)) rfl rfl
  intro p hp G hG
  rw [List.mem_singleton.1 hp]
  have gl : Resolves (envVal G) st (n "list") Native.list.val := by
    have := u1 (n "list", Native.list.val) (by simp [cpsUses])
    exact resolves_global ((hG.same (n "list") (by decide) (.inl (by decide))).trans this.1) this.2
  exact ok_list gl (ok_list_cons ok_list_nil (ok_sym (resolves_local ((hG.same (n "body") (by decide) (.inl (by decide))).trans hF.body))))

theorem match_args : (as : Exs) → (atomMatch (L [wild, wild]) as.val = (as.len == 2)) ∧ (atomMatch (L [wild, wild, wild]) as.val = (as.len == 3))
  | .nil => ⟨rfl, rfl⟩
  | .cons _ .nil => ⟨rfl, rfl⟩
  | .cons _ (.cons _ .nil) => ⟨rfl, rfl⟩
  | .cons _ (.cons _ (.cons _ .nil)) => ⟨rfl, rfl⟩
  | .cons _ (.cons _ (.cons _ (.cons _ as))) => by
    constructor
    · show _ = (as.len + 1 + 1 + 1 + 1 == 2)
      simp; rfl
    · show _ = (as.len + 1 + 1 + 1 + 1 == 3)
      simp; rfl

theorem match_head (s : Sym) (f : Val) : atomMatch (ofSym s) f = true → ∃ b, f = sym b s := by
  intro h
  cases f with
  | sym b t =>
    have : symMatch s t = true := h
    rw [symMatch_iff] at this
    exact ⟨b, by rw [this]⟩
  | _ => cases h

theorem lift_call {l : List Entry} {st : St} (hl : Sorted l) (hu : Uses cpsUses l st) (hd : getEnv l (n "descend") = none)
    {f : Val} {as : Exs} (ho : (Ex.call f as).Ok) (hK : ∀ a ∈ as.toList, a.compound = true → LiftOK l st a) : LiftOK l st (.call f as) := by
  intro k c hc E hE ek ec ew hargs
  refine lift_list hu hE rfl rfl (fun F hF => ?_) hargs
  have hc' : ((c + lists as.val : Nat) : Int) ≤ i64max := by
    have : lists (cons f as.val) = lists as.val := by simp [lists, ho.1]
    rw [← this]; exact hc
  have hany := lift_any hl hu hd ho.1 ho.2.2 hK hF.near hc' hF.args
  obtain ⟨m2, m3⟩ := match_args as
  have no2 : ∀ s ∈ [n "when", n "unless", n "if"], atomMatch (cons (ofSym s) (L [wild, wild])) (cons f as.val) = false := by
    intro s hs
    show (atomMatch (ofSym s) f && atomMatch (L [wild, wild]) as.val) = false
    rw [m2]
    cases hf : atomMatch (ofSym s) f with
    | false => rfl
    | true =>
      obtain ⟨b, rfl⟩ := match_head s f hf
      have := ho.2.1
      simp only [conditional, Bool.or_eq_false_iff] at this
      have h1 := this.1
      simp at hs
      rcases hs with rfl | rfl | rfl <;> simpa using h1
  have no3 : atomMatch (cons (ofSym (n "if")) (L [wild, wild, wild])) (cons f as.val) = false := by
    show (atomMatch (ofSym (n "if")) f && atomMatch (L [wild, wild, wild]) as.val) = false
    rw [m3]
    cases hf : atomMatch (ofSym (n "if")) f with
    | false => rfl
    | true =>
      obtain ⟨b, rfl⟩ := match_head _ f hf
      have := ho.2.1
      simp only [conditional, Bool.or_eq_false_iff] at this
      simpa using this.2
  show matchV sem (envVal F) (cons f as.val) (cons (cons (cons (ofSym (n "when")) (L [wild, wild])) _) (cons (cons (cons (ofSym (n "unless")) (L [wild, wild])) _)
    (cons (cons (cons (ofSym (n "if")) (L [wild, wild])) _) (cons (cons (cons (ofSym (n "if")) (L [wild, wild, wild])) _) (cons (cons wild _) nil))))) st = _
  unfold matchV
  rw [no2 _ (by simp), if_neg (by decide)]
  unfold matchV
  rw [no2 _ (by simp), if_neg (by decide)]
  unfold matchV
  rw [no2 _ (by simp), if_neg (by decide)]
  unfold matchV
  rw [no3, if_neg (by decide)]
  exact hany

/-- A conditional with only its condition. -/
theorem lift_cnd (s : Sym) (x : Ex) (hx : x.Ok) (k : List Val) (c : Nat) : (Ex.call (ofSym s) (.cons x .nil)).lift k c =
    if x.compound then x.lift [lamV (ph c) (cons (ofSym s) (cons (ofSym (ph c)) (ofList k)))] (c + 1)
    else (c, cons (ofSym s) (cons x.val (ofList k))) := by
  have h : (swapped (ofList k) c (elems (Exs.cons x .nil).val)).2 = if x.compound then cons (ofSym (ph c)) (ofList k) else cons x.val (ofList k) := by
    show (swapped _ c [x.val]).2 = _
    simp only [swapped, Ex.isList_val hx]
    split <;> rfl
  simp only [Ex.lift, Exs.lifts, h]
  split <;> rfl

theorem lists_cnd (s : Sym) (x : Ex) (hx : x.Ok) : lists (Ex.call (ofSym s) (.cons x .nil)).val = own x := by
  show lists (cons (ofSym s) (cons x.val nil)) = _
  rw [lists_op, lists_arg hx]
  rfl

theorem lift_ith {l : List Entry} {st : St} (hl : Sorted l) (hu : Uses cpsUses l st) (hd : getEnv l (n "descend") = none)
    {op : Cnd} {x t : Ex} (ho : (Ex.ith op x t).Ok) (hX : LiftOK l st x) (hT : LiftOK l st t) : LiftOK l st (.ith op x t) := by
  intro k c hc E hE ek ec ew hargs
  have hov : conditional (ofSym op.name) 1 = false := by cases op <;> decide
  have hC : LiftOK l st (.call (ofSym op.name) (.cons x .nil)) := lift_call hl hu hd ⟨rfl, hov, ho.1, trivial⟩ (fun a ha _ => by
    simp only [Exs.toList, List.mem_singleton] at ha
    rw [ha]; exact hX)
  have h1 := lists_le_own ho.2
  have h2 := t.lift_next ho.2 k c
  have h3 := lists_cnd op.name x ho.1
  have h4 := lists_ith ho
  rw [h4] at hc
  refine lift_list hu hE rfl rfl (fun F hF => ?_) hargs
  suffices h : sem (envVal F) (L [S "cps:lift-ith", S "kvar", S "counter", S "body"]) st =
      .ok (cons (num ((Ex.ith op x t).lift k c).1) ((Ex.ith op x t).lift k c).2, st) by
    cases op <;> exact h
  have u := hF.near.uses hu (by decide +kernel)
  refine ok_call (d := []) (as := [S "kvar", S "counter", S "body"]) (vs := [S "kvar", S "counter", S "body"]) (u.at 1 rfl) rfl rfl hF.args
    (loop_done (ok_prog1.trans ?_) rfl)
  have hG := liftEnv_merge (l := l) (k := ofList k) (c := num c) (w := (Ex.ith op x t).val) hF.near
  change sem (envVal (mergeEnv F [⟨false, n "body", (Ex.ith op x t).val⟩, ⟨false, n "counter", num c⟩, ⟨false, n "kvar", ofList k⟩])) _ st = _
  generalize mergeEnv F [⟨false, n "body", (Ex.ith op x t).val⟩, ⟨false, n "counter", num c⟩, ⟨false, n "kvar", ofList k⟩] = G at hG ⊢
  have u1 := hG.near.uses hu (by decide +kernel)
  have hs := hG.near.sorted
  have hlift : (Ex.ith op x t).lift k c = (Ex.call (ofSym op.name) (.cons x .nil)).lift [(t.lift k c).2] (t.lift k c).1 := by
    rw [lift_cnd _ _ ho.1]
    simp only [Ex.lift]
    rfl
  rw [hlift]
  generalize hr : t.lift k c = r at h2 hlift ⊢
  generalize hq : (Ex.call (ofSym op.name) (.cons x .nil)).lift [r.2] r.1 = q
  refine ok_let_env (b := [⟨false, n "stmt:body", q.2⟩, ⟨false, n "stmt:next", num q.1⟩, ⟨false, n "nbody", L [r.2]⟩,
      ⟨false, n "then:body", r.2⟩, ⟨false, n "then:next", num r.1⟩, ⟨false, n "then", t.val⟩, ⟨false, n "stmt", x.val⟩, ⟨false, n "op", ofSym op.name⟩]) (by res)
    (okBind_pat (b := []) (st1 := st) (a := (Ex.ith op x t).val) (ok_sym (resolves_local hG.body))
    (okBind_pat (st1 := st) (a := cons (num r.1) r.2) ?_
    (okBind_cons (a := L [r.2]) (st1 := st) ?_ (letMark_of_not_func _ _ _ rfl)
    (okBind_pat (st1 := st) (a := cons (num q.1) q.2) ?_ okBind_nil)))) (ok_prog1.trans ?_)
  · have hG1 := hG.near.merge (b := [⟨false, n "then", t.val⟩, ⟨false, n "stmt", x.val⟩, ⟨false, n "op", ofSym op.name⟩]) (by simp [cpsArgs])
    have gk := hG.kvar
    have gc := hG.counter
    have hargs' : evalSeq sem (envVal (mergeEnv G [⟨false, n "then", t.val⟩, ⟨false, n "stmt", x.val⟩, ⟨false, n "op", ofSym op.name⟩]))
        [S "kvar", S "counter", S "then"] st = .ok ([ofList k, num c, t.val], st) :=
      okSeq_cons (ok_sym (by res)) (okSeq_cons (ok_sym (by res)) (okSeq_cons (ok_sym (by res)) okSeq_nil))
    rw [← hr]
    exact hT k c (by omega) hG1 hargs'
  · have hG1 := hG.near.merge (b := [⟨false, n "then:body", r.2⟩, ⟨false, n "then:next", num r.1⟩, ⟨false, n "then", t.val⟩, ⟨false, n "stmt", x.val⟩,
      ⟨false, n "op", ofSym op.name⟩]) (by simp [cpsArgs])
    have u2 := hG1.uses hu (by decide +kernel)
    exact ok_list (u2.at 8 rfl) (ok_list_cons ok_list_nil (ok_sym (by res)))
  · have hG1 := hG.near.merge (b := [⟨false, n "nbody", L [r.2]⟩, ⟨false, n "then:body", r.2⟩, ⟨false, n "then:next", num r.1⟩, ⟨false, n "then", t.val⟩,
      ⟨false, n "stmt", x.val⟩, ⟨false, n "op", ofSym op.name⟩]) (by simp [cpsArgs])
    have u2 := hG1.uses hu (by decide +kernel)
    have hargs' : evalSeq sem (envVal (mergeEnv G [⟨false, n "nbody", L [r.2]⟩, ⟨false, n "then:body", r.2⟩, ⟨false, n "then:next", num r.1⟩,
        ⟨false, n "then", t.val⟩, ⟨false, n "stmt", x.val⟩, ⟨false, n "op", ofSym op.name⟩])) [S "nbody", S "then:next", L [S "list", S "op", S "stmt"]] st =
        .ok ([ofList [r.2], num r.1, (Ex.call (ofSym op.name) (.cons x .nil)).val], st) :=
      okSeq_cons (ok_sym (by res)) (okSeq_cons (ok_sym (by res)) (okSeq_cons (ok_list (u2.at 8 rfl) (ok_list_cons (ok_list_cons ok_list_nil
        (ok_sym (by res))) (ok_sym (by res)))) okSeq_nil))
    rw [← hq]
    exact hC [r.2] r.1 (by rw [h3]; omega) hG1 hargs'
  · have hG1 := hG.near.merge (b := [⟨false, n "stmt:body", q.2⟩, ⟨false, n "stmt:next", num q.1⟩, ⟨false, n "nbody", L [r.2]⟩,
      ⟨false, n "then:body", r.2⟩, ⟨false, n "then:next", num r.1⟩, ⟨false, n "then", t.val⟩, ⟨false, n "stmt", x.val⟩, ⟨false, n "op", ofSym op.name⟩])
      (by simp [cpsArgs])
    have u2 := hG1.uses hu (by decide +kernel)
    ev

theorem lift_ite {l : List Entry} {st : St} (hl : Sorted l) (hu : Uses cpsUses l st) (hd : getEnv l (n "descend") = none)
    {x t e : Ex} (ho : (Ex.ite x t e).Ok) (hX : LiftOK l st x) (hT : LiftOK l st t) (hL : LiftOK l st e) : LiftOK l st (.ite x t e) := by
  intro k c hc E hE ek ec ew hargs
  have hC : LiftOK l st (.call (ofSym (n "if")) (.cons x .nil)) := lift_call hl hu hd ⟨rfl, (by decide : conditional (ofSym (n "if")) 1 = false), ho.1, trivial⟩ (fun a ha _ => by
    simp only [Exs.toList, List.mem_singleton] at ha
    rw [ha]; exact hX)
  have h1 := lists_le_own ho.2.1
  have h1' := lists_le_own ho.2.2
  have h2 := e.lift_next ho.2.2 k c
  have h2' := t.lift_next ho.2.1 k (e.lift k c).1
  have h3 := lists_cnd (n "if") x ho.1
  have h4 := lists_ite ho
  rw [h4] at hc
  refine lift_list hu hE rfl rfl (fun F hF => ?_) hargs
  suffices h : sem (envVal F) (L [S "cps:lift-ite", S "kvar", S "counter", S "body"]) st =
      .ok (cons (num ((Ex.ite x t e).lift k c).1) ((Ex.ite x t e).lift k c).2, st) by exact h
  have u := hF.near.uses hu (by decide +kernel)
  refine ok_call (d := []) (as := [S "kvar", S "counter", S "body"]) (vs := [S "kvar", S "counter", S "body"]) (u.at 2 rfl) rfl rfl hF.args
    (loop_done (ok_prog1.trans ?_) rfl)
  have hG := liftEnv_merge (l := l) (k := ofList k) (c := num c) (w := (Ex.ite x t e).val) hF.near
  change sem (envVal (mergeEnv F [⟨false, n "body", (Ex.ite x t e).val⟩, ⟨false, n "counter", num c⟩, ⟨false, n "kvar", ofList k⟩])) _ st = _
  generalize mergeEnv F [⟨false, n "body", (Ex.ite x t e).val⟩, ⟨false, n "counter", num c⟩, ⟨false, n "kvar", ofList k⟩] = G at hG ⊢
  have u1 := hG.near.uses hu (by decide +kernel)
  have hs := hG.near.sorted
  have hlift : (Ex.ite x t e).lift k c = (Ex.call (ofSym (n "if")) (.cons x .nil)).lift [(t.lift k (e.lift k c).1).2, (e.lift k c).2] (t.lift k (e.lift k c).1).1 := by
    rw [lift_cnd _ _ ho.1]
    simp only [Ex.lift]
    rfl
  rw [hlift]
  generalize hp : e.lift k c = p at h2 h2' hlift ⊢
  generalize hr : t.lift k p.1 = r at h2' hlift ⊢
  generalize hq : (Ex.call (ofSym (n "if")) (.cons x .nil)).lift [r.2, p.2] r.1 = q
  have gk := hG.kvar
  have gc := hG.counter
  refine ok_let_env (b := [⟨false, n "stmt:body", q.2⟩, ⟨false, n "stmt:next", num q.1⟩, ⟨false, n "nbody", L [r.2, p.2]⟩,
      ⟨false, n "then:body", r.2⟩, ⟨false, n "then:next", num r.1⟩, ⟨false, n "else:body", p.2⟩, ⟨false, n "else:next", num p.1⟩,
      ⟨false, n "else", e.val⟩, ⟨false, n "then", t.val⟩, ⟨false, n "stmt", x.val⟩]) (by res)
    (okBind_pat (b := []) (st1 := st) (a := (Ex.ite x t e).val) (ok_sym (resolves_local hG.body))
    (okBind_pat (st1 := st) (a := cons (num p.1) p.2) ?_
    (okBind_pat (st1 := st) (a := cons (num r.1) r.2) ?_
    (okBind_cons (a := L [r.2, p.2]) (st1 := st) ?_ (letMark_of_not_func _ _ _ (show (_ && false) = false from Bool.and_false _))
    (okBind_pat (st1 := st) (a := cons (num q.1) q.2) ?_ okBind_nil))))) (ok_prog1.trans ?_)
  · have hG1 := hG.near.merge (b := [⟨false, n "else", e.val⟩, ⟨false, n "then", t.val⟩, ⟨false, n "stmt", x.val⟩]) (by simp [cpsArgs])
    have hargs' : evalSeq sem (envVal (mergeEnv G [⟨false, n "else", e.val⟩, ⟨false, n "then", t.val⟩, ⟨false, n "stmt", x.val⟩]))
        [S "kvar", S "counter", S "else"] st = .ok ([ofList k, num c, e.val], st) :=
      okSeq_cons (ok_sym (by res)) (okSeq_cons (ok_sym (by res)) (okSeq_cons (ok_sym (by res)) okSeq_nil))
    rw [← hp]
    exact hL k c (by omega) hG1 hargs'
  · have hG1 := hG.near.merge (b := [⟨false, n "else:body", p.2⟩, ⟨false, n "else:next", num p.1⟩, ⟨false, n "else", e.val⟩, ⟨false, n "then", t.val⟩,
      ⟨false, n "stmt", x.val⟩]) (by simp [cpsArgs])
    have hargs' : evalSeq sem (envVal (mergeEnv G [⟨false, n "else:body", p.2⟩, ⟨false, n "else:next", num p.1⟩, ⟨false, n "else", e.val⟩,
        ⟨false, n "then", t.val⟩, ⟨false, n "stmt", x.val⟩])) [S "kvar", S "else:next", S "then"] st = .ok ([ofList k, num p.1, t.val], st) :=
      okSeq_cons (ok_sym (by res)) (okSeq_cons (ok_sym (by res)) (okSeq_cons (ok_sym (by res)) okSeq_nil))
    rw [← hr]
    exact hT k p.1 (by omega) hG1 hargs'
  · have hG1 := hG.near.merge (b := [⟨false, n "then:body", r.2⟩, ⟨false, n "then:next", num r.1⟩, ⟨false, n "else:body", p.2⟩,
      ⟨false, n "else:next", num p.1⟩, ⟨false, n "else", e.val⟩, ⟨false, n "then", t.val⟩, ⟨false, n "stmt", x.val⟩]) (by simp [cpsArgs])
    have u2 := hG1.uses hu (by decide +kernel)
    exact ok_list (u2.at 8 rfl) (ok_list_cons (ok_list_cons ok_list_nil (ok_sym (by res))) (ok_sym (by res)))
  · have hG1 := hG.near.merge (b := [⟨false, n "nbody", L [r.2, p.2]⟩, ⟨false, n "then:body", r.2⟩, ⟨false, n "then:next", num r.1⟩,
      ⟨false, n "else:body", p.2⟩, ⟨false, n "else:next", num p.1⟩, ⟨false, n "else", e.val⟩, ⟨false, n "then", t.val⟩, ⟨false, n "stmt", x.val⟩])
      (by simp [cpsArgs])
    have u2 := hG1.uses hu (by decide +kernel)
    have hargs' : evalSeq sem (envVal (mergeEnv G [⟨false, n "nbody", L [r.2, p.2]⟩, ⟨false, n "then:body", r.2⟩, ⟨false, n "then:next", num r.1⟩,
        ⟨false, n "else:body", p.2⟩, ⟨false, n "else:next", num p.1⟩, ⟨false, n "else", e.val⟩, ⟨false, n "then", t.val⟩, ⟨false, n "stmt", x.val⟩]))
        [S "nbody", S "then:next", L [S "list", Q (S "if"), S "stmt"]] st =
        .ok ([ofList [r.2, p.2], num r.1, (Ex.call (ofSym (n "if")) (.cons x .nil)).val], st) :=
      okSeq_cons (ok_sym (by res)) (okSeq_cons (ok_sym (by res)) (okSeq_cons (ok_list (u2.at 8 rfl) (ok_list_cons (ok_list_cons ok_list_nil
        (ok_sym (by res))) (ok_quote (u2.at 10 rfl)))) okSeq_nil))
    rw [← hq]
    exact hC [r.2, p.2] r.1 (by rw [h3]; omega) hG1 hargs'
  · have hG1 := hG.near.merge (b := [⟨false, n "stmt:body", q.2⟩, ⟨false, n "stmt:next", num q.1⟩, ⟨false, n "nbody", L [r.2, p.2]⟩,
      ⟨false, n "then:body", r.2⟩, ⟨false, n "then:next", num r.1⟩, ⟨false, n "else:body", p.2⟩, ⟨false, n "else:next", num p.1⟩,
      ⟨false, n "else", e.val⟩, ⟨false, n "then", t.val⟩, ⟨false, n "stmt", x.val⟩]) (by simp [cpsArgs])
    have u2 := hG1.uses hu (by decide +kernel)
    ev

mutual
theorem liftOK {l : List Entry} {st : St} (hl : Sorted l) (hu : Uses cpsUses l st) (hd : getEnv l (n "descend") = none) (e : Ex) (he : e.Ok) :
    LiftOK l st e := by
  match e with
  | .atom v => exact lift_atom hu he
  | .call f as => exact lift_call hl hu hd he (fun a ha _ => liftOKs hl hu hd as he.2.2 a ha)
  | .ite x t e => exact lift_ite hl hu hd he (liftOK hl hu hd x he.1) (liftOK hl hu hd t he.2.1) (liftOK hl hu hd e he.2.2)
  | .ith op x t => exact lift_ith hl hu hd he (liftOK hl hu hd x he.1) (liftOK hl hu hd t he.2)
theorem liftOKs {l : List Entry} {st : St} (hl : Sorted l) (hu : Uses cpsUses l st) (hd : getEnv l (n "descend") = none) (as : Exs) (ho : as.Ok) :
    ∀ a ∈ as.toList, LiftOK l st a := by
  match as with
  | .nil => intro a ha; cases ha
  | .cons b as =>
    have h1 := liftOK hl hu hd b ho.1
    have h2 := liftOKs hl hu hd as ho.2
    intro a ha
    rcases List.mem_cons.1 ha with h | h
    · rw [h]; exact h1
    · exact h2 a h
end

/-- **C82.** `(cps:lift K C E)` for every expression E, every continuation K and every number C: the next number and the form of
`Ex.lift`, as long as the numbers are integers. -/
theorem C82_lift {l : List Entry} {st : St} (hl : Sorted l) (hu : Uses cpsUses l st) (hd : getEnv l (n "descend") = none)
    {e : Ex} (he : e.Ok) {k : List Val} {c : Nat} (hc : ((c + lists e.val : Nat) : Int) ≤ i64max) {ek ec ex : Val}
    (hargs : evalSeq sem (envVal l) [ek, ec, ex] st = .ok ([ofList k, num c, e.val], st)) :
    sem (envVal l) (L [S "cps:lift", ek, ec, ex]) st = .ok (cons (num (e.lift k c).1) (e.lift k c).2, st) :=
  liftOK hl hu hd e he k c hc (Near.refl hl) hargs

theorem ok_wild {c : Val} {st : St} : sem c wild st = .ok (wild, st) := by rw [sem_atom _ _ rfl rfl]; rfl

/-- **C82.** The expression after the tilde in `cps:lift` has the clauses of the file as its value. -/
theorem C82_clauses {l : List Entry} {st : St} (hl : Sorted l) (hu : Uses cpsUses l st) : sem (envVal l) liftTilde st = .ok (liftTildeV, st) := by
  have uf : Uses foldlUses l st := hu.sub (fun p hp => by
    simp only [foldlUses, List.mem_cons, List.not_mem_nil, or_false] at hp
    rcases hp with rfl | rfl | rfl | rfl | rfl | rfl <;> simp [cpsUses, appendUses, foldrUses])
  refine (C49_foldl (I := fun s => s = st) (st1 := st) (a := nil) (w := L [S "if", S "unless", S "when"])
    (F := cons (L [S "acc", S "e"]) (cons (envVal l) (L [L [S "cons", L [S "cons", L [S "list", S "e", wild, wild],
      Q (L [S "cps:lift-ith", S "kvar", S "counter", S "body"])], S "acc"]])))
    (g := fun acc e => pure (cons (cons (L [e, wild, wild]) (L [S "cps:lift-ith", S "kvar", S "counter", S "body"])) acc))
    hl (fun s h => by rw [h]; exact uf) ?_ uf rfl
    (okSeq_cons (ok_lambda (by res)) (okSeq_cons ok_nil (okSeq_cons (ok_quote (hu.at 10 rfl)) okSeq_nil))) rfl rfl).1
  refine acts2_lisp (p := S "acc") (q := S "e") rfl fun m x y st0 v st' hm h0 hg => ?_
  cases h0
  cases hg
  refine ⟨ok_prog1.trans ?_, rfl, rfl⟩
  have hN := (((Near.refl (ps := cpsArgs) hl).trans (hm.mono (by simp [foldArgs, cpsArgs]))).capture (Near.refl hl)).merge
      (b := [⟨false, n "e", y⟩, ⟨false, n "acc", x⟩]) (by simp [cpsArgs, foldArgs])
  have hsm := sorted_mergeEnv l hm.sorted
  have gX : getEnv (mergeEnv (mergeEnv m l) [⟨false, n "e", y⟩, ⟨false, n "acc", x⟩]) (n "e") = some y := getEnv_merge_in hsm rfl
  have gA : getEnv (mergeEnv (mergeEnv m l) [⟨false, n "e", y⟩, ⟨false, n "acc", x⟩]) (n "acc") = some x := getEnv_merge_in hsm rfl
  change sem (envVal (mergeEnv (mergeEnv m l) [⟨false, n "e", y⟩, ⟨false, n "acc", x⟩])) _ st = _
  generalize mergeEnv (mergeEnv m l) [⟨false, n "e", y⟩, ⟨false, n "acc", x⟩] = G at hN gX gA ⊢
  have u2 := hN.uses hu (by decide +kernel)
  exact ok_two (op := .cons) (by res) (ok_two (op := .cons) (by res) (ok_list (u2.at 8 rfl) (ok_list_cons (ok_list_cons (ok_list_cons ok_list_nil
    ok_wild) ok_wild) (ok_sym (resolves_local gX)))) (ok_quote (u2.at 10 rfl)) rfl rfl) (ok_sym (resolves_local gA)) rfl rfl

theorem not_func_syms (xs : List Sym) (s : Sym) : isFunc (ofList (xs.map ofSym ++ [ofSym s])) = false := by
  match xs with
  | [] => rfl
  | [x] => rfl
  | x :: y :: ys => rfl

theorem resolves_skip {l b : List Entry} {st : St} {s : Sym} {v : Val} (hl : Sorted l) (hs : s ∉ b.map Entry.key)
    (h : Resolves (envVal l) st s v) : Resolves (envVal (mergeEnv l b)) st s v := by
  unfold Resolves lookup at h ⊢
  rw [assq_envVal] at h ⊢
  rw [getEnv_merge_out hl hs]
  exact h

/-- **C82.** `(>& F)`, where F stands for the name of a function with the parameters XS and the body E: the function with one more
parameter, for the continuation, and with the form of `Ex.lift` as its body. -/
theorem C82_convert {l : List Entry} {st : St} (hl : Sorted l) (hu : Uses cpsUses l st) (hd : getEnv l (n "descend") = none)
    {s : Sym} (hs : s ≠ n "fsym") {xs : List Sym} {clo : Val} {e : Ex} (he : e.Ok)
    (hf : Resolves (envVal l) st s (L [ofList (xs.map ofSym), clo, e.val]))
    (hc : ((xs.length + 1 + lists e.val : Nat) : Int) ≤ i64max) {ef : Val} (hef : sem (envVal l) ef st = .ok (ofSym s, st)) :
    sem (envVal l) (L [S ">&", ef]) st = .ok (L [ofList ((xs ++ [ph xs.length]).map ofSym), clo,
      (e.lift [ofSym (ph xs.length)] (xs.length + 1)).2], st) := by
  refine ok_call (d := []) (as := [S "fsym"]) (vs := [ef]) (xs := [ofSym s]) (hu.at 12 rfl) rfl rfl (okSeq_cons hef okSeq_nil)
    (loop_done (ok_prog1.trans ?_) rfl)
  have hE := (Near.refl (ps := cpsArgs) hl).merge (b := [⟨false, n "fsym", ofSym s⟩]) (by simp [cpsArgs])
  have gF : getEnv (mergeEnv l [⟨false, n "fsym", ofSym s⟩]) (n "fsym") = some (ofSym s) := getEnv_merge_in hl rfl
  have hf' : Resolves (envVal (mergeEnv l [⟨false, n "fsym", ofSym s⟩])) st s (L [ofList (xs.map ofSym), clo, e.val]) :=
    resolves_skip hl (by simp [hs]) hf
  change sem (envVal (mergeEnv l [⟨false, n "fsym", ofSym s⟩])) _ st = _
  generalize mergeEnv l [⟨false, n "fsym", ofSym s⟩] = G at hE gF hf' ⊢
  have u1 := hE.uses hu (by decide +kernel)
  have hsG := hE.sorted
  generalize hr : e.lift [ofSym (ph xs.length)] (xs.length + 1) = r
  generalize hA : ofList (xs.map ofSym) = A at hf'
  have hA' : ofList ((xs ++ [ph xs.length]).map ofSym) = ofList (xs.map ofSym ++ [ofSym (ph xs.length)]) := by simp
  rw [hA']
  generalize hB : ofList (xs.map ofSym ++ [ofSym (ph xs.length)]) = B
  have hlen : binary .add (num xs.length) (num 1) = .ok (num (xs.length + 1 : Nat)) := add_one (by omega)
  refine ok_let_env (b := [⟨false, n "lifted", r.2⟩, ⟨false, n "fargs", B⟩, ⟨false, n "kvar", L [ofSym (ph xs.length)]⟩, ⟨false, n "arglen", num xs.length⟩,
      ⟨false, n "body", e.val⟩, ⟨false, n "closure", clo⟩, ⟨false, n "args", A⟩]) (by res)
    (okBind_pat (b := []) (st1 := st) (a := L [A, clo, e.val]) (ok_eval (by res) (ok_sym (resolves_local gF)) (ok_sym hf'))
    (okBind_cons (a := num xs.length) (st1 := st) ?_ (letMark_of_not_func _ _ _ rfl)
    (okBind_cons (a := L [ofSym (ph xs.length)]) (st1 := st) ?_ (letMark_of_not_func _ _ _ rfl)
    (okBind_cons (a := B) (st1 := st) ?_ (letMark_of_not_func _ _ _ ?_)
    (okBind_pat (st1 := st) (a := cons (num r.1) r.2) ?_ okBind_nil))))) (ok_prog1.trans ?_)
  · have hG1 := hE.merge (b := [⟨false, n "body", e.val⟩, ⟨false, n "closure", clo⟩, ⟨false, n "args", A⟩]) (by simp [cpsArgs])
    have u2 := hG1.uses hu (by decide +kernel)
    refine ok_one (op := .len) (u2.at 11 rfl) (ok_sym (by res)) rfl (by decide) ?_
    rw [← hA]
    show Res.ok (if (ofList (xs.map ofSym)).isList then num (ofList (xs.map ofSym)).len else nil) = _
    rw [len_ofList, List.length_map, if_pos (by cases xs <;> rfl)]
  · have hG1 := hE.merge (b := [⟨false, n "arglen", num xs.length⟩, ⟨false, n "body", e.val⟩, ⟨false, n "closure", clo⟩, ⟨false, n "args", A⟩]) (by simp [cpsArgs])
    have u2 := hG1.uses hu (by decide +kernel)
    have hd2 := (hG1.same _ (by decide +kernel)).trans hd
    have un := u2.sub (T' := ntoaUses) (fun p hp => by simp [cpsUses, hp])
    have hn := C52_ntoa hG1.sorted (k := xs.length) (e := S "arglen") (st1 := st) un un hd2 (by omega) (ok_sym (by res))
    exact ok_list (u2.at 8 rfl) (ok_list_cons ok_list_nil (ok_one (op := .sym) (u2.at 9 rfl) (ok_two (op := .cons) (by res) (ok_chr 95) hn rfl rfl) rfl
      (by decide) (natSym_ph _)))
  · have hG1 := hE.merge (b := [⟨false, n "kvar", L [ofSym (ph xs.length)]⟩, ⟨false, n "arglen", num xs.length⟩, ⟨false, n "body", e.val⟩, ⟨false, n "closure", clo⟩,
      ⟨false, n "args", A⟩]) (by simp [cpsArgs])
    have u2 := hG1.uses hu (by decide +kernel)
    have gK : getEnv (mergeEnv G [⟨false, n "kvar", L [ofSym (ph xs.length)]⟩, ⟨false, n "arglen", num xs.length⟩, ⟨false, n "body", e.val⟩,
      ⟨false, n "closure", clo⟩, ⟨false, n "args", A⟩]) (n "kvar") = some (L [ofSym (ph xs.length)]) := getEnv_merge_in hsG rfl
    have ua := u2.sub (T' := appendUses) (fun p hp => by simp [cpsUses, hp])
    refine (C72_append hG1.sorted (e := S "args") (xs := xs.map ofSym) (ps := [(S "kvar", [ofSym (ph xs.length)])]) ua ua ?_ ?_).trans
      (by rw [← hB]; simp)
    · rw [hA]; exact ok_sym (by res)
    · intro p hp H hH
      rw [List.mem_singleton.1 hp]
      exact ok_sym (resolves_local ((hH.same (n "kvar") (by decide) (.inl (by decide))).trans gK))
  · rw [← hB]
    exact not_func_syms xs _
  · have hG1 := hE.merge (b := [⟨false, n "fargs", B⟩, ⟨false, n "kvar", L [ofSym (ph xs.length)]⟩, ⟨false, n "arglen", num xs.length⟩, ⟨false, n "body", e.val⟩,
      ⟨false, n "closure", clo⟩, ⟨false, n "args", A⟩]) (by simp [cpsArgs])
    have u2 := hG1.uses hu (by decide +kernel)
    have hargs' : evalSeq sem (envVal (mergeEnv G [⟨false, n "fargs", B⟩, ⟨false, n "kvar", L [ofSym (ph xs.length)]⟩, ⟨false, n "arglen", num xs.length⟩,
        ⟨false, n "body", e.val⟩, ⟨false, n "closure", clo⟩, ⟨false, n "args", A⟩])) [S "kvar", L [S "+", S "arglen", N 1], S "body"] st =
        .ok ([ofList [ofSym (ph xs.length)], num (xs.length + 1 : Nat), e.val], st) :=
      okSeq_cons (ok_sym (by res)) (okSeq_cons (ok_two (op := .add) (by res) (ok_sym (by res)) (ok_num 1) rfl hlen)
        (okSeq_cons (ok_sym (by res)) okSeq_nil))
    rw [← hr]
    exact liftOK hl hu hd e he [ofSym (ph xs.length)] (xs.length + 1) hc hG1 hargs'
  · have hG1 := hE.merge (b := [⟨false, n "lifted", r.2⟩, ⟨false, n "fargs", B⟩, ⟨false, n "kvar", L [ofSym (ph xs.length)]⟩, ⟨false, n "arglen", num xs.length⟩,
      ⟨false, n "body", e.val⟩, ⟨false, n "closure", clo⟩, ⟨false, n "args", A⟩]) (by simp [cpsArgs])
    have u2 := hG1.uses hu (by decide +kernel)
    exact ok_two (op := .cons) (by res) (ok_sym (by res)) (ok_two (op := .cons) (by res) (ok_sym (by res)) (ok_list (u2.at 8 rfl)
      (ok_list_cons ok_list_nil (ok_sym (by res)))) rfl rfl) rfl rfl
