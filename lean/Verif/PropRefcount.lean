import Verif.PropRefs
import Verif.PropCpsDen

/-!
# C90: counting the references of a converted function

`cps:refcount_r` and its helpers of `share/mnml/cps.l` count the references of a call in continuation-passing style and of the continuations
within it.
-/

namespace Mnml
namespace Lib

open Val Lex

/-! ## The text -/

/-- The body of `cps:getrefs-any` (`share/mnml/cps.l:130-132`). -/
def anyLet : Val :=
  L [S "let", L [cons (L [wild, S "args", S "body"]) (L [S "last", S "fun"]), cons (S "nvar") (L [S "last", S "args"])],
    L [S "cps:getrefs", S "ARGS", S "kvar", L [S "cps:refcount_r", S "ARGS", S "nvar", S "body", S "acc"], S "fun"]]

/-- `cps:getrefs-any` (`share/mnml/cps.l:128-132`). -/
def anySrc : Val :=
  L [S "def", S "cps:getrefs-any", L [S "ARGS", S "kvar", S "fun", S "acc"],
    str "Recursively collect placeholder reference count in any CPS form.", anyLet]

/-- The value of `cps:getrefs-any` once defined. -/
def anyV : Val := cons (L [S "ARGS", S "kvar", S "fun", S "acc"]) (cons nil (L [anyLet]))

/-- The function that `cps:getrefs-ite` folds (`share/mnml/cps.l:138`), without its arguments. -/
def iteBody : Val := L [L [S "cps:refcount_r", S "ARGS", S "kvar", S "e", S "acm"]]

/-- The body of `cps:getrefs-ite` (`share/mnml/cps.l:136-139`). -/
def iteLet : Val :=
  L [S "let", L [cons (cons wild (cons wild (S "ops"))) (S "fun")], L [S "cps:getrefs", S "ARGS", S "kvar",
    L [S "foldr", cons (S "\\") (cons (L [S "e", S "acm"]) iteBody), S "ops", S "acc"], S "fun"]]

/-- `cps:getrefs-ite` (`share/mnml/cps.l:134-139`). -/
def iteSrc : Val :=
  L [S "def", S "cps:getrefs-ite", L [S "ARGS", S "kvar", S "fun", S "acc"],
    str "Recursively collect placeholder reference count in a CPS ITE form.", iteLet]

/-- The value of `cps:getrefs-ite` once defined. -/
def iteV : Val := cons (L [S "ARGS", S "kvar", S "fun", S "acc"]) (cons nil (L [iteLet]))

/-- The call of `cps:getrefs-ite` in the clauses. -/
def iteCall : Val := L [S "cps:getrefs-ite", S "ARGS", S "kvar", S "fun", S "acc"]

/-- The function that the expression after the tilde folds (`share/mnml/cps.l:148`), without its arguments. -/
def countTildeBody : Val :=
  L [L [S "cons", L [S "cons", cons (S "list") (cons (S "e") (cons wild wild)), Q iteCall], S "acc"]]

/-- The expression after the tilde (`share/mnml/cps.l:147-149`). -/
def countTilde : Val :=
  L [S "foldl", cons (S "\\") (cons (L [S "acc", S "e"]) countTildeBody), nil, Q (L [S "if", S "unless", S "when"])]

/-- Its value: a clause for each conditional. -/
def countTildeV : Val :=
  L [cons (cons (S "when") (cons wild wild)) iteCall, cons (cons (S "unless") (cons wild wild)) iteCall,
    cons (cons (S "if") (cons wild wild)) iteCall]

/-- The clauses of `cps:refcount_r` (`share/mnml/cps.l:144-157`), with those of the tilde. -/
def countClauses : Val :=
  L [cons (cons (S "when") (cons wild wild)) iteCall, cons (cons (S "unless") (cons wild wild)) iteCall,
    cons (cons (S "if") (cons wild wild)) iteCall,
    cons (cons wild wild) (L [S "cps:getrefs-any", S "ARGS", S "kvar", S "fun", S "acc"]), cons wild (S "acc")]

/-- `cps:refcount_r` (`share/mnml/cps.l:141-157`). -/
def countSrc : Val :=
  L [S "def", S "cps:refcount_r", L [S "ARGS", S "kvar", S "fun", S "acc"],
    str "Recursively collect placeholder reference count in a CPS funcall FUN.", cons (S "match") (cons (S "fun") countClauses)]

/-- The value of `cps:refcount_r` once defined. -/
def countV : Val := cons (L [S "ARGS", S "kvar", S "fun", S "acc"]) (cons nil (L [cons (S "match") (cons (S "fun") countClauses)]))

/-- The body of `cps:refcount` (`share/mnml/cps.l:161-163`). -/
def refcountIf : Val :=
  L [S "if", L [S "lst?", S "body"], L [S "let", L [cons (S "xvar") (L [S "last", S "ARGS"])],
    L [S "if", S "body", L [S "cps:refcount_r", S "ARGS", S "xvar", S "body", nil]]]]

/-- `cps:refcount` (`share/mnml/cps.l:159-163`). -/
def refcountSrc : Val :=
  L [S "def", S "cps:refcount", L [L [S "ARGS", wild, S "body"]], str "Collect placeholder reference count in a CPS function FUN.", refcountIf]

/-- The value of `cps:refcount` once defined. -/
def refcountV : Val := cons (L [L [S "ARGS", wild, S "body"]]) (cons nil (L [refcountIf]))

theorem any_def (st : St) (h : st.globals Native.def_.name = some Native.def_.val) :
    sem nil anySrc st = .ok (S "cps:getrefs-any", define "cps:getrefs-any" anyV st) := ok_def h rfl

theorem ite_def (st : St) (h : st.globals Native.def_.name = some Native.def_.val) :
    sem nil iteSrc st = .ok (S "cps:getrefs-ite", define "cps:getrefs-ite" iteV st) := ok_def h rfl

theorem count_def (st : St) (h : st.globals Native.def_.name = some Native.def_.val) :
    sem nil countSrc st = .ok (S "cps:refcount_r", define "cps:refcount_r" countV st) := ok_def h rfl

theorem refcount_def (st : St) (h : st.globals Native.def_.name = some Native.def_.val) :
    sem nil refcountSrc st = .ok (S "cps:refcount", define "cps:refcount" refcountV st) := ok_def h rfl

/-- `share/mnml/cps.l:127-163`. -/
def refcountText : List UInt8 :=
  fileText [
      "\n",
      "(def cps:getrefs-any (ARGS kvar fun acc)\n",
      "\t\"Recursively collect placeholder reference count in any CPS form.\"\n",
      "\t(let (((_ args body) . (last fun))\n",
      "\t\t\t\t(nvar\t\t\t\t\t. (last args)))\n",
      "\t\t(cps:getrefs ARGS kvar (cps:refcount_r ARGS nvar body acc) fun)))\n",
      "\n",
      "(def cps:getrefs-ite (ARGS kvar fun acc)\n",
      "\t\"Recursively collect placeholder reference count in a CPS ITE form.\"\n",
      "\t(let (((_ _ . ops) . fun))\n",
      "\t\t(cps:getrefs ARGS kvar\n",
      "\t\t\t\t\t\t\t\t (foldr (\\ (e acm) (cps:refcount_r ARGS kvar e acm)) ops acc)\n",
      "\t\t\t\t\t\t\t\t fun)))\n",
      "\n",
      "(def cps:refcount_r (ARGS kvar fun acc)\n",
      "\t\"Recursively collect placeholder reference count in a CPS funcall FUN.\"\n",
      "\t(match fun\n",
      "\t\t#\n",
      "\t\t# Control forms\n",
      "\t\t#\n",
      "\t\t~(foldl\n",
      "\t\t\t (\\ (acc e) (cons (cons (list e _ . _) '(cps:getrefs-ite ARGS kvar fun acc)) acc))\n",
      "\t\t\t NIL '(if unless when))\n",
      "\t\t#\n",
      "\t\t# Any forms.\n",
      "\t\t#\n",
      "\t\t((_ . _) . (cps:getrefs-any ARGS kvar fun acc))\n",
      "\t\t#\n",
      "\t\t# Default.\n",
      "\t\t#\n",
      "\t\t(_ . acc)))\n",
      "\n",
      "(def cps:refcount ((ARGS _ body))\n",
      "\t\"Collect placeholder reference count in a CPS function FUN.\"\n",
      "\t(if (lst? body)\n",
      "\t\t(let ((xvar . (last ARGS)))\n",
      "\t\t\t(if body (cps:refcount_r ARGS xvar body NIL)))))\n"]

/-- What the reader makes of it, where evaluating the expression after the tilde gives `countTildeV` (`C90_clauses`). -/
theorem refcount_text : drain (fun v => if v = countTilde then .ok countTildeV else .unsupported) 38 .init refcountText =
    .ok ⟨[], [], none, [anySrc, iteSrc, countSrc, refcountSrc]⟩ := by
  rw [drain_eq]
  simp only [refcountText, fileText, List.flatMap_cons, List.flatMap_nil, litToList]
  decide +kernel

/-! ## Terms -/

/-- Terms in continuation-passing style: values that are not calls, calls whose last argument is not a function, calls with a function as continuation,
and conditionals whose branches are terms. -/
inductive Tm where
  | leaf (v : Val)
  | call (f : Val) (as : List Val) (k : Val)
  | cont (f : Val) (as : List Val) (p : Sym) (b : Tm)
  | ith (c : Cnd) (x : Val) (t : Tm)
  | ite (c : Cnd) (x : Val) (t e : Tm)

/-- The value of a term. -/
def Tm.val : Tm → Val
  | leaf v => v
  | call f as k => ofList (f :: as ++ [k])
  | cont f as p b => ofList (f :: as ++ [L [S "\\", L [ofSym p], b.val]])
  | ith c x t => ofList [ofSym c.name, x, t.val]
  | ite c x t e => ofList [ofSym c.name, x, t.val, e.val]

/-- A list that can be a call: not marked, without NIL among the arguments, not a conditional, and without the name `params`. -/
def CallOk (f : Val) (as : List Val) : Prop :=
  (∀ c : Cnd, ∀ b, f ≠ sym b c.name) ∧ (∀ y ∈ f :: as, y.isTailCall = false) ∧ (∀ y ∈ as, y.isNil = false) ∧ n "params" ∉ patSyms (ofList (f :: as))

/-- The terms considered. -/
def Tm.Ok : Tm → Prop
  | leaf v => v.isPair = false
  | call f as k => CallOk f (as ++ [k]) ∧ k.isPair = false
  | cont f as p b => CallOk f (as ++ [L [S "\\", L [ofSym p], b.val]]) ∧ b.Ok
  | ith c x t => x.isTailCall = false ∧ t.val.isTailCall = false ∧ n "params" ∉ patSyms (Tm.ith c x t).val ∧ t.Ok
  | ite c x t e => x.isTailCall = false ∧ t.val.isTailCall = false ∧ e.val.isTailCall = false ∧ n "params" ∉ patSyms (Tm.ite c x t e).val ∧ t.Ok ∧ e.Ok

/-- The number of times that the call W itself has S among its counted arguments, unless S is the continuation K. -/
def here (A k w : Val) (s : Sym) : Nat := if equ (ofSym s) k then 0 else (elems (counted A w)).countP fun p => equ p (ofSym s)

/-- Whether the call W itself has S among its counted arguments. -/
def hereIn (A w : Val) (s : Sym) : Bool := (elems (counted A w)).any fun p => equ p (ofSym s)

/-- The number of references to S: in each call, those that are not to the current continuation; within a function that is a continuation, its
argument is the current one. -/
def Tm.occ (A : Val) (s : Sym) (k : Val) : Tm → Nat
  | leaf _ => 0
  | call f as x => here A k (Tm.call f as x).val s
  | cont f as p b => here A k (Tm.cont f as p b).val s + b.occ A s (ofSym p)
  | ith c x t => here A k (Tm.ith c x t).val s + t.occ A s k
  | ite c x t e => here A k (Tm.ite c x t e).val s + t.occ A s k + e.occ A s k

/-- Whether S is mentioned by a call. -/
def Tm.mentions (A : Val) (s : Sym) : Tm → Bool
  | leaf _ => false
  | call f as x => hereIn A (Tm.call f as x).val s
  | cont f as p b => hereIn A (Tm.cont f as p b).val s || b.mentions A s
  | ith c x t => hereIn A (Tm.ith c x t).val s || t.mentions A s
  | ite c x t e => hereIn A (Tm.ite c x t e).val s || t.mentions A s || e.mentions A s

/-- The number of arguments in all calls. -/
def Tm.size (A : Val) : Tm → Nat
  | leaf _ => 0
  | call f as x => (elems (counted A (Tm.call f as x).val)).length
  | cont f as p b => (elems (counted A (Tm.cont f as p b).val)).length + b.size A
  | ith c x t => (elems (counted A (Tm.ith c x t).val)).length + t.size A
  | ite c x t e => (elems (counted A (Tm.ite c x t e).val)).length + t.size A + e.size A

/-- The table that results. -/
def Tm.count (A : Val) (k : Val) (xs : List Val) : Tm → List Val
  | leaf _ => xs
  | call f as x => (elems (counted A (Tm.call f as x).val)).foldl (bump k) xs
  | cont f as p b => (elems (counted A (Tm.cont f as p b).val)).foldl (bump k) (b.count A (ofSym p) xs)
  | ith c x t => (elems (counted A (Tm.ith c x t).val)).foldl (bump k) (t.count A k xs)
  | ite c x t e => (elems (counted A (Tm.ite c x t e).val)).foldl (bump k) (t.count A k (e.count A k xs))

/-- What the table says about S, after B more references. -/
def Post (s : Sym) (m : Bool) (i : Nat) (xs ys : List Val) : Prop :=
  find (ofSym s) ys = if m then num (natOf (find (ofSym s) xs) + i : Nat) else find (ofSym s) xs

theorem Post.trans {s : Sym} {m m' : Bool} {i j : Nat} {xs ys zs : List Val} (h : Post s m i xs ys) (h' : Post s m' j ys zs)
    (hi : m = false → i = 0) (hj : m' = false → j = 0) : Post s (m' || m) (j + i) xs zs := by
  unfold Post at *
  rw [h', h]
  cases m <;> cases m' <;> simp_all [natOf] <;> omega

theorem here_zero {A k w : Val} {s : Sym} (h : hereIn A w s = false) : here A k w s = 0 := by
  unfold here
  split
  · rfl
  · rw [List.countP_eq_zero]
    intro a ha
    have := List.any_eq_false.1 h a ha
    simpa using this

theorem Tm.occ_zero {A : Val} {s : Sym} : (t : Tm) → (k : Val) → t.mentions A s = false → t.occ A s k = 0
  | leaf _, _, _ => rfl
  | call .., _, h => here_zero h
  | cont f as p b, k, h => by
    simp only [mentions, Bool.or_eq_false_iff] at h
    simp [occ, here_zero h.1, b.occ_zero _ h.2]
  | ith c x t, k, h => by
    simp only [mentions, Bool.or_eq_false_iff] at h
    simp [occ, here_zero h.1, t.occ_zero _ h.2]
  | ite c x t e, k, h => by
    simp only [mentions, Bool.or_eq_false_iff] at h
    simp [occ, here_zero h.1.1, t.occ_zero _ h.1.2, e.occ_zero _ h.2]

theorem mem_counted {A : Val} {f : Val} {as : List Val} {y : Val} (h : y ∈ elems (counted A (ofList (f :: as)))) : y ∈ f :: as := by
  unfold counted at h
  split at h
  · rwa [elems_ofList] at h
  · have : (ofList (f :: as)).cdr = ofList as := rfl
    rw [this, elems_ofList] at h
    exact List.mem_cons_of_mem _ h

theorem unmarked_counted {A f : Val} {as : List Val} (h : n "params" ∉ patSyms (ofList (f :: as))) : Unmarked (counted A (ofList (f :: as))) := by
  have hn : ∀ xs : List Val, (ofList xs).cdr.cdr.isNum = false := by
    intro xs
    match xs with
    | [] => rfl
    | [_] => rfl
    | [_, _] => rfl
    | _ :: _ :: _ :: _ => rfl
  unfold counted
  split
  · exact .inr ⟨h, hn _⟩
  · refine .inr ⟨fun hc => h ?_, hn as⟩
    show _ ∈ patSyms (pair false f (ofList as))
    simp only [patSyms, List.mem_append]
    exact .inr hc

/-- What a term is as a list: function and arguments. -/
def Tm.items : Tm → Option (Val × List Val)
  | leaf _ => none
  | call f as k => some (f, as ++ [k])
  | cont f as p b => some (f, as ++ [L [S "\\", L [ofSym p], b.val]])
  | ith c x t => some (ofSym c.name, [x, t.val])
  | ite c x t e => some (ofSym c.name, [x, t.val, e.val])

theorem Tm.items_val {t : Tm} {f : Val} {as : List Val} (h : t.items = some (f, as)) (ho : t.Ok) :
    t.val = ofList (f :: as) ∧ (∀ y ∈ f :: as, y.isTailCall = false) ∧ n "params" ∉ patSyms (ofList (f :: as)) := by
  cases t with
  | leaf v => cases h
  | call f' as' k => cases h; exact ⟨rfl, ho.1.2.1, ho.1.2.2.2⟩
  | cont f' as' p b => cases h; exact ⟨rfl, ho.1.2.1, ho.1.2.2.2⟩
  | ith c x t =>
    cases h
    exact ⟨rfl, fun y hy => by
      simp only [List.mem_cons, List.not_mem_nil, or_false] at hy
      rcases hy with rfl | rfl | rfl
      · rfl
      · exact ho.1
      · exact ho.2.1, ho.2.2.1⟩
  | ite c x t e =>
    cases h
    exact ⟨rfl, fun y hy => by
      simp only [List.mem_cons, List.not_mem_nil, or_false] at hy
      rcases hy with rfl | rfl | rfl | rfl
      · rfl
      · exact ho.1
      · exact ho.2.1
      · exact ho.2.2.1, ho.2.2.2.1⟩

theorem Tm.marks {t : Tm} {f : Val} {as : List Val} (h : t.items = some (f, as)) (ho : t.Ok) (A : Val) :
    (∀ y ∈ elems (counted A t.val), y.isTailCall = false) ∧ Unmarked (counted A t.val) := by
  obtain ⟨h1, h2, h3⟩ := t.items_val h ho
  rw [h1]
  exact ⟨fun y hy => h2 y (mem_counted hy), unmarked_counted h3⟩

/-- The table has the counts that it should. -/
theorem Tm.count_spec {A : Val} : (t : Tm) → t.Ok → ∀ (k : Val) (xs : List Val) (b : Nat), Counts b xs →
    Counts (b + t.size A) (t.count A k xs) ∧ (Distinct xs → Distinct (t.count A k xs)) ∧
      ∀ s, Post s (t.mentions A s) (t.occ A s k) xs (t.count A k xs)
  | leaf v, _, k, xs, b, h => ⟨h, id, fun s => rfl⟩
  | call f as x, ho, k, xs, b, h => by
    have hm := (Tm.marks (t := Tm.call f as x) rfl ho A).1
    exact ⟨(fold_bump k aANY _ _ _ hm h).1, (fold_bump k aANY _ _ _ hm h).2.1, fun s => (fold_bump k s _ _ _ hm h).2.2⟩
  | cont f as p t, ho, k, xs, b, h => by
    have hm := (Tm.marks (t := Tm.cont f as p t) rfl ho A).1
    obtain ⟨i1, i2, i3⟩ := t.count_spec (A := A) ho.2 (ofSym p) xs b h
    refine ⟨?_, fun hd => (fold_bump k aANY _ _ _ hm i1).2.1 (i2 hd), fun s => ?_⟩
    · have := (fold_bump k aANY _ _ _ hm i1).1
      exact this.mono (by simp only [size]; omega)
    · exact (i3 s).trans (m' := hereIn A _ s) (fold_bump k s _ _ _ hm i1).2.2 (t.occ_zero _) here_zero
  | ith c x t, ho, k, xs, b, h => by
    have hm := (Tm.marks (t := Tm.ith c x t) rfl ho A).1
    obtain ⟨i1, i2, i3⟩ := t.count_spec (A := A) ho.2.2.2 k xs b h
    refine ⟨?_, fun hd => (fold_bump k aANY _ _ _ hm i1).2.1 (i2 hd), fun s => ?_⟩
    · have := (fold_bump k aANY _ _ _ hm i1).1
      exact this.mono (by simp only [size]; omega)
    · exact (i3 s).trans (m' := hereIn A _ s) (fold_bump k s _ _ _ hm i1).2.2 (t.occ_zero _) here_zero
  | ite c x t e, ho, k, xs, b, h => by
    have hm := (Tm.marks (t := Tm.ite c x t e) rfl ho A).1
    obtain ⟨j1, j2, j3⟩ := e.count_spec (A := A) ho.2.2.2.2.2 k xs b h
    obtain ⟨i1, i2, i3⟩ := t.count_spec (A := A) ho.2.2.2.2.1 k _ _ j1
    refine ⟨?_, fun hd => (fold_bump k aANY _ _ _ hm i1).2.1 (i2 (j2 hd)), fun s => ?_⟩
    · have := (fold_bump k aANY _ _ _ hm i1).1
      exact this.mono (by simp only [size]; omega)
    · have h1 := (j3 s).trans (i3 s) (e.occ_zero _) (t.occ_zero _)
      have h2 := h1.trans (m' := hereIn A _ s) (j := here A k (Tm.ite c x t e).val s) (fold_bump k s _ _ _ hm i1).2.2 (fun hh => by
        simp only [Bool.or_eq_false_iff] at hh
        rw [t.occ_zero _ hh.1, e.occ_zero _ hh.2]) here_zero
      simp only [mentions, occ]
      rw [Bool.or_assoc, Nat.add_assoc]
      exact h2

/-! ## The functions -/

/-- The definitions that `cps:refcount` relies on. -/
def countUses : List (Sym × Val) :=
  [(n "cps:refcount_r", countV), (n "cps:getrefs-any", anyV), (n "cps:getrefs-ite", iteV), (n "cps:refcount", refcountV), (n "match", Native.match_.val),
   (n "quote", Native.quote.val), (n "list", Native.list.val)] ++ refsUses ++ last2Uses

/-- The names bound by `cps:refcount` and its helpers. -/
def countArgs : List Sym := [n "args", n "body", n "nvar", n "ops", n "acm", n "xvar"] ++ refsArgs

/-- `cps:refcount_r` makes of the term what `Tm.count` says. -/
def CountOK (l : List Entry) (st : St) (t : Tm) : Prop :=
  ∀ (A k : Val) (xs : List Val) (b : Nat), Counts b xs → ((b + t.size A : Nat) : Int) ≤ i64max → ∀ {E : List Entry}, Near countArgs l E →
    ∀ {ea ek ef ex : Val}, evalSeq sem (envVal E) [ea, ek, ef, ex] st = .ok ([A, k, t.val, ofList xs], st) →
    sem (envVal E) (L [S "cps:refcount_r", ea, ek, ef, ex]) st = .ok (ofList (t.count A k xs), st)

/-- The variables of `cps:refcount_r` and of its helpers. -/
structure CountEnv (l E : List Entry) (A k w x : Val) : Prop where
  near : Near countArgs l E
  args : getEnv E (n "ARGS") = some A
  kvar : getEnv E (n "kvar") = some k
  fn : getEnv E (n "fun") = some w
  acc : getEnv E (n "acc") = some x

theorem CountEnv.seq {l E : List Entry} {A k w x : Val} (h : CountEnv l E A k w x) {st : St} :
    evalSeq sem (envVal E) [S "ARGS", S "kvar", S "fun", S "acc"] st = .ok ([A, k, w, x], st) :=
  okSeq_cons (ok_sym (resolves_local h.args)) (okSeq_cons (ok_sym (resolves_local h.kvar)) (okSeq_cons (ok_sym (resolves_local h.fn))
    (okSeq_cons (ok_sym (resolves_local h.acc)) okSeq_nil)))

theorem countEnv_merge {l E : List Entry} {A k w x : Val} (hE : Near countArgs l E) :
    CountEnv l (mergeEnv E [⟨false, n "acc", x⟩, ⟨false, n "fun", w⟩, ⟨false, n "kvar", k⟩, ⟨false, n "ARGS", A⟩]) A k w x :=
  ⟨hE.merge (by simp [countArgs, refsArgs, foldArgs]), getEnv_merge_in hE.sorted rfl, getEnv_merge_in hE.sorted rfl, getEnv_merge_in hE.sorted rfl,
    getEnv_merge_in hE.sorted rfl⟩

/-- Into `cps:refcount_r`. -/
theorem count_enter {l : List Entry} {st : St} (hu : Uses countUses l st) {E : List Entry} (hE : Near countArgs l E) {A k w x v ea ek ef ex : Val}
    (hv : v.isTailCall = false) (h : ∀ F, CountEnv l F A k w x → matchV sem (envVal F) w countClauses st = .ok (v, st))
    (hargs : evalSeq sem (envVal E) [ea, ek, ef, ex] st = .ok ([A, k, w, x], st)) :
    sem (envVal E) (L [S "cps:refcount_r", ea, ek, ef, ex]) st = .ok (v, st) := by
  have u := hE.uses hu (by decide +kernel)
  refine ok_call (d := []) (as := [S "ARGS", S "kvar", S "fun", S "acc"]) (vs := [ea, ek, ef, ex]) (xs := [A, k, w, x]) (u.at 0 rfl) rfl rfl hargs
    (loop_done (ok_prog1.trans ?_) hv)
  have hF := countEnv_merge (l := l) (A := A) (k := k) (w := w) (x := x) hE
  change sem (envVal (mergeEnv E [⟨false, n "acc", x⟩, ⟨false, n "fun", w⟩, ⟨false, n "kvar", k⟩, ⟨false, n "ARGS", A⟩])) _ st = _
  generalize mergeEnv E [⟨false, n "acc", x⟩, ⟨false, n "fun", w⟩, ⟨false, n "kvar", k⟩, ⟨false, n "ARGS", A⟩] = F at hF ⊢
  have u1 := hF.near.uses hu (by decide +kernel)
  refine ok_match (u1.at 4 rfl) (a := w) (st1 := st) ?_ (h F hF)
  refine ok_sym (show Resolves (envVal (⟨false, aANY, _⟩ :: F)) st (n "fun") _ from resolves_local ?_)
  rw [getEnv_cons, if_neg (show ¬ aANY = n "fun" by decide)]
  exact hF.fn

theorem count_leaf {l : List Entry} {st : St} (hu : Uses countUses l st) {v : Val} (hv : v.isPair = false) : CountOK l st (.leaf v) := by
  intro A k xs b hx hb E hE ea ek ef ex hargs
  refine count_enter hu hE (tail_ofList _) (fun F hF => ?_) hargs
  have : sem (envVal F) (S "acc") st = .ok (ofList xs, st) := ok_sym (resolves_local hF.acc)
  cases v with
  | pair => cases hv
  | _ => exact this

/-- `last` of the empty list. -/
theorem last_nil {l : List Entry} (hl : Sorted l) {st : St} (h : Uses last2Uses l st) {e : Val} (he : sem (envVal l) e st = .ok (nil, st)) :
    sem (envVal l) (L [S "last", e]) st = .ok (nil, st) := by
  refine ok_call (d := []) (as := [S "lst"]) (vs := [e]) (body := last2V.cdr.cdr) (by res) rfl rfl (okSeq_cons he okSeq_nil) ?_
  have u : Uses last2Uses (mergeEnv l [⟨false, n "lst", nil⟩]) st := uses_merge [n "lst"] h hl rfl (by decide)
  refine loop_done (ok_prog1.trans (ok_if_then (a := tru) (st1 := st) (by res) ?_ rfl (by ev))) rfl
  exact ok_one (op := .isnil) (a := nil) (by res) (last2_cadr (by sorted) u (w := nil) (ok_sym (by res)) rfl) rfl (by decide) rfl

/-- `cps:getrefs-any`, where the last element of the call has the parts of a function with the argument NV and the body BV. -/
theorem count_any {l : List Entry} {st : St} (hu : Uses countUses l st) {f : Val} {as : List Val} {z : Val} (ho : CallOk f (as ++ [z]))
    {b : Tm} {nv : Val} (hb1 : z.cdr.cdr.car = b.val) (hz : z.cdr.car = nil ∧ nv = nil ∨ z.cdr.car = L [nv] ∧ nv.isTailCall = false) (hnv : isFunc nv = false)
    (hB : CountOK l st b) {A k : Val} {xs : List Val} {c : Nat} (hb : b.Ok) (hx : Counts c xs)
    (hc : ((c + ((elems (counted A (ofList (f :: (as ++ [z]))))).length + b.size A) : Nat) : Int) ≤ i64max)
    {F : List Entry} (hF : CountEnv l F A k (ofList (f :: (as ++ [z]))) (ofList xs)) :
    sem (envVal F) (L [S "cps:getrefs-any", S "ARGS", S "kvar", S "fun", S "acc"]) st =
      .ok (ofList ((elems (counted A (ofList (f :: (as ++ [z]))))).foldl (bump k) (b.count A nv xs)), st) := by
  have u := hF.near.uses hu (by decide +kernel)
  have hw : ofList (f :: (as ++ [z])) = ofList ((f :: as) ++ [z]) := rfl
  generalize hwv : ofList (f :: (as ++ [z])) = w at *
  refine ok_call (d := []) (as := [S "ARGS", S "kvar", S "fun", S "acc"]) (vs := [S "ARGS", S "kvar", S "fun", S "acc"]) (u.at 1 rfl) rfl rfl hF.seq
    (loop_done (ok_prog1.trans ?_) (tail_ofList _))
  have hG := countEnv_merge (l := l) (A := A) (k := k) (w := w) (x := ofList xs) hF.near
  change sem (envVal (mergeEnv F [⟨false, n "acc", ofList xs⟩, ⟨false, n "fun", w⟩, ⟨false, n "kvar", k⟩, ⟨false, n "ARGS", A⟩])) _ st = _
  generalize mergeEnv F [⟨false, n "acc", ofList xs⟩, ⟨false, n "fun", w⟩, ⟨false, n "kvar", k⟩, ⟨false, n "ARGS", A⟩] = G at hG ⊢
  have u1 := hG.near.uses hu (by decide +kernel)
  have hs := hG.near.sorted
  have hlast : sem (envVal G) (L [S "last", S "fun"]) st = .ok (z, st) := by
    have ul := u1.sub (T' := last2Uses) (fun p hp => by simp [countUses, hp])
    exact C50_last_manips_partial (xs := f :: as) hs ul ul (by rw [← hw]; exact ok_sym (resolves_local hG.fn)) ho.2.1 ho.2.2.1
  refine ok_let_env (b := [⟨false, n "nvar", nv⟩, ⟨false, n "body", b.val⟩, ⟨false, n "args", z.cdr.car⟩]) (st1 := st) (by res)
    (okBind_pat (b := []) (st1 := st) (a := z) hlast ?_) (ok_prog1.trans ?_)
  · show letBind sem (envVal G) _ (envVal [⟨false, n "body", z.cdr.cdr.car⟩, ⟨false, n "args", z.cdr.car⟩]) st = _
    rw [hb1]
    refine okBind_cons (a := nv) (st1 := st) ?_ (letMark_of_not_func _ _ _ hnv) okBind_nil
    have hG1 := hG.near.merge (b := [⟨false, n "body", b.val⟩, ⟨false, n "args", z.cdr.car⟩]) (by simp [countArgs])
    have gA : getEnv (mergeEnv G [⟨false, n "body", b.val⟩, ⟨false, n "args", z.cdr.car⟩]) (n "args") = some z.cdr.car := getEnv_merge_in hs rfl
    generalize mergeEnv G [⟨false, n "body", b.val⟩, ⟨false, n "args", z.cdr.car⟩] = H at hG1 gA ⊢
    have u2 := hG1.uses hu (by decide +kernel)
    have ul := u2.sub (T' := last2Uses) (fun p hp => by simp [countUses, hp])
    rcases hz with ⟨h1, rfl⟩ | ⟨h1, h2⟩
    · rw [h1] at gA
      exact last_nil hG1.sorted ul (ok_sym (resolves_local gA))
    · rw [h1] at gA
      exact C50_last_manips_partial (xs := []) hG1.sorted ul ul (ok_sym (resolves_local gA)) (by simpa using h2) (by simp)
  · have hH := hG.near.merge (b := [⟨false, n "nvar", nv⟩, ⟨false, n "body", b.val⟩, ⟨false, n "args", z.cdr.car⟩]) (by simp [countArgs])
    have gA := getEnv_merge_skip (b := [⟨false, n "nvar", nv⟩, ⟨false, n "body", b.val⟩, ⟨false, n "args", z.cdr.car⟩]) hs rfl hG.args
    have gK := getEnv_merge_skip (b := [⟨false, n "nvar", nv⟩, ⟨false, n "body", b.val⟩, ⟨false, n "args", z.cdr.car⟩]) hs rfl hG.kvar
    have gF := getEnv_merge_skip (b := [⟨false, n "nvar", nv⟩, ⟨false, n "body", b.val⟩, ⟨false, n "args", z.cdr.car⟩]) hs rfl hG.fn
    have gX := getEnv_merge_skip (b := [⟨false, n "nvar", nv⟩, ⟨false, n "body", b.val⟩, ⟨false, n "args", z.cdr.car⟩]) hs rfl hG.acc
    have gN : getEnv (mergeEnv G [⟨false, n "nvar", nv⟩, ⟨false, n "body", b.val⟩, ⟨false, n "args", z.cdr.car⟩]) (n "nvar") = some nv :=
      getEnv_merge_in hs rfl
    have gB : getEnv (mergeEnv G [⟨false, n "nvar", nv⟩, ⟨false, n "body", b.val⟩, ⟨false, n "args", z.cdr.car⟩]) (n "body") = some b.val :=
      getEnv_merge_in hs rfl
    generalize mergeEnv G [⟨false, n "nvar", nv⟩, ⟨false, n "body", b.val⟩, ⟨false, n "args", z.cdr.car⟩] = H at hH gA gK gF gX gN gB ⊢
    have u2 := hH.uses hu (by decide +kernel)
    have hin := hB A nv xs c hx (by omega) hH (ea := S "ARGS") (ek := S "nvar") (ef := S "body") (ex := S "acc")
      (okSeq_cons (ok_sym (resolves_local gA)) (okSeq_cons (ok_sym (resolves_local gN)) (okSeq_cons (ok_sym (resolves_local gB))
        (okSeq_cons (ok_sym (resolves_local gX)) okSeq_nil))))
    have hcs := (b.count_spec (A := A) hb nv xs c hx).1
    subst hwv
    exact getrefs_ok hH.sorted (u2.sub (T' := refsUses) (fun p hp => by simp [countUses, hp])) (okSeq_cons (ok_sym (resolves_local gA))
      (okSeq_cons (ok_sym (resolves_local gK)) (okSeq_cons hin (okSeq_cons (ok_sym (resolves_local gF)) okSeq_nil)))) hcs
      (fun y hy => ho.2.1 y (mem_counted hy)) (unmarked_counted ho.2.2.2) (by omega)

/-- A call takes the clause for lists. -/
theorem match_call {F : List Entry} {st : St} {f : Val} {as : List Val} {v : Val} (ho : CallOk f as)
    (h : sem (envVal F) (L [S "cps:getrefs-any", S "ARGS", S "kvar", S "fun", S "acc"]) st = .ok (v, st)) :
    matchV sem (envVal F) (ofList (f :: as)) countClauses st = .ok (v, st) := by
  have no : ∀ c : Cnd, atomMatch (cons (ofSym c.name) (cons wild wild)) (ofList (f :: as)) = false := by
    intro c
    show (atomMatch (ofSym c.name) f && atomMatch (cons wild wild) (ofList as)) = false
    cases hf : atomMatch (ofSym c.name) f with
    | false => rfl
    | true =>
      obtain ⟨b, rfl⟩ := match_head c.name f hf
      exact absurd rfl (ho.1 c b)
  show matchV sem (envVal F) (ofList (f :: as)) (cons (cons (cons (ofSym Cnd.when_.name) (cons wild wild)) _)
    (cons (cons (cons (ofSym Cnd.unless_.name) (cons wild wild)) _) (cons (cons (cons (ofSym Cnd.if_.name) (cons wild wild)) _)
      (cons (cons (cons wild wild) _) (cons (cons wild _) nil))))) st = _
  unfold matchV
  rw [no, if_neg (by decide)]
  unfold matchV
  rw [no, if_neg (by decide)]
  unfold matchV
  rw [no, if_neg (by decide)]
  exact h

theorem count_call {l : List Entry} {st : St} (hu : Uses countUses l st) {f : Val} {as : List Val} {z : Val} (ho : (Tm.call f as z).Ok) :
    CountOK l st (.call f as z) := by
  intro A k xs b hx hb E hE ea ek ef ex hargs
  refine count_enter hu hE (tail_ofList _) (fun F hF => match_call ho.1 ?_) hargs
  have hz : z.cdr = nil := by
    have := ho.2
    cases z with
    | pair => cases this
    | _ => rfl
  exact count_any hu ho.1 (b := .leaf nil) (nv := nil) (by rw [hz]; rfl) (.inl ⟨by rw [hz]; rfl, rfl⟩) rfl (count_leaf hu rfl) rfl hx hb hF

theorem count_cont {l : List Entry} {st : St} (hu : Uses countUses l st) {f : Val} {as : List Val} {p : Sym} {t : Tm} (ho : (Tm.cont f as p t).Ok)
    (ht : CountOK l st t) : CountOK l st (.cont f as p t) := by
  intro A k xs b hx hb E hE ea ek ef ex hargs
  refine count_enter hu hE (tail_ofList _) (fun F hF => match_call ho.1 ?_) hargs
  exact count_any hu ho.1 (b := t) (nv := ofSym p) rfl (.inr ⟨rfl, rfl⟩) rfl ht ho.2 hx hb hF

open Classical in
/-- One step of the fold of `cps:getrefs-ite` over the branches. -/
noncomputable def countStep (l : List Entry) (st : St) (A k x y : Val) : M Val :=
  need (decide (∃ (t : Tm) (xs : List Val) (b : Nat), t.val = x ∧ CountOK l st t ∧ y = ofList xs ∧ Counts b xs ∧ ((b + t.size A : Nat) : Int) ≤ i64max))
    (do
      let v ← sem (envVal l) (L [S "cps:refcount_r", Q A, Q k, Q x, Q y])
      need (!v.isTailCall) (pure v))

theorem ok_count_quoted {l : List Entry} {st : St} (hl : Sorted l) (hu : Uses countUses l st) {t : Tm} (ht : CountOK l st t) {A k : Val} {xs : List Val}
    {b : Nat} (hx : Counts b xs) (hb : ((b + t.size A : Nat) : Int) ≤ i64max) :
    sem (envVal l) (L [S "cps:refcount_r", Q A, Q k, Q t.val, Q (ofList xs)]) st = .ok (ofList (t.count A k xs), st) :=
  ht A k xs b hx hb (Near.refl hl) (okSeq_cons (ok_quote (hu.at 5 rfl)) (okSeq_cons (ok_quote (hu.at 5 rfl)) (okSeq_cons (ok_quote (hu.at 5 rfl))
    (okSeq_cons (ok_quote (hu.at 5 rfl)) okSeq_nil))))

open Classical in
theorem count_step {l : List Entry} {st : St} (hl : Sorted l) (hu : Uses countUses l st) {t : Tm} (ht : CountOK l st t) {A k : Val} {xs : List Val}
    {b : Nat} (hx : Counts b xs) (hb : ((b + t.size A : Nat) : Int) ≤ i64max) :
    countStep l st A k t.val (ofList xs) st = .ok (ofList (t.count A k xs), st) := by
  unfold countStep need
  rw [if_pos (decide_eq_true ⟨t, xs, b, rfl, ht, rfl, hx, hb⟩), M.bind_congr_ok (ok_count_quoted hl hu ht hx hb), tail_ofList]
  rfl

open Classical in
/-- `cps:getrefs-ite`, where the fold over the branches gives the table YS. -/
theorem count_branches {l : List Entry} {st : St} (hl : Sorted l) (hu : Uses countUses l st) {f x : Val} {ts : List Val}
    (hm : ∀ y ∈ f :: x :: ts, y.isTailCall = false) (hp : n "params" ∉ patSyms (ofList (f :: x :: ts))) {A k : Val} {xs ys : List Val} {c : Nat}
    (hr : ts.foldrM (countStep l st A k) (ofList xs) st = .ok (ofList ys, st)) (hy : Counts c ys)
    (hc : ((c + (elems (counted A (ofList (f :: x :: ts)))).length : Nat) : Int) ≤ i64max)
    {F : List Entry} (hF : CountEnv l F A k (ofList (f :: x :: ts)) (ofList xs)) :
    sem (envVal F) iteCall st = .ok (ofList ((elems (counted A (ofList (f :: x :: ts)))).foldl (bump k) ys), st) := by
  have u := hF.near.uses hu (by decide +kernel)
  refine ok_call (d := []) (as := [S "ARGS", S "kvar", S "fun", S "acc"]) (vs := [S "ARGS", S "kvar", S "fun", S "acc"]) (u.at 2 rfl) rfl rfl hF.seq
    (loop_done (ok_prog1.trans ?_) (tail_ofList _))
  have hG := countEnv_merge (l := l) (A := A) (k := k) (w := ofList (f :: x :: ts)) (x := ofList xs) hF.near
  change sem (envVal (mergeEnv F [⟨false, n "acc", ofList xs⟩, ⟨false, n "fun", ofList (f :: x :: ts)⟩, ⟨false, n "kvar", k⟩, ⟨false, n "ARGS", A⟩])) _ st = _
  generalize mergeEnv F [⟨false, n "acc", ofList xs⟩, ⟨false, n "fun", ofList (f :: x :: ts)⟩, ⟨false, n "kvar", k⟩, ⟨false, n "ARGS", A⟩] = G at hG ⊢
  have u1 := hG.near.uses hu (by decide +kernel)
  have hs := hG.near.sorted
  refine ok_let_env (b := [⟨false, n "ops", ofList ts⟩]) (st1 := st) (by res)
    (okBind_pat (b := []) (st1 := st) (a := ofList (f :: x :: ts)) (ok_sym (resolves_local hG.fn)) okBind_nil) (ok_prog1.trans ?_)
  have hH := hG.near.merge (b := [⟨false, n "ops", ofList ts⟩]) (by simp [countArgs])
  have gA := getEnv_merge_skip (b := [⟨false, n "ops", ofList ts⟩]) hs rfl hG.args
  have gK := getEnv_merge_skip (b := [⟨false, n "ops", ofList ts⟩]) hs rfl hG.kvar
  have gF := getEnv_merge_skip (b := [⟨false, n "ops", ofList ts⟩]) hs rfl hG.fn
  have gX := getEnv_merge_skip (b := [⟨false, n "ops", ofList ts⟩]) hs rfl hG.acc
  have gO : getEnv (mergeEnv G [⟨false, n "ops", ofList ts⟩]) (n "ops") = some (ofList ts) := getEnv_merge_in hs rfl
  generalize mergeEnv G [⟨false, n "ops", ofList ts⟩] = H at hH gA gK gF gX gO ⊢
  have u2 := hH.uses hu (by decide +kernel)
  have hsH := hH.sorted
  have uf : Uses foldrUses H st := u2.sub (fun p hp => by simp [countUses, refsUses, replcUses, hp])
  have hfold : sem (envVal H) (L [S "foldr", cons (S "\\") (cons (L [S "e", S "acm"]) iteBody), S "ops", S "acc"]) st = .ok (ofList ys, st) := by
    refine (C49_foldr (I := fun s => s = st) (st1 := st) (F := cons (L [S "e", S "acm"]) (cons (envVal H) iteBody)) (w := ofList ts) (a := ofList xs)
      (g := countStep l st A k) hsH (fun s h => by rw [h]; exact uf) ?_ uf rfl (okSeq_cons (ok_lambda (by res)) (okSeq_cons (ok_sym (resolves_local gO))
      (okSeq_cons (ok_sym (resolves_local gX)) okSeq_nil))) (by rw [elems_ofList]; exact hr) ?_ (tail_ofList _)).1
    · refine acts2_lisp (p := S "e") (q := S "acm") rfl fun m x y st0 v st' hm h0 hg => ?_
      cases h0
      obtain ⟨hx', hv⟩ := need_ok hg
      obtain ⟨t, zs, b, rfl, ht, rfl, hz, hb⟩ := of_decide_eq_true hx'
      cases (count_step hl hu ht hz hb).symm.trans hg
      refine ⟨ok_prog1.trans ?_, tail_ofList _, rfl⟩
      have hN := ((hH.trans (hm.mono (by simp [foldArgs, refsArgs, countArgs]))).capture hH).merge
        (b := [⟨false, n "acm", ofList zs⟩, ⟨false, n "e", t.val⟩]) (by simp [countArgs, refsArgs])
      have hsm := sorted_mergeEnv H hm.sorted
      have gE : getEnv (mergeEnv (mergeEnv m H) [⟨false, n "acm", ofList zs⟩, ⟨false, n "e", t.val⟩]) (n "e") = some t.val := getEnv_merge_in hsm rfl
      have gM : getEnv (mergeEnv (mergeEnv m H) [⟨false, n "acm", ofList zs⟩, ⟨false, n "e", t.val⟩]) (n "acm") = some (ofList zs) :=
        getEnv_merge_in hsm rfl
      have gA' : getEnv (mergeEnv (mergeEnv m H) [⟨false, n "acm", ofList zs⟩, ⟨false, n "e", t.val⟩]) (n "ARGS") = some A :=
        getEnv_merge_skip hsm rfl (getEnv_merge_cap hm.sorted hsH gA)
      have gK' : getEnv (mergeEnv (mergeEnv m H) [⟨false, n "acm", ofList zs⟩, ⟨false, n "e", t.val⟩]) (n "kvar") = some k :=
        getEnv_merge_skip hsm rfl (getEnv_merge_cap hm.sorted hsH gK)
      exact ht A k zs b hz hb hN (okSeq_cons (ok_sym (resolves_local gA')) (okSeq_cons (ok_sym (resolves_local gK')) (okSeq_cons
        (ok_sym (resolves_local gE)) (okSeq_cons (ok_sym (resolves_local gM)) okSeq_nil))))
    · intro x _ y s v s' _ hg
      obtain ⟨hx, hv⟩ := need_ok hg
      obtain ⟨⟨w, s1⟩, _, h2⟩ := Res.bind_eq_ok.1 hv
      obtain ⟨h3, h4⟩ := need_ok h2
      cases h4
      simpa using h3
  exact getrefs_ok hsH (u2.sub (T' := refsUses) (fun p hp => by simp [countUses, hp])) (okSeq_cons (ok_sym (resolves_local gA))
    (okSeq_cons (ok_sym (resolves_local gK)) (okSeq_cons hfold (okSeq_cons (ok_sym (resolves_local gF)) okSeq_nil)))) hy
    (fun y hy => hm y (mem_counted hy)) (unmarked_counted hp) hc

/-- A conditional takes its clause. -/
theorem match_cnd {F : List Entry} {st : St} (c : Cnd) {x y v : Val} (h : sem (envVal F) iteCall st = .ok (v, st)) :
    matchV sem (envVal F) (cons (ofSym c.name) (cons x y)) countClauses st = .ok (v, st) := by
  cases c <;> exact h

theorem count_ith {l : List Entry} {st : St} (hl : Sorted l) (hu : Uses countUses l st) {c : Cnd} {x : Val} {t : Tm} (ho : (Tm.ith c x t).Ok)
    (ht : CountOK l st t) : CountOK l st (.ith c x t) := by
  intro A k xs b hx hb E hE ea ek ef ex hargs
  simp only [Tm.size] at hb
  refine count_enter hu hE (tail_ofList _) (fun F hF => match_cnd c ?_) hargs
  obtain ⟨_, h2, h3⟩ := Tm.items_val (t := Tm.ith c x t) rfl ho
  have h1 : [t.val].foldrM (countStep l st A k) (ofList xs) st = .ok (ofList (t.count A k xs), st) := by
    rw [List.foldrM_cons]
    exact (M.bind_congr_ok rfl).trans (count_step hl hu ht hx (by omega))
  exact count_branches hl hu h2 h3 h1 (t.count_spec (A := A) ho.2.2.2 k xs b hx).1 (by simp only [Tm.val] at hb; omega) hF

theorem count_ite {l : List Entry} {st : St} (hl : Sorted l) (hu : Uses countUses l st) {c : Cnd} {x : Val} {t e : Tm} (ho : (Tm.ite c x t e).Ok)
    (ht : CountOK l st t) (he : CountOK l st e) : CountOK l st (.ite c x t e) := by
  intro A k xs b hx hb E hE ea ek ef ex hargs
  simp only [Tm.size] at hb
  refine count_enter hu hE (tail_ofList _) (fun F hF => match_cnd c ?_) hargs
  obtain ⟨_, h2, h3⟩ := Tm.items_val (t := Tm.ite c x t e) rfl ho
  have hce := (e.count_spec (A := A) ho.2.2.2.2.2 k xs b hx).1
  have h1 : [t.val, e.val].foldrM (countStep l st A k) (ofList xs) st = .ok (ofList (t.count A k (e.count A k xs)), st) := by
    have h0 : [e.val].foldrM (countStep l st A k) (ofList xs) st = .ok (ofList (e.count A k xs), st) := by
      rw [List.foldrM_cons]
      exact (M.bind_congr_ok rfl).trans (count_step hl hu he hx (by omega))
    rw [List.foldrM_cons, M.bind_congr_ok h0]
    exact count_step hl hu ht hce (by omega)
  exact count_branches hl hu h2 h3 h1 (t.count_spec (A := A) ho.2.2.2.2.1 k _ _ hce).1 (by simp only [Tm.val] at hb; omega) hF

theorem countOK {l : List Entry} {st : St} (hl : Sorted l) (hu : Uses countUses l st) : (t : Tm) → t.Ok → CountOK l st t
  | .leaf _, ho => count_leaf hu ho
  | .call .., ho => count_call hu ho
  | .cont _ _ _ t, ho => count_cont hu ho (countOK hl hu t ho.2)
  | .ith _ _ t, ho => count_ith hl hu ho (countOK hl hu t ho.2.2.2)
  | .ite _ _ t e, ho => count_ite hl hu ho (countOK hl hu t ho.2.2.2.2.1) (countOK hl hu e ho.2.2.2.2.2)

/-- **C90.** `(cps:refcount_r A K W T)` for every term W in continuation-passing style without NIL among the arguments of its calls: a table with the
symbols of T and those that the calls of W mention, where the count of each is increased by the number of its references. -/
theorem C90_refcount_r_partial {l : List Entry} {st : St} (hl : Sorted l) (hu : Uses countUses l st) {t : Tm} (ho : t.Ok) {ea ek ew et A k : Val}
    {xs : List Val} {b : Nat} (hx : Counts b xs) (hb : ((b + t.size A : Nat) : Int) ≤ i64max)
    (hargs : evalSeq sem (envVal l) [ea, ek, ew, et] st = .ok ([A, k, t.val, ofList xs], st)) :
    ∃ ys, sem (envVal l) (L [S "cps:refcount_r", ea, ek, ew, et]) st = .ok (ofList ys, st) ∧
      Counts (b + t.size A) ys ∧ (Distinct xs → Distinct ys) ∧
      ∀ s, find (ofSym s) ys = if t.mentions A s then num (natOf (find (ofSym s) xs) + t.occ A s k : Nat) else find (ofSym s) xs :=
  ⟨_, countOK hl hu t ho A k xs b hx hb (Near.refl hl) hargs, (t.count_spec ho k xs b hx).1, (t.count_spec ho k xs b hx).2.1,
    (t.count_spec ho k xs b hx).2.2⟩

/-- **C90.** `(cps:refcount F)` for a converted function F with the arguments XS and then K, whose body is such a term: the symbols that the calls
of the body mention, each once, with the number of its references. -/
theorem C90_refcount_partial {l : List Entry} {st : St} (hl : Sorted l) (hu : Uses countUses l st) {t : Tm} (ho : t.Ok) (hp : t.val.isPair = true)
    {xs : List Sym} {k : Sym} {clo ef : Val} (hb : ((t.size (ofList ((xs ++ [k]).map ofSym)) : Nat) : Int) ≤ i64max)
    (hef : sem (envVal l) ef st = .ok (L [ofList ((xs ++ [k]).map ofSym), clo, t.val], st)) :
    ∃ ys, sem (envVal l) (L [S "cps:refcount", ef]) st = .ok (ofList ys, st) ∧
      Counts (t.size (ofList ((xs ++ [k]).map ofSym))) ys ∧ Distinct ys ∧
      ∀ s, find (ofSym s) ys = if t.mentions (ofList ((xs ++ [k]).map ofSym)) s then num (t.occ (ofList ((xs ++ [k]).map ofSym)) s (ofSym k) : Nat) else nil := by
  have hA : ofList ((xs ++ [k]).map ofSym) = ofList (xs.map ofSym ++ [ofSym k]) := by simp
  generalize ofList ((xs ++ [k]).map ofSym) = A at *
  have h0 : Counts 0 [] := fun x hx => by cases hx
  obtain ⟨i1, i2, i3⟩ := t.count_spec (A := A) ho (ofSym k) [] 0 h0
  rw [Nat.zero_add] at i1
  refine ⟨t.count A (ofSym k) [], ?_, i1, i2 .nil, fun s => Eq.trans (i3 s) ?_⟩
  · refine ok_call (d := []) (as := [L [S "ARGS", wild, S "body"]]) (vs := [ef]) (xs := [L [A, clo, t.val]]) (hu.at 3 rfl) rfl rfl (okSeq_cons hef okSeq_nil)
      (loop_done (ok_prog1.trans ?_) (tail_ofList _))
    have hE := (Near.refl (ps := countArgs) hl).merge (b := [⟨false, n "body", t.val⟩, ⟨false, n "ARGS", A⟩]) (by simp [countArgs, refsArgs])
    have gA : getEnv (mergeEnv l [⟨false, n "body", t.val⟩, ⟨false, n "ARGS", A⟩]) (n "ARGS") = some A := getEnv_merge_in hl rfl
    have gB : getEnv (mergeEnv l [⟨false, n "body", t.val⟩, ⟨false, n "ARGS", A⟩]) (n "body") = some t.val := getEnv_merge_in hl rfl
    change sem (envVal (mergeEnv l [⟨false, n "body", t.val⟩, ⟨false, n "ARGS", A⟩])) _ st = _
    generalize mergeEnv l [⟨false, n "body", t.val⟩, ⟨false, n "ARGS", A⟩] = E at hE gA gB ⊢
    have u := hE.uses hu (by decide +kernel)
    have hs := hE.sorted
    have hlst : sem (envVal E) (L [S "lst?", S "body"]) st = .ok (tru, st) :=
      ok_one (op := .islst) (by res) (ok_sym (resolves_local gB)) rfl (by decide) (by
        cases hv : t.val with
        | pair => rfl
        | _ => rw [hv] at hp; cases hp)
    refine ok_if_then (a := tru) (by res) hlst rfl ?_
    have hlast : sem (envVal E) (L [S "last", S "ARGS"]) st = .ok (ofSym k, st) := by
      have ul := u.sub (T' := last2Uses) (fun p hp => by simp [countUses, hp])
      refine C50_last_manips_partial (xs := xs.map ofSym) hs ul ul (by rw [← hA]; exact ok_sym (resolves_local gA)) (fun y hy => ?_) (fun y hy => ?_)
      · rw [← List.map_singleton, ← List.map_append] at hy
        obtain ⟨z, _, rfl⟩ := List.mem_map.1 hy
        rfl
      · have := List.mem_of_mem_tail hy
        rw [← List.map_singleton, ← List.map_append] at this
        obtain ⟨z, _, rfl⟩ := List.mem_map.1 this
        rfl
    refine ok_let_env (b := [⟨false, n "xvar", ofSym k⟩]) (st1 := st) (by res) (okBind_cons (b := []) (st1 := st) hlast (letMark_of_not_func _ _ _ rfl) okBind_nil)
      (ok_prog1.trans ?_)
    have hF := hE.merge (b := [⟨false, n "xvar", ofSym k⟩]) (by simp [countArgs])
    have gA1 := getEnv_merge_skip (b := [⟨false, n "xvar", ofSym k⟩]) hs rfl gA
    have gB1 := getEnv_merge_skip (b := [⟨false, n "xvar", ofSym k⟩]) hs rfl gB
    have gX1 : getEnv (mergeEnv E [⟨false, n "xvar", ofSym k⟩]) (n "xvar") = some (ofSym k) := getEnv_merge_in hs rfl
    generalize mergeEnv E [⟨false, n "xvar", ofSym k⟩] = F at hF gA1 gB1 gX1 ⊢
    have u1 := hF.uses hu (by decide +kernel)
    have hin := countOK hl hu t ho A (ofSym k) [] 0 h0 (by rw [Nat.zero_add]; exact hb) hF (ea := S "ARGS") (ek := S "xvar") (ef := S "body") (ex := nil)
      (okSeq_cons (ok_sym (resolves_local gA1)) (okSeq_cons (ok_sym (resolves_local gX1)) (okSeq_cons (ok_sym (resolves_local gB1))
        (okSeq_cons ok_nil okSeq_nil))))
    exact ok_if_then (a := t.val) (by res) (ok_sym (resolves_local gB1)) (by cases hv : t.val <;> simp_all [isPair, isNil]) hin
  · rw [show find (ofSym s) [] = nil from rfl]
    show (if _ then num (0 + _ : Nat) else _) = _
    rw [Nat.zero_add]

/-- **C90.** The expression after the tilde in `cps:refcount_r` has the clauses of the file as its value. -/
theorem C90_clauses {l : List Entry} {st : St} (hl : Sorted l) (hu : Uses countUses l st) : sem (envVal l) countTilde st = .ok (countTildeV, st) := by
  have uf : Uses foldlUses l st := hu.sub (fun p hp => by simp [countUses, refsUses, hasUses, hp])
  refine (C49_foldl (I := fun s => s = st) (st1 := st) (a := nil) (w := L [S "if", S "unless", S "when"])
    (F := cons (L [S "acc", S "e"]) (cons (envVal l) countTildeBody))
    (g := fun acc e => pure (cons (cons (cons e (cons wild wild)) iteCall) acc))
    hl (fun s h => by rw [h]; exact uf) ?_ uf rfl
    (okSeq_cons (ok_lambda (by res)) (okSeq_cons ok_nil (okSeq_cons (ok_quote (hu.at 5 rfl)) okSeq_nil))) rfl rfl).1
  refine acts2_lisp (p := S "acc") (q := S "e") rfl fun m x y st0 v st' hm h0 hg => ?_
  cases h0
  cases hg
  refine ⟨ok_prog1.trans ?_, rfl, rfl⟩
  have hN := (((Near.refl (ps := countArgs) hl).trans (hm.mono (by simp [foldArgs, countArgs, refsArgs]))).capture (Near.refl hl)).merge
      (b := [⟨false, n "e", y⟩, ⟨false, n "acc", x⟩]) (by simp [countArgs, refsArgs, foldArgs])
  have hsm := sorted_mergeEnv l hm.sorted
  have gX : getEnv (mergeEnv (mergeEnv m l) [⟨false, n "e", y⟩, ⟨false, n "acc", x⟩]) (n "e") = some y := getEnv_merge_in hsm rfl
  have gA : getEnv (mergeEnv (mergeEnv m l) [⟨false, n "e", y⟩, ⟨false, n "acc", x⟩]) (n "acc") = some x := getEnv_merge_in hsm rfl
  change sem (envVal (mergeEnv (mergeEnv m l) [⟨false, n "e", y⟩, ⟨false, n "acc", x⟩])) _ st = _
  generalize mergeEnv (mergeEnv m l) [⟨false, n "e", y⟩, ⟨false, n "acc", x⟩] = G at hN gX gA ⊢
  have u2 := hN.uses hu (by decide +kernel)
  exact ok_two (op := .cons) (by res) (ok_two (op := .cons) (by res) (ok_list (u2.at 6 rfl) (ok_list_cons (ok_list_cons rfl
    ok_wild) (ok_sym (resolves_local gX)))) (ok_quote (u2.at 5 rfl)) rfl rfl) (ok_sym (resolves_local gA)) rfl rfl

/-! ## Converted functions -/

mutual
/-- Expressions without tail call marks, without `params`, and whose calls are not of a conditional. -/
def Ex.Clean : Ex → Prop
  | .atom v => v.isTailCall = false ∧ n "params" ∉ patSyms v
  | .call f as => f.isTailCall = false ∧ n "params" ∉ patSyms f ∧ (∀ c : Cnd, ∀ b, f ≠ sym b c.name) ∧ as.Clean
  | .ite x t e => x.Clean ∧ t.Clean ∧ e.Clean
  | .ith _ x t => x.Clean ∧ t.Clean
def Exs.Clean : Exs → Prop
  | .nil => True
  | .cons a as => a.Clean ∧ as.Clean
end

/-- Continuations: a symbol, or a function with a term as body. -/
inductive Kont where
  | var (s : Sym)
  | lam (p : Sym) (t : Tm)

/-- The value of a continuation. -/
def Kont.val : Kont → Val
  | var s => ofSym s
  | lam p t => lamV p t.val

/-- The continuations considered. -/
def Kont.Ok : Kont → Prop
  | var s => s ≠ n "params" ∧ ∀ c : Cnd, s ≠ c.name
  | lam p t => p ≠ n "params" ∧ t.Ok ∧ n "params" ∉ patSyms t.val

theorem patSyms_ofList {s : Sym} : (xs : List Val) → (∀ x ∈ xs, s ∉ patSyms x) → s ∉ patSyms (ofList xs)
  | [], _ => List.not_mem_nil
  | x :: xs, h => by
    show s ∉ patSyms x ++ patSyms (ofList xs)
    rw [List.mem_append]
    rintro (hc | hc)
    · exact h x (by simp) hc
    · exact patSyms_ofList xs (fun y hy => h y (by simp [hy])) hc

theorem ph_params (i : Nat) : n "params" ≠ ph i := ph_ne i _ (by decide)

theorem patSyms_sym {s p : Sym} (h : s ≠ p) : s ∉ patSyms (ofSym p) := by
  simp [patSyms, h]

theorem Kont.facts {k : Kont} (h : k.Ok) : k.val.isTailCall = false ∧ k.val.isNil = false ∧ n "params" ∉ patSyms k.val ∧
    ∀ c : Cnd, ∀ b, k.val ≠ sym b c.name := by
  cases k with
  | var s => exact ⟨rfl, rfl, patSyms_sym h.1.symm, fun c b e => h.2 c (by injection e)⟩
  | lam p t =>
    refine ⟨rfl, rfl, patSyms_ofList _ fun x hx => ?_, fun c b e => by cases e⟩
    simp only [List.mem_cons, List.not_mem_nil, or_false] at hx
    rcases hx with rfl | rfl | rfl
    · exact patSyms_sym (by decide)
    · exact patSyms_ofList _ fun x hx => by
        rw [List.mem_singleton.1 hx]
        exact patSyms_sym h.1.symm
    · exact h.2.2

/-- The form that a call has after its lists are replaced. -/
theorem swapped_list {k : Val} {c : Nat} : (as : Exs) → as.Ok → as.Clean → ∃ ws, (swapped (L [k]) c (elems as.val)).2 = ofList (ws ++ [k]) ∧
    ∀ y ∈ ws, y.isTailCall = false ∧ y.isNil = false ∧ n "params" ∉ patSyms y
  | .nil, _, _ => ⟨[], rfl, fun _ h => nomatch h⟩
  | .cons a as, ho, hc => by
    obtain ⟨ws, h1, h2⟩ := swapped_list (k := k) (c := c) as ho.2 hc.2
    have e : (swapped (L [k]) c (elems (Exs.cons a as).val)).2 = cons (if a.val.isList then ofSym (ph (swapped (L [k]) c (elems as.val)).1) else a.val)
        (swapped (L [k]) c (elems as.val)).2 := by
      show (swapped (L [k]) c (a.val :: elems as.val)).2 = _
      simp only [swapped]
      split <;> rfl
    rw [e, h1]
    refine ⟨_ :: ws, rfl, fun y hy => ?_⟩
    rcases List.mem_cons.1 hy with rfl | hy
    · cases hl : a.val.isList with
      | true => exact ⟨rfl, rfl, patSyms_sym (ph_params _)⟩
      | false =>
        rw [Ex.isList_val ho.1] at hl
        cases a with
        | atom v =>
          refine ⟨hc.1.1, ?_, hc.1.2⟩
          have := ho.1
          show v.isNil = false
          cases v <;> first | rfl | cases this
        | _ => cases hl
    · exact h2 y hy

/-- A call with a continuation is a term. -/
theorem call_tm {f : Val} {ws : List Val} {k : Kont} (hk : k.Ok) (hf : f.isTailCall = false) (hp : n "params" ∉ patSyms f)
    (hc : ∀ c : Cnd, ∀ b, f ≠ sym b c.name) (hw : ∀ y ∈ ws, y.isTailCall = false ∧ y.isNil = false ∧ n "params" ∉ patSyms y) :
    ∃ t : Tm, t.Ok ∧ t.val = ofList (f :: (ws ++ [k.val])) ∧ n "params" ∉ patSyms t.val := by
  obtain ⟨k1, k2, k3, _⟩ := Kont.facts hk
  have hall : ∀ y ∈ ws ++ [k.val], y.isTailCall = false ∧ y.isNil = false ∧ n "params" ∉ patSyms y := fun y hy => by
    rcases List.mem_append.1 hy with hy | hy
    · exact hw y hy
    · rw [List.mem_singleton.1 hy]; exact ⟨k1, k2, k3⟩
  have hps : n "params" ∉ patSyms (ofList (f :: (ws ++ [k.val]))) := patSyms_ofList _ fun x hx => by
    rcases List.mem_cons.1 hx with rfl | hx
    · exact hp
    · exact (hall x hx).2.2
  have hok : CallOk f (ws ++ [k.val]) := ⟨hc, fun y hy => by
    rcases List.mem_cons.1 hy with rfl | hy
    · exact hf
    · exact (hall y hy).1, fun y hy => (hall y hy).2.1, hps⟩
  cases k with
  | var s => exact ⟨.call f ws (ofSym s), ⟨hok, rfl⟩, rfl, hps⟩
  | lam p t => exact ⟨.cont f ws p t, ⟨hok, hk.2.1⟩, rfl, hps⟩

/-- What the conversion gives: a term that is a list. -/
def IsTm (v : Val) : Prop := ∃ t : Tm, t.Ok ∧ t.val = v ∧ n "params" ∉ patSyms v ∧ v.isPair = true ∧ v.isTailCall = false

theorem cnd_params (c : Cnd) : n "params" ≠ c.name := by cases c <;> decide

theorem list_facts {x : Val} {xs : List Val} : (ofList (x :: xs)).isPair = true ∧ (ofList (x :: xs)).isTailCall = false := ⟨rfl, rfl⟩

theorem ith_tm {c : Cnd} {x v : Val} (hx : x.isTailCall = false) (hp : n "params" ∉ patSyms x) (h : IsTm v) : IsTm (L [ofSym c.name, x, v]) := by
  obtain ⟨t, h1, rfl, h3, _, h5⟩ := h
  have hps : n "params" ∉ patSyms (L [ofSym c.name, x, t.val]) := patSyms_ofList _ fun y hy => by
    simp only [List.mem_cons, List.not_mem_nil, or_false] at hy
    rcases hy with rfl | rfl | rfl
    · exact patSyms_sym (cnd_params c)
    · exact hp
    · exact h3
  exact ⟨.ith c x t, ⟨hx, h5, hps, h1⟩, rfl, hps, rfl, rfl⟩

theorem ite_tm {c : Cnd} {x v w : Val} (hx : x.isTailCall = false) (hp : n "params" ∉ patSyms x) (h : IsTm v) (h' : IsTm w) :
    IsTm (L [ofSym c.name, x, v, w]) := by
  obtain ⟨t, h1, rfl, h3, _, h5⟩ := h
  obtain ⟨e, i1, rfl, i3, _, i5⟩ := h'
  have hps : n "params" ∉ patSyms (L [ofSym c.name, x, t.val, e.val]) := patSyms_ofList _ fun y hy => by
    simp only [List.mem_cons, List.not_mem_nil, or_false] at hy
    rcases hy with rfl | rfl | rfl | rfl
    · exact patSyms_sym (cnd_params c)
    · exact hp
    · exact h3
    · exact i3
  exact ⟨.ite c x t e, ⟨hx, h5, i5, hps, h1, i1⟩, rfl, hps, rfl, rfl⟩

/-- A term as the body of a continuation. -/
theorem IsTm.kont {v : Val} (h : IsTm v) (i : Nat) : ∃ k : Kont, k.Ok ∧ k.val = lamV (ph i) v := by
  obtain ⟨t, h1, rfl, h3, _⟩ := h
  exact ⟨.lam (ph i) t, ⟨(ph_params i).symm, h1, h3⟩, rfl⟩

mutual
/-- The conversion of an expression is a term. -/
theorem lift_tm : (e : Ex) → e.Ok → e.Clean → ∀ (k : Kont) (c : Nat), k.Ok → IsTm (e.lift [k.val] c).2
  | .atom v, ho, hc, k, c, hk => by
    obtain ⟨k1, k2, k3, k4⟩ := Kont.facts hk
    have hn : v.isNil = false := by
      have : v.isList = false := ho
      cases v <;> first | rfl | cases this
    have hps : n "params" ∉ patSyms (ofList [k.val, v]) := patSyms_ofList _ fun y hy => by
      simp only [List.mem_cons, List.not_mem_nil, or_false] at hy
      rcases hy with rfl | rfl
      · exact k3
      · exact hc.2
    refine ⟨.call k.val [] v, ⟨⟨k4, fun y hy => ?_, fun y hy => ?_, hps⟩, ?_⟩, rfl, hps, rfl, rfl⟩
    · simp only [List.nil_append, List.mem_cons, List.not_mem_nil, or_false] at hy
      rcases hy with rfl | rfl
      · exact k1
      · exact hc.1
    · rw [List.nil_append, List.mem_singleton] at hy
      rw [hy]; exact hn
    · have : v.isList = false := ho
      cases v <;> first | rfl | cases this
  | .call f as, ho, hc, k, c, hk => by
    obtain ⟨ws, h1, h2⟩ := swapped_list (k := k.val) (c := c) as ho.2.2 hc.2.2.2
    obtain ⟨t, t1, t2, t3⟩ := call_tm hk hc.1 hc.2.1 hc.2.2.1 h2
    show IsTm (as.lifts (cons f (swapped (L [k.val]) c (elems as.val)).2) c).2
    rw [h1]
    refine lifts_tm as ho.2.2 hc.2.2.2 _ c ⟨t, t1, t2, by rw [t2] at t3; exact t3, rfl, rfl⟩
  | .ite x t e, ho, hc, k, c, hk => by
    have h1 := lift_tm e ho.2.2 hc.2.2 k c hk
    have h2 := lift_tm t ho.2.1 hc.2.1 k (e.lift [k.val] c).1 hk
    simp only [Ex.lift]
    cases hx : x.compound with
    | true =>
      rw [if_pos rfl]
      obtain ⟨k', hk', e'⟩ := (ite_tm (c := .if_) (x := ofSym (ph (t.lift [k.val] (e.lift [k.val] c).1).1)) rfl (patSyms_sym (ph_params _)) h2 h1).kont
        (t.lift [k.val] (e.lift [k.val] c).1).1
      have := lift_tm x ho.1 hc.1 k' ((t.lift [k.val] (e.lift [k.val] c).1).1 + 1) hk'
      rw [e'] at this
      exact this
    | false =>
      rw [if_neg (by decide)]
      cases x with
      | atom v => exact ite_tm (c := .if_) hc.1.1 hc.1.2 h2 h1
      | _ => cases hx
  | .ith op x t, ho, hc, k, c, hk => by
    have h1 := lift_tm t ho.2 hc.2 k c hk
    simp only [Ex.lift]
    cases hx : x.compound with
    | true =>
      rw [if_pos rfl]
      obtain ⟨k', hk', e'⟩ := (ith_tm (c := op) (x := ofSym (ph (t.lift [k.val] c).1)) rfl (patSyms_sym (ph_params _)) h1).kont (t.lift [k.val] c).1
      have := lift_tm x ho.1 hc.1 k' ((t.lift [k.val] c).1 + 1) hk'
      rw [e'] at this
      exact this
    | false =>
      rw [if_neg (by decide)]
      cases x with
      | atom v => exact ith_tm (c := op) hc.1.1 hc.1.2 h1
      | _ => cases hx
theorem lifts_tm : (as : Exs) → as.Ok → as.Clean → ∀ (b : Val) (c : Nat), IsTm b → IsTm (as.lifts b c).2
  | .nil, _, _, b, c, hb => hb
  | .cons a as, ho, hc, b, c, hb => by
    have ih := lifts_tm as ho.2 hc.2 b c hb
    simp only [Exs.lifts]
    split
    · obtain ⟨k, hk, e⟩ := ih.kont (as.lifts b c).1
      have := lift_tm a ho.1 hc.1 k ((as.lifts b c).1 + 1) hk
      rw [e] at this
      exact this
    · exact ih
end

/-- **C90.** `(cps:refcount (>& F))` for every function F with an expression as body: the conversion is a term, and the table is that of the term. -/
theorem C90_converted_partial {l : List Entry} {st : St} (hl : Sorted l) (hu : Uses countUses l st) (hv : Uses cpsUses l st)
    (hd : getEnv l (n "descend") = none) {s : Sym} (hs : s ≠ n "fsym") {xs : List Sym} {clo : Val} {e : Ex} (he : e.Ok) (hc : e.Clean)
    (hf : Resolves (envVal l) st s (L [ofList (xs.map ofSym), clo, e.val])) (hi : ((xs.length + 1 + lists e.val : Nat) : Int) ≤ i64max)
    {ef : Val} (hef : sem (envVal l) ef st = .ok (ofSym s, st)) :
    ∃ t : Tm, t.val = (e.lift [ofSym (ph xs.length)] (xs.length + 1)).2 ∧
      (((t.size (ofList ((xs ++ [ph xs.length]).map ofSym)) : Nat) : Int) ≤ i64max →
        ∃ ys, sem (envVal l) (L [S "cps:refcount", L [S ">&", ef]]) st = .ok (ofList ys, st) ∧ Distinct ys ∧
          ∀ s, find (ofSym s) ys = if t.mentions (ofList ((xs ++ [ph xs.length]).map ofSym)) s then
            num (t.occ (ofList ((xs ++ [ph xs.length]).map ofSym)) s (ofSym (ph xs.length)) : Nat) else nil) := by
  have hk : (Kont.var (ph xs.length)).Ok := ⟨(ph_params _).symm, fun c h => by
    have : c.name ≠ ph xs.length := ph_ne _ _ (by cases c <;> decide)
    exact this h.symm⟩
  obtain ⟨t, t1, t2, t3, t4, _⟩ := lift_tm e he hc (.var (ph xs.length)) (xs.length + 1) hk
  refine ⟨t, t2, fun hb => ?_⟩
  have hcv := C82_convert hl hv hd hs he hf hi hef
  rw [show (e.lift [ofSym (ph xs.length)] (xs.length + 1)).2 = t.val from t2.symm] at hcv
  obtain ⟨ys, y1, _, y3, y4⟩ := C90_refcount_partial hl hu t1 (by rw [t2]; exact t4) hb hcv
  exact ⟨ys, y1, y3, y4⟩

/-! ## Examples and counterexamples -/

/-- The library with the conversion, the reference counts and `last` of `manips.l`. -/
def countSt : St :=
  define "last" last2V <| define "cps:refcount" refcountV <| define "cps:refcount_r" countV <| define "cps:getrefs-ite" iteV <|
    define "cps:getrefs-any" anyV <| define "cps:getrefs" getrefsV cpsSt

theorem countSt_uses : Uses countUses [] countSt := by unfold Uses; decide +kernel

/-- Run in this state. -/
def runCount (i : Nat) (e : Val) (st : St := countSt) : Res Val := evalN i nil e st >>= fun p => .ok p.1

/-- The hypotheses of `C90_converted_partial` hold of `fact`. -/
example : ∃ t : Tm, t.val = (fact.lift [ofSym (ph 1)] 2).2 ∧
    (((t.size (L [S "n", ofSym (ph 1)]) : Nat) : Int) ≤ i64max →
      ∃ ys, sem nil (L [S "cps:refcount", L [S ">&", Q (S "fact")]]) (define "fact" (L [L [S "n"], nil, fact.val]) countSt) =
          .ok (ofList ys, define "fact" (L [L [S "n"], nil, fact.val]) countSt) ∧ Distinct ys ∧
        ∀ s, find (ofSym s) ys = if t.mentions (L [S "n", ofSym (ph 1)]) s then num (t.occ (L [S "n", ofSym (ph 1)]) s (ofSym (ph 1)) : Nat) else nil) := by
  have u : Uses countUses [] (define "fact" (L [L [S "n"], nil, fact.val]) countSt) := by unfold Uses; decide +kernel
  have v : Uses cpsUses [] (define "fact" (L [L [S "n"], nil, fact.val]) countSt) := by unfold Uses; decide +kernel
  have q : ∀ s : Sym, s ≠ n "if" ∧ s ≠ n "when" ∧ s ≠ n "unless" → ∀ c : Cnd, ∀ b, ofSym s ≠ sym b c.name := fun s h c b e => by
    injection e with _ e
    cases c
    · exact h.1 e
    · exact h.2.1 e
    · exact h.2.2 e
  have hc : fact.Clean := by
    refine ⟨⟨rfl, by decide, q _ (by decide), ⟨rfl, by decide⟩, ⟨rfl, by decide⟩, trivial⟩, ⟨rfl, by decide⟩, rfl, by decide, q _ (by decide),
      ⟨rfl, by decide⟩, ⟨rfl, by decide, q _ (by decide), ⟨rfl, by decide, q _ (by decide), ⟨rfl, by decide⟩, ⟨rfl, by decide⟩, trivial⟩, trivial⟩, trivial⟩
  exact C90_converted_partial (l := []) (s := n "fact") (xs := [n "n"]) (clo := nil) (e := fact) List.Pairwise.nil u v rfl (by decide) fact_ok.1 hc
    (resolves_global (l := []) rfl (by decide +kernel)) (by decide +kernel) (ok_quote (u.at 5 rfl))

/-- The conversion of `fact`: `(= n 0 (\\ (_4) (if _4 (_1 1) (- n 1 (\\ (_3) (fact _3 (\\ (_2) (* n _2 _1))))))))`. -/
def factTm : Tm :=
  .cont (S "=") [S "n", N 0] (n "_4") (.ite .if_ (S "_4") (.call (S "_1") [] (N 1)) (.cont (S "-") [S "n", N 1] (n "_3")
    (.cont (S "fact") [S "_3"] (n "_2") (.call (S "*") [S "n", S "_2"] (S "_1")))))

theorem callOk_sym {s : Sym} {as : List Val} (h : s ≠ n "if" ∧ s ≠ n "when" ∧ s ≠ n "unless") (h1 : ∀ y ∈ as, y.isTailCall = false ∧ y.isNil = false)
    (h2 : n "params" ∉ patSyms (ofList (ofSym s :: as))) : CallOk (ofSym s) as := by
  refine ⟨fun c b e => ?_, fun y hy => ?_, fun y hy => (h1 y hy).2, h2⟩
  · injection e with _ e
    cases c
    · exact h.1 e
    · exact h.2.1 e
    · exact h.2.2 e
  · rcases List.mem_cons.1 hy with rfl | hy
    · rfl
    · exact (h1 y hy).1

theorem factTm_ok : factTm.Ok :=
  ⟨callOk_sym (by decide) (by decide +kernel) (by decide +kernel), rfl, by decide +kernel, by decide +kernel, by decide +kernel,
    ⟨callOk_sym (by decide) (by decide +kernel) (by decide +kernel), rfl⟩, callOk_sym (by decide) (by decide +kernel) (by decide +kernel),
    callOk_sym (by decide) (by decide +kernel) (by decide +kernel), callOk_sym (by decide) (by decide +kernel) (by decide +kernel), rfl⟩

/-- The hypotheses of `C90_refcount_partial`, and what it says about `n`, `_1` and `_2` in `fact`: three references to `n`; two to `_1`, both
within other continuations; none to `_2` other than in the body of its own continuation. -/
example : Sorted [] ∧ Uses countUses [] countSt ∧ factTm.Ok ∧ factTm.val.isPair = true ∧
    ((factTm.size (L [S "n", S "_1"]) : Nat) : Int) ≤ i64max ∧
    sem nil (Q (L [L [S "n", S "_1"], nil, factTm.val])) countSt = .ok (L [L [S "n", S "_1"], nil, factTm.val], countSt) ∧
    factTm.occ (L [S "n", S "_1"]) (n "n") (S "_1") = 3 ∧ factTm.occ (L [S "n", S "_1"]) (n "_1") (S "_1") = 2 ∧
    factTm.occ (L [S "n", S "_1"]) (n "_2") (S "_1") = 0 ∧ factTm.mentions (L [S "n", S "_1"]) (n "_2") = true :=
  ⟨List.Pairwise.nil, countSt_uses, factTm_ok, rfl, by decide +kernel, ok_quote (countSt_uses.at 5 rfl), by decide +kernel, by decide +kernel, by decide +kernel,
    by decide +kernel⟩

/-- The same by evaluation, from the function. -/
example : runCount 60 (L [S "cps:refcount", L [S ">&", Q (S "fact")]]) (define "fact" (L [L [S "n"], nil, fact.val]) countSt) =
    .ok (L [cons (S "_4") (N 0), cons (S "_3") (N 0), cons (S "_1") (N 2), cons (S "_2") (N 0), cons (S "n") (N 3)]) := by
  decide +kernel

/-- The tests of `test/lisp/refcount.l:11-20`: `(\\ (a b) (+ a b))` and `(\\ (a b) (+ (- a 1) (* 2 b)))`. -/
example : runCount 60 (L [S "cps:refcount", L [S ">&", Q (S "fun")]]) (define "fun" (L [L [S "a", S "b"], nil, L [S "+", S "a", S "b"]]) countSt) =
      .ok (L [cons (S "_2") (N 0), cons (S "b") (N 1), cons (S "a") (N 1)]) ∧
    runCount 60 (L [S "cps:refcount", L [S ">&", Q (S "fun")]]) (define "fun" (L [L [S "a", S "b"], nil,
        L [S "+", L [S "-", S "a", N 1], L [S "*", N 2, S "b"]]]) countSt) =
      .ok (L [cons (S "a") (N 1), cons (S "b") (N 1), cons (S "_2") (N 1), cons (S "_3") (N 0), cons (S "_4") (N 1)]) := by
  decide +kernel

/-- **C90.** The references in a conditional that is an argument are lost when a branch is an atom: the conversion of `(\\ (n c) (+ n (if c 1 2)))` calls
the continuation `(\\ (_3) (+ n _3 _2))` directly, and `cps:refcount` does not look into it, so `n` and `_2` are not in the table. -/
theorem C90_head_counterexample :
    runCount 60 (L [S "cps:refcount", L [S ">&", Q (S "fun")]])
      (define "fun" (L [L [S "n", S "c"], nil, L [S "+", S "n", L [S "if", S "c", N 1, N 2]]]) countSt) = .ok (L [cons (S "c") (N 1)]) := by
  decide +kernel

/-- **C90.** After an argument that is NIL the continuation is not found (`last` of `manips.l` stops there): in `(f n NIL (\\ (_2) (g x _2 _1)))` the
reference to `x` is lost. -/
theorem C90_nil_counterexample :
    runCount 60 (L [S "cps:refcount", Q (L [L [S "n", S "x", S "_1"], nil, L [S "f", S "n", nil, lamV (n "_2") (L [S "g", S "x", S "_2", S "_1"])]])]) =
      .ok (L [cons (S "n") (N 1)]) := by
  decide +kernel

end Lib
end Mnml
