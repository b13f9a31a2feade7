import Verif.PropMark
import Verif.PropSort
import Verif.PropMore

/-!
# C92: the type of a symbol

`cps:type:fold1` and `cps:type:fold` of `share/mnml/cps.l`: how the types found for a symbol are made one.
-/

namespace Mnml
namespace Lib

open Val Lex

/-! ## The text -/

/-- The body of the function that `cps:type:fold1` folds with (`share/mnml/cps.l:363-365`). -/
def fold1Body : Val :=
  L [L [S "if", L [S "or", L [S "nil?", S "acc"], L [S "or", L [S "=", S "e", S "acc"], L [S "=", S "acc", Q (S "UNDEF")]]], S "e", Q (S "ERROR")]]

/-- The fold of `cps:type:fold1` (`share/mnml/cps.l:361-366`). -/
def fold1Call : Val := L [S "foldr", cons (S "\\") (cons (L [S "e", S "acc"]) fold1Body), S "lst", nil]

/-- `cps:type:fold1` (`share/mnml/cps.l:359-366`). -/
def fold1Src : Val :=
  L [S "def", S "cps:type:fold1", L [S "lst"], str "Fold the types in LST and check for errors.", fold1Call]

/-- The value of `cps:type:fold1` once defined. -/
def fold1V : Val := cons (L [S "lst"]) (cons nil (L [fold1Call]))

/-- The body of the function that `cps:type:fold` folds with (`share/mnml/cps.l:372`). -/
def foldBody : Val :=
  L [L [S "cons", L [S "cons", S "symb", L [S "cps:type:fold1", S "types"]], S "acc0"]]

/-- The fold of `cps:type:fold` (`share/mnml/cps.l:370-373`). -/
def foldCall : Val :=
  L [S "foldr", cons (S "\\") (cons (L [cons (S "symb") (S "types"), S "acc0"]) foldBody), S "alst", nil]

/-- `cps:type:fold` (`share/mnml/cps.l:368-373`). -/
def foldSrc : Val :=
  L [S "def", S "cps:type:fold", L [S "alst"], str "Fold the type list ALST and check for errors.", foldCall]

/-- The value of `cps:type:fold` once defined. -/
def foldV : Val := cons (L [S "alst"]) (cons nil (L [foldCall]))

theorem fold1_def (st : St) (h : st.globals Native.def_.name = some Native.def_.val) :
    sem nil fold1Src st = .ok (S "cps:type:fold1", define "cps:type:fold1" fold1V st) := ok_def h rfl

theorem fold_def (st : St) (h : st.globals Native.def_.name = some Native.def_.val) :
    sem nil foldSrc st = .ok (S "cps:type:fold", define "cps:type:fold" foldV st) := ok_def h rfl

/-- `share/mnml/cps.l:359-373`. -/
def foldText : List UInt8 :=
  fileText [
      "(def cps:type:fold1 (lst)\n",
      "\t\"Fold the types in LST and check for errors.\"\n",
      "\t(foldr\n",
      "\t\t(\\ (e acc)\n",
      "\t\t\t(if (or (nil? acc)\n",
      "\t\t\t\t\t\t(or (= e acc) (= acc 'UNDEF)))\n",
      "\t\t\t\te 'ERROR))\n",
      "\t\tlst NIL))\n",
      "\n",
      "(def cps:type:fold (alst)\n",
      "\t\"Fold the type list ALST and check for errors.\"\n",
      "\t(foldr\n",
      "\t\t(\\ ((symb . types) acc0)\n",
      "\t\t\t(cons (cons symb (cps:type:fold1 types)) acc0))\n",
      "\t\talst NIL))\n"]

theorem fold_text : drain (fun _ => .unsupported) 16 .init foldText = .ok ⟨[], [], none, [fold1Src, foldSrc]⟩ := by
  rw [drain_eq]
  simp only [foldText, fileText, List.flatMap_cons, List.flatMap_nil, litToList]
  decide +kernel

/-! ## `cps:type:fold1` -/

/-- The definitions that `cps:type:fold1` relies on. -/
def fold1Uses : List (Sym × Val) :=
  [(n "cps:type:fold1", fold1V), (n "\\", Native.lambda.val), (n "or", Native.or.val), (n "=", Native.equ.val), (n "quote", Native.quote.val)] ++
    foldrUses

/-- The names bound by the two functions. -/
def typeArgs : List Sym := [n "e", n "alst", n "symb", n "types", n "acc0"] ++ foldArgs

/-- The type E of a symbol whose older types gave ACC. -/
def joinType (e acc : Val) : Val := if acc.isNil || (equ e acc || equ acc (S "UNDEF")) then e else S "ERROR"

theorem join_tail {e : Val} (h : e.isTailCall = false) (acc : Val) : (joinType e acc).isTailCall = false := by
  unfold joinType
  split
  · exact h
  · rfl

theorem foldrM_join (xs : List Val) (st : St) (h : ∀ x ∈ xs, x.isTailCall = false) :
    xs.foldrM (fun x y => need (!x.isTailCall) (pure (joinType x y))) nil st = .ok (xs.foldr joinType nil, st) := by
  induction xs with
  | nil => rfl
  | cons x xs ih =>
    rw [List.foldrM_cons, M.bind_congr_ok (ih fun y hy => h y (by simp [hy]))]
    simp only [h x (by simp)]
    rfl

theorem fold1_ok {l : List Entry} {st : St} (hl : Sorted l) (hu : Uses fold1Uses l st) {ew : Val} {xs : List Val} (hx : ∀ x ∈ xs, x.isTailCall = false)
    (hargs : evalSeq sem (envVal l) [ew] st = .ok ([ofList xs], st)) :
    sem (envVal l) (L [S "cps:type:fold1", ew]) st = .ok (xs.foldr joinType nil, st) := by
  have htl : (xs.foldr joinType nil).isTailCall = false := by
    cases xs with
    | nil => rfl
    | cons x xs => exact join_tail (hx x (by simp)) _
  refine ok_call (d := []) (as := [S "lst"]) (vs := [ew]) (xs := [ofList xs]) (hu.at 0 rfl) rfl rfl hargs (loop_done (ok_prog1.trans ?_) htl)
  have hE := (Near.refl (ps := typeArgs) hl).merge (b := [⟨false, n "lst", ofList xs⟩]) (by simp [typeArgs, foldArgs])
  have gW : getEnv (mergeEnv l [⟨false, n "lst", ofList xs⟩]) (n "lst") = some (ofList xs) := getEnv_merge_in hl rfl
  change sem (envVal (mergeEnv l [⟨false, n "lst", ofList xs⟩])) _ st = _
  generalize mergeEnv l [⟨false, n "lst", ofList xs⟩] = E at hE gW ⊢
  have u := hE.uses hu (by decide +kernel)
  have uf : Uses foldrUses E st := u.sub (fun p hp => by simp [fold1Uses, hp])
  refine (C49_foldr (I := fun s => s = st) (st1 := st) (F := cons (L [S "e", S "acc"]) (cons (envVal E) fold1Body)) (w := ofList xs) (a := nil)
    (g := fun x y => need (!x.isTailCall) (pure (joinType x y))) hE.sorted (fun s h => by rw [h]; exact uf) ?_ uf rfl
    (okSeq_cons (ok_lambda (by res)) (okSeq_cons (ok_sym (resolves_local gW)) (okSeq_cons ok_nil okSeq_nil)))
    (by rw [elems_ofList]; exact foldrM_join xs st hx) ?_ rfl).1
  · refine acts2_lisp (p := S "e") (q := S "acc") rfl fun m x y st0 v st' hm h0 hg => ?_
    cases h0
    obtain ⟨hx', hv⟩ := need_ok hg
    cases hv
    refine ⟨ok_prog1.trans ?_, join_tail (by simpa using hx') _, rfl⟩
    have hN := ((hE.trans (hm.mono (by simp [foldArgs, typeArgs]))).capture hE).merge (b := [⟨false, n "acc", y⟩, ⟨false, n "e", x⟩])
      (by simp [typeArgs, foldArgs])
    have hsm := sorted_mergeEnv E hm.sorted
    have gE : getEnv (mergeEnv (mergeEnv m E) [⟨false, n "acc", y⟩, ⟨false, n "e", x⟩]) (n "e") = some x := getEnv_merge_in hsm rfl
    have gA : getEnv (mergeEnv (mergeEnv m E) [⟨false, n "acc", y⟩, ⟨false, n "e", x⟩]) (n "acc") = some y := getEnv_merge_in hsm rfl
    change sem (envVal (mergeEnv (mergeEnv m E) [⟨false, n "acc", y⟩, ⟨false, n "e", x⟩])) _ st = _
    generalize mergeEnv (mergeEnv m E) [⟨false, n "acc", y⟩, ⟨false, n "e", x⟩] = G at hN gE gA ⊢
    have uG := hN.uses hu (by decide +kernel)
    have hor : sem (envVal G) (L [S "or", L [S "nil?", S "acc"], L [S "or", L [S "=", S "e", S "acc"], L [S "=", S "acc", Q (S "UNDEF")]]]) st =
        .ok (ofBool (y.isNil || (equ x y || equ y (S "UNDEF"))), st) :=
      ok_or_bool (by res) (ok_one (op := .isnil) (by res) (ok_sym (resolves_local gA)) rfl (by decide) rfl) fun _ =>
        ok_or_bool (by res) (ok_two (op := .equ) (by res) (ok_sym (resolves_local gE)) (ok_sym (resolves_local gA)) rfl rfl) fun _ =>
          ok_two (op := .equ) (by res) (ok_sym (resolves_local gA)) (ok_quote (uG.at 4 rfl)) rfl rfl
    unfold joinType
    cases hc : y.isNil || (equ x y || equ y (S "UNDEF")) with
    | true => rw [hc] at hor; exact ok_if_then (by res) hor rfl (ok_sym (resolves_local gE))
    | false => rw [hc] at hor; exact ok_if_else (by res) hor (ok_quote (uG.at 4 rfl))
  · intro x _ y s v s' _ hg
    obtain ⟨hx', hv⟩ := need_ok hg
    cases hv
    exact join_tail (by simpa using hx') _

/-- What is to come of the types TS, the newest first: T if there is nothing but T, up to types that were not known yet and are older than any other. -/
def Agrees (ts : List Sym) (t : Sym) : Prop := ∃ a b, ts = List.replicate (a + 1) t ++ List.replicate b (n "UNDEF")

/-- The types as values. -/
def types (ts : List Sym) : List Val := ts.map ofSym

theorem types_tail (ts : List Sym) : ∀ x ∈ types ts, x.isTailCall = false := by
  intro x hx
  obtain ⟨t, _, rfl⟩ := List.mem_map.1 hx
  rfl

theorem join_sym (s t : Sym) : joinType (ofSym s) (ofSym t) = ofSym (if s = t ∨ t = n "UNDEF" then s else n "ERROR") := by
  have hq : ∀ a b : Sym, equ (ofSym a) (ofSym b) = decide (a = b) := fun a b => symMatch_eq_decide a b
  unfold joinType
  rw [show S "UNDEF" = ofSym (n "UNDEF") from rfl, show S "ERROR" = ofSym (n "ERROR") from rfl, hq, hq]
  by_cases h1 : s = t <;> by_cases h2 : t = n "UNDEF" <;> simp [h1, h2, isNil, ofSym]

theorem Agrees.cons {ts : List Sym} {t : Sym} (h : Agrees ts t) (s : Sym) : Agrees (s :: ts) s ↔ s = t ∨ t = n "UNDEF" := by
  obtain ⟨a, b, rfl⟩ := h
  constructor
  · rintro ⟨c, d, h⟩
    rw [List.replicate_succ, List.cons_append] at h
    cases c with
    | zero =>
      cases d with
      | zero => cases (List.cons.inj h).2
      | succ d => exact .inr (List.cons.inj (List.cons.inj h).2).1
    | succ c => exact .inl (List.cons.inj (List.cons.inj h).2).1.symm
  · rintro (rfl | rfl)
    · exact ⟨a + 1, b, rfl⟩
    · exact ⟨0, a + 1 + b, by rw [List.replicate_append_replicate]; rfl⟩

theorem Agrees.tail {s t : Sym} {ts : List Sym} (h : Agrees (s :: ts) t) (hn : ts ≠ []) : s = t ∧ ∃ r, Agrees ts r := by
  obtain ⟨a, b, h⟩ := h
  rw [List.replicate_succ, List.cons_append] at h
  obtain ⟨rfl, h⟩ := List.cons.inj h
  refine ⟨rfl, ?_⟩
  cases a with
  | zero =>
    cases b with
    | zero => exact absurd h hn
    | succ b => exact ⟨n "UNDEF", b, 0, by rw [h]; simp⟩
  | succ a => exact ⟨s, a, b, h⟩

theorem join_all (ts : List Sym) (hn : ts ≠ []) : ∃ r, (types ts).foldr joinType nil = ofSym r ∧
    (Agrees ts r ∨ r = n "ERROR" ∧ ∀ t, ¬ Agrees ts t) := by
  induction ts with
  | nil => exact absurd rfl hn
  | cons s ts ih =>
    cases ts with
    | nil => exact ⟨s, rfl, .inl ⟨0, 0, rfl⟩⟩
    | cons s' ts =>
      obtain ⟨r, hr, h⟩ := ih (by simp)
      refine ⟨if s = r ∨ r = n "UNDEF" then s else n "ERROR", ?_, ?_⟩
      · show joinType (ofSym s) ((types (s' :: ts)).foldr joinType nil) = _
        rw [hr, join_sym]
      · rcases h with h | ⟨rfl, h⟩
        · by_cases hc : s = r ∨ r = n "UNDEF"
          · rw [if_pos hc]
            exact .inl ((h.cons s).2 hc)
          · rw [if_neg hc]
            refine .inr ⟨rfl, fun t ht => hc ?_⟩
            obtain ⟨rfl, _⟩ := ht.tail (by simp)
            exact (h.cons s).1 ht
        · have : (if s = n "ERROR" ∨ n "ERROR" = n "UNDEF" then s else n "ERROR") = n "ERROR" := by
            by_cases hs : s = n "ERROR"
            · rw [if_pos (.inl hs), hs]
            · rw [if_neg]
              rintro (h | h)
              · exact hs h
              · exact absurd h (by decide +kernel)
          exact .inr ⟨this, fun t ht => by obtain ⟨_, r, hr⟩ := ht.tail (by simp); exact h r hr⟩

/-- A list has at most one type. -/
theorem Agrees.unique {ts : List Sym} {s t : Sym} (h1 : Agrees ts s) (h2 : Agrees ts t) : s = t := by
  obtain ⟨a, b, rfl⟩ := h1
  obtain ⟨c, d, h⟩ := h2
  rw [List.replicate_succ, List.replicate_succ, List.cons_append, List.cons_append] at h
  exact (List.cons.inj h).1

/-- What `cps:type:fold1` has to give for the types TS. -/
def IsType (ts : List Sym) (v : Val) : Prop :=
  (ts = [] → v = nil) ∧ (∀ t, Agrees ts t → v = ofSym t) ∧ (ts ≠ [] → (∀ t, ¬ Agrees ts t) → v = S "ERROR")

theorem isType_fold (ts : List Sym) : IsType ts ((types ts).foldr joinType nil) := by
  refine ⟨fun h => by rw [h]; rfl, fun t ht => ?_, fun hn h => ?_⟩
  · have hn : ts ≠ [] := by rintro rfl; obtain ⟨a, b, h⟩ := ht; cases h
    obtain ⟨r, hr, h | ⟨_, h⟩⟩ := join_all ts hn
    · rw [hr, h.unique ht]
    · exact absurd ht (h t)
  · obtain ⟨r, hr, h' | ⟨rfl, _⟩⟩ := join_all ts hn
    · exact absurd h' (h r)
    · exact hr

/-- **C92.** `(cps:type:fold1 L)` is T if the list L of types, the newest first, has nothing but T and, behind, UNDEF; NIL if L is empty; ERROR otherwise. -/
theorem C92_fold1 {l : List Entry} {st : St} (hl : Sorted l) (hu : Uses fold1Uses l st) {ew : Val} {ts : List Sym}
    (hargs : evalSeq sem (envVal l) [ew] st = .ok ([ofList (types ts)], st)) :
    ∃ v, sem (envVal l) (L [S "cps:type:fold1", ew]) st = .ok (v, st) ∧ IsType ts v :=
  ⟨_, fold1_ok hl hu (types_tail ts) hargs, isType_fold ts⟩

/-! ## `cps:type:fold` -/

/-- The definitions that `cps:type:fold` relies on. -/
def typeUses : List (Sym × Val) := [(n "cps:type:fold", foldV), (n "cons", Native.cons.val)] ++ fold1Uses

/-- The entry of a table of types. -/
def typesOf (p : Val × List Sym) : Val := cons p.1 (ofList (types p.2))

open Classical in
/-- One step of the fold. -/
noncomputable def foldStep (x y : Val) : M Val :=
  need (decide (∃ p, x = typesOf p)) (pure (cons (cons x.car ((elems x.cdr).foldr joinType nil)) y))

open Classical in
theorem foldrM_types (ps : List (Val × List Sym)) (st : St) : (ps.map typesOf).foldrM foldStep nil st =
    .ok (ofList (ps.map fun p => cons p.1 ((types p.2).foldr joinType nil)), st) := by
  induction ps with
  | nil => rfl
  | cons p ps ih =>
    rw [List.map_cons, List.foldrM_cons, M.bind_congr_ok ih]
    unfold foldStep need
    rw [if_pos (decide_eq_true ⟨p, rfl⟩)]
    show Res.ok (cons (cons p.1 ((elems (ofList (types p.2))).foldr joinType nil)) _, st) = _
    rw [elems_ofList]
    rfl

open Classical in
/-- **C92.** `(cps:type:fold L)` is the table with the entries of L in the same order, each with the one type of its symbol. -/
theorem C92_fold {l : List Entry} {st : St} (hl : Sorted l) (hu : Uses typeUses l st) {ew : Val} {ps : List (Val × List Sym)}
    (hargs : evalSeq sem (envVal l) [ew] st = .ok ([ofList (ps.map typesOf)], st)) :
    ∃ v : List Sym → Val, (∀ ts, IsType ts (v ts)) ∧
      sem (envVal l) (L [S "cps:type:fold", ew]) st = .ok (ofList (ps.map fun p => cons p.1 (v p.2)), st) := by
  refine ⟨fun ts => (types ts).foldr joinType nil, isType_fold, ?_⟩
  refine ok_call (d := []) (as := [S "alst"]) (vs := [ew]) (xs := [ofList (ps.map typesOf)]) (hu.at 0 rfl) rfl rfl hargs
    (loop_done (ok_prog1.trans ?_) (tail_ofList _))
  have hE := (Near.refl (ps := typeArgs) hl).merge (b := [⟨false, n "alst", ofList (ps.map typesOf)⟩]) (by simp [typeArgs, foldArgs])
  have gW : getEnv (mergeEnv l [⟨false, n "alst", ofList (ps.map typesOf)⟩]) (n "alst") = some (ofList (ps.map typesOf)) := getEnv_merge_in hl rfl
  change sem (envVal (mergeEnv l [⟨false, n "alst", ofList (ps.map typesOf)⟩])) _ st = _
  generalize mergeEnv l [⟨false, n "alst", ofList (ps.map typesOf)⟩] = E at hE gW ⊢
  have u := hE.uses hu (by decide +kernel)
  have uf : Uses foldrUses E st := u.sub (fun p hp => by simp [typeUses, fold1Uses, hp])
  refine (C49_foldr (I := fun s => s = st) (st1 := st) (F := cons (L [cons (S "symb") (S "types"), S "acc0"]) (cons (envVal E) foldBody))
    (w := ofList (ps.map typesOf)) (a := nil) (g := foldStep) hE.sorted (fun s h => by rw [h]; exact uf) ?_ uf rfl
    (okSeq_cons (ok_lambda (by res)) (okSeq_cons (ok_sym (resolves_local gW)) (okSeq_cons ok_nil okSeq_nil)))
    (by rw [elems_ofList]; exact foldrM_types ps st) ?_ rfl).1
  · refine acts2_lisp (p := cons (S "symb") (S "types")) (q := S "acc0") rfl fun m x y st0 v st' hm h0 hg => ?_
    cases h0
    obtain ⟨hx', hv⟩ := need_ok hg
    obtain ⟨⟨k, ts⟩, rfl⟩ := of_decide_eq_true hx'
    cases hv
    refine ⟨ok_prog1.trans ?_, rfl, rfl⟩
    have hN := ((hE.trans (hm.mono (by simp [foldArgs, typeArgs]))).capture hE).merge
      (b := [⟨false, n "acc0", y⟩, ⟨false, n "types", ofList (types ts)⟩, ⟨false, n "symb", k⟩]) (by simp [typeArgs, foldArgs])
    have hsm := sorted_mergeEnv E hm.sorted
    have gK : getEnv (mergeEnv (mergeEnv m E) [⟨false, n "acc0", y⟩, ⟨false, n "types", ofList (types ts)⟩, ⟨false, n "symb", k⟩]) (n "symb") = some k :=
      getEnv_merge_in hsm rfl
    have gT : getEnv (mergeEnv (mergeEnv m E) [⟨false, n "acc0", y⟩, ⟨false, n "types", ofList (types ts)⟩, ⟨false, n "symb", k⟩]) (n "types") =
      some (ofList (types ts)) := getEnv_merge_in hsm rfl
    have gA : getEnv (mergeEnv (mergeEnv m E) [⟨false, n "acc0", y⟩, ⟨false, n "types", ofList (types ts)⟩, ⟨false, n "symb", k⟩]) (n "acc0") = some y :=
      getEnv_merge_in hsm rfl
    change sem (envVal (mergeEnv (mergeEnv m E) [⟨false, n "acc0", y⟩, ⟨false, n "types", ofList (types ts)⟩, ⟨false, n "symb", k⟩])) _ st =
      .ok (cons (cons k ((elems (ofList (types ts))).foldr joinType nil)) y, st)
    rw [elems_ofList]
    generalize mergeEnv (mergeEnv m E) [⟨false, n "acc0", y⟩, ⟨false, n "types", ofList (types ts)⟩, ⟨false, n "symb", k⟩] = G at hN gK gT gA ⊢
    have uG := hN.uses hu (by decide +kernel)
    have h1 := fold1_ok hN.sorted (uG.sub (T' := fold1Uses) (fun p hp => by simp [typeUses, hp])) (types_tail ts) (ew := S "types")
      (okSeq_cons (ok_sym (resolves_local gT)) okSeq_nil)
    exact ok_two (op := .cons) (by res) (ok_two (op := .cons) (by res) (ok_sym (resolves_local gK)) h1 rfl rfl) (ok_sym (resolves_local gA)) rfl rfl
  · intro x _ y s v s' _ hg
    obtain ⟨hx', hv⟩ := need_ok hg
    cases hv
    rfl

/-! ## `cps:type:get` -/

/-- The clauses of `cps:type:get` (`share/mnml/cps.l:178-183`). -/
def getClauses : Val :=
  L [cons (S "nil?") (Q (S "ATOM")), cons (S "num?") (Q (S "NUMBER")), cons (S "str?") (Q (S "STRING")),
    cons (S "sym?") (L [S "<|>", L [S "cps:type:fold1", L [S "assoc", S "key", S "acc"]], Q (S "ATOM")]), cons (S "lst?") (Q (S "ATOM")),
    cons wild (Q (S "ATOM"))]

/-- `cps:type:get` (`share/mnml/cps.l:175-183`). -/
def getSrc : Val :=
  L [S "def", S "cps:type:get", L [S "key", S "acc"], str "Get the type of KEY in ACC.", cons (S "cond") (cons (S "key") getClauses)]

/-- The value of `cps:type:get` once defined. -/
def getV : Val := cons (L [S "key", S "acc"]) (cons nil (L [cons (S "cond") (cons (S "key") getClauses)]))

theorem get_def (st : St) (h : st.globals Native.def_.name = some Native.def_.val) :
    sem nil getSrc st = .ok (S "cps:type:get", define "cps:type:get" getV st) := ok_def h rfl

/-- `share/mnml/cps.l:175-183`. -/
def getText : List UInt8 :=
  fileText [
      "(def cps:type:get (key acc)\n",
      "\t\"Get the type of KEY in ACC.\"\n",
      "\t(cond key\n",
      "\t\t(nil? . 'ATOM)\n",
      "\t\t(num? . 'NUMBER)\n",
      "\t\t(str? . 'STRING)\n",
      "\t\t(sym? .\t(<|> (cps:type:fold1 (assoc key acc)) 'ATOM))\n",
      "\t\t(lst? . 'ATOM)\n",
      "\t\t( _\t . 'ATOM)))\n"]

theorem get_text : drain (fun _ => .unsupported) 10 .init getText = .ok ⟨[], [], none, [getSrc]⟩ := by
  rw [drain_eq]
  simp only [getText, fileText, List.flatMap_cons, List.flatMap_nil, litToList]
  decide +kernel

/-- The definitions that `cps:type:get` relies on. -/
def getUses : List (Sym × Val) :=
  [(n "cps:type:get", getV), (n "cond", Native.cond.val), (n "num?", Native.isnum.val), (n "str?", Native.isstr.val), (n "sym?", Native.issym.val)] ++
    orelseUses ++ assocUses ++ fold1Uses

/-- The types that a table has for the key K. -/
def typesFor (k : Val) (ps : List (Val × List Sym)) : List Sym := ((ps.find? fun p => equ p.1 k).map Prod.snd).getD []

theorem find_typesFor (k : Val) (ps : List (Val × List Sym)) : find k (ps.map typesOf) = ofList (types (typesFor k ps)) := by
  induction ps with
  | nil => rfl
  | cons p ps ih =>
    unfold typesFor
    rw [List.map_cons, List.find?_cons]
    cases hq : equ p.1 k with
    | true => exact find_pos (x := typesOf p) hq
    | false => exact (find_neg (x := typesOf p) hq).trans ih

theorem cond_step {c x a rest : Val} {p : Sym} {b : Bool} {st : St} (h : sem c (L [ofSym p, x]) st = .ok (ofBool b, st)) :
    condV sem c x (cons (cons (ofSym p) a) rest) st = if b then sem c a st else condV sem c x rest st := by
  show (sem c (L [ofSym p, x]) >>= fun res => if res.isTrue then sem c a else condV sem c x rest) st = _
  rw [M.bind_congr_ok h]
  cases b <;> rfl

/-- What `cps:type:get` gives. -/
def getType (k : Val) (ps : List (Val × List Sym)) : Val :=
  if k.isNil then S "ATOM" else if k.isNum then S "NUMBER" else if k.isString then S "STRING" else if k.isSym then
    if (types (typesFor k ps)).foldr joinType nil = nil then S "ATOM" else (types (typesFor k ps)).foldr joinType nil
  else S "ATOM"

theorem get_ok {l : List Entry} {st : St} (hl : Sorted l) (hu : Uses getUses l st) {ek ew k : Val} {ps : List (Val × List Sym)}
    (hp : ∀ p ∈ ps, p.1.isTailCall = false) (hargs : evalSeq sem (envVal l) [ek, ew] st = .ok ([k, ofList (ps.map typesOf)], st)) :
    sem (envVal l) (L [S "cps:type:get", ek, ew]) st = .ok (getType k ps, st) := by
  have hE := (Near.refl (ps := [n "key", n "acc"]) hl).merge (b := [⟨false, n "acc", ofList (ps.map typesOf)⟩, ⟨false, n "key", k⟩]) (by simp)
  have gK : getEnv (mergeEnv l [⟨false, n "acc", ofList (ps.map typesOf)⟩, ⟨false, n "key", k⟩]) (n "key") = some k := getEnv_merge_in hl rfl
  have gX : getEnv (mergeEnv l [⟨false, n "acc", ofList (ps.map typesOf)⟩, ⟨false, n "key", k⟩]) (n "acc") = some (ofList (ps.map typesOf)) :=
    getEnv_merge_in hl rfl
  have hcall : ∀ v, v.isTailCall = false →
      condV sem (envVal (mergeEnv l [⟨false, n "acc", ofList (ps.map typesOf)⟩, ⟨false, n "key", k⟩])) (S "key") getClauses st = .ok (v, st) →
      sem (envVal l) (L [S "cps:type:get", ek, ew]) st = .ok (v, st) := by
    intro v hv h
    refine ok_call (d := []) (as := [S "key", S "acc"]) (vs := [ek, ew]) (xs := [k, ofList (ps.map typesOf)]) (hu.at 0 rfl) rfl rfl hargs
      (loop_done (ok_prog1.trans ?_) hv)
    show sem (envVal (mergeEnv l [⟨false, n "acc", ofList (ps.map typesOf)⟩, ⟨false, n "key", k⟩])) (pair false (sym false (n "cond")) _) st = _
    rw [sem_any _ ((hE.uses hu (by decide +kernel)).at 1 rfl) rfl]
    exact h
  generalize mergeEnv l [⟨false, n "acc", ofList (ps.map typesOf)⟩, ⟨false, n "key", k⟩] = E at hE gK gX hcall
  have u := hE.uses hu (by decide +kernel)
  have hs := hE.sorted
  have ua := u.sub (T' := assocUses) (fun p hp => by simp [getUses, hp])
  have uo := u.sub (T' := orelseUses) (fun p hp => by simp [getUses, hp])
  have uf := u.sub (T' := fold1Uses) (fun p hp => by simp [getUses, hp])
  have hfind : sem (envVal E) (L [S "assoc", S "key", S "acc"]) st = .ok (ofList (types (typesFor k ps)), st) := by
    rw [← find_typesFor]
    refine C51_assoc hs ua ua (fun x hx => ?_) (okSeq_cons (ok_sym (resolves_local gK)) (okSeq_cons (ok_sym (resolves_local gX)) okSeq_nil))
    obtain ⟨p, hm, rfl⟩ := List.mem_map.1 hx
    exact ⟨hp p hm, tail_ofList _⟩
  have htl : ((types (typesFor k ps)).foldr joinType nil).isTailCall = false := by
    cases hc : typesFor k ps with
    | nil => rfl
    | cons t ts => exact join_tail (types_tail (t :: ts) _ (by simp [types])) _
  have hor := C72_orelse hs uo uo (e1 := L [S "cps:type:fold1", L [S "assoc", S "key", S "acc"]]) (e2 := Q (S "ATOM")) (okSeq_cons
    (fold1_ok hs uf (types_tail _) (okSeq_cons hfind okSeq_nil)) (okSeq_cons (ok_quote (uf.at 4 rfl)) okSeq_nil)) htl rfl
  have hq : ∀ v, sem (envVal E) (Q v) st = .ok (v, st) := fun v => ok_quote (uf.at 4 rfl)
  have hcond : condV sem (envVal E) (S "key") getClauses st = .ok (getType k ps, st) := by
    unfold getType
    refine (cond_step (b := k.isNil) (ok_one (op := .isnil) (uf.at 7 rfl) (ok_sym (resolves_local gK)) rfl (by decide) rfl)).trans ?_
    cases k.isNil with
    | true => exact hq _
    | false =>
    refine (cond_step (b := k.isNum) (ok_one (op := .isnum) (u.at 2 rfl) (ok_sym (resolves_local gK)) rfl (by decide) rfl)).trans ?_
    cases k.isNum with
    | true => exact hq _
    | false =>
    refine (cond_step (b := k.isString) (ok_one (op := .isstr) (u.at 3 rfl) (ok_sym (resolves_local gK)) rfl (by decide) rfl)).trans ?_
    cases k.isString with
    | true => exact hq _
    | false =>
    refine (cond_step (b := k.isSym) (ok_one (op := .issym) (u.at 4 rfl) (ok_sym (resolves_local gK)) rfl (by decide) rfl)).trans ?_
    cases k.isSym with
    | true => exact hor
    | false =>
    refine (cond_step (b := k.isPair || k.isNil) (ok_one (op := .islst) (uf.at 6 rfl) (ok_sym (resolves_local gK)) rfl (by decide) rfl)).trans ?_
    cases k.isPair || k.isNil with
    | true => exact hq _
    | false => exact hq _
  refine hcall _ ?_ hcond
  unfold getType
  repeat' split
  all_goals first | rfl | exact htl

/-- The type V of K according to a table: that of numbers and strings; for symbols the one that the table has, ATOM if it has none; ATOM otherwise. -/
def Gets (ps : List (Val × List Sym)) (k v : Val) : Prop :=
  (k.isSym = true → (typesFor k ps = [] → v = S "ATOM") ∧ (typesFor k ps ≠ [] → IsType (typesFor k ps) v)) ∧
  (k.isNum = true → v = S "NUMBER") ∧ (k.isNil = false → k.isString = true → v = S "STRING") ∧
  (k.isSym = false → k.isNum = false → (k.isNil = true ∨ k.isString = false) → v = S "ATOM")

theorem getType_gets (k : Val) (ps : List (Val × List Sym)) : Gets ps k (getType k ps) := by
  unfold getType
  refine ⟨fun h => ?_, fun h => ?_, fun h1 h2 => ?_, fun h1 h2 h3 => ?_⟩
  · have h1 : k.isNil = false := by cases k <;> first | rfl | cases h
    have h2 : k.isNum = false := by cases k <;> first | rfl | cases h
    have h3 : k.isString = false := by cases k <;> first | rfl | cases h
    rw [h1, h2, h3, h]
    refine ⟨fun he => by rw [he]; rfl, fun he => ?_⟩
    obtain ⟨r, hr, _⟩ := join_all _ he
    have hn : (types (typesFor k ps)).foldr joinType nil ≠ nil := by rw [hr]; simp [ofSym]
    simp only [Bool.false_eq_true, if_false, if_true, if_neg hn]
    exact isType_fold _
  · have h1 : k.isNil = false := by cases k <;> first | rfl | cases h
    rw [h1, h]
    rfl
  · have h3 : k.isNum = false := by cases k <;> first | rfl | cases h2
    rw [h1, h2, h3]
    rfl
  · rw [h1, h2]
    rcases h3 with h3 | h3 <;> rw [h3] <;> cases k.isNil <;> rfl

/-- **C92.** `(cps:type:get K L)` for a table L of types: NUMBER for numbers, STRING for strings; for symbols the one type that L has for them, ATOM if
it has none; ATOM for everything else. -/
theorem C92_get {l : List Entry} {st : St} (hl : Sorted l) (hu : Uses getUses l st) {ek ew k : Val} {ps : List (Val × List Sym)}
    (hp : ∀ p ∈ ps, p.1.isTailCall = false) (hargs : evalSeq sem (envVal l) [ek, ew] st = .ok ([k, ofList (ps.map typesOf)], st)) :
    ∃ v, sem (envVal l) (L [S "cps:type:get", ek, ew]) st = .ok (v, st) ∧ Gets ps k v :=
  ⟨_, get_ok hl hu hp hargs, getType_gets k ps⟩

/-! ## Examples -/

/-- The library with the functions. -/
def typesSt : St := define "cps:type:get" getV <| define "cps:type:fold" foldV (define "cps:type:fold1" fold1V markSt)

/-- The hypotheses of the theorems, and runs. A type that is not known yet is an error in front of one that is. -/
example : Sorted [] ∧ Uses fold1Uses [] typesSt ∧ Uses typeUses [] typesSt ∧ Uses getUses [] typesSt ∧
    evalSeq sem nil [Q (ofList (types [n "ATOM"]))] typesSt = .ok ([ofList (types [n "ATOM"])], typesSt) ∧
    ((evalN 60 nil (L [S "cps:type:fold1", Q (L [S "NUMBER", S "NUMBER", S "UNDEF"])]) typesSt >>= fun p => .ok p.1) : Res Val) = .ok (S "NUMBER") ∧
    ((evalN 60 nil (L [S "cps:type:fold1", Q (L [S "UNDEF", S "NUMBER"])]) typesSt >>= fun p => .ok p.1) : Res Val) = .ok (S "ERROR") ∧
    ((evalN 60 nil (L [S "cps:type:fold", Q (L [cons (S "n") (L [S "NUMBER"]), cons (S "k") (L [S "ATOM", S "NUMBER"])])]) typesSt >>=
      fun p => .ok p.1) : Res Val) = .ok (L [cons (S "n") (S "NUMBER"), cons (S "k") (S "ERROR")]) ∧
    ((evalN 60 nil (L [S "cps:type:get", Q (S "n"), Q (L [cons (S "n") (L [S "NUMBER"])])]) typesSt >>= fun p => .ok p.1) : Res Val) =
      .ok (S "NUMBER") := by
  have h : Uses typeUses [] typesSt := by unfold Uses; decide +kernel
  refine ⟨List.Pairwise.nil, by unfold Uses; decide +kernel, h, by unfold Uses; decide +kernel, ?_, by decide +kernel, by decide +kernel, by decide +kernel, by decide +kernel⟩
  exact okSeq_cons (ok_quote (h.at 6 rfl)) okSeq_nil

end Lib
end Mnml
