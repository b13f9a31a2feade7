import Verif.PropTypes
import Verif.PropRefcount

/-!
# C93: the type of what a function gives

`cps:type:findl` of `share/mnml/cps.l` collects the types of the values that the last continuation of a function is called with.
-/

namespace Mnml
namespace Lib

open Val Lex

/-! ## The text -/

/-- The clause for a conditional with one branch (`share/mnml/cps.l:383-387`). -/
def thenLet : Val :=
  L [S "let", L [cons (L [wild, wild, S "thn"]) (S "body")],
    L [S "|>", S "alst", L [S "cps:type:mark", S "kvar", Q (S "ATOM")], L [S "cps:type:findl", S "kvar", S "thn"]]]

/-- The clause for a conditional with two branches (`share/mnml/cps.l:393-397`). -/
def elseLet : Val :=
  L [S "let", L [cons (L [wild, wild, S "thn", S "els"]) (S "body")],
    L [S "|>", S "alst", L [S "cps:type:findl", S "kvar", S "thn"], L [S "cps:type:findl", S "kvar", S "els"]]]

/-- The clause for a call with one argument (`share/mnml/cps.l:401-403`). -/
def argLet : Val :=
  L [S "let", L [cons (L [S "op", S "arg"]) (S "body"), cons (S "atype") (L [S "cps:type:get", S "arg", S "alst"])],
    L [S "cps:type:mark", S "kvar", S "atype", S "alst"]]

/-- The clause for the other calls (`share/mnml/cps.l:407-408`). -/
def nextLet : Val :=
  L [S "let", L [cons (L [wild, wild, S "next"]) (L [S "last", S "body"])], L [S "cps:type:findl", S "kvar", S "next", S "alst"]]

/-- The function that the expression after the tilde folds (`share/mnml/cps.l:382-388`), without its arguments. -/
def findTildeBody : Val :=
  L [L [S "cons", L [S "cons", L [S "list", S "e", wild, wild], Q thenLet], S "acc"]]

/-- The expression after the tilde (`share/mnml/cps.l:381-389`). -/
def findTilde : Val :=
  L [S "foldl", cons (S "\\") (cons (L [S "acc", S "e"]) findTildeBody), nil, Q (L [S "if", S "unless", S "when"])]

/-- Its value: a clause for each conditional. -/
def findTildeV : Val :=
  L [cons (L [S "when", wild, wild]) thenLet, cons (L [S "unless", wild, wild]) thenLet, cons (L [S "if", wild, wild]) thenLet]

/-- The clauses of `cps:type:findl`, with those of the tilde. -/
def findClauses : Val :=
  L [cons (L [S "when", wild, wild]) thenLet, cons (L [S "unless", wild, wild]) thenLet, cons (L [S "if", wild, wild]) thenLet,
    cons (L [S "if", wild, wild, wild]) elseLet, cons (L [wild, wild]) argLet, cons (cons wild wild) nextLet, cons wild (S "alst")]

/-- The body of `cps:type:findl` (`share/mnml/cps.l:377-412`). -/
def findMatch : Val := cons (S "match") (cons (S "body") findClauses)

/-- `cps:type:findl` (`share/mnml/cps.l:375-412`). -/
def findlSrc : Val :=
  L [S "def", S "cps:type:findl", L [S "kvar", S "body", S "alst"], str "Resolve the type for KVAR if it does not have one.", findMatch]

/-- The value of `cps:type:findl` once defined. -/
def findlV : Val := cons (L [S "kvar", S "body", S "alst"]) (cons nil (L [findMatch]))

theorem findl_def (st : St) (h : st.globals Native.def_.name = some Native.def_.val) :
    sem nil findlSrc st = .ok (S "cps:type:findl", define "cps:type:findl" findlV st) := ok_def h rfl

/-- `share/mnml/cps.l:375-412`. -/
def findlText : List UInt8 :=
  fileText [
      "(def cps:type:findl (kvar body alst)\n",
      "\t\"Resolve the type for KVAR if it does not have one.\"\n",
      "\t(match body\n",
      "\t\t#\n",
      "\t\t# IF/THEN, UNLESS, WHEN.\n",
      "\t\t#\n",
      "\t\t~(foldl\n",
      "\t\t\t (\\ (acc e) (cons (cons (list e _ _)\n",
      "\t\t\t\t\t\t\t\t\t\t\t\t\t'(let (((_ _ thn) . body))\n",
      "\t\t\t\t\t\t\t\t\t\t\t\t\t\t (|> alst\n",
      "\t\t\t\t\t\t\t\t\t\t\t\t\t\t\t\t (cps:type:mark kvar 'ATOM)\n",
      "\t\t\t\t\t\t\t\t\t\t\t\t\t\t\t\t (cps:type:findl kvar thn)\n",
      "\t\t\t\t\t\t\t\t\t\t\t\t\t\t\t\t )))\n",
      "\t\t\t\t\t\t\t\t\t\tacc))\n",
      "\t\t\t NIL '(if unless when))\n",
      "\t\t#\n",
      "\t\t# IF/THEN/ELSE.\n",
      "\t\t#\n",
      "\t\t((if _ _ _) . (let (((_ _ thn els) . body))\n",
      "\t\t\t\t\t\t\t\t\t\t(|> alst\n",
      "\t\t\t\t\t\t\t\t\t\t\t\t(cps:type:findl kvar thn)\n",
      "\t\t\t\t\t\t\t\t\t\t\t\t(cps:type:findl kvar els)\n",
      "\t\t\t\t\t\t\t\t\t\t\t\t)))\n",
      "\t\t#\n",
      "\t\t# KVAR.\n",
      "\t\t#\n",
      "\t\t((_ _)\t. (let (((op arg) . body)\n",
      "\t\t\t\t\t\t\t\t\t\t(atype\t\t. (cps:type:get arg alst)))\n",
      "\t\t\t\t\t\t\t\t(cps:type:mark kvar atype alst)))\n",
      "\t\t#\n",
      "\t\t# Other.\n",
      "\t\t#\n",
      "\t\t((_ . _)\t. (let (((_ _ next) . (last body)))\n",
      "\t\t\t\t\t\t\t\t\t(cps:type:findl kvar next alst)))\n",
      "\t\t#\n",
      "\t\t# Default.\n",
      "\t\t#\n",
      "\t\t(_ . alst)))\n"]

/-- What the reader makes of it, where evaluating the expression after the tilde gives `findTildeV` (`C93_clauses`). -/
theorem findl_text : drain (fun v => if v = findTilde then .ok findTildeV else .unsupported) 39 .init findlText =
    .ok ⟨[], [], none, [findlSrc]⟩ := by
  rw [drain_eq]
  simp only [findlText, fileText, List.flatMap_cons, List.flatMap_nil, litToList]
  decide +kernel

/-! ## Tables -/

/-- A table of types. -/
abbrev Table := List (Val × List Sym)

/-- The table as a value. -/
def tableV (ps : Table) : Val := ofList (ps.map typesOf)

/-- The keys have no marks. -/
def Keys (ps : Table) : Prop := ∀ p ∈ ps, p.1.isTailCall = false

/-- The table after the type T has been added to the symbol S. -/
def addType (s t : Sym) (ps : Table) : Table :=
  if typesFor (ofSym s) ps = [] then (ofSym s, [t]) :: ps
  else ps.map fun p => if equ (ofSym s) p.1 then (ofSym s, t :: typesFor (ofSym s) ps) else p

theorem addType_keys {s t : Sym} {ps : Table} (h : Keys ps) : Keys (addType s t ps) := by
  unfold addType
  split
  · intro p hp
    rcases List.mem_cons.1 hp with rfl | hp
    · rfl
    · exact h p hp
  · intro p hp
    obtain ⟨q, hq, rfl⟩ := List.mem_map.1 hp
    split
    · rfl
    · exact h q hq

theorem typed_addType (s t : Sym) (ps : Table) : typed (ofSym s) (ofSym t) (ps.map typesOf) = (addType s t ps).map typesOf := by
  unfold typed addType
  rw [if_pos (show (ofSym s).isSym = true from rfl), find_typesFor]
  cases h : typesFor (ofSym s) ps with
  | nil => rfl
  | cons r rs =>
    rw [if_neg (show ¬ (ofList (types (r :: rs))).isNil = true from fun h => by cases h), if_neg (show ¬ r :: rs = [] by simp)]
    unfold replaceKey
    rw [List.map_map, List.map_map]
    refine List.map_congr_left fun p _ => ?_
    show (if equ (ofSym s) p.1 then _ else _) = typesOf (if _ then _ else _)
    split <;> rfl

theorem types_inj : ∀ {as bs : List Sym}, ofList (types as) = ofList (types bs) → as = bs
  | [], [], _ => rfl
  | [], _ :: _, h => by cases h
  | _ :: _, [], h => by cases h
  | a :: as, b :: bs, h => by
    injection h with _ h1 h2
    injection h1 with _ h1
    rw [h1, types_inj h2]

theorem typesFor_add (s t : Sym) (j : Val) (ps : Table) :
    typesFor j (addType s t ps) = if equ (ofSym s) j then t :: typesFor j ps else typesFor j ps := by
  refine types_inj ?_
  rw [← find_typesFor, ← typed_addType, find_typed]
  show (if equ (ofSym s) j then _ else _) = _
  split
  · rw [find_typesFor]; rfl
  · rw [find_typesFor]

theorem not_func_types (ts : List Sym) : isFunc (ofList (types ts)) = false := by
  match ts with
  | [] => rfl
  | [_] => rfl
  | _ :: _ :: ts => cases ts <;> rfl

theorem Keys.untailed {ps : Table} (h : Keys ps) : Untailed (ps.map typesOf) := by
  intro x hx
  obtain ⟨p, hp, rfl⟩ := List.mem_map.1 hx
  exact ⟨h p hp, tail_ofList _⟩

/-- The type of a value according to a table. -/
def typeIn (k : Val) (ps : Table) : Sym := match getType k ps with
  | sym _ s => s
  | _ => n "ATOM"

theorem getType_sym (k : Val) (ps : Table) : getType k ps = ofSym (typeIn k ps) := by
  have key : ∃ s, getType k ps = ofSym s := by
    unfold getType
    split
    · exact ⟨_, rfl⟩
    split
    · exact ⟨_, rfl⟩
    split
    · exact ⟨_, rfl⟩
    split
    · split
      · exact ⟨_, rfl⟩
      · rename_i h
        cases hc : typesFor k ps with
        | nil => rw [hc] at h; exact absurd rfl h
        | cons t ts =>
          obtain ⟨r, hr, _⟩ := join_all (t :: ts) (by simp)
          exact ⟨r, hr⟩
    · exact ⟨_, rfl⟩
  obtain ⟨s, h⟩ := key
  unfold typeIn
  rw [h]

/-! ## Terms -/

/-- The table after `cps:type:findl`. -/
def Tm.types (s : Sym) : Tm → Table → Table
  | leaf _, ps => ps
  | call _ [] x, ps => addType s (typeIn x ps) ps
  | call _ (_ :: _) _, ps => ps
  | cont _ [] p b, ps => addType s (typeIn (L [S "\\", L [ofSym p], b.val]) ps) ps
  | cont _ (_ :: _) _ b, ps => b.types s ps
  | ith _ _ t, ps => t.types s (addType s (n "ATOM") ps)
  | ite _ _ t e, ps => e.types s (t.types s ps)

/-- Conditionals with two branches are those with `if`. -/
def Tm.Ifs : Tm → Prop
  | leaf _ => True
  | call .. => True
  | cont _ _ _ b => b.Ifs
  | ith _ _ t => t.Ifs
  | ite c _ t e => c = .if_ ∧ t.Ifs ∧ e.Ifs

/-- What a term gives to its last continuation, branch after branch: `none` where a branch is missing. Every call with one argument counts as one of
the last continuation, whatever its function is, also if the argument is a continuation. A call of another function that passes the last continuation
on adds nothing: what it gives is not known. -/
def Tm.gives : Tm → List (Option Val)
  | leaf _ => []
  | call _ [] x => [some x]
  | call _ (_ :: _) _ => []
  | cont _ [] p b => [some (L [S "\\", L [ofSym p], b.val])]
  | cont _ (_ :: _) _ b => b.gives
  | ith _ _ t => none :: t.gives
  | ite _ _ t e => t.gives ++ e.gives

/-- The type R of what is given. -/
def Given (ps : Table) : Option Val → Sym → Prop
  | none, r => r = n "ATOM"
  | some v, r => Gets ps v (ofSym r)

/-- The types of all that is given. -/
inductive Givens (ps : Table) : List (Option Val) → List Sym → Prop
  | nil : Givens ps [] []
  | cons {g r gs rs} : Given ps g r → Givens ps gs rs → Givens ps (g :: gs) (r :: rs)

theorem Tm.types_keys {s : Sym} : (t : Tm) → (ps : Table) → Keys ps → Keys (t.types s ps)
  | leaf _, _, h => h
  | call _ [] _, _, h => addType_keys h
  | call _ (_ :: _) _, _, h => h
  | cont _ [] _ _, _, h => addType_keys h
  | cont _ (_ :: _) _ b, ps, h => b.types_keys ps h
  | ith _ _ t, _, h => t.types_keys _ (addType_keys h)
  | ite _ _ t e, _, h => e.types_keys _ (t.types_keys _ h)

/-- Other keys keep their types. -/
theorem Tm.types_other {s : Sym} {j : Val} (hj : equ (ofSym s) j = false) : (t : Tm) → (ps : Table) → typesFor j (t.types s ps) = typesFor j ps
  | leaf _, _ => rfl
  | call _ [] _, ps => by rw [Tm.types, typesFor_add, hj]; rfl
  | call _ (_ :: _) _, _ => rfl
  | cont _ [] _ _, ps => by rw [Tm.types, typesFor_add, hj]; rfl
  | cont _ (_ :: _) _ b, ps => b.types_other hj ps
  | ith _ _ t, ps => by rw [Tm.types, t.types_other hj, typesFor_add, hj]; rfl
  | ite _ _ t e, ps => by rw [Tm.types, e.types_other hj, t.types_other hj]

theorem Gets.same {ps qs : Table} {k v : Val} (h : typesFor k qs = typesFor k ps) : Gets qs k v ↔ Gets ps k v := by
  unfold Gets
  rw [h]

theorem given_same {s : Sym} {ps qs : Table} (h : ∀ j, equ (ofSym s) j = false → typesFor j qs = typesFor j ps) {gs : List (Option Val)} {rs : List Sym}
    (hg : ∀ v, some v ∈ gs → equ (ofSym s) v = false) (hr : Givens qs gs rs) : Givens ps gs rs := by
  induction hr with
  | nil => exact .nil
  | @cons g r gs rs h1 _ ih =>
    refine .cons ?_ (ih fun v hv => hg v (by simp [hv]))
    cases g with
    | none => exact h1
    | some v => exact (Gets.same (h v (hg v (by simp)))).1 h1

theorem given_in (v : Val) (ps : Table) : Given ps (some v) (typeIn v ps) := by
  show Gets ps v (ofSym (typeIn v ps))
  rw [← getType_sym]
  exact getType_gets v ps

theorem equ_refl_sym (s : Sym) : equ (ofSym s) (ofSym s) = true := (symMatch_iff s s).2 rfl

/-- The types that are added. -/
theorem Tm.types_own {s : Sym} : (t : Tm) → (ps : Table) → (∀ v, some v ∈ t.gives → equ (ofSym s) v = false) →
    ∃ rs, typesFor (ofSym s) (t.types s ps) = rs.reverse ++ typesFor (ofSym s) ps ∧ Givens ps t.gives rs
  | leaf _, _, _ => ⟨[], rfl, .nil⟩
  | call _ [] x, ps, _ => ⟨[typeIn x ps], by rw [Tm.types, typesFor_add, equ_refl_sym]; rfl, .cons (given_in x ps) .nil⟩
  | call _ (_ :: _) _, _, _ => ⟨[], rfl, .nil⟩
  | cont _ [] p b, ps, _ =>
    ⟨[typeIn (L [S "\\", L [ofSym p], b.val]) ps], by rw [Tm.types, typesFor_add, equ_refl_sym]; rfl, .cons (given_in _ ps) .nil⟩
  | cont _ (_ :: _) _ b, ps, h => b.types_own ps h
  | ith _ _ t, ps, h => by
    have h' : ∀ v, some v ∈ t.gives → equ (ofSym s) v = false := fun v hv => h v (by simp [gives, hv])
    obtain ⟨rs, h1, h2⟩ := t.types_own (addType s (n "ATOM") ps) h'
    refine ⟨n "ATOM" :: rs, ?_, .cons rfl (given_same (fun j hj => ?_) h' h2)⟩
    · rw [Tm.types, h1, typesFor_add, equ_refl_sym, List.reverse_cons, List.append_assoc]; rfl
    · rw [typesFor_add, hj]; rfl
  | ite _ _ t e, ps, h => by
    have ht : ∀ v, some v ∈ t.gives → equ (ofSym s) v = false := fun v hv => h v (by simp [gives, hv])
    have he : ∀ v, some v ∈ e.gives → equ (ofSym s) v = false := fun v hv => h v (by simp [gives, hv])
    obtain ⟨rs, h1, h2⟩ := t.types_own ps ht
    obtain ⟨qs, h3, h4⟩ := e.types_own (t.types s ps) he
    refine ⟨rs ++ qs, ?_, forall_append h2 (given_same (fun j hj => t.types_other hj ps) he h4)⟩
    rw [Tm.types, h3, h1, List.reverse_append, List.append_assoc]
where
  forall_append {ps : Table} {a : List (Option Val)} {b : List Sym} {c : List (Option Val)} {d : List Sym} (h : Givens ps a b)
      (h' : Givens ps c d) : Givens ps (a ++ c) (b ++ d) := by
    induction h with
    | nil => exact h'
    | cons h1 _ ih => exact .cons h1 ih

/-! ## The function -/

/-- The definitions that `cps:type:findl` relies on. -/
def findlUses : List (Sym × Val) :=
  [(n "cps:type:findl", findlV), (n "match", Native.match_.val), (n "let", Native.let_.val), (n "|>", Native.stream.val), (n "quote", Native.quote.val),
   (n "list", Native.list.val)] ++ markUses ++ getUses ++ last2Uses

/-- The names bound by `cps:type:findl`. -/
def findlArgs : List Sym :=
  [n "kvar", n "body", n "alst", n "thn", n "els", n "op", n "arg", n "atype", n "next", n "key", n "type", n "acc"]

/-- The variables of `cps:type:findl`. -/
structure FindEnv (l E : List Entry) (s : Sym) (w : Val) (ps : Table) : Prop where
  near : Near findlArgs l E
  kvar : getEnv E (n "kvar") = some (ofSym s)
  body : getEnv E (n "body") = some w
  alst : getEnv E (n "alst") = some (tableV ps)

/-- `cps:type:findl` makes of the term what `Tm.types` says. -/
def FindOK (l : List Entry) (st : St) (s : Sym) (t : Tm) : Prop :=
  ∀ (ps : Table), Keys ps → ∀ {E : List Entry}, FindEnv l E s t.val ps → sem (envVal E) findMatch st = .ok (tableV (t.types s ps), st)

/-- A call with two values for three arguments: a function of the other argument. -/
theorem ok_call_two {l : List Entry} {s p1 p2 : Sym} {body q e1 e2 x1 x2 : Val} {st st1 : St}
    (h : Resolves (envVal l) st s (cons (L [ofSym p1, ofSym p2, q]) (cons nil body))) (hb : body.isPair = true)
    (hx : evalSeq sem (envVal l) [e1, e2] st = .ok ([x1, x2], st1)) :
    sem (envVal l) (L [ofSym s, e1, e2]) st = .ok (cons (L [q]) (cons (envVal [⟨false, p2, x2⟩, ⟨false, p1, x1⟩]) body), st1) := by
  have hf : isFunc (cons (L [ofSym p1, ofSym p2, q]) (cons nil body)) = true := by
    have ha : (L [ofSym p1, ofSym p2, q]).isList = true := rfl
    have hn : nil.isList = true := rfl
    simp only [isFunc, ha, hn, hb, Bool.true_or, Bool.and_true]
  refine (sem_call h hf).trans ?_
  have hm : mayApply (L [ofSym p1, ofSym p2, q]) (ofList [e1, e2]) = true := by
    show mayApply (ofList [ofSym p1, ofSym p2, q]) (ofList [e1, e2]) = true
    rw [mayApply_ofList]; rfl
  have he : evalArgs sem (envVal l) (L [ofSym p1, ofSym p2, q]) nil (ofList [e1, e2]) = _ :=
    C21_fewer (envVal l) [ofSym p1, ofSym p2] [q] [e1, e2] rfl
  simp only [semFunc, car, cdr, hm, he, M.bind_assoc, M.pure_bind, Bool.not_true, Bool.false_eq_true, if_false]
  rw [M.bind_congr_ok hx]
  rfl

/-- A step of the stream that adds a type. -/
theorem mark_step {l E : List Entry} {st : St} (hu : Uses findlUses l st) {s t : Sym} {ps : Table} (hp : Keys ps) (hE : Near findlArgs l E)
    (gK : getEnv E (n "kvar") = some (ofSym s)) :
    sem (envVal E) (cons (L [S "cps:type:mark", S "kvar", Q (ofSym t)]) (cons (cons (ofSym sQuote) (tableV ps)) nil)) st =
      .ok (tableV (addType s t ps), st) := by
  have u := hE.uses hu (by decide +kernel)
  have hN := (hE.merge (b := [⟨false, n "type", ofSym t⟩, ⟨false, n "key", ofSym s⟩]) (by simp [findlArgs])).merge
    (b := [⟨false, n "acc", tableV ps⟩]) (by simp [findlArgs])
  have hs1 := (hE.merge (b := [⟨false, n "type", ofSym t⟩, ⟨false, n "key", ofSym s⟩]) (by simp [findlArgs])).sorted
  refine ok_call_head (vs := [cons (ofSym sQuote) (tableV ps)]) (as := [S "acc"]) (d := [⟨false, n "type", ofSym t⟩, ⟨false, n "key", ofSym s⟩])
    (xs := [tableV ps]) (ok_call_two (s := n "cps:type:mark") (p1 := n "key") (p2 := n "type") (q := S "acc") (u.at 6 rfl) rfl
      (okSeq_cons (ok_sym (resolves_local gK)) (okSeq_cons (ok_quote (u.at 4 rfl)) okSeq_nil))) rfl rfl rfl
    (okSeq_cons (ok_quote (u.at 4 rfl)) okSeq_nil) (loop_end (ok_prog1.trans ?_) (tail_ofList _))
  have := mark_body (k := ofSym s) (t := ofSym t) (xs := ps.map typesOf) hN.sorted
    ((hN.uses hu (by decide +kernel)).sub (T' := markUses) (fun p hp => by simp [findlUses, hp])) hp.untailed
    (by rw [find_typesFor]; exact not_func_types _) (getEnv_merge_skip hs1 rfl (getEnv_merge_in hE.sorted rfl))
    (getEnv_merge_skip hs1 rfl (getEnv_merge_in hE.sorted rfl)) (getEnv_merge_in hs1 rfl)
  rw [typed_addType] at this
  exact this

/-- A step of the stream that follows a branch. -/
theorem find_step {l E : List Entry} {st : St} (hu : Uses findlUses l st) {s : Sym} {t : Tm} (ht : FindOK l st s t) {ps : Table} (hp : Keys ps)
    (hE : Near findlArgs l E) (gK : getEnv E (n "kvar") = some (ofSym s)) {e : Val} (he : sem (envVal E) e st = .ok (t.val, st)) :
    sem (envVal E) (cons (L [S "cps:type:findl", S "kvar", e]) (cons (cons (ofSym sQuote) (tableV ps)) nil)) st = .ok (tableV (t.types s ps), st) := by
  have u := hE.uses hu (by decide +kernel)
  have hN := (hE.merge (b := [⟨false, n "body", t.val⟩, ⟨false, n "kvar", ofSym s⟩]) (by simp [findlArgs])).merge
    (b := [⟨false, n "alst", tableV ps⟩]) (by simp [findlArgs])
  have hs1 := (hE.merge (b := [⟨false, n "body", t.val⟩, ⟨false, n "kvar", ofSym s⟩]) (by simp [findlArgs])).sorted
  exact ok_call_head (vs := [cons (ofSym sQuote) (tableV ps)]) (as := [S "alst"]) (d := [⟨false, n "body", t.val⟩, ⟨false, n "kvar", ofSym s⟩])
    (xs := [tableV ps]) (ok_call_two (s := n "cps:type:findl") (p1 := n "kvar") (p2 := n "body") (q := S "alst") (u.at 0 rfl) rfl
      (okSeq_cons (ok_sym (resolves_local gK)) (okSeq_cons he okSeq_nil))) rfl rfl rfl
    (okSeq_cons (ok_quote (u.at 4 rfl)) okSeq_nil) (loop_end (ok_prog1.trans (ht ps hp ⟨hN, getEnv_merge_skip hs1 rfl (getEnv_merge_in hE.sorted rfl),
      getEnv_merge_skip hs1 rfl (getEnv_merge_in hE.sorted rfl), getEnv_merge_in hs1 rfl⟩)) (tail_ofList _))

/-- Calls of `cps:type:findl`. -/
theorem findl_call {l E : List Entry} {st : St} (hu : Uses findlUses l st) {s : Sym} {t : Tm} (ht : FindOK l st s t) {ps : Table} (hp : Keys ps)
    (hE : Near findlArgs l E) {ek ew ex : Val} (hargs : evalSeq sem (envVal E) [ek, ew, ex] st = .ok ([ofSym s, t.val, tableV ps], st)) :
    sem (envVal E) (L [S "cps:type:findl", ek, ew, ex]) st = .ok (tableV (t.types s ps), st) := by
  have u := hE.uses hu (by decide +kernel)
  refine ok_call (d := []) (as := [S "kvar", S "body", S "alst"]) (vs := [ek, ew, ex]) (u.at 0 rfl) rfl rfl hargs
    (loop_done (ok_prog1.trans (ht ps hp ⟨hE.merge (b := [⟨false, n "alst", tableV ps⟩, ⟨false, n "body", t.val⟩, ⟨false, n "kvar", ofSym s⟩])
      (by simp [findlArgs]), getEnv_merge_in hE.sorted rfl, getEnv_merge_in hE.sorted rfl, getEnv_merge_in hE.sorted rfl⟩)) (tail_ofList _))

/-- Into the clauses. -/
theorem find_enter {l E : List Entry} {st : St} (hu : Uses findlUses l st) {s : Sym} {w v : Val} {ps : Table} (hE : FindEnv l E s w ps)
    (h : matchV sem (envVal E) w findClauses st = .ok (v, st)) : sem (envVal E) findMatch st = .ok (v, st) := by
  have u := hE.near.uses hu (by decide +kernel)
  refine ok_match (u.at 1 rfl) (a := w) (st1 := st) ?_ h
  refine ok_sym (show Resolves (envVal (⟨false, aANY, _⟩ :: E)) st (n "body") _ from resolves_local ?_)
  rw [getEnv_cons, if_neg (show ¬ aANY = n "body" by decide)]
  exact hE.body

theorem find_leaf {l : List Entry} {st : St} (hu : Uses findlUses l st) {s : Sym} {v : Val} (hv : v.isPair = false) : FindOK l st s (.leaf v) := by
  intro ps hp E hE
  refine find_enter hu hE ?_
  have : sem (envVal E) (S "alst") st = .ok (tableV ps, st) := ok_sym (resolves_local hE.alst)
  change matchV sem (envVal E) v findClauses st = _
  cases v with
  | pair => cases hv
  | _ => exact this

/-- A call takes one of the clauses for lists. -/
theorem match_any {F : List Entry} {st : St} {f : Val} {as : List Val} {v : Val} (ho : ∀ c : Cnd, ∀ b, f ≠ sym b c.name)
    (h : (if atomMatch (L [wild]) (ofList as) then sem (envVal F) argLet else sem (envVal F) nextLet) st = .ok (v, st)) :
    matchV sem (envVal F) (ofList (f :: as)) findClauses st = .ok (v, st) := by
  have no : ∀ (c : Cnd) (r : Val), atomMatch (cons (ofSym c.name) r) (ofList (f :: as)) = false := by
    intro c r
    show (atomMatch (ofSym c.name) f && atomMatch r (ofList as)) = false
    cases hf : atomMatch (ofSym c.name) f with
    | false => rfl
    | true =>
      obtain ⟨b, rfl⟩ := match_head c.name f hf
      exact absurd rfl (ho c b)
  show matchV sem (envVal F) (ofList (f :: as)) (cons (cons (cons (ofSym Cnd.when_.name) _) _) (cons (cons (cons (ofSym Cnd.unless_.name) _) _)
    (cons (cons (cons (ofSym Cnd.if_.name) _) _) (cons (cons (cons (ofSym Cnd.if_.name) _) _) _)))) st = _
  unfold matchV
  rw [no, if_neg (by decide)]
  unfold matchV
  rw [no, if_neg (by decide)]
  unfold matchV
  rw [no, if_neg (by decide)]
  unfold matchV
  rw [no, if_neg (by decide)]
  exact h

/-- A call with one argument. -/
theorem find_arg {l E : List Entry} {st : St} (hu : Uses findlUses l st) {s : Sym} {f x : Val} {ps : Table} (hp : Keys ps)
    (hE : FindEnv l E s (L [f, x]) ps) : sem (envVal E) argLet st = .ok (tableV (addType s (typeIn x ps) ps), st) := by
  have u := hE.near.uses hu (by decide +kernel)
  have hs := hE.near.sorted
  have hG := hE.near.merge (b := [⟨false, n "arg", x⟩, ⟨false, n "op", f⟩]) (by simp [findlArgs])
  have gA : getEnv (mergeEnv E [⟨false, n "arg", x⟩, ⟨false, n "op", f⟩]) (n "arg") = some x := getEnv_merge_in hs rfl
  have gX := getEnv_merge_skip (b := [⟨false, n "arg", x⟩, ⟨false, n "op", f⟩]) hs rfl hE.alst
  have hget := get_ok (ek := S "arg") (ew := S "alst") hG.sorted ((hG.uses hu (by decide +kernel)).sub (T' := getUses)
    (fun p hp => by simp [findlUses, hp])) hp (okSeq_cons (ok_sym (resolves_local gA)) (okSeq_cons (ok_sym (resolves_local gX)) okSeq_nil))
  rw [getType_sym] at hget
  refine ok_let_env (b := [⟨false, n "atype", ofSym (typeIn x ps)⟩, ⟨false, n "arg", x⟩, ⟨false, n "op", f⟩]) (st1 := st) (u.at 2 rfl)
    (okBind_pat (st1 := st) (a := L [f, x]) (ok_sym (resolves_local hE.body)) (okBind_cons (b := [⟨false, n "arg", x⟩, ⟨false, n "op", f⟩]) (st1 := st)
      hget (letMark_of_not_func _ _ _ rfl) okBind_nil)) (ok_prog1.trans ?_)
  have hH := hE.near.merge (b := [⟨false, n "atype", ofSym (typeIn x ps)⟩, ⟨false, n "arg", x⟩, ⟨false, n "op", f⟩]) (by simp [findlArgs])
  have gK := getEnv_merge_skip (b := [⟨false, n "atype", ofSym (typeIn x ps)⟩, ⟨false, n "arg", x⟩, ⟨false, n "op", f⟩]) hs rfl hE.kvar
  have gX := getEnv_merge_skip (b := [⟨false, n "atype", ofSym (typeIn x ps)⟩, ⟨false, n "arg", x⟩, ⟨false, n "op", f⟩]) hs rfl hE.alst
  have gT : getEnv (mergeEnv E [⟨false, n "atype", ofSym (typeIn x ps)⟩, ⟨false, n "arg", x⟩, ⟨false, n "op", f⟩]) (n "atype") =
    some (ofSym (typeIn x ps)) := getEnv_merge_in hs rfl
  generalize mergeEnv E [⟨false, n "atype", ofSym (typeIn x ps)⟩, ⟨false, n "arg", x⟩, ⟨false, n "op", f⟩] = H at hH gK gX gT ⊢
  have u1 := hH.uses hu (by decide +kernel)
  have hN := hH.merge (b := [⟨false, n "acc", tableV ps⟩, ⟨false, n "type", ofSym (typeIn x ps)⟩, ⟨false, n "key", ofSym s⟩]) (by simp [findlArgs])
  refine ok_call (d := []) (as := [S "key", S "type", S "acc"]) (vs := [S "kvar", S "atype", S "alst"]) (xs := [ofSym s, ofSym (typeIn x ps), tableV ps])
    (u1.at 6 rfl) rfl rfl (okSeq_cons (ok_sym (resolves_local gK)) (okSeq_cons (ok_sym (resolves_local gT)) (okSeq_cons (ok_sym (resolves_local gX))
      okSeq_nil))) (loop_done (ok_prog1.trans ?_) (tail_ofList _))
  have := mark_body (k := ofSym s) (t := ofSym (typeIn x ps)) (xs := ps.map typesOf) hN.sorted
    ((hN.uses hu (by decide +kernel)).sub (T' := markUses) (fun p hp => by simp [findlUses, hp])) hp.untailed
    (by rw [find_typesFor]; exact not_func_types _) (getEnv_merge_in hH.sorted rfl) (getEnv_merge_in hH.sorted rfl) (getEnv_merge_in hH.sorted rfl)
  rw [typed_addType] at this
  exact this

/-- A call with more arguments, the last of which has the body B. -/
theorem find_next {l E : List Entry} {st : St} (hu : Uses findlUses l st) {s : Sym} {f z : Val} {as : List Val} (ho : CallOk f (as ++ [z])) {b : Tm}
    (hz : z.cdr.cdr.car = b.val) (hb : FindOK l st s b) {ps : Table} (hp : Keys ps) (hE : FindEnv l E s (ofList (f :: (as ++ [z]))) ps) :
    sem (envVal E) nextLet st = .ok (tableV (b.types s ps), st) := by
  have u := hE.near.uses hu (by decide +kernel)
  have hs := hE.near.sorted
  have hlast : sem (envVal E) (L [S "last", S "body"]) st = .ok (z, st) := by
    have ul := u.sub (T' := last2Uses) (fun p hp => by simp [findlUses, hp])
    exact C50_last_manips_partial (xs := f :: as) hs ul ul (ok_sym (resolves_local hE.body)) ho.2.1 ho.2.2.1
  refine ok_let_env (b := [⟨false, n "next", b.val⟩]) (st1 := st) (u.at 2 rfl) (okBind_pat (b := []) (st1 := st) (a := z) hlast ?_) (ok_prog1.trans ?_)
  · show letBind sem (envVal E) _ (envVal [⟨false, n "next", z.cdr.cdr.car⟩]) st = _
    rw [hz]
    exact okBind_nil
  · have hH := hE.near.merge (b := [⟨false, n "next", b.val⟩]) (by simp [findlArgs])
    exact findl_call hu hb hp hH (okSeq_cons (ok_sym (resolves_local (getEnv_merge_skip hs rfl hE.kvar)))
      (okSeq_cons (ok_sym (resolves_local (getEnv_merge_in hs rfl))) (okSeq_cons (ok_sym (resolves_local (getEnv_merge_skip hs rfl hE.alst))) okSeq_nil)))

theorem findOK {l : List Entry} {st : St} (hu : Uses findlUses l st) {s : Sym} : (t : Tm) → t.Ok → t.Ifs → FindOK l st s t
  | .leaf v, ho, _ => find_leaf hu ho
  | .call f [] x, ho, _ => fun ps hp _ hE => find_enter hu hE (match_any (as := [x]) ho.1.1 (find_arg hu hp hE))
  | .call f (a :: as) x, ho, _ => fun ps hp _ hE => by
    have hz : x.cdr = nil := by
      have := ho.2
      cases x with
      | pair => cases this
      | _ => rfl
    refine find_enter hu hE (match_any (as := a :: as ++ [x]) ho.1.1 ?_)
    rw [if_neg (by cases as <;> simp [atomMatch, ofList, Val.cons, L])]
    exact find_next hu (as := a :: as) ho.1 (b := .leaf nil) (by rw [hz]; rfl) (find_leaf hu rfl) hp hE
  | .cont f [] p b, ho, _ => fun ps hp _ hE => find_enter hu hE (match_any (as := [L [S "\\", L [ofSym p], b.val]]) ho.1.1 (find_arg hu hp hE))
  | .cont f (a :: as) p b, ho, hi => fun ps hp _ hE => by
    have hb := findOK hu (s := s) b ho.2 hi
    refine find_enter hu hE (match_any (as := a :: as ++ [L [S "\\", L [ofSym p], b.val]]) ho.1.1 ?_)
    rw [if_neg (by cases as <;> simp [atomMatch, ofList, Val.cons, L])]
    exact find_next hu (as := a :: as) ho.1 (b := b) rfl hb hp hE
  | .ith c x t, ho, hi => fun ps hp E hE => by
    have ht := findOK hu (s := s) t ho.2.2.2 hi
    have u := hE.near.uses hu (by decide +kernel)
    have hs := hE.near.sorted
    have h : sem (envVal E) thenLet st = .ok (tableV (t.types s (addType s (n "ATOM") ps)), st) := by
      refine ok_let_env (b := [⟨false, n "thn", t.val⟩]) (st1 := st) (u.at 2 rfl)
        (okBind_pat (b := []) (st1 := st) (a := (Tm.ith c x t).val) (ok_sym (resolves_local hE.body)) okBind_nil) (ok_prog1.trans ?_)
      have hH := hE.near.merge (b := [⟨false, n "thn", t.val⟩]) (by simp [findlArgs])
      have gK := getEnv_merge_skip (b := [⟨false, n "thn", t.val⟩]) hs rfl hE.kvar
      have gX := getEnv_merge_skip (b := [⟨false, n "thn", t.val⟩]) hs rfl hE.alst
      have gT : getEnv (mergeEnv E [⟨false, n "thn", t.val⟩]) (n "thn") = some t.val := getEnv_merge_in hs rfl
      generalize mergeEnv E [⟨false, n "thn", t.val⟩] = H at hH gK gX gT ⊢
      have u1 := hH.uses hu (by decide +kernel)
      exact ok_stream (u1.at 3 rfl) (ok_stream_cons (ok_sym (resolves_local gX)) (ok_streamLast (mark_step hu hp hH gK)
        (find_step hu ht (addType_keys hp) hH gK (ok_sym (resolves_local gT)))))
    refine find_enter hu hE ?_
    cases c <;> exact h
  | .ite c x t e, ho, hi => fun ps hp E hE => by
    obtain ⟨rfl, hi1, hi2⟩ := hi
    have ht := findOK hu (s := s) t ho.2.2.2.2.1 hi1
    have he := findOK hu (s := s) e ho.2.2.2.2.2 hi2
    have u := hE.near.uses hu (by decide +kernel)
    have hs := hE.near.sorted
    have h : sem (envVal E) elseLet st = .ok (tableV (e.types s (t.types s ps)), st) := by
      refine ok_let_env (b := [⟨false, n "els", e.val⟩, ⟨false, n "thn", t.val⟩]) (st1 := st) (u.at 2 rfl)
        (okBind_pat (b := []) (st1 := st) (a := (Tm.ite .if_ x t e).val) (ok_sym (resolves_local hE.body)) okBind_nil) (ok_prog1.trans ?_)
      have hH := hE.near.merge (b := [⟨false, n "els", e.val⟩, ⟨false, n "thn", t.val⟩]) (by simp [findlArgs])
      have gK := getEnv_merge_skip (b := [⟨false, n "els", e.val⟩, ⟨false, n "thn", t.val⟩]) hs rfl hE.kvar
      have gX := getEnv_merge_skip (b := [⟨false, n "els", e.val⟩, ⟨false, n "thn", t.val⟩]) hs rfl hE.alst
      have gT : getEnv (mergeEnv E [⟨false, n "els", e.val⟩, ⟨false, n "thn", t.val⟩]) (n "thn") = some t.val := getEnv_merge_in hs rfl
      have gE : getEnv (mergeEnv E [⟨false, n "els", e.val⟩, ⟨false, n "thn", t.val⟩]) (n "els") = some e.val := getEnv_merge_in hs rfl
      generalize mergeEnv E [⟨false, n "els", e.val⟩, ⟨false, n "thn", t.val⟩] = H at hH gK gX gT gE ⊢
      have u1 := hH.uses hu (by decide +kernel)
      exact ok_stream (u1.at 3 rfl) (ok_stream_cons (ok_sym (resolves_local gX)) (ok_streamLast (find_step hu ht hp hH gK (ok_sym (resolves_local gT)))
        (find_step hu he (t.types_keys ps hp) hH gK (ok_sym (resolves_local gE)))))
    refine find_enter hu hE ?_
    exact h

/-- **C93.** `(cps:type:findl K F L)` for a term F in continuation-passing style and a table L of types: to the entry of K are added, in order, the
types of what F gives to K (ATOM where a branch is missing), as long as F does not give K itself; no other key is affected. -/
theorem C93_findl {l : List Entry} {st : St} (hl : Sorted l) (hu : Uses findlUses l st) {t : Tm} (ho : t.Ok) (hi : t.Ifs) {s : Sym} {ps : Table}
    (hp : Keys ps) {ek ef ex : Val} (hargs : evalSeq sem (envVal l) [ek, ef, ex] st = .ok ([ofSym s, t.val, tableV ps], st)) :
    ∃ qs : Table, sem (envVal l) (L [S "cps:type:findl", ek, ef, ex]) st = .ok (tableV qs, st) ∧ Keys qs ∧
      (∀ j, equ (ofSym s) j = false → typesFor j qs = typesFor j ps) ∧
      ((∀ v, some v ∈ t.gives → equ (ofSym s) v = false) →
        ∃ rs, typesFor (ofSym s) qs = rs.reverse ++ typesFor (ofSym s) ps ∧ Givens ps t.gives rs) :=
  ⟨t.types s ps, findl_call hu (findOK hu t ho hi) hp (Near.refl hl) hargs, t.types_keys ps hp, fun _ hj => t.types_other hj ps, t.types_own ps⟩

/-- **C93.** The expression after the tilde in `cps:type:findl` has the clauses of the file as its value. -/
theorem C93_clauses {l : List Entry} {st : St} (hl : Sorted l) (hu : Uses ([(n "\\", Native.lambda.val), (n "cons", Native.cons.val),
    (n "list", Native.list.val), (n "quote", Native.quote.val)] ++ foldlUses) l st) : sem (envVal l) findTilde st = .ok (findTildeV, st) := by
  have uf : Uses foldlUses l st := hu.sub (fun p hp => by simp [hp])
  have hq : Resolves (envVal l) st (n "quote") Native.quote.val := hu.at 3 rfl
  refine (C49_foldl (I := fun s => s = st) (st1 := st) (a := nil) (w := L [S "if", S "unless", S "when"])
    (F := cons (L [S "acc", S "e"]) (cons (envVal l) findTildeBody))
    (g := fun acc e => pure (cons (cons (L [e, wild, wild]) thenLet) acc))
    hl (fun s h => by rw [h]; exact uf) ?_ uf rfl
    (okSeq_cons (ok_lambda (hu.at 0 rfl)) (okSeq_cons ok_nil (okSeq_cons (ok_quote hq) okSeq_nil))) rfl rfl).1
  refine acts2_lisp (p := S "acc") (q := S "e") rfl fun m x y st0 v st' hm h0 hg => ?_
  cases h0
  cases hg
  refine ⟨ok_prog1.trans ?_, rfl, rfl⟩
  have hN := (((Near.refl (ps := n "e" :: foldArgs) hl).trans (hm.mono (by simp [foldArgs]))).capture (Near.refl hl)).merge
      (b := [⟨false, n "e", y⟩, ⟨false, n "acc", x⟩]) (by simp [foldArgs])
  have hsm := sorted_mergeEnv l hm.sorted
  have gX : getEnv (mergeEnv (mergeEnv m l) [⟨false, n "e", y⟩, ⟨false, n "acc", x⟩]) (n "e") = some y := getEnv_merge_in hsm rfl
  have gA : getEnv (mergeEnv (mergeEnv m l) [⟨false, n "e", y⟩, ⟨false, n "acc", x⟩]) (n "acc") = some x := getEnv_merge_in hsm rfl
  change sem (envVal (mergeEnv (mergeEnv m l) [⟨false, n "e", y⟩, ⟨false, n "acc", x⟩])) _ st = _
  generalize mergeEnv (mergeEnv m l) [⟨false, n "e", y⟩, ⟨false, n "acc", x⟩] = G at hN gX gA ⊢
  have u2 := hN.uses hu (by decide +kernel)
  have hc : Resolves (envVal G) st (n "cons") Native.cons.val := u2.at 1 rfl
  exact ok_two (op := .cons) hc (ok_two (op := .cons) hc (ok_list (u2.at 2 rfl) (ok_list_cons (ok_list_cons (ok_list_cons rfl
    ok_wild) ok_wild) (ok_sym (resolves_local gX)))) (ok_quote (u2.at 3 rfl)) rfl rfl) (ok_sym (resolves_local gA)) rfl rfl

/-! ## Examples -/

/-- The library with the function. -/
def findlSt : St := define "cps:type:findl" findlV (define "last" last2V typesSt)

/-- `(if n (k 1) (+ n 1 (\\ (p) (k p))))`. -/
def findTm : Tm := .ite .if_ (S "n") (.call (S "k") [] (N 1)) (.cont (S "+") [S "n", N 1] (n "p") (.call (S "k") [] (S "p")))

/-- It is a term that the theorem is about. -/
example : findTm.Ok ∧ findTm.Ifs ∧ findTm.gives = [some (N 1), some (S "p")] ∧ Keys [(S "p", [n "NUMBER"])] ∧
    (∀ v, some v ∈ findTm.gives → equ (ofSym (n "k")) v = false) ∧ Sorted [] ∧ Uses findlUses [] findlSt ∧
    ((evalN 60 nil (L [S "cps:type:findl", Q (S "k"), Q findTm.val, Q (tableV [(S "p", [n "NUMBER"])])]) findlSt >>= fun p => .ok p.1) : Res Val) =
      .ok (tableV [(S "k", [n "NUMBER", n "NUMBER"]), (S "p", [n "NUMBER"])]) := by
  refine ⟨?_, ⟨rfl, trivial, trivial⟩, rfl, ?_, ?_, List.Pairwise.nil, ?_, by decide +kernel⟩
  · exact ⟨rfl, rfl, rfl, by decide +kernel, ⟨callOk_sym (by decide) (by decide +kernel) (by decide +kernel), rfl⟩,
      callOk_sym (by decide) (by decide +kernel) (by decide +kernel), callOk_sym (by decide) (by decide +kernel) (by decide +kernel), rfl⟩
  · intro p hp
    rw [List.mem_singleton.1 hp]
    rfl
  · intro v hv
    simp only [findTm, Tm.gives, List.cons_append, List.nil_append, List.mem_cons, Option.some.injEq, List.not_mem_nil, or_false] at hv
    rcases hv with rfl | rfl <;> decide +kernel
  · unfold Uses; decide +kernel

end Lib
end Mnml
