import Verif.PropTest
import Verif.PropOut

/-!
# The parser of flags of `share/mnml/args.l` (C80)
-/

namespace Mnml
namespace Lib

open Val Print

/-! ## Lists of strings are not changed by `let` -/

/-- Values without a symbol in front have no calls to mark. -/
theorem markTails_plain {f : Sym} {args : Val} : ∀ {x : Val}, x.car.isSym = false → markTails f args x = x
  | pair t (sym s a) d, h => by simp [car, isSym] at h
  | pair t nil d, _ => rfl
  | pair t tru d, _ => rfl
  | pair t wild d, _ => rfl
  | pair t (chr _) d, _ => rfl
  | pair t (num _) d, _ => rfl
  | pair t (pair ..) d, _ => rfl
  | nil, _ => rfl
  | tru, _ => rfl
  | wild, _ => rfl
  | chr _, _ => rfl
  | num _, _ => rfl
  | sym _ _, _ => rfl

theorem markLast_plain {f : Sym} {args : Val} : ∀ {xs : List Val}, (∀ x ∈ xs, x.car.isSym = false) → markLast f args (ofList xs) = ofList xs
  | [], _ => rfl
  | [x], h => by
    show pair false (markTails f args x) nil = _
    rw [markTails_plain (h x (by simp))]
    rfl
  | x :: y :: xs, h => by
    show pair false x (markLast f args (ofList (y :: xs))) = _
    rw [markLast_plain fun z hz => h z (List.mem_cons_of_mem _ hz)]
    rfl

/-- A list of values without a symbol in front keeps its value in a `let`, even if it has the form of a function. -/
theorem letMark_plain {l : List Entry} {f : Bool} {s : Sym} {xs : List Val} (h : ∀ x ∈ xs, x.car.isSym = false) :
    letMark (envVal l) (sym f s) (ofList xs) = .ok (ofList xs) := by
  match xs with
  | [] => rfl
  | [x] => exact letMark_of_not_func _ _ _ rfl
  | [x, y] => exact letMark_of_not_func _ _ _ (by simp [ofList, isFunc, isPair, isNum])
  | x :: y :: z :: xs =>
    show letMark (envVal l) (sym f s) (pair false x (pair false y (ofList (z :: xs)))) = _
    have hm : markBody s x (ofList (z :: xs)) = .ok (ofList (z :: xs)) := by
      show Res.ok (markLast s x (ofList (z :: xs))) = _
      rw [markLast_plain fun w hw => h w (List.mem_cons_of_mem _ (List.mem_cons_of_mem _ hw))]
    simp only [letMark, assq_envVal]
    split
    · show ((Res.ok (getEnv _ _) : Res _) >>= _) = _
      rw [Res.ok_bind]
      cases getEnv l s with
      | some w => rfl
      | none =>
        show (markBody s x (ofList (z :: xs)) >>= _) = _
        rw [hm]
        rfl
    · rfl

/-! ## `args:parse_r` -/

/-- The definitions that `args:parse_r` relies on. -/
def parseUses : List (Sym × Val) :=
  [(n "args:parse_r", argsParseRV), (n "let", Native.let_.val), (n "eval", Native.eval.val), (n "len", Native.len.val),
   (n "car", Native.car.val), (n "if", Native.if_.val), (n "nil?", Native.isnil.val), (n ">", Native.gt.val),
   (n "prog", Native.prog.val), (n "prinl", Native.prinl.val), (n "cons", Native.cons.val), (sQuote, Native.quote.val),
   (n "args:parse", argsParseV), (n "cdr", Native.cdr.val)] ++
    assocUses ++ skipUses ++ trunclUses

/-- The names bound by `args:parse_r`. -/
def parseArgs : List Sym := [n "SCHEMA", n "LST", n "RES", n "hd", n "tl", n "fun", n "sze", n "nxt"]

/-- What is said of a flag. -/
structure Flag where
  /-- The number of values that follow the flag. -/
  arity : Nat
  /-- What its handler does with the values. -/
  act : List Val → St → St

/-- The entry of a flag in the schema evaluates to a function with as many parameters as the flag has values; applied to values of the command
line, it has the effect `g.act` and keeps the invariant. -/
def Handler (l : List Entry) (I : St → Prop) (schema : List Val) (W : Val → Prop) (f : Val) (g : Flag) : Prop :=
  IsI64 g.arity ∧ ∀ E st, Near parseArgs l E → I st → ∃ F ps, sem (envVal E) (find f schema) st = .ok (F, st) ∧
    letMark (envVal E) (S "fun") F = .ok F ∧ F.isNil = false ∧ F.car = ofList ps ∧ ps.length = g.arity ∧
    ∀ E' xs, Near parseArgs l E' → (∀ x ∈ xs, W x) → xs.length = g.arity →
      I (g.act xs st) ∧ ∃ v, sem (envVal E') (cons (cons (ofSym sQuote) F) (ofList xs)) st = .ok (v, g.act xs st)

/-- The result and the state after parsing the words `ws`: the flags found, the last one first, after `rs`; each handler is applied to the values
that follow its flag. The first unknown flag, or one with too few values, ends the parsing with a message and NIL. -/
def parse (H : Val → Option Flag) : List Val → List Val → St → Val × St
  | [], rs, st => (ofList rs, st)
  | f :: tl, rs, st =>
    match H f with
    | none => (nil, say (bytes "Unknown flag: " ++ plain f ++ [10]) st)
    | some g =>
      if tl.length < g.arity then (nil, say (bytes "Not enough values for flag: " ++ plain f ++ [10]) st)
      else parse H (tl.drop g.arity) (f :: rs) (g.act (tl.take g.arity) st)
  termination_by ws => ws.length
  decreasing_by simp; omega

/-- The words of a command line: strings. -/
def Word (w : Val) : Prop := w.InRange ∧ nilElement w = false ∧ w.car.isSym = false

theorem parse_tail (H : Val → Option Flag) (ws rs : List Val) (st : St) : (parse H ws rs st).1.isTailCall = false := by
  induction ws, rs, st using parse.induct H with
  | case1 rs st => unfold parse; exact tail_ofList _
  | case2 f tl rs st h => unfold parse; rw [h]; rfl
  | case3 f tl rs st g h hk => unfold parse; rw [h]; simp only [hk, if_true]; rfl
  | case4 f tl rs st g h hk ih => unfold parse; rw [h]; simp only [hk, if_false]; exact ih

theorem prog_call {E : List Entry} {st st' : St} {r v : Val} (h : Resolves (envVal E) st (n "prog") Native.prog.val)
    (hr : progV sem (envVal E) r nil st = .ok (v, st')) : sem (envVal E) (cons (S "prog") r) st = .ok (v, st') := by
  show sem (envVal E) (pair false (sym false (n "prog")) r) st = _
  rw [sem_any _ h rfl]
  exact hr

/-- A message with a flag. -/
theorem complain {E : List Entry} {st : St} {f : Val} {m : String} (hp : Resolves (envVal E) st (n "prog") Native.prog.val)
    (hl : Resolves (envVal E) st (n "prinl") Native.prinl.val) (hf : getEnv E (n "hd") = some f) (hw : Word f)
    (hm : Print.prin (str m) false = .ok (bytes m)) :
    sem (envVal E) (L [S "prog", L [S "prinl", str m, S "hd"], nil]) st = .ok (nil, say (bytes m ++ plain f ++ [10]) st) := by
  refine prog_call hp (ok_prog_cons (v := f) ((ok_prinl hl (ok_prinAll_cons (ok_str _) hm (ok_prinAll_cons (ok_sym (resolves_local hf))
    (C35_concat_partial f hw.1 hw.2.1) rfl))).trans ?_) (ok_prog_last ok_nil))
  simp only [say_say, Bool.false_and, Bool.false_eq_true, if_false, List.append_nil, List.append_assoc]

/-- Comparison of the number of values. -/
theorem gt_num (a b : Int) : binary .gt (num a) (num b) = .ok (ofBool (decide (a > b))) := by
  simp [binary, compareV, number]

/-- The bindings of one round. -/
def parseVars (f F : Val) (k : Nat) (tl : List Val) : List Entry :=
  [⟨false, n "nxt", ofList (tl.drop k)⟩, ⟨false, n "sze", num k⟩, ⟨false, n "fun", F⟩, ⟨false, n "tl", ofList tl⟩, ⟨false, n "hd", f⟩]

/-- The part of a round after the bindings. -/
def parseRest : Val :=
  L [S "if", L [S "nil?", S "fun"], L [S "prog", L [S "prinl", str "Unknown flag: ", S "hd"],
    nil], L [S "if", L [S ">", S "sze", L [S "len", S "tl"]], L [S "prog", L [S "prinl",
    str "Not enough values for flag: ", S "hd"], nil], L [S "prog", L [S "eval", L [S "cons", L [S "cons",
    Q (S "quote"), S "fun"], L [S "truncl", S "sze", S "tl"]]], L [S "args:parse_r", S "SCHEMA", S "nxt",
    L [S "cons", S "hd", S "RES"]]]]]

theorem len_value {l : List Entry} {st : St} {e : Val} {xs : List Val} (h : Resolves (envVal l) st (n "len") Native.len.val)
    (he : sem (envVal l) e st = .ok (ofList xs, st)) : sem (envVal l) (L [S "len", e]) st = .ok (num xs.length, st) := by
  refine ok_one (op := .len) (a := ofList xs) h he rfl (by decide) ?_
  have : (ofList xs).isList = true := by cases xs <;> rfl
  simp [unary, this, len_ofList]

/-- A round with at least one word. -/
theorem parse_round {l m : List Entry} {schema : List Val} {f v : Val} {tl rs : List Val} {st st' : St} (hm : Near parseArgs l m)
    (h : Uses parseUses l st) (hs : Untailed schema) (hw : ∀ w ∈ tl, w.car.isSym = false) (hv : v.isTailCall = false)
    (hr : ∀ E E1, Near parseArgs l E → Near parseArgs l E1 → getEnv E (n "RES") = some (ofList rs) →
      getEnv E (n "SCHEMA") = some (ofList schema) → ∃ F ps, sem (envVal E1) (find f schema) st = .ok (F, st) ∧
        letMark (envVal E1) (S "fun") F = .ok F ∧ IsI64 ps.length ∧ F.car = ofList ps ∧
        sem (envVal (mergeEnv E (parseVars f F ps.length tl))) parseRest st = .ok (v, st')) :
    loopSem (S "args:parse_r") argsParseRV.cdr.cdr (envVal m)
        (envVal [⟨false, n "RES", ofList rs⟩, ⟨false, n "LST", ofList (f :: tl)⟩, ⟨false, n "SCHEMA", ofList schema⟩]) st =
      .ok (v, st') := by
  have hm0 := hm.sorted
  refine loop_end (ok_prog1.trans ?_) hv
  have hn : Near parseArgs l (mergeEnv m [⟨false, n "RES", ofList rs⟩, ⟨false, n "LST", ofList (f :: tl)⟩, ⟨false, n "SCHEMA", ofList schema⟩]) :=
    hm.merge (by simp [parseArgs])
  have hR : getEnv (mergeEnv m [⟨false, n "RES", ofList rs⟩, ⟨false, n "LST", ofList (f :: tl)⟩, ⟨false, n "SCHEMA", ofList schema⟩]) (n "RES") =
    some (ofList rs) := getEnv_merge_in hm0 rfl
  have hL : getEnv (mergeEnv m [⟨false, n "RES", ofList rs⟩, ⟨false, n "LST", ofList (f :: tl)⟩, ⟨false, n "SCHEMA", ofList schema⟩]) (n "LST") =
    some (ofList (f :: tl)) := getEnv_merge_in hm0 rfl
  have hS : getEnv (mergeEnv m [⟨false, n "RES", ofList rs⟩, ⟨false, n "LST", ofList (f :: tl)⟩, ⟨false, n "SCHEMA", ofList schema⟩]) (n "SCHEMA") =
    some (ofList schema) := getEnv_merge_in hm0 rfl
  change sem (envVal (mergeEnv m [⟨false, n "RES", ofList rs⟩, ⟨false, n "LST", ofList (f :: tl)⟩, ⟨false, n "SCHEMA", ofList schema⟩])) _ st = _
  generalize mergeEnv m [⟨false, n "RES", ofList rs⟩, ⟨false, n "LST", ofList (f :: tl)⟩, ⟨false, n "SCHEMA", ofList schema⟩] = E at hn hR hL hS ⊢
  have hE := hn.sorted
  have u := hn.uses h (by decide)
  refine ok_if_else (st1 := st) (u.at 5 rfl) (ok_one (op := .isnil) (a := ofList (f :: tl)) (u.at 6 rfl) (ok_sym (resolves_local hL)) rfl (by decide) rfl) ?_
  have hn1 : Near parseArgs l (mergeEnv E [⟨false, n "tl", ofList tl⟩, ⟨false, n "hd", f⟩]) := hn.merge (by simp [parseArgs])
  obtain ⟨F, ps, hF, hFm, hk, hc, hr⟩ := hr E _ hn hn1 hR hS
  have hn2 : Near parseArgs l (mergeEnv E [⟨false, n "fun", F⟩, ⟨false, n "tl", ofList tl⟩, ⟨false, n "hd", f⟩]) := hn.merge (by simp [parseArgs])
  have hn3 : Near parseArgs l (mergeEnv E [⟨false, n "sze", num ps.length⟩, ⟨false, n "fun", F⟩, ⟨false, n "tl", ofList tl⟩, ⟨false, n "hd", f⟩]) :=
    hn.merge (by simp [parseArgs])
  have u1 := hn1.uses h (by decide)
  have u2 := hn2.uses h (by decide)
  have u3 := hn3.uses h (by decide)
  have u1' := u1.sub (T' := assocUses) (fun p hp => by simp [parseUses, hp])
  have u3' := u3.sub (T' := skipUses) (fun p hp => by simp [parseUses, hp])
  refine ok_let_env (b := parseVars f F ps.length tl) (st1 := st) (u.at 1 rfl) (okBind_pair (a := ofList (f :: tl)) (st1 := st) (ok_sym (resolves_local hL))
    (okBind_cons (a := F) (a' := F) (st1 := st) ?_ ?_ (okBind_cons (a := num ps.length) (st1 := st) ?_ (letMark_of_not_func _ _ _ rfl)
      (okBind_cons (a := ofList (tl.drop ps.length)) (st1 := st) ?_ (letMark_plain fun x hx => hw x (List.mem_of_mem_drop hx)) okBind_nil))))
    (ok_prog1.trans hr)
  · refine ok_eval (u1.at 2 rfl) (C51_assoc hn1.sorted u1' u1' hs (okSeq_cons (ok_sym (resolves_local (getEnv_merge_in hE rfl)))
      (okSeq_cons (ok_sym (resolves_local (getEnv_merge_skip hE rfl hS))) okSeq_nil))) hF
  · exact hFm
  · exact len_value (u2.at 3 rfl) (ok_one (op := .car) (a := F) (u2.at 4 rfl) (ok_sym (resolves_local (getEnv_merge_in hE rfl))) rfl (by decide)
      (by show Res.ok F.car = _; rw [hc]))
  · exact C78_skip hn3.sorted u3' u3' hk (okSeq_cons (ok_sym (resolves_local (getEnv_merge_in hE rfl)))
      (okSeq_cons (ok_sym (resolves_local (getEnv_merge_in hE rfl))) okSeq_nil))

theorem parse_loop {l : List Entry} {schema : List Val} {H : Val → Option Flag} {W : Val → Prop} {I : St → Prop}
    (hU : ∀ st, I st → Uses parseUses l st) (hs : Untailed schema) (ws rs : List Val) (st : St) (hI : I st) (hi : ∀ w ∈ ws, Word w ∧ W w)
    (hH : ∀ w ∈ ws, match H w with | none => find w schema = nil | some g => Handler l I schema W w g) :
    ∀ m, Near parseArgs l m →
    loopSem (S "args:parse_r") argsParseRV.cdr.cdr (envVal m)
        (envVal [⟨false, n "RES", ofList rs⟩, ⟨false, n "LST", ofList ws⟩, ⟨false, n "SCHEMA", ofList schema⟩]) st =
      .ok (parse H ws rs st) := by
  induction ws, rs, st using parse.induct H with
  | case1 rs st =>
    intro m hm
    have e : parse H [] rs st = (ofList rs, st) := by unfold parse; rfl
    rw [e]
    refine loop_end (ok_prog1.trans ?_) (tail_ofList _)
    have hn : Near parseArgs l (mergeEnv m [⟨false, n "RES", ofList rs⟩, ⟨false, n "LST", ofList []⟩, ⟨false, n "SCHEMA", ofList schema⟩]) :=
      hm.merge (by simp [parseArgs])
    have u := hn.uses (hU st hI) (by decide)
    exact ok_if_then (a := tru) (st1 := st) (u.at 5 rfl) (ok_one (op := .isnil) (a := nil) (u.at 6 rfl)
      (ok_sym (resolves_local (getEnv_merge_in hm.sorted rfl))) rfl (by decide) rfl) rfl
      (ok_sym (resolves_local (getEnv_merge_in hm.sorted rfl)))
  | case2 f tl rs st h =>
    intro m hm
    have e : parse H (f :: tl) rs st = (nil, say (bytes "Unknown flag: " ++ plain f ++ [10]) st) := by unfold parse; rw [h]
    have hf := hH f (by simp)
    rw [h] at hf
    have hf : find f schema = nil := hf
    rw [e]
    refine parse_round hm (hU st hI) hs (fun w hw => (hi w (List.mem_cons_of_mem _ hw)).1.2.2) rfl fun E E1 hE hE1 hR hS => ?_
    refine ⟨nil, [], by rw [hf]; exact ok_nil, letMark_of_not_func _ _ _ rfl, by show inI64 0 = true; decide, rfl, ?_⟩
    have hn : Near parseArgs l (mergeEnv E (parseVars f nil ([] : List Val).length tl)) := hE.merge (by simp [parseArgs, parseVars])
    have u := hn.uses (hU st hI) (by decide)
    refine ok_if_then (a := tru) (st1 := st) (u.at 5 rfl) (ok_one (op := .isnil) (a := nil) (u.at 6 rfl)
      (ok_sym (resolves_local (getEnv_merge_in hE.sorted rfl))) rfl (by decide) rfl) rfl ?_
    exact complain (u.at 8 rfl) (u.at 9 rfl) (getEnv_merge_in hE.sorted rfl) (hi f (by simp)).1 (by decide +kernel)
  | case3 f tl rs st g h hk =>
    intro m hm
    have e : parse H (f :: tl) rs st = (nil, say (bytes "Not enough values for flag: " ++ plain f ++ [10]) st) := by
      unfold parse; rw [h]; simp only [hk, if_true]
    have hf := hH f (by simp)
    rw [h] at hf
    have hf : Handler l I schema W f g := hf
    rw [e]
    refine parse_round hm (hU st hI) hs (fun w hw => (hi w (List.mem_cons_of_mem _ hw)).1.2.2) rfl fun E E1 hE hE1 hR hS => ?_
    obtain ⟨F, ps, h1, h2, h3, h4, h5, h6⟩ := hf.2 E1 st hE1 hI
    refine ⟨F, ps, h1, h2, h5 ▸ hf.1, h4, ?_⟩
    have hn : Near parseArgs l (mergeEnv E (parseVars f F ps.length tl)) := hE.merge (by simp [parseArgs, parseVars])
    have u := hn.uses (hU st hI) (by decide)
    refine ok_if_else (st1 := st) (u.at 5 rfl) (ok_one (op := .isnil) (a := F) (u.at 6 rfl)
      (ok_sym (resolves_local (getEnv_merge_in hE.sorted rfl))) rfl (by decide) (by show Res.ok (ofBool F.isNil) = _; rw [h3]; rfl)) ?_
    refine ok_if_then (a := tru) (st1 := st) (u.at 5 rfl) (ok_two (op := .gt) (a := num ps.length) (b := num tl.length) (u.at 7 rfl)
      (ok_sym (resolves_local (getEnv_merge_in hE.sorted rfl))) (len_value (u.at 3 rfl) (ok_sym (resolves_local (getEnv_merge_in hE.sorted rfl))))
      rfl ?_) rfl ?_
    · rw [gt_num, h5, decide_eq_true (by omega)]; rfl
    · exact complain (u.at 8 rfl) (u.at 9 rfl) (getEnv_merge_in hE.sorted rfl) (hi f (by simp)).1 (by decide +kernel)
  | case4 f tl rs st g h hk ih =>
    intro m hm
    have e : parse H (f :: tl) rs st = parse H (tl.drop g.arity) (f :: rs) (g.act (tl.take g.arity) st) := by
      rw [parse, h]; simp only [hk, if_false]
    have hf := hH f (by simp)
    rw [h] at hf
    have hf : Handler l I schema W f g := hf
    have hsub : ∀ w ∈ tl.drop g.arity, w ∈ f :: tl := fun w hw => List.mem_cons_of_mem _ (List.mem_of_mem_drop hw)
    have hlen : (tl.take g.arity).length = g.arity := by rw [List.length_take]; omega
    have hW : ∀ w ∈ tl.take g.arity, W w := fun w hw => (hi w (List.mem_cons_of_mem _ (List.mem_of_mem_take hw))).2
    rw [e]
    refine parse_round hm (hU st hI) hs (fun w hw => (hi w (List.mem_cons_of_mem _ hw)).1.2.2) (parse_tail H _ _ _) fun E E1 hE hE1 hR hS => ?_
    obtain ⟨F, ps, h1, h2, h3, h4, h5, h6⟩ := hf.2 E1 st hE1 hI
    refine ⟨F, ps, h1, h2, h5 ▸ hf.1, h4, ?_⟩
    have hn : Near parseArgs l (mergeEnv E (parseVars f F ps.length tl)) := hE.merge (by simp [parseArgs, parseVars])
    have hR' := getEnv_merge_skip (b := parseVars f F ps.length tl) hE.sorted rfl hR
    have hS' := getEnv_merge_skip (b := parseVars f F ps.length tl) hE.sorted rfl hS
    obtain ⟨hI2, v, hcall⟩ := h6 _ (tl.take g.arity) hn hW hlen
    have gF : getEnv (mergeEnv E (parseVars f F ps.length tl)) (n "fun") = some F := getEnv_merge_in hE.sorted rfl
    have gK : getEnv (mergeEnv E (parseVars f F ps.length tl)) (n "sze") = some (num ps.length) := getEnv_merge_in hE.sorted rfl
    have gT : getEnv (mergeEnv E (parseVars f F ps.length tl)) (n "tl") = some (ofList tl) := getEnv_merge_in hE.sorted rfl
    have gH : getEnv (mergeEnv E (parseVars f F ps.length tl)) (n "hd") = some f := getEnv_merge_in hE.sorted rfl
    have gN : getEnv (mergeEnv E (parseVars f F ps.length tl)) (n "nxt") = some (ofList (tl.drop ps.length)) := getEnv_merge_in hE.sorted rfl
    generalize mergeEnv E (parseVars f F ps.length tl) = X at hn hR' hS' hcall gF gK gT gH gN ⊢
    have u := hn.uses (hU st hI) (by decide)
    have u2 := hn.uses (hU _ hI2) (by decide)
    have ut := u.sub (T' := trunclUses) (fun p hp => by simp [parseUses, hp])
    rw [h5] at gK gN
    refine ok_if_else (st1 := st) (u.at 5 rfl) (ok_one (op := .isnil) (a := F) (u.at 6 rfl)
      (ok_sym (resolves_local gF)) rfl (by decide) (by show Res.ok (ofBool F.isNil) = _; rw [h3]; rfl)) ?_
    refine ok_if_else (st1 := st) (u.at 5 rfl) (ok_two (op := .gt) (a := num g.arity) (b := num tl.length) (u.at 7 rfl)
      (ok_sym (resolves_local gK)) (len_value (u.at 3 rfl) (ok_sym (resolves_local gT))) rfl
      (by rw [gt_num, decide_eq_false (by omega)]; rfl)) ?_
    refine prog_call (u.at 8 rfl) (ok_prog_cons (v := v) (st1 := g.act (tl.take g.arity) st) ?_ (ok_prog_last ?_))
    · exact ok_eval (u.at 2 rfl) (ok_two (op := .cons) (u.at 10 rfl) (ok_two (op := .cons) (u.at 10 rfl) (ok_quote (u.at 11 rfl))
        (ok_sym (resolves_local gF)) rfl rfl) (C50_truncl_take hn.sorted ut ut hf.1 (by omega) (okSeq_cons (ok_sym (resolves_local gK))
          (okSeq_cons (ok_sym (resolves_local gT)) okSeq_nil))) rfl rfl) hcall
    · exact ok_call (d := []) (as := [S "SCHEMA", S "LST", S "RES"]) (vs := [_, _, _]) (u2.at 0 rfl) rfl rfl
        (okSeq_cons (ok_sym (resolves_local hS')) (okSeq_cons (ok_sym (resolves_local gN)) (okSeq_cons
          (ok_two (op := .cons) (u2.at 10 rfl) (ok_sym (resolves_local gH)) (ok_sym (resolves_local hR')) rfl rfl) okSeq_nil)))
        (ih hI2 (fun w hw => hi w (hsub w hw)) (fun w hw => hH w (hsub w hw)) X hn)

/-- **C80.** `(args:parse_r SCHEMA W R)`: the words W are read from left to right as flags with values. The handler of each flag is applied, once, to
exactly the values that follow it, as many as it has parameters, and then the rest is read; the result is the list of the flags, the last one first. The first
flag that is not in the schema or has too few values ends the parsing: it is reported, the result is NIL, and nothing after it is looked at. -/
theorem C80_parse_r {l : List Entry} (hl : Sorted l) {e1 e2 e3 : Val} {schema ws rs : List Val} {st st1 : St} {H : Val → Option Flag}
    {W : Val → Prop} {I : St → Prop} (hU : ∀ st, I st → Uses parseUses l st) (h0 : Uses parseUses l st) (hI : I st1)
    (hs : Untailed schema) (hw : ∀ w ∈ ws, Word w ∧ W w)
    (hH : ∀ w ∈ ws, match H w with | none => find w schema = nil | some g => Handler l I schema W w g)
    (hargs : evalSeq sem (envVal l) [e1, e2, e3] st = .ok ([ofList schema, ofList ws, ofList rs], st1)) :
    sem (envVal l) (L [S "args:parse_r", e1, e2, e3]) st = .ok (parse H ws rs st1) :=
  ok_call (d := []) (as := [S "SCHEMA", S "LST", S "RES"]) (vs := [e1, e2, e3]) (h0.at 0 rfl) rfl rfl hargs
    (parse_loop hU hs ws rs st1 hI hw hH l (Near.refl hl))

/-- **C80.** `(args:parse SCHEMA)` parses the words of the command line after the first one. -/
theorem C80_parse {l : List Entry} (hl : Sorted l) {e p : Val} {schema ws : List Val} {st st1 : St} {H : Val → Option Flag}
    {W : Val → Prop} {I : St → Prop} (hU : ∀ st, I st → Uses parseUses l st) (h0 : Uses parseUses l st) (hI : I st1)
    (hA : Uses [(n "ARGV", ofList (p :: ws))] l st1) (hs : Untailed schema) (hw : ∀ w ∈ ws, Word w ∧ W w)
    (hH : ∀ w ∈ ws, match H w with | none => find w schema = nil | some g => Handler l I schema W w g)
    (he : sem (envVal l) e st = .ok (ofList schema, st1)) :
    sem (envVal l) (L [S "args:parse", e]) st = .ok (parse H ws [] st1) := by
  refine ok_call (d := []) (as := [S "SCHEMA"]) (vs := [e]) (h0.at 12 rfl) rfl rfl (okSeq_cons he okSeq_nil)
    (loop_end (ok_prog1.trans ?_) (parse_tail H _ _ _))
  have hn : Near parseArgs l (mergeEnv l [⟨false, n "SCHEMA", ofList schema⟩]) := (Near.refl hl).merge (by simp [parseArgs])
  have u := hn.uses (hU _ hI) (by decide)
  have ua := hn.uses hA (by simp [parseArgs]; decide)
  exact ok_call (d := []) (as := [S "SCHEMA", S "LST", S "RES"]) (vs := [S "SCHEMA", L [S "cdr", S "ARGV"], nil]) (u.at 0 rfl) rfl rfl
    (okSeq_cons (ok_sym (resolves_local (getEnv_merge_in hl rfl))) (okSeq_cons (ok_one (op := .cdr) (a := ofList (p :: ws)) (u.at 13 rfl)
      (ok_sym (ua.at 0 rfl)) rfl (by decide) rfl) (okSeq_cons ok_nil okSeq_nil)))
    (parse_loop hU hs ws [] st1 hI hw hH _ hn)

/-! ## Handlers written with `\` -/

theorem okSeq_self {c : Val} {st : St} : ∀ {xs : List Val}, (∀ x ∈ xs, ∀ st, sem c x st = .ok (x, st)) → evalSeq sem c xs st = .ok (xs, st)
  | [], _ => okSeq_nil
  | x :: xs, h => okSeq_cons (h x (by simp) st) (okSeq_self fun y hy => h y (List.mem_cons_of_mem _ hy))

/-- An entry `(FLAG . (\ (A1 ... An) BODY))` of the schema is a handler for n values, if its body has the effect `act` in all scopes that differ from
the caller's in the variables of the parser and the parameters only, and does not call a function with the name `fun` that the parser gives to the handler. -/
theorem handler_lambda {l : List Entry} {I : St → Prop} {schema : List Val} {W : Val → Prop} {f body : Val} {as : List Val} {act : List Val → St → St}
    (hf : find f schema = cons (S "\\") (cons (ofList as) body)) (hb : body.isPair = true) (hk : IsI64 as.length)
    (hm : markLast (n "fun") (ofList as) body = body)
    (hI : ∀ st, I st → Uses [(n "\\", Native.lambda.val), (sQuote, Native.quote.val)] l st)
    (hW : ∀ x, W x → ∀ c st, sem c x st = .ok (x, st))
    (hact : ∀ st xs, I st → (∀ x ∈ xs, W x) → xs.length = as.length → I (act xs st) ∧
      ∀ E, Near parseArgs l E → ∃ v, v.isTailCall = false ∧
        progV sem (envVal (mergeEnv E (bindAll as xs []))) body nil st = .ok (v, act xs st)) :
    Handler l I schema W f ⟨as.length, act⟩ := by
  refine ⟨hk, fun E st hE h => ?_⟩
  have u := hE.uses (hI st h) (by decide)
  refine ⟨cons (ofList as) (cons (envVal E) body), as, ?_, ?_, rfl, rfl, rfl, fun E' xs hE' hx hlen => ?_⟩
  · rw [hf]
    exact ok_lambda (u.at 0 rfl)
  · cases hg : getEnv E (n "fun") with
    | none =>
      have ha : (ofList as).isList = true := by cases as <;> rfl
      have := letMark_fun (f := false) (d := E) hg ha hb
      rw [hm] at this
      exact this
    | some w =>
      have ha : (ofList as).isList = true := by cases as <;> rfl
      have hd : (envVal E).isList = true := by cases E <;> rfl
      have hfn : isFunc (cons (ofList as) (cons (envVal E) body)) = true := by
        simp only [isFunc, ha, hd, hb, Bool.true_or, Bool.and_true]
      show letMark (envVal E) (sym false (n "fun")) _ = _
      simp only [letMark]
      rw [if_pos hfn, assq_envVal, hg]
      rfl
  · have u' := hE'.uses (hI st h) (by decide)
    obtain ⟨h1, h2⟩ := hact st xs h hx hlen
    obtain ⟨v, hv, h3⟩ := h2 _ (hE'.capture hE)
    exact ⟨h1, v, ok_call_head (ok_quote (u'.at 1 rfl)) rfl hb hlen (okSeq_self fun x hx' => hW x (hx x hx') _)
      (loop_end h3 hv)⟩

/-! ## The command line of `bin/mnmlc` -/

/-- The schema at `bin/mnmlc:22-27`. -/
def mnmlcOptions : List Val :=
  [cons (str "-c") (L [S "\\", L [S "SRC"], L [S "setq", S "SRC", S "SRC"]]), cons (str "-m") (L [S "\\", L [S "MOD"], L [S "setq", S "MOD", S "MOD"]]),
   cons (str "-o") (L [S "\\", L [S "DST"], L [S "setq", S "DST", S "DST"]]),
   cons (str "-s") (L [S "\\", L [S "SYM"], L [S "setq", S "SYM", L [S "map", S "sym", L [S "split", S "SYM", chr 44]]]]),
   cons (str "-h") (S "usage")]

/-- Set a global variable to a word; the empty word is NIL, and `setq` ignores NIL. -/
def setWord (s : String) (w : Val) (st : St) : St := if w.isNil then st else define s w st

/-- The three flags with a plain value. -/
def mnmlcFlags (w : Val) : Option Flag :=
  if equ (str "-c") w then some ⟨1, fun xs st => setWord "SRC" (xs.headD nil) st⟩
  else if equ (str "-m") w then some ⟨1, fun xs st => setWord "MOD" (xs.headD nil) st⟩
  else if equ (str "-o") w then some ⟨1, fun xs st => setWord "DST" (xs.headD nil) st⟩
  else none

/-- The definitions that the schema relies on. -/
def mnmlcUses : List (Sym × Val) := parseUses ++ [(n "\\", Native.lambda.val), (n "setq", Native.setq.val)]

theorem ok_setq {c e v : Val} {s : Sym} {f t t1 : Bool} {nm : Sym} {st st1 : St} (h : Resolves c st nm Native.setq.val)
    (he : sem c e st = .ok (v, st1)) :
    sem c (pair t (sym f nm) (pair t1 (sym f s) (pair t1 e nil))) st =
      .ok (v, if v.isNil then st1 else { st1 with globals := fun t => if t = s then some v else st1.globals t }) := by
  rw [sem_any _ h rfl]
  show setqV sem c _ st = _
  show (sem c e >>= fun res => if res.isNil then pure res else (do setq (sym f s) res; pure res)) st = _
  rw [M.bind_congr_ok he]
  cases hv : v.isNil <;> rfl

/-- A handler that sets the global variable with the name of its parameter. -/
theorem handler_set {I : St → Prop} {W : Val → Prop} {f : Val} {s : String} (hs : (n s) ≠ n "setq")
    (hf : find f mnmlcOptions = L [S "\\", L [S s], L [S "setq", S s, S s]]) (hm : markLast (n "fun") (L [S s]) (L [L [S "setq", S s, S s]]) = L [L [S "setq", S s, S s]])
    (hI : ∀ st, I st → Uses mnmlcUses [] st) (hd : ∀ st w, I st → I (define s w st)) (hW : ∀ x, W x → ∀ c st, sem c x st = .ok (x, st))
    (hT : ∀ x, W x → x.isTailCall = false) :
    Handler [] I mnmlcOptions W f ⟨1, fun xs st => setWord s (xs.headD nil) st⟩ := by
  refine handler_lambda (as := [S s]) hf rfl (by show inI64 1 = true; decide) hm (fun st h => (hI st h).sub ?_) hW fun st xs h hx hlen => ?_
  · intro p hp
    simp only [List.mem_cons, List.not_mem_nil, or_false] at hp
    rcases hp with rfl | rfl <;> simp [mnmlcUses, parseUses]
  · match xs, hlen with
    | [x], _ =>
      refine ⟨?_, fun E hE => ⟨x, hT x (hx x (by simp)), ok_prog1.trans ?_⟩⟩
      · show I (setWord s x st)
        unfold setWord
        split
        · exact h
        · exact hd _ _ h
      · have u := hE.uses ((hI st h).sub (T' := [(n "setq", Native.setq.val)]) (by simp [mnmlcUses])) (by decide)
        have hq : Resolves (envVal (mergeEnv E [⟨false, n s, x⟩])) st (n "setq") Native.setq.val :=
          (u.merge hE.sorted (by simpa using fun h => hs h.symm)).at 0 rfl
        exact ok_setq hq (ok_sym (resolves_local (getEnv_merge_in hE.sorted
          (by show getEnv [⟨false, n s, x⟩] (n s) = some x; simp [getEnv]))))

/-- A string of the command line. -/
def IsStr (w : Val) : Prop := ∃ cs : List Int, w = ofList (cs.map chr) ∧ ∀ c ∈ cs, -128 ≤ c ∧ c < 128

theorem IsStr.word {w : Val} (h : IsStr w) : Word w := by
  obtain ⟨cs, rfl, hc⟩ := h
  refine ⟨?_, ?_, by cases cs <;> rfl⟩
  · induction cs with
    | nil => trivial
    | cons c cs ih => exact ⟨⟨(hc c (by simp)).1, by have := (hc c (by simp)).2; omega⟩, ih fun d hd => hc d (List.mem_cons_of_mem _ hd)⟩
  · induction cs with
    | nil => rfl
    | cons c cs ih => exact ih fun d hd => hc d (List.mem_cons_of_mem _ hd)

theorem IsStr.self {w c : Val} {st : St} (h : IsStr w) : sem c w st = .ok (w, st) := by
  obtain ⟨cs, rfl, hc⟩ := h
  cases cs with
  | nil => exact ok_nil
  | cons c cs => exact ok_string

theorem IsStr.tail {w : Val} (h : IsStr w) : w.isTailCall = false := by
  obtain ⟨cs, rfl, hc⟩ := h
  exact tail_ofList _

/-- **C80.** The command line of the compiler, without the flags `-s` and `-h`: `-c`, `-m` and `-o` take one word each and set SRC, MOD and DST. -/
theorem C80_mnmlc {p : Val} {ws : List Val} {st : St} (h : Uses mnmlcUses [] st)
    (hA : Uses [(n "ARGV", ofList (p :: ws)), (n "options", ofList mnmlcOptions)] [] st)
    (hw : ∀ w ∈ ws, IsStr w ∧ equ (str "-s") w = false ∧ equ (str "-h") w = false) :
    sem nil (L [S "args:parse", S "options"]) st = .ok (parse mnmlcFlags ws [] st) := by
  have hd : ∀ s ∈ ["SRC", "MOD", "DST"], ∀ (st : St) (w : Val), Uses mnmlcUses [] st → Uses mnmlcUses [] (define s w st) := by
    intro s hs st w h
    refine uses_define h ?_
    revert s
    decide +kernel
  refine C80_parse (l := []) List.Pairwise.nil (I := fun st => Uses mnmlcUses [] st) (W := IsStr)
    (fun st h => h.sub fun q hq => by simp [mnmlcUses, hq]) (h.sub fun q hq => by simp [mnmlcUses, hq]) h
    (hA.sub fun q hq => List.mem_cons.2 (.inl (List.mem_singleton.1 hq)))
    (by unfold Untailed; decide +kernel) (fun w hm => ⟨(hw w hm).1.word, (hw w hm).1⟩) ?_ (ok_sym (hA.at 1 rfl))
  intro w hm
  obtain ⟨_, h4, h5⟩ := hw w hm
  have go : ∀ (s : String), s ∈ ["SRC", "MOD", "DST"] → find w mnmlcOptions = L [S "\\", L [S s], L [S "setq", S s, S s]] →
      Handler [] (fun st => Uses mnmlcUses [] st) mnmlcOptions IsStr w ⟨1, fun xs st => setWord s (xs.headD nil) st⟩ := by
    intro s hs hf
    refine handler_set (by clear hf; revert s; decide +kernel) hf (by clear hf; revert s; decide +kernel) (fun _ h => h) (fun st w h => hd s hs st w h)
      (fun x hx c st => hx.self) fun x hx => hx.tail
  cases h1 : equ (str "-c") w with
  | true =>
    simp only [mnmlcFlags, h1, if_true]
    exact go "SRC" (by simp) (by simp [find, mnmlcOptions, car, cdr, h1])
  | false =>
    cases h2 : equ (str "-m") w with
    | true =>
      simp only [mnmlcFlags, h1, h2, if_true, Bool.false_eq_true, if_false]
      exact go "MOD" (by simp) (by simp [find, mnmlcOptions, car, cdr, h1, h2])
    | false =>
      cases h3 : equ (str "-o") w with
      | true =>
        simp only [mnmlcFlags, h1, h2, h3, if_true, Bool.false_eq_true, if_false]
        exact go "DST" (by simp) (by simp [find, mnmlcOptions, car, cdr, h1, h2, h3])
      | false =>
        simp only [mnmlcFlags, h1, h2, h3, Bool.false_eq_true, if_false]
        simp [find, mnmlcOptions, car, h1, h2, h3, h4, h5]

/-! ## Examples for C80 -/

/-- A session with the command line `mnmlc WORDS`. -/
def mnmlcSt (ws : List Val) : St :=
  define "ARGV" (ofList (str "mnmlc" :: ws)) (define "options" (ofList mnmlcOptions) termSt)

/-- The hypotheses are met by the library. -/
example : Uses mnmlcUses [] (mnmlcSt [str "-c", str "a.l", str "-x"]) ∧
    Uses [(n "ARGV", ofList (str "mnmlc" :: [str "-c", str "a.l", str "-x"])), (n "options", ofList mnmlcOptions)] [] (mnmlcSt [str "-c", str "a.l", str "-x"]) ∧
    ∀ w ∈ [str "-c", str "a.l", str "-x"], IsStr w ∧ equ (str "-s") w = false ∧ equ (str "-h") w = false := by
  refine ⟨by unfold Uses; decide +kernel, by unfold Uses; decide +kernel, ?_⟩
  intro w hw
  simp only [List.mem_cons, List.not_mem_nil, or_false] at hw
  rcases hw with rfl | rfl | rfl
  · exact ⟨⟨[45, 99], rfl, by decide⟩, by decide +kernel, by decide +kernel⟩
  · exact ⟨⟨[97, 46, 108], rfl, by decide⟩, by decide +kernel, by decide +kernel⟩
  · exact ⟨⟨[45, 120], rfl, by decide⟩, by decide +kernel, by decide +kernel⟩

/-- A full line, an unknown flag and a missing value, with what is left in SRC. -/
example : ((evalN 90 nil (L [S "args:parse", S "options"]) (mnmlcSt [str "-c", str "a.l", str "-o", str "-c"]) >>=
        fun p => .ok (p.1, p.2.out, p.2.globals (n "SRC"), p.2.globals (n "DST"))) : Res (Val × List UInt8 × Option Val × Option Val)) =
      .ok (L [str "-o", str "-c"], [], some (str "a.l"), some (str "-c")) ∧
    ((evalN 90 nil (L [S "args:parse", S "options"]) (mnmlcSt [str "-c", str "a.l", str "-x", str "-c", str "b.l"]) >>=
        fun p => .ok (p.1, p.2.out, p.2.globals (n "SRC"))) : Res (Val × List UInt8 × Option Val)) =
      .ok (nil, bytes "Unknown flag: -x\n", some (str "a.l")) ∧
    ((evalN 90 nil (L [S "args:parse", S "options"]) (mnmlcSt [str "-c"]) >>=
        fun p => .ok (p.1, p.2.out, p.2.globals (n "SRC"))) : Res (Val × List UInt8 × Option Val)) =
      .ok (nil, bytes "Not enough values for flag: -c\n", none) := by
  decide +kernel

end Lib
end Mnml
