import Verif.PropArgs

/-!
# The runner of `share/mnml/test.l` (C81)
-/

namespace Mnml
namespace Lib

open Val Print

/-! ## Strings and their texts -/

/-- A string of characters. -/
def chars (cs : List Int) : Val := ofList (cs.map chr)

/-- The ascii are those of characters. -/
def Bytes (cs : List Int) : Prop := ∀ c ∈ cs, -128 ≤ c ∧ c < 128

theorem isStr_chars {cs : List Int} (h : Bytes cs) : IsStr (chars cs) := ⟨cs, rfl, h⟩

theorem plain_chars (cs : List Int) : plain (chars cs) = cs.map byteOf := by
  induction cs with
  | nil => rfl
  | cons c cs ih => show [byteOf c] ++ plain (chars cs) = _; rw [ih]; rfl

theorem prin_chars {cs : List Int} (h : Bytes cs) : Print.prin (chars cs) false = .ok (cs.map byteOf) := by
  have hw := (isStr_chars h).word
  rw [C35_concat_partial _ hw.1 hw.2.1, plain_chars]

theorem chars_self {c : Val} {cs : List Int} {st : St} : sem c (chars cs) st = .ok (chars cs, st) := by
  cases cs with
  | nil => exact ok_nil
  | cons c cs => exact ok_string

/-- The ascii of a text in ASCII. -/
def ascii (s : String) : List Int := s.toList.map fun c => (c.toNat : Int)

theorem str_chars (s : String) : str s = chars (ascii s) := by
  simp [str, chars, ascii, List.map_map, Function.comp_def]

/-- The text between the escape sequence of a format and the one that ends it. -/
def styled (code : String) (cs : List Int) : List Int := [27, 91] ++ ascii code ++ [109] ++ cs ++ [27, 91, 48, 109]

theorem bytes_append {a b : List Int} (ha : Bytes a) (hb : Bytes b) : Bytes (a ++ b) := by
  intro c hc
  rcases List.mem_append.1 hc with h | h
  · exact ha c h
  · exact hb c h

theorem bytes_styled {code : String} {cs : List Int} (hk : Bytes (ascii code)) (h : Bytes cs) : Bytes (styled code cs) := by
  have h1 : Bytes [27, 91] := by unfold Bytes; decide
  have h2 : Bytes [109] := by unfold Bytes; decide
  have h3 : Bytes [27, 91, 48, 109] := by unfold Bytes; decide
  exact bytes_append (bytes_append (bytes_append (bytes_append h1 hk) h2) h) h3

/-- A format applied to a string. -/
theorem styled_call {l : List Entry} (hl : Sorted l) {nm : Sym} {code : String} {e : Val} {cs : List Int} {st st1 : St}
    (hr : Resolves (envVal l) st nm (formatV code)) (hu : Uses escUses l st1) (he : sem (envVal l) e st = .ok (chars cs, st1)) :
    sem (envVal l) (L [ofSym nm, e]) st = .ok (chars (styled code cs), st1) := by
  refine (format_call hl (cs := code.toList) (xs := cs.map chr) hr hu he).trans ?_
  simp [chars, styled, ascii, List.map_append, List.map_map, Function.comp_def]

/-! ## Small steps -/

/-- A function that does not call itself under the new name keeps its value in a `let`. -/
theorem letMark_same {l d : List Entry} {f : Bool} {s : Sym} {args body : Val} (ha : args.isList = true) (hb : body.isPair = true)
    (hm : markLast s args body = body) :
    letMark (envVal l) (sym f s) (cons args (cons (envVal d) body)) = .ok (cons args (cons (envVal d) body)) := by
  cases hg : getEnv l s with
  | none =>
    have := letMark_fun (f := f) (d := d) hg ha hb
    rw [hm] at this
    exact this
  | some w =>
    have hd : (envVal d).isList = true := by cases d <;> rfl
    have hfn : isFunc (cons args (cons (envVal d) body)) = true := by
      simp only [isFunc, ha, hd, hb, Bool.true_or, Bool.and_true]
    simp only [letMark]
    rw [if_pos hfn, assq_envVal, hg]
    rfl

/-- `cond` with a clause for T and a default. -/
theorem ok_cond_tru {c x v w a b : Val} {nm p : Sym} {st st1 st2 : St} (h : Resolves c st nm Native.cond.val)
    (hp : Resolves c st p Native.istru.val) (hx : sem c x st = .ok (v, st1))
    (ha : v = tru → sem c a st1 = .ok (w, st2)) (hb : v ≠ tru → sem c b st1 = .ok (w, st2)) :
    sem c (L [ofSym nm, x, cons (ofSym p) a, cons wild b]) st = .ok (w, st2) := by
  show sem c (pair false (sym false nm) _) st = _
  rw [sem_any _ h rfl]
  show (sem c (L [ofSym p, x]) >>= fun res => if res.isTrue then sem c a else condV sem c x (L [cons wild b])) st = _
  have h1 : sem c (L [ofSym p, x]) st = .ok (ofBool v.isTrue, st1) := ok_one (op := .istru) hp hx rfl (by decide) rfl
  rw [M.bind_congr_ok h1]
  cases v with
  | tru => exact ha rfl
  | _ => exact hb (by simp)

/-! ## The parts of `test:run` -/

/-- The definitions that `test:run` relies on. -/
def runUses : List (Sym × Val) :=
  [(n "test:run", testRunV), (n "let", Native.let_.val), (n "if", Native.if_.val), (n "when", Native.when_.val), (n "not", Native.not.val),
   (n "prinl", Native.prinl.val), (n "term:bold", formatV "1"), (n "term:green", formatV "0;32"), (n "term:red", formatV "0;31"),
   (n "len", Native.len.val), (n ">", Native.gt.val), (n "\\", Native.lambda.val), (n "and", Native.and.val), (n "cond", Native.cond.val),
   (n "eval", Native.eval.val), (n "tru?", Native.istru.val), (n "prog", Native.prog.val)] ++
    escUses ++ termLeftUses ++ foldlUses ++ assocUses ++ hasUses ++ iterUses

/-- The names that are bound while the tests run. -/
def runArgs : List Sym :=
  [n "SUITE", n "TESTS", n "args", n "hdr", n "pad", n "exe", n "|<-", n "LST", n "acc", n "name", n "nlen", n "test", n "fun", n "lst", n "rslt", n "tail"]

/-- The line of a test: a mark, its name filled up to the width k, and the verdict. -/
def line (mark : List UInt8) (k : Nat) (name : List Int) (code text : String) : List UInt8 :=
  mark ++ (name ++ List.replicate (k - name.length) 32).map byteOf ++ bytes ": " ++ (styled code (ascii text)).map byteOf ++ [10]

/-- The function `|<-`: `term:left` with its first argument. -/
def padV (k : Nat) : Val := cons (L [S "STR"]) (cons (envVal [⟨false, n "WLEN", num k⟩]) termLeftV.cdr.cdr)

/-- `(|<- name)`. -/
theorem pad_call {E l : List Entry} (hE : Near runArgs l E) {st : St} (h : Uses runUses l st) {k : Nat} {name : List Int} (hk : IsI64 k)
    (hn : name.length ≤ k) (hp : getEnv E (n "|<-") = some (padV k)) (hg : getEnv E (n "name") = some (chars name)) :
    sem (envVal E) (L [S "|<-", S "name"]) st = .ok (chars (name ++ List.replicate (k - name.length) 32), st) := by
  have u := (hE.uses h (by decide)).sub (T' := termLeftUses) (fun p hp => by simp [runUses, hp])
  have hs := hE.sorted
  have hs1 : Sorted (mergeEnv E [⟨false, n "WLEN", num k⟩]) := sorted_mergeEnv _ hs
  have h1 : Near padArgs E (mergeEnv (mergeEnv E [⟨false, n "WLEN", num k⟩]) [⟨false, n "STR", chars name⟩]) :=
    ((Near.refl hs).merge (by simp [padArgs])).merge (by simp [padArgs])
  have hd : IsI64 ((k : Int) - (name.map chr).length) := by
    have := isI64_iff.1 hk
    rw [isI64_iff, List.length_map]
    omega
  refine ok_call (d := [⟨false, n "WLEN", num k⟩]) (as := [S "STR"]) (vs := [S "name"]) (resolves_local hp) rfl rfl
    (okSeq_cons (ok_sym (resolves_local hg)) okSeq_nil) (loop_end (ok_prog1.trans ((left_body (xs := name.map chr) h1 u hk hd
      (getEnv_merge_skip hs1 rfl (getEnv_merge_in hs rfl)) (getEnv_merge_in hs1 rfl)).trans ?_)) (tail_ofList _))
  simp only [Int.toNat_natCast, List.length_map]
  rw [List.take_of_length_le (by simpa using hn)]
  simp [chars, List.map_append]

/-- The line of a test is printed. -/
theorem line_call {E l : List Entry} (hE : Near runArgs l E) {st : St} (h : Uses runUses l st) {k : Nat} {name : List Int} (hk : IsI64 k)
    (hn : name.length ≤ k) (hb : Bytes name) (hp : getEnv E (n "|<-") = some (padV k)) (hg : getEnv E (n "name") = some (chars name))
    {mark : List Int} {f code text : String} {b : Val} (hm : Bytes mark) (hc : Bytes (ascii code)) (ht : Bytes (ascii text))
    (hf : ∀ st, Uses runUses E st → Resolves (envVal E) st (n f) (formatV code)) (hbe : ∀ c st, sem c b st = .ok (b, st)) :
    sem (envVal E) (L [S "prog", L [S "prinl", chars mark, L [S "|<-", S "name"], str ": ", L [S f, str text]], b]) st =
      .ok (b, say (line (mark.map byteOf) k name code text) st) := by
  have u := hE.uses h (by decide)
  have h32 : Bytes (List.replicate (k - name.length) 32) := by
    intro c hc
    rw [(List.mem_replicate.1 hc).2]
    decide
  refine prog_call (u.at 16 rfl) (ok_prog_cons (v := chars (styled code (ascii text))) ((ok_prinl (u.at 5 rfl)
    (ok_prinAll_cons chars_self (prin_chars hm) (ok_prinAll_cons (pad_call hE (uses_say h) hk hn hp hg) (prin_chars (bytes_append hb h32))
      (ok_prinAll_cons (b := bytes ": ") (ok_str _) (by decide +kernel) (ok_prinAll_cons (styled_call hE.sorted (hf _ (uses_say (uses_say (uses_say u))))
        ((uses_say (uses_say (uses_say u))).sub fun p hp => by simp [runUses, hp]) (by rw [← str_chars]; exact (ok_str _).trans (by rfl)))
        (prin_chars (bytes_styled hc ht)) rfl))))).trans ?_) (ok_prog_last (hbe _ _)))
  simp only [say_say, Bool.false_and, Bool.false_eq_true, if_false, List.append_nil, line, List.append_assoc]

/-- A name: a string, not longer than a number can tell. -/
def Name (c : List Int) : Prop := Bytes c ∧ c.length < 2 ^ 63

/-- The tests as they are written: `(NAME . EXPRESSION)`. -/
def entry (t : List Int × Val) : Val := cons (chars t.1) t.2

/-- The width of the longest name. -/
def width (names : List (List Int)) : Nat := names.foldl (fun k c => max k c.length) 0

/-- Running the tests with the given names: `out` tells what an expression does. Every test is run, in order, and reported; the result is whether all of
them gave T. The expression run for a name is that of the first test with the name. -/
def runTests (out : Val → St → Val × St) (tests : List (List Int × Val)) (k : Nat) : List (List Int) → Bool → St → Bool × St
  | [], ok, st => (ok, st)
  | c :: cs, ok, st =>
    let t := (tests.find? fun t => t.1 = c).elim nil Prod.snd
    if t.isNil then runTests out tests k cs false (say (line (bytes "! ") k c "0;31" "not found") st)
    else if (out t st).1 = tru then
      runTests out tests k cs ok (say (line [226, 156, 147, 32] k c "0;32" "passed") (out t st).2)
    else runTests out tests k cs false (say (line (bytes "! ") k c "0;31" "failed") (out t st).2)

/-- The body of `exe`. -/
def exeBody : Val :=
  L [L [S "let", L [cons (S "test") (L [S "assoc", S "name", S "TESTS"])], L [S "if",
    S "test", L [S "and", S "acc", L [S "cond", L [S "eval", S "test"], cons (S "tru?") (L [S "prog",
    L [S "prinl", tick, L [S "|<-", S "name"], str ": ", L [S "term:green", str "passed"]], tru]),
    cons wild (L [S "prog", L [S "prinl", str "! ", L [S "|<-", S "name"], str ": ", L [S "term:red",
    str "failed"]], nil])]], L [S "prog", L [S "prinl", str "! ", L [S "|<-", S "name"], str ": ",
    L [S "term:red", str "not found"]], nil]]]]

theorem equ_chars {a b : List Int} : equ (chars a) (chars b) = true ↔ a = b := by
  induction a generalizing b with
  | nil => cases b <;> simp [chars, ofList, equ]
  | cons x a ih =>
    cases b with
    | nil => simp [chars, ofList, equ]
    | cons y b =>
      have := ih (b := b)
      simp only [chars] at this
      simp [chars, ofList, equ, this]

theorem chars_inj {a b : List Int} (h : chars a = chars b) : a = b := equ_chars.1 (by rw [h]; exact equ_chars.2 rfl)

theorem find_entry {tests : List (List Int × Val)} {c : List Int} :
    find (chars c) (tests.map entry) = (tests.find? fun t => t.1 = c).elim nil Prod.snd := by
  induction tests with
  | nil => rfl
  | cons s tests ih =>
    rw [List.map_cons]
    by_cases h : s.1 = c
    · rw [find_pos (x := entry s) (by show equ (chars s.1) (chars c) = true; exact equ_chars.2 h), List.find?_cons_of_pos (by simpa using h)]
      rfl
    · rw [find_neg, ih, List.find?_cons_of_neg (by simpa using h)]
      show equ (chars s.1) (chars c) = false
      cases he : equ (chars s.1) (chars c) with
      | false => rfl
      | true => exact absurd (equ_chars.1 he) h

/-- What is said of the expressions of the tests: they are not functions, and `out` tells what they do in the scopes in which they are run. -/
def Runs (l : List Entry) (I : St → Prop) (tests : List (List Int × Val)) (out : Val → St → Val × St) : Prop :=
  ∀ t ∈ tests, t.2.isFunc = false ∧ t.2.isTailCall = false ∧ ∀ E st, Near runArgs l E → I st → t.2.isNil = false →
    sem (envVal E) t.2 st = .ok (out t.2 st) ∧ I (out t.2 st).2

/-- The states in which tests are run. -/
structure Runnable (l : List Entry) (I : St → Prop) : Prop where
  uses : ∀ st, I st → Uses runUses l st
  say : ∀ b st, I st → I (say b st)

/-- `exe` in the scopes of the fold. -/
theorem exe_body {l X : List Entry} {st : St} {tests : List (List Int × Val)} {out : Val → St → Val × St} {I : St → Prop} {c : List Int} {k : Nat}
    {ok : Bool} (hX : Near runArgs l X) (hI : Runnable l I) (h : I st) (hc : Bytes c) (hk : IsI64 k) (hw : c.length ≤ k) (hr : Runs l I tests out)
    (gP : getEnv X (n "|<-") = some (padV k)) (gT : getEnv X (n "TESTS") = some (ofList (tests.map entry)))
    (gN : getEnv X (n "name") = some (chars c)) (gA : getEnv X (n "acc") = some (ofBool ok)) :
    progV sem (envVal X) exeBody nil st = .ok (ofBool (runTests out tests k [c] ok st).1, (runTests out tests k [c] ok st).2) ∧
      I (runTests out tests k [c] ok st).2 := by
  have u := hX.uses (hI.uses st h) (by decide)
  have ua := u.sub (T' := assocUses) (fun p hp => by simp [runUses, hp])
  have hun : Untailed (tests.map entry) := by
    intro x hx
    obtain ⟨s, hs, rfl⟩ := List.mem_map.1 hx
    exact ⟨tail_ofList _, (hr s hs).2.1⟩
  have hfe := find_entry (tests := tests) (c := c)
  obtain ⟨t, ht, hf, hrun⟩ : ∃ t, (tests.find? fun t => t.1 = c).elim nil Prod.snd = t ∧ t.isFunc = false ∧
      ∀ E st, Near runArgs l E → I st → t.isNil = false → sem (envVal E) t st = .ok (out t st) ∧ I (out t st).2 := by
    cases hg : tests.find? fun t => t.1 = c with
    | none => exact ⟨nil, rfl, rfl, fun _ _ _ _ hn => by simp [isNil] at hn⟩
    | some t =>
      have := hr t (List.mem_of_find?_eq_some hg)
      exact ⟨t.2, rfl, this.1, this.2.2⟩
  rw [ht] at hfe
  have hX1 : Near runArgs l (mergeEnv X [⟨false, n "test", t⟩]) := hX.merge (by simp [runArgs])
  have gP1 := getEnv_merge_skip (b := [⟨false, n "test", t⟩]) hX.sorted rfl gP
  have gN1 := getEnv_merge_skip (b := [⟨false, n "test", t⟩]) hX.sorted rfl gN
  have gA1 := getEnv_merge_skip (b := [⟨false, n "test", t⟩]) hX.sorted rfl gA
  have gX1 : getEnv (mergeEnv X [⟨false, n "test", t⟩]) (n "test") = some t := getEnv_merge_in hX.sorted rfl
  have hb : letBind sem (envVal X) (L [cons (S "test") (L [S "assoc", S "name", S "TESTS"])]) (envVal []) st =
      .ok (envVal [⟨false, n "test", t⟩], st) := okBind_cons (a := t) (st1 := st)
    ((C51_assoc hX.sorted ua ua hun (okSeq_cons (ok_sym (resolves_local gN)) (okSeq_cons (ok_sym (resolves_local gT)) okSeq_nil))).trans
      (by rw [hfe])) (letMark_of_not_func _ _ _ hf) okBind_nil
  have hp : ∀ {v st'}, sem (envVal (mergeEnv X [⟨false, n "test", t⟩])) exeBody.car.cdr.cdr.car st = .ok (v, st') →
      progV sem (envVal X) exeBody nil st = .ok (v, st') := fun h =>
    ok_prog1.trans (ok_let_env (st1 := st) (u.at 1 rfl) hb (ok_prog1.trans h))
  generalize mergeEnv X [⟨false, n "test", t⟩] = Y at hX1 gP1 gN1 gA1 gX1 hp
  have u1 := hX1.uses (hI.uses st h) (by decide)
  have red : ∀ st, I st → ∀ text, Bytes (ascii text) → sem (envVal Y) (L [S "prog", L [S "prinl", str "! ", L [S "|<-", S "name"], str ": ", L [S "term:red", str text]], nil]) st =
      .ok (nil, say (line (bytes "! ") k c "0;31" text) st) := by
    intro st h text hb
    exact line_call (mark := [33, 32]) (f := "term:red") hX1 (hI.uses _ h) hk hw hc gP1 gN1 (by unfold Bytes; decide) (by unfold Bytes; decide +kernel) hb
      (fun st u => u.at 8 rfl) fun c st => ok_nil
  cases hn : t.isNil with
  | true =>
    have h0 : t = nil := by
      cases h2 : t <;> rw [h2] at hn <;> simp [isNil] at hn <;> rfl
    have e : runTests out tests k [c] ok st = (false, say (line (bytes "! ") k c "0;31" "not found") st) := by
      simp only [runTests, ht, hn, if_true]
    rw [e]
    rw [h0] at gX1
    exact ⟨hp (ok_if_else (u1.at 2 rfl) (ok_sym (resolves_local gX1)) (red st h "not found" (by unfold Bytes; decide +kernel))), hI.say _ _ h⟩
  | false =>
    obtain ⟨hr, hI1⟩ := hrun Y st hX1 h hn
    have hev := ok_eval (tc := false) (f := false) (t1 := false) (x := S "test") (u1.at 14 rfl) (ok_sym (resolves_local gX1)) hr
    by_cases hv : (out t st).1 = tru
    · have e : runTests out tests k [c] ok st = (ok, say (line [226, 156, 147, 32] k c "0;32" "passed") (out t st).2) := by
        simp only [runTests, ht, hn, hv, if_true, Bool.false_eq_true, if_false]
      rw [e]
      refine ⟨hp (ok_if_then (u1.at 2 rfl) (ok_sym (resolves_local gX1)) hn (ok_two (op := .and) (a := ofBool ok) (b := tru) (u1.at 12 rfl)
        (ok_sym (resolves_local gA1)) (ok_cond_tru (u1.at 13 rfl) (u1.at 15 rfl) hev (fun _ => ?_) (fun hc => absurd hv hc)) rfl (by cases ok <;> rfl))),
        hI.say _ _ hI1⟩
      exact line_call (mark := [-30, -100, -109, 32]) (f := "term:green") hX1 (hI.uses _ hI1) hk hw hc gP1 gN1 (by unfold Bytes; decide)
        (by unfold Bytes; decide +kernel) (by unfold Bytes; decide +kernel) (fun st u => u.at 7 rfl) fun c st => ok_tru
    · have e : runTests out tests k [c] ok st = (false, say (line (bytes "! ") k c "0;31" "failed") (out t st).2) := by
        simp only [runTests, ht, hn, hv, Bool.false_eq_true, if_false]
      rw [e]
      exact ⟨hp (ok_if_then (u1.at 2 rfl) (ok_sym (resolves_local gX1)) hn (ok_two (op := .and) (a := ofBool ok) (b := nil) (u1.at 12 rfl)
        (ok_sym (resolves_local gA1)) (ok_cond_tru (u1.at 13 rfl) (u1.at 15 rfl) hev (fun hc => absurd hc hv)
          (fun _ => red _ hI1 "failed" (by unfold Bytes; decide +kernel))) rfl (by cases ok <;> rfl))), hI.say _ _ hI1⟩

/-- `exe` as a value: it holds the scope of its definition. -/
def exeV (d : List Entry) : Val := cons (L [S "acc", cons (S "name") wild]) (cons (envVal d) exeBody)

/-- What `exe` does with the entries of a list of names. -/
def exeG (out : Val → St → Val × St) (tests names : List (List Int × Val)) (k : Nat) (a e : Val) : M Val := fun st =>
  match names.find? fun t => entry t = e with
  | none => .unsupported
  | some t => if a = tru ∨ a = nil then .ok (ofBool (runTests out tests k [t.1] (a = tru) st).1, (runTests out tests k [t.1] (a = tru) st).2) else .unsupported

theorem exe_acts {l E d : List Entry} {tests names : List (List Int × Val)} {out : Val → St → Val × St} {I : St → Prop} {k : Nat}
    (hE : Near runArgs l E) (hd : Near runArgs l d) (hI : Runnable l I) (hk : IsI64 k) (hr : Runs l I tests out)
    (hn : ∀ t ∈ names, Bytes t.1 ∧ t.1.length ≤ k) (gP : getEnv E (n "|<-") = some (padV k)) (gD : getEnv d (n "|<-") = none)
    (gT : getEnv d (n "TESTS") = some (ofList (tests.map entry))) :
    Acts2 (Near foldArgs E) I (exeV d) (exeG out tests names k) := by
  refine acts2_lisp (p := S "acc") (q := cons (S "name") wild) rfl fun m x y st v st' hm h hg => ?_
  have hm' : Near runArgs l m := hE.trans (hm.mono (by decide))
  unfold exeG at hg
  split at hg
  · cases hg
  · rename_i t ht
    have hmem := List.mem_of_find?_eq_some ht
    have hy : entry t = y := by simpa using List.find?_some ht
    split at hg
    · rename_i ha
      cases hg
      subst hy
      have hs := sorted_mergeEnv d hm'.sorted
      have hx : x = ofBool (decide (x = tru)) := by rcases ha with rfl | rfl <;> rfl
      have := exe_body (c := t.1) (X := mergeEnv (mergeEnv m d) [⟨false, n "name", chars t.1⟩, ⟨false, n "acc", x⟩]) (ok := decide (x = tru))
        ((hm'.capture hd).merge (by simp [runArgs])) hI h (hn t hmem).1 hk (hn t hmem).2 hr
        (getEnv_merge_skip hs rfl (getEnv_merge_skip hm'.sorted (by rw [getEnv_reverse hd.sorted]; exact gD)
          ((hm.same _ (by decide)).trans gP))) (getEnv_merge_skip hs rfl (getEnv_merge_cap hm'.sorted hd.sorted gT))
        (getEnv_merge_in hs rfl) ((getEnv_merge_in hs rfl).trans (congrArg some hx))
      exact ⟨this.1, by cases (runTests out tests k [t.1] (decide (x = tru)) st).1 <;> rfl, this.2⟩
    · cases hg

theorem runTests_cons (out : Val → St → Val × St) (tests : List (List Int × Val)) (k : Nat) (c : List Int) (cs : List (List Int)) (ok : Bool) (st : St) :
    runTests out tests k (c :: cs) ok st = runTests out tests k cs (runTests out tests k [c] ok st).1 (runTests out tests k [c] ok st).2 := by
  simp only [runTests]
  split
  · rfl
  · split <;> rfl

theorem entry_inj {a b : List Int × Val} (h : entry a = entry b) : a = b := by
  injection h with _ h1 h2
  exact Prod.ext (chars_inj h1) h2

theorem exe_fold {tests names : List (List Int × Val)} {out : Val → St → Val × St} {k : Nat} (ns : List (List Int × Val)) (hs : ∀ t ∈ ns, t ∈ names)
    (ok : Bool) (st : St) :
    (ns.map entry).foldlM (exeG out tests names k) (ofBool ok) st =
      .ok (ofBool (runTests out tests k (ns.map Prod.fst) ok st).1, (runTests out tests k (ns.map Prod.fst) ok st).2) := by
  induction ns generalizing ok st with
  | nil => rfl
  | cons t ns ih =>
    rw [List.map_cons, List.map_cons, runTests_cons, List.foldlM_cons, M.bind_apply]
    have hf : names.find? (fun t' => entry t' = entry t) = some t := by
      cases hg : names.find? fun t' => entry t' = entry t with
      | none => exact absurd (List.find?_eq_none.1 hg t (hs t (by simp))) (by simp)
      | some t' =>
        have e : t' = t := entry_inj (by simpa using List.find?_some hg)
        rw [e]
    have he : exeG out tests names k (ofBool ok) (entry t) st =
        .ok (ofBool (runTests out tests k [t.1] ok st).1, (runTests out tests k [t.1] ok st).2) := by
      unfold exeG
      rw [hf]
      cases ok <;> rfl
    rw [he, Res.ok_bind]
    exact ih (fun t' ht' => hs t' (List.mem_cons_of_mem _ ht')) _ _

/-! ## `pad` and `hdr` -/

/-- The body of the function that `pad` folds with. -/
def wideBody : Val := L [L [S "let", L [cons (S "nlen") (L [S "len", S "name"])], L [S "if", L [S ">", S "nlen", S "acc"], S "nlen", S "acc"]]]

/-- `pad` as a value. -/
def padFV (d : List Entry) : Val :=
  cons (L [S "LST"]) (cons (envVal d) (L [L [S "foldl", cons (S "\\") (cons (L [S "acc", cons (S "name") wild]) wideBody), N 0, S "LST"]]))

/-- What `pad` folds with. -/
def wideG (names : List (List Int × Val)) (a e : Val) : M Val := fun st =>
  match names.find? fun t => entry t = e, a with
  | some t, num i => .ok (num (max i t.1.length), st)
  | _, _ => .unsupported

theorem wide_acts {l E d : List Entry} {names : List (List Int × Val)} {st : St} (hE : Near runArgs l E) (hd : Near runArgs l d) (h : Uses runUses l st) :
    Acts2 (Near foldArgs E) (fun s => s = st) (cons (L [S "acc", cons (S "name") wild]) (cons (envVal d) wideBody)) (wideG names) := by
  refine acts2_lisp (p := S "acc") (q := cons (S "name") wild) rfl fun m x y st0 v st' hm h0 hg => ?_
  subst h0
  have hm' : Near runArgs l m := hE.trans (hm.mono (by decide))
  unfold wideG at hg
  split at hg
  · rename_i t i ht
    have hy : entry t = y := by simpa using List.find?_some ht
    cases hg
    subst hy
    refine ⟨ok_prog1.trans ?_, rfl, rfl⟩
    have hs := sorted_mergeEnv d hm'.sorted
    change sem (envVal (mergeEnv (mergeEnv m d) [⟨false, n "name", chars t.1⟩, ⟨false, n "acc", num i⟩])) _ _ = _
    have hX : Near runArgs l (mergeEnv (mergeEnv m d) [⟨false, n "name", chars t.1⟩, ⟨false, n "acc", num i⟩]) := (hm'.capture hd).merge (by simp [runArgs])
    have gN : getEnv (mergeEnv (mergeEnv m d) [⟨false, n "name", chars t.1⟩, ⟨false, n "acc", num i⟩]) (n "name") = some (chars t.1) := getEnv_merge_in hs rfl
    have gA : getEnv (mergeEnv (mergeEnv m d) [⟨false, n "name", chars t.1⟩, ⟨false, n "acc", num i⟩]) (n "acc") = some (num i) := getEnv_merge_in hs rfl
    generalize mergeEnv (mergeEnv m d) [⟨false, n "name", chars t.1⟩, ⟨false, n "acc", num i⟩] = X at hX gN gA ⊢
    have u := hX.uses h (by decide)
    have hlen : sem (envVal X) (L [S "len", S "name"]) st0 = .ok (num t.1.length, st0) := by
      have := len_value (xs := t.1.map chr) (u.at 9 rfl) (ok_sym (tc := false) (st := st0) (resolves_local gN))
      rwa [List.length_map] at this
    have gL : getEnv (mergeEnv X [⟨false, n "nlen", num t.1.length⟩]) (n "nlen") = some (num t.1.length) := getEnv_merge_in hX.sorted rfl
    have gA' := getEnv_merge_skip (b := [⟨false, n "nlen", num t.1.length⟩]) hX.sorted rfl gA
    refine ok_let_env (b := [⟨false, n "nlen", num t.1.length⟩]) (st1 := st0) (u.at 1 rfl) (okBind_cons hlen (letMark_of_not_func _ _ _ rfl) okBind_nil)
      (ok_prog1.trans ?_)
    have u1 := (hX.merge (b := [⟨false, n "nlen", num t.1.length⟩]) (by simp [runArgs])).uses h (by decide)
    have hgt := ok_two (op := .gt) (tc := false) (f := false) (t1 := false) (t2 := false) (u1.at 10 rfl) (ok_sym (tc := false) (st := st0) (resolves_local gL))
      (ok_sym (tc := false) (st := st0) (resolves_local gA')) rfl (gt_num _ _)
    by_cases hc : (t.1.length : Int) > i
    · rw [decide_eq_true hc] at hgt
      refine (ok_if_then (u1.at 2 rfl) hgt rfl (ok_sym (resolves_local gL))).trans ?_
      have e : max i (t.1.length : Int) = t.1.length := by omega
      rw [e]
    · rw [decide_eq_false hc] at hgt
      refine (ok_if_else (u1.at 2 rfl) hgt (ok_sym (resolves_local gA'))).trans ?_
      have e : max i (t.1.length : Int) = i := by omega
      rw [e]
  · cases hg

theorem wide_fold {names : List (List Int × Val)} (ns : List (List Int × Val)) (hs : ∀ t ∈ ns, t ∈ names) (i : Nat) (st : St) :
    (ns.map entry).foldlM (wideG names) (num i) st = .ok (num ((ns.map Prod.fst).foldl (fun k c => max k c.length) i : Nat), st) := by
  induction ns generalizing i st with
  | nil => rfl
  | cons t ns ih =>
    rw [List.map_cons, List.foldlM_cons, M.bind_apply]
    have hf : names.find? (fun t' => entry t' = entry t) = some t := by
      cases hg : names.find? fun t' => entry t' = entry t with
      | none => exact absurd (List.find?_eq_none.1 hg t (hs t (by simp))) (by simp)
      | some t' =>
        have e : t' = t := entry_inj (by simpa using List.find?_some hg)
        rw [e]
    have he : wideG names (num i) (entry t) st = .ok (num (max i t.1.length : Nat), st) := by
      unfold wideG
      rw [hf]
      have e : max (i : Int) (t.1.length : Int) = ((max i t.1.length : Nat) : Int) := by omega
      show Res.ok (num (max (i : Int) (t.1.length : Int)), st) = _
      rw [e]
    rw [he, Res.ok_bind]
    exact ih (fun t' ht' => hs t' (List.mem_cons_of_mem _ ht')) _ _

/-- `(pad E)` is the width of the longest name. -/
theorem padf_call {l E d : List Entry} {names : List (List Int × Val)} {e : Val} {st : St} (hE : Near runArgs l E) (hd : Near runArgs l d)
    (h : Uses runUses l st) (gF : getEnv E (n "pad") = some (padFV d)) (he : sem (envVal E) e st = .ok (ofList (names.map entry), st)) :
    sem (envVal E) (L [S "pad", e]) st = .ok (num (width (names.map Prod.fst)), st) := by
  refine ok_call (d := d) (as := [S "LST"]) (vs := [e]) (resolves_local gF) rfl rfl (okSeq_cons he okSeq_nil) (loop_end (ok_prog1.trans ?_) rfl)
  have hs := (hE.capture hd).sorted
  have hX : Near runArgs l (mergeEnv (mergeEnv E d) [⟨false, n "LST", ofList (names.map entry)⟩]) := (hE.capture hd).merge (by simp [runArgs])
  have gL : getEnv (mergeEnv (mergeEnv E d) [⟨false, n "LST", ofList (names.map entry)⟩]) (n "LST") = some (ofList (names.map entry)) := getEnv_merge_in hs rfl
  change sem (envVal (mergeEnv (mergeEnv E d) [⟨false, n "LST", ofList (names.map entry)⟩])) _ st = _
  generalize mergeEnv (mergeEnv E d) [⟨false, n "LST", ofList (names.map entry)⟩] = X at hX gL ⊢
  have u := hX.uses h (by decide)
  have uf := u.sub (T' := foldlUses) (fun p hp => by simp [runUses, hp])
  exact (C49_foldl (I := fun s => s = st) (st1 := st) hX.sorted (fun s hs => by rw [hs]; exact uf) (wide_acts hX hX h) uf rfl
    (okSeq_cons (ok_lambda (u.at 11 rfl)) (okSeq_cons (ok_num 0) (okSeq_cons (ok_sym (resolves_local gL)) okSeq_nil)))
    (by rw [elems_ofList]; exact wide_fold names (fun t ht => ht) 0 st) rfl).1

/-- `hdr` as a value. -/
def hdrV (d : List Entry) : Val := cons nil (cons (envVal d) (L [L [S "prinl", L [S "term:bold", str "["], L [S "term:bold", S "SUITE"], L [S "term:bold", str "]"]]]))

/-- The line with the name of the suite. -/
def header (suite : List Int) : List UInt8 :=
  (styled "1" (ascii "[")).map byteOf ++ (styled "1" suite).map byteOf ++ (styled "1" (ascii "]")).map byteOf ++ [10]

theorem hdr_call {l E d : List Entry} {suite : List Int} {st : St} (hE : Near runArgs l E) (hd : Near runArgs l d) (h : Uses runUses l st) (hb : Bytes suite)
    (gH : getEnv E (n "hdr") = some (hdrV d)) (gS : getEnv d (n "SUITE") = some (chars suite)) :
    sem (envVal E) (L [S "hdr"]) st = .ok (chars (styled "1" (ascii "]")), say (header suite) st) := by
  refine ok_call (d := d) (as := []) (vs := []) (resolves_local gH) rfl rfl okSeq_nil (loop_end (ok_prog1.trans ?_) (tail_ofList _))
  have hX := hE.capture hd
  have gS' := getEnv_merge_cap hE.sorted hd.sorted gS
  change sem (envVal (mergeEnv E d)) _ st = _
  generalize mergeEnv E d = X at hX gS' ⊢
  have u := hX.uses h (by decide)
  have h1 : Bytes (ascii "1") := by unfold Bytes; decide +kernel
  refine ((ok_prinl (u.at 5 rfl)
    (ok_prinAll_cons (styled_call hX.sorted (u.at 6 rfl) (u.sub fun p hp => by simp [runUses, hp]) (by rw [← str_chars]; exact (ok_str _).trans (by rfl)))
      (prin_chars (bytes_styled h1 (by unfold Bytes; decide +kernel)))
    (ok_prinAll_cons (styled_call hX.sorted ((uses_say u).at 6 rfl) ((uses_say u).sub fun p hp => by simp [runUses, hp]) (ok_sym (resolves_local gS')))
      (prin_chars (bytes_styled h1 hb))
    (ok_prinAll_cons (styled_call hX.sorted ((uses_say (uses_say u)).at 6 rfl) ((uses_say (uses_say u)).sub fun p hp => by simp [runUses, hp])
      (by rw [← str_chars]; exact (ok_str _).trans (by rfl)))
      (prin_chars (bytes_styled h1 (by unfold Bytes; decide +kernel))) rfl)))).trans ?_)
  simp only [say_say, Bool.false_and, Bool.false_eq_true, if_false, List.append_nil, header, List.append_assoc]

/-! ## The whole of `test:run` -/

/-- The scope in which `test:run` decides what to do. -/
structure Scope (l : List Entry) (suite : List Int) (tests : List (List Int × Val)) (flags : List Val) (E : List Entry) : Prop where
  near : Near runArgs l E
  args : getEnv E (n "args") = some (ofList flags)
  list : getEnv E (n "TESTS") = some (ofList (tests.map entry))
  hdr : ∃ d, Near runArgs l d ∧ getEnv E (n "hdr") = some (hdrV d) ∧ getEnv d (n "SUITE") = some (chars suite)
  pad : ∃ d, Near runArgs l d ∧ getEnv E (n "pad") = some (padFV d)
  exe : ∃ d, Near runArgs l d ∧ getEnv E (n "exe") = some (exeV d) ∧ getEnv d (n "|<-") = none ∧
    getEnv d (n "TESTS") = some (ofList (tests.map entry))

/-- The decision. -/
def runRest : Val := testRunV.cdr.cdr.car.cdr.cdr.car

theorem run_scope {l : List Entry} (hl : Sorted l) (hP : getEnv l (n "|<-") = none) {e v : Val} {suite : List Int} {tests : List (List Int × Val)}
    {flags : List Val} {st st1 st2 st3 : St} (h0 : Uses runUses l st) (h1 : Uses runUses l st1) (h2 : Uses runUses l st2)
    (he : sem (envVal l) e st = .ok (chars suite, st1)) (hf : ∀ f ∈ flags, f.car.isSym = false) (hv : v.isTailCall = false)
    (ha : ∀ E, Near [n "SUITE", n "TESTS"] l E → sem (envVal E) (L [S "args:parse", S "options"]) st1 = .ok (ofList flags, st2))
    (hr : ∀ E, Scope l suite tests flags E → sem (envVal E) runRest st2 = .ok (v, st3)) :
    sem (envVal l) (cons (S "test:run") (ofList (e :: tests.map entry))) st = .ok (v, st3) := by
  refine ok_call_rest (d := []) (h0.at 0 rfl) rfl he (loop_end (ok_prog1.trans ?_) hv)
  have hn0 : Near [n "SUITE", n "TESTS"] l (mergeEnv l [⟨false, n "TESTS", ofList (tests.map entry)⟩, ⟨false, n "SUITE", chars suite⟩]) :=
    (Near.refl hl).merge (by simp)
  have gT : getEnv (mergeEnv l [⟨false, n "TESTS", ofList (tests.map entry)⟩, ⟨false, n "SUITE", chars suite⟩]) (n "TESTS") =
    some (ofList (tests.map entry)) := getEnv_merge_in hl rfl
  have gS : getEnv (mergeEnv l [⟨false, n "TESTS", ofList (tests.map entry)⟩, ⟨false, n "SUITE", chars suite⟩]) (n "SUITE") =
    some (chars suite) := getEnv_merge_in hl rfl
  have gP : getEnv (mergeEnv l [⟨false, n "TESTS", ofList (tests.map entry)⟩, ⟨false, n "SUITE", chars suite⟩]) (n "|<-") = none :=
    getEnv_merge_skip hl rfl hP
  change sem (envVal (mergeEnv l [⟨false, n "TESTS", ofList (tests.map entry)⟩, ⟨false, n "SUITE", chars suite⟩])) _ st1 = _
  generalize mergeEnv l [⟨false, n "TESTS", ofList (tests.map entry)⟩, ⟨false, n "SUITE", chars suite⟩] = E at hn0 gT gS gP ⊢
  have hn : Near runArgs l E := hn0.mono (by decide)
  have hE := hn.sorted
  have hd1 : Near runArgs l (mergeEnv E [⟨false, n "args", ofList flags⟩]) := hn.merge (by simp [runArgs])
  have gS1 := getEnv_merge_skip (b := [⟨false, n "args", ofList flags⟩]) hE rfl gS
  generalize hq1 : mergeEnv E [⟨false, n "args", ofList flags⟩] = d1 at hd1 gS1
  have hd2 : Near runArgs l (mergeEnv E [⟨false, n "hdr", hdrV d1⟩, ⟨false, n "args", ofList flags⟩]) := hn.merge (by simp [runArgs])
  generalize hq2 : mergeEnv E [⟨false, n "hdr", hdrV d1⟩, ⟨false, n "args", ofList flags⟩] = d2 at hd2
  have hd3 : Near runArgs l (mergeEnv E [⟨false, n "pad", padFV d2⟩, ⟨false, n "hdr", hdrV d1⟩, ⟨false, n "args", ofList flags⟩]) :=
    hn.merge (by simp [runArgs])
  have gT3 := getEnv_merge_skip (b := [⟨false, n "pad", padFV d2⟩, ⟨false, n "hdr", hdrV d1⟩, ⟨false, n "args", ofList flags⟩]) hE rfl gT
  have gP3 := getEnv_merge_skip (b := [⟨false, n "pad", padFV d2⟩, ⟨false, n "hdr", hdrV d1⟩, ⟨false, n "args", ofList flags⟩]) hE rfl gP
  generalize hq3 : mergeEnv E [⟨false, n "pad", padFV d2⟩, ⟨false, n "hdr", hdrV d1⟩, ⟨false, n "args", ofList flags⟩] = d3 at hd3 gT3 gP3
  have u := hn.uses h1 (by decide)
  have u1 := hd1.uses h2 (by decide)
  have u2 := hd2.uses h2 (by decide)
  have u3 := hd3.uses h2 (by decide)
  have e1 : ∀ x r, sem (envVal d1) x st2 = r → sem (envVal (mergeEnv E [⟨false, n "args", ofList flags⟩])) x st2 = r := by
    rw [hq1]; exact fun _ _ h => h
  have e2 : ∀ x r, sem (envVal d2) x st2 = r → sem (envVal (mergeEnv E [⟨false, n "hdr", hdrV d1⟩, ⟨false, n "args", ofList flags⟩])) x st2 = r := by
    rw [hq2]; exact fun _ _ h => h
  have e3 : ∀ x r, sem (envVal d3) x st2 = r → sem (envVal (mergeEnv E [⟨false, n "pad", padFV d2⟩, ⟨false, n "hdr", hdrV d1⟩, ⟨false, n "args", ofList flags⟩])) x st2 = r := by
    rw [hq3]; exact fun _ _ h => h
  refine ok_let_env (b := [⟨false, n "exe", exeV d3⟩, ⟨false, n "pad", padFV d2⟩, ⟨false, n "hdr", hdrV d1⟩, ⟨false, n "args", ofList flags⟩])
    (st1 := st2) (u.at 1 rfl)
    (okBind_cons (ha E hn0) (letMark_plain hf)
    (okBind_cons (a := hdrV d1) (st1 := st2) (e1 _ _ (ok_lambda (u1.at 11 rfl))) (letMark_same rfl rfl rfl)
    (okBind_cons (a := padFV d2) (st1 := st2) (e2 _ _ (ok_lambda (u2.at 11 rfl))) (letMark_same rfl rfl rfl)
    (okBind_cons (a := exeV d3) (st1 := st2) (e3 _ _ (ok_lambda (u3.at 11 rfl))) (letMark_same rfl rfl rfl) okBind_nil))))
    (ok_prog1.trans (hr _ ⟨hn.merge (by simp [runArgs]), getEnv_merge_in hE rfl, getEnv_merge_skip hE rfl gT,
      ⟨d1, hd1, getEnv_merge_in hE rfl, gS1⟩, ⟨d2, hd2, getEnv_merge_in hE rfl⟩, ⟨d3, hd3, getEnv_merge_in hE rfl, gP3, gT3⟩⟩))

theorem width_le {cs : List (List Int)} {c : List Int} (h : c ∈ cs) : c.length ≤ width cs := by
  have key : ∀ (cs : List (List Int)) i, i ≤ cs.foldl (fun k c => max k c.length) i ∧ ∀ c ∈ cs, c.length ≤ cs.foldl (fun k c => max k c.length) i := by
    intro cs
    induction cs with
    | nil => intro i; simp
    | cons d cs ih =>
      intro i
      have := ih (max i d.length)
      refine ⟨by simp only [List.foldl_cons]; omega, fun c hc => ?_⟩
      simp only [List.foldl_cons]
      rcases List.mem_cons.1 hc with rfl | hc
      · omega
      · exact this.2 c hc
  exact (key cs 0).2 c h

theorem width_i64 {cs : List (List Int)} (h : ∀ c ∈ cs, c.length < 2 ^ 63) : IsI64 (width cs) := by
  have key : ∀ (cs : List (List Int)) i, (∀ c ∈ cs, c.length < 2 ^ 63) → i < 2 ^ 63 → cs.foldl (fun k c => max k c.length) i < 2 ^ 63 := by
    intro cs
    induction cs with
    | nil => intro i _ hi; exact hi
    | cons d cs ih =>
      intro i h hi
      exact ih _ (fun c hc => h c (List.mem_cons_of_mem _ hc)) (by have := h d (by simp); show max i d.length < 2 ^ 63; omega)
  have := key cs 0 h (by decide)
  rw [isI64_iff]
  unfold width
  omega

/-- The names of a list are padded to their width, the name of the suite is printed, and the tests are run. -/
theorem run_names {l E : List Entry} {suite : List Int} {tests names : List (List Int × Val)} {flags : List Val} {out : Val → St → Val × St}
    {I : St → Prop} {v : Val} {st : St} (hE : Scope l suite tests flags E) (hI : Runnable l I) (h : I st) (hb : Bytes suite) (hr : Runs l I tests out)
    (hn : ∀ t ∈ names, Name t.1) (gP : getEnv E (n "|<-") = some (padV (width (names.map Prod.fst))))
    (hv : sem (envVal E) v (say (header suite) st) = .ok (ofList (names.map entry), say (header suite) st)) :
    progV sem (envVal E) (L [L [S "hdr"], L [S "foldl", S "exe", tru, v]]) nil st =
      .ok (ofBool (runTests out tests (width (names.map Prod.fst)) (names.map Prod.fst) true (say (header suite) st)).1,
        (runTests out tests (width (names.map Prod.fst)) (names.map Prod.fst) true (say (header suite) st)).2) := by
  obtain ⟨d, hd, gH, gS⟩ := hE.hdr
  obtain ⟨d', hd', gE, gD, gT⟩ := hE.exe
  have hk : IsI64 (width (names.map Prod.fst)) := width_i64 fun c hc => by
    obtain ⟨t, ht, rfl⟩ := List.mem_map.1 hc
    exact (hn t ht).2
  refine ok_prog_cons (hdr_call hE.near hd (hI.uses _ h) hb gH gS) (ok_prog_last ?_)
  have uf := fun st h => (hE.near.uses (hI.uses st h) (by decide)).sub (T' := foldlUses) (fun p hp => by simp [runUses, hp])
  exact (C49_foldl hE.near.sorted uf (exe_acts (names := names) hE.near hd' hI hk hr
      (fun t ht => ⟨(hn t ht).1, width_le (List.mem_map_of_mem ht)⟩) gP gD gT) (uf _ (hI.say _ _ h)) (hI.say _ _ h)
    (okSeq_cons (ok_sym (resolves_local gE)) (okSeq_cons ok_tru (okSeq_cons hv okSeq_nil)))
    (by rw [elems_ofList]; exact exe_fold names (fun t ht => ht) true _) (by cases (runTests _ _ _ _ _ _).1 <;> rfl)).1

/-- `|<-` is bound to `term:left` with the width of the names. -/
theorem pad_scope {l E : List Entry} {suite : List Int} {tests names : List (List Int × Val)} {flags : List Val} {r v w : Val} {st st' : St}
    (hE : Scope l suite tests flags E) (h : Uses runUses l st) (hv : sem (envVal E) v st = .ok (ofList (names.map entry), st))
    (hr : ∀ E', E' = mergeEnv E [⟨false, n "|<-", padV (width (names.map Prod.fst))⟩] → Scope l suite tests flags E' →
      getEnv E' (n "|<-") = some (padV (width (names.map Prod.fst))) → progV sem (envVal E') r nil st = .ok (w, st')) :
    sem (envVal E) (cons (S "let") (cons (L [cons (S "|<-") (L [S "term:left", L [S "pad", v]])]) r)) st = .ok (w, st') := by
  obtain ⟨d1, hd1, gH, gS⟩ := hE.hdr
  obtain ⟨d2, hd2, gF⟩ := hE.pad
  obtain ⟨d3, hd3, gE, gD, gT⟩ := hE.exe
  have u := hE.near.uses h (by decide)
  have ut := u.sub (T' := termLeftUses) (fun p hp => by simp [runUses, hp])
  have hs := hE.near.sorted
  exact ok_let_env (b := [⟨false, n "|<-", padV (width (names.map Prod.fst))⟩]) (st1 := st) (u.at 1 rfl)
    (okBind_cons (a := padV (width (names.map Prod.fst))) (st1 := st) (ok_call_one rfl (ut.at 0 rfl) rfl (padf_call hE.near hd2 h gF hv))
      (letMark_same rfl rfl rfl) okBind_nil)
    (hr _ rfl ⟨hE.near.merge (by simp [runArgs]), getEnv_merge_skip hs rfl hE.args, getEnv_merge_skip hs rfl hE.list,
      ⟨d1, hd1, getEnv_merge_skip hs rfl gH, gS⟩, ⟨d2, hd2, getEnv_merge_skip hs rfl gF⟩, ⟨d3, hd3, getEnv_merge_skip hs rfl gE, gD, gT⟩⟩
      (getEnv_merge_in hs rfl))

/-- Whether a flag was given. -/
def given (flags : List Val) (f : String) : Bool := flags.any fun w => equ w (str f)

theorem has_flag {l E : List Entry} {suite : List Int} {tests : List (List Int × Val)} {flags : List Val} {st : St} (hE : Scope l suite tests flags E)
    (h : Uses runUses l st) (f : String) : sem (envVal E) (L [S "has", S "args", str f]) st = .ok (ofBool (given flags f), st) := by
  have u := (hE.near.uses h (by decide)).sub (T' := hasUses) (fun p hp => by simp [runUses, hp])
  have := C50_has hE.near.sorted u u (okSeq_cons (ok_sym (tc := false) (resolves_local hE.args)) (okSeq_cons (ok_str f) okSeq_nil))
  rwa [elems_ofList] at this

/-- **C81.** `(test:run SUITE (NAME . TEST) ...)` with none of the flags -t, -l and -h prints the name of the suite and runs all tests in order: each one is
evaluated once, whatever the others gave, and reported on a line of its own with its name, filled up to the longest one; the result is T if every test gave
T, and NIL otherwise. -/
theorem C81_run {l : List Entry} (hl : Sorted l) (hP : getEnv l (n "|<-") = none) {e : Val} {suite : List Int} {tests : List (List Int × Val)}
    {flags : List Val} {out : Val → St → Val × St} {I : St → Prop} {st st1 st2 : St} (h0 : Uses runUses l st) (h1 : Uses runUses l st1)
    (hI : Runnable l I) (h2 : I st2) (hb : Bytes suite) (hn : ∀ t ∈ tests, Name t.1) (hr : Runs l I tests out)
    (he : sem (envVal l) e st = .ok (chars suite, st1)) (hf : ∀ f ∈ flags, f.car.isSym = false)
    (ha : ∀ E, Near [n "SUITE", n "TESTS"] l E → sem (envVal E) (L [S "args:parse", S "options"]) st1 = .ok (ofList flags, st2))
    (ht : given flags "-t" = false) (hg : given flags "-l" = false) (hh : given flags "-h" = false) :
    sem (envVal l) (cons (S "test:run") (ofList (e :: tests.map entry))) st =
      .ok (ofBool (runTests out tests (width (tests.map Prod.fst)) (tests.map Prod.fst) true (say (header suite) st2)).1,
        (runTests out tests (width (tests.map Prod.fst)) (tests.map Prod.fst) true (say (header suite) st2)).2) := by
  refine run_scope hl hP h0 h1 (hI.uses _ h2) he hf (tail_ofBool _) ha fun E hE => ?_
  have u := hE.near.uses (hI.uses _ h2) (by decide)
  have k1 := has_flag hE (hI.uses _ h2) "-t"
  rw [ht] at k1
  refine ok_if_else (u.at 2 rfl) k1 (pad_scope (names := tests) hE (hI.uses _ h2) (ok_sym (resolves_local hE.list)) fun E' _ hE' gP =>
    ok_prog1.trans ?_)
  have u' := hE'.near.uses (hI.uses _ h2) (by decide)
  have k2 := has_flag hE' (hI.uses _ h2) "-l"
  have k3 := has_flag hE' (hI.uses _ h2) "-h"
  rw [hg] at k2
  rw [hh] at k3
  exact ok_if_else (u'.at 2 rfl) k2 (ok_when (a := tru) (u'.at 3 rfl) (ok_one (op := .not) (u'.at 4 rfl) k3 rfl (by decide) rfl) rfl
    (run_names hE' hI h2 hb hr hn gP (ok_sym (resolves_local hE'.list))))

/-- **C81.** With the flag -t, the tests with the names in the list TST are run, in the order of that list; a name without a test is reported as `not found`
and makes the result NIL. -/
theorem C81_pick {l : List Entry} (hl : Sorted l) (hP : getEnv l (n "|<-") = none) {e : Val} {suite : List Int} {tests : List (List Int × Val)}
    {picks : List (List Int)} {flags : List Val} {out : Val → St → Val × St} {I : St → Prop} {st st1 st2 : St} (h0 : Uses runUses l st)
    (h1 : Uses runUses l st1) (hI : Runnable l I) (h2 : I st2) (hb : Bytes suite) (hn : ∀ c ∈ picks, Name c) (hr : Runs l I tests out)
    (he : sem (envVal l) e st = .ok (chars suite, st1)) (hf : ∀ f ∈ flags, f.car.isSym = false)
    (ha : ∀ E, Near [n "SUITE", n "TESTS"] l E → sem (envVal E) (L [S "args:parse", S "options"]) st1 = .ok (ofList flags, st2))
    (ht : given flags "-t" = true) (hT : Uses [(n "TST", ofList (picks.map fun c => cons (chars c) nil))] l st2) :
    sem (envVal l) (cons (S "test:run") (ofList (e :: tests.map entry))) st =
      .ok (ofBool (runTests out tests (width picks) picks true (say (header suite) st2)).1,
        (runTests out tests (width picks) picks true (say (header suite) st2)).2) := by
  refine run_scope hl hP h0 h1 (hI.uses _ h2) he hf (tail_ofBool _) ha fun E hE => ?_
  have u := hE.near.uses (hI.uses _ h2) (by decide)
  have k1 := has_flag hE (hI.uses _ h2) "-t"
  rw [ht] at k1
  have e1 : (picks.map fun c => (c, nil)).map Prod.fst = picks := by simp [Function.comp_def]
  have e2 : (picks.map fun c => (c, nil)).map entry = picks.map fun c => cons (chars c) nil := by simp [Function.comp_def, entry]
  have uT : ∀ {E}, Near runArgs l E → ∀ {st}, Uses [(n "TST", ofList (picks.map fun c => cons (chars c) nil))] l st →
      sem (envVal E) (S "TST") st = .ok (ofList ((picks.map fun c => (c, nil)).map entry), st) := by
    intro E hE st h
    rw [e2]
    exact ok_sym ((hE.uses h (by simp [runArgs]; decide)).at 0 rfl)
  refine ok_if_then (u.at 2 rfl) k1 rfl (pad_scope (names := picks.map fun c => (c, nil)) hE (hI.uses _ h2) (uT hE.near hT) fun E' _ hE' gP => ?_)
  have := run_names (names := picks.map fun c => (c, nil)) (v := S "TST") hE' hI h2 hb hr (fun t ht => by
    obtain ⟨c, hc, rfl⟩ := List.mem_map.1 ht
    exact hn c hc) gP (uT hE'.near (uses_say hT))
  rw [e1] at this
  exact this

/-- The lines with the names of the tests. -/
def listing (k : Nat) : List (List Int) → St → St
  | [], st => st
  | c :: cs, st => listing k cs (say (bytes "- " ++ (c ++ List.replicate (k - c.length) 32).map byteOf ++ [10]) st)

/-- What is called for each name in the list. -/
def listG (names : List (List Int × Val)) (k : Nat) (e : Val) : M Val := fun st =>
  match names.find? fun t => entry t = e with
  | none => .unsupported
  | some t => .ok (chars (t.1 ++ List.replicate (k - t.1.length) 32), say (bytes "- " ++ (t.1 ++ List.replicate (k - t.1.length) 32).map byteOf ++ [10]) st)

theorem list_acts {l E d : List Entry} {names : List (List Int × Val)} {I : St → Prop} {k : Nat}
    (hE : Near runArgs l E) (hd : Near runArgs l d) (hI : Runnable l I) (hk : IsI64 k)
    (hn : ∀ t ∈ names, Bytes t.1 ∧ t.1.length ≤ k) (gD : getEnv d (n "|<-") = some (padV k)) :
    Acts1 (Near iterArgs E) I (cons (L [cons (S "name") wild]) (cons (envVal d) (L [L [S "prinl", str "- ", L [S "|<-", S "name"]]]))) (listG names k) := by
  refine acts1_lisp (p := cons (S "name") wild) rfl fun m y st v st' hm h hg => ?_
  have hm' : Near runArgs l m := hE.trans (hm.mono (by decide))
  unfold listG at hg
  split at hg
  · cases hg
  · rename_i t ht
    have hmem := List.mem_of_find?_eq_some ht
    have hy : entry t = y := by simpa using List.find?_some ht
    cases hg
    subst hy
    refine ⟨ok_prog1.trans ?_, tail_ofList _, hI.say _ _ h⟩
    have hs := sorted_mergeEnv d hm'.sorted
    change sem (envVal (mergeEnv (mergeEnv m d) [⟨false, n "name", chars t.1⟩])) _ _ = _
    have hX : Near runArgs l (mergeEnv (mergeEnv m d) [⟨false, n "name", chars t.1⟩]) := (hm'.capture hd).merge (by simp [runArgs])
    have gN : getEnv (mergeEnv (mergeEnv m d) [⟨false, n "name", chars t.1⟩]) (n "name") = some (chars t.1) := getEnv_merge_in hs rfl
    have gP : getEnv (mergeEnv (mergeEnv m d) [⟨false, n "name", chars t.1⟩]) (n "|<-") = some (padV k) :=
      getEnv_merge_skip hs rfl (getEnv_merge_cap hm'.sorted hd.sorted gD)
    generalize mergeEnv (mergeEnv m d) [⟨false, n "name", chars t.1⟩] = X at hX gN gP ⊢
    have u := hX.uses (hI.uses _ h) (by decide)
    have h32 : Bytes (List.replicate (k - t.1.length) 32) := by
      intro c hc
      rw [(List.mem_replicate.1 hc).2]
      decide
    refine (ok_prinl (u.at 5 rfl) (ok_prinAll_cons (ok_str _) (b := bytes "- ") (by decide +kernel)
      (ok_prinAll_cons (pad_call hX (uses_say (hI.uses _ h)) hk (hn t hmem).2 gP gN) (prin_chars (bytes_append (hn t hmem).1 h32)) rfl))).trans ?_
    simp only [say_say, Bool.false_and, Bool.false_eq_true, if_false, List.append_nil, List.append_assoc]

theorem list_mapM {names : List (List Int × Val)} {k : Nat} (ns : List (List Int × Val)) (hs : ∀ t ∈ ns, t ∈ names) (st : St) :
    (ns.map entry).mapM (listG names k) st = .ok (ns.map fun t => chars (t.1 ++ List.replicate (k - t.1.length) 32), listing k (ns.map Prod.fst) st) := by
  induction ns generalizing st with
  | nil => rfl
  | cons t ns ih =>
    rw [List.map_cons, List.mapM_cons, M.bind_apply]
    have hf : names.find? (fun t' => entry t' = entry t) = some t := by
      cases hg : names.find? fun t' => entry t' = entry t with
      | none => exact absurd (List.find?_eq_none.1 hg t (hs t (by simp))) (by simp)
      | some t' =>
        have e : t' = t := entry_inj (by simpa using List.find?_some hg)
        rw [e]
    have he : listG names k (entry t) st = .ok (chars (t.1 ++ List.replicate (k - t.1.length) 32),
        say (bytes "- " ++ (t.1 ++ List.replicate (k - t.1.length) 32).map byteOf ++ [10]) st) := by
      unfold listG
      rw [hf]
    rw [he, Res.ok_bind, M.bind_apply, ih (fun t' ht' => hs t' (List.mem_cons_of_mem _ ht')), Res.ok_bind]
    rfl

/-- **C81.** With the flag -l and without -t, the name of the suite and the names of the tests are printed, one on a line, and no test is run. -/
theorem C81_list {l : List Entry} (hl : Sorted l) (hP : getEnv l (n "|<-") = none) {e : Val} {suite : List Int} {tests : List (List Int × Val)}
    {flags : List Val} {I : St → Prop} {st st1 st2 : St} (h0 : Uses runUses l st) (h1 : Uses runUses l st1)
    (hI : Runnable l I) (h2 : I st2) (hb : Bytes suite) (hn : ∀ t ∈ tests, Name t.1)
    (he : sem (envVal l) e st = .ok (chars suite, st1)) (hf : ∀ f ∈ flags, f.car.isSym = false)
    (ha : ∀ E, Near [n "SUITE", n "TESTS"] l E → sem (envVal E) (L [S "args:parse", S "options"]) st1 = .ok (ofList flags, st2))
    (ht : given flags "-t" = false) (hg : given flags "-l" = true) :
    ∃ v, sem (envVal l) (cons (S "test:run") (ofList (e :: tests.map entry))) st =
      .ok (v, listing (width (tests.map Prod.fst)) (tests.map Prod.fst) (say (header suite) st2)) := by
  have hk : IsI64 (width (tests.map Prod.fst)) := width_i64 fun c hc => by
    obtain ⟨t, ht, rfl⟩ := List.mem_map.1 hc
    exact (hn t ht).2
  have hy : ∀ y ∈ tests.map (fun t => chars (t.1 ++ List.replicate (width (tests.map Prod.fst) - t.1.length) 32)), y.isFunc = false ∧ y.isTailCall = false := by
    intro y hy
    obtain ⟨t, _, rfl⟩ := List.mem_map.1 hy
    refine ⟨?_, tail_ofList _⟩
    generalize t.1 ++ List.replicate (width (tests.map Prod.fst) - t.1.length) 32 = c
    match c with
    | [] => rfl
    | [_] => rfl
    | _ :: _ :: _ => rfl
  refine ⟨_, run_scope hl hP h0 h1 (hI.uses _ h2) he hf (lastOf_tail hy) ha fun E hE => ?_⟩
  have u := hE.near.uses (hI.uses _ h2) (by decide)
  have k1 := has_flag hE (hI.uses _ h2) "-t"
  rw [ht] at k1
  refine ok_if_else (u.at 2 rfl) k1 (pad_scope (names := tests) hE (hI.uses _ h2) (ok_sym (resolves_local hE.list)) fun E' _ hE' gP =>
    ok_prog1.trans ?_)
  obtain ⟨d, hd, gH, gS⟩ := hE'.hdr
  have u' := hE'.near.uses (hI.uses _ h2) (by decide)
  have k2 := has_flag hE' (hI.uses _ h2) "-l"
  rw [hg] at k2
  have ui := fun st h => (hE'.near.uses (hI.uses st h) (by decide)).sub (T' := iterUses) (fun p hp => by simp [runUses, hp])
  refine ok_if_then (u'.at 2 rfl) k2 rfl (prog_call (u'.at 16 rfl) (ok_prog_cons (hdr_call hE'.near hd (hI.uses _ h2) hb gH gS) (ok_prog_last ?_)))
  exact (C72_iter hE'.near.sorted ui (list_acts (names := tests) hE'.near hE'.near hI hk
      (fun t ht => ⟨(hn t ht).1, width_le (List.mem_map_of_mem ht)⟩) gP) (ui _ (hI.say _ _ h2)) (hI.say _ _ h2)
    (okSeq_cons (ok_lambda ((uses_say u').at 11 rfl)) (okSeq_cons (ok_sym (resolves_local hE'.list)) okSeq_nil))
    (list_mapM tests (fun t ht => ht) _) hy).1

/-- **C81.** With the flag -h and neither -t nor -l, nothing is run; the result is NIL. -/
theorem C81_help {l : List Entry} (hl : Sorted l) (hP : getEnv l (n "|<-") = none) {e : Val} {suite : List Int} {tests : List (List Int × Val)}
    {flags : List Val} {st st1 st2 : St} (h0 : Uses runUses l st) (h1 : Uses runUses l st1) (h2 : Uses runUses l st2)
    (he : sem (envVal l) e st = .ok (chars suite, st1)) (hf : ∀ f ∈ flags, f.car.isSym = false)
    (ha : ∀ E, Near [n "SUITE", n "TESTS"] l E → sem (envVal E) (L [S "args:parse", S "options"]) st1 = .ok (ofList flags, st2))
    (ht : given flags "-t" = false) (hg : given flags "-l" = false) (hh : given flags "-h" = true) :
    sem (envVal l) (cons (S "test:run") (ofList (e :: tests.map entry))) st = .ok (nil, st2) := by
  refine run_scope hl hP h0 h1 h2 he hf rfl ha fun E hE => ?_
  have u := hE.near.uses h2 (by decide)
  have k1 := has_flag hE h2 "-t"
  rw [ht] at k1
  refine ok_if_else (u.at 2 rfl) k1 (pad_scope (names := tests) hE h2 (ok_sym (resolves_local hE.list)) fun E' _ hE' gP => ok_prog1.trans ?_)
  have u' := hE'.near.uses h2 (by decide)
  have k2 := has_flag hE' h2 "-l"
  have k3 := has_flag hE' h2 "-h"
  rw [hg] at k2
  rw [hh] at k3
  exact ok_if_else (u'.at 2 rfl) k2 (ok_when_none (u'.at 3 rfl) (ok_one (op := .not) (u'.at 4 rfl) k3 rfl (by decide) rfl))

/-! ## What the run means -/

/-- **C81.** What is run and printed does not depend on the results of the tests before. -/
theorem C81_all_run (out : Val → St → Val × St) (tests : List (List Int × Val)) (k : Nat) (cs : List (List Int)) (ok : Bool) (st : St) :
    (runTests out tests k cs ok st).2 = (runTests out tests k cs true st).2 ∧
      (runTests out tests k cs ok st).1 = (ok && (runTests out tests k cs true st).1) := by
  induction cs generalizing ok st with
  | nil => simp [runTests]
  | cons c cs ih =>
    simp only [runTests]
    split
    · have := ih false (say (line (bytes "! ") k c "0;31" "not found") st)
      simp only [this.1, this.2, Bool.false_and, Bool.and_false, and_self]
    · split
      · exact ih ok _
      · have := ih false (say (line (bytes "! ") k c "0;31" "failed") (out ((tests.find? fun t => t.1 = c).elim nil Prod.snd) st).2)
        simp only [this.1, this.2, Bool.false_and, Bool.and_false, and_self]

/-- **C81.** The result is T exactly if there is a test for every name and each of them gives T, in the state in which it is run. -/
theorem C81_passed (out : Val → St → Val × St) (tests : List (List Int × Val)) (k : Nat) (cs : List (List Int)) (st : St) :
    (runTests out tests k cs true st).1 = true ↔
      ∀ pre c post, cs = pre ++ c :: post → ∃ t, (tests.find? fun t => t.1 = c) = some t ∧ t.2.isNil = false ∧
        (out t.2 (runTests out tests k pre true st).2).1 = tru := by
  induction cs generalizing st with
  | nil => simp [runTests]
  | cons c cs ih =>
    rw [runTests_cons, (C81_all_run _ _ _ _ _ _).2, Bool.and_eq_true, ih]
    constructor
    · rintro ⟨h1, h2⟩ pre c' post he
      cases pre with
      | nil =>
        obtain ⟨rfl, rfl⟩ := List.cons.inj he
        cases hg : tests.find? fun t => t.1 = c with
        | none => rw [show runTests out tests k [c] true st = (false, say (line (bytes "! ") k c "0;31" "not found") st) by simp [runTests, hg, isNil]] at h1; cases h1
        | some t =>
          refine ⟨t, rfl, ?_⟩
          simp only [runTests, hg, Option.elim] at h1 ⊢
          by_cases hn : t.2.isNil = true
          · simp [hn] at h1
          · by_cases hv : (out t.2 st).1 = tru
            · exact ⟨by simpa using hn, hv⟩
            · simp [hn, hv] at h1
      | cons p pre =>
        obtain ⟨rfl, rfl⟩ := List.cons.inj he
        obtain ⟨t, h3, h4, h5⟩ := h2 pre c' post rfl
        refine ⟨t, h3, h4, ?_⟩
        rw [runTests_cons, (C81_all_run _ _ _ _ _ _).1]
        exact h5
    · intro h
      obtain ⟨t, h3, h4, h5⟩ := h [] c cs rfl
      have h5 : (out t.2 st).1 = tru := h5
      refine ⟨by simp [runTests, h3, h4, h5], fun pre c' post he => ?_⟩
      obtain ⟨t', h6, h7, h8⟩ := h (c :: pre) c' post (by rw [he]; rfl)
      refine ⟨t', h6, h7, ?_⟩
      rw [runTests_cons, (C81_all_run _ _ _ _ _ _).1] at h8
      exact h8

/-- **C81.** If no two tests have the same name, each name stands for its own test. -/
theorem C81_distinct {tests : List (List Int × Val)} (hd : tests.Pairwise fun a b => a.1 ≠ b.1) {t : List Int × Val} (ht : t ∈ tests) :
    (tests.find? fun s => s.1 = t.1) = some t := by
  induction tests with
  | nil => simp at ht
  | cons s tests ih =>
    rw [List.pairwise_cons] at hd
    rcases List.mem_cons.1 ht with rfl | h
    · simp
    · rw [List.find?_cons_of_neg (by simpa using hd.1 t h), ih hd.2 h]

/-- **C81 is false for equal names**: of two tests with the same name, the second is never run, whatever it is. -/
theorem C81_same_name_counterexample (out : Val → St → Val × St) (c : List Int) (a b b' : Val) (k : Nat) (st : St) :
    runTests out [(c, a), (c, b)] k [c, c] true st = runTests out [(c, a), (c, b')] k [c, c] true st := by
  simp [runTests]

/-! ## The command line -/

/-- The value of `options` (`share/mnml/test.l:25-28`). -/
def testSchema : List Val :=
  [cons (str "-l") (L [S "\\", nil, L [S "setq", S "LST", tru]]),
   cons (str "-t") (L [S "\\", L [S "LST"], L [S "setq", S "TST", L [S "map", L [S "\\", L [S "e"], L [S "cons", S "e", nil]], L [S "split", S "LST", chr 44]]]]),
   cons (str "-h") (S "usage")]

/-- It is what the file sets. -/
theorem testSchema_eq : testOptions = L [S "setq", S "options", Q (ofList testSchema)] := rfl

theorem untailed_schema : Untailed testSchema := by
  intro x hx
  simp only [testSchema, List.mem_cons, List.not_mem_nil, or_false] at hx
  rcases hx with rfl | rfl | rfl <;> exact ⟨rfl, rfl⟩

/-- The definitions that the command line relies on, with the words `ws` of the command line after the name `p` of the program. -/
def cmdUses (p : Val) (ws : List Val) : List (Sym × Val) :=
  runUses ++ parseUses ++ [(n "options", ofList testSchema), (n "ARGV", ofList (p :: ws)), (n "setq", Native.setq.val)]

theorem cmd_sub {p : Val} {ws : List Val} {l : List Entry} {st : St} (h : Uses (cmdUses p ws) l st) :
    Uses runUses l st ∧ Uses parseUses l st ∧ Uses [(n "options", ofList testSchema)] l st ∧ Uses [(n "ARGV", ofList (p :: ws))] l st :=
  ⟨h.sub fun q hq => by simp [cmdUses, hq], h.sub fun q hq => by simp [cmdUses, hq], h.sub fun q hq => by simp [cmdUses] at hq ⊢; simp [hq],
    h.sub fun q hq => by simp [cmdUses] at hq ⊢; simp [hq]⟩

/-- **C81.** Without arguments, all tests are run. -/
theorem C81_no_arguments {l : List Entry} (hl : Sorted l) (hP : getEnv l (n "|<-") = none) {e p : Val} {suite : List Int} {tests : List (List Int × Val)}
    {out : Val → St → Val × St} {I : St → Prop} {st st1 : St} (h0 : Uses runUses l st) (h1 : Uses (cmdUses p []) l st1)
    (hI : Runnable l I) (h2 : I st1) (hb : Bytes suite) (hn : ∀ t ∈ tests, Name t.1) (hr : Runs l I tests out)
    (he : sem (envVal l) e st = .ok (chars suite, st1)) :
    sem (envVal l) (cons (S "test:run") (ofList (e :: tests.map entry))) st =
      .ok (ofBool (runTests out tests (width (tests.map Prod.fst)) (tests.map Prod.fst) true (say (header suite) st1)).1,
        (runTests out tests (width (tests.map Prod.fst)) (tests.map Prod.fst) true (say (header suite) st1)).2) := by
  obtain ⟨hu, hp, ho, hA⟩ := cmd_sub h1
  refine C81_run (flags := []) hl hP h0 hu hI h2 hb hn hr he (by simp) (fun E hE => ?_) rfl rfl rfl
  have hp' := hE.uses hp (by decide)
  have := C80_parse (H := fun _ => none) (W := fun _ => True) (I := fun s => s = st1) (ws := []) hE.sorted (fun s hs => by rw [hs]; exact hp') hp' rfl
    (hE.uses hA (by simp; decide)) untailed_schema (by simp) (by simp) (ok_sym (tc := false) ((hE.uses ho (by simp; decide)).at 0 rfl))
  rw [parse] at this
  exact this

/-- **C81.** If none of the arguments is a flag of the schema, the first one is reported, and then all tests are run, as if there were no arguments. -/
theorem C81_unknown_argument {l : List Entry} (hl : Sorted l) (hP : getEnv l (n "|<-") = none) {e p f : Val} {ws : List Val} {suite : List Int}
    {tests : List (List Int × Val)} {out : Val → St → Val × St} {I : St → Prop} {st st1 : St} (h0 : Uses runUses l st) (h1 : Uses (cmdUses p (f :: ws)) l st1)
    (hI : Runnable l I) (h2 : I st1) (hb : Bytes suite) (hn : ∀ t ∈ tests, Name t.1) (hr : Runs l I tests out)
    (he : sem (envVal l) e st = .ok (chars suite, st1)) (hw : ∀ w ∈ f :: ws, Word w)
    (hf : ∀ w ∈ f :: ws, equ (str "-l") w = false ∧ equ (str "-t") w = false ∧ equ (str "-h") w = false) :
    sem (envVal l) (cons (S "test:run") (ofList (e :: tests.map entry))) st =
      .ok (ofBool (runTests out tests (width (tests.map Prod.fst)) (tests.map Prod.fst) true
          (say (bytes "Unknown flag: " ++ plain f ++ [10] ++ header suite) st1)).1,
        (runTests out tests (width (tests.map Prod.fst)) (tests.map Prod.fst) true (say (bytes "Unknown flag: " ++ plain f ++ [10] ++ header suite) st1)).2) := by
  obtain ⟨hu, hp, ho, hA⟩ := cmd_sub h1
  rw [← say_say]
  refine C81_run (flags := []) hl hP h0 hu hI (hI.say _ _ h2) hb hn hr he (by simp) (fun E hE => ?_) rfl rfl rfl
  have hp' := hE.uses hp (by decide)
  have := C80_parse (H := fun w => none) (W := fun _ => True) (I := fun s => s = st1) (ws := f :: ws) hE.sorted
    (fun s hs => by rw [hs]; exact hp') hp' rfl (hE.uses hA (by simp; decide)) untailed_schema (fun w hm => ⟨hw w hm, trivial⟩)
    (fun w hm => by simp [find, testSchema, car, hf w hm]) (ok_sym (tc := false) ((hE.uses ho (by simp; decide)).at 0 rfl))
  rw [parse] at this
  exact this

/-- **C81.** With the single argument -l, the tests are listed, and LST is set. -/
theorem C81_list_argument {e p : Val} {suite : List Int} {tests : List (List Int × Val)} {st st1 : St} (h0 : Uses runUses [] st)
    (h1 : Uses (cmdUses p [str "-l"]) [] st1) (hb : Bytes suite) (hn : ∀ t ∈ tests, Name t.1) (he : sem nil e st = .ok (chars suite, st1)) :
    ∃ v, sem nil (cons (S "test:run") (ofList (e :: tests.map entry))) st =
      .ok (v, listing (width (tests.map Prod.fst)) (tests.map Prod.fst) (say (header suite) (define "LST" tru st1))) := by
  have hd : ∀ s, Uses (cmdUses p [str "-l"]) [] s → Uses (cmdUses p [str "-l"]) [] (define "LST" tru s) := fun s h => uses_define h fun q hq => by
    have k : ∀ s ∈ (cmdUses nil []).map Prod.fst, s ≠ n "LST" := by decide +kernel
    have e : (cmdUses p [str "-l"]).map Prod.fst = (cmdUses nil []).map Prod.fst := by simp [cmdUses]
    exact k q.1 (e ▸ List.mem_map_of_mem (f := Prod.fst) hq)
  obtain ⟨hu, hp, ho, hA⟩ := cmd_sub h1
  refine C81_list (l := []) (I := fun s => Uses runUses [] s) (flags := [str "-l"]) List.Pairwise.nil rfl h0 hu ⟨fun _ h => h, fun _ _ h => uses_say h⟩
    (cmd_sub (hd _ h1)).1 hb hn he (by simp; rfl) (fun E hE => ?_) (by decide +kernel) (by decide +kernel)
  have hp' := fun s h => hE.uses (cmd_sub (p := p) (ws := [str "-l"]) (st := s) h).2.1 (by decide)
  have hl : IsStr (str "-l") := ⟨[45, 108], rfl, by decide⟩
  have := C80_parse (H := fun w => some ⟨0, fun _ s => define "LST" tru s⟩) (W := IsStr)
    (I := fun s => Uses (cmdUses p [str "-l"]) [] s) (ws := [str "-l"]) hE.sorted hp' (hp' _ h1) h1
    (hE.uses hA (by simp; decide)) untailed_schema (fun w hm => by rw [List.mem_singleton.1 hm]; exact ⟨hl.word, hl⟩)
    (fun w hm => ?_) (ok_sym (tc := false) ((hE.uses ho (by simp; decide)).at 0 rfl))
  · rw [parse] at this
    simp only [List.length_nil, Nat.lt_irrefl, if_false, List.drop_nil] at this
    rw [parse] at this
    exact this
  · rw [List.mem_singleton.1 hm]
    refine handler_lambda (as := []) (body := L [L [S "setq", S "LST", tru]]) (by decide +kernel) rfl (by show inI64 0 = true; decide) rfl
      (fun s h => hE.uses (h.sub ?_) (by decide)) (fun x hx c st => hx.self) fun s xs h hx hlen => ⟨hd s h, fun E' hE' => ⟨tru, rfl, ?_⟩⟩
    · intro q hq
      simp only [List.mem_cons, List.not_mem_nil, or_false] at hq
      rcases hq with rfl | rfl <;> simp [cmdUses, parseUses, runUses]
    · have u := hE'.uses (hE.uses (h.sub (T' := [(n "setq", Native.setq.val)]) (by simp [cmdUses])) (by decide)) (by decide)
      match xs, hlen with
      | [], _ => exact ok_prog1.trans (ok_setq (u.at 0 rfl) ok_tru)

/-! ## Examples for C81 -/

/-- A session with the library and the functions of `test.l`, with the command line `t WORDS`. -/
def runSt (ws : List Val) : St :=
  define "ARGV" (ofList (str "t" :: ws)) (define "options" (ofList testSchema) (define "test:run" testRunV termSt))

/-- The hypotheses are met by the library. -/
example : Uses (cmdUses (str "t") [str "-l"]) [] (runSt [str "-l"]) := by unfold Uses; decide +kernel

/-- Tests that are values do what `Runs` asks for. -/
example : Runs [] (fun st => Uses runUses [] st) [([97], tru), ([98, 99], num 1)] (fun v st => (v, st)) := by
  intro t ht
  simp only [List.mem_cons, List.not_mem_nil, or_false] at ht
  rcases ht with rfl | rfl
  · exact ⟨rfl, rfl, fun E st _ h _ => ⟨ok_tru, h⟩⟩
  · exact ⟨rfl, rfl, fun E st _ h _ => ⟨ok_num 1, h⟩⟩

/-- A run of three tests, one of which does not exist. -/
example : ((evalN 200 nil (L [S "test:run", str "s", cons (str "a") (L [S "nil?", nil]), cons (str "bc") (num 1), cons (str "d") nil]) (runSt []) >>=
        fun p => .ok (p.1, p.2.out)) : Res (Val × List UInt8)) = .ok (nil,
    header [115] ++ line [226, 156, 147, 32] 2 [97] "0;32" "passed" ++ line (bytes "! ") 2 [98, 99] "0;31" "failed" ++
      line (bytes "! ") 2 [100] "0;31" "not found") := by decide +kernel

/-- Tests that pass, an unknown flag, and a list. -/
example : ((evalN 200 nil (L [S "test:run", str "s", cons (str "a") tru]) (runSt [str "-x"]) >>= fun p => .ok (p.1, p.2.out)) : Res (Val × List UInt8)) =
      .ok (tru, bytes "Unknown flag: -x\n" ++ header [115] ++ line [226, 156, 147, 32] 1 [97] "0;32" "passed") ∧
    ((evalN 200 nil (L [S "test:run", str "s", cons (str "a") tru, cons (str "b") (S "undefined")]) (runSt [str "-l"]) >>=
      fun p => .ok (p.2.out)) : Res (List UInt8)) = .ok (header [115] ++ bytes "- a\n- b\n") := by decide +kernel

/-- Two tests with the same name: the second would fail, but is not run. -/
example : ((evalN 200 nil (L [S "test:run", str "s", cons (str "a") tru, cons (str "a") (num 1)]) (runSt []) >>= fun p => .ok p.1) : Res Val) = .ok tru := by
  decide +kernel

end Lib
end Mnml
