import Verif.LibTest
import Verif.PropPrint

/-!
# The assertions of `share/mnml/test.l` (C79)
-/

namespace Mnml
namespace Lib

open Val

/-! ## Printing -/

/-- The state after some more output. -/
def say (b : List UInt8) (st : St) : St := { st with out := st.out ++ b }

theorem say_say (a b : List UInt8) (st : St) : say b (say a st) = say (a ++ b) st := by
  simp [say, List.append_assoc]

theorem uses_say {T : List (Sym × Val)} {l : List Entry} {st : St} {b : List UInt8} (h : Uses T l st) : Uses T l (say b st) := h

section
variable {c x r v w a : Val} {t s : Bool} {b : List UInt8} {st st1 st2 : St} {nm : Sym} {tc f : Bool}

theorem ok_prinAll_nil : prinAll sem c s nil w st = .ok (w, st) := rfl

theorem ok_prinAll_cons (hx : sem c x st = .ok (a, st1)) (hp : Print.prin a s = .ok b)
    (hr : prinAll sem c s r a (Lib.say (b ++ if s && !r.isNil then [32] else []) st1) = .ok (v, st2)) :
    prinAll sem c s (pair t x r) w st = .ok (v, st2) := by
  have e : prinAll sem c s (pair t x r) w = (do
      let car ← sem c x
      prinM car s
      sepM (s && !r.isNil)
      prinAll sem c s r car) := rfl
  rw [e, M.bind_congr_ok hx]
  have h1 : prinM a s st1 = .ok ((), Lib.say b st1) := by
    simp only [prinM, hp, M.lift_ok, M.pure_bind]
    rfl
  have h2 : sepM (s && !r.isNil) (Lib.say b st1) = .ok ((), Lib.say (b ++ if s && !r.isNil then [32] else []) st1) := by
    cases hc : (s && !r.isNil)
    · simp [sepM, Lib.say]
    · simp only [sepM, if_true, emit, Lib.say, List.append_assoc]
  rw [M.bind_congr_ok h1, M.bind_congr_ok h2]
  exact hr

theorem ok_prin (h : Resolves c st nm Native.prin.val) (hr : prinAll sem c false r nil st = .ok (v, st1)) :
    sem c (pair tc (sym f nm) r) st = .ok (v, st1) := by
  rw [sem_any _ h rfl]
  exact hr

theorem ok_prinl (h : Resolves c st nm Native.prinl.val) (hr : prinAll sem c false r nil st = .ok (v, st1)) :
    sem c (pair tc (sym f nm) r) st = .ok (v, Lib.say [10] st1) := by
  rw [sem_any _ h rfl]
  simp only [semAny, nativeAny]
  rw [M.bind_congr_ok hr]
  rfl

theorem ok_printl (h : Resolves c st nm Native.printl.val) (hr : prinAll sem c true r nil st = .ok (v, st1)) :
    sem c (pair tc (sym f nm) r) st = .ok (v, Lib.say [10] st1) := by
  rw [sem_any _ h rfl]
  simp only [semAny, nativeAny]
  rw [M.bind_congr_ok hr]
  rfl

end

/-- A format of `term.l`, in any scope. -/
theorem format_call {l : List Entry} (hl : Sorted l) {nm : Sym} {cs : List Char} {e : Val} {xs : List Val} {st st1 : St}
    (hr : Resolves (envVal l) st nm (cons (L [S "STR"]) (cons nil (L [L [S "term:esc", ofList (cs.map fun c => chr c.toNat), S "STR"]]))))
    (hu : Uses escUses l st1) (he : sem (envVal l) e st = .ok (ofList xs, st1)) :
    sem (envVal l) (L [ofSym nm, e]) st =
      .ok (ofList ([chr 27, chr 91] ++ cs.map (fun c => chr c.toNat) ++ [chr 109] ++ xs ++ [chr 27, chr 91, chr 48, chr 109]), st1) := by
  refine ok_call (d := []) (as := [S "STR"]) (vs := [e]) hr rfl rfl
    (okSeq_cons he okSeq_nil) (loop_end (ok_prog1.trans ?_) (tail_ofList _))
  have hn : Near [n "STR"] l (mergeEnv l [⟨false, n "STR", ofList xs⟩]) := (Near.refl hl).merge (by simp)
  have ue := hn.uses hu (by decide)
  have hc : ∀ E st, sem (envVal E) (ofList (cs.map fun c => chr c.toNat)) st = .ok (ofList (cs.map fun c => chr c.toNat), st) := by
    intro E st
    cases cs with
    | nil => exact ok_nil
    | cons c cs => exact ok_string
  exact C78_esc hn.sorted ue ue (okSeq_cons (hc _ _) (okSeq_cons (ok_sym (resolves_local (getEnv_merge_in hl rfl))) okSeq_nil))

/-! ## The assertions -/

/-- The definitions that the assertions rely on. -/
def assertUses : List (Sym × Val) :=
  [(n "assert:equal", assertEqualV), (n "assert:predicate", assertPredicateV), (n "let", Native.let_.val), (n "car", Native.car.val),
   (n "eval", Native.eval.val), (n "if", Native.if_.val), (n "=", Native.equ.val), (n "prog", Native.prog.val),
   (n "prin", Native.prin.val), (n "prinl", Native.prinl.val), (n "printl", Native.printl.val),
   (n "term:red", formatV "0;31"), (n "term:underlined", formatV "4")] ++ escUses

/-- The names bound by `assert:equal`. -/
def equalArgs : List Sym := [n "EXPECT", n "ACTUAL", n "OP", n "EVAL"]

/-- The scope in which `assert:equal` evaluates its second expression: that of the caller, and its own variables. -/
def equalScope (l : List Entry) (x e : Val) (es : List Val) : List Entry :=
  mergeEnv (mergeEnv l [⟨false, n "ACTUAL", ofList (e :: es)⟩, ⟨false, n "EXPECT", x⟩]) [⟨false, n "OP", e⟩]

/-- The bytes of an ASCII string. -/
def bytes (s : String) : List UInt8 := s.toList.map fun c => UInt8.ofNat c.toNat

/-- What a failed assertion prints. -/
def report (a b : String) (x y : List UInt8) : List UInt8 :=
  bytes "\x1b[0;31m> FAILED \x1b[0m\n! \x1b[4m" ++ bytes a ++ bytes "\x1b[0m: " ++ x ++ bytes "\n! \x1b[4m" ++ bytes b ++
    bytes "\x1b[0m: " ++ y ++ bytes "\n"

theorem ok_str {c : Val} {st : St} (s : String) : sem c (str s) st = .ok (ofList (s.toList.map fun c => chr c.toNat), st) := by
  unfold str
  cases s.toList with
  | nil => exact ok_nil
  | cons c cs => exact ok_string

/-- The part of the assertions after a failed test. -/
theorem report_prog {E : List Entry} (hE : Sorted E) {st : St} (u : Uses assertUses E st) {a b : String} {p q : Sym} {x y : Val}
    (hp : getEnv E p = some x) (hq : getEnv E q = some y) (hx : x.InRange) (hy : y.InRange)
    (ha : Print.prin (ofList ([chr 27, chr 91] ++ ['4'].map (fun c => chr c.toNat) ++ [chr 109] ++ a.toList.map (fun c => chr c.toNat) ++
      [chr 27, chr 91, chr 48, chr 109])) false = .ok (bytes "\x1b[4m" ++ bytes a ++ bytes "\x1b[0m"))
    (hb : Print.prin (ofList ([chr 27, chr 91] ++ ['4'].map (fun c => chr c.toNat) ++ [chr 109] ++ b.toList.map (fun c => chr c.toNat) ++
      [chr 27, chr 91, chr 48, chr 109])) false = .ok (bytes "\x1b[4m" ++ bytes b ++ bytes "\x1b[0m")) :
    sem (envVal E) (L [S "prog", L [S "prinl", L [S "term:red", str "> FAILED "]],
      L [S "prin", str "! ", L [S "term:underlined", str a], str ": "], L [S "printl", ofSym p],
      L [S "prin", str "! ", L [S "term:underlined", str b], str ": "], L [S "printl", ofSym q], nil]) st =
      .ok (nil, say (report a b (text x) (text y)) st) := by
  have hprog : ∀ {r v : Val} {st st' : St}, Uses assertUses E st → progV sem (envVal E) r nil st = .ok (v, st') →
      sem (envVal E) (cons (S "prog") r) st = .ok (v, st') := by
    intro r v st st' u h
    have hres : Resolves (envVal E) st (n "prog") Native.prog.val := u.at 7 rfl
    show sem (envVal E) (pair false (sym false (n "prog")) r) st = _
    rw [sem_any _ hres rfl]
    exact h
  have red : ∀ st, Uses assertUses E st → sem (envVal E) (L [S "prinl", L [S "term:red", str "> FAILED "]]) st =
      .ok (ofList ([chr 27, chr 91] ++ "0;31".toList.map (fun c => chr c.toNat) ++ [chr 109] ++ "> FAILED ".toList.map (fun c => chr c.toNat) ++
        [chr 27, chr 91, chr 48, chr 109]), say (bytes "\x1b[0;31m> FAILED \x1b[0m\n") st) := by
    intro st u
    refine (ok_prinl (u.at 9 rfl) (ok_prinAll_cons (format_call hE (cs := "0;31".toList) (u.at 11 rfl)
      (u.sub fun p hp => by simp [assertUses, hp]) (ok_str _)) (b := bytes "\x1b[0;31m> FAILED \x1b[0m") (by decide +kernel) rfl)).trans ?_
    rw [say_say]
    rfl
  have und : ∀ (a : String) (st : St), Uses assertUses E st →
      Print.prin (ofList ([chr 27, chr 91] ++ ['4'].map (fun c => chr c.toNat) ++ [chr 109] ++ a.toList.map (fun c => chr c.toNat) ++
        [chr 27, chr 91, chr 48, chr 109])) false = .ok (bytes "\x1b[4m" ++ bytes a ++ bytes "\x1b[0m") →
      sem (envVal E) (L [S "prin", str "! ", L [S "term:underlined", str a], str ": "]) st =
        .ok (str ": ", say (bytes "! \x1b[4m" ++ bytes a ++ bytes "\x1b[0m: ") st) := by
    intro a st u ha
    refine (ok_prin (u.at 8 rfl) (ok_prinAll_cons (b := bytes "! ") (ok_str _) (by decide +kernel) (ok_prinAll_cons
      (format_call hE (cs := ['4']) (Uses.at (uses_say u) 12 rfl) ((uses_say u).sub fun p hp => by simp [assertUses, hp]) (ok_str _)) ha
      (ok_prinAll_cons (b := bytes ": ") (ok_str _) (by decide +kernel) rfl)))).trans ?_
    simp only [say_say, Bool.false_and, Bool.false_eq_true, if_false, List.append_nil]
    congr 3
    have e1 : bytes "! \x1b[4m" = bytes "! " ++ bytes "\x1b[4m" := by decide +kernel
    have e2 : bytes "\x1b[0m: " = bytes "\x1b[0m" ++ bytes ": " := by decide +kernel
    rw [e1, e2]
    simp only [List.append_assoc]
  have val : ∀ (p : Sym) (x : Val) (st : St), Uses assertUses E st → getEnv E p = some x → x.InRange →
      sem (envVal E) (L [S "printl", ofSym p]) st = .ok (x, say (text x ++ [10]) st) := by
    intro p x st u hp hx
    refine (ok_printl (u.at 10 rfl) (ok_prinAll_cons (b := text x) (ok_sym (resolves_local hp)) (C34_print x hx) rfl)).trans ?_
    rw [say_say]
    show Res.ok (x, say ((text x ++ []) ++ [10]) st) = _
    rw [List.append_nil]
  refine (hprog u (ok_prog_cons (red _ u) (ok_prog_cons (und a _ (uses_say u) ha) (ok_prog_cons (val p x _ (uses_say (uses_say u)) hp hx)
    (ok_prog_cons (und b _ (uses_say (uses_say (uses_say u))) hb) (ok_prog_cons (val q y _ (uses_say (uses_say (uses_say (uses_say u)))) hq hy)
      (ok_prog_last ok_nil))))))).trans ?_
  simp only [say_say]
  congr 3
  have e1 : bytes "\x1b[0;31m> FAILED \x1b[0m\n! \x1b[4m" = bytes "\x1b[0;31m> FAILED \x1b[0m\n" ++ bytes "! \x1b[4m" := by decide +kernel
  have e2 : bytes "\n! \x1b[4m" = [10] ++ bytes "! \x1b[4m" := by decide +kernel
  have e3 : bytes "\n" = [10] := by decide +kernel
  rw [report, e1, e2, e3]
  simp only [List.append_assoc]

/-- **C79.** `(assert:equal X E)` answers T exactly if the values are equal, and then prints nothing; otherwise it answers NIL and prints a report
with both values. Further expressions are ignored. E is evaluated in a scope with four variables more than the caller's. -/
theorem C79_equal {l : List Entry} (hl : Sorted l) {e1 e2 x y : Val} {es : List Val} {st st1 st2 : St} (h0 : Uses assertUses l st)
    (h1 : Uses assertUses l st1) (h2 : Uses assertUses l st2) (hx : sem (envVal l) e1 st = .ok (x, st1))
    (hy : sem (envVal (equalScope l x e2 es)) e2 st1 = .ok (y, st2)) (he : isFunc e2 = false) (hf : isFunc y = false)
    (hrx : x.InRange) (hry : y.InRange) :
    sem (envVal l) (cons (S "assert:equal") (ofList (e1 :: e2 :: es))) st =
      .ok (if equ x y then (tru, st2) else (nil, say (report "Expect" "Actual" (text x) (text y)) st2)) := by
  refine ok_call_rest (d := []) (h0.at 0 rfl) rfl hx (loop_end (v := if equ x y then tru else nil)
    (st1 := if equ x y then st2 else say (report "Expect" "Actual" (text x) (text y)) st2) ?_ (by split <;> rfl)) |>.trans (by split <;> rfl)
  refine ok_prog1.trans ?_
  have hn : Near equalArgs l (mergeEnv l [⟨false, n "ACTUAL", ofList (e2 :: es)⟩, ⟨false, n "EXPECT", x⟩]) :=
    (Near.refl hl).merge (by simp [equalArgs])
  have hA : getEnv (mergeEnv l [⟨false, n "ACTUAL", ofList (e2 :: es)⟩, ⟨false, n "EXPECT", x⟩]) (n "ACTUAL") = some (ofList (e2 :: es)) :=
    getEnv_merge_in hl rfl
  have hX : getEnv (mergeEnv l [⟨false, n "ACTUAL", ofList (e2 :: es)⟩, ⟨false, n "EXPECT", x⟩]) (n "EXPECT") = some x :=
    getEnv_merge_in hl rfl
  unfold equalScope at hy
  change sem (envVal (mergeEnv l [⟨false, n "ACTUAL", ofList (e2 :: es)⟩, ⟨false, n "EXPECT", x⟩])) _ st1 = _
  generalize mergeEnv l [⟨false, n "ACTUAL", ofList (e2 :: es)⟩, ⟨false, n "EXPECT", x⟩] = E at hn hA hX hy ⊢
  have hs := hn.sorted
  have u := hn.uses h1 (by decide)
  have hn1 := hn.merge (b := [⟨false, n "OP", e2⟩]) (by simp [equalArgs])
  have u1 := hn1.uses h1 (by decide)
  have hn2 := hn.merge (b := [⟨false, n "EVAL", y⟩, ⟨false, n "OP", e2⟩]) (by simp [equalArgs])
  have u2 := hn2.uses h2 (by decide)
  have hX2 := getEnv_merge_skip (b := [⟨false, n "EVAL", y⟩, ⟨false, n "OP", e2⟩]) hs rfl hX
  have hY2 : getEnv (mergeEnv E [⟨false, n "EVAL", y⟩, ⟨false, n "OP", e2⟩]) (n "EVAL") = some y := getEnv_merge_in hs rfl
  refine ok_let_env (b := [⟨false, n "EVAL", y⟩, ⟨false, n "OP", e2⟩]) (st1 := st2) (u.at 2 rfl)
    (okBind_cons (a := e2) (st1 := st1) (show sem (envVal E) _ _ = _ from ok_one (op := .car) (a := ofList (e2 :: es)) (u.at 3 rfl)
      (ok_sym (resolves_local hA)) rfl (by decide) rfl) (letMark_of_not_func _ _ _ he)
      (okBind_cons (a := y) (st1 := st2) (ok_eval (u1.at 4 rfl) (ok_sym (resolves_local (getEnv_merge_in hs rfl))) hy)
        (letMark_of_not_func _ _ _ hf) okBind_nil)) (ok_prog1.trans ?_)
  have hq := ok_two (op := .equ) (tc := false) (f := false) (t1 := false) (t2 := false) (x := S "EXPECT") (y := S "EVAL")
    (v := ofBool (equ x y)) (u2.at 6 rfl) (ok_sym (resolves_local hX2)) (ok_sym (resolves_local hY2)) rfl rfl
  cases hb : equ x y with
  | true =>
    rw [hb] at hq
    exact ok_if_then (u2.at 5 rfl) hq rfl ok_tru
  | false =>
    rw [hb] at hq
    exact ok_if_else (u2.at 5 rfl) hq (report_prog hn2.sorted u2 hX2 hY2 hrx hry (by decide +kernel) (by decide +kernel))

/-- The names bound by `assert:predicate`. -/
def predicateArgs : List Sym := [n "PREDICATE", n "VALUE", n "OP", n "EVAL"]

/-- The scope in which `assert:predicate` evaluates its second expression. -/
def predicateScope (l : List Entry) (F e : Val) (es : List Val) : List Entry :=
  mergeEnv (mergeEnv l [⟨false, n "VALUE", ofList (e :: es)⟩, ⟨false, n "PREDICATE", F⟩]) [⟨false, n "OP", e⟩]

/-- **C79.** `(assert:predicate P E)` answers T exactly if the predicate P holds for the value of E (does not give NIL), and then prints nothing
itself; otherwise it answers NIL and prints a report. -/
theorem C79_predicate {l : List Entry} (hl : Sorted l) {e1 e2 F y v : Val} {es : List Val} {st st1 st2 st3 : St} {g : Val → M Val}
    (h0 : Uses assertUses l st) (h1 : Uses assertUses l st1) (h2 : Uses assertUses l st2) (h3 : Uses assertUses l st3)
    (hx : sem (envVal l) e1 st = .ok (F, st1))
    (hy : sem (envVal (predicateScope l F e2 es)) e2 st1 = .ok (y, st2)) (he : isFunc e2 = false) (hf : isFunc y = false)
    (hF : Acts1 (Near predicateArgs l) (fun _ => True) F g) (hg : g y st2 = .ok (v, st3))
    (hrx : F.InRange) (hry : y.InRange) :
    sem (envVal l) (cons (S "assert:predicate") (ofList (e1 :: e2 :: es))) st =
      .ok (if v.isNil then (nil, say (report "Predicate" "Value" (text F) (text y)) st3) else (tru, st3)) := by
  refine ok_call_rest (d := []) (h0.at 1 rfl) rfl hx (loop_end (v := if v.isNil then nil else tru)
    (st1 := if v.isNil then say (report "Predicate" "Value" (text F) (text y)) st3 else st3) ?_ (by split <;> rfl)) |>.trans (by split <;> rfl)
  refine ok_prog1.trans ?_
  have hn : Near predicateArgs l (mergeEnv l [⟨false, n "VALUE", ofList (e2 :: es)⟩, ⟨false, n "PREDICATE", F⟩]) :=
    (Near.refl hl).merge (by simp [predicateArgs])
  have hA : getEnv (mergeEnv l [⟨false, n "VALUE", ofList (e2 :: es)⟩, ⟨false, n "PREDICATE", F⟩]) (n "VALUE") = some (ofList (e2 :: es)) :=
    getEnv_merge_in hl rfl
  have hX : getEnv (mergeEnv l [⟨false, n "VALUE", ofList (e2 :: es)⟩, ⟨false, n "PREDICATE", F⟩]) (n "PREDICATE") = some F :=
    getEnv_merge_in hl rfl
  unfold predicateScope at hy
  change sem (envVal (mergeEnv l [⟨false, n "VALUE", ofList (e2 :: es)⟩, ⟨false, n "PREDICATE", F⟩])) _ st1 = _
  generalize mergeEnv l [⟨false, n "VALUE", ofList (e2 :: es)⟩, ⟨false, n "PREDICATE", F⟩] = E at hn hA hX hy ⊢
  have hs := hn.sorted
  have u := hn.uses h1 (by decide)
  have hn1 := hn.merge (b := [⟨false, n "OP", e2⟩]) (by simp [predicateArgs])
  have u1 := hn1.uses h1 (by decide)
  have hn2 := hn.merge (b := [⟨false, n "EVAL", y⟩, ⟨false, n "OP", e2⟩]) (by simp [predicateArgs])
  have u2 := hn2.uses h2 (by decide)
  have u3 := hn2.uses h3 (by decide)
  have hX2 := getEnv_merge_skip (b := [⟨false, n "EVAL", y⟩, ⟨false, n "OP", e2⟩]) hs rfl hX
  have hY2 : getEnv (mergeEnv E [⟨false, n "EVAL", y⟩, ⟨false, n "OP", e2⟩]) (n "EVAL") = some y := getEnv_merge_in hs rfl
  refine ok_let_env (b := [⟨false, n "EVAL", y⟩, ⟨false, n "OP", e2⟩]) (st1 := st2) (u.at 2 rfl)
    (okBind_cons (a := e2) (st1 := st1) (show sem (envVal E) _ _ = _ from ok_one (op := .car) (a := ofList (e2 :: es)) (u.at 3 rfl)
      (ok_sym (resolves_local hA)) rfl (by decide) rfl) (letMark_of_not_func _ _ _ he)
      (okBind_cons (a := y) (st1 := st2) (ok_eval (u1.at 4 rfl) (ok_sym (resolves_local (getEnv_merge_in hs rfl))) hy)
        (letMark_of_not_func _ _ _ hf) okBind_nil)) (ok_prog1.trans ?_)
  have hq := (hF _ (n "PREDICATE") (S "EVAL") y st2 st2 v st3 hn2 hX2 (ok_sym (resolves_local hY2)) trivial hg).1
  cases hb : v.isNil with
  | false => exact ok_if_then (u2.at 5 rfl) hq hb ok_tru
  | true =>
    have : v = nil := by cases v <;> simp [isNil] at hb <;> rfl
    subst this
    exact ok_if_else (u2.at 5 rfl) hq (report_prog hn2.sorted u3 hX2 hY2 hrx hry (by decide +kernel) (by decide +kernel))

/-- The definitions that `test:slabdelta` relies on. -/
def slabdeltaUses : List (Sym × Val) := [(n "test:slabdelta", testSlabdeltaV), (n "let", Native.let_.val), (n "-", Native.sub.val)]

/-- **C79.** `(test:slabdelta)` is the first number of `(slabinfo)` less the second: the number of cells in use (C77). -/
theorem C79_slabdelta {l : List Entry} (hl : Sorted l) {x y : Int} {st st1 : St} (h0 : Uses slabdeltaUses l st) (h1 : Uses slabdeltaUses l st1)
    (hs : sem (envVal l) (L [S "slabinfo"]) st = .ok (cons (N x) (N y), st1)) (hr : inI64 (x - y) = true) :
    sem (envVal l) (L [S "test:slabdelta"]) st = .ok (N (x - y), st1) := by
  refine ok_call (d := []) (as := []) (vs := []) (h0.at 0 rfl) rfl rfl okSeq_nil (loop_end (ok_prog1.trans ?_) rfl)
  change sem (envVal l) _ st = _
  have hn : Near [n "alloc", n "free"] l (mergeEnv l [⟨false, n "free", N y⟩, ⟨false, n "alloc", N x⟩]) := (Near.refl hl).merge (by simp)
  have u := hn.uses h1 (by decide)
  refine ok_let_env (b := [⟨false, n "free", N y⟩, ⟨false, n "alloc", N x⟩]) (st1 := st1) (h0.at 1 rfl)
    (okBind_pair (a := cons (N x) (N y)) (st1 := st1) hs okBind_nil) (ok_prog1.trans ?_)
  refine ok_two (op := .sub) (u.at 2 rfl) (ok_sym (resolves_local (getEnv_merge_in hl rfl))) (ok_sym (resolves_local (getEnv_merge_in hl rfl))) rfl ?_
  show arith (x - y) = _
  simp [arith, hr]
  rfl

/-! ## Examples for C79 -/

/-- The library with `test.l`. -/
def testSt : St :=
  over ([(n "assert:predicate", assertPredicateV), (n "assert:equal", assertEqualV)] ++ nats [.prin, .printl, .prinl] ++ nats [.prog]) termSt

/-- The hypotheses are met at top level, here for `(assert:equal 3 (+ 1 2))` and `(assert:predicate num? 5)`. -/
example : Sorted [] ∧ Uses assertUses [] testSt ∧ isFunc (L [S "+", N 1, N 2]) = false ∧ isFunc (N 3) = false ∧ (N 3).InRange ∧
    Native.isnum.val.InRange ∧ Acts1 (Near predicateArgs []) (fun _ => True) Native.isnum.val (fun x => M.lift (unary .isnum x)) := by
  refine ⟨by simp [Sorted], ?_, by decide, by decide, by show inI64 3 = true; decide, ?_, acts1_native _ _ rfl (by decide)⟩
  · unfold Uses; decide +kernel
  · exact ⟨⟨trivial, trivial⟩, trivial, show inI64 _ = true by decide⟩

example : ((evalN 80 nil (L [S "assert:equal", N 3, L [S "+", N 1, N 2]]) testSt >>= fun p => .ok (p.1, p.2.out)) : Res (Val × List UInt8)) =
      .ok (tru, []) ∧
    ((evalN 80 nil (L [S "assert:equal", N 4, L [S "+", N 1, N 2]]) testSt >>= fun p => .ok (p.1, p.2.out)) : Res (Val × List UInt8)) =
      .ok (nil, bytes "\x1b[0;31m> FAILED \x1b[0m\n! \x1b[4mExpect\x1b[0m: 4\n! \x1b[4mActual\x1b[0m: 3\n") ∧
    ((evalN 80 nil (L [S "assert:predicate", S "num?", N 5]) testSt >>= fun p => .ok (p.1, p.2.out)) : Res (Val × List UInt8)) =
      .ok (tru, []) := by
  decide +kernel

/-- The library with `test:slabdelta`, and a function in place of the native `slabinfo`. -/
def slabdeltaSt : St :=
  over ([(n "test:slabdelta", testSlabdeltaV), (n "slabinfo", cons nil (cons nil (L [L [S "cons", N 35, N 25]])))] ++ nats [.sub, .cons]) testSt

/-- The hypotheses of `C79_slabdelta`. -/
example : Sorted [] ∧ Uses slabdeltaUses [] slabdeltaSt ∧ inI64 (35 - 25) = true ∧
    ((evalN 80 nil (L [S "slabinfo"]) slabdeltaSt >>= fun p => .ok p.1) : Res Val) = .ok (cons (N 35) (N 25)) ∧
    ((evalN 80 nil (L [S "test:slabdelta"]) slabdeltaSt >>= fun p => .ok p.1) : Res Val) = .ok (N 10) := by
  refine ⟨by simp [Sorted], ?_, by decide, by decide +kernel, by decide +kernel⟩
  unfold Uses; decide +kernel

/-- **C79.** The variables of `assert:equal` hide those of the caller: with a global variable OP that is 1, `(assert:equal 1 OP)` fails. -/
theorem C79_capture_counterexample : ∃ st, Uses assertUses [] st ∧ st.globals (n "OP") = some (N 1) ∧
    ∃ st', sem nil (L [S "assert:equal", N 1, S "OP"]) st = .ok (nil, st') := by
  refine ⟨define "OP" (N 1) testSt, ?_, by decide +kernel, ?_⟩
  · unfold Uses; decide +kernel
  · have h : ((evalN 80 nil (L [S "assert:equal", N 1, S "OP"]) (define "OP" (N 1) testSt) >>= fun p => .ok p.1) : Res Val) = .ok nil := by
      decide +kernel
    cases h1 : evalN 80 nil (L [S "assert:equal", N 1, S "OP"]) (define "OP" (N 1) testSt) with
    | ok p =>
      rw [h1] at h
      obtain ⟨v, st'⟩ := p
      cases h
      exact ⟨st', sem_of_evalN h1 (by simp)⟩
    | _ => rw [h1] at h; cases h

end Lib
end Mnml
