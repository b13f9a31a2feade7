import Verif.ScriptSem
import Verif.PropModule
import Verif.Eval
import Verif.PropChan

/-!
# C58, C59: scripts and the command line
-/

namespace Mnml
namespace Module

open Val Lex

/-! ## C58: a script is run expression by expression, in its own directory -/

/-- A name that the escapes of strings leave alone. -/
def Plain (d : List UInt8) : Prop := ∀ x ∈ d, x ≠ 92 ∧ x ≠ 0

theorem cbuffer_plain {d : List UInt8} {cap : Nat} (hp : Plain d) (hl : d.length < cap) (L : Nat) (hL : d.length ≤ L) :
    cbuffer (strVal (makeString d d.length)) L cap = .ok d := by
  rw [makeString_plain d fun x hx => (hp x hx).1]
  have h := makeCString_chars (d.map charOf) L 0 (by omega)
  have e : (List.map byteOf (d.map charOf)) = d := by
    rw [List.map_map]
    conv => rhs; rw [← List.map_id d]
    exact List.map_congr_left fun x _ => byteOf_charOf x
  have h2 : makeCString (strVal (d.map charOf)) L 0 = .ok (d ++ [0], d.length) := by
    rw [h]
    simp only [Nat.sub_zero, List.length_map, Nat.zero_add]
    rw [List.take_of_length_le (by simpa using hL), e, Nat.min_eq_left hL]
  rw [cbuffer, h2]
  simp only [Res.ok_bind, store]
  rw [if_pos (by simp; omega)]
  simp only [Res.ok_bind]
  rw [List.takeWhile_append_of_pos (fun x hx => by simpa using (hp x hx).2)]
  simp

/-- Relative names of a script stand for files next to the script. -/
theorem curdir_push (os : Os) {d : List UInt8} (s : SSt) (hp : Plain d) (hl : d.length < pathMax) : curdir os (push d s) = .ok d := by
  show cbuffer (strVal (makeString d d.length)) pathMax pathMax = .ok d
  exact cbuffer_plain hp hl _ (by omega)

/-- The canonical path `p` is that of the file `b` in the directory `d`, which may be the root. -/
structure InDir (d b p : List UInt8) : Prop where
  base : b ≠ [] ∧ (47 : UInt8) ∉ b
  path : (d = [47] ∧ p = 47 :: b) ∨ (d ≠ [] ∧ d.getLast? ≠ some 47 ∧ p = d ++ 47 :: b)

theorem InDir.dirname {d b p : List UInt8} (h : InDir d b p) : dirname p = .ok d := by
  rcases h.path with ⟨rfl, rfl⟩ | ⟨h1, h2, rfl⟩
  · simp [Module.dirname, show lastSlash (47 :: b) = some ([], b) from lastSlash_append (d := []) h.base.2, h.base.1]
  · simp [Module.dirname, lastSlash_append h.base.2, h.base.1, h1, h2]

/-- In the state `s` the name `f` stands for the file `b` in the directory `d`, with the text `t`. -/
structure Finds (os : Os) (s : SSt) (f d b t : List UInt8) : Prop where
  path : ∃ cwd e p, curdir os s = .ok cwd ∧ Expands os f e ∧ e.length < pathMax ∧ (place (!s.dirs.isEmpty) cwd e).length < pathMax ∧
    os.realpath (place (!s.dirs.isEmpty) cwd e) = some p ∧ InDir d b p ∧ os.fopen p = some t

theorem Finds.openFile {os : Os} {s : SSt} {f d b t : List UInt8} (h : Finds os s f d b t) : openFile os f s = .ok (some (d, t)) := by
  obtain ⟨cwd, e, p, h1, h2, h3, h4, h5, h6, h7⟩ := h.path
  simp [Module.openFile, h1, C55_existing h2 h3 h4 h5, h6.dirname, h7]

theorem Runs.dirs {os : Os} {ev : Val → M Val} {es : List Val} {r w : Val} {s s' : SSt} (h : Runs os ev es r s w s') : s'.dirs = s.dirs := by
  induction h with
  | nil => rfl
  | @cons n _ _ _ _ _ _ _ _ h ht ih => rw [ih, (script_dirs os ev n).1 _ _ _ _ h]

theorem loadFile_runs {os : Os} {ev : Val → M Val} {s s' : SSt} {f d t : List UInt8} {w : Val} {vs : List Val}
    (h : openFile os f s = .ok (some (d, t))) (hd : Delivers ⟨t, []⟩ vs) :
    (∃ n, loadFile os ev n f s = .ok (w, s')) ↔ ∃ q, Runs os ev vs nil (push d s) w q ∧ s' = { q with dirs := s.dirs } := by
  constructor
  · rintro ⟨n, hn⟩
    cases n with
    | zero => simp [loadFile] at hn
    | succ n =>
      simp only [loadFile, h, Res.ok_bind] at hn
      obtain ⟨⟨r, q⟩, h1, h2⟩ := Res.bind_eq_ok.1 hn
      have hr := (loadLoop_runs hd nil (push d s) r q).1 ⟨n, h1⟩
      cases h2
      refine ⟨q, hr, ?_⟩
      simp [hr.dirs, push]
  · rintro ⟨q, hr, rfl⟩
    obtain ⟨n, hn⟩ := (loadLoop_runs hd nil (push d s) w q).2 hr
    refine ⟨n + 1, ?_⟩
    have e : q.dirs.tail = s.dirs := by rw [hr.dirs]; rfl
    simp only [loadFile, h, hn, Res.ok_bind, e]

/-- **C58.** Running a script evaluates exactly the expressions of its text, in their order, each in the state that the one before left, and with
the directory of the script as the place of relative names; the result is that of the last expression (NIL for an empty script), and afterwards
relative names stand for what they stood for before. -/
theorem C58_script {os : Os} {ev : Val → M Val} {s s' : SSt} {f d b t : List UInt8} {w : Val} {n : Nat} {fin : LSt} (h : Finds os s f d b t)
    (ht : drain (fun _ => .unsupported) n .init t = .ok fin) :
    (∃ n, loadFile os ev n f s = .ok (w, s')) ↔
      ∃ q, Runs os ev fin.ps.vals nil (push d s) w q ∧ s' = { q with dirs := s.dirs } :=
  loadFile_runs h.openFile (delivers_drain ht)

/-- **C58.** In a script of the directory `d`, a relative name stands for a file of `d`. -/
theorem C58_relative {os : Os} {s : SSt} {f d d' b t : List UInt8} (hd : Plain d) (hl : (d ++ 47 :: f).length < pathMax)
    (h1 : f.take 4 ≠ lit "@lib".toList) (h2 : f.head? ≠ some 126) (h3 : f.head? ≠ some 47)
    {p : List UInt8} (hp : os.realpath (d ++ 47 :: f) = some p) (hi : InDir d' b p) (ht : os.fopen p = some t) : Finds os (push d s) f d' b t where
  path := by
    simp only [List.length_append, List.length_cons] at hl
    have e : place (!(push d s).dirs.isEmpty) d f = d ++ 47 :: f := by simp [place, push, h3]
    refine ⟨d, f, p, curdir_push os s hd (by omega), .other h1 h2, by omega, ?_, ?_, hi, ht⟩
    · rw [e]; simp; omega
    · rw [e]; exact hp

/-- **C58.** A name that starts with `@lib` stands for a file of the library in every script, wherever it is. -/
theorem C58_library {os : Os} {s : SSt} {r d d' b t : List UInt8} (hc : curdir os s = .ok d)
    (hs : os.getenv (lit "MNML_SCRIPT_PATH".toList) = none) (hr : (os.home ++ lit "/share/mnml".toList ++ r).length < pathMax)
    (h0 : os.home.head? = some 47)
    {p : List UInt8} (hp : os.realpath (os.home ++ lit "/share/mnml".toList ++ r) = some p) (hi : InDir d' b p) (ht : os.fopen p = some t) : Finds os s (lit "@lib".toList ++ r) d' b t where
  path := by
    have e : place (!s.dirs.isEmpty) d (os.home ++ lit "/share/mnml".toList ++ r) = os.home ++ lit "/share/mnml".toList ++ r := by
      have : (os.home ++ lit "/share/mnml".toList ++ r).head? = some 47 := by
        cases hh : os.home with
        | nil => rw [hh] at h0; cases h0
        | cons x l => rw [hh] at h0; simpa using h0
      simp only [place, this, true_or, if_true]
    refine ⟨d, _, p, hc, .share hs, hr, ?_, ?_, hi, ht⟩
    · rw [e]; exact hr
    · rw [e]; exact hp

/-- **C58.** A file that does not exist, or cannot be opened, is NIL and changes nothing. -/
theorem C58_missing {os : Os} {ev : Val → M Val} {s : SSt} {f cwd e : List UInt8} (hc : curdir os s = .ok cwd) (he : Expands os f e)
    (hl : e.length < pathMax) (ha : (place (!s.dirs.isEmpty) cwd e).length < pathMax)
    (h : (∃ d b, place (!s.dirs.isEmpty) cwd e = d ++ 47 :: b ∧ (47 : UInt8) ∉ b ∧ os.realpath (d ++ 47 :: b) = none ∧ os.realpath d = none) ∨
      ∃ d b p, os.realpath (place (!s.dirs.isEmpty) cwd e) = some p ∧ InDir d b p ∧ os.fopen p = none) (n : Nat) : loadFile os ev (n + 1) f s = .ok (nil, s) := by
  have ho : openFile os f s = .ok none := by
    rcases h with ⟨d, b, h1, h2, h3, h4⟩ | ⟨d, b, p, h1, h2, h3⟩
    · have := C55_missing (os := os) (chan := !s.dirs.isEmpty) (cwd := cwd) (f := f) (d := d) (b := b) he hl ha (by rw [h1]; exact h3) h1 h2 h4
      simp [openFile, hc, this]
    · simp [openFile, hc, C55_existing he hl ha h1, h2.dirname, h3]
  simp [loadFile, ho]

/-- The arguments of `load` are evaluated and loaded one after the other. -/
inductive Loads (os : Os) (ev : Val → M Val) : List Val → SSt → Val → SSt → Prop where
  | one {n : Nat} {e a r : Val} {s s' : SSt} {st : St} (h : ev e s.st = .ok (a, st)) (h1 : loadOne os ev n a { s with st := st } = .ok (r, s')) :
      Loads os ev [e] s r s'
  | more {n : Nat} {e a r w : Val} {es : List Val} {s s1 s' : SSt} {st : St} (h : ev e s.st = .ok (a, st))
      (h1 : loadOne os ev n a { s with st := st } = .ok (r, s1)) (h0 : es ≠ []) (ht : Loads os ev es s1 w s') : Loads os ev (e :: es) s w s'

theorem loadArgs_loads {os : Os} {ev : Val → M Val} {es : List Val} (h0 : es ≠ []) (s : SSt) (r : Val) (s' : SSt) :
    (∃ n, loadArgs os ev n (ofList es) s = .ok (r, s')) ↔ Loads os ev es s r s' := by
  induction es generalizing s with
  | nil => exact absurd rfl h0
  | cons e es ih =>
    constructor
    · rintro ⟨n, h⟩
      cases n with
      | zero => simp [loadArgs] at h
      | succ n =>
        simp only [loadArgs, ofList, Val.car, Val.cdr] at h
        obtain ⟨⟨a, st⟩, h1, h⟩ := Res.bind_eq_ok.1 h
        obtain ⟨⟨u, s1⟩, h2, h⟩ := Res.bind_eq_ok.1 h
        cases es with
        | nil =>
          simp only [ofList, isNil, if_true] at h
          cases h
          exact .one h1 h2
        | cons e' es =>
          simp only [ofList, isNil, Bool.false_eq_true, if_false] at h
          exact .more h1 h2 (by simp) ((ih (by simp) s1).1 ⟨n, by simpa [ofList] using h⟩)
    · intro h
      cases h with
      | @one n _ a _ _ _ st h1 h2 =>
        exact ⟨n + 1, by simp [loadArgs, ofList, Val.car, Val.cdr, h1, h2, isNil]⟩
      | @more n _ a u _ _ _ s1 _ st h1 h2 hne ht =>
        obtain ⟨m, hm⟩ := (ih hne s1).2 ht
        refine ⟨max n m + 1, ?_⟩
        have a1 := ((script_le os ev n (max n m) (by omega)).2.2.1 a { s with st := st }).ok h2
        have a2 := ((script_le os ev m (max n m) (by omega)).2.1 (ofList es) s1).ok hm
        have a3 : (ofList es).isNil = false := by cases es with
          | nil => exact absurd rfl hne
          | cons x l => rfl
        simp [loadArgs, ofList, Val.car, Val.cdr, h1, a1, a2, a3]

/-- **C58.** `(load E1 … En)` evaluates and loads its arguments in their order and returns the result of the last one. -/
theorem C58_load {os : Os} {ev : Val → M Val} {es : List Val} (h0 : es ≠ []) (s : SSt) (r : Val) (s' : SSt) (f tc : Bool)
    (hl : s.st.globals Native.load.name = some Native.load.val) :
    (∃ n, evalTop os ev n (pair f (sym tc Native.load.name) (ofList es)) s = .ok (r, s')) ↔ Loads os ev es s r s' := by
  rw [← loadArgs_loads h0]
  have hi : isLoad s (pair f (sym tc Native.load.name) (ofList es)) = some (ofList es) := by simp [isLoad, hl]
  constructor
  · rintro ⟨n, h⟩
    cases n with
    | zero => simp [evalTop] at h
    | succ n => exact ⟨n, by simpa [evalTop, hi] using h⟩
  · rintro ⟨n, h⟩
    exact ⟨n + 1, by simpa [evalTop, hi] using h⟩

/-- **C58.** An argument that is a string is the name of a script. -/
theorem C58_string {os : Os} {ev : Val → M Val} {f : List UInt8} (hf : Plain f) (h0 : f ≠ []) (hl : f.length ≤ pathMax) (s : SSt) (r : Val) (s' : SSt) :
    (∃ n, loadOne os ev n (strVal (f.map charOf)) s = .ok (r, s')) ↔ ∃ n, loadFile os ev n f s = .ok (r, s') := by
  have e := cbuffer_plain (cap := pathMax + 1) hf (by omega) pathMax hl
  rw [makeString_plain f fun x hx => (hf x hx).1] at e
  have hs : (strVal (f.map charOf)).isString = true := strVal_isString _
  obtain ⟨g, a, d, hv⟩ : ∃ g a d, strVal (f.map charOf) = pair g a d := by
    cases f with
    | nil => exact absurd rfl h0
    | cons b l => exact ⟨_, _, _, rfl⟩
  rw [hv] at e hs ⊢
  constructor
  · rintro ⟨n, h⟩
    cases n with
    | zero => simp [loadOne] at h
    | succ n => exact ⟨n, by simpa [loadOne, hs, e] using h⟩
  · rintro ⟨n, h⟩
    exact ⟨n + 1, by simpa [loadOne, hs, e] using h⟩

/-- **C58.** Not in a directory with a backslash in its name: in a script of the directory `/a\nb` (five characters), relative names are looked up
in another directory, whose name contains a line feed. -/
theorem C58_backslash_counterexample (os : Os) (s : SSt) : curdir os (push [47, 97, 92, 110, 98] s) = .ok [47, 97, 10, 98] := by
  show cbuffer (strVal (makeString [47, 97, 92, 110, 98] 5)) pathMax pathMax = _
  decide +kernel

/-! ### Examples for C58 -/

/-- Two scripts: `/w/a.l` loads `sub/b.l`, which loads `c.l` of its own directory. -/
def demoScripts : Os := { demo with
  realpath := fun p => some p
  fopen := fun p =>
    if p = lit ['/', 'w', '/', 'a', '.', 'l'] then some (lit ['(', 'l', 'o', 'a', 'd', ' ', '"', 's', 'u', 'b', '/', 'b', '.', 'l', '"', ')', '\n', '(', 'l',
      'o', 'a', 'd', ' ', '"', 's', 'u', 'b', '/', 'b', '.', 'l', '"', ')'])
    else if p = lit ['/', 'w', '/', 's', 'u', 'b', '/', 'b', '.', 'l'] then some (lit ['1', '(', 'l', 'o', 'a', 'd', ' ', '"', 'c', '.', 'l', '"', ')', '\n'])
    else if p = lit ['/', 'w', '/', 's', 'u', 'b', '/', 'c', '.', 'l'] then some (lit ['5', ' ', '6'])
    else none }

/-- A state in which `load` is defined. -/
def loadSt : SSt := { emptySt with st := ⟨fun t => if t = Native.load.name then some Native.load.val else none, []⟩ }

/-- The hypotheses of `C58_script`, by `C58_relative`: `sub/b.l` in a script of `/w`. -/
example : Finds demoScripts (push (lit ['/', 'w']) loadSt) (lit ['s', 'u', 'b', '/', 'b', '.', 'l']) (lit ['/', 'w', '/', 's', 'u', 'b'])
    (lit ['b', '.', 'l']) (lit ['1', '(', 'l', 'o', 'a', 'd', ' ', '"', 'c', '.', 'l', '"', ')', '\n']) :=
  C58_relative (by unfold Plain; decide) (by decide +kernel) (by rw [lit_lib]; decide) (by decide) (by decide) (p := lit ['/', 'w', '/', 's', 'u', 'b', '/', 'b', '.', 'l'])
    (by decide +kernel) ⟨by decide +kernel, .inr (by decide +kernel)⟩ (by decide +kernel)

/-- A script of the root directory. -/
example : InDir [47] (lit ['f']) (lit ['/', 'f']) := ⟨by decide +kernel, .inl (by decide +kernel)⟩

/-- The text of `b.l` is read to its end. -/
example : (drain (fun _ => .unsupported) 5 .init (lit ['1', '(', 'l', 'o', 'a', 'd', ' ', '"', 'c', '.', 'l', '"', ')', '\n'])).bind (fun q => .ok q.ps.vals) =
    .ok [num 1, ofList [ofSym Native.load.name, strVal [99, 46, 108]]] := by
  decide +kernel

/-- The whole run: `/w/a.l` returns 6, and the stack of directories is empty again. -/
example : (loadFile demoScripts (evalN 10 nil) 30 (lit ['/', 'w', '/', 'a', '.', 'l']) loadSt).bind (fun q => .ok (q.1, q.2.dirs)) = .ok (num 6, []) := by
  decide +kernel

/-- The hypotheses of `C58_missing`: `no.l` next to a script of `/w`, where it cannot be opened. -/
example : curdir demoScripts (push (lit ['/', 'w']) loadSt) = .ok (lit ['/', 'w']) ∧
    demoScripts.realpath (place true (lit ['/', 'w']) (lit ['n', 'o', '.', 'l'])) = some (lit ['/', 'w'] ++ 47 :: lit ['n', 'o', '.', 'l']) ∧
    demoScripts.fopen (lit ['/', 'w'] ++ 47 :: lit ['n', 'o', '.', 'l']) = none := by
  decide +kernel

/-- The hypotheses of `C58_load` and `C58_string`. -/
example : loadSt.st.globals Native.load.name = some Native.load.val ∧ Plain (lit ['s', 'u', 'b', '/', 'b', '.', 'l']) :=
  ⟨rfl, by unfold Plain; decide⟩

end Module
end Mnml
