import Verif.Module
import Verif.PropStr

/-!
# C55, C56: paths of files and of modules
-/

namespace Mnml
namespace Module

open Val Lex

/-! ## C55: the path that a file name stands for -/

theorem copy_ok {cap : Nat} {s : List UInt8} (h : s.length < cap) : copy cap s = .ok s := if_pos h

theorem copy_ub {cap : Nat} {s : List UInt8} (h : cap ≤ s.length) : copy cap s = .ub .outOfBounds := if_neg (by omega)

theorem lastSlash_none {l : List UInt8} : lastSlash l = none ↔ (47 : UInt8) ∉ l := by
  induction l with
  | nil => simp [lastSlash]
  | cons b l ih =>
    rw [lastSlash]
    cases h : lastSlash l with
    | some q => simp [h] at ih; simp [ih]
    | none =>
      simp only [h, true_iff] at ih
      by_cases hb : b = 47
      · simp [hb]
      · simp [hb, ih, Ne.symm hb]

theorem lastSlash_append {d b : List UInt8} (h : (47 : UInt8) ∉ b) : lastSlash (d ++ 47 :: b) = some (d, b) := by
  induction d with
  | nil => rw [List.nil_append, lastSlash, lastSlash_none.2 h]; simp
  | cons x d ih => rw [List.cons_append, lastSlash, ih]

/-- A string with a `/` ends with a last one. -/
theorem split_slash {l : List UInt8} (h : (47 : UInt8) ∈ l) : ∃ d b, l = d ++ 47 :: b ∧ (47 : UInt8) ∉ b := by
  induction l with
  | nil => simp at h
  | cons x l ih =>
    by_cases hl : (47 : UInt8) ∈ l
    · obtain ⟨d, b, rfl, hb⟩ := ih hl
      exact ⟨x :: d, b, rfl, hb⟩
    · have : x = 47 := by simpa [hl, eq_comm] using h
      exact ⟨[], l, by simp [this], hl⟩

/-- What the beginning of a file name stands for: `@lib` for the directory of the library, `~` for the home directory. -/
inductive Expands (os : Os) : List UInt8 → List UInt8 → Prop where
  | lib {p r : List UInt8} (h : os.getenv (lit "MNML_SCRIPT_PATH".toList) = some p) : Expands os (lit "@lib".toList ++ r) (p ++ r)
  | share {r : List UInt8} (h : os.getenv (lit "MNML_SCRIPT_PATH".toList) = none) :
      Expands os (lit "@lib".toList ++ r) (os.home ++ lit "/share/mnml".toList ++ r)
  | home {p r : List UInt8} (h : os.getenv (lit "HOME".toList) = some p) : Expands os (126 :: r) (p ++ r)
  | tilde {r : List UInt8} (h : os.getenv (lit "HOME".toList) = none) : Expands os (126 :: r) (126 :: r)
  | other {f : List UInt8} (h : f.take 4 ≠ lit "@lib".toList) (h1 : f.head? ≠ some 126) : Expands os f f

theorem lit_lib : lit "@lib".toList = [64, 108, 105, 98] := by decide +kernel
theorem lit_lib' : lit ['@', 'l', 'i', 'b'] = [64, 108, 105, 98] := by decide
theorem lit_script : lit "MNML_SCRIPT_PATH".toList = lit ['M', 'N', 'M', 'L', '_', 'S', 'C', 'R', 'I', 'P', 'T', '_', 'P', 'A', 'T', 'H'] := by
  decide +kernel
theorem lit_home : lit "HOME".toList = lit ['H', 'O', 'M', 'E'] := by decide +kernel
theorem lit_share : lit "/share/mnml".toList = lit ['/', 's', 'h', 'a', 'r', 'e', '/', 'm', 'n', 'm', 'l'] := by decide +kernel

theorem expand_eq {os : Os} {f e : List UInt8} (h : Expands os f e) (hl : e.length < pathMax) : expand os f = .ok e := by
  cases h with
  | @lib p r h =>
    rw [lit_script] at h
    have e1 : (lit "@lib".toList ++ r).take 4 = lit ['@', 'l', 'i', 'b'] := by rw [lit_lib, lit_lib']; rfl
    have e2 : (lit "@lib".toList ++ r).drop 4 = r := by rw [lit_lib]; rfl
    unfold expand; rw [if_pos e1, h, e2]
    exact copy_ok hl
  | @share r h =>
    rw [lit_script] at h
    rw [lit_share] at hl ⊢
    have e1 : (lit "@lib".toList ++ r).take 4 = lit ['@', 'l', 'i', 'b'] := by rw [lit_lib, lit_lib']; rfl
    have e2 : (lit "@lib".toList ++ r).drop 4 = r := by rw [lit_lib]; rfl
    unfold expand; rw [if_pos e1, h, e2]
    exact copy_ok hl
  | @home p r h =>
    rw [lit_home] at h
    unfold expand; rw [if_neg (by rw [lit_lib']; cases r <;> simp)]
    simp [h, copy_ok hl]
  | @tilde r h =>
    rw [lit_home] at h
    unfold expand; rw [if_neg (by rw [lit_lib']; cases r <;> simp)]
    simp [h, copy_ok hl]
  | other h h1 =>
    rw [lit_lib, ← lit_lib'] at h
    unfold expand; rw [if_neg h]
    split
    · simp at h1
    · exact copy_ok hl

/-- Every name stands for something. -/
theorem expands_total (os : Os) (f : List UInt8) : ∃ e, Expands os f e := by
  by_cases h : f.take 4 = lit "@lib".toList
  · have : f = lit "@lib".toList ++ f.drop 4 := by rw [← h, List.take_append_drop]
    rw [this]
    cases hg : os.getenv (lit "MNML_SCRIPT_PATH".toList) with
    | none => exact ⟨_, .share hg⟩
    | some p => exact ⟨_, .lib hg⟩
  · by_cases h1 : f.head? = some 126
    · obtain ⟨r, rfl⟩ : ∃ r, f = 126 :: r := by
        cases f with
        | nil => simp at h1
        | cons b r => simp at h1; exact ⟨r, by rw [h1]⟩
      cases hg : os.getenv (lit "HOME".toList) with
      | none => exact ⟨_, .tilde hg⟩
      | some p => exact ⟨_, .home hg⟩
    · exact ⟨_, .other h h1⟩

/-- The path in a directory: an absolute path is itself, also every path when there is no input channel. -/
def place (chan : Bool) (cwd e : List UInt8) : List UInt8 := if e.head? = some 47 ∨ chan = false then e else cwd ++ 47 :: e

theorem place_eq {chan : Bool} {cwd e : List UInt8} (h : (place chan cwd e).length < pathMax) :
    absolute chan cwd e = .ok (place chan cwd e) := by
  unfold place at h
  unfold absolute place
  by_cases h1 : e.head? = some 47
  · simp [h1]
  · cases chan with
    | false => simp
    | true =>
      simp only [h1, false_or, Bool.true_eq_false, if_false] at h ⊢
      rw [if_pos ⟨h1, trivial⟩, copy_ok h]

/-- **C55.** A file that exists is found under its canonical path, whatever way it is named. -/
theorem C55_existing {os : Os} {chan : Bool} {cwd f e p : List UInt8} (he : Expands os f e) (hl : e.length < pathMax)
    (ha : (place chan cwd e).length < pathMax) (hp : os.realpath (place chan cwd e) = some p) :
    fullpath os chan cwd f = .ok (some p) := by
  simp [fullpath, expand_eq he hl, place_eq ha, hp]

/-- **C55.** A file that does not exist in a directory that does gets the canonical path of the directory. -/
theorem C55_new {os : Os} {chan : Bool} {cwd f e d b p : List UInt8} (he : Expands os f e) (hl : e.length < pathMax)
    (ha : (place chan cwd e).length < pathMax) (hn : os.realpath (place chan cwd e) = none)
    (hs : place chan cwd e = d ++ 47 :: b) (hb : (47 : UInt8) ∉ b) (hd : os.realpath d = some p)
    (hr : (p ++ 47 :: b).length < pathMax) :
    fullpath os chan cwd f = .ok (some (p ++ 47 :: b)) := by
  simp only [fullpath, expand_eq he hl, Res.ok_bind, place_eq ha, hn]
  rw [hs, lastSlash_append hb]
  simp [hd, copy_ok hr]

/-- **C55.** Without the directory there is no path. -/
theorem C55_missing {os : Os} {chan : Bool} {cwd f e d b : List UInt8} (he : Expands os f e) (hl : e.length < pathMax)
    (ha : (place chan cwd e).length < pathMax) (hn : os.realpath (place chan cwd e) = none)
    (hs : place chan cwd e = d ++ 47 :: b) (hb : (47 : UInt8) ∉ b) (hd : os.realpath d = none) :
    fullpath os chan cwd f = .ok none := by
  simp only [fullpath, expand_eq he hl, Res.ok_bind, place_eq ha, hn]
  rw [hs, lastSlash_append hb]
  simp [hd]

/-- **C55.** Inside of a script or of the prompt no name leads to undefined behaviour, as long as no path reaches the size of the buffers. -/
theorem C55_safe {os : Os} {cwd f : List UInt8} (hf : ∀ e, Expands os f e → e.length < pathMax ∧ (cwd ++ 47 :: e).length < pathMax)
    (hr : ∀ e a p, Expands os f e → os.realpath a = some p → p.length + 1 + e.length < pathMax) :
    ∃ r, fullpath os true cwd f = .ok r := by
  obtain ⟨e, he⟩ := expands_total os f
  obtain ⟨hl, hc⟩ := hf e he
  have ha : (place true cwd e).length < pathMax := by unfold place; split <;> assumption
  cases hp : os.realpath (place true cwd e) with
  | some p => exact ⟨_, C55_existing he hl ha hp⟩
  | none =>
    have hm : (47 : UInt8) ∈ place true cwd e := by
      unfold place
      split
      · next h =>
        rcases h with h | h
        · cases e with
          | nil => simp at h
          | cons x e => simp at h; simp [h]
        · simp at h
      · simp
    obtain ⟨d, b, hs, hb⟩ := split_slash hm
    cases hd : os.realpath d with
    | none => exact ⟨_, C55_missing he hl ha hp hs hb hd⟩
    | some p =>
      refine ⟨_, C55_new he hl ha hp hs hb hd ?_⟩
      have h1 := hr e d p he hd
      have h2 : b.length ≤ e.length := by
        unfold place at hs
        split at hs
        · rw [hs]; simp; omega
        · rcases Nat.lt_or_ge e.length b.length with h | h
          · exfalso
            have h3 := congrArg (fun l => (l.reverse)[e.length]?) hs
            simp only [List.reverse_append, List.reverse_cons, List.append_assoc] at h3
            rw [List.getElem?_append_right (l₁ := e.reverse) (by simp),
              List.getElem?_append_left (l₁ := b.reverse) (by simpa using h)] at h3
            simp only [List.length_reverse, Nat.sub_self] at h3
            have h4 : (47 : UInt8) ∈ b.reverse := List.mem_of_getElem? (h3.symm.trans (by simp))
            exact hb (by simpa using h4)
          · exact h
      simp; omega

/-- A small system for the examples: `/w/a.l` and `/u/share/mnml/rev.l` are files, `/w`, `/u/lib/mnml`, `/h/.mnml` and `/m` are directories. -/
def demo : Os where
  home := lit ['/', 'u']
  getenv := fun v =>
    if v = lit ['H', 'O', 'M', 'E'] then some (lit ['/', 'h'])
    else if v = lit ['P', 'W', 'D'] then some (lit ['/', 'w'])
    else if v = lit ['M', 'N', 'M', 'L', '_', 'M', 'O', 'D', 'U', 'L', 'E', '_', 'P', 'A', 'T', 'H'] then some (lit ['/', 'x', ':', ':', '/', 'm'])
    else none
  realpath := fun p =>
    if p = lit ['/', 'w', '/', '.', '.', '/', 'w', '/', 'a', '.', 'l'] then some (lit ['/', 'w', '/', 'a', '.', 'l'])
    else if p ∈ [lit ['/', 'w', '/', 'a', '.', 'l'], lit ['/', 'w'], lit ['/'],
      lit ['/', 'u', '/', 's', 'h', 'a', 'r', 'e', '/', 'm', 'n', 'm', 'l', '/', 'r', 'e', 'v', '.', 'l']] then some p
    else none
  fopen := fun p => if p = lit ['/', 'w', '/', 'a', '.', 'l'] then some (lit ['1', '\n', '2', '\n']) else none
  opendir := fun d =>
    if d = lit ['/', 'u', '/', 'l', 'i', 'b', '/', 'm', 'n', 'm', 'l'] then some [lit ['.'], lit ['l', 'i', 'b', 's', '.', 's', 'o']]
    else if d = lit ['/', 'm'] then some [lit ['l', 'i', 'b', 't', '.', 's', 'o'], lit ['l', 'i', 'b', 's', '.', 's', 'o']]
    else none
  dlopen := fun _ => none
  slack := 10

/-- The hypotheses of `C55_existing`: `../w/a.l` from `/w`. -/
example : Expands demo (lit ['.', '.', '/', 'w', '/', 'a', '.', 'l']) (lit ['.', '.', '/', 'w', '/', 'a', '.', 'l']) ∧
    demo.realpath (place true (lit ['/', 'w']) (lit ['.', '.', '/', 'w', '/', 'a', '.', 'l'])) = some (lit ['/', 'w', '/', 'a', '.', 'l']) :=
  ⟨.other (by rw [lit_lib]; decide) (by decide), by decide⟩

/-- The hypotheses of `C55_new`: a file `new` in `/w`, which does not exist. -/
example : demo.realpath (place true (lit ['/', 'w']) (lit ['n', 'e', 'w'])) = none ∧
    place true (lit ['/', 'w']) (lit ['n', 'e', 'w']) = lit ['/', 'w'] ++ 47 :: lit ['n', 'e', 'w'] ∧
    demo.realpath (lit ['/', 'w']) = some (lit ['/', 'w']) := by decide

/-- The hypotheses of `C55_missing`: a file in `/w/no`. -/
example : demo.realpath (lit ['/', 'w', '/', 'n', 'o', '/', 'f']) = none ∧ demo.realpath (lit ['/', 'w', '/', 'n', 'o']) = none := by decide

/-- The hypotheses of `C55_safe`. -/
example : (∀ e, Expands demo (lit ['x']) e → e.length < pathMax ∧ (lit ['/', 'w'] ++ 47 :: e).length < pathMax) ∧
    ∀ e a p, Expands demo (lit ['x']) e → demo.realpath a = some p → p.length + 1 + e.length < pathMax := by
  have h1 : ∀ e, Expands demo (lit ['x']) e → e = lit ['x'] := by
    intro e h
    generalize hx : lit ['x'] = x at h
    cases h with
    | lib h => rw [lit_lib] at hx; cases hx
    | share h => rw [lit_lib] at hx; cases hx
    | home h => cases hx
    | tilde h => cases hx
    | other h h1 => rfl
  refine ⟨fun e h => by rw [h1 e h]; decide, fun e a p h hp => ?_⟩
  rw [h1 e h]
  simp only [demo] at hp
  split at hp
  · cases hp; decide
  · split at hp
    · next hm =>
      cases hp
      simp only [List.mem_cons, List.not_mem_nil, or_false] at hm
      rcases hm with rfl | rfl | rfl | rfl <;> decide
    · cases hp

/-- **C55.** Not without an input channel: the name of a file that does not exist, without a `/`, on the command line (`mnml missing.l`) makes
`lisp_get_fullpath` write in front of its buffer. -/
theorem C55_command_counterexample (os : Os) (cwd f : List UInt8) (hf : f.take 4 ≠ lit "@lib".toList) (ht : f.head? ≠ some 126)
    (hs : (47 : UInt8) ∉ f) (hl : f.length < pathMax) (hn : os.realpath f = none) :
    fullpath os false cwd f = .ub .outOfBounds := by
  have e1 : place false cwd f = f := by simp [place]
  have e2 : absolute false cwd f = .ok f := by simp [absolute]
  rw [fullpath, expand_eq (.other hf ht) hl]
  simp only [Res.ok_bind, e2, hn]
  rw [lastSlash_none.2 hs]

example : lit ['m', '.', 'l'] |>.take 4 |> (· ≠ [64, 108, 105, 98]) := by decide
example : fullpath demo false [] (lit ['m', '.', 'l']) = .ub .outOfBounds := by decide

/-- **C55.** A file that does not exist in the root directory has no path, though the directory exists: its name is cut to the empty
string. -/
theorem C55_root_counterexample (os : Os) (chan : Bool) (cwd b : List UInt8) (hb : (47 : UInt8) ∉ b) (hl : b.length + 1 < pathMax)
    (hn : os.realpath (47 :: b) = none) (he : os.realpath [] = none) :
    fullpath os chan cwd (47 :: b) = .ok none := by
  have e1 : place chan cwd (47 :: b) = 47 :: b := by simp [place]
  refine C55_missing (d := []) (b := b) (.other ?_ (by simp)) (by simpa using hl) ?_ ?_ ?_ hb he
  · rw [lit_lib]; simp
  · rw [e1]; simpa using hl
  · rw [e1]; exact hn
  · rw [e1]; rfl

example : demo.realpath (lit ['/', 'f']) = none ∧ demo.realpath [] = none ∧ demo.realpath [47] = some [47] ∧
    fullpath demo true [] (lit ['/', 'f']) = .ok none := by decide

/-! ## C56: the search for a module -/

/-- The name of the file of a module. -/
def soName (s : Sym) : List UInt8 := lit "lib".toList ++ s.name ++ lit ".so".toList

/-- The directory has the file of the module. -/
def Holds (os : Os) (s : Sym) (d : List UInt8) : Prop := ∃ l, os.opendir d = some l ∧ soName s ∈ l

theorem name_length (s : Sym) : s.name.length ≤ 16 := by
  have h1 : s.name.length ≤ s.bytes.length := (List.takeWhile_prefix _).length_le
  have h2 := s.len
  omega

theorem soName_length (s : Sym) : (soName s).length = s.name.length + 6 := by
  have h1 : (lit "lib".toList).length = 3 := by decide +kernel
  have h2 : (lit ".so".toList).length = 3 := by decide +kernel
  rw [soName, List.length_append, List.length_append, h1, h2]; omega

theorem libName_eq {os : Os} (h : 1 ≤ os.slack) (s : Sym) : libName os s.name = .ok (soName s) := by
  have h1 : lit "lib".toList = lit ['l', 'i', 'b'] := by decide +kernel
  have h2 : lit ".so".toList = lit ['.', 's', 'o'] := by decide +kernel
  have h3 := soName_length s
  rw [soName, h1, h2] at h3
  rw [libName, soName, h1, h2, copy_ok (by omega)]

theorem findIn_some (os : Os) (name : List UInt8) (ds : List (List UInt8)) (p : List UInt8) :
    findIn os name ds (some p) = .ok (some p) := by
  induction ds with
  | nil => rfl
  | cons d ds ih => rw [findIn, ih]

/-- What the search path has to be for the functions to be defined: the buffers are sufficient and there are no NUL bytes. -/
structure Fits (os : Os) (ps : List UInt8) : Prop where
  paths : modulePaths os = .ok ps
  nul : (0 : UInt8) ∉ ps
  dirs : ∀ segs, Path.Segments 58 ps segs → ∀ d ∈ segs, d.length + 23 < pathMax
  slack : 1 ≤ os.slack

theorem findAtPath_not {os : Os} {s : Sym} {d : List UInt8} (hk : 1 ≤ os.slack) (h : ¬Holds os s d) :
    findAtPath os d s.name = .ok none := by
  rw [findAtPath]
  cases ho : os.opendir d with
  | none => rfl
  | some l =>
    have hl : soName s ∉ l := fun hm => h ⟨l, ho, hm⟩
    simp only [libName_eq hk, Res.ok_bind]
    rw [if_neg hl]

theorem findAtPath_holds {os : Os} {s : Sym} {d : List UInt8} (hk : 1 ≤ os.slack) (h : Holds os s d) (hd : d.length + 23 < pathMax) :
    findAtPath os d s.name = .ok (some (d ++ 47 :: soName s)) := by
  obtain ⟨l, ho, hl⟩ := h
  have h1 := soName_length s
  have h2 := name_length s
  rw [findAtPath]
  simp only [ho, libName_eq hk, Res.ok_bind]
  rw [if_pos hl, copy_ok (by simp; omega), Res.ok_bind]

theorem findIn_not {os : Os} {s : Sym} {ds : List (List UInt8)} (hk : 1 ≤ os.slack) (h : ∀ d ∈ ds, ¬Holds os s d) (rest : List (List UInt8)) :
    findIn os s.name (ds ++ rest) none = findIn os s.name rest none := by
  induction ds with
  | nil => rfl
  | cons d ds ih =>
    rw [List.cons_append, findIn, findAtPath_not hk (h d (by simp)), Res.ok_bind, ih fun x hx => h x (by simp [hx])]

theorem find_eq {os : Os} {ps : List UInt8} {segs : List (List UInt8)} (hf : Fits os ps) (hs : Path.Segments 58 ps segs) (s : Sym) :
    find os s = findIn os s.name (segs.filter fun e => !e.isEmpty) none := by
  rw [find, hf.paths, Res.ok_bind, Path.C47_segments 58 ps (by decide) hf.nul segs hs, Res.ok_bind]

/-- **C56.** The first directory of the search path that has the file of a module is the one that the module is loaded from. Empty entries
of the path are skipped. -/
theorem C56_first {os : Os} {ps : List UInt8} {pre post : List (List UInt8)} {d : List UInt8} (hf : Fits os ps)
    (hs : Path.Segments 58 ps (pre ++ d :: post)) (s : Sym) (hp : ∀ e ∈ pre, e ≠ [] → ¬Holds os s e) (h0 : d ≠ [])
    (hd : Holds os s d) : find os s = .ok (some (d ++ 47 :: soName s)) := by
  have h1 : (!d.isEmpty) = true := by cases d <;> simp_all
  rw [find_eq hf hs, List.filter_append, List.filter_cons_of_pos (p := fun e : List UInt8 => !e.isEmpty) h1, findIn_not hf.slack]
  · rw [findIn, findAtPath_holds hf.slack hd (hf.dirs _ hs d (by simp)), Res.ok_bind, findIn_some]
  · intro e he
    simp only [List.mem_filter, Bool.not_eq_true', List.isEmpty_eq_false_iff] at he
    exact hp e he.1 he.2

/-- **C56.** A module that no directory of the search path has is not found. -/
theorem C56_none {os : Os} {ps : List UInt8} {segs : List (List UInt8)} (hf : Fits os ps) (hs : Path.Segments 58 ps segs) (s : Sym)
    (h : ∀ d ∈ segs, d ≠ [] → ¬Holds os s d) : find os s = .ok none := by
  have := findIn_not (os := os) (s := s) (ds := segs.filter fun e => !e.isEmpty) hf.slack (by
    intro e he
    simp only [List.mem_filter, Bool.not_eq_true', List.isEmpty_eq_false_iff] at he
    exact h e he.1 he.2) []
  rw [find_eq hf hs]
  rw [List.append_nil] at this
  rw [this]; rfl

theorem lit_modpath : lit "MNML_MODULE_PATH".toList =
    lit ['M', 'N', 'M', 'L', '_', 'M', 'O', 'D', 'U', 'L', 'E', '_', 'P', 'A', 'T', 'H'] := by decide +kernel

/-- **C56.** The search path: the directory of the installation, the directory of the user, then `MNML_MODULE_PATH`. -/
theorem C56_path {os : Os} {h : List UInt8} (hh : os.getenv (lit "HOME".toList) = some h)
    (h1 : os.home.length + 9 < pathMax) (h2 : h.length + 6 < pathMax) :
    (os.getenv (lit "MNML_MODULE_PATH".toList) = none →
      modulePaths os = .ok (os.home ++ lit "/lib/mnml".toList ++ 58 :: (h ++ lit "/.mnml".toList))) ∧
    ∀ m, os.getenv (lit "MNML_MODULE_PATH".toList) = some m → os.home.length + h.length + m.length + 17 < 8192 →
      modulePaths os = .ok (os.home ++ lit "/lib/mnml".toList ++ 58 :: (h ++ lit "/.mnml".toList) ++ 58 :: m) := by
  have e1 : lit "/lib/mnml".toList = lit ['/', 'l', 'i', 'b', '/', 'm', 'n', 'm', 'l'] := by decide +kernel
  have e2 : lit "/.mnml".toList = lit ['/', '.', 'm', 'n', 'm', 'l'] := by decide +kernel
  have l1 : (lit ['/', 'l', 'i', 'b', '/', 'm', 'n', 'm', 'l']).length = 9 := by decide
  have l2 : (lit ['/', '.', 'm', 'n', 'm', 'l']).length = 6 := by decide
  rw [lit_home] at hh
  rw [lit_modpath, e1, e2]
  have hp : libraryPrefix os = .ok (os.home ++ lit ['/', 'l', 'i', 'b', '/', 'm', 'n', 'm', 'l']) := by
    rw [libraryPrefix, copy_ok (by rw [List.length_append, l1]; exact h1)]
  have hu : usercachePrefix os = .ok (h ++ lit ['/', '.', 'm', 'n', 'm', 'l']) := by
    rw [usercachePrefix, hh]
    simp only
    rw [copy_ok (by rw [List.length_append, l2]; exact h2)]
  have hc : (os.home ++ lit ['/', 'l', 'i', 'b', '/', 'm', 'n', 'm', 'l'] ++ 58 :: (h ++ lit ['/', '.', 'm', 'n', 'm', 'l'])).length < 8192 := by
    simp only [List.length_append, List.length_cons, l1, l2]
    simp only [pathMax] at h1 h2
    omega
  constructor
  · intro hm
    rw [modulePaths, hp, Res.ok_bind, hu, Res.ok_bind, copy_ok hc, Res.ok_bind, hm]
  · intro m hm hl
    rw [modulePaths, hp, Res.ok_bind, hu, Res.ok_bind, copy_ok hc, Res.ok_bind, hm]
    simp only
    rw [copy_ok]
    simp only [List.length_append, List.length_cons, l1, l2]
    omega

/-- The search path of the example: `/u/lib/mnml:/h/.mnml:/x::/m`. -/
example : modulePaths demo = .ok (lit ['/', 'u', '/', 'l', 'i', 'b', '/', 'm', 'n', 'm', 'l', ':', '/', 'h', '/', '.', 'm', 'n', 'm', 'l', ':', '/', 'x',
      ':', ':', '/', 'm']) ∧
    find demo (symLit ['s']) = .ok (some (lit ['/', 'u', '/', 'l', 'i', 'b', '/', 'm', 'n', 'm', 'l', '/', 'l', 'i', 'b', 's', '.', 's', 'o'])) ∧
    find demo (symLit ['t']) = .ok (some (lit ['/', 'm', '/', 'l', 'i', 'b', 't', '.', 's', 'o'])) ∧
    find demo (symLit ['u']) = .ok none := by
  decide +kernel

private def demoSegs : List (List UInt8) :=
  [lit ['/', 'u', '/', 'l', 'i', 'b', '/', 'm', 'n', 'm', 'l'], lit ['/', 'h', '/', '.', 'm', 'n', 'm', 'l'], lit ['/', 'x'], [], lit ['/', 'm']]

private theorem demo_segments : Path.Segments 58 (Path.joinWith 58 demoSegs) demoSegs :=
  ⟨by decide, by decide, rfl⟩

/-- The hypotheses of C56 hold in the example. -/
theorem demo_fits : Fits demo (Path.joinWith 58 demoSegs) where
  paths := by decide +kernel
  nul := by decide +kernel
  dirs := fun segs hs d hd => by
    rw [hs.unique demo_segments] at hd
    revert d
    decide +kernel
  slack := by decide

/-- **C56.** By the C standard, every search for a module writes behind the block of the file name as soon as a directory can be opened: the
NUL of `libNAME.so` does not fit (`lib/core/module.c:113`). It works only because blocks of `alloca` are rounded up. -/
theorem C56_overflow_counterexample {os : Os} (hk : os.slack = 0) {ps : List UInt8} (hp : modulePaths os = .ok ps) (h0 : (0 : UInt8) ∉ ps)
    {d : List UInt8} {post : List (List UInt8)} (hs : Path.Segments 58 ps (d :: post)) (hd : d ≠ []) {l : List (List UInt8)}
    (ho : os.opendir d = some l) (s : Sym) : find os s = .ub .outOfBounds := by
  have h1 : (!d.isEmpty) = true := by cases d <;> simp_all
  have h2 : libName os s.name = .ub .outOfBounds := by
    rw [libName, hk, copy_ub]
    simp [lit]
  rw [find, hp, Res.ok_bind, Path.C47_segments 58 ps (by decide) h0 _ hs, Res.ok_bind, List.filter_cons_of_pos (p := fun e : List UInt8 => !e.isEmpty) h1, findIn, findAtPath, ho]
  simp only [h2, Res.ub_bind]

/-- The hypotheses of the counterexample. -/
example : ({ demo with slack := 0 } : Os).opendir (lit ['/', 'u', '/', 'l', 'i', 'b', '/', 'm', 'n', 'm', 'l']) ≠ none ∧
    find { demo with slack := 0 } (symLit ['s']) = .ub .outOfBounds := by decide +kernel

end Module
end Mnml
