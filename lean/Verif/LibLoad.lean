import Verif.LibText
import Verif.PropMain
import Verif.PropNum

/-!
# Loading the lisp library

What the state is after a file of the library has been loaded: the tables of the modules, and for each file the definitions that
loading it adds, including those of the files and modules that it loads itself.
-/

namespace Mnml
namespace Lib

open Val Lex Module

/-! ## The modules -/

/-- The entries of a library made of natives. -/
def natTable (ns : List Native) : List (List UInt8 × Val) := ns.map fun a => (a.name.name, a.val)

/-- `lib/mnml/std/lib.c:38-71`. -/
def stdNatives : List Native :=
  [.car, .cdr, .chr, .conc, .cond, .cons, .def_, .eval, .if_, .isatm, .ischr, .islst, .isnil, .isnum, .isstr, .issym, .istru, .lambda, .len, .let_,
    .list, .load, .match_, .prog, .quit, .quote, .set, .setq, .str, .stream, .sym, .unless_, .when_, .while_]

/-- `lib/mnml/logic/lib.c:9-13`. -/
def logicNatives : List Native := [.and, .equ, .neq, .not, .or]

/-- `lib/mnml/math/lib.c:13-19`. -/
def mathNatives : List Native := [.add, .div, .ge, .gt, .le, .lt, .mod, .mul, .sub]

/-- `lib/mnml/io/lib.c:12-20`. -/
def ioNatives : List Native := [.in_, .out, .prin, .prinl, .print, .printl, .read, .readline]

/-- The modules by name. -/
def modules : List (Sym × List Native) := [(n "std", stdNatives), (n "logic", logicNatives), (n "math", mathNatives), (n "io", ioNatives)]

/-! ## States -/

/-- Definitions on top of a state; the first one of a name counts. -/
def over (tbl : List (Sym × Val)) (st : St) : St :=
  { st with globals := fun t => match tbl.find? (fun p => p.1 = t) with
    | some p => some p.2
    | none => st.globals t }

theorem over_nil (st : St) : over [] st = st := rfl

theorem over_append (a b : List (Sym × Val)) (st : St) : over (a ++ b) st = over a (over b st) := by
  simp only [over, St.mk.injEq, and_true]
  funext t
  rw [List.find?_append]
  cases a.find? (fun p => p.1 = t) <;> rfl

theorem over_define (s : String) (v : Val) (st : St) : define s v st = over [(n s, v)] st := by
  simp only [over, define, St.mk.injEq, and_true]
  funext t
  by_cases h : t = n s
  · simp [h]
  · simp [h, Ne.symm h]

/-- A table that has the definitions a program relies on. -/
theorem uses_over {U tbl : List (Sym × Val)} (st : St) (h : ∀ p ∈ U, tbl.find? (fun q => q.1 = p.1) = some p) : Uses U [] (over tbl st) := by
  intro p hp
  refine ⟨rfl, ?_⟩
  simp only [over, h p hp]

/-- The interpreter is ready to load the library: the modules are on the disk or open, and `def`, `quote` and `load` are defined. -/
structure Ready (os : Os) (s : SSt) : Prop where
  mods : ∀ m ∈ modules, Known os s m.1 (natTable m.2)
  live : Live s
  sdef : s.st.globals Native.def_.name = some Native.def_.val
  squote : s.st.globals Native.quote.name = some Native.quote.val
  sload : s.st.globals Native.load.name = some Native.load.val

/-- Loading from one module leaves what is known of the modules. -/
theorem known_load {os : Os} {s s' : SSt} {m m' : Sym} {es es' : List (List UInt8 × Val)} {tc f : Bool} {v r : Val} (hl : Live s)
    (h : Known os s m es) (h' : Known os s m' es') (hx : moduleLoad os (pair f (sym tc m) v) s = .ok (r, s')) : Known os s' m' es' := by
  have hl' := C57_live hl hx
  obtain ⟨s1, h1, -, -, h4, h5, h6⟩ := loadBinary_known h tc f v
  rw [hx] at h1
  cases h1
  by_cases hm : m' = m
  · subst hm
    by_cases hr : (loadSymbols es v s.st).1 = nil
    · obtain ⟨e1, e2⟩ := h6 hr
      simpa only [Known, Open, e1, e2] using h'
    · have ho := h5 hr
      have hf : ∃ p, find os m' = .ok (some p) := by
        rcases h with ⟨p, hp, -⟩ | ⟨hp, -⟩
        · exact ⟨p, hp.found⟩
        · exact hp
      -- the two tables are the same
      have he : es = es' := by
        rcases h with ⟨p, hp, hc⟩ | ⟨-, p, hp, -⟩ <;> rcases h' with ⟨p', hp', hc'⟩ | ⟨-, p', hp', -⟩
        · have := hp.found.symm.trans hp'.found
          cases this
          have := hp.lib.symm.trans hp'.lib
          cases this; rfl
        · rw [hc] at hp'; cases hp'
        · rw [hc'] at hp; cases hp
        · rw [hp] at hp'; cases hp'; rfl
      exact .inr ⟨hf, he ▸ ho⟩
  · rcases h' with ⟨p, hp, hc⟩ | ⟨hp, p, hc, -⟩
    · exact .inl ⟨p, hp, by rw [h4 _ hm, hc]⟩
    · have e := (h4 _ hm).trans hc
      exact .inr ⟨hp, p, e, hl' _ _ _ e⟩

/-- Definitions that a file of the library may add. -/
def Harmless (tbl : List (Sym × Val)) : Prop :=
  ∀ p ∈ tbl, (p.1 = Native.def_.name → p.2 = Native.def_.val) ∧ (p.1 = Native.quote.name → p.2 = Native.quote.val) ∧
    (p.1 = Native.load.name → p.2 = Native.load.val)

instance (tbl : List (Sym × Val)) : Decidable (Harmless tbl) := by unfold Harmless; infer_instance

theorem over_harmless {tbl : List (Sym × Val)} {st : St} {a : Sym} {v : Val} (h : ∀ p ∈ tbl, p.1 = a → p.2 = v) (ha : st.globals a = some v) :
    (over tbl st).globals a = some v := by
  simp only [over]
  cases hf : tbl.find? (fun p => p.1 = a) with
  | none => exact ha
  | some p =>
    have h1 := List.mem_of_find?_eq_some hf
    have h2 := List.find?_some hf
    simp only [decide_eq_true_eq] at h2
    exact congrArg some (h p h1 h2)

theorem Ready.over {os : Os} {s : SSt} (h : Ready os s) {tbl : List (Sym × Val)} (hh : Harmless tbl) : Ready os { s with st := over tbl s.st } where
  mods := h.mods
  live := h.live
  sdef := over_harmless (fun p hp => (hh p hp).1) h.sdef
  squote := over_harmless (fun p hp => (hh p hp).2.1) h.squote
  sload := over_harmless (fun p hp => (hh p hp).2.2) h.sload

theorem Harmless.append {a b : List (Sym × Val)} (ha : Harmless a) (hb : Harmless b) : Harmless (a ++ b) := by
  intro p hp
  rcases List.mem_append.1 hp with h | h
  · exact ha p h
  · exact hb p h

/-! ## Pieces of a file -/

/-- The definitions of natives. -/
def nats (ns : List Native) : List (Sym × Val) := ns.map fun a => (a.name, a.val)

theorem name_canonical (a : Native) : a.name.Canonical := by cases a <;> (unfold Sym.Canonical; decide)

/-- A module of natives has each under its own name. -/
theorem natTable_find : ∀ m ∈ modules, ∀ a ∈ m.2, (natTable m.2).find? (fun e => e.1 = a.name.name) = some (a.name.name, a.val) := by
  decide +kernel

theorem name_inj : ∀ a ∈ Native.all, ∀ b ∈ Native.all, a.name = b.name → a = b := by decide +kernel

theorem mem_all (a : Native) : a ∈ Native.all := by cases a <;> decide

theorem nats_find {ns : List Native} {a : Native} (h : a ∈ ns) : (nats ns).find? (fun p => p.1 = a.name) = some (a.name, a.val) := by
  induction ns with
  | nil => simp at h
  | cons b ns ih =>
    by_cases e : b.name = a.name
    · obtain rfl := name_inj _ (mem_all _) _ (mem_all _) e
      simp [nats]
    · have hne : a ≠ b := by rintro rfl; exact e rfl
      have := ih (by simpa [hne] using h)
      simpa [nats, e] using this

theorem symbols_names (ns : List Native) : symbols (ns.map fun a => ofSym a.name) = ns.map Native.name := by
  induction ns with
  | nil => rfl
  | cons a ns ih => simp only [List.map_cons, symbols, ofSym, ih]

/-- Loading some natives of a module. -/
theorem load_natives0 {os : Os} {s : SSt} (hk : ∀ m ∈ modules, Known os s m.1 (natTable m.2)) (hl : Live s) {m : Sym × List Native} (hm : m ∈ modules)
    {ns : List Native} (hs : ∀ a ∈ ns, a ∈ m.2) :
    ∃ w s', moduleLoad os (cons (ofSym m.1) (ofList (ns.map fun a => ofSym a.name))) s = .ok (w, s') ∧
      (∀ m ∈ modules, Known os s' m.1 (natTable m.2)) ∧ Live s' ∧ s'.dirs = s.dirs ∧ s'.st = over (nats ns) s.st := by
  obtain ⟨s', h1, h2, h3⟩ := C57_list (hk m hm) false false (ns.map fun a => ofSym a.name) (by
    rw [symbols_names]
    intro t ht
    obtain ⟨a, -, rfl⟩ := List.mem_map.1 ht
    exact name_canonical a)
  rw [symbols_names] at h2
  have e : s'.st = over (nats ns) s.st := by
    have hg : s'.st.globals = (over (nats ns) s.st).globals := by
      funext t
      by_cases ht : t ∈ ns.map Native.name
      · obtain ⟨a, ha, rfl⟩ := List.mem_map.1 ht
        have hx : Exports (natTable m.2) a.name a.val := by
          have := natTable_find m hm a (hs a ha)
          exact (find_exports.1 _ this).2
        rw [h2.new _ _ ht hx]
        simp only [over, nats_find ha]
      · rw [h2.old _ fun h => absurd h ht]
        have : (nats ns).find? (fun p => p.1 = t) = none := by
          rw [List.find?_eq_none]
          intro p hp
          obtain ⟨a, ha, rfl⟩ := List.mem_map.1 hp
          simp only [decide_eq_true_eq]
          rintro rfl
          exact ht (List.mem_map.2 ⟨a, ha, rfl⟩)
        simp only [over, this]
    have ho := h2.out
    cases hs' : s'.st
    rw [hs'] at hg ho
    simp only at hg ho
    subst hg ho
    rfl
  exact ⟨_, s', h1, fun m' hm' => known_load hl (hk m hm) (hk m' hm') h1, C57_live hl h1, h3, e⟩

theorem nats_harmless (ns : List Native) : Harmless (nats ns) := by
  intro p hp
  obtain ⟨a, -, rfl⟩ := List.mem_map.1 hp
  refine ⟨fun h => ?_, fun h => ?_, fun h => ?_⟩ <;> rw [name_inj _ (mem_all _) _ (mem_all _) h]

theorem load_natives {os : Os} {s : SSt} (hr : Ready os s) {m : Sym × List Native} (hm : m ∈ modules) {ns : List Native} (hs : ∀ a ∈ ns, a ∈ m.2) :
    ∃ w s', moduleLoad os (cons (ofSym m.1) (ofList (ns.map fun a => ofSym a.name))) s = .ok (w, s') ∧ Ready os s' ∧ s'.dirs = s.dirs ∧
      s'.st = over (nats ns) s.st := by
  obtain ⟨w, s', h1, h2, h3, h4, e⟩ := load_natives0 hr.mods hr.live hm hs
  have hr' := hr.over (nats_harmless ns)
  refine ⟨w, s', h1, ⟨h2, h3, ?_, ?_, ?_⟩, h4, e⟩
  · rw [e]; exact hr'.sdef
  · rw [e]; exact hr'.squote
  · rw [e]; exact hr'.sload

/-- From a state of the interpreter to one with the definitions `tbl` added. -/
def Adds (os : Os) (s : SSt) (tbl : List (Sym × Val)) (s' : SSt) : Prop := Ready os s' ∧ s'.dirs = s.dirs ∧ s'.st = over tbl s.st

/-- In every state whose relative names stand for files of `d`, the expressions add the definitions `tbl`. -/
def ExprsAdd (os : Os) (d : List UInt8) (es : List Val) (tbl : List (Sym × Val)) : Prop :=
  ∀ r s, Ready os s → curdir os s = .ok d → s.dirs ≠ [] → ∃ w s', Runs os (sem nil) es r s w s' ∧ Adds os s tbl s'

/-- The same for arguments of `load`. -/
def ArgAdds (os : Os) (d : List UInt8) (e : Val) (tbl : List (Sym × Val)) : Prop :=
  ∀ s, Ready os s → curdir os s = .ok d → s.dirs ≠ [] →
    ∃ n a st w s', sem nil e s.st = .ok (a, st) ∧ loadOne os (sem nil) n a { s with st := st } = .ok (w, s') ∧ Adds os s tbl s'

/-- The same for a file. -/
def FileAdds (os : Os) (d f : List UInt8) (tbl : List (Sym × Val)) : Prop :=
  ∀ s, Ready os s → curdir os s = .ok d → s.dirs ≠ [] → ∃ n w s', loadFile os (sem nil) n f s = .ok (w, s') ∧ Adds os s tbl s'

theorem Adds.trans {os : Os} {a b c : SSt} {t u : List (Sym × Val)} (h1 : Adds os a t b) (h2 : Adds os b u c) : Adds os a (u ++ t) c :=
  ⟨h2.1, h2.2.1.trans h1.2.1, by rw [h2.2.2, h1.2.2, over_append]⟩

theorem curdir_dirs (os : Os) {s s' : SSt} (h : s'.dirs = s.dirs) : curdir os s' = curdir os s := by simp only [curdir, h]

/-- Running expressions one after the other. -/
theorem ExprsAdd.cons {os : Os} {d : List UInt8} {e : Val} {es : List Val} {t u : List (Sym × Val)} (h1 : ExprsAdd os d [e] t) (h2 : ExprsAdd os d es u) :
    ExprsAdd os d (e :: es) (u ++ t) := by
  intro r s hr hc hd
  obtain ⟨w1, s1, r1, a1⟩ := h1 r s hr hc hd
  cases r1 with
  | cons h ht =>
    cases ht
    obtain ⟨w2, s2, r2, a2⟩ := h2 w1 s1 a1.1 ((curdir_dirs os a1.2.1).trans hc) (by rw [a1.2.1]; exact hd)
    exact ⟨w2, s2, .cons h r2, a1.trans a2⟩

theorem ExprsAdd.nil (os : Os) (d : List UInt8) : ExprsAdd os d [] [] := fun r s hr _ _ => ⟨r, s, .nil, hr, rfl, rfl⟩

/-- A definition. -/
theorem ExprsAdd.def_ {os : Os} {d : List UInt8} {any v : Val} {x : String}
    (h : ∀ st : St, st.globals Native.def_.name = some Native.def_.val → sem Val.nil (Val.cons (S "def") any) st = .ok (S x, define x v st))
    (hh : Harmless [(n x, v)]) : ExprsAdd os d [Val.cons (S "def") any] [(n x, v)] := by
  intro r s hr _ _
  have e := h s.st hr.sdef
  have hi : isLoad s (Val.cons (S "def") any) = none := by
    have : ¬(n "def" = Native.load.name) := by decide +kernel
    show (if n "def" = Native.load.name ∧ s.st.globals (n "def") = some Native.load.val then some any else none) = none
    exact if_neg fun h => this h.1
  refine ⟨S x, { s with st := over [(n x, v)] s.st }, .cons (n := 1) ?_ .nil, hr.over hh, rfl, rfl⟩
  simp only [evalTop, hi, e, Res.ok_bind, over_define]

/-- `load` with its arguments. -/
inductive ArgsAdd (os : Os) (d : List UInt8) : List Val → List (Sym × Val) → Prop where
  | one {e : Val} {t : List (Sym × Val)} (h : ArgAdds os d e t) : ArgsAdd os d [e] t
  | more {e : Val} {es : List Val} {t u : List (Sym × Val)} (h : ArgAdds os d e t) (h0 : es ≠ []) (ht : ArgsAdd os d es u) : ArgsAdd os d (e :: es) (u ++ t)

theorem ExprsAdd.load {os : Os} {d : List UInt8} {es : List Val} {t : List (Sym × Val)} (h : ArgsAdd os d es t) :
    ExprsAdd os d [L (S "load" :: es)] t := by
  intro r s hr hc hd
  have key : ∀ s, Ready os s → curdir os s = .ok d → s.dirs ≠ [] → ∃ w s', Loads os (sem Val.nil) es s w s' ∧ Adds os s t s' := by
    induction h with
    | one h =>
      intro s hr hc hd
      obtain ⟨n, a, st, w, s', h1, h2, h3⟩ := h s hr hc hd
      exact ⟨w, s', .one h1 h2, h3⟩
    | more h h0 ht ih =>
      intro s hr hc hd
      obtain ⟨n, a, st, w, s1, h1, h2, h3⟩ := h s hr hc hd
      obtain ⟨w2, s2, h4, h5⟩ := ih s1 h3.1 ((curdir_dirs os h3.2.1).trans hc) (by rw [h3.2.1]; exact hd)
      exact ⟨w2, s2, .more h1 h2 h0 h4, h3.trans h5⟩
  have hne : es ≠ [] := by cases h <;> simp
  obtain ⟨w, s', h1, h2⟩ := key s hr hc hd
  have hn : n "load" = Native.load.name := by decide +kernel
  obtain ⟨k, hk⟩ := (C58_load hne s w s' false false hr.sload).2 h1
  refine ⟨w, s', .cons (n := k) ?_ .nil, h2⟩
  rw [← hk, ← hn]
  rfl

/-- `'(MODULE NAME…)`. -/
theorem ArgAdds.natives {os : Os} {d : List UInt8} {m : Sym × List Native} (hm : m ∈ modules) {ns : List Native} (hs : ∀ a ∈ ns, a ∈ m.2) :
    ArgAdds os d (Q (ofList (ofSym m.1 :: ns.map fun a => ofSym a.name))) (nats ns) := by
  intro s hr _ _
  obtain ⟨w, s', h1, h2⟩ := load_natives hr hm hs
  have hq : Resolves (envVal []) s.st sQuote Native.quote.val := resolves_global rfl (by
    have : sQuote = Native.quote.name := by decide +kernel
    rw [this]; exact hr.squote)
  refine ⟨1, _, s.st, w, s', ok_quote hq, ?_, h2⟩
  have hst : (ofList (ofSym m.1 :: ns.map fun a => ofSym a.name)).isString = false := rfl
  simp only [ofList, Val.cons] at hst ⊢
  simp only [loadOne, hst, Bool.false_eq_true, if_false]
  exact h1

/-- A string: a file. -/
theorem ArgAdds.file {os : Os} {d f : List UInt8} {t : List (Sym × Val)} (h : FileAdds os d f t) (hp : Plain f) (h0 : f ≠ []) (hl : f.length ≤ pathMax) :
    ArgAdds os d (strVal (f.map charOf)) t := by
  intro s hr hc hd
  obtain ⟨k, w, s', h1, h2⟩ := h s hr hc hd
  obtain ⟨m, hm⟩ := (C58_string hp h0 hl s w s').2 ⟨k, h1⟩
  refine ⟨m, strVal (f.map charOf), s.st, w, s', ?_, hm, h2⟩
  cases f with
  | nil => exact absurd rfl h0
  | cons b f => exact ok_string

/-- The directory of the library. -/
def share (os : Os) : List UInt8 := os.home ++ lit "/share/mnml".toList

/-- A file that is found. -/
theorem FileAdds.of {os : Os} {d f d' b t : List UInt8} {k : Nat} {vs : List Val} {tbl : List (Sym × Val)} (hp : Plain d') (hl : d'.length < pathMax)
    (hf : ∀ s, curdir os s = .ok d → s.dirs ≠ [] → Finds os s f d' b t)
    (ht : drain (fun _ => .unsupported) k .init t = .ok ⟨[], [], none, vs⟩) (h : ExprsAdd os d' vs tbl) : FileAdds os d f tbl := by
  intro s hr hc hd
  have hr' : Ready os (push d' s) := ⟨hr.mods, hr.live, hr.sdef, hr.squote, hr.sload⟩
  obtain ⟨w, q, h1, h2⟩ := h nil (push d' s) hr' (curdir_push os s hp hl) (by simp [push])
  obtain ⟨n, hn⟩ := (C58_script (ev := sem nil) (w := w) (s' := { q with dirs := s.dirs }) (hf s hc hd) ht).2 ⟨q, h1, rfl⟩
  refine ⟨n, w, _, hn, ⟨h2.1.mods, h2.1.live, h2.1.sdef, h2.1.squote, h2.1.sload⟩, rfl, h2.2.2⟩

end Lib
end Mnml
