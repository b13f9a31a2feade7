import Verif.PropPath

/-!
# C57: loading a module
-/

namespace Mnml
namespace Module

open Val Lex

/-- The module exports `v` under the name of `s`: the first entry of that name. -/
def Exports (es : List (List UInt8 × Val)) (s : Sym) (v : Val) : Prop :=
  ∃ pre post, es = pre ++ (s.name, v) :: post ∧ ∀ e ∈ pre, e.1 ≠ s.name

/-- The module has an entry of the name of `s`. -/
def exported (es : List (List UInt8 × Val)) (s : Sym) : Bool := es.any fun e => e.1 == s.name

/-- The symbols among the elements of a list. -/
def symbols : List Val → List Sym
  | [] => []
  | sym _ s :: l => s :: symbols l
  | _ :: l => symbols l

/-- The globals of `st'` are those of `st` with the exports of the symbols in `req` in addition. -/
structure Defined (es : List (List UInt8 × Val)) (req : List Sym) (st st' : St) : Prop where
  new : ∀ s v, s ∈ req → Exports es s v → st'.globals s = some v
  old : ∀ s, (s ∈ req → ∀ v, ¬Exports es s v) → st'.globals s = st.globals s
  out : st'.out = st.out

theorem exports_unique {es : List (List UInt8 × Val)} {s : Sym} {v w : Val} (h1 : Exports es s v) (h2 : Exports es s w) : v = w := by
  obtain ⟨p1, q1, e1, n1⟩ := h1
  obtain ⟨p2, q2, e2, n2⟩ := h2
  subst e1
  induction p1 generalizing p2 with
  | nil =>
    cases p2 with
    | nil => simp at e2; exact e2.1
    | cons x p2 => simp at e2; exact absurd (by rw [← e2.1]) (n2 x (by simp))
  | cons x p1 ih =>
    cases p2 with
    | nil => simp at e2; exact absurd (by rw [e2.1]) (n1 x (by simp))
    | cons y p2 =>
      simp only [List.cons_append, List.cons.injEq] at e2
      exact ih (fun e he => n1 e (by simp [he])) p2 (fun e he => n2 e (by simp [he])) e2.2

theorem find_exports {es : List (List UInt8 × Val)} {s : Sym} :
    (∀ e, es.find? (fun e => decide (e.1 = s.name)) = some e → e.1 = s.name ∧ Exports es s e.2) ∧
    (es.find? (fun e => decide (e.1 = s.name)) = none → ∀ v, ¬Exports es s v) := by
  constructor
  · intro e h
    have he : e.1 = s.name := by simpa using List.find?_some h
    obtain ⟨-, pre, post, rfl, hn⟩ := List.find?_eq_some_iff_append.1 h
    exact ⟨he, pre, post, by rw [← he], fun x hx => by simpa using hn x hx⟩
  · rintro h v ⟨pre, post, rfl, -⟩
    have := List.find?_eq_none.1 h (s.name, v) (by simp)
    simp at this

theorem ofBytes_name_ofBytes (b : List UInt8) : Sym.ofBytes (Sym.ofBytes b).name = Sym.ofBytes b := Sym.canonical_ofBytes b

theorem Defined.nil (es : List (List UInt8 × Val)) (st : St) : Defined es [] st st :=
  ⟨fun _ _ h => by simp at h, fun _ _ => rfl, rfl⟩

/-- Loading the entry of a requested symbol. -/
theorem Defined.cons {es : List (List UInt8 × Val)} {req : List Sym} {st st' : St} (h : Defined es req st st') {s : Sym} {v : Val}
    (he : Exports es s v) (hc : s.Canonical) : Defined es (s :: req) st (loadEntry (s.name, v) st').2 := by
  have e1 : Sym.ofBytes s.name = s := hc
  constructor
  · intro t w ht hw
    simp only [loadEntry, e1]
    by_cases hts : t = s
    · subst hts; rw [if_pos rfl, exports_unique he hw]
    · rw [if_neg hts]
      exact h.new t w (by simpa [hts] using ht) hw
  · intro t ht
    simp only [loadEntry, e1]
    have hts : t ≠ s := by rintro rfl; exact ht (by simp) v he
    rw [if_neg hts]
    exact h.old t fun hm => ht (by simp [hm])
  · exact h.out

theorem Defined.skip {es : List (List UInt8 × Val)} {req : List Sym} {st st' : St} (h : Defined es req st st') {s : Sym}
    (he : ∀ v, ¬Exports es s v) : Defined es (s :: req) st st' := by
  constructor
  · intro t w ht hw
    have hts : t ≠ s := by rintro rfl; exact he w hw
    exact h.new t w (by simpa [hts] using ht) hw
  · intro t ht
    exact h.old t fun hm => ht (by simp [hm])
  · exact h.out

theorem exported_iff {es : List (List UInt8 × Val)} {s : Sym} : exported es s = true ↔ ∃ v, Exports es s v := by
  constructor
  · intro h
    simp only [exported, List.any_eq_true, beq_iff_eq] at h
    obtain ⟨x, hx, hn⟩ := h
    cases hf : es.find? (fun e => decide (e.1 = s.name)) with
    | none =>
      have := List.find?_eq_none.1 hf x hx
      simp [hn] at this
    | some e => exact ⟨_, (find_exports.1 e hf).2⟩
  · rintro ⟨v, pre, post, rfl, -⟩
    simp [exported]

theorem loadList_spec (es : List (List UInt8 × Val)) (req : List Val) (st : St) (hc : ∀ s ∈ symbols req, s.Canonical) :
    (loadList es (ofList req) st).1 = ofList (((symbols req).filter (exported es)).map ofSym) ∧
      Defined es (symbols req) st (loadList es (ofList req) st).2 := by
  induction req with
  | nil => exact ⟨rfl, Defined.nil es st⟩
  | cons a req ih =>
    have key : ∀ a : Val, (∀ tc s, a ≠ sym tc s) → symbols (a :: req) = symbols req ∧
        loadList es (ofList (a :: req)) st = loadList es (ofList req) st := by
      intro a ha
      cases a with
      | sym tc s => exact absurd rfl (ha tc s)
      | _ => exact ⟨rfl, rfl⟩
    by_cases hsym : ∃ tc s, a = sym tc s
    · obtain ⟨tc, s, rfl⟩ := hsym
      obtain ⟨h1, h2⟩ := ih fun t ht => hc t (by simp [symbols, ht])
      have hcs : s.Canonical := hc s (by simp [symbols])
      simp only [symbols]
      cases hf : es.find? (fun e => decide (e.1 = s.name)) with
      | none =>
        have hno := (find_exports (s := s)).2 hf
        have e : loadList es (ofList (sym tc s :: req)) st = loadList es (ofList req) st := by
          simp only [ofList, Val.cons, loadList, hf]
        rw [e, List.filter_cons_of_neg (fun h => by obtain ⟨v, hv⟩ := exported_iff.1 h; exact hno v hv)]
        exact ⟨h1, h2.skip hno⟩
      | some e =>
        obtain ⟨he, hex⟩ := (find_exports (s := s)).1 e hf
        have e0 : e = (s.name, e.2) := by rw [← he]
        have e1 : loadList es (ofList (sym tc s :: req)) st =
            (Val.cons (ofSym s) (loadList es (ofList req) st).1, (loadEntry (s.name, e.2) (loadList es (ofList req) st).2).2) := by
          have : Sym.ofBytes s.name = s := hcs
          rw [e0] at hf
          simp only [ofList, Val.cons, loadList, hf, loadEntry, this]
        rw [e1, List.filter_cons_of_pos (exported_iff.2 ⟨_, hex⟩)]
        exact ⟨by rw [h1]; rfl, h2.cons hex hcs⟩
    · obtain ⟨e1, e2⟩ := key a fun tc s h => hsym ⟨tc, s, h⟩
      rw [e1, e2]
      rw [e1] at hc
      exact ih hc

/-- The names of the entries as symbols. -/
def names (es : List (List UInt8 × Val)) : List Sym := es.map fun e => Sym.ofBytes e.1

/-- Names that fit a symbol. -/
def Named (es : List (List UInt8 × Val)) : Prop := ∀ e ∈ es, e.1.length ≤ 16 ∧ (0 : UInt8) ∉ e.1

theorem name_of_named {b : List UInt8} (h : b.length ≤ 16 ∧ (0 : UInt8) ∉ b) : (Sym.ofBytes b).name = b := by
  rw [Sym.name_ofBytes, takeWhile_eq_self_of_no_nul _ h.2, List.take_of_length_le h.1]

theorem loadAll_names (es : List (List UInt8 × Val)) (st : St) : (loadAll es st).1 = ofList ((names es).map ofSym) := by
  induction es with
  | nil => rfl
  | cons e es ih =>
    have e1 : loadAll (e :: es) st = (Val.cons (ofSym (Sym.ofBytes e.1)) (loadAll es st).1, (loadEntry e (loadAll es st).2).2) := rfl
    rw [e1, ih]; rfl

theorem loadAll_spec (es : List (List UInt8 × Val)) (st : St) (hn : Named es) : Defined es (names es) st (loadAll es st).2 := by
  induction es with
  | nil => exact Defined.nil [] st
  | cons e es ih =>
    have h := ih fun x hx => hn x (by simp [hx])
    have hne := name_of_named (hn e (by simp))
    have e1 : loadAll (e :: es) st = (Val.cons (ofSym (Sym.ofBytes e.1)) (loadAll es st).1, (loadEntry e (loadAll es st).2).2) := rfl
    have hx : ∀ t v, t ≠ Sym.ofBytes e.1 → (Exports (e :: es) t v ↔ t ∈ names es ∧ Exports es t v ∨ (t ∉ names es ∧ Exports (e :: es) t v)) := by
      intro t v ht
      constructor
      · intro h
        by_cases hm : t ∈ names es
        · refine .inl ⟨hm, ?_⟩
          obtain ⟨pre, post, e2, hp⟩ := h
          cases pre with
          | nil =>
            obtain ⟨x, hx, rfl⟩ := List.mem_map.1 hm
            simp only [List.nil_append, List.cons.injEq] at e2
            have h3 : e.1 = (Sym.ofBytes x.1).name := by rw [e2.1]
            exact absurd (by rw [h3]; exact (Sym.canonical_ofBytes x.1).symm) ht
          | cons y pre =>
            simp only [List.cons_append, List.cons.injEq] at e2
            exact ⟨pre, post, e2.2, fun z hz => hp z (by simp [hz])⟩
        · exact .inr ⟨hm, h⟩
      · rintro (⟨hm, pre, post, e2, hp⟩ | h)
        · refine ⟨e :: pre, post, by rw [e2]; rfl, ?_⟩
          intro z hz
          rcases List.mem_cons.1 hz with rfl | hz
          · intro h4
            apply ht
            obtain ⟨x, hx, rfl⟩ := List.mem_map.1 hm
            rw [h4]; exact (Sym.canonical_ofBytes x.1).symm
          · exact hp z hz
        · exact h.2
    rw [e1]
    constructor
    · intro t w ht hw
      simp only [loadEntry]
      by_cases hts : t = Sym.ofBytes e.1
      · rw [if_pos hts]
        have h2 : Exports (e :: es) t e.2 := ⟨[], es, by rw [hts, hne]; rfl, by simp⟩
        rw [exports_unique h2 hw]
      · rw [if_neg hts]
        have hm : t ∈ names es := by simpa [names, hts] using ht
        rcases (hx t w hts).1 hw with ⟨-, h2⟩ | ⟨h2, -⟩
        · exact h.new t w hm h2
        · exact absurd hm h2
    · intro t ht
      simp only [loadEntry]
      have hts : t ≠ Sym.ofBytes e.1 := by
        rintro rfl
        exact ht (by simp [names]) e.2 ⟨[], es, by rw [hne]; rfl, by simp⟩
      rw [if_neg hts]
      exact h.old t fun hm v hv => ht (by simp only [names, List.map_cons, List.mem_cons]; exact .inr hm) v ((hx t v hts).2 (.inl ⟨hm, hv⟩))
    · exact h.out

/-- The library of a module is on the disk and has its table. -/
structure Available (os : Os) (m : Sym) (p : List UInt8) (es : List (List UInt8 × Val)) : Prop where
  found : find os m = .ok (some p)
  lib : os.dlopen p = some ⟨some m.name, some es⟩

/-- The module is open with this table. -/
def Open (s : SSt) (m : Sym) (es : List (List UInt8 × Val)) : Prop := ∃ p, s.cache m = some (p, ⟨some m.name, some es⟩) ∧ 0 < s.refs p

/-- Where the table of a module comes from: from the disk or from the cache. -/
def Known (os : Os) (s : SSt) (m : Sym) (es : List (List UInt8 × Val)) : Prop :=
  (∃ p, Available os m p es ∧ s.cache m = none) ∨ (∃ p, find os m = .ok (some p)) ∧ Open s m es

theorem loadBinary_known {os : Os} {s : SSt} {m : Sym} {es : List (List UInt8 × Val)} (h : Known os s m es) (tc f : Bool) (syms : Val) :
    ∃ s', moduleLoad os (pair f (sym tc m) syms) s = .ok ((loadSymbols es syms s.st).1, s') ∧ s'.st = (loadSymbols es syms s.st).2 ∧
      s'.dirs = s.dirs ∧ (∀ t, t ≠ m → s'.cache t = s.cache t) ∧
      ((loadSymbols es syms s.st).1 ≠ nil → Open s' m es) ∧ ((loadSymbols es syms s.st).1 = nil → s'.cache = s.cache ∧ s'.refs = s.refs) := by
  have load : ∀ p, find os m = .ok (some p) → moduleLoad os (pair f (sym tc m) syms) s = .ok (loadBinary os p m syms s) := by
    intro p hp
    simp only [moduleLoad, car, cdr]
    rw [hp, Res.ok_bind]
  rcases h with ⟨p, ha, hc⟩ | ⟨⟨p, hf⟩, q, hq, hr⟩
  · have hm := load p ha.found
    by_cases hn : (loadSymbols es syms s.st).1 = nil
    · have e : loadBinary os p m syms s =
          ((loadSymbols es syms s.st).1, dropRef p { addRef p s with st := (loadSymbols es syms s.st).2 }) := by
        simp [loadBinary, hc, openLib, ha.lib, hn, isNil, addRef]
      rw [e] at hm
      refine ⟨_, hm, rfl, rfl, fun _ _ => rfl, fun h => absurd hn h, fun _ => ⟨rfl, ?_⟩⟩
      funext q
      simp only [dropRef, addRef]
      split <;> simp_all
    · have h0 : (loadSymbols es syms s.st).1.isNil = false := by
        cases hv : (loadSymbols es syms s.st).1 <;> simp_all [isNil]
      have e : loadBinary os p m syms s =
          ((loadSymbols es syms s.st).1, { addRef p s with
            st := (loadSymbols es syms s.st).2
            cache := fun t => if t = m then some (p, ⟨some m.name, some es⟩) else s.cache t }) := by
        simp [loadBinary, hc, openLib, ha.lib, h0, addRef]
      rw [e] at hm
      refine ⟨_, hm, rfl, rfl, fun t ht => ?_, fun _ => ⟨p, ?_, ?_⟩, fun h => absurd h hn⟩
      · simp [ht]
      · simp
      · simp [addRef]
  · have e : loadBinary os p m syms s = ((loadSymbols es syms s.st).1, { s with st := (loadSymbols es syms s.st).2 }) := by
      simp [loadBinary, hq]
    have hm := load p hf
    rw [e] at hm
    exact ⟨_, hm, rfl, rfl, fun _ _ => rfl, fun _ => ⟨q, hq, hr⟩, fun _ => ⟨rfl, rfl⟩⟩

theorem canonical_of {s : Sym} (h : ∃ b, s = Sym.ofBytes b) : s.Canonical := by
  obtain ⟨b, rfl⟩ := h; exact Sym.canonical_ofBytes b

/-- **C57.** Loading symbols of a module defines exactly those requested symbols that the module exports, with their exported values, returns
their names in the order of the request, and changes no other definition. -/
theorem C57_list {os : Os} {s : SSt} {m : Sym} {es : List (List UInt8 × Val)} (h : Known os s m es) (tc f : Bool) (req : List Val)
    (hc : ∀ t ∈ symbols req, t.Canonical) :
    ∃ s', moduleLoad os (pair f (sym tc m) (ofList req)) s = .ok (ofList (((symbols req).filter (exported es)).map ofSym), s') ∧
      Defined es (symbols req) s.st s'.st ∧ s'.dirs = s.dirs := by
  obtain ⟨s', h1, h2, h3, -⟩ := loadBinary_known h tc f (ofList req)
  have e : loadSymbols es (ofList req) s.st = loadList es (ofList req) s.st := by
    cases req <;> rfl
  rw [e] at h1 h2
  obtain ⟨h4, h5⟩ := loadList_spec es req s.st hc
  refine ⟨s', ?_, ?_, h3⟩
  · rw [h1, h4]
  · rw [h2]; exact h5

/-- **C57.** A symbol, or T in place of the list, loads all entries. -/
theorem C57_all {os : Os} {s : SSt} {m : Sym} {es : List (List UInt8 × Val)} (h : Known os s m es) (tc f : Bool) (hn : Named es) :
    ∃ s', moduleLoad os (pair f (sym tc m) tru) s = .ok (ofList ((names es).map ofSym), s') ∧
      Defined es (names es) s.st s'.st ∧ s'.dirs = s.dirs := by
  obtain ⟨s', h1, h2, h3, -⟩ := loadBinary_known h tc f tru
  refine ⟨s', ?_, ?_, h3⟩
  · rw [h1]
    show Res.ok ((loadAll es s.st).1, s') = _
    rw [loadAll_names]
  · rw [h2]; exact loadAll_spec es s.st hn

/-- **C57.** Anything else loads nothing. -/
theorem C57_nothing {os : Os} {s : SSt} {m : Sym} {es : List (List UInt8 × Val)} (h : Known os s m es) (tc f : Bool) (v : Val)
    (hl : v.isPair = false) (ht : v ≠ tru) :
    ∃ s', moduleLoad os (pair f (sym tc m) v) s = .ok (nil, s') ∧ s'.st = s.st ∧ s'.cache = s.cache ∧ s'.refs = s.refs ∧ s'.dirs = s.dirs := by
  obtain ⟨s', h1, h2, h3, -, -, h6⟩ := loadBinary_known h tc f v
  have e : loadSymbols es v s.st = (nil, s.st) := by
    cases v <;> first | rfl | (simp [isPair] at hl; done) | exact absurd rfl ht
  rw [e] at h1 h2 h6
  obtain ⟨h7, h8⟩ := h6 rfl
  exact ⟨s', h1, h2, h7, h8, h3⟩

/-- **C57.** A module that is not found, or not a module, changes nothing that a program can see. -/
theorem C57_absent {os : Os} {s : SSt} {m : Sym} (tc f : Bool) (v : Val) (hc : s.cache m = none)
    (h : find os m = .ok none ∨ ∃ p, find os m = .ok (some p) ∧ ∀ l, os.dlopen p = some l → l.name ≠ some m.name ∨ l.entries = none) :
    ∃ s', moduleLoad os (pair f (sym tc m) v) s = .ok (nil, s') ∧ s'.st = s.st ∧ s'.cache = s.cache ∧ s'.dirs = s.dirs := by
  rcases h with h | ⟨p, h, hl⟩
  · exact ⟨s, by simp [moduleLoad, car, h], rfl, rfl, rfl⟩
  · refine ⟨(loadBinary os p m v s).2, ?_, ?_⟩
    · simp only [moduleLoad, car, cdr, h, Res.ok_bind]
      congr 1
      refine Prod.ext ?_ rfl
      simp only [loadBinary, hc, openLib]
      cases hd : os.dlopen p with
      | none => rfl
      | some l =>
        have := hl l hd
        cases hn : l.name with
        | none => simp [hn]
        | some n =>
          by_cases e : n = m.name
          · rcases this with h1 | h1
            · rw [hn, e] at h1; simp at h1
            · simp [hn, e, h1]
          · simp [hn, e]
    · simp only [loadBinary, hc, openLib]
      cases hd : os.dlopen p with
      | none => simp
      | some l =>
        have := hl l hd
        cases hn : l.name with
        | none => simp [hn, addRef]
        | some n =>
          by_cases e : n = m.name
          · rcases this with h1 | h1
            · rw [hn, e] at h1; simp at h1
            · simp [hn, e, h1, addRef, dropRef]
          · simp [hn, e, addRef, dropRef]

/-- **C57.** As long as a program has a function of a library, the library stays open: if loading changes a definition or returns a name, the
module is in the cache afterwards and its library has a reference. -/
theorem C57_open {os : Os} {s : SSt} {m : Sym} {es : List (List UInt8 × Val)} (h : Known os s m es) (tc f : Bool) (v : Val) :
    ∃ r s', moduleLoad os (pair f (sym tc m) v) s = .ok (r, s') ∧ (r ≠ nil ∨ s'.st.globals ≠ s.st.globals → Open s' m es) := by
  obtain ⟨s', h1, h2, -, -, h5, h6⟩ := loadBinary_known h tc f v
  refine ⟨_, s', h1, ?_⟩
  rintro (h | h)
  · exact h5 h
  · by_cases hn : (loadSymbols es v s.st).1 = nil
    · exfalso
      apply h
      rw [h2]
      have key : ∀ v : Val, (loadList es v s.st).1 = nil → (loadList es v s.st).2 = s.st := by
        intro v
        induction v with
        | pair g a d _ ih =>
          intro hv
          have e1 : loadList es (pair g a d) s.st = (match a with
            | sym _ t => match es.find? (fun e => e.1 = t.name) with
              | some e => (Val.cons (loadEntry e (loadList es d s.st).2).1 (loadList es d s.st).1, (loadEntry e (loadList es d s.st).2).2)
              | none => loadList es d s.st
            | _ => loadList es d s.st) := by
            cases a <;> rfl
          rw [e1] at hv ⊢
          split at hv
          · next a tc t =>
            split at hv
            · simp [Val.cons] at hv
            · exact ih hv
          · exact ih hv
        | _ => intro _; rfl
      cases v with
      | tru =>
        cases es with
        | nil => rfl
        | cons e es => simp [loadSymbols, loadAll, loadEntry, Val.cons] at hn
      | pair g a d => exact congrArg St.globals (key (pair g a d) hn)
      | _ => rfl
    · exact h5 hn

/-- Cached libraries are open. -/
def Live (s : SSt) : Prop := ∀ m p l, s.cache m = some (p, l) → 0 < s.refs p

/-- **C57.** That stays so, whatever is loaded. -/
theorem C57_live {os : Os} {s s' : SSt} {cell r : Val} (hl : Live s) (h : moduleLoad os cell s = .ok (r, s')) : Live s' := by
  rw [moduleLoad] at h
  split at h
  · next name hn =>
    obtain ⟨q, hq, h⟩ := Res.bind_eq_ok.1 h
    cases q with
    | none => cases h; exact hl
    | some p =>
      simp only [Res.ok.injEq] at h
      have e : s' = (loadBinary os p name cell.cdr s).2 := by rw [h]
      subst e
      have drop : ∀ st : St, Live (dropRef p { addRef p s with st := st }) := by
        intro st m q l hm
        have h0 : 0 < s.refs q := hl m q l hm
        simp only [dropRef, addRef]
        split
        · simpa using h0
        · exact h0
      have drop' : Live (dropRef p (addRef p s)) := drop s.st
      have add : Live (addRef p s) := by
        intro m q l hm
        have := hl m q l hm
        simp only [addRef]
        split <;> omega
      rw [loadBinary]
      split
      · split
        · exact hl
        · exact hl
      · simp only [openLib]
        cases os.dlopen p with
        | none => exact hl
        | some l =>
          simp only
          cases hln : l.name with
          | none => exact add
          | some n =>
            simp only
            by_cases e : n = name.name
            · rw [if_pos e]
              simp only
              cases l.entries with
              | none => exact drop'
              | some es =>
                simp only
                split
                · exact drop _
                · intro m q l' hm
                  simp only at hm
                  split at hm
                  · cases hm; simp [addRef]
                  · exact add m q l' hm
            · rw [if_neg e]; exact drop'
  · cases h; exact hl

theorem Defined.again {es : List (List UInt8 × Val)} {req : List Sym} {a b c : St} (h1 : Defined es req a b) (h2 : Defined es req b c) :
    c = b := by
  have hg : c.globals = b.globals := by
    funext t
    by_cases h : t ∈ req ∧ ∃ v, Exports es t v
    · obtain ⟨hm, v, hv⟩ := h
      rw [h1.new t v hm hv, h2.new t v hm hv]
    · exact h2.old t fun hm v hv => h ⟨hm, v, hv⟩
  cases b; cases c
  cases hg
  cases h2.out
  rfl

/-- **C57.** Loading the same symbols again changes nothing: the state is the same, and the library is taken from the cache. -/
theorem C57_again {os : Os} {s : SSt} {m : Sym} {es : List (List UInt8 × Val)} (h : Known os s m es) (tc f : Bool) (req : List Val)
    (hc : ∀ t ∈ symbols req, t.Canonical) (hx : ∃ t ∈ symbols req, exported es t = true) :
    ∃ s', moduleLoad os (pair f (sym tc m) (ofList req)) s = .ok (ofList (((symbols req).filter (exported es)).map ofSym), s') ∧
      moduleLoad os (pair f (sym tc m) (ofList req)) s' = .ok (ofList (((symbols req).filter (exported es)).map ofSym), s') := by
  obtain ⟨s1, h1, h2, h3, -, h5, -⟩ := loadBinary_known h tc f (ofList req)
  have e : ∀ st, loadSymbols es (ofList req) st = loadList es (ofList req) st := by
    intro st; cases req <;> rfl
  obtain ⟨r1, d1⟩ := loadList_spec es req s.st hc
  rw [e] at h1 h2 h5
  have hne : (loadList es (ofList req) s.st).1 ≠ nil := by
    rw [r1]
    obtain ⟨t, ht, hxt⟩ := hx
    have hm : t ∈ (symbols req).filter (exported es) := by simp [ht, hxt]
    cases hq : (symbols req).filter (exported es) with
    | nil => rw [hq] at hm; simp at hm
    | cons a l => simp [ofList, Val.cons]
  have ho := h5 hne
  have hf : ∃ p, find os m = .ok (some p) := by
    rcases h with ⟨p, ha, -⟩ | ⟨h, -⟩
    · exact ⟨p, ha.found⟩
    · exact h
  obtain ⟨p, hf⟩ := hf
  obtain ⟨q, hq, hr⟩ := ho
  rw [r1] at h1
  refine ⟨s1, h1, ?_⟩
  obtain ⟨r2, d2⟩ := loadList_spec es req s1.st hc
  have e2 : loadBinary os p m (ofList req) s1 = ((loadList es (ofList req) s1.st).1, { s1 with st := (loadList es (ofList req) s1.st).2 }) := by
    simp [loadBinary, hq, e]
  simp only [moduleLoad, car, cdr]
  rw [hf, Res.ok_bind]
  simp only [e2, r2]
  rw [← h2] at d1
  rw [d1.again d2]

/-! ### Examples -/

/-- A module `s` with three entries, one of them twice. -/
def demoEntries : List (List UInt8 × Val) := [([97], num 1), ([98], num 2), ([97], num 3)]

/-- The system of the examples with a library for the module `s`. -/
def demoLib : Os := { demo with
  dlopen := fun p =>
    if p = lit ['/', 'u', '/', 'l', 'i', 'b', '/', 'm', 'n', 'm', 'l', '/', 'l', 'i', 'b', 's', '.', 's', 'o'] then some ⟨some [115], some demoEntries⟩
    else none }

/-- A state without definitions. -/
def emptySt : SSt := ⟨⟨fun _ => none, []⟩, fun _ => none, fun _ => 0, []⟩

/-- The hypothesis of C57. -/
theorem demo_known : Known demoLib emptySt (symLit ['s']) demoEntries :=
  .inl ⟨lit ['/', 'u', '/', 'l', 'i', 'b', '/', 'm', 'n', 'm', 'l', '/', 'l', 'i', 'b', 's', '.', 's', 'o'],
    ⟨(by decide +kernel), (by decide +kernel)⟩, rfl⟩

example : Named demoEntries := by unfold Named demoEntries; decide

/-- `(load '(s b x a))` returns `(b a)`; the first entry of a name counts. -/
example : (moduleLoad demoLib (Val.cons (ofSym (symLit ['s'])) (ofList [ofSym (symLit ['b']), num 7, ofSym (symLit ['x']), ofSym (symLit ['a'])])) emptySt).bind
      (fun q => .ok (q.1, q.2.st.globals (symLit ['a']), q.2.st.globals (symLit ['b']), q.2.st.globals (symLit ['x']))) =
    .ok (ofList [ofSym (symLit ['b']), ofSym (symLit ['a'])], some (num 1), some (num 2), none) := by
  decide +kernel

/-- `(load 's)` returns all names, also those that occur twice. -/
example : (moduleLoad demoLib (Val.cons (ofSym (symLit ['s'])) tru) emptySt).bind
      (fun q => .ok (q.1, q.2.st.globals (symLit ['a']), q.2.st.globals (symLit ['b']))) =
    .ok (ofList [ofSym (symLit ['a']), ofSym (symLit ['b']), ofSym (symLit ['a'])], some (num 1), some (num 2)) := by
  decide +kernel

/-- The hypotheses of `C57_absent`: module `t` has a file but cannot be opened, `u` is not found. -/
example : emptySt.cache (symLit ['t']) = none ∧ find demoLib (symLit ['u']) = .ok none ∧
    ∃ p, find demoLib (symLit ['t']) = .ok (some p) ∧ (demoLib.dlopen p).isNone := by
  refine ⟨rfl, by decide +kernel, lit ['/', 'm', '/', 'l', 'i', 'b', 't', '.', 's', 'o'], by decide +kernel, by decide +kernel⟩

example : Live emptySt := fun _ _ _ h => by cases h

end Module
end Mnml
