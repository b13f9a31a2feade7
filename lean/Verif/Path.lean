import Verif.Basic

/-!
# Scanning a separated list

Models `FOR_EACH_TOKEN` (`include/mnml/utils.h:155-170`), which `lib/core/module.c:172` uses on search paths and `lib/core/debug.c:48` on the
debug flags. The separator is a string of one character in both. The copy of the string is a memory block with bounds.
-/

namespace Mnml
namespace Path

/-- The C string at offset `i` of a memory block: undefined if there is no NUL before the end of the block. -/
def cstr (m : List UInt8) (i : Nat) : Res (List UInt8) :=
  if (0 : UInt8) ∈ m.drop i then .ok ((m.drop i).takeWhile (· ≠ 0)) else .ub .outOfBounds

/-- `strstr(haystack, d)` for a one-character `d`: the offset of the first `d` in a C string. -/
def find (d : UInt8) : List UInt8 → Option Nat
  | [] => none
  | b :: l => if b == d then some 0 else (find d l).map (· + 1)

/-- `if (strlen(e) > 0) BLOCK`: what the block is called with. -/
def visit (e : List UInt8) : List (List UInt8) := if e.length > 0 then [e] else []

/-- The loop of `FOR_EACH_TOKEN` (`include/mnml/utils.h:159-168`) from offset `h` of the copy `m`; the result lists what the block is called with. -/
def scan (d : UInt8) : Nat → List UInt8 → Nat → Res (List (List UInt8))
  | 0, _, _ => .oof
  | n + 1, m, h => do
    let s ← cstr m h
    match find d s with
    | some p => do
      let m' := m.set (h + p) 0
      let e ← cstr m' h
      let r ← scan d n m' (h + p + 1)
      .ok (visit e ++ r)
    | none => .ok (visit s)

/-- `FOR_EACH_TOKEN(s, d, e, BLOCK)` on a C string `s` (without its NUL): `strdup` copies it with the NUL. -/
def forEachToken (d : UInt8) (s : List UInt8) : Res (List (List UInt8)) := scan d (s.length + 1) (s ++ [0]) 0

/-! ## C47 -/

/-- The string made of segments with a separator between them. -/
def joinWith (d : UInt8) : List (List UInt8) → List UInt8
  | [] => []
  | [s] => s
  | s :: t :: r => s ++ d :: joinWith d (t :: r)

/-- `segs` are the segments of `s`: there is one at least, none contains the separator, and joined by separators they are `s`. -/
structure Segments (d : UInt8) (s : List UInt8) (segs : List (List UInt8)) : Prop where
  ne : segs ≠ []
  free : ∀ t ∈ segs, d ∉ t
  join : joinWith d segs = s

theorem find_none {d : UInt8} {l : List UInt8} (h : find d l = none) : d ∉ l := by
  induction l with
  | nil => simp
  | cons b l ih =>
    rw [find] at h
    split at h
    · cases h
    · next hb =>
      simp only [Option.map_eq_none_iff] at h
      have := ih h
      simp only [beq_iff_eq] at hb
      simp [this, Ne.symm hb]

theorem find_some {d : UInt8} {l : List UInt8} {p : Nat} (h : find d l = some p) :
    ∃ t r, l = t ++ d :: r ∧ t.length = p ∧ d ∉ t := by
  induction l generalizing p with
  | nil => simp [find] at h
  | cons b l ih =>
    rw [find] at h
    split at h
    · next hb => cases h; simp only [beq_iff_eq] at hb; exact ⟨[], l, by simp [hb], rfl, by simp⟩
    · next hb =>
      simp only [beq_iff_eq] at hb
      simp only [Option.map_eq_some_iff] at h
      obtain ⟨q, hq, rfl⟩ := h
      obtain ⟨t, r, rfl, rfl, ht⟩ := ih hq
      exact ⟨b :: t, r, rfl, rfl, by simp [ht, Ne.symm hb]⟩

theorem takeWhile_nul {u v : List UInt8} (h : (0 : UInt8) ∉ u) : (u ++ 0 :: v).takeWhile (· ≠ 0) = u := by
  induction u with
  | nil => simp
  | cons b u ih =>
    simp only [List.mem_cons, not_or] at h
    rw [List.cons_append, List.takeWhile_cons_of_pos (by simpa using Ne.symm h.1), ih h.2]

theorem cstr_append {pre u v : List UInt8} (h : (0 : UInt8) ∉ u) : cstr (pre ++ (u ++ 0 :: v)) pre.length = .ok u := by
  rw [cstr, List.drop_left, if_pos (by simp), takeWhile_nul h]

theorem scan_spec {d : UInt8} (_hd : d ≠ 0) (n : Nat) (pre s : List UInt8) (hs : (0 : UInt8) ∉ s) (hn : s.length < n) :
    ∃ segs, Segments d s segs ∧ scan d n (pre ++ (s ++ [0])) pre.length = .ok (segs.flatMap visit) := by
  induction n generalizing pre s with
  | zero => omega
  | succ n ih =>
    rw [scan, cstr_append hs]
    simp only [Res.ok_bind]
    cases hf : find d s with
    | none =>
      exact ⟨[s], ⟨by simp, by simpa using find_none hf, rfl⟩, by simp⟩
    | some p =>
      obtain ⟨t, r, rfl, rfl, ht⟩ := find_some hf
      simp only [List.mem_append, List.mem_cons, not_or] at hs
      have hset : (pre ++ (t ++ d :: r ++ [0])).set (pre.length + t.length) 0 = pre ++ (t ++ 0 :: (r ++ [0])) := by
        simp [List.set_append]
      simp only [hset, cstr_append hs.1, Res.ok_bind]
      obtain ⟨segs, hseg, hscan⟩ := ih (pre ++ (t ++ [0])) r hs.2.2 (by simp at hn; omega)
      have e1 : pre ++ (t ++ [0]) ++ (r ++ [0]) = pre ++ (t ++ 0 :: (r ++ [0])) := by simp
      have e2 : (pre ++ (t ++ [0])).length = pre.length + t.length + 1 := by simp; omega
      rw [e1, e2] at hscan
      rw [hscan]
      refine ⟨t :: segs, ⟨by simp, ?_, ?_⟩, by simp⟩
      · intro u hu
        rcases List.mem_cons.1 hu with rfl | hu
        · exact ht
        · exact hseg.free u hu
      · cases segs with
        | nil => exact absurd rfl hseg.ne
        | cons u us => simp [joinWith, ← hseg.join]

theorem flatMap_visit (segs : List (List UInt8)) : segs.flatMap visit = segs.filter (fun e => !e.isEmpty) := by
  induction segs with
  | nil => rfl
  | cons s segs ih => cases s <;> simp [visit, ih]

theorem prefix_unique {d : UInt8} {t u r v : List UInt8} (ht : d ∉ t) (hu : d ∉ u) (h : t ++ d :: r = u ++ d :: v) :
    t = u ∧ r = v := by
  induction t generalizing u with
  | nil =>
    cases u with
    | nil => simpa using h
    | cons b u => simp at h hu; exact absurd h.1 hu.1
  | cons a t ih =>
    cases u with
    | nil => simp at h ht; exact absurd h.1.symm ht.1
    | cons b u =>
      simp only [List.cons_append, List.cons.injEq, List.mem_cons, not_or] at h ht hu
      obtain ⟨h1, h2⟩ := ih ht.2 hu.2 h.2
      exact ⟨by rw [h.1, h1], h2⟩

theorem joinWith_free {d : UInt8} {segs : List (List UInt8)} {s : List UInt8} (h : Segments d s segs) (hs : d ∉ s) : segs = [s] := by
  obtain ⟨ne, _, join⟩ := h
  match segs, ne, join with
  | [t], _, join => simp [joinWith] at join; rw [join]
  | t :: u :: r, _, join => rw [joinWith] at join; rw [← join] at hs; simp at hs

/-- A string has one list of segments only. -/
theorem Segments.unique {d : UInt8} {s : List UInt8} {a b : List (List UInt8)} (ha : Segments d s a) (hb : Segments d s b) : a = b := by
  induction a generalizing s b with
  | nil => exact absurd rfl ha.ne
  | cons t a ih =>
    cases a with
    | nil =>
      have : s = t := ha.join.symm
      subst this
      exact (joinWith_free hb (ha.free s (by simp))).symm
    | cons t' a =>
      match b, hb with
      | [], hb => exact absurd rfl hb.ne
      | [u], hb =>
        have : s = u := hb.join.symm
        subst this
        exact joinWith_free ha (hb.free s (by simp))
      | u :: u' :: b, hb =>
        have e := ha.join.trans hb.join.symm
        simp only [joinWith] at e
        obtain ⟨rfl, e'⟩ := prefix_unique (ha.free t (by simp)) (hb.free u (by simp)) e
        rw [ih (s := joinWith d (t' :: a)) ⟨by simp, fun x hx => ha.free x (by simp at hx ⊢; exact .inr hx), rfl⟩
          ⟨by simp, fun x hx => hb.free x (by simp at hx ⊢; exact .inr hx), e'.symm⟩]

/-- **C47.** Scanning a string visits exactly its non-empty segments, in order, and stays inside of the copy. -/
theorem C47_scan (d : UInt8) (s : List UInt8) (hd : d ≠ 0) (hs : (0 : UInt8) ∉ s) :
    ∃ segs, Segments d s segs ∧ forEachToken d s = .ok (segs.filter (fun e => !e.isEmpty)) := by
  obtain ⟨segs, h1, h2⟩ := scan_spec hd (s.length + 1) [] s hs (by omega)
  rw [flatMap_visit] at h2
  exact ⟨segs, h1, h2⟩

/-- **C47.** The same for any list of segments that makes up the string. -/
theorem C47_segments (d : UInt8) (s : List UInt8) (hd : d ≠ 0) (hs : (0 : UInt8) ∉ s) (segs : List (List UInt8)) (h : Segments d s segs) :
    forEachToken d s = .ok (segs.filter (fun e => !e.isEmpty)) := by
  obtain ⟨segs', h1, h2⟩ := C47_scan d s hd hs
  rw [h2, Segments.unique h1 h]

/-- `/a::b:` has the segments `/a`, empty, `b`, empty. -/
example : Segments 58 [47, 97, 58, 58, 98, 58] [[47, 97], [], [98], []] ∧
    forEachToken 58 [47, 97, 58, 58, 98, 58] = .ok [[47, 97], [98]] := by
  have h : Segments 58 [47, 97, 58, 58, 98, 58] [[47, 97], [], [98], []] := ⟨by simp, by decide, rfl⟩
  exact ⟨h, C47_segments _ _ (by decide) (by decide) _ h⟩

end Path
end Mnml
