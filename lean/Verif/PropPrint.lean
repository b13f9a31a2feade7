import Verif.Print
import Verif.PropStr

/-!
# C34, C35: printing
-/

namespace Mnml

open Val Print

/-! ## Specification: the text of a value -/

/-- The bytes of ASCII characters. -/
def ascii (cs : List Char) : List UInt8 := cs.map fun c => UInt8.ofNat c.toNat

/-- The machine-readable text of a leaf. -/
def leafText : Val → List UInt8
  | nil => ascii ['N', 'I', 'L']
  | tru => ascii ['T']
  | wild => ascii ['_']
  | chr c => 94 :: (if c = 27 then [92, 101] else if c = 10 then [92, 110]
      else if c = 13 then [92, 114] else if c = 9 then [92, 116] else [byteOf c])
  | num n => decInt n
  | sym _ s => s.name
  | pair .. => []

mutual
/-- The machine-readable text of a value (`print`). -/
def text : Val → List UInt8
  | pair _ a d => [40] ++ text a ++ textTail d ++ [41]
  | v => leafText v
/-- The text between the first element of a list and its closing parenthesis. -/
def textTail : Val → List UInt8
  | nil => []
  | pair _ a d => [32] ++ text a ++ textTail d
  | v => [32, 46, 32] ++ leafText v
end

/-- The human-readable text (`prin`): the concatenation of the texts of the leaves; characters
stand for themselves and NIL for nothing. -/
def plain : Val → List UInt8
  | pair _ a d => plain a ++ plain d
  | nil => []
  | chr c => [byteOf c]
  | v => leafText v

/-! ## Lengths -/

theorem decNat_length (k n : Nat) (h : n < 10 ^ (k + 1)) : (decNat n).length ≤ k + 1 := by
  induction k generalizing n with
  | zero => rw [decNat, if_pos (by omega)]; simp
  | succ k ih =>
    rw [decNat]
    split
    · simp
    · have : n / 10 < 10 ^ (k + 1) := by
        rw [Nat.div_lt_iff_lt_mul (by omega)]
        rw [Nat.pow_succ] at h; omega
      have := ih _ this
      simp; omega

theorem decInt_length {n : Int} (h : inI64 n = true) : (decInt n).length ≤ 20 := by
  have h : i64min ≤ n ∧ n ≤ i64max := by simpa [inI64] using h
  simp only [i64min, i64max] at h
  have : n.natAbs < 10 ^ 19 := by omega
  have := decNat_length 18 n.natAbs this
  simp only [decInt]; split <;> simp <;> omega

theorem Sym.name_length (s : Sym) : s.name.length ≤ 16 := by
  rw [← s.len, Sym.name]; exact (List.takeWhile_sublist _).length_le

/-! ## The buffer -/

/-- Fewer than 1024 bytes are pending. -/
def PB.Fits (st : PB) : Prop := st.buf.length < bufLen

/-- Everything written so far, delivered or pending. -/
def PB.all (st : PB) : List UInt8 := st.out ++ st.buf

/-- A printing step that appends exactly `t`. -/
def Appends (f : PB → Res PB) (t : List UInt8) : Prop :=
  ∀ st, PB.Fits st → ∃ st', f st = .ok st' ∧ PB.Fits st' ∧ PB.all st' = PB.all st ++ t

theorem appends_write {data : List UInt8} (h : data.length ≤ 24) :
    Appends (fun st => write st data) data := by
  intro st hst
  simp only [PB.Fits, bufLen] at hst
  simp only [write, bufLen]
  by_cases hc : st.buf.length + data.length ≥ 1024
  · simp only [hc, if_true]
    refine ⟨⟨st.out ++ st.buf, data⟩, ?_, ?_, ?_⟩
    · simp; omega
    · simp [PB.Fits, bufLen]; omega
    · simp [PB.all]
  · simp only [hc, if_false]
    refine ⟨⟨st.out, st.buf ++ data⟩, ?_, ?_, ?_⟩
    · rw [if_pos (by omega)]
    · simp [PB.Fits, bufLen]; omega
    · simp [PB.all]

theorem appends_bind {f g : PB → Res PB} {t u : List UInt8} (hf : Appends f t)
    (hg : Appends g u) : Appends (fun st => f st >>= g) (t ++ u) := by
  intro st hst
  obtain ⟨s1, e1, f1, a1⟩ := hf st hst
  obtain ⟨s2, e2, f2, a2⟩ := hg s1 f1
  exact ⟨s2, by simp [e1, e2], f2, by rw [a2, a1, List.append_assoc]⟩

theorem appends_ok : Appends (fun st => .ok st) [] := by
  intro st hst; exact ⟨st, rfl, hst, by simp⟩

theorem charText_length (c : Int) : (charText c).length ≤ 24 := by
  simp only [charText]; repeat' split
  all_goals simp

theorem appends_leaf_true (v : Val) (hv : v.InRange) (hp : v.isPair = false) :
    Appends (prinLeaf true v) (leafText v) := by
  cases v with
  | nil => exact appends_write (data := [78, 73, 76]) (by simp)
  | tru => exact appends_write (data := [84]) (by simp)
  | wild => exact appends_write (data := [95]) (by simp)
  | chr c =>
    have hc : toChar c = c := toChar_of_range hv.1 hv.2
    have := appends_bind (appends_write (data := [94]) (by simp))
      (appends_write (charText_length c))
    simp only [charText, hc] at this
    intro st hst
    obtain ⟨st', e, r⟩ := this st hst
    exact ⟨st', by simpa [prinLeaf, charText, hc] using e, by simpa [leafText] using r⟩
  | num n => exact appends_write (by have := decInt_length hv; omega)
  | sym tc s => exact appends_write (by have := Sym.name_length s; omega)
  | pair => simp [isPair] at hp

theorem appends_true (v : Val) (hv : v.InRange) :
    Appends (prinAtom true v) (text v) ∧ Appends (prinTail true v) (textTail v) := by
  induction v with
  | pair tc a d iha ihd =>
    obtain ⟨ha, hd⟩ := hv
    have A := (iha ha).1
    have D := (ihd hd).2
    refine ⟨?_, ?_⟩
    · have := appends_bind (appends_bind (appends_bind (appends_write (data := [40]) (by simp)) A) D)
        (appends_write (data := [41]) (by simp))
      intro st hst
      obtain ⟨st', e, r⟩ := this st hst
      refine ⟨st', ?_, by simpa [text] using r⟩
      rw [prinAtom, ← e]
      simp
    · have := appends_bind (appends_bind (appends_write (data := [32]) (by simp)) A) D
      intro st hst
      obtain ⟨st', e, r⟩ := this st hst
      refine ⟨st', ?_, by simpa [textTail] using r⟩
      rw [prinTail, ← e]
      simp
  | nil => exact ⟨appends_leaf_true nil trivial rfl, appends_ok⟩
  | _ =>
    refine ⟨?_, ?_⟩
    · have := appends_leaf_true _ hv rfl
      simpa [prinAtom, text] using this
    · have := appends_bind (appends_write (data := [32, 46, 32]) (by simp))
        (appends_leaf_true _ hv rfl)
      simpa [prinTail, textTail] using this

/-- **C34.** Printing a value writes exactly its text to the channel, in order and whatever its size;
in particular no write leaves the buffer. -/
theorem C34_print (v : Val) (hv : v.InRange) : prin v true = .ok (text v) := by
  obtain ⟨st', e, _, a⟩ := (appends_true v hv).1 ⟨[], []⟩ (by simp [PB.Fits, bufLen])
  simp only [prin, e, Res.ok_bind]
  simpa [PB.all] using a

example : prin (ofList [num 1, cons (chr 10) (ofSym (Sym.ofChars "x".toList)), nil]) true =
    .ok (ascii "(1 (^\\n . x) NIL)".toList) := by
  rw [C34_print _ (by simp [ofList, InRange]; decide)]
  simp [ofList, text, textTail, leafText, decInt, decNat]; decide

/-! ## Human readable printing -/

/-- NIL occurs as an element (a CAR) somewhere in the value. -/
def nilElement : Val → Bool
  | pair _ a d => a.isNil || nilElement a || nilElement d
  | _ => false

theorem appends_leaf_false (v : Val) (hv : v.InRange) (hp : v.isPair = false)
    (hn : v.isNil = false) : Appends (prinLeaf false v) (plain v) := by
  cases v with
  | nil => simp [isNil] at hn
  | tru => exact appends_write (data := [84]) (by simp)
  | wild => exact appends_write (data := [95]) (by simp)
  | chr c =>
    have hc : toChar c = c := toChar_of_range hv.1 hv.2
    have := appends_write (data := [byteOf c]) (by simp)
    intro st hst
    obtain ⟨st', e, r⟩ := this st hst
    exact ⟨st', by simpa [prinLeaf, hc] using e, by simpa [plain] using r⟩
  | num n => exact appends_write (by have := decInt_length hv; omega)
  | sym tc s => exact appends_write (by have := Sym.name_length s; omega)
  | pair => simp [isPair] at hp

theorem appends_false (v : Val) (hv : v.InRange) (hn : nilElement v = false) :
    (v.isNil = false → Appends (prinAtom false v) (plain v)) ∧
      Appends (prinTail false v) (plain v) := by
  induction v with
  | pair tc a d iha ihd =>
    obtain ⟨ha, hd⟩ := hv
    simp only [nilElement, Bool.or_eq_false_iff] at hn
    have A := (iha ha hn.1.2).1 hn.1.1
    have D := (ihd hd hn.2).2
    have := appends_bind A D
    refine ⟨fun _ => ?_, ?_⟩
    · intro st hst
      obtain ⟨st', e, r⟩ := this st hst
      refine ⟨st', ?_, by simpa [plain] using r⟩
      rw [prinAtom, ← e]
      simp
    · intro st hst
      obtain ⟨st', e, r⟩ := this st hst
      refine ⟨st', ?_, by simpa [plain] using r⟩
      rw [prinTail, ← e]
      simp
  | nil => exact ⟨fun h => by simp [isNil] at h, appends_ok⟩
  | _ =>
    have := appends_leaf_false _ hv rfl rfl
    refine ⟨fun _ => ?_, ?_⟩
    · simpa [prinAtom] using this
    · simpa [prinTail] using this

/-- **C35 (partial).** `prin` writes the concatenation of the texts of the leaves, provided NIL is not an
element. Missing: values with a NIL element, for which the claim is false, see
`C35_nil_counterexample`. -/
theorem C35_concat_partial (v : Val) (hv : v.InRange) (hn : nilElement v = false) :
    prin v false = .ok (plain v) := by
  cases hnil : v.isNil with
  | true => cases v <;> simp [isNil] at hnil; rfl
  | false =>
    obtain ⟨st', e, _, a⟩ := (appends_false v hv hn).1 hnil ⟨[], []⟩ (by simp [PB.Fits, bufLen])
    simp only [prin, e, Res.ok_bind]
    simpa [PB.all] using a

/-- **C35 (false in general).** `(prin '(T NIL T))` writes `T`, not `TT`: NIL drops the pending text. -/
theorem C35_nil_counterexample :
    prin (ofList [tru, nil, tru]) false = .ok [84] ∧ plain (ofList [tru, nil, tru]) = [84, 84] := by
  decide

example : prin (ofList [strVal [104, 105], num 42, tru]) false = .ok (ascii "hi42T".toList) := by
  rw [C35_concat_partial _ (by simp [ofList, strVal, InRange]; decide) (by decide)]
  simp [ofList, strVal, plain, leafText, decInt, decNat]; decide

end Mnml
