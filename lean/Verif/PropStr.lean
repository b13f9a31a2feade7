import Verif.Str
import Verif.PropVal

/-!
# C31, C32, C33: strings
-/

namespace Mnml

open Val

/-! ## Bytes and characters -/

theorem charOf_range (b : UInt8) : -128 ≤ charOf b ∧ charOf b ≤ 127 := by
  have := b.toNat_lt
  simp only [charOf]; split <;> omega

theorem byteOf_charOf (b : UInt8) : byteOf (charOf b) = b := by
  have h := b.toNat_lt
  simp only [byteOf, charOf]
  split
  · have : ((b.toNat : Int) % 256).toNat = b.toNat := by omega
    rw [this]; exact UInt8.ofNat_toNat
  · have : (((b.toNat : Int) - 256) % 256).toNat = b.toNat := by omega
    rw [this]; exact UInt8.ofNat_toNat

theorem toChar_charOf (b : UInt8) : toChar (charOf b) = charOf b := by
  have := charOf_range b
  simp only [toChar]; omega

theorem toChar_of_range {n : Int} (h1 : -128 ≤ n) (h2 : n ≤ 127) : toChar n = n := by
  simp only [toChar]; omega

theorem charOf_byteOf {n : Int} (h1 : -128 ≤ n) (h2 : n ≤ 127) : charOf (byteOf n) = n := by
  have e : (byteOf n).toNat = (n % 256).toNat := by
    simp only [byteOf, UInt8.toNat_ofNat']; omega
  simp only [charOf]
  split <;> omega

theorem byteOf_ne_zero {n : Int} (h1 : -128 ≤ n) (h2 : n ≤ 127) (h : n ≠ 0) : byteOf n ≠ 0 := by
  intro e
  have := charOf_byteOf h1 h2
  rw [e] at this
  simp [charOf] at this
  omega

/-! ## C31: escapes -/

/-- What a backslash followed by `c` stands for. -/
def unescapeChar (c : Int) : Int := if c = 110 then 10 else if c = 116 then 9 else c

/-- The text denoted by a character sequence: a two-character escape stands for one character, a
trailing lone backslash for nothing, other characters for themselves. -/
inductive Denotes : List Int → List Int → Prop
  | nil : Denotes [] []
  | lone : Denotes [92] []
  | plain {c cs r} : c ≠ 92 → Denotes cs r → Denotes (c :: cs) (c :: r)
  | escape {c cs r} : Denotes cs r → Denotes (92 :: c :: cs) (unescapeChar c :: r)

/-- `Denotes` is a function: at most one reading. -/
theorem Denotes.unique {s r r' : List Int} (h : Denotes s r) (h' : Denotes s r') : r = r' := by
  induction h generalizing r' with
  | nil => cases h'; rfl
  | lone => cases h' with
    | lone => rfl
    | plain h _ => exact absurd rfl h
  | plain hc _ ih => cases h' with
    | lone => exact absurd rfl hc
    | plain _ h2 => rw [ih h2]
    | escape _ => exact absurd rfl hc
  | escape _ ih => cases h' with
    | plain h _ => exact absurd rfl h
    | escape h2 => rw [ih h2]

/-- Characters are in the range of a C `char`. -/
def IsChars (cs : List Int) : Prop := ∀ c ∈ cs, -128 ≤ c ∧ c ≤ 127

theorem processEscapes_acc (cs : List Int) (hcs : IsChars cs) (res : List Int) :
    (∃ r, Denotes cs r ∧ processEscapes cs false res = res ++ r) ∧
    (∃ r, Denotes (92 :: cs) r ∧ processEscapes cs true res = res ++ r) := by
  induction cs generalizing res with
  | nil => exact ⟨⟨[], .nil, by simp [processEscapes]⟩, ⟨[], .lone, by simp [processEscapes]⟩⟩
  | cons c cs ih =>
    have hc := hcs c (by simp)
    have ih := fun res => ih (fun x hx => hcs x (by simp [hx])) res
    constructor
    · by_cases h : c = 92
      · subst h
        obtain ⟨r, hr, e⟩ := (ih res).2
        exact ⟨r, hr, by simp [processEscapes, chBackslash, e]⟩
      · obtain ⟨r, hr, e⟩ := (ih (res ++ [c])).1
        exact ⟨c :: r, .plain h hr, by simp [processEscapes, chBackslash, h, e]⟩
    · obtain ⟨r, hr, e⟩ := (ih (res ++ [unescapeChar c])).1
      refine ⟨unescapeChar c :: r, .escape hr, ?_⟩
      have hx : toChar c = c := toChar_of_range hc.1 hc.2
      simp only [processEscapes, hx, chN, chT, if_true]
      simp only [unescapeChar] at e ⊢
      rw [e]; simp

theorem isChars_map_charOf (bs : List UInt8) : IsChars (bs.map charOf) := by
  intro c hc
  obtain ⟨b, _, rfl⟩ := List.mem_map.1 hc
  exact charOf_range b

/-- **C31.** The string made from bytes is the text that the bytes denote. -/
theorem C31_makeString (str : List UInt8) (len : Nat) :
    Denotes ((str.take len).map charOf) (makeString str len) := by
  obtain ⟨⟨r, hr, e⟩, _⟩ := processEscapes_acc _ (isChars_map_charOf (str.take len)) []
  have : makeString str len = r := by simpa [makeString] using e
  rw [this]; exact hr

theorem Denotes.self {cs : List Int} (h : (92 : Int) ∉ cs) : Denotes cs cs := by
  induction cs with
  | nil => exact .nil
  | cons c cs ih =>
    exact .plain (fun e => h (by simp [e])) (ih (fun hm => h (by simp [hm])))

theorem processEscapes_plain (cs : List Int) (hc : IsChars cs) (h : (92 : Int) ∉ cs) :
    processEscapes cs false [] = cs := by
  obtain ⟨⟨r, hr, e⟩, _⟩ := processEscapes_acc cs hc []
  rw [e, List.nil_append]; exact hr.unique (Denotes.self h)

theorem charOf_eq_backslash (b : UInt8) : charOf b = 92 ↔ b = 92 := by
  constructor
  · intro h
    have h2 := byteOf_charOf b
    rw [h] at h2; rw [← h2]; rfl
  · rintro rfl; rfl

/-- **C31.** Bytes without a backslash are preserved exactly. -/
theorem C31_plain (str : List UInt8) (h : (92 : UInt8) ∉ str) :
    makeString str str.length = str.map charOf := by
  simp only [makeString, List.take_length]
  apply processEscapes_plain _ (isChars_map_charOf _)
  intro hm
  obtain ⟨b, hb, e⟩ := List.mem_map.1 hm
  rw [charOf_eq_backslash] at e
  exact h (e ▸ hb)

/-- Example: `a\nb\` is `a`, newline, `b`. -/
example : makeString [97, 92, 110, 98, 92] 5 = [97, 10, 98] := by decide

/-! ## C33: C strings -/

theorem makeCString_chars (cs : List Int) (len idx : Nat) (hi : idx ≤ len) :
    makeCString (strVal cs) len idx =
      .ok ((cs.take (len - idx)).map byteOf ++ [0], min (idx + cs.length) len) := by
  induction cs generalizing idx with
  | nil => simp only [strVal, List.map_nil, ofList, makeCString, List.length_nil]; simp; omega
  | cons c cs ih =>
    simp only [strVal, List.map_cons, ofList, makeCString]
    split
    · next h => subst h; simp
    · next h =>
      have := ih (idx + 1) (by omega)
      simp only [strVal] at this
      rw [this]
      simp only [Res.ok_bind, number]
      have e : len - idx = (len - (idx + 1)) + 1 := by omega
      rw [e, List.take_succ_cons]
      simp; omega

/-- **C33.** Converting a string of `n` characters with limit `L` writes the first `min n L` characters
and one terminator, from index 0 on, and returns `min n L`. -/
theorem C33_exact (cs : List Int) (L : Nat) :
    makeCString (strVal cs) L 0 = .ok ((cs.take L).map byteOf ++ [0], min cs.length L) := by
  have := makeCString_chars cs L 0 (by omega)
  simpa using this

/-- **C33.** A buffer of `L + 1` bytes is sufficient for every string ... -/
theorem C33_fits (cs : List Int) (L : Nat) :
    ∃ out n, makeCString (strVal cs) L 0 = .ok (out, n) ∧ store (L + 1) out = .ok out := by
  refine ⟨_, _, C33_exact cs L, ?_⟩
  simp only [store]
  rw [if_pos]; simp; omega

/-- **C33.** ... but a buffer of only `L` bytes, as used by `in`, `out` and `load` for file names
(`char file_buf[PATH_MAX]` with limit `PATH_MAX`), is overrun by every string of `L` or more
characters. -/
theorem C33_overflow (cs : List Int) (L : Nat) (h : L ≤ cs.length) :
    ∃ out n, makeCString (strVal cs) L 0 = .ok (out, n) ∧ store L out = .ub .outOfBounds := by
  refine ⟨_, _, C33_exact cs L, ?_⟩
  simp only [store]
  rw [if_neg]; simp; omega

example : makeCString (strVal [104, 105]) 16 0 = .ok ([104, 105, 0], 2) := by decide

/-! ## C32: str and sym -/

theorem takeWhile_nonzero_append (l : List UInt8) (h : (0 : UInt8) ∉ l) (r : List UInt8) :
    (l ++ 0 :: r).takeWhile (fun x => decide (x ≠ 0)) = l := by
  induction l with
  | nil => simp
  | cons x xs ih =>
    have : x ≠ 0 := fun e => h (by simp [e])
    rw [List.cons_append, List.takeWhile_cons]
    simp only [this, ne_eq, not_false_eq_true, decide_true, if_true]
    rw [ih (fun hm => h (by simp [hm]))]

theorem strVal_isString (cs : List Int) : (strVal cs).isString = true := by
  rw [C40_string]
  refine ⟨cs, ?_⟩
  simp only [strVal]
  induction cs with
  | nil => rfl
  | cons c cs ih => simp [ofList, erase, ih]

/-- The symbol made by `sym` from a string. -/
theorem natSym_chars (cs : List Int) (h0 : cs ≠ []) :
    natSym (strVal cs) = .ok (ofSym (Sym.ofBytes ((cs.take 16).map byteOf ++ [0]))) := by
  have hp : (strVal cs).isPair = true := by
    cases cs with
    | nil => exact absurd rfl h0
    | cons c cs => rfl
  simp only [natSym, hp, strVal_isString, Bool.and_self, if_true, C33_exact, Res.ok_bind, store]
  rw [if_pos (by simp; omega)]
  simp only [Res.ok_bind]
  rw [if_neg]
  cases cs with
  | nil => exact absurd rfl h0
  | cons c cs => simp

/-- **C32.** `(str (sym S))` is `S` for strings of 1 to 16 characters without NUL or backslash. -/
theorem C32_str_sym (cs : List Int) (hc : IsChars cs) (h0 : cs ≠ []) (h16 : cs.length ≤ 16)
    (hnul : (0 : Int) ∉ cs) (hbs : (92 : Int) ∉ cs) :
    (natSym (strVal cs) >>= natStr) = .ok (strVal cs) := by
  rw [natSym_chars cs h0]
  have hn0 : (0 : UInt8) ∉ cs.map byteOf := by
    intro hm
    obtain ⟨c, hcm, e⟩ := List.mem_map.1 hm
    have := hc c hcm
    exact byteOf_ne_zero this.1 this.2 (fun e0 => hnul (e0 ▸ hcm)) e
  have e16 : cs.take 16 = cs := List.take_of_length_le h16
  have hname : (Sym.ofBytes (cs.map byteOf ++ [0])).name = cs.map byteOf := by
    rw [Sym.name_ofBytes, takeWhile_nonzero_append _ hn0]
    exact List.take_of_length_le (by simpa using h16)
  simp only [Res.ok_bind, natStr, tag, e16, hname]
  congr 1
  congr 1
  have : (cs.map byteOf).map charOf = cs := by
    rw [List.map_map]
    conv => rhs; rw [← List.map_id cs]
    apply List.map_congr_left
    intro c hcm
    have := hc c hcm
    simp [charOf_byteOf this.1 this.2]
  rw [C31_plain, this]
  intro hm
  obtain ⟨c, hcm, e⟩ := List.mem_map.1 hm
  have hcr := hc c hcm
  apply hbs
  have := charOf_byteOf hcr.1 hcr.2
  rw [e] at this
  rw [show (92 : Int) = c from this] ; exact hcm

/-- A symbol as the reader and `sym` make them: bytes after the first NUL are NUL. -/
def Sym.Canonical (s : Sym) : Prop := Sym.ofBytes s.name = s

theorem Sym.canonical_ofBytes (b : List UInt8) : (Sym.ofBytes b).Canonical := by
  unfold Sym.Canonical
  apply Sym.ext'
  have h := Sym.name_ofBytes b
  have hz : (0 : UInt8) ∉ (Sym.ofBytes b).name := by
    simp only [Sym.name]
    intro hm
    have : ∀ l : List UInt8, (0 : UInt8) ∉ l.takeWhile (fun x => decide (x ≠ 0)) := by
      intro l
      induction l with
      | nil => simp
      | cons x xs ih =>
        rw [List.takeWhile_cons]
        split
        · next hx => simp at hx; intro hm; rcases List.mem_cons.1 hm with e | e
                     · exact hx e.symm
                     · exact ih e
        · simp
    exact this _ hm
  simp only [Sym.ofBytes, strncpy16] at h hz ⊢
  rw [takeWhile_eq_self_of_no_nul _ hz, h, List.take_take]
  simp

/-- **C32.** `(sym (str X))` is `X` for a symbol with a non-empty name without backslash. -/
theorem C32_sym_str (tc : Bool) (s : Sym) (hcan : s.Canonical) (h0 : s.name ≠ [])
    (hbs : (92 : UInt8) ∉ s.name) :
    (natStr (sym tc s) >>= natSym) = .ok (ofSym s) := by
  simp only [natStr, tag, Res.ok_bind]
  rw [C31_plain _ hbs, natSym_chars _ (by simpa using h0)]
  have h16 : s.name.length ≤ 16 := by
    rw [← hcan, Sym.name_ofBytes]; exact List.length_take_le _ _
  have e1 : (s.name.map charOf).take 16 = s.name.map charOf :=
    List.take_of_length_le (by simpa using h16)
  have e2 : (s.name.map charOf).map byteOf = s.name := by
    rw [List.map_map]
    conv => rhs; rw [← List.map_id s.name]
    apply List.map_congr_left
    intro b _; simp [byteOf_charOf]
  rw [e1, e2]
  have hn : (0 : UInt8) ∉ s.name := by
    have : ∀ l : List UInt8, (0 : UInt8) ∉ l.takeWhile (fun x => decide (x ≠ 0)) := by
      intro l
      induction l with
      | nil => simp
      | cons x xs ih =>
        rw [List.takeWhile_cons]
        split
        · next hx => simp at hx; intro hm; rcases List.mem_cons.1 hm with e | e
                     · exact hx e.symm
                     · exact ih e
        · simp
    exact this _
  have : Sym.ofBytes (s.name ++ [0]) = Sym.ofBytes s.name := by
    apply Sym.ext'
    simp only [Sym.ofBytes, strncpy16]
    rw [takeWhile_nonzero_append _ hn, takeWhile_eq_self_of_no_nul _ hn]
  rw [this, hcan]

/-- **C32 (limit).** The side condition on backslashes is needed: the symbol `a\n` (3 characters)
becomes the 2-character string `a`, newline, whose symbol is another one. -/
theorem C32_backslash_counterexample :
    (natStr (ofSym (Sym.ofBytes [97, 92, 110])) >>= natSym)
      = .ok (ofSym (Sym.ofBytes [97, 10])) ∧
    Sym.ofBytes [97, 92, 110] ≠ Sym.ofBytes [97, 10] := by decide

example : (natSym (strVal [102, 111, 111]) >>= natStr) = .ok (strVal [102, 111, 111]) :=
  C32_str_sym _ (by intro c hc; simp at hc; omega) (by decide) (by decide) (by decide) (by decide)

/-- **C32.** `chr` makes the character whose code has the low byte of the number: it is in the range of `char` and congruent to the number.
A character is its own `chr`. -/
theorem C32_chr (k : Int) :
    (∃ c, natChr (num k) = .ok (chr c) ∧ -128 ≤ c ∧ c ≤ 127 ∧ (256 : Int) ∣ k - c) ∧
    (-128 ≤ k → k ≤ 127 → natChr (chr k) = .ok (chr k)) := by
  constructor
  · refine ⟨toChar k, rfl, ?_, ?_, ?_⟩ <;> simp only [toChar] <;> omega
  · intro h1 h2
    have : toChar k = k := by simp only [toChar]; omega
    simp [natChr, number, this]

example : natChr (num 353) = .ok (chr 97) := by decide

end Mnml
