import Verif.LexSem
import Verif.Parse
import Verif.PropPrint

/-!
# C37, C36: layout does not matter, and what is printed reads back
-/

namespace Mnml
namespace Lex

open Val

/-! ## C37: separators -/

/-- Something that separates tokens: spaces (the blank, the tab, the ends of line and page) and comments with the end of their line. -/
inductive Sep : List UInt8 → Prop where
  | space {b : UInt8} (h : b ∈ [32, 9, 10, 11, 12, 13]) : Sep [b]
  | comment {c : List UInt8} (h : ∀ x ∈ c, x ≠ 10) : Sep (35 :: c ++ [10])
  | append {s t : List UInt8} (hs : Sep s) (ht : Sep t) : Sep (s ++ t)

/-- A word: what a rule other than `comment` and `space` accepts; the closing quote of a string does not follow
a backslash. -/
def Word (w : List UInt8) (r : Rule) : Prop :=
  accept w = some r ∧ r ≠ .comment ∧ r ≠ .space ∧ (r = .string → plainEnd w)

/-- The rules whose words need no delimiter behind them. -/
def Rule.closed : Rule → Bool
  | popen => true
  | pclose => true
  | char => true
  | string => true
  | qpopen => true
  | bpopen => true
  | tpopen => true
  | _ => false

/-- `t` is a layout of the words `ws`: separators anywhere between the words, a comment may end it, and only words that need no
delimiter may be followed directly by a character of names. -/
inductive Layout : List (List UInt8 × Rule) → List UInt8 → Prop where
  | nil : Layout [] []
  | trail {c : List UInt8} (h : ∀ x ∈ c, x ≠ 10) : Layout [] (35 :: c)
  | sep {s t : List UInt8} {ws : List (List UInt8 × Rule)} (hs : Sep s) (h : Layout ws t) : Layout ws (s ++ t)
  | word {w t : List UInt8} {r : Rule} {ws : List (List UInt8 × Rule)} (hw : Word w r)
      (hd : r.closed = true ∨ delim t = true) (h : Layout ws t) : Layout ((w, r) :: ws) (w ++ t)

/-- The tokens of words. -/
def tokensOf (ws : List (List UInt8 × Rule)) : List Token := ws.flatMap fun w => w.2.tokens w.1

theorem lex_sep {s : List UInt8} (hs : Sep s) (rest : List UInt8) : lex (s ++ rest) = lex rest := by
  induction hs generalizing rest with
  | space h' =>
    have h := (show ∀ b ∈ [32, 9, 10, 11, 12, 13], isSpace b = true by decide) _ h'
    rw [lex_step (accept_space h) (stops_head (.inr (.inr h)) rest) (overlong_other (by simp) (by simp) (by simp) (by simp))]
    simp [Rule.tokens]
  | @comment c h =>
    have e : 35 :: c ++ [10] ++ rest = (35 :: c) ++ ([10] ++ rest) := by simp
    rw [e, lex_step (rest := [10] ++ rest) (accept_comment h) (stops_comment (.inr ⟨rest, rfl⟩))
      (overlong_other (by simp) (by simp) (by simp) (by simp)),
      lex_step (accept_space (b := 10) (by decide)) (stops_head (.inr (.inr (by decide))) rest)
        (overlong_other (by simp) (by simp) (by simp) (by simp))]
    simp [Rule.tokens]
  | append _ _ ihs iht => rw [List.append_assoc, ihs, iht]

theorem lex_word {w rest : List UInt8} {r : Rule} (hw : Word w r) (hd : r.closed = true ∨ delim rest = true) :
    lex (w ++ rest) = (r.tokens w ++ (lex rest).1, (lex rest).2) := by
  obtain ⟨ha, hc, hs, hp⟩ := hw
  have acc := accept_accepts ha
  have ho : overlong r w.length rest = false := by
    rcases hd with hd | hd
    · exact overlong_other (by rintro rfl; cases hd) (by rintro rfl; cases hd) (by rintro rfl; cases hd)
        (by rintro rfl; cases hd)
    · exact overlong_delim hd
  refine lex_step ha ?_ ho
  have open_ : ∀ b v, w = b :: v → isSymChar b = true → delim rest = true → Stops w rest :=
    fun b v e h1 h2 => e ▸ stops_symChar h1 h2
  have pre : ∀ (p : UInt8) (f : List UInt8 → Bool), (p = 39 ∨ p = 96 ∨ p = 126) → f [] = false →
      prefixed p f w = true → delim rest = true → Stops w rest := by
    intro p f hp hf h hd
    cases w with
    | nil => simp [prefixed] at h
    | cons b v =>
      simp only [prefixed, Bool.and_eq_true, beq_iff_eq] at h
      obtain ⟨rfl, h⟩ := h
      exact stops_prefixed hp (by rintro rfl; rw [hf] at h; cases h) hd
  cases r
  case popen => simp only [Rule.accepts, beq_iff_eq] at acc; subst acc; exact stops_head (.inl rfl) _
  case pclose => simp only [Rule.accepts, beq_iff_eq] at acc; subst acc; exact stops_head (.inr (.inl rfl)) _
  case char => exact stops_char ha
  case string => exact stops_string ha (hp rfl)
  case qpopen => simp only [Rule.accepts, beq_iff_eq] at acc; subst acc; exact stops_prefix_popen (.inl rfl) _
  case bpopen => simp only [Rule.accepts, beq_iff_eq] at acc; subst acc; exact stops_prefix_popen (.inr (.inl rfl)) _
  case tpopen => simp only [Rule.accepts, beq_iff_eq] at acc; subst acc; exact stops_prefix_popen (.inr (.inr rfl)) _
  case comment => exact absurd rfl hc
  case space => exact absurd rfl hs
  all_goals replace hd : delim rest = true := hd.resolve_left (by simp [Rule.closed])
  case dot => simp only [Rule.accepts, beq_iff_eq] at acc; exact open_ _ _ acc (by decide) hd
  case nil => simp only [Rule.accepts, beq_iff_eq] at acc; exact open_ _ _ acc (by decide) hd
  case tru => simp only [Rule.accepts, beq_iff_eq] at acc; exact open_ _ _ acc (by decide) hd
  case wild => simp only [Rule.accepts, beq_iff_eq] at acc; exact open_ _ _ acc (by decide) hd
  case number =>
    cases w with
    | nil => simp [Rule.accepts, isNumber] at acc
    | cons b v => exact open_ b v rfl (isNumber_all (w := b :: v) acc b (by simp)) hd
  case symbol =>
    cases w with
    | nil => simp [Rule.accepts, isSymbol] at acc
    | cons b v => exact open_ b v rfl (isSymbol_all (w := b :: v) acc b (by simp)) hd
  case qsymbol => exact pre 39 _ (.inl rfl) rfl acc hd
  case bsymbol => exact pre 96 _ (.inr (.inl rfl)) rfl acc hd
  case tsymbol => exact pre 126 _ (.inr (.inr rfl)) rfl acc hd
  case qnumber => exact pre 39 _ (.inl rfl) rfl acc hd
  case bnumber => exact pre 96 _ (.inr (.inl rfl)) rfl acc hd
  case tnumber => exact pre 126 _ (.inr (.inr rfl)) rfl acc hd

/-- **C37.** Whatever separators stand between the words, the scanner delivers the tokens of the words. -/
theorem C37_layout {ws : List (List UInt8 × Rule)} {t : List UInt8} (h : Layout ws t) :
    lex t = (tokensOf ws, .done) := by
  induction h with
  | nil => rfl
  | @trail c h =>
    have := lex_step (rest := []) (accept_comment h) (stops_comment (.inl rfl))
      (overlong_other (by simp) (by simp) (by simp) (by simp))
    rw [List.append_nil] at this
    rw [this]; rfl
  | sep hs _ ih => rw [lex_sep hs, ih]
  | word hw hd _ ih => rw [lex_word hw hd, ih]; simp [tokensOf]

/-- **C37.** Two layouts of the same words read as the same values. -/
theorem C37_insensitive (ev : Val → Res Val) {ws : List (List UInt8 × Rule)} {t t' : List UInt8} (h : Layout ws t)
    (h' : Layout ws t') : readText ev t = readText ev t' := by
  rw [readText, readText, C37_layout h, C37_layout h']

theorem Sep.ne_nil {s : List UInt8} (h : Sep s) : s ≠ [] := by
  induction h with
  | space => simp
  | comment => simp
  | append _ _ ih _ => simp [ih]

theorem delim_append {t u : List UInt8} (ht : delim t = true) (hu : delim u = true) : delim (t ++ u) = true := by
  cases t with
  | nil => exact hu
  | cons b t => exact ht

/-- Layouts one below the other. -/
theorem Layout.join {ws vs : List (List UInt8 × Rule)} {t u : List UInt8} (h : Layout ws t) (h' : Layout vs u) :
    Layout (ws ++ vs) (t ++ 10 :: u) := by
  induction h with
  | nil => exact .sep (s := [10]) (.space (by decide)) h'
  | @trail c h =>
    have e : 35 :: c ++ 10 :: u = (35 :: c ++ [10]) ++ u := by simp
    rw [e]; exact .sep (.comment h) h'
  | sep hs _ ih => rw [List.append_assoc]; exact .sep hs ih
  | word hw hd _ ih =>
    rw [List.append_assoc]
    exact .word hw (hd.imp id fun hd => delim_append hd (by simp only [delim]; decide)) ih

/-- **C37.** A text may be continued on a new line between any two words. -/
theorem C37_newline (ev : Val → Res Val) {ws vs : List (List UInt8 × Rule)} {t u : List UInt8} (h : Layout ws t)
    (h' : Layout vs u) (ha : Layout (ws ++ vs) (t ++ u)) : readText ev (t ++ 10 :: u) = readText ev (t ++ u) :=
  C37_insensitive ev (h.join h') ha

/-- The words of `(a "b" ^c)`. -/
private def sampleWords : List (List UInt8 × Rule) :=
  [([40], .popen), ([97], .symbol), ([34, 98, 34], .string), ([94, 99], .char), ([41], .pclose)]

private theorem sampleWord (w : List UInt8 × Rule) (h : w ∈ sampleWords) : Word w.1 w.2 := by
  simp only [sampleWords, List.mem_cons, List.not_mem_nil, or_false] at h
  rcases h with rfl | rfl | rfl | rfl | rfl <;> refine ⟨by decide, by decide, by decide, ?_⟩ <;> simp [plainEnd]

/-- Two layouts of the same words: `(a"b"^c)` and `( a # x`, newline, `"b" ^c ) # y`. -/
example : lex (ascii "(a\"b\"^c)".toList) = lex (ascii "( a # x\n\"b\" ^c ) # y".toList) := by
  have h1 : Layout sampleWords ([40] ++ ([97] ++ ([34, 98, 34] ++ ([94, 99] ++ ([41] ++ []))))) := by
    refine .word (sampleWord ([40], .popen) (by simp [sampleWords])) (.inl rfl) ?_
    refine .word (sampleWord ([97], .symbol) (by simp [sampleWords])) (.inr rfl) ?_
    refine .word (sampleWord ([34, 98, 34], .string) (by simp [sampleWords])) (.inl rfl) ?_
    refine .word (sampleWord ([94, 99], .char) (by simp [sampleWords])) (.inl rfl) ?_
    exact .word (sampleWord ([41], .pclose) (by simp [sampleWords])) (.inl rfl) .nil
  have h2 : Layout sampleWords ([40] ++ ([32] ++ ([97] ++ ([32] ++ ((35 :: [32, 120] ++ [10]) ++ ([34, 98, 34] ++ ([32] ++
      ([94, 99] ++ ([32] ++ ([41] ++ ([32] ++ (35 :: [32, 121])))))))))))) := by
    have sp : Sep [32] := .space (by decide)
    refine .word (sampleWord ([40], .popen) (by simp [sampleWords])) (.inl rfl) (.sep sp ?_)
    refine .word (sampleWord ([97], .symbol) (by simp [sampleWords])) (.inr rfl) (.sep sp (.sep (.comment (by decide)) ?_))
    refine .word (sampleWord ([34, 98, 34], .string) (by simp [sampleWords])) (.inl rfl) (.sep sp ?_)
    refine .word (sampleWord ([94, 99], .char) (by simp [sampleWords])) (.inl rfl) (.sep sp ?_)
    exact .word (sampleWord ([41], .pclose) (by simp [sampleWords])) (.inl rfl) (.sep sp (.trail (by decide)))
  exact (C37_layout h1).trans (C37_layout h2).symm

/-- The condition on strings is needed: `"\"` is a string (of one backslash), but with a second string on the same
line the first one extends to the quote that opens the second. -/
theorem C37_string_counterexample :
    (lex (ascii "\"\\\" a".toList)).1.length = 2 ∧ (lex (ascii "\"\\\" \"b".toList)).1 = [.str [92, 34, 32], .sym (Sym.ofBytes [98])] := by
  decide +kernel

/-! ## C36: what is printed reads back -/

/-- The characters of names, as in the description of the language. -/
def letters : List UInt8 := ascii "abcdefghijklmnopqrstuvwxyzABCDEFGHIJKLMNOPQRSTUVWXYZ".toList
@[inherit_doc letters] def digits : List UInt8 := ascii "0123456789".toList
@[inherit_doc letters] def marks : List UInt8 := ascii "!@$%&*_+-={}[]:;|\\<>?,./".toList

/-- Names that read as names: a letter or mark followed by at most 15 letters, digits or marks, that is not a number,
`NIL`, `T`, `_` or the dot. -/
def Name (n : List UInt8) : Prop :=
  (∃ b w, n = b :: w ∧ b ∈ letters ++ marks ∧ ∀ x ∈ w, x ∈ letters ++ digits ++ marks) ∧ n.length ≤ 16 ∧
  (¬ ∃ w, n = 45 :: w ∧ w ≠ [] ∧ ∀ x ∈ w, x ∈ digits) ∧
  n ≠ ascii ['N', 'I', 'L'] ∧ n ≠ ascii ['T'] ∧ n ≠ ascii ['_'] ∧ n ≠ ascii ['.']

theorem isDigit_digits {b : UInt8} (h : isDigit b = true) : b ∈ digits := by
  have key : ((List.range 256).all fun n => !isDigit (UInt8.ofNat n) || digits.contains (UInt8.ofNat n)) = true := by
    decide +kernel
  rw [List.all_eq_true] at key
  have := key b.toNat (List.mem_range.2 b.toNat_lt)
  simpa [h] using this

/-- The same in terms of the rules of the lexer. -/
theorem Name.model {n : List UInt8} (h : Name n) : isSymbol n = true ∧ isNumber n = false := by
  obtain ⟨⟨b, w, rfl, hb, hw⟩, hl, hn, _⟩ := h
  have k1 : ∀ b ∈ letters ++ marks, (isAlpha b || isMark b) = true ∧ isDigit b = false := by decide +kernel
  have k2 : ∀ b ∈ letters ++ digits ++ marks, isSymChar b = true := by decide +kernel
  simp only [List.length_cons] at hl
  refine ⟨?_, ?_⟩
  · simp only [isSymbol, (k1 b hb).1, Bool.true_and, Bool.and_eq_true, List.all_eq_true, decide_eq_true_eq]
    exact ⟨fun x hx => k2 x (hw x hx), by omega⟩
  · simp only [isNumber]
    by_cases e : b = 45
    · subst e
      cases hd : isDigits w with
      | false => rfl
      | true =>
        simp only [isDigits, Bool.and_eq_true, Bool.not_eq_true', List.isEmpty_eq_false_iff, List.all_eq_true] at hd
        exact absurd ⟨w, rfl, hd.1, fun x hx => isDigit_digits (hd.2 x hx)⟩ hn
    · simp [e, isDigits, (k1 b hb).2]

/-- The values of C36: no bytes after the end of a name, and characters that are printable (except the backslash) or have an
escape. -/
def Readable : Val → Prop
  | num n => inI64 n = true
  | chr c => (32 ≤ c ∧ c ≤ 126 ∧ c ≠ 92) ∨ c = 27 ∨ c = 10 ∨ c = 13 ∨ c = 9
  | sym _ s => Name s.name ∧ s = Sym.ofBytes s.name
  | pair _ a d => Readable a ∧ Readable d
  | _ => True

theorem Readable.inRange {v : Val} (h : Readable v) : v.InRange := by
  induction v with
  | num n => exact h
  | chr c => simp only [Readable] at h; simp only [InRange]; omega
  | pair tc a d iha ihd => exact ⟨iha h.1, ihd h.2⟩
  | _ => trivial

/-! ### Numbers -/

theorem decNat_digits (n : Nat) : decNat n ≠ [] ∧ (∀ b ∈ decNat n, isDigit b = true) ∧ digitsVal (decNat n) = n := by
  induction n using Nat.strongRecOn with
  | _ n ih =>
    have dig : ∀ k, k < 10 → isDigit (UInt8.ofNat (48 + k)) = true ∧ (UInt8.ofNat (48 + k)).toNat - 48 = k := by
      decide
    rw [decNat]
    split
    · next h =>
      obtain ⟨h1, h2⟩ := dig n h
      refine ⟨by simp, fun b hb => by rw [List.mem_singleton.1 hb]; exact h1, ?_⟩
      simp only [digitsVal, List.foldl_cons, List.foldl_nil, h2]; omega
    · next h =>
      obtain ⟨_, h2, h3⟩ := ih (n / 10) (by omega)
      obtain ⟨h4, h5⟩ := dig (n % 10) (by omega)
      refine ⟨by simp, ?_, ?_⟩
      · intro b hb
        rcases List.mem_append.1 hb with hb | hb
        · exact h2 b hb
        · rw [List.mem_singleton.1 hb]; exact h4
      · simp only [digitsVal] at h3
        simp only [digitsVal, List.foldl_append, h3, List.foldl_cons, List.foldl_nil, h5]
        omega

theorem decNat_isDigits (n : Nat) : isDigits (decNat n) = true := by
  obtain ⟨h1, h2, _⟩ := decNat_digits n
  simp [isDigits, h1]
  exact h2

theorem isDigits_head {b : UInt8} {w : List UInt8} (h : isDigits (b :: w) = true) : b ≠ 45 := by
  simp only [isDigits, List.all_cons, Bool.and_eq_true] at h
  rintro rfl
  exact absurd h.2.1 (by decide)

theorem decInt_isNumber (n : Int) : isNumber (decInt n) = true := by
  have h := decNat_isDigits n.natAbs
  rw [decInt]
  split
  · simpa [isNumber] using h
  · cases e : decNat n.natAbs with
    | nil => rw [e] at h; simp [isDigits] at h
    | cons b w => rw [e] at h; simp [isNumber, isDigits_head h, h]

theorem strtoll_decInt {n : Int} (hn : inI64 n = true) : strtoll (decInt n) = n := by
  have h := decNat_isDigits n.natAbs
  have hv := (decNat_digits n.natAbs).2.2
  simp only [inI64, Bool.and_eq_true, decide_eq_true_eq] at hn
  rw [decInt]
  split
  · next hneg =>
    have e : -(n.natAbs : Int) = n := by omega
    simp only [strtoll, beq_self_eq_true, if_true, hv, e]
    rw [if_neg (by omega), if_neg (by omega)]
  · next hpos =>
    have e' : (n.natAbs : Int) = n := by omega
    cases e : decNat n.natAbs with
    | nil => rw [e] at h; simp [isDigits] at h
    | cons b w =>
      rw [e] at h hv
      have hb : (b == 45) = false := by simpa using isDigits_head h
      simp only [strtoll, hb, hv, e', Bool.false_eq_true, if_false]
      rw [if_neg (by omega), if_neg (by omega)]

theorem accept_number {w : List UInt8} (h : isNumber w = true) : accept w = some .number := by
  have h0 : w ≠ [40] ∧ w ≠ [41] ∧ w ≠ [46] := by
    refine ⟨?_, ?_, ?_⟩ <;> rintro rfl <;> exact absurd h (by decide)
  simp [accept, rules, Rule.accepts, h0, h]

theorem Name.accept {w : List UInt8} (h : Name w) : accept w = some .symbol := by
  obtain ⟨h1, h2⟩ := h.model
  obtain ⟨_, _, _, h3, h4, h5, h6⟩ := h
  have h3' : w ≠ [78, 73, 76] := h3
  have h4' : w ≠ [84] := h4
  have h5' : w ≠ [95] := h5
  have h6' : w ≠ [46] := h6
  clear h3 h4 h5 h6
  have h7 : w ≠ [40] ∧ w ≠ [41] := by
    refine ⟨?_, ?_⟩ <;> rintro rfl <;> exact absurd h1 (by decide)
  have h8 : isChar w = false := by
    rw [isChar.eq_def]
    split
    · exact absurd (isSymbol_all h1 94 (by simp)) (by decide)
    · exact absurd (isSymbol_all h1 94 (by simp)) (by decide)
    · rfl
  have h9 : isString w = false := by
    cases w with
    | nil => rfl
    | cons b w =>
      have := isSymChar_not (isSymbol_all h1 b (by simp))
      simp [isString, this]
  simp [Lex.accept, rules, Rule.accepts, *]

/-! ### Words of a value -/

/-- The rule for a leaf. -/
def leafRule : Val → Rule
  | nil => .nil
  | tru => .tru
  | wild => .wild
  | chr _ => .char
  | num _ => .number
  | _ => .symbol

/-- The token of a leaf. -/
def leafToken : Val → Token
  | nil => .nil
  | tru => .tru
  | wild => .wild
  | chr c => .chr c
  | num n => .num n
  | sym _ s => .sym s
  | pair .. => .nil

mutual
/-- The words of a value. -/
def words : Val → List (List UInt8 × Rule)
  | pair _ a d => ([40], .popen) :: (words a ++ (wordsTail d ++ [([41], .pclose)]))
  | v => [(leafText v, leafRule v)]
/-- The words between the first element and the closing parenthesis. -/
def wordsTail : Val → List (List UInt8 × Rule)
  | nil => []
  | pair _ a d => words a ++ wordsTail d
  | v => [([46], .dot), (leafText v, leafRule v)]
end

theorem chr_cases {c : Int} (h : Readable (chr c)) :
    accept (leafText (chr c)) = some .char ∧ charVal (leafText (chr c)) = c := by
  have key : ((List.range 128).all fun n => let c : Int := n
      !((32 ≤ c && c ≤ 126 && c != 92) || c == 27 || c == 10 || c == 13 || c == 9) ||
        (accept (leafText (chr c)) == some .char && charVal (leafText (chr c)) == c)) = true := by decide +kernel
  rw [List.all_eq_true] at key
  simp only [Readable] at h
  have hm := key c.toNat (List.mem_range.2 (by omega))
  have hc : ((c.toNat : Nat) : Int) = c := by omega
  simp only [hc] at hm
  have hb : ((32 ≤ c && c ≤ 126 && c != 92) || c == 27 || c == 10 || c == 13 || c == 9) = true := by
    simp only [Bool.or_eq_true, Bool.and_eq_true, decide_eq_true_eq, bne_iff_ne, beq_iff_eq]
    omega
  rw [hb] at hm
  simpa using hm

theorem leaf_word {v : Val} (h : Readable v) (hp : v.isPair = false) :
    Word (leafText v) (leafRule v) ∧ (leafRule v).tokens (leafText v) = [leafToken v] := by
  cases v with
  | pair => simp [isPair] at hp
  | nil => exact ⟨⟨by decide, by simp [leafRule], by simp [leafRule], by simp [leafRule]⟩, rfl⟩
  | tru => exact ⟨⟨by decide, by simp [leafRule], by simp [leafRule], by simp [leafRule]⟩, rfl⟩
  | wild => exact ⟨⟨by decide, by simp [leafRule], by simp [leafRule], by simp [leafRule]⟩, rfl⟩
  | chr c =>
    obtain ⟨h1, h2⟩ := chr_cases h
    exact ⟨⟨h1, by simp [leafRule], by simp [leafRule], by simp [leafRule]⟩, by simp [leafRule, Rule.tokens, h2, leafToken]⟩
  | num n =>
    refine ⟨⟨accept_number (decInt_isNumber n), by simp [leafRule], by simp [leafRule], by simp [leafRule]⟩, ?_⟩
    simp [leafRule, Rule.tokens, leafToken, leafText, strtoll_decInt h]
  | sym tc s =>
    refine ⟨⟨h.1.accept, by simp [leafRule], by simp [leafRule], by simp [leafRule]⟩, ?_⟩
    simp only [leafRule, Rule.tokens, leafToken, leafText]
    rw [← h.2]

theorem Word.popen : Word [40] .popen := ⟨by decide, by simp, by simp, by simp⟩
theorem Word.pclose : Word [41] .pclose := ⟨by decide, by simp, by simp, by simp⟩
theorem Word.dot : Word [46] .dot := ⟨by decide, by simp, by simp, by simp⟩

theorem delim_space (t : List UInt8) : delim (32 :: t) = true := by simp only [delim]; decide
theorem delim_close (t : List UInt8) : delim (41 :: t) = true := by simp only [delim]; decide

theorem textTail_delim (v : Val) (t : List UInt8) (ht : delim t = true) : delim (textTail v ++ t) = true := by
  cases v with
  | nil => exact ht
  | pair => simp only [textTail]; exact delim_space _
  | _ => simp only [textTail]; exact delim_space _

theorem leaf_layout {v : Val} (h : Readable v) (hp : v.isPair = false) {ws : List (List UInt8 × Rule)} {t : List UInt8}
    (hd : delim t = true) (hl : Layout ws t) : Layout ((leafText v, leafRule v) :: ws) (leafText v ++ t) :=
  .word (leaf_word h hp).1 (.inr hd) hl

theorem dotted_layout {v : Val} (h : Readable v) (hp : v.isPair = false) {ws : List (List UInt8 × Rule)} {t : List UInt8}
    (hd : delim t = true) (hl : Layout ws t) :
    Layout (([46], .dot) :: (leafText v, leafRule v) :: ws) ([32, 46, 32] ++ leafText v ++ t) := by
  have sp : Sep [32] := .space (by decide)
  have e : [32, 46, 32] ++ leafText v ++ t = [32] ++ ([46] ++ ([32] ++ (leafText v ++ t))) := by simp
  rw [e]
  exact .sep sp (.word .dot (.inr (delim_space _)) (.sep sp (leaf_layout h hp hd hl)))

/-- The text of a value is a layout of its words. -/
theorem text_layout (v : Val) (h : Readable v) {ws : List (List UInt8 × Rule)} {t : List UInt8} (hd : delim t = true)
    (hl : Layout ws t) : Layout (words v ++ ws) (text v ++ t) ∧ Layout (wordsTail v ++ ws) (textTail v ++ t) := by
  induction v generalizing ws t with
  | pair tc a d iha ihd =>
    refine ⟨?_, ?_⟩
    · have h4 : Layout (([41], Rule.pclose) :: ws) (41 :: t) := .word (w := [41]) .pclose (.inl rfl) hl
      have h3 := (ihd h.2 (delim_close t) h4).2
      have h2 := (iha h.1 (textTail_delim d _ (delim_close t)) h3).1
      have h1 := Layout.word Word.popen (.inl rfl) h2
      simpa [words, text] using h1
    · have h3 := (ihd h.2 hd hl).2
      have h2 := (iha h.1 (textTail_delim d _ hd) h3).1
      have h1 := Layout.sep (.space (b := 32) (by decide)) h2
      simpa [wordsTail, textTail] using h1
  | nil => exact ⟨leaf_layout (v := nil) h rfl hd hl, hl⟩
  | tru => exact ⟨leaf_layout (v := tru) h rfl hd hl, dotted_layout (v := tru) h rfl hd hl⟩
  | wild => exact ⟨leaf_layout (v := wild) h rfl hd hl, dotted_layout (v := wild) h rfl hd hl⟩
  | chr c => exact ⟨leaf_layout (v := chr c) h rfl hd hl, dotted_layout (v := chr c) h rfl hd hl⟩
  | num n => exact ⟨leaf_layout (v := num n) h rfl hd hl, dotted_layout (v := num n) h rfl hd hl⟩
  | sym tc s => exact ⟨leaf_layout (v := sym tc s) h rfl hd hl, dotted_layout (v := sym tc s) h rfl hd hl⟩

/-! ### Parsing the tokens of a value -/

/-- A list with a given end. -/
def listTo (xs : List Val) (e : Val) : Val := xs.foldr cons e

theorem conc_listTo {xs : List Val} (h : xs ≠ []) (e : Val) : (listTo xs nil).conc e = listTo xs e := by
  induction xs with
  | nil => exact absurd rfl h
  | cons x xs ih =>
    cases xs with
    | nil => simp [listTo, conc, isPair]
    | cons y ys =>
      have := ih (by simp)
      simp only [listTo, List.foldr_cons] at this ⊢
      rw [conc, if_pos (by simp [isPair]), this]

theorem append_listTo {xs : List Val} (h : xs ≠ []) (x : Val) : (listTo xs nil).append x = listTo (xs ++ [x]) nil := by
  rw [Val.append, conc_listTo h]; simp [listTo]

theorem feedAll_append (ev : Val → Res Val) (st : PSt) (ts us : List Token) :
    feedAll ev st (ts ++ us) = feedAll ev st ts >>= fun st => feedAll ev st us := by
  induction ts generalizing st with
  | nil => rfl
  | cons t ts ih => simp [feedAll, ih]

theorem feed_leaf (ev : Val → Res Val) (st : PSt) {v : Val} (hp : v.isPair = false) :
    feed ev st (leafToken v) = complete ev st v.erase := by
  cases v <;> first | rfl | simp [isPair] at hp

theorem tokensOf_append (ws vs : List (List UInt8 × Rule)) : tokensOf (ws ++ vs) = tokensOf ws ++ tokensOf vs := by
  simp [tokensOf]

theorem tokensOf_leaf {v : Val} (h : Readable v) (hp : v.isPair = false) :
    tokensOf [(leafText v, leafRule v)] = [leafToken v] := by
  simp [tokensOf, (leaf_word h hp).2]

theorem complete_frame (ev : Val → Res Val) (xs : List Val) (fs : List Frame) (p : Option Pre) (vs : List Val) (x : Val) :
    complete ev ⟨⟨if xs = [] then none else some (listTo xs nil), none, none⟩ :: fs, p, vs⟩ x =
      .ok ⟨⟨some (listTo (xs ++ [x]) nil), none, none⟩ :: fs, p, vs⟩ := by
  by_cases h : xs = []
  · subst h; rfl
  · simp [complete, Frame.add, h, applyPre, append_listTo h]

/-- The tokens of a value have the effect of the value; those of the rest of a list complete the list. -/
theorem feed_words (ev : Val → Res Val) (v : Val) (h : Readable v) :
    (∀ st : PSt, feedAll ev st (tokensOf (words v)) = complete ev st v.erase) ∧
    ∀ (xs : List Val) (fs : List Frame) (p : Option Pre) (vs : List Val), xs ≠ [] →
      feedAll ev ⟨⟨some (listTo xs nil), none, none⟩ :: fs, p, vs⟩ (tokensOf (wordsTail v) ++ [.pclose]) =
        complete ev ⟨fs, p, vs⟩ (listTo xs v.erase) := by
  have dotted : ∀ v : Val, Readable v → v.isPair = false → ∀ (xs : List Val) (fs : List Frame) (p : Option Pre)
      (vs : List Val), xs ≠ [] →
      feedAll ev ⟨⟨some (listTo xs nil), none, none⟩ :: fs, p, vs⟩
        (tokensOf [([46], .dot), (leafText v, leafRule v)] ++ [.pclose]) = complete ev ⟨fs, p, vs⟩ (listTo xs v.erase) := by
    intro v hv hp xs fs p vs hx
    have e : tokensOf [([46], .dot), (leafText v, leafRule v)] = [.dot, leafToken v] := by
      have e' := tokensOf_append [([46], .dot)] [(leafText v, leafRule v)]
      rw [tokensOf_leaf hv hp] at e'
      exact e'
    rw [e]
    simp only [List.cons_append, List.nil_append, feedAll, feed_leaf ev _ hp]
    simp [feed, complete, Frame.add, applyPre, Frame.close, conc_listTo hx]
  have leaf : ∀ v : Val, Readable v → v.isPair = false → ∀ st : PSt,
      feedAll ev st (tokensOf [(leafText v, leafRule v)]) = complete ev st v.erase := by
    intro v hv hp st
    rw [tokensOf_leaf hv hp]
    simp [feedAll, feed_leaf ev _ hp]
  induction v with
  | pair tc a d iha ihd =>
    refine ⟨?_, ?_⟩
    · intro st
      have e : tokensOf (words (pair tc a d)) =
          .popen :: (tokensOf (words a) ++ (tokensOf (wordsTail d) ++ [.pclose])) := by
        simp [words, tokensOf, Rule.tokens]
      rw [e, feedAll]
      simp only [feed, Res.ok_bind, feedAll_append _ _ (tokensOf (words a)), (iha h.1).1]
      have c := complete_frame ev [] st.frames st.pre st.vals a.erase
      simp only [if_true] at c
      rw [c, Res.ok_bind, List.nil_append, (ihd h.2).2 [a.erase] _ _ _ (by simp)]
      rfl
    · intro xs fs p vs hx
      have e : tokensOf (wordsTail (pair tc a d)) = tokensOf (words a) ++ tokensOf (wordsTail d) := by
        simp [wordsTail, tokensOf]
      rw [e, List.append_assoc, feedAll_append, (iha h.1).1]
      have c := complete_frame ev xs fs p vs a.erase
      rw [if_neg hx] at c
      rw [c, Res.ok_bind, (ihd h.2).2 _ _ _ _ (by simp)]
      simp [listTo, erase]
  | nil =>
    refine ⟨leaf nil h rfl, ?_⟩
    intro xs fs p vs hx
    simp [wordsTail, tokensOf, feedAll, feed, Frame.close, erase]
  | tru => exact ⟨leaf tru h rfl, dotted tru h rfl⟩
  | wild => exact ⟨leaf wild h rfl, dotted wild h rfl⟩
  | chr c => exact ⟨leaf (chr c) h rfl, dotted (chr c) h rfl⟩
  | num n => exact ⟨leaf (num n) h rfl, dotted (num n) h rfl⟩
  | sym tc s => exact ⟨leaf (sym tc s) h rfl, dotted (sym tc s) h rfl⟩

theorem text_layout_self (v : Val) (h : Readable v) : Layout (words v) (text v) := by
  have := (text_layout v h (ws := []) (t := []) rfl .nil).1
  simpa using this

/-- **C36.** The text that `print` writes for a value, of any size, reads back (in one piece) as exactly that value, up to the
flags of tail calls. -/
theorem C36_roundtrip (ev : Val → Res Val) (v : Val) (h : Readable v) :
    ∃ t, Print.prin v true = .ok t ∧ readText ev t = .ok [v.erase] := by
  refine ⟨text v, C34_print v h.inRange, ?_⟩
  rw [readText, C37_layout (text_layout_self v h)]
  simp only [(feed_words ev v h).1]
  rfl

theorem equ_erase (v : Val) : v.equ v.erase = true := by
  induction v with
  | pair tc a d iha ihd => simp [equ, erase, iha, ihd]
  | sym tc s => simp [equ, erase, (symMatch_iff s s).2 rfl]
  | _ => simp [equ, erase]

/-- **C36.** What is read back is equal to what was printed (by the interpreter's own `=`). -/
theorem C36_equal (ev : Val → Res Val) (v : Val) (h : Readable v) :
    ∃ t w, Print.prin v true = .ok t ∧ readText ev t = .ok [w] ∧ v.equ w = true := by
  obtain ⟨t, h1, h2⟩ := C36_roundtrip ev v h
  exact ⟨t, _, h1, h2, equ_erase v⟩

/-- The shortest names are letters. -/
theorem name_a : Name (Sym.ofBytes [97]).name := by
  rw [show (Sym.ofBytes [97]).name = [97] by decide]
  refine ⟨⟨97, [], rfl, by decide +kernel, by simp⟩, by simp, ?_, by decide, by decide, by decide, by decide⟩
  rintro ⟨w, h, _⟩; cases h

/-- The longest ones have 16 characters: `<a-name-of-16-b>`. -/
example : Name (ascii "<a-name-of-16-b>".toList) := by
  refine ⟨⟨60, _, rfl, by decide +kernel, by decide +kernel⟩, by decide, ?_, by decide, by decide, by decide, by decide⟩
  rintro ⟨w, h, _⟩; cases h

/-- A value of C36: `(a (-12 . ^\n) NIL . T)`. -/
example : Readable (cons (ofSym (Sym.ofBytes [97])) (cons (cons (num (-12)) (chr 10)) (cons nil tru))) :=
  ⟨⟨name_a, by decide⟩, ⟨by simp only [Readable]; decide, by simp [Readable]⟩, trivial, trivial⟩

/-- **C36.** The conditions are needed: the backslash character prints as `^\`, which does not read; a name that looks like a
number reads as a number; a name with a blank in it reads as two values. -/
theorem C36_counterexample (ev : Val → Res Val) :
    (Print.prin (chr 92) true = .ok [94, 92] ∧ readText ev [94, 92] = .unsupported) ∧
    (Print.prin (ofSym (Sym.ofBytes [45, 49])) true = .ok [45, 49] ∧ readText ev [45, 49] = .ok [num (-1)]) ∧
    (Print.prin (ofSym (Sym.ofBytes [97, 32, 98])) true = .ok [97, 32, 98] ∧
      readText ev [97, 32, 98] = .ok [ofSym (Sym.ofBytes [97]), ofSym (Sym.ofBytes [98])]) := by
  refine ⟨⟨by decide, ?_⟩, ⟨by decide, ?_⟩, ⟨by decide, ?_⟩⟩
  · rw [readText, show lex [94, 92] = ([], .stuck) by decide]
  · rw [readText, show lex [45, 49] = ([.num (-1)], .done) by decide]; rfl
  · rw [readText, show lex [97, 32, 98] = ([.sym (Sym.ofBytes [97]), .sym (Sym.ofBytes [98])], .done) by decide]; rfl

end Lex
end Mnml
