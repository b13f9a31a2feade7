import Verif.LexSem

/-!
# C73: the scanner takes a text apart without losing anything

Whatever the text, the words of the tokens, the separators and the rest are the text again; names are taken whole (a name is never
cut in two: after a name comes no character of a name, and a name of more than 16 characters is an error); what is left in the
buffer is a string that is not closed. `lib/grammar/lexer.rl:166-218`, `244-262`.
-/

namespace Mnml
namespace Lex

theorem longest_accept {l : List UInt8} {n k : Nat} {r : Rule} (h : longest l n = some (k, r)) :
    accept (l.take k) = some r := by
  induction n with
  | zero => simp [longest] at h
  | succ n ih =>
    rw [longest] at h
    split at h
    · next e => cases h; exact e
    · exact ih h

theorem longest_max {l : List UInt8} {n k : Nat} {r : Rule} (h : longest l n = some (k, r)) (j : Nat) (h1 : k < j)
    (h2 : j ≤ n) : accept (l.take j) = none := by
  induction n with
  | zero => omega
  | succ n ih =>
    rw [longest] at h
    split at h
    · next e => cases h; omega
    · next e =>
      by_cases hj : j = n + 1
      · rw [hj]; exact e
      · exact ih h (by omega)

theorem longest_nothing {l : List UInt8} {n : Nat} (h : longest l n = none) (j : Nat) (h1 : 0 < j) (h2 : j ≤ n) :
    accept (l.take j) = none := by
  induction n with
  | zero => omega
  | succ n ih =>
    rw [longest] at h
    split at h
    · cases h
    · next e =>
      by_cases hj : j = n + 1
      · rw [hj]; exact e
      · exact ih h (by omega)

/-- The rules whose words are names or begin like one. -/
def Rule.named : Rule → Bool
  | dot | nil | tru | wild | symbol | qsymbol | bsymbol | tsymbol => true
  | _ => false

/-- The first character of a text, if any, is not a character of a name. -/
def Ends (l : List UInt8) : Prop := ∀ b t, l = b :: t → isSymChar b = false

/-- A rule is the first one that accepts a word. -/
def First (r : Rule) (w : List UInt8) : Prop :=
  r.accepts w = true ∧ ∃ before after, rules = before ++ r :: after ∧ ∀ r' ∈ before, r'.accepts w = false

/-- The words of the scanner one after the other: each one belongs to the first rule that accepts it, no rule accepts more of the
text, and a name ends where the characters of names end. -/
inductive Words : List (List UInt8 × Rule) → List UInt8 → List UInt8 → Prop where
  | nil (rest : List UInt8) : Words [] rest rest
  | cons {w t rest : List UInt8} {r : Rule} {ws : List (List UInt8 × Rule)} (ha : First r w)
      (hm : ∀ x y, x ≠ [] → t = x ++ y → ∀ r' : Rule, r'.accepts (w ++ x) = false)
      (hn : r.named = true → Ends t) (h : Words ws t rest) : Words ((w, r) :: ws) (w ++ t) rest

/-- The tokens of the words. -/
def wordTokens (ws : List (List UInt8 × Rule)) : List Token := ws.flatMap fun w => w.2.tokens w.1

theorem accept_false {w : List UInt8} (h : accept w = none) (r : Rule) : r.accepts w = false := by
  rw [accept, List.find?_eq_none] at h
  have := h r (by cases r <;> simp [rules])
  simpa using this

theorem first_iff {w : List UInt8} {r : Rule} : First r w ↔ accept w = some r := by
  rw [accept, List.find?_eq_some_iff_append, First]
  simp only [Bool.not_eq_true', Bool.not_eq_eq_eq_not, Bool.not_true]

theorem isSymbol_snoc {w : List UInt8} {b : UInt8} (h : isSymbol w = true) (hb : isSymChar b = true)
    (hl : w.length < 16) : isSymbol (w ++ [b]) = true := by
  cases w with
  | nil => simp [isSymbol] at h
  | cons a w =>
    simp only [isSymbol, Bool.and_eq_true, decide_eq_true_eq, List.cons_append, List.all_append, List.all_cons,
      List.all_nil, Bool.and_true, List.length_append, List.length_cons, List.length_nil] at h hl ⊢
    exact ⟨⟨h.1.1, h.1.2, hb⟩, by omega⟩

theorem isSymbol_length {w : List UInt8} (h : isSymbol w = true) : w.length ≤ 16 := by
  cases w with
  | nil => simp
  | cons a w => simp [isSymbol] at h; simp; omega

/-- A name that goes on is longer or too long. -/
theorem named_goes_on {r : Rule} {w t : List UInt8} {b : UInt8} (hr : r.named = true) (ha : r.accepts w = true)
    (hb : isSymChar b = true) (ho : overlong r w.length (b :: t) = false) : ∃ r' : Rule, r'.accepts (w ++ [b]) = true := by
  have pre : ∀ (p : UInt8), prefixed p isSymbol w = true → w.length ≠ 17 → prefixed p isSymbol (w ++ [b]) = true := by
    intro p h hl
    cases w with
    | nil => simp [prefixed] at h
    | cons a w =>
      simp only [prefixed, Bool.and_eq_true, List.cons_append, List.length_cons] at h hl ⊢
      exact ⟨h.1, isSymbol_snoc h.2 hb (by have := isSymbol_length h.2; omega)⟩
  cases r <;> simp only [Rule.named, Bool.false_eq_true] at hr <;> simp only [Rule.accepts, beq_iff_eq] at ha
  case dot => subst ha; exact ⟨.symbol, isSymbol_snoc (w := [46]) (by decide) hb (by decide)⟩
  case nil => subst ha; exact ⟨.symbol, isSymbol_snoc (w := [78, 73, 76]) (by decide) hb (by decide)⟩
  case tru => subst ha; exact ⟨.symbol, isSymbol_snoc (w := [84]) (by decide) hb (by decide)⟩
  case wild => subst ha; exact ⟨.symbol, isSymbol_snoc (w := [95]) (by decide) hb (by decide)⟩
  case symbol =>
    refine ⟨.symbol, isSymbol_snoc ha hb ?_⟩
    have := isSymbol_length ha
    simp [overlong, hb] at ho
    omega
  case qsymbol => exact ⟨.qsymbol, pre _ ha (by simpa [overlong, hb] using ho)⟩
  case bsymbol => exact ⟨.bsymbol, pre _ ha (by simpa [overlong, hb] using ho)⟩
  case tsymbol => exact ⟨.tsymbol, pre _ ha (by simpa [overlong, hb] using ho)⟩

/-- A name of more than 16 characters, with or without a prefix, stands at the beginning of a text. -/
def LongName (l : List UInt8) : Prop :=
  ∃ p w b t, l = p ++ w ++ b :: t ∧ (p = [] ∨ p = [39] ∨ p = [96] ∨ p = [126]) ∧ isSymbol w = true ∧ w.length = 16 ∧
    isSymChar b = true

theorem overlong_long {r : Rule} {w l : List UInt8} (ha : r.accepts w = true) (ho : overlong r w.length l = true) :
    LongName (w ++ l) := by
  cases l with
  | nil => simp [overlong] at ho
  | cons b t =>
    simp only [overlong, Bool.and_eq_true] at ho
    obtain ⟨hb, ho⟩ := ho
    have pre : ∀ p : UInt8, (p = 39 ∨ p = 96 ∨ p = 126) → prefixed p isSymbol w = true → w.length = 17 →
        LongName (w ++ b :: t) := by
      intro p hp h hl
      cases w with
      | nil => simp at hl
      | cons a w =>
        simp only [prefixed, Bool.and_eq_true, beq_iff_eq, List.length_cons] at h hl
        obtain ⟨rfl, h⟩ := h
        refine ⟨[a], w, b, t, by simp, ?_, h, by omega, hb⟩
        rcases hp with rfl | rfl | rfl <;> simp
    cases r <;> simp only [Bool.false_eq_true, beq_iff_eq] at ho
    case symbol => exact ⟨[], w, b, t, by simp, .inl rfl, ha, ho, hb⟩
    case qsymbol => exact pre 39 (by simp) ha ho
    case bsymbol => exact pre 96 (by simp) ha ho
    case tsymbol => exact pre 126 (by simp) ha ho

/-- What the scan leaves: nothing, a string that is not closed, or a text at whose beginning no word can be taken. -/
def Left : End → List UInt8 → Prop
  | .done, rest => rest = []
  | .pending r, rest => rest = r ∧ (∃ t, r = 34 :: t) ∧ ∀ x y, r = x ++ y → ∀ r' : Rule, r'.accepts x = false
  | .stuck, rest => rest ≠ [] ∧ (LongName rest ∨ ∀ x y, rest = x ++ y → ∀ r : Rule, r.accepts x = false)

/-- **C73.** Every text is the words of its tokens and separators, one after the other, and what is left. The tokens are those of
the words. Each word is the longest possible one, and names are never cut. -/
theorem C73_words (l : List UInt8) : ∃ ws rest, Words ws l rest ∧ l = ws.flatMap (·.1) ++ rest ∧ (lex l).1 = wordTokens ws ∧
    Left (lex l).2 rest := by
  suffices key : ∀ n (l : List UInt8), l.length ≤ n → ∃ ws rest, Words ws l rest ∧ l = ws.flatMap (·.1) ++ rest ∧
      (lexN n l).1 = wordTokens ws ∧ Left (lexN n l).2 rest by
    exact key l.length l (Nat.le_refl _)
  intro n
  induction n with
  | zero =>
    intro l hl
    cases l with
    | nil => exact ⟨[], [], .nil _, rfl, rfl, rfl⟩
    | cons b l => simp at hl
  | succ n ih =>
    intro l hl
    cases l with
    | nil => exact ⟨[], [], .nil _, rfl, rfl, rfl⟩
    | cons b l =>
      rw [lexN]
      have nothing : longest (b :: l) (b :: l).length = none → ∀ x y, b :: l = x ++ y → ∀ r : Rule, r.accepts x = false := by
        intro e x y hxy r
        cases x with
        | nil =>
          cases h : r.accepts [] with
          | false => rfl
          | true => exact absurd rfl (accepts_ne_nil h)
        | cons a x =>
          have := longest_nothing e (a :: x).length (by simp) (by rw [hxy]; simp)
          rw [hxy, List.take_left] at this
          exact accept_false this r
      cases e : longest (b :: l) (b :: l).length with
      | none =>
        refine ⟨[], b :: l, .nil _, rfl, rfl, ?_⟩
        by_cases hb : b = 34
        · simp only [hb, beq_self_eq_true, if_true, Left]
          subst hb
          exact ⟨trivial, ⟨l, rfl⟩, nothing e⟩
        · simp only [beq_eq_false_iff_ne.2 hb, Bool.false_eq_true, if_false, Left]
          exact ⟨by simp, .inr (nothing e)⟩
      | some q =>
        obtain ⟨k, r⟩ := q
        have hb := longest_bound e
        have hf := first_iff.2 (longest_accept e)
        have ha := hf.1
        have hk : ((b :: l).take k).length = k := by rw [List.length_take]; omega
        simp only
        split
        · next ho =>
          refine ⟨[], b :: l, .nil _, rfl, rfl, by simp, .inl ?_⟩
          have := overlong_long (l := (b :: l).drop k) ha (by rw [hk]; exact ho)
          rwa [List.take_append_drop] at this
        · next ho =>
          obtain ⟨ws, rest, hw, he, ht, hl'⟩ := ih ((b :: l).drop k) (by
            rw [List.length_drop]; simp only [List.length_cons] at hl hb ⊢; omega)
          have mx : ∀ x y, x ≠ [] → (b :: l).drop k = x ++ y → ∀ r' : Rule, r'.accepts ((b :: l).take k ++ x) = false := by
            intro x y hx hxy r'
            have hl2 : ((b :: l).take k ++ x).length = k + x.length := by rw [List.length_append, hk]
            have hx0 : 0 < x.length := List.length_pos_iff.2 hx
            have hsum : b :: l = ((b :: l).take k ++ x) ++ y := by
              rw [List.append_assoc, ← hxy, List.take_append_drop]
            have := longest_max e (k + x.length) (by omega) (by
              have := congrArg List.length hsum
              rw [List.length_append, hl2] at this
              omega)
            rw [hsum, ← hl2, List.take_left] at this
            exact accept_false this r'
          refine ⟨((b :: l).take k, r) :: ws, rest, ?_, ?_, ?_, hl'⟩
          · have := Words.cons (w := (b :: l).take k) hf mx (fun hr c t hc => ?_) hw
            · rwa [List.take_append_drop] at this
            · cases hs : isSymChar c with
              | false => rfl
              | true =>
                obtain ⟨r', hr'⟩ := named_goes_on (t := t) hr ha hs (by
                  rw [hk, ← hc]; simpa using ho)
                have := mx [c] t (by simp) (by rw [hc]; rfl) r'
                rw [hr'] at this; cases this
          · rw [List.flatMap_cons, List.append_assoc, ← he, List.take_append_drop]
          · rw [ht, wordTokens, wordTokens, List.flatMap_cons]

theorem named_ends {r : Rule} {n : Nat} {l : List UInt8} (h : r.named = true → Ends l) : overlong r n l = false := by
  cases l with
  | nil => rfl
  | cons b t =>
    by_cases hr : r.named = true
    · simp [overlong, h hr b t rfl]
    · cases r <;> simp [Rule.named] at hr <;> simp [overlong]

/-- **C73.** Conversely, a text that can be taken apart completely is scanned to its end, and gives the tokens of its words. -/
theorem C73_scan {ws : List (List UInt8 × Rule)} {l rest : List UInt8} (h : Words ws l rest) :
    lex l = (wordTokens ws ++ (lex rest).1, (lex rest).2) := by
  induction h with
  | nil => rfl
  | cons ha hm hn _ ih =>
    rw [lex_step (first_iff.1 ha) (fun x y hx hxy => accept_none (hm x y hx hxy)) (named_ends hn), ih, wordTokens, wordTokens,
      List.flatMap_cons, List.append_assoc]

/-- **C73.** There is only one way to take a text apart. -/
theorem C73_unique {ws ws' : List (List UInt8 × Rule)} {l : List UInt8} (h : Words ws l []) (h' : Words ws' l []) : ws = ws' := by
  generalize hr : ([] : List UInt8) = rest at h
  induction h generalizing ws' with
  | nil rest =>
    subst hr
    generalize hl : ([] : List UInt8) = l at h'
    cases h' with
    | nil => rfl
    | @cons w t _ r ws' ha =>
      cases w with
      | nil => exact absurd rfl (accepts_ne_nil ha.1)
      | cons => cases hl
  | @cons w t rest r ws ha hm hn h ih =>
    subst hr
    generalize hl : w ++ t = l at h'
    cases h' with
    | nil =>
      cases w with
      | nil => exact absurd rfl (accepts_ne_nil ha.1)
      | cons => cases hl
    | @cons w' t' _ r' ws' ha' hm' hn' h' =>
      have hw : w = w' := by
        rcases List.append_eq_append_iff.1 hl with ⟨x, hx, hy⟩ | ⟨x, hx, hy⟩
        · cases x with
          | nil => simpa using hx.symm
          | cons b x =>
            have := hm (b :: x) t' (by simp) hy r'
            rw [← hx, ha'.1] at this; cases this
        · cases x with
          | nil => simpa using hx
          | cons b x =>
            have := hm' (b :: x) t (by simp) hy r
            rw [← hx, ha.1] at this; cases this
      subst hw
      have hr : r = r' := by
        have h1 := first_iff.1 ha
        have h2 := first_iff.1 ha'
        rw [h1] at h2; cases h2; rfl
      rw [hr, ih (by rw [List.append_cancel_left hl]; exact h') rfl]

/-- **C73.** The scan succeeds exactly on the texts that can be taken apart. -/
theorem C73_done (l : List UInt8) : (lex l).2 = .done ↔ ∃ ws, Words ws l [] := by
  constructor
  · intro h
    obtain ⟨ws, rest, hw, _, _, hl⟩ := C73_words l
    rw [h] at hl
    cases hl
    exact ⟨ws, hw⟩
  · rintro ⟨ws, hw⟩
    rw [C73_scan hw]; rfl

theorem isNumber_prefix {w x : List UInt8} (hl : 2 ≤ w.length) (h : isNumber (w ++ x) = true) : isNumber w = true := by
  cases w with
  | nil => simp at hl
  | cons b w =>
    cases w with
    | nil => simp at hl
    | cons c w =>
      simp only [List.cons_append, isNumber, isDigits, List.isEmpty_cons, Bool.not_false, Bool.true_and, List.all_cons,
        List.all_append, Bool.and_eq_true] at h ⊢
      split
      · next hb => rw [if_pos hb] at h; simp only [Bool.and_eq_true] at h ⊢; simp only [h, and_self]
      · next hb => rw [if_neg hb] at h; simp only [Bool.and_eq_true] at h ⊢; simp only [h, and_self]

/-- A long word that begins like a name is a name or a number. -/
theorem accepts_long {z : List UInt8} (hz : ∀ x ∈ z, isSymChar x = true) (hl : 4 ≤ z.length) {r : Rule}
    (h : r.accepts z = true) : isSymbol z = true ∧ r = .symbol ∨ isNumber z = true ∧ r = .number := by
  match z, hl with
  | a :: b :: c :: d :: z, _ =>
    have n := isSymChar_not (hz a (by simp))
    cases r <;> simp [Rule.accepts, n, prefixed, isString, isChar] at h ⊢ <;> exact h

/-- A long word after a prefix is a name or a number. -/
theorem accepts_prefixed {p : UInt8} (hp : p = 39 ∨ p = 96 ∨ p = 126) {z : List UInt8} (hl : 4 ≤ z.length)
    (hs : isSymbol z = false) (hn : isNumber z = false) (r : Rule) : r.accepts (p :: z) = false := by
  match z, hl with
  | a :: b :: c :: d :: z, _ =>
    rcases hp with rfl | rfl | rfl <;>
    · cases r <;> first | (simp only [Rule.accepts, prefixed, hs, hn]; decide) | skip
      all_goals simp [Rule.accepts, isNumber, isDigits, isDigit, isString, isSymbol, prefixed, isAlpha, isMark, isChar]

/-- **C73.** A name of more than 16 characters at the beginning of a text is an error, not two names, whatever stands after its 17th
character. (Its first 16 characters must not be a number like `-123456789012345`.) -/
theorem C73_long_name (p w : List UInt8) (b : UInt8) (t : List UInt8) (hp : p = [] ∨ p = [39] ∨ p = [96] ∨ p = [126])
    (hw : isSymbol w = true) (hl : w.length = 16) (hb : isSymChar b = true) (hn : isNumber w = false) :
    lex (p ++ w ++ b :: t) = ([], .stuck) := by
  have key : ∀ r : Rule, accept (p ++ w) = some r → overlong r (p ++ w).length (b :: t) = true →
      (∀ x, x ≠ [] → accept (p ++ w ++ x) = none) → lex (p ++ w ++ b :: t) = ([], .stuck) := by
    intro r ha ho hx
    generalize hz : p ++ w = z at *
    cases z with
    | nil => exact absurd rfl (accepts_ne_nil (accept_accepts ha))
    | cons c z =>
      have hl : longest (c :: (z ++ b :: t)) (c :: (z ++ b :: t)).length = some ((c :: z).length, r) := by
        refine longest_eq (by simp) (by simp) ?_ ?_
        · rw [← List.cons_append, List.take_left]; exact ha
        · intro j h1 h2
          rw [← List.cons_append, List.take_append, List.take_of_length_le (by omega)]
          refine hx _ ?_
          intro e
          have := congrArg List.length e
          simp at this h1
          omega
      have hd : (c :: (z ++ b :: t)).drop (c :: z).length = b :: t := by rw [← List.cons_append, List.drop_left]
      rw [List.cons_append, lex, List.length_cons, lexN, hl]
      simp only [hd, ho, if_true]
  have hs : ∀ x, x ≠ [] → isSymbol (w ++ x) = false := by
    intro x hx
    cases h : isSymbol (w ++ x) with
    | false => rfl
    | true =>
      have := isSymbol_length h
      have := List.length_pos_iff.2 hx
      rw [List.length_append] at *
      omega
  have hnx : ∀ x, isNumber (w ++ x) = false := by
    intro x
    cases h : isNumber (w ++ x) with
    | false => rfl
    | true => rw [isNumber_prefix (by omega) h] at hn; cases hn
  have all := isSymbol_all hw
  have npre : ∀ r : Rule, r.accepts w = true → r = .symbol := by
    intro r hr
    rcases accepts_long all (by omega) hr with h | h
    · exact h.2
    · rw [hn] at h; cases h.1
  have pre : ∀ c : UInt8, (c = 39 ∨ c = 96 ∨ c = 126) → ∀ x, x ≠ [] → accept (c :: (w ++ x)) = none := fun c hc x hx =>
    accept_none (accepts_prefixed hc (by rw [List.length_append]; omega) (hs x hx) (hnx x))
  have one : ∀ (c : UInt8) (r : Rule), (∀ r' : Rule, r' ≠ r → r'.accepts (c :: w) = false) → r.accepts (c :: w) = true →
      accept (c :: w) = some r := by
    intro c r h1 h2
    cases e : accept (c :: w) with
    | none => rw [accept_false e r] at h2; cases h2
    | some r' =>
      by_cases hr : r' = r
      · rw [hr]
      · have := accept_accepts e
        rw [h1 r' hr] at this; cases this
  match w, hl with
  | a0 :: a1 :: a2 :: a3 :: w, hl =>
  rcases hp with rfl | rfl | rfl | rfl
  · refine key .symbol ?_ (by simp [overlong, hb] at hl ⊢; omega) ?_
    · show accept (a0 :: a1 :: a2 :: a3 :: w) = _
      cases e : accept (a0 :: a1 :: a2 :: a3 :: w) with
      | none =>
        have := accept_false e .symbol
        rw [show Rule.accepts .symbol (a0 :: a1 :: a2 :: a3 :: w) = isSymbol (a0 :: a1 :: a2 :: a3 :: w) from rfl, hw] at this
        cases this
      | some r => rw [npre r (accept_accepts e)]
    · intro x hx
      show accept ((a0 :: a1 :: a2 :: a3 :: w) ++ x) = none
      cases e : accept ((a0 :: a1 :: a2 :: a3 :: w) ++ x) with
      | none => rfl
      | some r =>
        have hz := accept_symChar (all a0 (by simp)) e
        rcases accepts_long (fun y hy => by
          rcases List.mem_cons.1 hy with rfl | hy
          · exact all _ (by simp)
          · exact hz y hy) (by simp) (accept_accepts e) with h | h
        · rw [hs x hx] at h; cases h.1
        · rw [hnx x] at h; cases h.1
  · refine key .qsymbol (one 39 _ (fun r hr => ?_) (by simp only [Rule.accepts, prefixed, hw]; rfl))
      (by simp [overlong, hb] at hl ⊢; omega) (pre 39 (by simp))
    cases r <;> first | (exact absurd rfl hr) | (simp only [Rule.accepts, prefixed, hw, hn]; decide) | skip
    all_goals simp [Rule.accepts, isNumber, isDigits, isDigit, isString, isSymbol, prefixed, isAlpha, isMark, isChar]
  · refine key .bsymbol (one 96 _ (fun r hr => ?_) (by simp only [Rule.accepts, prefixed, hw]; rfl))
      (by simp [overlong, hb] at hl ⊢; omega) (pre 96 (by simp))
    cases r <;> first | (exact absurd rfl hr) | (simp only [Rule.accepts, prefixed, hw, hn]; decide) | skip
    all_goals simp [Rule.accepts, isNumber, isDigits, isDigit, isString, isSymbol, prefixed, isAlpha, isMark, isChar]
  · refine key .tsymbol (one 126 _ (fun r hr => ?_) (by simp only [Rule.accepts, prefixed, hw]; rfl))
      (by simp [overlong, hb] at hl ⊢; omega) (pre 126 (by simp))
    cases r <;> first | (exact absurd rfl hr) | (simp only [Rule.accepts, prefixed, hw, hn]; decide) | skip
    all_goals simp [Rule.accepts, isNumber, isDigits, isDigit, isString, isSymbol, prefixed, isAlpha, isMark, isChar]

/-- The bytes of a text. -/
def ascii (s : String) : List UInt8 := s.toList.map fun c => UInt8.ofNat c.toNat

/-- The hypotheses of `C73_long_name` hold for `abcdefghijklmnopq`; a name of 16 characters is read. -/
example : isSymbol (ascii "abcdefghijklmnop") = true ∧ (ascii "abcdefghijklmnop").length = 16 ∧
    isNumber (ascii "abcdefghijklmnop") = false ∧ isSymChar 113 = true ∧ lex (ascii "'abcdefghijklmnopq r") = ([], .stuck) ∧
    (lex (ascii "abcdefghijklmnop q")).2 = .done := by decide +kernel

/-- The hypotheses of `C73_scan` and `C73_unique` hold for the words of `(a .b "c" -12x ^\\n)`; the word `.b` is one name, `-12x` too. -/
example : ∃ ws, Words ws (ascii "(a .b \"c\" -12x ^\\n)") [] := (C73_done _).1 (by decide +kernel)

/-- The condition on numbers in `C73_long_name` is needed: a number of any length is one word. -/
example : lex (ascii "-1234567890123456") = ([.num (-1234567890123456)], .done) := by decide +kernel

/-- Names are whole, numbers are not: `12ab` is a number and a name. -/
example : lex (ascii "12ab") = ([.num 12, .sym (Sym.ofBytes (ascii "ab"))], .done) := by decide +kernel

end Lex
end Mnml
