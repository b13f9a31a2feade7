import Verif.Lex

/-!
# Lemmas on the lexer: the longest match
-/

namespace Mnml
namespace Lex

theorem accept_accepts {w : List UInt8} {r : Rule} (h : accept w = some r) : r.accepts w = true := by
  have := List.find?_some (p := fun r : Rule => r.accepts w) h
  exact this

/-- A property of all 256 bytes by inspection. -/
theorem forall_byte (P : UInt8 → Bool) (h : ((List.range 256).all fun n => P (UInt8.ofNat n)) = true)
    (b : UInt8) : P b = true := by
  rw [List.all_eq_true] at h
  have := h b.toNat (List.mem_range.2 b.toNat_lt)
  simpa using this

theorem accept_none {w : List UInt8} (h : ∀ r : Rule, r.accepts w = false) : accept w = none := by
  rw [accept, List.find?_eq_none]
  intro r _; simp [h r]

theorem accepts_ne_nil {r : Rule} {w : List UInt8} (h : r.accepts w = true) : w ≠ [] := by
  rintro rfl
  cases r <;> simp [Rule.accepts, isNumber, isChar, isString, isSymbol, prefixed] at h

/-! ## The longest match -/

theorem longest_bound {l : List UInt8} {n k : Nat} {r : Rule} (h : longest l n = some (k, r)) :
    0 < k ∧ k ≤ n := by
  induction n with
  | zero => simp [longest] at h
  | succ n ih =>
    rw [longest] at h
    split at h
    · cases h; omega
    · have := ih h; omega

theorem longest_eq {l : List UInt8} {n k : Nat} {r : Rule} (hk : 0 < k) (hn : k ≤ n)
    (ha : accept (l.take k) = some r) (hx : ∀ j, k < j → j ≤ n → accept (l.take j) = none) :
    longest l n = some (k, r) := by
  induction n with
  | zero => omega
  | succ n ih =>
    rw [longest]
    by_cases e : k = n + 1
    · subst e; rw [ha]
    · rw [hx (n + 1) (by omega) (Nat.le_refl _)]
      exact ih (by omega) fun j h1 h2 => hx j h1 (by omega)

theorem longest_none {l : List UInt8} {n : Nat} (hx : ∀ j, 0 < j → j ≤ n → accept (l.take j) = none) :
    longest l n = none := by
  induction n with
  | zero => rfl
  | succ n ih =>
    rw [longest, hx (n + 1) (by omega) (Nat.le_refl _)]
    exact ih fun j h1 h2 => hx j h1 (by omega)

theorem lexN_fuel (n : Nat) (l : List UInt8) (h : l.length ≤ n) : lexN n l = lex l := by
  rw [lex]
  induction n using Nat.strongRecOn generalizing l with
  | _ n ih =>
    cases l with
    | nil => cases n <;> simp [lexN]
    | cons b l =>
      cases n with
      | zero => simp at h
      | succ n =>
        simp only [List.length_cons] at h ⊢
        rw [lexN, lexN]
        cases e : longest (b :: l) (b :: l).length with
        | none => rfl
        | some q =>
          obtain ⟨k, r⟩ := q
          have hb := longest_bound e
          simp only [List.length_cons] at hb
          have hl : ((b :: l).drop k).length ≤ l.length := by simp; omega
          have e1 := ih n (by omega) _ (Nat.le_trans hl (by omega))
          have e2 : lexN l.length ((b :: l).drop k) = lexN ((b :: l).drop k).length ((b :: l).drop k) := by
            by_cases hc : l.length = n
            · rw [hc, e1]
            · exact ih l.length (by omega) _ hl
          simp only [e1, e2]

/-! ## One token -/

/-- No rule accepts `w` extended by the beginning of `rest`. -/
def Stops (w rest : List UInt8) : Prop :=
  ∀ x y, x ≠ [] → rest = x ++ y → accept (w ++ x) = none

theorem lex_nil : lex [] = ([], .done) := rfl

theorem lex_step {w rest : List UInt8} {r : Rule} (ha : accept w = some r) (hs : Stops w rest)
    (ho : overlong r w.length rest = false) :
    lex (w ++ rest) = (r.tokens w ++ (lex rest).1, (lex rest).2) := by
  have hw : w ≠ [] := accepts_ne_nil (accept_accepts ha)
  cases w with
  | nil => exact absurd rfl hw
  | cons b w =>
    have hl : longest (b :: (w ++ rest)) (b :: (w ++ rest)).length = some ((b :: w).length, r) := by
      refine longest_eq (by simp) (by simp) ?_ ?_
      · rw [← List.cons_append, List.take_left]; exact ha
      · intro j h1 h2
        rw [← List.cons_append, List.take_append, List.take_of_length_le (by omega)]
        refine hs _ (rest.drop (j - (b :: w).length)) ?_ (List.take_append_drop _ _).symm
        intro e
        have := congrArg List.length e
        simp at this h1 h2
        rcases this with h | h
        · omega
        · rw [h] at h2; simp at h2; omega
    have hd : (b :: (w ++ rest)).drop (b :: w).length = rest := by
      rw [← List.cons_append, List.drop_left]
    have ht : (b :: (w ++ rest)).take (b :: w).length = b :: w := by
      rw [← List.cons_append, List.take_left]
    rw [List.cons_append]
    rw [lex, List.length_cons, lexN, hl]
    simp only [hd, ht, ho]
    rw [lexN_fuel _ rest (by simp)]
    simp

/-! ## What may follow a token -/

theorem isSymChar_not {b : UInt8} (h : isSymChar b = true) :
    b ≠ 40 ∧ b ≠ 41 ∧ b ≠ 94 ∧ b ≠ 34 ∧ b ≠ 39 ∧ b ≠ 96 ∧ b ≠ 126 ∧ b ≠ 35 ∧ isSpace b = false := by
  have := forall_byte (fun b => !isSymChar b || (b != 40 && b != 41 && b != 94 && b != 34 && b != 39 &&
    b != 96 && b != 126 && b != 35 && !isSpace b)) (by decide +kernel) b
  simp [h] at this
  simp [this]

theorem isDigit_symChar {b : UInt8} (h : isDigit b = true) : isSymChar b = true := by
  simp [isSymChar, h]

/-- A word that starts with a character of names consists of such characters. -/
theorem accept_symChar {b : UInt8} {w : List UInt8} {r : Rule} (hb : isSymChar b = true)
    (h : accept (b :: w) = some r) : ∀ x ∈ w, isSymChar x = true := by
  have n := isSymChar_not hb
  have h := accept_accepts h
  have dig : ∀ {w : List UInt8}, isDigits w = true → ∀ x ∈ w, isSymChar x = true := by
    intro w hw x hx
    simp only [isDigits, Bool.and_eq_true, List.all_eq_true] at hw
    exact isDigit_symChar (hw.2 x hx)
  cases r <;> simp [Rule.accepts, n, prefixed, isString, isNumber, isSymbol] at h
  case dot => simp [h.2]
  case number =>
    split at h
    · exact dig h
    · intro x hx; exact dig h x (List.mem_cons_of_mem _ hx)
  case char =>
    rw [isChar.eq_def] at h
    split at h <;> simp_all
  case nil => obtain ⟨_, rfl⟩ := h; decide
  case tru => simp [h.2]
  case wild => simp [h.2]
  case symbol => exact h.1.2
  case space => split at h <;> simp_all

/-- A delimiter: a byte that does not occur in names. -/
def delim (rest : List UInt8) : Bool :=
  match rest with
  | [] => true
  | b :: _ => !isSymChar b

theorem stops_symChar {b : UInt8} {w rest : List UInt8} (hb : isSymChar b = true)
    (hr : delim rest = true) : Stops (b :: w) rest := by
  intro x y hx e
  cases x with
  | nil => exact absurd rfl hx
  | cons c x =>
    subst e
    simp only [delim, List.cons_append, Bool.not_eq_true'] at hr
    cases h : accept (b :: w ++ c :: x) with
    | none => rfl
    | some r =>
      have := accept_symChar hb (w := w ++ c :: x) h c (by simp)
      rw [hr] at this; cases this

theorem overlong_delim {r : Rule} {k : Nat} {rest : List UInt8} (hr : delim rest = true) :
    overlong r k rest = false := by
  cases rest with
  | nil => rfl
  | cons b rest => simp only [delim, Bool.not_eq_true'] at hr; simp [overlong, hr]

theorem overlong_other {r : Rule} {k : Nat} {rest : List UInt8} (h1 : r ≠ .symbol) (h2 : r ≠ .qsymbol)
    (h3 : r ≠ .bsymbol) (h4 : r ≠ .tsymbol) : overlong r k rest = false := by
  cases rest with
  | nil => rfl
  | cons b rest => cases r <;> simp_all [overlong]

/-! ## Tokens that need no delimiter -/

theorem isStrRest_ext {bs : Bool} {u x : List UInt8} (hx : x ≠ [])
    (hu : (u = [] ∧ bs = false) ∨ (u ≠ [] ∧ u.getLast? ≠ some 92)) : isStrRest bs (u ++ 34 :: x) = false := by
  induction u generalizing bs with
  | nil =>
    rcases hu with h | h
    · simp [isStrRest, hx, h.2]
    · exact absurd rfl h.1
  | cons c u ih =>
    replace hu := (hu.resolve_left (by simp)).2
    rw [List.cons_append, isStrRest]
    split
    · have : isStrRest false (u ++ 34 :: x) = false := by
        refine ih ?_
        by_cases hu0 : u = []
        · exact .inl ⟨hu0, rfl⟩
        · refine .inr ⟨hu0, ?_⟩
          rwa [List.getLast?_cons_of_ne_nil hu0] at hu
      simp [this]
    · refine ih ?_
      by_cases hu0 : u = []
      · subst hu0
        refine .inl ⟨rfl, ?_⟩
        simpa using hu
      · refine .inr ⟨hu0, ?_⟩
        rwa [List.getLast?_cons_of_ne_nil hu0] at hu

theorem isStrRest_end {bs : Bool} {w : List UInt8} (h : isStrRest bs w = true) : ∃ u, w = u ++ [34] := by
  induction w generalizing bs with
  | nil => simp [isStrRest] at h
  | cons c w ih =>
    rw [isStrRest] at h
    split at h
    · next hc =>
      simp only [Bool.or_eq_true, List.isEmpty_iff, Bool.and_eq_true] at h
      rcases h with rfl | h
      · exact ⟨[], by simp at hc; simp [hc]⟩
      · obtain ⟨u, rfl⟩ := ih h.2; exact ⟨c :: u, rfl⟩
    · obtain ⟨u, rfl⟩ := ih h; exact ⟨c :: u, rfl⟩

/-- A string whose closing quote does not follow a backslash. -/
def plainEnd (w : List UInt8) : Prop := w.dropLast.getLast? ≠ some 92

theorem stops_string {w rest : List UInt8} (h : accept w = some .string) (hp : plainEnd w) : Stops w rest := by
  have hw := accept_accepts h
  cases w with
  | nil => simp [Rule.accepts, isString] at hw
  | cons b w =>
    simp only [Rule.accepts, isString, Bool.and_eq_true, beq_iff_eq] at hw
    obtain ⟨rfl, hw⟩ := hw
    obtain ⟨u, rfl⟩ := isStrRest_end hw
    intro x y hx _
    have hu : (u = [] ∧ (false : Bool) = false) ∨ (u ≠ [] ∧ u.getLast? ≠ some 92) := by
      by_cases hu0 : u = []
      · exact .inl ⟨hu0, rfl⟩
      · refine .inr ⟨hu0, ?_⟩
        rw [plainEnd, ← List.cons_append, List.dropLast_concat, List.getLast?_cons_of_ne_nil hu0] at hp
        exact hp
    refine accept_none fun r => ?_
    have e : 34 :: (u ++ [34]) ++ x = 34 :: (u ++ 34 :: x) := by simp
    rw [e]
    cases r <;> simp [Rule.accepts, isNumber, isDigits, isDigit, isString, isStrRest_ext hx hu, isSymbol, prefixed,
      isAlpha, isMark]
    case char => rw [isChar.eq_def]; split <;> simp_all

theorem accept_head {b : UInt8} (hb : b = 40 ∨ b = 41 ∨ isSpace b = true) (w : List UInt8) (hw : w ≠ []) :
    accept (b :: w) = none := by
  refine accept_none fun r => ?_
  have hn : isSymChar b = false ∧ b ≠ 94 ∧ b ≠ 34 ∧ b ≠ 39 ∧ b ≠ 96 ∧ b ≠ 126 ∧ b ≠ 35 := by
    have := forall_byte (fun b => !(b == 40 || b == 41 || isSpace b) || (!isSymChar b && b != 94 && b != 34 && b != 39 &&
      b != 96 && b != 126 && b != 35)) (by decide +kernel) b
    have hb' : (b == 40 || b == 41 || isSpace b) = true := by simpa [or_assoc] using hb
    simp only [hb'] at this
    simpa [and_assoc] using this
  obtain ⟨h0, h1, h2, h3, h4, h5, h6⟩ := hn
  simp only [isSymChar, Bool.or_eq_false_iff] at h0
  have h45 : b ≠ 45 := by rintro rfl; revert h0; decide
  have h46 : b ≠ 46 := by rintro rfl; revert h0; decide
  have h78 : b ≠ 78 := by rintro rfl; revert h0; decide
  cases r <;> simp [Rule.accepts, isNumber, isDigits, isString, isSymbol, prefixed, *]
  case char => rw [isChar.eq_def]; split <;> simp_all

theorem stops_head {b : UInt8} (hb : b = 40 ∨ b = 41 ∨ isSpace b = true) (rest : List UInt8) : Stops [b] rest :=
  fun x _ hx _ => accept_head hb x hx

theorem stops_prefix_popen {p : UInt8} (hp : p = 39 ∨ p = 96 ∨ p = 126) (rest : List UInt8) : Stops [p, 40] rest := by
  intro x y hx _
  refine accept_none fun r => ?_
  have hs : isSymbol (40 :: x) = false := by simp [isSymbol, isAlpha, isMark]
  have hn : isNumber (40 :: x) = false := by simp [isNumber, isDigits, isDigit]
  rcases hp with rfl | rfl | rfl <;>
  · show r.accepts (_ :: 40 :: x) = false
    cases r <;> simp [Rule.accepts, isNumber, isDigits, isDigit, isString, isSymbol, prefixed, hx,
      isAlpha, isMark]
    case char => rw [isChar.eq_def]; split <;> simp_all

theorem isSymbol_all {w : List UInt8} (h : isSymbol w = true) : ∀ x ∈ w, isSymChar x = true := by
  cases w with
  | nil => simp
  | cons b w =>
    simp only [isSymbol, Bool.and_eq_true, List.all_eq_true, Bool.or_eq_true] at h
    intro x hx
    rcases List.mem_cons.1 hx with rfl | hx
    · rcases h.1.1 with h | h <;> simp [isSymChar, h]
    · exact h.1.2 x hx

theorem isNumber_all {w : List UInt8} (h : isNumber w = true) : ∀ x ∈ w, isSymChar x = true := by
  cases w with
  | nil => simp
  | cons b w =>
    simp only [isNumber] at h
    have dig : ∀ {w : List UInt8}, isDigits w = true → ∀ x ∈ w, isSymChar x = true := by
      intro w hw x hx
      simp only [isDigits, Bool.and_eq_true, List.all_eq_true] at hw
      exact isDigit_symChar (hw.2 x hx)
    split at h
    · next hb =>
      simp only [beq_iff_eq] at hb; subst hb
      intro x hx
      rcases List.mem_cons.1 hx with rfl | hx
      · decide
      · exact dig h x hx
    · exact dig h

theorem stops_prefixed {p : UInt8} {w rest : List UInt8} (hp : p = 39 ∨ p = 96 ∨ p = 126) (hw : w ≠ [])
    (hr : delim rest = true) : Stops (p :: w) rest := by
  intro x y hx e
  cases x with
  | nil => exact absurd rfl hx
  | cons c x =>
    subst e
    simp only [delim, List.cons_append, Bool.not_eq_true'] at hr
    have hs : isSymbol (w ++ c :: x) = false := by
      cases h : isSymbol (w ++ c :: x) with
      | false => rfl
      | true => have := isSymbol_all h c (by simp); rw [hr] at this; cases this
    have hn : isNumber (w ++ c :: x) = false := by
      cases h : isNumber (w ++ c :: x) with
      | false => rfl
      | true => have := isNumber_all h c (by simp); rw [hr] at this; cases this
    have hl : ∀ b : UInt8, w ++ c :: x ≠ [b] := by
      intro b hb
      have := congrArg List.length hb
      have := List.length_pos_iff.2 hw
      simp at *; omega
    show accept (p :: (w ++ c :: x)) = none
    generalize w ++ c :: x = z at hs hn hl
    refine accept_none fun r => ?_
    rcases hp with rfl | rfl | rfl <;>
    · cases r <;> first | (simp only [Rule.accepts, prefixed, hs, hn]; decide) | skip
      all_goals simp [Rule.accepts, isNumber, isDigits, isDigit, isString, isSymbol, prefixed, hl,
        isAlpha, isMark]
      case char => rw [isChar.eq_def]; split <;> simp_all
      case space =>
        split
        · next h => simp only [List.cons.injEq] at h; rw [← h.1]; decide
        · rfl

theorem stops_char {w rest : List UInt8} (h : accept w = some .char) : Stops w rest := by
  have hw := accept_accepts h
  simp only [Rule.accepts] at hw
  intro x y hx _
  have key : ∀ b : UInt8, ∀ z : List UInt8, isChar (94 :: b :: z) = false → accept (94 :: b :: z) = none := by
    intro b z hc
    refine accept_none fun r => ?_
    cases r <;> simp [Rule.accepts, isNumber, isDigits, isDigit, isString, isSymbol, prefixed, hc, isAlpha, isMark]
  rw [isChar.eq_def] at hw
  split at hw
  · next b =>
    simp only [Bool.and_eq_true, bne_iff_ne] at hw
    refine key b x ?_
    rw [isChar.eq_def]
    split <;> simp_all
  · refine key 92 (_ :: x) ?_
    rw [isChar.eq_def]
    split <;> simp_all
  · cases hw

theorem stops_comment {c rest : List UInt8} (hr : rest = [] ∨ ∃ y, rest = 10 :: y) :
    Stops (35 :: c) rest := by
  intro x y hx e
  rcases hr with rfl | ⟨z, rfl⟩
  · simp at e; exact absurd e.1 hx
  · cases x with
    | nil => exact absurd rfl hx
    | cons d x =>
      simp only [List.cons_append, List.cons.injEq] at e
      obtain ⟨rfl, rfl⟩ := e
      refine accept_none fun r => ?_
      show r.accepts (35 :: (c ++ 10 :: x)) = false
      cases r <;> simp [Rule.accepts, isNumber, isDigits, isDigit, isString, isSymbol, prefixed, isAlpha, isMark]
      case char => rw [isChar.eq_def]; split <;> simp_all

theorem accept_comment {c : List UInt8} (hc : ∀ x ∈ c, x ≠ 10) : accept (35 :: c) = some .comment := by
  have h : ∀ r : Rule, r ≠ .comment → r.accepts (35 :: c) = false := by
    intro r hr
    cases r <;> simp [Rule.accepts, isNumber, isDigits, isDigit, isString, isSymbol, prefixed, isAlpha, isMark]
    case char => rw [isChar.eq_def]; split <;> simp_all
    case comment => exact absurd rfl hr
    case space =>
      split
      · next h => simp only [List.cons.injEq] at h; rw [← h.1]; decide
      · rfl
  have hcm : Rule.comment.accepts (35 :: c) = true := by
    simpa [Rule.accepts, prefixed] using hc
  simp [accept, rules, h, hcm]

theorem accept_space {b : UInt8} (hb : isSpace b = true) : accept [b] = some .space := by
  have hn : b ≠ 40 ∧ b ≠ 41 ∧ isSymChar b = false ∧ b ≠ 94 ∧ b ≠ 34 ∧ b ≠ 39 ∧ b ≠ 96 ∧ b ≠ 126 ∧ b ≠ 35 := by
    have := forall_byte (fun b => !isSpace b || (b != 40 && b != 41 && !isSymChar b && b != 94 && b != 34 && b != 39 &&
      b != 96 && b != 126 && b != 35)) (by decide +kernel) b
    simp only [hb] at this
    simpa [and_assoc] using this
  obtain ⟨h8, h9, h0, h1, h2, h3, h4, h5, h6⟩ := hn
  simp only [isSymChar, Bool.or_eq_false_iff] at h0
  have h45 : b ≠ 45 := by rintro rfl; revert h0; decide
  have h46 : b ≠ 46 := by rintro rfl; revert h0; decide
  have h95 : b ≠ 95 := by rintro rfl; revert h0; decide
  have h84 : b ≠ 84 := by rintro rfl; revert h0; decide
  simp [accept, rules, Rule.accepts, isNumber, isDigits, isString, isSymbol, prefixed, isChar, *]

end Lex
end Mnml
