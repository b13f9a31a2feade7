import Verif.LexSem
import Verif.Parse
import Verif.ReadSem

/-!
# A quicker way to run the scanner

The definition of the scanner tries every prefix of the rest of the buffer, which the kernel cannot run on a file of some
hundred bytes. `span` bounds the length of the prefixes that a rule may accept; the scanner that only tries these is the same
function (`lexFast_eq`). Only used to run the scanner on the files of the library (`Verif.LibText`).
-/

namespace Mnml
namespace Lex

/-- The length of the part of a string after its opening quote, up to a quote that must end it. -/
def strSpan (bs : Bool) : List UInt8 → Nat
  | [] => 0
  | b :: w => if b == 34 then (if bs then strSpan false w + 1 else 1) else strSpan (b == 92) w + 1

/-- No rule accepts a prefix that is longer. -/
def span : List UInt8 → Nat
  | [] => 0
  | b :: l =>
    if isSymChar b then (l.takeWhile isSymChar).length + 1
    else if b == 40 || b == 41 || isSpace b then 1
    else if b == 39 || b == 96 || b == 126 then
      if l.head? == some 40 then 2 else (l.takeWhile isSymChar).length + 1
    else if b == 34 then strSpan false l + 1
    else if b == 35 then (l.takeWhile (· != 10)).length + 1
    else l.length + 1

theorem takeWhile_ge {p : UInt8 → Bool} {l : List UInt8} {j : Nat} (hj : j ≤ l.length)
    (h : ∀ x ∈ l.take j, p x = true) : j ≤ (l.takeWhile p).length := by
  induction l generalizing j with
  | nil => simpa using hj
  | cons b l ih =>
    cases j with
    | zero => simp
    | succ j =>
      have hb : p b = true := h b (by simp)
      simp only [List.takeWhile_cons, hb, if_true, List.length_cons]
      exact Nat.succ_le_succ (ih (by simpa using hj) fun x hx => h x (by simp [hx]))

theorem strSpan_ge {l : List UInt8} {bs : Bool} {j : Nat} (hj : j ≤ l.length)
    (h : isStrRest bs (l.take j) = true) : j ≤ strSpan bs l := by
  induction l generalizing j bs with
  | nil => simp [isStrRest] at h
  | cons b l ih =>
    cases j with
    | zero => simp
    | succ j =>
      have hj' : j ≤ l.length := by simpa using hj
      rw [List.take_succ_cons, isStrRest] at h
      rw [strSpan]
      split at h
      · next hb =>
        rw [if_pos hb]
        simp only [Bool.or_eq_true, List.isEmpty_iff, Bool.and_eq_true] at h
        rcases h with h | ⟨h1, h2⟩
        · have : j = 0 := by
            have := congrArg List.length h
            simp at this
            rcases this with h | h
            · exact h
            · subst h; simpa using hj'
          subst this
          split <;> omega
        · rw [if_pos h1]
          exact Nat.succ_le_succ (ih hj' h2)
      · next hb =>
        rw [if_neg hb]
        exact Nat.succ_le_succ (ih hj' h)

theorem accept_prefix {p : UInt8} (hp : p = 39 ∨ p = 96 ∨ p = 126) {w : List UInt8} {r : Rule}
    (h : accept (p :: w) = some r) : w = [40] ∨ ∀ x ∈ w, isSymChar x = true := by
  have h := accept_accepts h
  by_cases hs : isSymbol w = true
  · exact .inr (isSymbol_all hs)
  by_cases hn : isNumber w = true
  · exact .inr (isNumber_all hn)
  by_cases hw : w = [40]
  · exact .inl hw
  by_cases hw0 : w = []
  · subst hw0; simp
  exfalso
  revert h
  rcases hp with rfl | rfl | rfl <;>
  · cases r <;> first | (simp only [Rule.accepts, prefixed, hs, hn]; decide) | skip
    all_goals simp [Rule.accepts, isNumber, isDigits, isDigit, isString, isSymbol, prefixed, hw, hw0,
      isAlpha, isMark]
    case char => rw [isChar.eq_def]; split <;> simp_all

theorem accept_string {w : List UInt8} {r : Rule} (h : accept (34 :: w) = some r) : isStrRest false w = true := by
  have h := accept_accepts h
  revert h
  cases r <;> simp [Rule.accepts, isNumber, isDigits, isDigit, isString, isSymbol, prefixed, isAlpha, isMark]
  case char => rw [isChar.eq_def]; split <;> simp_all
  case space =>
    split
    · next h =>
      simp only [List.cons.injEq] at h
      rw [← h.1]
      exact fun h => absurd h (by decide)
    · simp

theorem accept_hash {w : List UInt8} {r : Rule} (h : accept (35 :: w) = some r) : ∀ x ∈ w, (x != 10) = true := by
  have h := accept_accepts h
  revert h
  cases r <;> simp [Rule.accepts, isNumber, isDigits, isDigit, isString, isSymbol, prefixed, isAlpha, isMark]
  case char => rw [isChar.eq_def]; split <;> simp_all
  case space =>
    split
    · next h =>
      simp only [List.cons.injEq] at h
      rw [← h.1]
      exact fun h => absurd h (by decide)
    · simp

theorem accept_span {l : List UInt8} {j : Nat} (hj : j ≤ l.length) {r : Rule} (h : accept (l.take j) = some r) :
    j ≤ span l := by
  cases l with
  | nil => simp at hj; omega
  | cons b l =>
    cases j with
    | zero => simp
    | succ j =>
      have hj' : j ≤ l.length := by simpa using hj
      rw [List.take_succ_cons] at h
      rw [span]
      split
      · next hb => exact Nat.succ_le_succ (takeWhile_ge hj' (accept_symChar hb h))
      · split
        · next hb =>
          have hb' : b = 40 ∨ b = 41 ∨ isSpace b = true := by simpa [or_assoc] using hb
          by_cases hw : l.take j = []
          · have := congrArg List.length hw
            simp at this
            rcases this with h | h
            · omega
            · subst h; simp at hj'; omega
          · rw [accept_head hb' _ hw] at h; cases h
        · split
          · next hb =>
            have hb' : b = 39 ∨ b = 96 ∨ b = 126 := by simpa [or_assoc] using hb
            rcases accept_prefix hb' h with hw | hw
            · have h1 : j = 1 := by
                have := congrArg List.length hw
                simp at this
                omega
              subst h1
              cases l with
              | nil => simp at hw
              | cons c l =>
                simp only [List.take_succ_cons, List.take_zero, List.cons.injEq, and_true] at hw
                subst hw
                exact Nat.le_refl 2
            · have hk := takeWhile_ge hj' hw
              split
              · next hh =>
                cases l with
                | nil => simp at hh
                | cons c l =>
                  simp at hh
                  subst hh
                  have : isSymChar 40 = false := by decide
                  simp [List.takeWhile_cons, this] at hk
                  omega
              · exact Nat.succ_le_succ hk
          · split
            · next hb =>
              simp only [beq_iff_eq] at hb
              subst hb
              exact Nat.succ_le_succ (strSpan_ge hj' (accept_string h))
            · split
              · next hb =>
                simp only [beq_iff_eq] at hb
                subst hb
                exact Nat.succ_le_succ (takeWhile_ge hj' (accept_hash h))
              · exact Nat.succ_le_succ hj'

theorem longest_le {l : List UInt8} {n m : Nat} (hm : m ≤ n)
    (hx : ∀ j, m < j → j ≤ n → accept (l.take j) = none) : longest l n = longest l m := by
  induction n with
  | zero => cases Nat.le_zero.1 hm; rfl
  | succ n ih =>
    by_cases e : m = n + 1
    · rw [e]
    · rw [longest, hx (n + 1) (by omega) (Nat.le_refl _)]
      exact ih (by omega) fun j h1 h2 => hx j h1 (by omega)

/-- The scanner, trying only the prefixes up to `span`. -/
def lexFastN : Nat → List UInt8 → List Token × End
  | _, [] => ([], .done)
  | 0, _ :: _ => ([], .stuck)
  | n + 1, b :: l =>
    match longest (b :: l) (min (span (b :: l)) (b :: l).length) with
    | none => ([], if b == 34 then .pending (b :: l) else .stuck)
    | some (k, r) =>
      if overlong r k ((b :: l).drop k) then ([], .stuck)
      else
        let q := lexFastN n ((b :: l).drop k)
        (r.tokens ((b :: l).take k) ++ q.1, q.2)

/-- The quick scanner is the scanner. -/
theorem lexFastN_eq (n : Nat) (l : List UInt8) : lexFastN n l = lexN n l := by
  induction n generalizing l with
  | zero => cases l <;> rfl
  | succ n ih =>
    cases l with
    | nil => rfl
    | cons b l =>
      have e : longest (b :: l) (min (span (b :: l)) (b :: l).length) = longest (b :: l) (b :: l).length := by
        refine (longest_le (Nat.min_le_right _ _) fun j h1 h2 => ?_).symm
        cases ha : accept ((b :: l).take j) with
        | none => rfl
        | some r =>
          have := accept_span h2 ha
          omega
      rw [lexFastN, lexN, e]
      simp only [ih]
      rfl

/-- `readText` with the quick scanner. -/
def readFast (ev : Val → Res Val) (l : List UInt8) : Res (List Val) :=
  match lexFastN l.length l with
  | (ts, .done) => do
    let st ← feedAll ev .init ts
    if st.frames.isEmpty && st.pre.isNone then .ok st.vals else .unsupported
  | _ => .unsupported

theorem readText_eq (ev : Val → Res Val) (l : List UInt8) : readText ev l = readFast ev l := by
  rw [readText, readFast, lex, lexFastN_eq]
  rfl

/-- `drain` with the quick scanner. -/
def drainFast (ev : Val → Res Val) : Nat → LSt → List UInt8 → Res LSt
  | 0, _, _ => .oof
  | n + 1, st, l =>
    match fgets (rbufLen - st.rem.length) l with
    | none => .ok st
    | some (chunk, l') =>
      let c := st.rem ++ chunk.takeWhile (· ≠ 0)
      match lexFastN c.length c with
      | (_, .stuck) => .unsupported
      | (ts, .done) => do
        let ps ← feedAll ev st.ps ts
        drainFast ev n ⟨[], ps⟩ l'
      | (ts, .pending r) => do
        let ps ← feedAll ev st.ps ts
        drainFast ev n ⟨r, ps⟩ l'

theorem drain_eq (ev : Val → Res Val) (n : Nat) (st : LSt) (l : List UInt8) : drain ev n st l = drainFast ev n st l := by
  induction n generalizing st l with
  | zero => rfl
  | succ n ih =>
    rw [drain, drainFast]
    cases fgets (rbufLen - st.rem.length) l with
    | none => rfl
    | some q =>
      obtain ⟨chunk, l'⟩ := q
      simp only [lexerParse, lex, lexFastN_eq]
      generalize lexN _ _ = z
      obtain ⟨ts, e⟩ := z
      cases e <;> simp [Res.bind_assoc, ih]

end Lex
end Mnml
