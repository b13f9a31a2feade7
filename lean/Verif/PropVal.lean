import Verif.Val

/-!
# C06, C07, C08, C09, C40: equality, symbols, patterns, predicates
-/

namespace Mnml

open Val

/-! ## C08: symbols -/

theorem takeWhile_append_replicate (t : List UInt8) (n : Nat) (h : ∀ b ∈ t, b ≠ 0) :
    (t ++ List.replicate n 0).takeWhile (fun b => decide (b ≠ 0)) = t := by
  induction t with
  | nil => cases n <;> simp [List.replicate]
  | cons x xs ih =>
    have hx : x ≠ 0 := h x (by simp)
    rw [List.cons_append, List.takeWhile_cons]
    simp only [hx, ne_eq, not_false_eq_true, decide_true, if_true]
    rw [ih (fun b hb => h b (by simp [hb]))]

/-- The printable name of a symbol made from a C string is its first 16 characters. -/
theorem Sym.name_ofBytes (s : List UInt8) :
    (Sym.ofBytes s).name = (s.takeWhile (· ≠ 0)).take 16 := by
  simp only [Sym.ofBytes, Sym.name, strncpy16]
  apply takeWhile_append_replicate
  intro b hb
  have h2 := List.mem_of_mem_take hb
  have : ∀ (l : List UInt8), b ∈ l.takeWhile (fun x => decide (x ≠ 0)) → b ≠ 0 := by
    intro l
    induction l with
    | nil => simp
    | cons x xs ih =>
      rw [List.takeWhile_cons]
      split
      · next hx =>
        intro hm
        rcases List.mem_cons.1 hm with e | e
        · subst e; simpa using hx
        · exact ih e
      · simp
  exact this s h2

theorem takeWhile_eq_self_of_no_nul (s : List UInt8) (h : (0 : UInt8) ∉ s) :
    s.takeWhile (fun x => decide (x ≠ 0)) = s := by
  induction s with
  | nil => rfl
  | cons x xs ih =>
    have : x ≠ 0 := fun e => h (by simp [e])
    rw [List.takeWhile_cons]
    simp only [this, ne_eq, not_false_eq_true, decide_true, if_true]
    rw [ih (fun hm => h (by simp [hm]))]

/-- **C08.** Two names denote the same symbol exactly when they agree on the first 16 bytes. -/
theorem C08_symbol_identity (a b : List UInt8) (ha : (0 : UInt8) ∉ a) (hb : (0 : UInt8) ∉ b) :
    symMatch (Sym.ofBytes a) (Sym.ofBytes b) = true ↔ a.take 16 = b.take 16 := by
  rw [symMatch_iff]
  constructor
  · intro h
    have h1 := Sym.name_ofBytes a
    have h2 := Sym.name_ofBytes b
    rw [takeWhile_eq_self_of_no_nul a ha] at h1
    rw [takeWhile_eq_self_of_no_nul b hb] at h2
    rw [← h1, ← h2, h]
  · intro h
    apply Sym.ext'
    simp only [Sym.ofBytes, strncpy16]
    rw [takeWhile_eq_self_of_no_nul a ha, takeWhile_eq_self_of_no_nul b hb, h]

example : symMatch (Sym.ofChars "abcdefghijklmnopqrs".toList)
    (Sym.ofChars "abcdefghijklmnopXYZ".toList) = true := by decide
example : symMatch (Sym.ofChars "foo".toList) (Sym.ofChars "bar".toList) = false := by decide

/-- **C08.** The symbol order is a strict total order: trichotomous... -/
theorem C08_trichotomy (a b : Sym) :
    (symCompare a b = .lt ∧ a ≠ b ∧ symCompare b a = .gt) ∨
    (symCompare a b = .eq ∧ a = b ∧ symCompare b a = .eq) ∨
    (symCompare a b = .gt ∧ a ≠ b ∧ symCompare b a = .lt) := by
  have h1 := symCompare_swap a b
  have h2 := symCompare_eq_iff a b
  cases h : symCompare a b <;> simp_all [← h1]

/-- **C08.** ... and transitive. -/
theorem C08_trans {a b c : Sym} (h1 : symCompare a b = .lt) (h2 : symCompare b c = .lt) :
    symCompare a c = .lt := symCompare_lt_trans h1 h2

/-! ## C06: equality -/

/-- **C06.** `(= A B)` holds exactly when `A` and `B` have the same content at every position. -/
theorem C06_equ_iff (a b : Val) : equ a b = true ↔ a.erase = b.erase := by
  induction a generalizing b with
  | pair tc x y ihx ihy => cases b <;> simp [equ, erase, ihx, ihy]
  | sym tc s => cases b <;> simp [equ, erase, symMatch_iff]
  | _ => cases b <;> simp [equ, erase]

theorem C06_refl (a : Val) : equ a a = true := (C06_equ_iff a a).2 rfl

theorem C06_symm (a b : Val) : equ a b = equ b a := by
  rw [Bool.eq_iff_iff, C06_equ_iff, C06_equ_iff]; exact eq_comm

theorem C06_trans {a b c : Val} (h1 : equ a b = true) (h2 : equ b c = true) : equ a c = true := by
  rw [C06_equ_iff] at *; exact h1.trans h2

/-- **C06.** Equality is a congruence for CONS, and CONS is injective up to it. -/
theorem C06_cons (a b a' b' : Val) :
    equ (cons a b) (cons a' b') = true ↔ equ a a' = true ∧ equ b b' = true := by
  simp [equ]

/-- **C06.** On values without flags (everything the reader and the makers produce), `=` decides
equality of trees. -/
theorem C06_unflagged {a b : Val} (ha : a.erase = a) (hb : b.erase = b) :
    equ a b = true ↔ a = b := by rw [C06_equ_iff, ha, hb]

example : equ (cons (num 1) (cons (chr 97) nil)) (cons (num 1) (cons (chr 97) nil)) = true ∧
    equ (cons (num 1) nil) (cons (num 1) tru) = false ∧ equ (num 97) (chr 97) = false := by decide

/-! ## C07: inequality -/

/-- **C07.** `(<> A B)` is the negation of `(= A B)`. -/
theorem C07_neq (a b : Val) : neq a b = !equ a b := by
  induction a generalizing b with
  | pair tc x y ihx ihy =>
    cases b <;> simp [neq, equ, type]
    rw [ihx, ihy]
  | sym tc s => cases b <;> simp [neq, equ, type]
  | chr c => cases b <;> simp [neq, equ, type, bne]
  | num c => cases b <;> simp [neq, equ, type, bne]
  | _ => cases b <;> simp [neq, equ, type]

/-! ## C09: patterns -/

/-- Replace each `_` of a pattern by the value that `f` gives for its position (a path of
CAR = false / CDR = true steps). -/
def Val.fill : Val → (List Bool → Val) → Val
  | wild, f => f []
  | pair tc a d, f => pair tc (fill a fun p => f (false :: p)) (fill d fun p => f (true :: p))
  | v, _ => v

/-- **C09.** A pattern accepts exactly the values obtained by replacing each `_` by some value. -/
theorem C09_match_iff (p v : Val) :
    atomMatch p v = true ↔ ∃ f, (p.fill f).erase = v.erase := by
  induction p generalizing v with
  | wild => simp only [atomMatch, fill, true_iff]; exact ⟨fun _ => v, rfl⟩
  | pair tc x y ihx ihy =>
    cases v with
    | pair tc' x' y' =>
      simp only [atomMatch, Bool.and_eq_true, ihx, ihy, fill, erase, pair.injEq, true_and]
      constructor
      · rintro ⟨⟨f, hf⟩, g, hg⟩
        refine ⟨fun p => match p with
          | [] => nil
          | false :: q => f q
          | true :: q => g q, hf, hg⟩
      · rintro ⟨f, hf, hg⟩
        exact ⟨⟨_, hf⟩, _, hg⟩
    | _ => simp [atomMatch, fill, erase]
  | sym tc s =>
    cases v <;> simp only [atomMatch, fill, erase, symMatch_iff, exists_const] <;> simp
  | _ => cases v <;> simp only [atomMatch, fill, erase, exists_const] <;> simp

/-- Does `_` occur in a value? -/
def Val.hasWild : Val → Bool
  | wild => true
  | pair _ a d => hasWild a || hasWild d
  | _ => false

/-- **C09.** A pattern without `_` accepts exactly the values equal to it. -/
theorem C09_match_exact {p : Val} (h : p.hasWild = false) (v : Val) :
    atomMatch p v = equ p v := by
  induction p generalizing v with
  | wild => simp [hasWild] at h
  | pair tc x y ihx ihy =>
    simp only [hasWild, Bool.or_eq_false_iff] at h
    cases v <;> simp [atomMatch, equ, ihx h.1, ihy h.2]
  | _ => cases v <;> simp [atomMatch, equ]

example : atomMatch (cons (num 1) wild) (cons (num 1) (cons (num 2) nil)) = true ∧
    atomMatch (cons (num 1) wild) (cons (num 2) nil) = false := by decide

/-! ## C40: type predicates -/

/-- **C40.** Exactly one of the seven type tests holds of a value. -/
theorem C40_partition (v : Val) :
    [v.isNil, v.isTrue, v.isWild, v.isChr, v.isNum, v.isSym, v.isPair].count true = 1 := by
  cases v <;> rfl

/-- **C40.** `atm?` is the complement of `lst?`, and `lst?` is "NIL or a pair". -/
theorem C40_atom_list (v : Val) :
    v.isAtom = !v.isList ∧ (v.isList = true ↔ v = nil ∨ ∃ tc a d, v = pair tc a d) := by
  cases v <;> simp [isAtom, isList, isPair, isNil]

/-- **C40.** `str?` holds exactly of the proper lists of characters. -/
theorem C40_string (v : Val) :
    v.isString = true ↔ ∃ cs : List Int, v.erase = ofList (cs.map chr) := by
  induction v with
  | pair tc a d _ ih =>
    simp only [isString, Bool.and_eq_true, ih, erase]
    constructor
    · rintro ⟨h1, cs, h2⟩
      cases a <;> simp [isChr] at h1
      next c _ => exact ⟨c :: cs, by simp [ofList, h2, erase]⟩
    · rintro ⟨cs, h⟩
      cases cs with
      | nil => simp [ofList] at h
      | cons c cs =>
        simp only [List.map_cons, ofList, pair.injEq, true_and] at h
        refine ⟨?_, cs, h.2⟩
        have h1 := h.1
        cases a <;> simp [erase] at h1 <;> rfl
  | nil => simp [isString, erase]; exact ⟨[], rfl⟩
  | _ =>
    simp only [isString, erase, Bool.false_eq_true, false_iff, not_exists]
    intro cs; cases cs <;> simp [ofList]

example : (ofList [chr 104, chr 105]).isString = true ∧ (ofList [chr 104, num 1]).isString = false ∧
    nil.isString = true := by decide

end Mnml
