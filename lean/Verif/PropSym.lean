import Verif.Basic

/-!
# C87: symbols as 16 bytes and as numbers of 128 bits

With SSE (`CMakeLists.txt:148-153`) symbols are compared as numbers of 128 bits, and they are cleared as such before the name is copied into them. The
rest of the model has the variant without SSE (`symMatch`) and the effect of the macros `MAKE_SYMBOL_*` (`Sym.ofBytes`). Here the macros are taken
statement by statement, in memory whose previous contents are arbitrary.
-/

namespace Mnml
namespace Sse

/-- The number whose bytes are `l`, the least significant first. -/
def leNat : List UInt8 → Nat
  | [] => 0
  | b :: l => b.toNat + 256 * leNat l

/-- `tag` of a `union symbol` whose `val` has the bytes `l` (`include/mnml/types.h:61-65`), on a machine with the least significant byte first. -/
def tagOf (l : List UInt8) : BitVec 128 := BitVec.ofNat 128 (leNat l)

/-- The bytes of the number `x` of `n` bytes. -/
def bytesLE : Nat → Nat → List UInt8
  | 0, _ => []
  | n + 1, x => UInt8.ofNat x :: bytesLE n (x / 256)

/-- `val` after an assignment to `tag`. -/
def valOf (x : BitVec 128) : List UInt8 := bytesLE 16 x.toNat

/-- `lisp_symbol_match` with SSE (`include/mnml/utils.h:107-116`): `_mm_xor_si128` is the exclusive or, `_mm_test_all_zeros(r, r)` tells
whether `r & r` is zero. -/
def sseMatch (a b : Sym) : Bool :=
  let res := tagOf a.bytes ^^^ tagOf b.bytes
  res &&& res == 0#128

/-- Zero `n` bytes at the start of `dst`: undefined if they are not there. -/
def clear : List UInt8 → Nat → Res (List UInt8)
  | dst, 0 => .ok dst
  | [], _ + 1 => .ub .outOfBounds
  | _ :: dst, n + 1 => do
    let r ← clear dst n
    .ok (0 :: r)

/-- `strncpy(dst, src, n)` (ISO C 7.26.2.4): copy up to the first NUL, at most `n` bytes, and fill with NUL up to `n` bytes. `src` is all that can be
read: to read behind it is undefined. -/
def strncpy : List UInt8 → List UInt8 → Nat → Res (List UInt8)
  | dst, _, 0 => .ok dst
  | [], _, _ + 1 => .ub .outOfBounds
  | _ :: _, [], _ + 1 => .ub .outOfBounds
  | b :: dst, c :: src, n + 1 =>
    if c = 0 then clear (b :: dst) (n + 1)
    else do
      let r ← strncpy dst src n
      .ok (c :: r)

/-- `MAKE_SYMBOL_STATIC` and `MAKE_SYMBOL_DYNAMIC` (`include/mnml/lisp.h:128-131`, `139-142`). `old` is what the allocated memory contains;
the assignment of `NULL_TAG` overwrites all of it. -/
def makeSymbol (old src : List UInt8) : Res (List UInt8) :=
  if old.length = 16 then strncpy (valOf 0) src symLen else .ub .outOfBounds

/-- `MAKE_SYMBOL_STATIC_N` and `MAKE_SYMBOL_DYNAMIC_N` (`include/mnml/lisp.h:133-137`, `144-148`). -/
def makeSymbolN (old src : List UInt8) (n : Nat) : Res (List UInt8) :=
  if old.length = 16 then strncpy (valOf 0) src (if n ≤ symLen then n else symLen) else .ub .outOfBounds

theorem leNat_lt (l : List UInt8) : leNat l < 256 ^ l.length := by
  induction l with
  | nil => simp [leNat]
  | cons b l ih =>
    have := b.toNat_lt
    simp only [leNat, List.length_cons, Nat.pow_succ]
    omega

theorem leNat_inj : ∀ (a b : List UInt8), a.length = b.length → leNat a = leNat b → a = b := by
  intro a
  induction a with
  | nil => intro b h _; cases b; rfl; cases h
  | cons x a ih =>
    intro b h e
    cases b with
    | nil => cases h
    | cons y b =>
      have hx := x.toNat_lt
      have hy := y.toNat_lt
      simp only [leNat] at e
      have e1 : x.toNat = y.toNat := by omega
      have e2 : leNat a = leNat b := by omega
      rw [ih b (by simpa using h) e2, UInt8.toNat_inj.1 e1]

theorem tagOf_inj {a b : List UInt8} (ha : a.length = 16) (hb : b.length = 16) (h : tagOf a = tagOf b) : a = b := by
  have la := leNat_lt a
  have lb := leNat_lt b
  rw [ha] at la
  rw [hb] at lb
  apply leNat_inj a b (by omega)
  have := congrArg BitVec.toNat h
  simp only [tagOf, BitVec.toNat_ofNat] at this
  rw [Nat.mod_eq_of_lt (by omega), Nat.mod_eq_of_lt (by omega)] at this
  exact this

theorem bytes_le (l : List UInt8) : bytesLE l.length (leNat l) = l := by
  induction l with
  | nil => rfl
  | cons b l ih =>
    have hb := b.toNat_lt
    simp only [List.length_cons, bytesLE, leNat]
    rw [show (b.toNat + 256 * leNat l) / 256 = leNat l by omega, ih]
    congr 1
    apply UInt8.toNat_inj.1
    simp only [UInt8.toNat_ofNat']
    omega

/-- **C87**: `val` and `tag` are the same 16 bytes. -/
theorem C87_union (s : Sym) : valOf (tagOf s.bytes) = s.bytes := by
  have l := leNat_lt s.bytes
  have e := bytes_le s.bytes
  rw [s.len] at l e
  unfold valOf tagOf
  rw [BitVec.toNat_ofNat, Nat.mod_eq_of_lt (by omega), e]

/-- **C87**: with SSE symbols match exactly if they match without. -/
theorem C87_match (a b : Sym) : sseMatch a b = symMatch a b := by
  rw [Bool.eq_iff_iff, symMatch_iff]
  unfold sseMatch
  simp only [BitVec.and_self, beq_iff_eq, BitVec.xor_eq_zero_iff]
  constructor
  · exact fun h => Sym.ext' (tagOf_inj a.len b.len h)
  · rintro rfl; rfl

theorem clear_zero : ∀ (n k : Nat), n ≤ k → clear (List.replicate k 0) n = .ok (List.replicate k 0) := by
  intro n
  induction n with
  | zero => intro k _; cases k <;> rfl
  | succ n ih =>
    intro k h
    cases k with
    | zero => omega
    | succ k =>
      simp only [List.replicate_succ, clear, ih k (by omega)]
      rfl

/-- The name in `n` bytes at `src`. -/
def nameOf (src : List UInt8) (n : Nat) : List UInt8 := (src.take n).takeWhile (· ≠ 0)

theorem strncpy_zero : ∀ (n k : Nat) (src : List UInt8), n ≤ k → n ≤ src.length ∨ (0 : UInt8) ∈ src →
    strncpy (List.replicate k 0) src n = .ok (nameOf src n ++ List.replicate (k - (nameOf src n).length) 0) := by
  intro n
  induction n with
  | zero => intro k src _ _; cases k <;> cases src <;> simp [strncpy, nameOf, List.replicate_succ]
  | succ n ih =>
    intro k src h hs
    cases k with
    | zero => omega
    | succ k =>
      cases src with
      | nil => simp at hs
      | cons c src =>
        by_cases hc : c = 0
        · subst hc
          have := clear_zero (n + 1) (k + 1) h
          rw [List.replicate_succ] at this
          simp [strncpy, nameOf, List.replicate_succ, this]
        · have hs' : n ≤ src.length ∨ (0 : UInt8) ∈ src := by
            rcases hs with hs | hs
            · left; simpa using hs
            · right
              rcases List.mem_cons.1 hs with e | e
              · exact absurd e.symm hc
              · exact e
          have := ih k src (by omega) hs'
          simp only [List.replicate_succ, strncpy, if_neg hc, this]
          simp [nameOf, hc]

theorem valOf_zero : valOf 0 = List.replicate 16 0 := by decide

theorem takeWhile_take (l : List UInt8) (n : Nat) : (l.take n).takeWhile (· ≠ 0) = (l.takeWhile (· ≠ 0)).take n := by
  induction l generalizing n with
  | nil => simp
  | cons a l ih =>
    cases n with
    | zero => simp
    | succ n =>
      by_cases h : a = 0
      · simp [h]
      · simp only [List.take_succ_cons, List.takeWhile_cons, ne_eq, h, not_false_eq_true, decide_true, if_true]
        rw [← ih n]

/-- **C87**: a symbol made from a C string `s`, whatever the memory contained and whatever follows the string. -/
theorem C87_make (old s rest : List UInt8) (ho : old.length = 16) : makeSymbol old (s ++ 0 :: rest) = .ok (Sym.ofBytes s).bytes := by
  unfold makeSymbol
  rw [if_pos ho, valOf_zero, show symLen = 16 from rfl, strncpy_zero 16 16 _ (Nat.le_refl _) (.inr (by simp))]
  have e : nameOf (s ++ 0 :: rest) 16 = (s.takeWhile (· ≠ 0)).take 16 := by
    unfold nameOf
    rw [takeWhile_take]
    congr 1
    induction s with
    | nil => simp
    | cons a s ih => by_cases h : a = 0 <;> simp_all
  rw [e]; rfl

/-- **C87**: a symbol made from the token of `n` bytes at `s`, which need not end with a NUL (`lib/grammar/lexer.rl:161`): nothing behind the
token gets into the symbol, and at most 16 bytes are read. -/
theorem C87_makeN (old s rest : List UInt8) (ho : old.length = 16) : makeSymbolN old (s ++ rest) s.length = .ok (Sym.ofBytes s).bytes := by
  unfold makeSymbolN
  have hl : (if s.length ≤ symLen then s.length else symLen) ≤ 16 := by unfold symLen; split <;> omega
  have hm : (if s.length ≤ symLen then s.length else symLen) ≤ (s ++ rest).length := by
    rw [List.length_append]; unfold symLen; split <;> omega
  rw [if_pos ho, valOf_zero, strncpy_zero _ 16 _ hl (.inl hm)]
  have e : nameOf (s ++ rest) (if s.length ≤ symLen then s.length else symLen) = (s.takeWhile (· ≠ 0)).take 16 := by
    unfold nameOf
    rw [← takeWhile_take]
    congr 1
    unfold symLen
    split
    · rw [List.take_left, List.take_of_length_le ‹_›]
    · rw [List.take_append_of_le_length (by omega)]
  rw [e]; rfl

/-- **C87**: reading is undefined only if the memory ends before a NUL and before the bytes asked for. -/
theorem C87_reads (old src : List UInt8) (n : Nat) (ho : old.length = 16) :
    (∃ r, makeSymbolN old src n = .ok r) ↔ min n 16 ≤ src.length ∨ (0 : UInt8) ∈ src := by
  have hn : (if n ≤ symLen then n else symLen) = min n 16 := by unfold symLen; split <;> omega
  unfold makeSymbolN
  rw [if_pos ho, hn, valOf_zero]
  constructor
  · have aux : ∀ (m k : Nat) (src : List UInt8) (r : List UInt8), strncpy (List.replicate k 0) src m = .ok r → m ≤ src.length ∨ (0 : UInt8) ∈ src := by
      intro m
      induction m with
      | zero => intros; left; omega
      | succ m ih =>
        intro k src r h
        cases k with
        | zero => cases h
        | succ k =>
          cases src with
          | nil => cases h
          | cons c src =>
            by_cases hc : c = 0
            · right; simp [hc]
            · rw [List.replicate_succ, strncpy, if_neg hc] at h
              cases h' : strncpy (List.replicate k 0) src m with
              | ok r' =>
                rcases ih k src r' h' with i | i
                · left; simpa using i
                · right; exact List.mem_cons_of_mem _ i
              | _ => rw [h'] at h; cases h
    rintro ⟨r, h⟩
    exact aux _ _ _ _ h
  · intro h
    exact ⟨_, strncpy_zero _ 16 _ (by omega) h⟩

/-- **C87**: two names make symbols that match, with or without SSE, exactly if they agree in the first 16 bytes before a NUL. -/
theorem C87_names (s t : List UInt8) : sseMatch (Sym.ofBytes s) (Sym.ofBytes t) = true ↔
    (s.takeWhile (· ≠ 0)).take 16 = (t.takeWhile (· ≠ 0)).take 16 := by
  rw [C87_match, symMatch_iff]
  have cut : ∀ u : List UInt8, (Sym.ofBytes u).bytes.takeWhile (· ≠ 0) = (u.takeWhile (· ≠ 0)).take 16 := by
    intro u
    show (strncpy16 u).takeWhile (· ≠ 0) = _
    unfold strncpy16
    have hz : ∀ x ∈ (u.takeWhile (· ≠ 0)).take 16, x ≠ 0 := by
      intro x hx
      have := List.mem_of_mem_take hx
      clear hx
      induction u with
      | nil => simp at this
      | cons a u ih =>
        by_cases h : a = 0
        · simp [h] at this
        · simp only [List.takeWhile_cons, ne_eq, h, not_false_eq_true, decide_true, if_true, List.mem_cons] at this
          rcases this with e | e
          · rw [e]; exact h
          · exact ih e
    have gen : ∀ (l : List UInt8) (k : Nat), (∀ x ∈ l, x ≠ 0) → (l ++ List.replicate k 0).takeWhile (· ≠ 0) = l := by
      intro l k hz
      induction l with
      | nil => cases k <;> simp [List.replicate_succ]
      | cons a l ih =>
        have ha := hz a (by simp)
        simp only [List.cons_append, List.takeWhile_cons, ne_eq, ha, not_false_eq_true, decide_true, if_true, List.cons.injEq, true_and]
        exact ih fun x hx => hz x (by simp [hx])
    exact gen _ _ hz
  constructor
  · intro h; rw [← cut, ← cut, h]
  · intro h
    apply Sym.ext'
    show strncpy16 s = strncpy16 t
    simp only [strncpy16, h]

/-- The clearing is needed: without it the token `ab` would keep what the memory contained behind its two bytes. -/
example : strncpy (List.replicate 16 7) [97, 98, 32] 2 = .ok ([97, 98] ++ List.replicate 14 7) := by decide

/-- `makeSymbolN` on the token `ab` followed by a blank. -/
example : makeSymbolN (List.replicate 16 7) [97, 98, 32] 2 = .ok ([97, 98] ++ List.replicate 14 0) := by decide

/-- A name that is too long is cut. -/
example : sseMatch (Sym.ofBytes (List.replicate 17 97)) (Sym.ofBytes (List.replicate 16 97)) = true :=
  (C87_names _ _).2 (by decide)

end Sse
end Mnml
