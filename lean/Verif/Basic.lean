/-!
# Basic types: symbols, 64-bit integers, outcomes

Models `include/mnml/types.h` and the symbol helpers of `include/mnml/lisp.h`
and `include/mnml/utils.h`.
-/

namespace Mnml

/-- The 16 raw bytes of `union symbol` (`include/mnml/types.h:61-65`). All bit
patterns are allowed, exactly as in C. -/
structure Sym where
  bytes : List UInt8
  len : bytes.length = 16
deriving DecidableEq

/-- `LISP_SYMBOL_LENGTH` (`include/mnml/types.h:59`). -/
def symLen : Nat := 16

/-- `strncpy(dst, src, 16)` into a zeroed 16-byte buffer: copy up to the first NUL, at most 16
bytes, the rest stays zero (`include/mnml/lisp.h:128-148`, `MAKE_SYMBOL_*`). -/
def strncpy16 (s : List UInt8) : List UInt8 :=
  let t := (s.takeWhile (· ≠ 0)).take 16
  t ++ List.replicate (16 - t.length) 0

theorem strncpy16_length (s : List UInt8) : (strncpy16 s).length = 16 := by
  simp only [strncpy16, List.length_append, List.length_replicate, List.length_take]
  omega

/-- `MAKE_SYMBOL_STATIC` / `MAKE_SYMBOL_STATIC_N` (`include/mnml/lisp.h:128-148`): the symbol made
from a C string. -/
def Sym.ofBytes (s : List UInt8) : Sym := ⟨strncpy16 s, strncpy16_length s⟩

/-- A symbol literal, for readability of examples; bytes of an ASCII string. -/
def Sym.ofChars (s : List Char) : Sym := Sym.ofBytes (s.map fun c => UInt8.ofNat c.toNat)

/-- The printable name of a symbol: the bytes up to the first NUL
(`strnlen(cell->symbol.val, 16)`, `lib/core/print.c:121-122`). -/
def Sym.name (s : Sym) : List UInt8 := s.bytes.takeWhile (· ≠ 0)

/-- `memcmp` on two byte strings of equal length (`include/mnml/utils.h:114`, `128`): unsigned
lexicographic comparison. Only the sign of the C result is used by the callers. -/
def memcmp : List UInt8 → List UInt8 → Ordering
  | [], [] => .eq
  | [], _ :: _ => .lt
  | _ :: _, [] => .gt
  | a :: as, b :: bs =>
    if a.toNat < b.toNat then .lt
    else if b.toNat < a.toNat then .gt
    else memcmp as bs

/-- `lisp_symbol_match` (`include/mnml/utils.h:107-116`) on two symbols: `memcmp(..., 16) == 0`. -/
def symMatch (a b : Sym) : Bool := memcmp a.bytes b.bytes == .eq

/-- `lisp_symbol_compare` (`include/mnml/utils.h:125-129`). -/
def symCompare (a b : Sym) : Ordering := memcmp a.bytes b.bytes

/-- `INT64_MIN`. -/
def i64min : Int := -9223372036854775808
/-- `INT64_MAX`. -/
def i64max : Int := 9223372036854775807

/-- Does an exact integer fit `int64_t`? -/
def inI64 (n : Int) : Bool := decide (i64min ≤ n) && decide (n ≤ i64max)

/-- Conversion of an integer to C `char` (signed, 8 bits, as on x86-64): the value of
`(int64_t)(char)n` (`include/mnml/lisp.h:154-164`, `lib/mnml/std/chr.c:10`). -/
def toChar (n : Int) : Int := (n + 128) % 256 - 128

/-- The byte written for a `char` holding `n`. -/
def byteOf (n : Int) : UInt8 := UInt8.ofNat (n % 256).toNat

/-- `(int64_t)c` for a byte `c` stored in a (signed) `char`. -/
def charOf (b : UInt8) : Int := if b.toNat < 128 then b.toNat else (b.toNat : Int) - 256

/-- Kinds of undefined behaviour that the model distinguishes. -/
inductive UB where
  /-- signed overflow, `INT64_MIN / -1` -/
  | overflow
  /-- division or remainder by zero -/
  | divZero
  /-- null pointer, or a non-pair union member used as a pointer -/
  | badPointer
  /-- call through a number that is not the address of a native function -/
  | badCall
  /-- a pointer read as an integer (`->number` of a pair) -/
  | pairAsNumber
  /-- access to a released cell -/
  | useAfterFree
  /-- access to a native's own argument after user code has released it (`Verif.HeapEval`) -/
  | staleArg
  /-- out-of-bounds buffer write -/
  | outOfBounds
deriving DecidableEq, Repr

/-- Result of running modelled code. -/
inductive Res (α : Type) where
  | ok (a : α)
  /-- undefined behaviour in C -/
  | ub (u : UB)
  /-- `abort()` (slab exhausted) -/
  | abort
  /-- the fuel of the model ran out (the C code is still running) -/
  | oof
  /-- outside of the modelled fragment -/
  | unsupported
deriving Repr, DecidableEq

namespace Res
/-- Sequential composition of outcomes. -/
@[inline] def bind {α β : Type} (x : Res α) (f : α → Res β) : Res β :=
  match x with
  | ok a => f a
  | ub u => ub u
  | abort => abort
  | oof => oof
  | unsupported => unsupported

instance : Monad Res where
  pure := ok
  bind := bind

@[simp] theorem pure_eq {α : Type} (a : α) : (pure a : Res α) = ok a := rfl
@[simp] theorem ok_bind {α β : Type} (a : α) (f : α → Res β) : (ok a >>= f) = f a := rfl
@[simp] theorem ub_bind {α β : Type} (u : UB) (f : α → Res β) : ((ub u : Res α) >>= f) = ub u := rfl
@[simp] theorem abort_bind {α β : Type} (f : α → Res β) : ((abort : Res α) >>= f) = abort := rfl
@[simp] theorem oof_bind {α β : Type} (f : α → Res β) : ((oof : Res α) >>= f) = oof := rfl
@[simp] theorem unsupported_bind {α β : Type} (f : α → Res β) :
    ((unsupported : Res α) >>= f) = unsupported := rfl

@[simp] theorem bind_assoc {α β γ : Type} (x : Res α) (f : α → Res β) (g : β → Res γ) :
    (x >>= f >>= g) = (x >>= fun a => f a >>= g) := by
  cases x <;> rfl

@[simp] theorem bind_ok {α : Type} (x : Res α) : (x >>= fun a => ok a) = x := by cases x <;> rfl

theorem bind_eq_ok {α β : Type} {x : Res α} {f : α → Res β} {b : β} :
    (x >>= f) = ok b ↔ ∃ a, x = ok a ∧ f a = ok b := by
  cases x <;> simp

end Res

/-! ## Lemmas on `memcmp` -/

theorem memcmp_self (a : List UInt8) : memcmp a a = .eq := by
  induction a with
  | nil => rfl
  | cons x xs ih => simp [memcmp, ih]

theorem memcmp_eq_iff (a b : List UInt8) : memcmp a b = .eq ↔ a = b := by
  induction a generalizing b with
  | nil => cases b <;> simp [memcmp]
  | cons x xs ih =>
    cases b with
    | nil => simp [memcmp]
    | cons y ys =>
      simp only [memcmp]
      split
      · next h => simp; intro e; subst e; omega
      · split
        · next h => simp; intro e; subst e; omega
        · next h1 h2 =>
          have : x = y := UInt8.toNat_inj.mp (by omega)
          simp [ih, this]

theorem memcmp_swap (a b : List UInt8) : (memcmp a b).swap = memcmp b a := by
  induction a generalizing b with
  | nil => cases b <;> simp [memcmp]
  | cons x xs ih =>
    cases b with
    | nil => simp [memcmp]
    | cons y ys =>
      simp only [memcmp]
      split
      · next h => rw [if_neg (by omega)]; rfl
      · next h =>
        split
        · rfl
        · exact ih ys

theorem memcmp_lt_trans (a b c : List UInt8) :
    memcmp a b = .lt → memcmp b c = .lt → memcmp a c = .lt := by
  induction a generalizing b c with
  | nil =>
    intro h1 h2
    cases b with
    | nil => simp [memcmp] at h1
    | cons y ys => cases c with
      | nil => simp [memcmp] at h2
      | cons z zs => rfl
  | cons x xs ih =>
    intro h1 h2
    cases b with
    | nil => simp [memcmp] at h1
    | cons y ys =>
      cases c with
      | nil => simp [memcmp] at h2
      | cons z zs =>
        simp only [memcmp] at h1 h2 ⊢
        split at h1
        · split at h2
          · rw [if_pos (by omega)]
          · split at h2
            · cases h2
            · rw [if_pos (by omega)]
        · split at h1
          · cases h1
          · split at h2
            · rw [if_pos (by omega)]
            · split at h2
              · cases h2
              · rw [if_neg (by omega), if_neg (by omega)]
                exact ih ys zs h1 h2

theorem Sym.ext' {a b : Sym} (h : a.bytes = b.bytes) : a = b := by
  cases a; cases b; cases h; rfl

theorem symMatch_iff (a b : Sym) : symMatch a b = true ↔ a = b := by
  simp only [symMatch, beq_iff_eq, memcmp_eq_iff]
  exact ⟨Sym.ext', fun h => by rw [h]⟩

theorem symMatch_eq_decide (a b : Sym) : symMatch a b = decide (a = b) := by
  rw [Bool.eq_iff_iff, symMatch_iff, decide_eq_true_iff]

theorem symCompare_eq_iff (a b : Sym) : symCompare a b = .eq ↔ a = b := by
  simp only [symCompare, memcmp_eq_iff]
  exact ⟨Sym.ext', fun h => by rw [h]⟩

theorem symCompare_swap (a b : Sym) : (symCompare a b).swap = symCompare b a := memcmp_swap _ _

theorem symCompare_lt_trans {a b c : Sym} :
    symCompare a b = .lt → symCompare b c = .lt → symCompare a c = .lt := memcmp_lt_trans _ _ _

theorem symCompare_gt_iff (a b : Sym) : symCompare a b = .gt ↔ symCompare b a = .lt := by
  rw [← symCompare_swap a b]; cases symCompare a b <;> simp

theorem symCompare_self (a : Sym) : symCompare a a = .eq := (symCompare_eq_iff a a).2 rfl

end Mnml
