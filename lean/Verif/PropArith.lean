import Verif.Calls

/-!
# C29, C30: arithmetic and comparisons
-/

namespace Mnml

open Val

/-! ## C29 -/

/-- The mathematical result of an operation on integers: `q` and `r` are quotient and remainder of the
division of `a` by `b` that truncates toward zero. -/
def IsDiv (a b q r : Int) : Prop := a = q * b + r ∧ r.natAbs < b.natAbs ∧ (r ≠ 0 → (r < 0 ↔ a < 0))

theorem isDiv_tdiv {a b : Int} (hb : b ≠ 0) : IsDiv a b (a.tdiv b) (a.tmod b) := by
  refine ⟨?_, ?_, ?_⟩
  · have := Int.tmod_add_tdiv_mul a b; omega
  · rw [Int.natAbs_tmod]
    exact Nat.mod_lt _ (Int.natAbs_pos.2 hb)
  · intro hr
    constructor
    · intro hlt
      rcases Int.lt_or_le a 0 with h | h
      · exact h
      · have := Int.tmod_nonneg b h; omega
    · intro ha
      have h1 : a.tmod b = -((-a).tmod b) := by rw [Int.neg_tmod]; omega
      have h2 := Int.tmod_nonneg b (show (0 : Int) ≤ -a by omega)
      omega

/-- Quotient and remainder are determined by the specification. -/
theorem isDiv_unique {a b q r q' r' : Int} (h : IsDiv a b q r) (h' : IsDiv a b q' r') :
    q = q' ∧ r = r' := by
  obtain ⟨h1, h2, h3⟩ := h
  obtain ⟨h1', h2', h3'⟩ := h'
  have hr : (r - r').natAbs < b.natAbs := by
    by_cases e1 : r = 0
    · subst e1; simpa using h2'
    · by_cases e2 : r' = 0
      · subst e2; simpa using h2
      · have := h3 e1; have := h3' e2; omega
  have hq : (q - q') * b = r' - r := by rw [Int.sub_mul]; omega
  have hq0 : q - q' = 0 := by
    rcases Classical.em (q - q' = 0) with h0 | h0
    · exact h0
    · have : b.natAbs ≤ ((q - q') * b).natAbs := by
        rw [Int.natAbs_mul]
        exact Nat.le_mul_of_pos_left _ (Int.natAbs_pos.2 h0)
      rw [hq] at this
      omega
  rw [hq0] at hq
  omega

theorem inI64_iff (n : Int) : inI64 n = true ↔ -2 ^ 63 ≤ n ∧ n < 2 ^ 63 := by
  have h : inI64 n = true ↔ i64min ≤ n ∧ n ≤ i64max := by simp [inI64]
  rw [h]
  unfold i64min i64max
  omega

/-- **C29.** `+ - *` on numbers: the exact result if it fits in 64 bits, undefined behaviour otherwise. -/
theorem C29_add_sub_mul (c : Val) (st st1 st2 : St) (s : Sym) (op : Native) (f : Int → Int → Int)
    (hop : op = .add ∧ f = (· + ·) ∨ op = .sub ∧ f = (· - ·) ∨ op = .mul ∧ f = (· * ·))
    (h : Resolves c st s op.val) (x y : Val) (a b : Int)
    (hx : sem c x st = .ok (num a, st1)) (hy : sem c y st1 = .ok (num b, st2)) :
    sem c (cons (ofSym s) (ofList [x, y])) st =
      if -2 ^ 63 ≤ f a b ∧ f a b < 2 ^ 63 then .ok (num (f a b), st2) else .ub .overflow := by
  have harith : ∀ n : Int, (M.lift (arith n)) st2 =
      if -2 ^ 63 ≤ n ∧ n < 2 ^ 63 then .ok (num n, st2) else .ub .overflow := by
    intro n
    by_cases h : -2 ^ 63 ≤ n ∧ n < 2 ^ 63
    · rw [if_pos h, arith, if_pos ((inI64_iff n).2 h)]; rfl
    · rw [if_neg h, arith, if_neg (fun hc => h ((inI64_iff n).1 hc))]; rfl
  simp only [ofList]
  rcases hop with ⟨rfl, rfl⟩ | ⟨rfl, rfl⟩ | ⟨rfl, rfl⟩ <;>
  · rw [sem_two _ _ _ _ h rfl, M.bind_congr_ok hx, M.bind_congr_ok hy]
    exact harith _

/-- **C29.** `/` and `%` on numbers with a non-zero divisor: the quotient and the remainder of the division
truncating toward zero, if the quotient fits. -/
theorem C29_div_mod (c : Val) (st st1 st2 : St) (sd sm : Sym)
    (hd : Resolves c st sd Native.div.val) (hm : Resolves c st sm Native.mod.val) (x y : Val) (a b : Int)
    (hx : sem c x st = .ok (num a, st1)) (hy : sem c y st1 = .ok (num b, st2))
    (ha : -2 ^ 63 ≤ a ∧ a < 2 ^ 63) (hb : -2 ^ 63 ≤ b ∧ b < 2 ^ 63) (hb0 : b ≠ 0)
    (hfit : ¬ (a = -2 ^ 63 ∧ b = -1)) :
    ∃ q r, IsDiv a b q r ∧
      sem c (cons (ofSym sd) (ofList [x, y])) st = .ok (num q, st2) ∧
      sem c (cons (ofSym sm) (ofList [x, y])) st = .ok (num r, st2) := by
  have hD := isDiv_tdiv (a := a) hb0
  have hqabs : (a.tdiv b).natAbs ≤ a.natAbs := by
    rw [Int.natAbs_tdiv]; exact Nat.div_le_self _ _
  have hq : -2 ^ 63 ≤ a.tdiv b ∧ a.tdiv b < 2 ^ 63 := by
    refine ⟨by omega, ?_⟩
    rcases Classical.em (a.tdiv b = 2 ^ 63) with he | he
    · exfalso
      have haa : a = -2 ^ 63 := by omega
      have h1 : (a.tdiv b).natAbs = a.natAbs / b.natAbs := Int.natAbs_tdiv a b
      have hb1 : b.natAbs = 1 := by
        have h3 : a.natAbs = 2 ^ 63 := by omega
        have h4 : (a.tdiv b).natAbs = 2 ^ 63 := by omega
        rw [h4, h3] at h1
        rcases Nat.lt_or_ge b.natAbs 2 with h2 | h2
        · omega
        · have : 2 ^ 63 / b.natAbs ≤ 2 ^ 63 / 2 := Nat.div_le_div_left h2 (by omega)
          omega
      have : b = 1 := by
        rcases Classical.em (b = -1) with h2 | h2
        · exact absurd ⟨haa, h2⟩ hfit
        · omega
      rw [this, Int.tdiv_one] at he
      omega
    · omega
  have hi : ∀ n : Int, (-2 ^ 63 ≤ n ∧ n < 2 ^ 63) → inI64 n = true := fun n => (inI64_iff n).2
  refine ⟨_, _, hD, ?_, ?_⟩
  · simp only [ofList]
    rw [sem_two _ _ _ _ hd rfl, M.bind_congr_ok hx, M.bind_congr_ok hy]
    simp only [binary, mathV, number, Res.ok_bind, hb0, if_false, arith, hi _ hq, if_true, M.lift_ok]
    rfl
  · have hr : -2 ^ 63 ≤ a.tmod b ∧ a.tmod b < 2 ^ 63 := by
      have := hD.2.1; omega
    simp only [ofList]
    rw [sem_two _ _ _ _ hm rfl, M.bind_congr_ok hx, M.bind_congr_ok hy]
    simp only [binary, mathV, number, Res.ok_bind, hb0, if_false, arith, hi _ hq, hi _ hr, if_true,
      M.lift_ok]
    rfl

/-- **C29.** A zero divisor and the quotient of the least number by -1 are undefined behaviour, for `/` and
`%` alike. -/
theorem C29_div_mod_undefined (c : Val) (st st1 st2 : St) (s : Sym) (op : Native)
    (hop : op = .div ∨ op = .mod) (h : Resolves c st s op.val) (x y : Val) (a b : Int)
    (hx : sem c x st = .ok (num a, st1)) (hy : sem c y st1 = .ok (num b, st2))
    (hb : b = 0 ∨ a = -2 ^ 63 ∧ b = -1) :
    ∃ u, sem c (cons (ofSym s) (ofList [x, y])) st = .ub u := by
  simp only [ofList]
  rcases hop with rfl | rfl <;> rcases hb with rfl | ⟨rfl, rfl⟩
  · exact ⟨.divZero, by rw [sem_two _ _ _ _ h rfl, M.bind_congr_ok hx, M.bind_congr_ok hy]; rfl⟩
  · exact ⟨.overflow, by rw [sem_two _ _ _ _ h rfl, M.bind_congr_ok hx, M.bind_congr_ok hy]; rfl⟩
  · exact ⟨.divZero, by rw [sem_two _ _ _ _ h rfl, M.bind_congr_ok hx, M.bind_congr_ok hy]; rfl⟩
  · exact ⟨.overflow, by rw [sem_two _ _ _ _ h rfl, M.bind_congr_ok hx, M.bind_congr_ok hy]; rfl⟩

/-- The number that the arithmetic natives see in a value that is not a pair: they read the 8 bytes of the payload without looking at
the type. NIL, T and `_` have a payload of zeros, a character its code, a symbol the first 8 bytes of its name in little endian
two's complement. -/
inductive Payload : Val → Int → Prop
  | num (a : Int) : Payload (num a) a
  | chr (a : Int) : Payload (chr a) a
  | nil : Payload nil 0
  | tru : Payload tru 0
  | wild : Payload wild 0
  | sym (t : Bool) (s : Sym) (b0 b1 b2 b3 b4 b5 b6 b7 : UInt8) (r : List UInt8) (k j : Int)
      (hs : s.bytes = b0 :: b1 :: b2 :: b3 :: b4 :: b5 :: b6 :: b7 :: r)
      (hk : -2 ^ 63 ≤ k ∧ k < 2 ^ 63)
      (he : k + j * 2 ^ 64 = b0.toNat + b1.toNat * 2 ^ 8 + b2.toNat * 2 ^ 16 + b3.toNat * 2 ^ 24 + b4.toNat * 2 ^ 32 +
        b5.toNat * 2 ^ 40 + b6.toNat * 2 ^ 48 + b7.toNat * 2 ^ 56) : Payload (sym t s) k

theorem Payload.number {v : Val} {a : Int} (h : Payload v a) : v.number = .ok a := by
  cases h with
  | sym t s b0 b1 b2 b3 b4 b5 b6 b7 r _ j hs hk he =>
    have h0 := b0.toNat_lt
    have h1 := b1.toNat_lt
    have h2 := b2.toNat_lt
    have h3 := b3.toNat_lt
    have h4 := b4.toNat_lt
    have h5 := b5.toNat_lt
    have h6 := b6.toNat_lt
    have h7 := b7.toNat_lt
    simp only [Val.number, leInt, hs, List.take_succ_cons, List.take_zero, List.foldr_cons, List.foldr_nil]
    clear hs
    generalize b0.toNat = n0 at *
    generalize b1.toNat = n1 at *
    generalize b2.toNat = n2 at *
    generalize b3.toNat = n3 at *
    generalize b4.toNat = n4 at *
    generalize b5.toNat = n5 at *
    generalize b6.toNat = n6 at *
    generalize b7.toNat = n7 at *
    have hu : n0 + 256 * (n1 + 256 * (n2 + 256 * (n3 + 256 * (n4 + 256 * (n5 + 256 * (n6 + 256 * (n7 + 256 * 0))))))) =
        n0 + n1 * 2 ^ 8 + n2 * 2 ^ 16 + n3 * 2 ^ 24 + n4 * 2 ^ 32 + n5 * 2 ^ 40 + n6 * 2 ^ 48 + n7 * 2 ^ 56 := by omega
    have hlt : n0 + n1 * 2 ^ 8 + n2 * 2 ^ 16 + n3 * 2 ^ 24 + n4 * 2 ^ 32 + n5 * 2 ^ 40 + n6 * 2 ^ 48 + n7 * 2 ^ 56 < 2 ^ 64 := by
      omega
    have he' : a + j * 2 ^ 64 =
        ((n0 + n1 * 2 ^ 8 + n2 * 2 ^ 16 + n3 * 2 ^ 24 + n4 * 2 ^ 32 + n5 * 2 ^ 40 + n6 * 2 ^ 48 + n7 * 2 ^ 56 : Nat) : Int) := by
      rw [he]; omega
    rw [hu]
    generalize n0 + n1 * 2 ^ 8 + n2 * 2 ^ 16 + n3 * 2 ^ 24 + n4 * 2 ^ 32 + n5 * 2 ^ 40 + n6 * 2 ^ 48 + n7 * 2 ^ 56 = u at *
    congr 1
    split <;> omega
  | _ => rfl

/-- **C29.** Operands that are not numbers count as the number in their payload. -/
theorem C29_operands (c : Val) (st st1 st2 : St) (s : Sym) (op : Native)
    (hop : op ∈ [Native.add, .sub, .mul, .div, .mod, .lt, .le, .gt, .ge])
    (h : Resolves c st s op.val) (h2 : Resolves c st2 s op.val) (x y vx vy : Val) (a b : Int)
    (hx : sem c x st = .ok (vx, st1)) (hy : sem c y st1 = .ok (vy, st2)) (ha : Payload vx a) (hb : Payload vy b) :
    sem c (cons (ofSym s) (ofList [x, y])) st = sem c (cons (ofSym s) (ofList [num a, num b])) st2 := by
  have hn : ∀ k, sem c (num k) st2 = .ok (num k, st2) := by intro k; rw [sem_atom _ _ rfl rfl]; rfl
  have hs : op.shape = .two := by
    simp only [List.mem_cons, List.not_mem_nil, or_false] at hop
    rcases hop with rfl | rfl | rfl | rfl | rfl | rfl | rfl | rfl | rfl <;> rfl
  have hb2 : binary op vx vy = binary op (num a) (num b) := by
    have e1 := ha.number
    have e2 := hb.number
    simp only [List.mem_cons, List.not_mem_nil, or_false] at hop
    rcases hop with rfl | rfl | rfl | rfl | rfl | rfl | rfl | rfl | rfl <;>
      simp only [binary, mathV, compareV, e1, e2] <;> rfl
  simp only [ofList]
  rw [sem_two _ _ _ _ h hs, sem_two _ _ _ _ h2 hs, M.bind_congr_ok hx, M.bind_congr_ok hy, M.bind_congr_ok (hn a),
    M.bind_congr_ok (hn b), hb2]

/-- The hypotheses are met: `(+ T (quote a))` is the code of `a`. -/
example : Payload tru 0 ∧ Payload (S "a") 97 :=
  ⟨.tru, .sym false _ 97 0 0 0 0 0 0 0 [0, 0, 0, 0, 0, 0, 0, 0] 97 0 (by decide +kernel) (by decide) (by decide)⟩

/-- `(/ -7 2)` is -3, `(% -7 2)` is -1. -/
example : run 9 [L [S "/", N (-7), N 2]] = .ok (N (-3)) ∧ run 9 [L [S "%", N (-7), N 2]] = .ok (N (-1)) ∧
    run 9 [L [S "+", N (2 ^ 63 - 1), N 1]] = .ub .overflow ∧
    IsDiv (-7) 2 (-3) (-1) := by
  refine ⟨?_, ?_, ?_, ?_⟩
  · decide
  · decide
  · decide
  · exact isDiv_tdiv (by decide)

example : ∃ q r, IsDiv (-7) 2 q r ∧ sem nil (cons (ofSym Native.div.name) (ofList [num (-7), num 2])) initSt =
      .ok (num q, initSt) ∧
    sem nil (cons (ofSym Native.mod.name) (ofList [num (-7), num 2])) initSt = .ok (num r, initSt) :=
  C29_div_mod nil initSt initSt initSt Native.div.name Native.mod.name rfl rfl _ _ _ _
    (by rw [sem_atom _ _ rfl rfl]; rfl) (by rw [sem_atom _ _ rfl rfl]; rfl) (by decide) (by decide)
    (by decide) (by decide)

/-! ## C30 -/

/-- **C30.** On numbers the four comparisons and `=`, `<>` decide the order of the integers. -/
theorem C30_compare (c : Val) (st st1 st2 : St) (s : Sym) (op : Native) (R : Int → Int → Prop)
    (hop : op = .lt ∧ R = (· < ·) ∨ op = .le ∧ R = (· ≤ ·) ∨ op = .gt ∧ R = (· > ·) ∨
      op = .ge ∧ R = (· ≥ ·) ∨ op = .equ ∧ R = (· = ·) ∨ op = .neq ∧ R = (· ≠ ·))
    (h : Resolves c st s op.val) (x y : Val) (a b : Int)
    (hx : sem c x st = .ok (num a, st1)) (hy : sem c y st1 = .ok (num b, st2)) :
    (R a b → sem c (cons (ofSym s) (ofList [x, y])) st = .ok (tru, st2)) ∧
    (¬ R a b → sem c (cons (ofSym s) (ofList [x, y])) st = .ok (nil, st2)) := by
  have key : ∀ (q : Bool), binary op (num a) (num b) = .ok (ofBool q) → (q = true ↔ R a b) →
      op.shape = .two →
      (R a b → sem c (cons (ofSym s) (ofList [x, y])) st = .ok (tru, st2)) ∧
      (¬ R a b → sem c (cons (ofSym s) (ofList [x, y])) st = .ok (nil, st2)) := by
    intro q hq hR hs
    have e : sem c (cons (ofSym s) (ofList [x, y])) st = .ok (ofBool q, st2) := by
      simp only [ofList]
      rw [sem_two _ _ _ _ h hs, M.bind_congr_ok hx, M.bind_congr_ok hy, hq]; rfl
    rw [e]
    constructor
    · intro hr; rw [hR.2 hr]; rfl
    · intro hr
      have : q = false := by cases q with
        | true => exact absurd (hR.1 rfl) hr
        | false => rfl
      rw [this]; rfl
  rcases hop with ⟨rfl, rfl⟩ | ⟨rfl, rfl⟩ | ⟨rfl, rfl⟩ | ⟨rfl, rfl⟩ | ⟨rfl, rfl⟩ | ⟨rfl, rfl⟩
  · exact key (decide (a < b)) rfl (by simp) rfl
  · exact key (decide (a ≤ b)) rfl (by simp) rfl
  · exact key (decide (a > b)) rfl (by simp) rfl
  · exact key (decide (a ≥ b)) rfl (by simp) rfl
  · exact key (a == b) rfl (by simp) rfl
  · exact key (a != b) (by simp [binary, neq, type]) (by simp) rfl

/-- **C30.** Exactly one of `(< a b)`, `(= a b)`, `(> a b)` is T. -/
theorem C30_trichotomy (c : Val) (st : St) (sl se sg : Sym) (hl : Resolves c st sl Native.lt.val)
    (he : Resolves c st se Native.equ.val) (hg : Resolves c st sg Native.gt.val) (a b : Int) :
    let r := fun s => sem c (cons (ofSym s) (ofList [num a, num b])) st
    (r sl = .ok (tru, st) ∧ r se = .ok (nil, st) ∧ r sg = .ok (nil, st)) ∨
    (r sl = .ok (nil, st) ∧ r se = .ok (tru, st) ∧ r sg = .ok (nil, st)) ∨
    (r sl = .ok (nil, st) ∧ r se = .ok (nil, st) ∧ r sg = .ok (tru, st)) := by
  have hx : ∀ n, sem c (num n) st = .ok (num n, st) := by
    intro n; rw [sem_atom _ _ rfl rfl]; rfl
  have h1 := C30_compare c st st st sl .lt _ (.inl ⟨rfl, rfl⟩) hl _ _ a b (hx a) (hx b)
  have h2 := C30_compare c st st st se .equ _ (.inr (.inr (.inr (.inr (.inl ⟨rfl, rfl⟩))))) he _ _ a b
    (hx a) (hx b)
  have h3 := C30_compare c st st st sg .gt _ (.inr (.inr (.inl ⟨rfl, rfl⟩))) hg _ _ a b (hx a) (hx b)
  rcases Int.lt_trichotomy a b with h | h | h
  · exact .inl ⟨h1.1 h, h2.2 (by omega), h3.2 (by omega)⟩
  · exact .inr (.inl ⟨h1.2 (by omega), h2.1 h, h3.2 (by omega)⟩)
  · exact .inr (.inr ⟨h1.2 (by omega), h2.2 (by omega), h3.1 h⟩)

example : run 9 [L [S "<", N (-1), N 2]] = .ok tru ∧ run 9 [L [S ">=", N (-1), N 2]] = .ok nil := by
  refine ⟨?_, ?_⟩ <;> decide

end Mnml
