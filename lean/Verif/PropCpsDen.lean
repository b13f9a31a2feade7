import Verif.PropCps

/-!
# C83: what the conversion to continuation-passing style means

A meaning for expressions, a meaning for the forms that `>&` makes, and the proof that they agree.

The full statement, that `>&` preserves the meaning of every function, is false: see the counterexamples at the end of the file. The
theorems with the suffix `_partial` need that the program has no strings and no NIL (`Ex.Ok`), that it does not use the names of the
placeholders (`Ex.Src`), that conditionals with calls as branches are not to the right of another call among the arguments of a call
(`Ex.Aligned`), and that conditionals without else branch are in tail position (`Ex.TotalArgs`). Special forms other than the
conditionals (`let`, `\`, `quote`, …) are treated like calls by `cps:lift`, and so by the meaning of expressions.
-/

namespace Mnml
namespace Lib

open Val

/-! ## Placeholders are different from one another -/

theorem ph_name (i : Nat) : (ph i).name = (95 :: (toString i).toList.map fun c => UInt8.ofNat c.toNat).take 16 := by
  unfold ph Sym.ofChars
  have t : ∀ ds : List UInt8, 0 ∉ ds → ds.takeWhile (· ≠ 0) = ds := fun ds h => by
    have := List.takeWhile_append_of_pos (p := (· ≠ (0 : UInt8))) (l₁ := ds) (l₂ := [])
      (fun x hx => decide_eq_true (fun h' => h (h' ▸ hx)))
    simpa using this
  rw [Sym.name_ofBytes, t]
  · rfl
  · intro hb
    rw [List.map_cons, List.mem_cons] at hb
    rcases hb with hb | hb
    · exact absurd hb (by decide)
    · obtain ⟨c, hc, h⟩ := List.mem_map.1 hb
      have := toString_ascii i c hc
      have h2 := congrArg UInt8.toNat h
      rw [UInt8.toNat_ofNat'] at h2
      simp at h2
      omega

theorem digits_length {i : Nat} (h : i < 10 ^ 15) : (toString i).toList.length ≤ 15 := by
  rw [Nat.toString_eq_repr, Nat.toList_repr]
  have := (Nat.length_toDigits_le_iff (b := 10) (n := i) (k := 15) (by decide) (by decide)).2 h
  exact this

theorem ph_inj {i j : Nat} (hi : i < 10 ^ 15) (hj : j < 10 ^ 15) (h : ph i = ph j) : i = j := by
  have h1 := congrArg Sym.name h
  rw [ph_name, ph_name, List.take_of_length_le (by have := digits_length hi; simp only [List.length_cons, List.length_map]; omega),
    List.take_of_length_le (by have := digits_length hj; simp only [List.length_cons, List.length_map]; omega)] at h1
  have h2 := (List.cons.inj h1).2
  have key : ∀ a b : List Char, (∀ c ∈ a, 48 ≤ c.toNat ∧ c.toNat < 58) → (∀ c ∈ b, 48 ≤ c.toNat ∧ c.toNat < 58) →
      a.map (fun c => UInt8.ofNat c.toNat) = b.map (fun c => UInt8.ofNat c.toNat) → a = b := by
    intro a
    induction a with
    | nil => intro b _ _ h; cases b with
      | nil => rfl
      | cons => simp at h
    | cons x a ih =>
      intro b ha hb h
      cases b with
      | nil => simp at h
      | cons y b =>
        simp only [List.map_cons, List.cons.injEq] at h
        have e := congrArg UInt8.toNat h.1
        rw [UInt8.toNat_ofNat', UInt8.toNat_ofNat'] at e
        have hx := ha x (by simp)
        have hy := hb y (by simp)
        have : x = y := Char.ext (UInt32.toNat_inj.1 (by
          show x.toNat = y.toNat
          omega))
        rw [this, ih b (fun c hc => ha c (by simp [hc])) (fun c hc => hb c (by simp [hc])) h.2]
  have h3 := key _ _ (toString_ascii i) (toString_ascii j) h2
  rw [Nat.toString_eq_repr, Nat.toString_eq_repr, Nat.toList_repr, Nat.toList_repr] at h3
  rw [← Nat.ofDigitChars_ten_toDigits (n := i), h3, Nat.ofDigitChars_ten_toDigits]

/-- No placeholder is named like a conditional. -/
theorem ph_ne (i : Nat) (s : Sym) (h : s.name.head? ≠ some 95) : s ≠ ph i := by
  intro e
  rw [e, ph_name] at h
  exact h rfl

/-! ## Meanings -/

/-- What the names of a program stand for: the functions, which values count as true, NIL, and what a form means that is not of
the right shape. -/
structure Interp (m : Type → Type) (D : Type) where
  call : D → List D → m D
  truth : D → Bool
  nilD : D
  stuck : m D

/-- The values of the atoms. -/
abbrev Env (D : Type) := Val → D

/-- The values of the atoms once a symbol is bound. -/
def upd {D : Type} (r : Env D) (p : Sym) (d : D) : Env D := fun v => if v = ofSym p then d else r v

section
variable {m : Type → Type} [Monad m] {D : Type} (I : Interp m D)

/-- Does the conditional take its branch? -/
def Cnd.takes (op : Cnd) (d : D) : Bool :=
  match op with
  | .if_ | .when_ => I.truth d
  | .unless_ => !I.truth d

mutual
/-- The meaning of an expression: its arguments are evaluated from the left to the right, then the function is called. -/
def Ex.den (r : Env D) : Ex → m D
  | .atom v => pure (r v)
  | .call f as => as.dens r fun ds => I.call (r f) ds
  | .ite c t e => do if I.truth (← c.den r) then t.den r else e.den r
  | .ith op c t => do if op.takes I (← c.den r) then t.den r else pure I.nilD
/-- The values of the arguments, passed on. -/
def Exs.dens (r : Env D) (g : List D → m D) : Exs → m D
  | .nil => g []
  | .cons a as => do
    let d ← a.den r
    as.dens r fun ds => g (d :: ds)
end

mutual
/-- The meaning of a form in continuation-passing style, where K is the name of the external continuation: the value that K gets.
The forms: `(K A)`, `((\\ (P) B) A)`, `(if A T E)`, `(if A T)`, `(when A T)`, `(unless A T)`, and `(F A… K')` where K' is a continuation.
A conditional without branch passes NIL to K. -/
def den (k : Sym) (v : Val) (r : Env D) : m D :=
  match v with
  | pair _ (sym b s) q =>
    if s = k then denRet q r
    else if s = n "if" then denIf k q r
    else if s = n "when" then denCnd k .when_ q r
    else if s = n "unless" then denCnd k .unless_ q r
    else denArgs k (r (sym b s)) q [] r
  | pair _ (pair t h b) q => denFn k (pair t h b) r (denArg q r)
  | pair _ f q => denArgs k (r f) q [] r
  | _ => I.stuck
/-- `(K A)`. -/
def denRet (v : Val) (r : Env D) : m D :=
  match v with
  | pair _ a nil => pure (r a)
  | _ => I.stuck
/-- The argument of a continuation. -/
def denArg (v : Val) (r : Env D) : D :=
  match v with
  | pair _ a nil => r a
  | _ => I.nilD
/-- `(if A T E)` and `(if A T)`. -/
def denIf (k : Sym) (v : Val) (r : Env D) : m D :=
  match v with
  | pair _ a (pair _ t nil) => if I.truth (r a) then den k t r else pure I.nilD
  | pair _ a (pair _ t (pair _ e nil)) => if I.truth (r a) then den k t r else den k e r
  | _ => I.stuck
/-- `(when A T)` and `(unless A T)`. -/
def denCnd (k : Sym) (op : Cnd) (v : Val) (r : Env D) : m D :=
  match v with
  | pair _ a (pair _ t nil) => if op.takes I (r a) then den k t r else pure I.nilD
  | _ => I.stuck
/-- `(F A… K')`: the arguments, then the continuation. -/
def denArgs (k : Sym) (f : D) (v : Val) (ds : List D) (r : Env D) : m D :=
  match v with
  | pair _ c nil => I.call f ds >>= denFn k c r
  | pair _ a q => denArgs k f q (ds ++ [r a]) r
  | _ => I.stuck
/-- A continuation: K, or `(\\ (P) B)`. -/
def denFn (k : Sym) (v : Val) (r : Env D) (d : D) : m D :=
  match v with
  | sym _ s => if s = k then pure d else I.stuck
  | pair _ (sym _ s) (pair _ (pair _ (sym _ p) nil) (pair _ b nil)) => if s = n "\\" then den k b (upd r p d) else I.stuck
  | _ => I.stuck
end
end

/-! ## Conditions -/

/-- Not a placeholder. -/
def Plain (v : Val) : Prop := ∀ b i, v ≠ sym b (ph i)

/-- Not the name of a conditional. -/
def NotCnd (v : Val) : Prop := ∀ b s, v = sym b s → s ≠ n "if" ∧ s ≠ n "when" ∧ s ≠ n "unless"

mutual
/-- The program has no placeholders, and does not call functions that are named like conditionals. -/
def Ex.Src : Ex → Prop
  | .atom v => Plain v
  | .call f as => Plain f ∧ NotCnd f ∧ as.Src
  | .ite c t e => c.Src ∧ t.Src ∧ e.Src
  | .ith _ c t => c.Src ∧ t.Src
def Exs.Src : Exs → Prop
  | .nil => True
  | .cons a as => a.Src ∧ as.Src
end

mutual
/-- The branches of the conditionals are atoms. -/
def Ex.Flat : Ex → Prop
  | .atom _ => True
  | .call _ as => as.Flat
  | .ite c t e => c.Flat ∧ t.compound = false ∧ e.compound = false
  | .ith _ c t => c.Flat ∧ t.compound = false
def Exs.Flat : Exs → Prop
  | .nil => True
  | .cons a as => a.Flat ∧ as.Flat
end

mutual
/-- In each call, the arguments to the right of an argument that is not an atom are flat. -/
def Ex.Aligned : Ex → Prop
  | .atom _ => True
  | .call _ as => as.Aligned
  | .ite c t e => c.Aligned ∧ t.Aligned ∧ e.Aligned
  | .ith _ c t => c.Aligned ∧ t.Aligned
def Exs.Aligned : Exs → Prop
  | .nil => True
  | .cons a as => a.Aligned ∧ as.Aligned ∧ (a.compound = true → as.Flat)
end

mutual
/-- All conditionals have an else branch. -/
def Ex.Total : Ex → Prop
  | .atom _ => True
  | .call _ as => as.Total
  | .ite c t e => c.Total ∧ t.Total ∧ e.Total
  | .ith _ _ _ => False
def Exs.Total : Exs → Prop
  | .nil => True
  | .cons a as => a.Total ∧ as.Total
end

/-- Only the conditionals in tail position lack an else branch. -/
def Ex.TotalArgs : Ex → Prop
  | .atom _ => True
  | .call _ as => as.Total
  | .ite c t e => c.Total ∧ t.TotalArgs ∧ e.TotalArgs
  | .ith _ c t => c.Total ∧ t.TotalArgs

/-! ## The numbers in use -/

mutual
/-- How many placeholders `cps:lift` makes. -/
def Ex.used : Ex → Nat
  | .atom _ => 0
  | .call _ as => as.used
  | .ite x t e => e.used + t.used + if x.compound then 1 + x.used else 0
  | .ith _ x t => t.used + if x.compound then 1 + x.used else 0
def Exs.used : Exs → Nat
  | .nil => 0
  | .cons a as => as.used + if a.compound then 1 + a.used else 0
end

mutual
theorem Ex.lift_fst (e : Ex) (k : List Val) (c : Nat) : (e.lift k c).1 = c + e.used := by
  match e with
  | .atom v => rfl
  | .call f as => simp only [Ex.lift, Ex.used]; rw [Exs.lifts_fst]
  | .ite x t e =>
    simp only [Ex.lift, Ex.used]
    split
    · rw [Ex.lift_fst x, Ex.lift_fst t, Ex.lift_fst e]; omega
    · simp only; rw [Ex.lift_fst t, Ex.lift_fst e]; omega
  | .ith op x t =>
    simp only [Ex.lift, Ex.used]
    split
    · rw [Ex.lift_fst x, Ex.lift_fst t]; omega
    · simp only; rw [Ex.lift_fst t]; omega
theorem Exs.lifts_fst (as : Exs) (b : Val) (c : Nat) : (as.lifts b c).1 = c + as.used := by
  match as with
  | .nil => rfl
  | .cons a as =>
    simp only [Exs.lifts, Exs.used]
    split
    · rw [Ex.lift_fst a, Exs.lifts_fst as]; omega
    · rw [Exs.lifts_fst as]; omega
end

theorem used_atom {e : Ex} (h : e.compound = false) : e.used = 0 := by
  cases e with
  | atom v => rfl
  | _ => cases h

mutual
theorem Ex.flat_used (e : Ex) (ho : e.Ok) (h : e.Flat) : e.used = lists e.val := by
  match e with
  | .atom v => exact (lists_atom ho).symm
  | .call f as =>
    have : lists (cons f as.val) = lists as.val := by simp [lists, ho.1]
    simp only [Ex.used, Ex.val]
    rw [this, Exs.flat_used as ho.2.2 h]
  | .ite x t e =>
    rw [lists_ite ho]
    simp only [Ex.used, own]
    rw [Ex.flat_used x ho.1 h.1, used_atom h.2.1, used_atom h.2.2, h.2.1, h.2.2]
    simp
  | .ith op x t =>
    rw [lists_ith ho]
    simp only [Ex.used, own]
    rw [Ex.flat_used x ho.1 h.1, used_atom h.2, h.2]
    simp
theorem Exs.flat_used (as : Exs) (ho : as.Ok) (h : as.Flat) : as.used = lists as.val := by
  match as with
  | .nil => rfl
  | .cons a as =>
    have hl : lists (Exs.cons a as).val = own a + lists as.val := lists_arg ho.1 _
    rw [hl]
    simp only [Exs.used, own]
    rw [Exs.flat_used as ho.2 h.2, Ex.flat_used a ho.1 h.1]
    omega
end

/-! ## The proof -/

section
variable {m : Type → Type} [Monad m] {D : Type} (I : Interp m D)

theorem upd_plain {r : Env D} {v : Val} (h : Plain v) (i : Nat) (d : D) : upd r (ph i) d v = r v := if_neg (h false i)

theorem upd_other {r : Env D} {i j : Nat} (hi : i < 10 ^ 15) (hj : j < 10 ^ 15) (h : i ≠ j) (d : D) :
    upd r (ph i) d (ofSym (ph j)) = r (ofSym (ph j)) :=
  if_neg (fun e => h (ph_inj hj hi (by injection e)).symm)

theorem upd_self {r : Env D} {p : Sym} (d : D) : upd r p d (ofSym p) = d := if_pos rfl

theorem upd_id (r : Env D) (p : Sym) : upd r p (r (ofSym p)) = r := by
  funext v
  unfold upd
  split
  · rename_i h; rw [h]
  · rfl

mutual
theorem Ex.den_upd (e : Ex) (h : e.Src) (r : Env D) (i : Nat) (d : D) : e.den I (upd r (ph i) d) = e.den I r := by
  match e with
  | .atom v => simp only [Ex.den]; rw [upd_plain h]
  | .call f as => simp only [Ex.den]; rw [upd_plain h.1, Exs.dens_upd as h.2.2]
  | .ite c t e => simp only [Ex.den]; rw [Ex.den_upd c h.1, Ex.den_upd t h.2.1, Ex.den_upd e h.2.2]
  | .ith op c t => simp only [Ex.den]; rw [Ex.den_upd c h.1, Ex.den_upd t h.2]
theorem Exs.dens_upd (as : Exs) (h : as.Src) (r : Env D) (i : Nat) (d : D) (g : List D → m D) : as.dens I (upd r (ph i) d) g = as.dens I r g := by
  match as with
  | .nil => rfl
  | .cons a as =>
    simp only [Exs.dens]
    rw [Ex.den_upd a h.1]
    congr 1
    funext x
    rw [Exs.dens_upd as h.2]
end

/-- The values of the arguments, and the environment with the placeholders bound to them. -/
def Agree (c : Nat) : Exs → List D → Env D → Env D → Prop
  | .nil, ds, r, r' => ds = [] ∧ r' = r
  | .cons _ _, [], _, _ => False
  | .cons a as, d :: ds, r, r' =>
    if a.compound then Agree c as ds (upd r (ph (c + as.used)) d) r' else d = r a.val ∧ Agree c as ds r r'

theorem Agree.out {c : Nat} : (as : Exs) → {ds : List D} → {r r' : Env D} → Agree c as ds r r' → (v : Val) →
    (∀ i, c ≤ i → i < c + as.used → v ≠ ofSym (ph i)) → r' v = r v
  | .nil, _, _, _, h, v, _ => by rw [h.2]
  | .cons a as, [], _, _, h, _, _ => h.elim
  | .cons a as, d :: ds, r, r', h, v, hv => by
    simp only [Agree] at h
    split at h
    · rename_i hc
      have hu : (Exs.cons a as).used = as.used + (1 + a.used) := by simp only [Exs.used, hc, if_true]
      rw [Agree.out as h v (fun i h1 h2 => hv i h1 (by omega))]
      exact if_neg (hv _ (by omega) (by omega))
    · rename_i hc
      have hu : (Exs.cons a as).used = as.used := by simp [Exs.used, hc]
      exact Agree.out as h.2 v (fun i h1 h2 => hv i h1 (by omega))

theorem Agree.indep {α : Type} {c : Nat} {F : Env D → α} : (as : Exs) → {ds : List D} → {r r' : Env D} → Agree c as ds r r' →
    (∀ i, c ≤ i → i < c + as.used → ∀ r d, F (upd r (ph i) d) = F r) → F r' = F r
  | .nil, _, _, _, h, _ => by rw [h.2]
  | .cons a as, [], _, _, h, _ => h.elim
  | .cons a as, d :: ds, r, r', h, hF => by
    simp only [Agree] at h
    split at h
    · rename_i hc
      have hu : (Exs.cons a as).used = as.used + (1 + a.used) := by simp only [Exs.used, hc, if_true]
      rw [Agree.indep as h (fun i h1 h2 => hF i h1 (by omega))]
      exact hF _ (by omega) (by omega) r d
    · rename_i hc
      have hu : (Exs.cons a as).used = as.used := by simp [Exs.used, hc]
      exact Agree.indep as h.2 (fun i h1 h2 => hF i h1 (by omega))

theorem swapped_pair (k : Val) (c : Nat) (xs : List Val) : ∃ a d, (swapped (ofList [k]) c xs).2 = cons a d := by
  cases xs with
  | nil => exact ⟨_, _, rfl⟩
  | cons x xs =>
    simp only [swapped]
    split <;> exact ⟨_, _, rfl⟩

theorem denArgs_cons (k : Sym) (f : D) (a : Val) {q : Val} (hq : ∃ x d, q = cons x d) (ds : List D) (r : Env D) :
    denArgs I k f (cons a q) ds r = denArgs I k f q (ds ++ [r a]) r := by
  obtain ⟨x, d, rfl⟩ := hq
  simp only [denArgs]

theorem args_den (k : Sym) (f : D) (K : Val) {c : Nat} : (as : Exs) → {ds : List D} → {r r' : Env D} → as.Ok → as.Src → as.Aligned →
    c + as.used ≤ 10 ^ 15 → Agree c as ds r r' → (acc : List D) →
    denArgs I k f (swapped (ofList [K]) c (elems as.val)).2 acc r' = I.call f (acc ++ ds) >>= denFn I k K r'
  | .nil, ds, r, r', _, _, _, _, h, acc => by
    rw [h.1, List.append_nil]
    show denArgs I k f (cons K nil) acc r' = _
    simp only [denArgs]
  | .cons a as, [], _, _, _, _, _, _, h, _ => h.elim
  | .cons a as, d :: ds, r, r', ho, hs, ha, hN, h, acc => by
    show denArgs I k f (swapped (ofList [K]) c (a.val :: elems as.val)).2 acc r' = _
    simp only [swapped]
    rw [Ex.isList_val ho.1]
    simp only [Agree] at h
    cases hc : a.compound with
    | true =>
      rw [hc] at h
      simp only [if_true] at h ⊢
      have hu : (Exs.cons a as).used = as.used + (1 + a.used) := by simp only [Exs.used, hc, if_true]
      have hfl := Exs.flat_used as ho.2 (ha.2.2 hc)
      rw [denArgs_cons _ _ _ _ (swapped_pair _ _ _), swapped_next, ← hfl]
      have hd : r' (ofSym (ph (c + as.used))) = d := by
        rw [Agree.out as h _ (fun i h1 h2 e => ?_)]
        · exact upd_self d
        · have := ph_inj (by omega) (by omega) (show ph (c + as.used) = ph i by injection e)
          omega
      rw [hd, args_den k f K as ho.2 hs.2 ha.2.1 (by omega) h]
      simp
    | false =>
      rw [hc] at h
      simp only [Bool.false_eq_true, if_false] at h ⊢
      have hu : (Exs.cons a as).used = as.used := by simp [Exs.used, hc]
      rw [denArgs_cons _ _ _ _ (swapped_pair _ _ _)]
      have hv : Plain a.val := by
        cases a with
        | atom v => exact hs.1
        | _ => cases hc
      have hd : r' a.val = d := by
        rw [Agree.out as h.2 _ (fun i _ _ => hv false i), h.1]
      rw [hd, args_den k f K as ho.2 hs.2 ha.2.1 (by omega) h.2]
      simp

theorem cnd_ne_ph (i : Nat) : n "if" ≠ ph i ∧ n "when" ≠ ph i ∧ n "unless" ≠ ph i :=
  ⟨ph_ne i _ (by decide), ph_ne i _ (by decide), ph_ne i _ (by decide)⟩

/-- The meaning of a call. -/
theorem den_call {f : Val} (hl : f.isList = false) (hp : Plain f) (hc : NotCnd f) (j : Nat) (q : Val) (r : Env D) :
    den I (ph j) (cons f q) r = denArgs I (ph j) (r f) q [] r := by
  cases f with
  | sym b s =>
    have h1 : s ≠ ph j := fun e => hp b j (by rw [e])
    obtain ⟨h2, h3, h4⟩ := hc b s rfl
    simp only [den, if_neg h1, if_neg h2, if_neg h3, if_neg h4]
  | pair => cases hl
  | nil => cases hl
  | _ => simp only [den]

theorem den_if (j : Nat) (a t e : Val) (r : Env D) :
    den I (ph j) (L [S "if", a, t, e]) r = if I.truth (r a) then den I (ph j) t r else den I (ph j) e r := by
  show den I (ph j) (pair false (sym false (n "if")) (pair false a (pair false t (pair false e nil)))) r = _
  rw [den, if_neg (cnd_ne_ph j).1, if_pos rfl, denIf]

theorem den_cnd (j : Nat) (op : Cnd) (a t : Val) (r : Env D) :
    den I (ph j) (L [ofSym op.name, a, t]) r = if op.takes I (r a) then den I (ph j) t r else pure I.nilD := by
  cases op with
  | if_ =>
    show den I (ph j) (pair false (sym false (n "if")) (pair false a (pair false t nil))) r = _
    rw [den, if_neg (cnd_ne_ph j).1, if_pos rfl, denIf]; rfl
  | when_ =>
    show den I (ph j) (pair false (sym false (n "when")) (pair false a (pair false t nil))) r = _
    rw [den, if_neg (cnd_ne_ph j).2.1, if_neg (by decide), if_pos rfl, denCnd]
  | unless_ =>
    show den I (ph j) (pair false (sym false (n "unless")) (pair false a (pair false t nil))) r = _
    rw [den, if_neg (cnd_ne_ph j).2.2, if_neg (by decide), if_neg (by decide), if_pos rfl, denCnd]

theorem denFn_lam (k p : Sym) (b : Val) (r : Env D) (d : D) : denFn I k (lamV p b) r d = den I k b (upd r p d) := by
  show denFn I k (pair false (sym false (n "\\")) (pair false (pair false (sym false p) nil) (pair false b nil))) r d = _
  rw [denFn, if_pos rfl]

theorem denFn_ext (k : Sym) (b : Bool) (r : Env D) : denFn I k (sym b k) r = pure := by
  funext d
  rw [denFn, if_pos rfl]

theorem den_ret {K : Val} {j : Nat} (hK : K = ofSym (ph j) ∨ ∃ p b, K = lamV p b) (v : Val) (r : Env D) :
    den I (ph j) (L [K, v]) r = denFn I (ph j) K r (r v) := by
  rcases hK with rfl | ⟨p, b, rfl⟩
  · show den I (ph j) (pair false (sym false (ph j)) (pair false v nil)) r = denFn I (ph j) (sym false (ph j)) r (r v)
    rw [denFn_ext, den, if_pos rfl, denRet]
  · show den I (ph j) (pair false (pair false (sym false (n "\\")) _) (pair false v nil)) r = _
    rw [den, denArg]
    rfl

variable [LawfulMonad m]

theorem Exs.dens_bind : (as : Exs) → (r : Env D) → (g : List D → m D) → (h : D → m D) →
    as.dens I r g >>= h = as.dens I r fun ds => g ds >>= h
  | .nil, _, _, _ => rfl
  | .cons a as, r, g, h => by
    simp only [Exs.dens, bind_assoc]
    congr 1
    funext d
    exact Exs.dens_bind as r _ h

mutual
theorem Ex.den_lift (e : Ex) (ho : e.Ok) (hs : e.Src) (ha : e.Aligned) (j : Nat) (K : Val) (hT : e.Total ∨ K = ofSym (ph j) ∧ e.TotalArgs)
    (hK : K = ofSym (ph j) ∨ ∃ p b, K = lamV p b) (c : Nat) (hN : c + e.used ≤ 10 ^ 15)
    (hI : ∀ i, c ≤ i → i < c + e.used → ∀ r d, denFn I (ph j) K (upd r (ph i) d) = denFn I (ph j) K r) (r : Env D) :
    den I (ph j) (e.lift [K] c).2 r = e.den I r >>= denFn I (ph j) K r := by
  match e with
  | .atom v =>
    simp only [Ex.lift, Ex.den, pure_bind]
    exact den_ret I hK v r
  | .call f as =>
    have hT' : as.Total := hT.elim id (fun h => h.2)
    simp only [Ex.used] at hN hI
    simp only [Ex.lift]
    rw [Exs.den_lifts as ho.2.2 hs.2.2 ha hT' j c hN _ (fun r ds => I.call (r f) ds >>= denFn I (ph j) K r) ?_ ?_ r]
    · simp only [Ex.den]
      rw [Exs.dens_bind]
    · intro i h1 h2 r d
      simp only [upd_plain hs.1, hI i h1 h2]
    · intro r ds r' hag
      rw [den_call I ho.1 hs.1 hs.2.1, args_den I _ _ K as ho.2.2 hs.2.2 ha hN hag,
        Agree.out as hag f (fun i _ _ => hs.1 false i), Agree.indep (F := denFn I (ph j) K) as hag hI]
      rfl
  | .ite x t e =>
    simp only [Ex.used] at hN hI
    have hTe : e.Total ∨ K = ofSym (ph j) ∧ e.TotalArgs := hT.imp (fun h => h.2.2) (fun h => ⟨h.1, h.2.2.2⟩)
    have hTt : t.Total ∨ K = ofSym (ph j) ∧ t.TotalArgs := hT.imp (fun h => h.2.1) (fun h => ⟨h.1, h.2.2.1⟩)
    have hTx : x.Total := hT.elim (fun h => h.1) (fun h => h.2.1)
    have hE := fun r => Ex.den_lift e ho.2.2 hs.2.2 ha.2.2 j K hTe hK c (by omega) (fun i h1 h2 => hI i h1 (by omega)) r
    have h1 := Ex.lift_fst e [K] c
    have hD := fun r => Ex.den_lift t ho.2.1 hs.2.1 ha.2.1 j K hTt hK (c + e.used) (by omega) (fun i h1 h2 => hI i (by omega) (by omega)) r
    have h2 := Ex.lift_fst t [K] (c + e.used)
    simp only [Ex.lift, Ex.den, h1, h2]
    cases hx : x.compound with
    | false =>
      simp only [Bool.false_eq_true, if_false]
      rw [den_if, hE, hD]
      cases x with
      | atom v =>
        simp only [Ex.den, Ex.val, pure_bind]
        by_cases h : I.truth (r v) = true <;> simp [h]
      | _ => cases hx
    | true =>
      rw [hx] at hN hI
      simp only [if_true] at hN hI ⊢
      have hB : ∀ r d, denFn I (ph j) (lamV (ph (c + e.used + t.used)) (L [S "if", ofSym (ph (c + e.used + t.used)), (t.lift [K] (c + e.used)).2,
          (e.lift [K] c).2])) r d = (if I.truth d then t.den I r else e.den I r) >>= denFn I (ph j) K r := by
        intro r d
        rw [denFn_lam, den_if, hE, hD, upd_self, Ex.den_upd I t hs.2.1, Ex.den_upd I e hs.2.2, hI _ (by omega) (by omega)]
        by_cases h : I.truth d = true <;> simp [h]
      rw [Ex.den_lift x ho.1 hs.1 ha.1 j _ (.inl hTx) (.inr ⟨_, _, rfl⟩) (c + e.used + t.used + 1) (by omega) ?_ r]
      · rw [bind_assoc]
        congr 1
        funext d
        exact hB r d
      · intro i h3 h4 r d
        funext y
        rw [hB, hB, Ex.den_upd I t hs.2.1, Ex.den_upd I e hs.2.2, hI _ (by omega) (by omega)]
  | .ith op x t =>
    simp only [Ex.used] at hN hI
    obtain ⟨hKj, hTx, hTt⟩ : K = ofSym (ph j) ∧ x.Total ∧ t.TotalArgs := hT.elim False.elim id
    have hKd : ∀ r, denFn I (ph j) K r = pure := fun r => by rw [hKj]; exact denFn_ext I _ _ r
    have hD := fun r => Ex.den_lift t ho.2 hs.2 ha.2 j K (.inr ⟨hKj, hTt⟩) hK c (by omega) (fun i h1 h2 => hI i (by omega) (by omega)) r
    have h2 := Ex.lift_fst t [K] c
    simp only [Ex.lift, Ex.den, h2]
    simp only [hKd, bind_pure] at hD ⊢
    cases hx : x.compound with
    | false =>
      simp only [Bool.false_eq_true, if_false]
      rw [den_cnd, hD]
      cases x with
      | atom v =>
        simp only [Ex.den, Ex.val, pure_bind]
        by_cases h : op.takes I (r v) = true <;> simp [h]
      | _ => cases hx
    | true =>
      rw [hx] at hN hI
      simp only [if_true] at hN hI ⊢
      have hB : ∀ r d, denFn I (ph j) (lamV (ph (c + t.used)) (L [ofSym op.name, ofSym (ph (c + t.used)), (t.lift [K] c).2])) r d =
          if op.takes I d then t.den I r else pure I.nilD := by
        intro r d
        rw [denFn_lam, den_cnd, hD, upd_self, Ex.den_upd I t hs.2]
      rw [Ex.den_lift x ho.1 hs.1 ha.1 j _ (.inl hTx) (.inr ⟨_, _, rfl⟩) (c + t.used + 1) (by omega) ?_ r]
      · congr 1
        funext d
        exact hB r d
      · intro i h3 h4 r d
        funext y
        rw [hB, hB, Ex.den_upd I t hs.2]
theorem Exs.den_lifts (as : Exs) (ho : as.Ok) (hs : as.Src) (ha : as.Aligned) (hT : as.Total) (j c : Nat) (hN : c + as.used ≤ 10 ^ 15) (b : Val)
    (g : Env D → List D → m D) (hg : ∀ i, c ≤ i → i < c + as.used → ∀ r d, g (upd r (ph i) d) = g r)
    (hb : ∀ r ds r', Agree c as ds r r' → den I (ph j) b r' = g r ds) (r : Env D) :
    den I (ph j) (as.lifts b c).2 r = as.dens I r (g r) := by
  match as with
  | .nil => exact hb r [] r ⟨rfl, rfl⟩
  | .cons a as =>
    have h1 := Exs.lifts_fst as b c
    simp only [Exs.lifts, Exs.dens, h1]
    cases hc : a.compound with
    | false =>
      have hu : (Exs.cons a as).used = as.used := by simp [Exs.used, hc]
      rw [hu] at hN hg
      simp only [Bool.false_eq_true, if_false]
      cases a with
      | atom v =>
        simp only [Ex.den, pure_bind]
        refine Exs.den_lifts as ho.2 hs.2 ha.2.1 hT.2 j c hN b (fun r ds => g r (r v :: ds)) ?_ ?_ r
        · intro i h1 h2 r d
          funext ds
          simp only [hg i h1 h2, upd_plain (show Plain v from hs.1)]
        · intro r ds r' hag
          exact hb r (r v :: ds) r' ⟨rfl, hag⟩
      | _ => cases hc
    | true =>
      have hu : (Exs.cons a as).used = as.used + (1 + a.used) := by simp only [Exs.used, hc, if_true]
      rw [hu] at hN hg
      simp only [if_true]
      have hB : ∀ r, den I (ph j) (as.lifts b c).2 r = as.dens I r fun ds => g r (r (ofSym (ph (c + as.used))) :: ds) := by
        refine fun r => Exs.den_lifts as ho.2 hs.2 ha.2.1 hT.2 j c (by omega) b (fun r ds => g r (r (ofSym (ph (c + as.used))) :: ds)) ?_ ?_ r
        · intro i h1 h2 r d
          funext ds
          simp only [hg i h1 (by omega)]
          rw [upd_other (by omega) (by omega) (by omega)]
        · intro r ds r' hag
          refine hb r (r (ofSym (ph (c + as.used))) :: ds) r' ?_
          simp only [Agree, hc, if_true]
          rw [upd_id]
          exact hag
      have hF : ∀ r d, denFn I (ph j) (lamV (ph (c + as.used)) (as.lifts b c).2) r d = as.dens I r fun ds => g r (d :: ds) := by
        intro r d
        rw [denFn_lam, hB, Exs.dens_upd I as hs.2, hg _ (by omega) (by omega), upd_self]
      rw [Ex.den_lift a ho.1 hs.1 ha.1 j _ (.inl hT.1) (.inr ⟨_, _, rfl⟩) (c + as.used + 1) (by omega) ?_ r]
      · congr 1
        funext d
        exact hF r d
      · intro i h3 h4 r d
        funext y
        rw [hF, hF, Exs.dens_upd I as hs.2, hg _ (by omega) (by omega)]
end

/-- **C83.** The form that `cps:lift` makes of an expression, with an external continuation K, passes the value of the expression to K. -/
theorem C83_meaning_partial {e : Ex} (ho : e.Ok) (hs : e.Src) (ha : e.Aligned) (hT : e.TotalArgs) {j c : Nat} (hN : c + e.used ≤ 10 ^ 15) (r : Env D) :
    den I (ph j) (e.lift [ofSym (ph j)] c).2 r = e.den I r := by
  rw [Ex.den_lift I e ho hs ha j _ (.inr ⟨rfl, hT⟩) (.inl rfl) c hN (fun i _ _ r d => by
    rw [show ofSym (ph j) = sym false (ph j) from rfl, denFn_ext, denFn_ext]) r,
    show ofSym (ph j) = sym false (ph j) from rfl, denFn_ext, bind_pure]
end

theorem Ex.used_le (e : Ex) (ho : e.Ok) : e.used ≤ lists e.val := by
  have := e.lift_next ho [] 0
  rw [Ex.lift_fst] at this
  omega

/-- **C83.** `(>& F)` for a function with the parameters XS and the body E is a function with one more parameter, the external
continuation. For every meaning of the functions called, and for every effect that they have, its body passes to this continuation
what E means, after the same effects in the same order. -/
theorem C83_preserved_partial {l : List Entry} {st : St} (hl : Sorted l) (hu : Uses cpsUses l st) (hd : getEnv l (n "descend") = none)
    {s : Sym} (hsym : s ≠ n "fsym") {xs : List Sym} {clo : Val} {e : Ex} (ho : e.Ok) (hs : e.Src) (ha : e.Aligned) (hT : e.TotalArgs)
    (hf : Resolves (envVal l) st s (L [ofList (xs.map ofSym), clo, e.val]))
    (hc : xs.length + 1 + lists e.val ≤ 10 ^ 15) {ef : Val} (hef : sem (envVal l) ef st = .ok (ofSym s, st)) :
    ∃ w, sem (envVal l) (L [S ">&", ef]) st = .ok (L [ofList ((xs ++ [ph xs.length]).map ofSym), clo, w], st) ∧
      ∀ (m : Type → Type) [Monad m] [LawfulMonad m] (D : Type) (I : Interp m D) (r : Env D), den I (ph xs.length) w r = e.den I r := by
  refine ⟨_, C82_convert hl hu hd hsym ho hf ?_ hef, fun m _ _ D I r => C83_meaning_partial I ho hs ha hT ?_ r⟩
  · have : (10 ^ 15 : Nat) ≤ 9223372036854775807 := by decide
    show _ ≤ (9223372036854775807 : Int)
    omega
  · have := e.used_le ho
    omega

/-! ## Examples and counterexamples -/

/-- The state after the definitions of the library and of `cps.l`. -/
def cpsSt : St :=
  ([("cps:symbol", cpsSymbolV), ("cps:swap", cpsSwapV), ("cps:lift-ith", cpsLiftIthV), ("cps:lift-ite", cpsLiftIteV),
    ("cps:lift-any", cpsLiftAnyV), ("cps:lift", cpsLiftV), (">&", toCpsV)] : List (String × Val)).foldl (fun st p => define p.1 p.2 st) libSt

/-- The value of an expression after these definitions. -/
def runCps (k : Nat) (e : Val) : Res Val := evalN k nil e cpsSt >>= fun p => .ok p.1

theorem cpsSt_uses : Uses cpsUses [] cpsSt := by unfold Uses; decide +kernel

/-- `(if (= n 0) 1 (* n (fact (- n 1))))` -/
def fact : Ex :=
  .ite (.call (S "=") (.cons (.atom (S "n")) (.cons (.atom (N 0)) .nil))) (.atom (N 1))
    (.call (S "*") (.cons (.atom (S "n")) (.cons (.call (S "fact") (.cons (.call (S "-") (.cons (.atom (S "n")) (.cons (.atom (N 1)) .nil))) .nil)) .nil)))


/-- The meaning of an expression as an expression: calls are not evaluated. -/
def free : Interp Id Val := ⟨fun f ds => cons f (ofList ds), fun v => v != nil, nil, S "stuck"⟩

/-- `(+ (h z) (if c (f x) (g y)))` -/
def crossed : Ex :=
  .call (S "+") (.cons (.call (S "h") (.cons (.atom (S "z")) .nil)) (.cons (.ite (.atom (S "c")) (.call (S "f") (.cons (.atom (S "x")) .nil))
    (.call (S "g") (.cons (.atom (S "y")) .nil))) .nil))

/-- `(+ 1 (if c x))` -/
def escaping : Ex := .call (S "+") (.cons (.atom (N 1)) (.cons (.ith .if_ (.atom (S "c")) (.atom (S "x"))) .nil))

/-- The conversion of `fact`: `(= n 0 (\\ (_4) (if _4 (_1 1) (- n 1 (\\ (_3) (fact _3 (\\ (_2) (* n _2 _1))))))))`. -/
example : runCps 60 (L [S "cps:lift", Q (L [S "_1"]), N 2, Q fact.val]) =
    .ok (cons (N 5) (L [S "=", S "n", N 0, lamV (n "_4") (L [S "if", S "_4", L [S "_1", N 1], L [S "-", S "n", N 1, lamV (n "_3")
      (L [S "fact", S "_3", lamV (n "_2") (L [S "*", S "n", S "_2", S "_1"])])]])])) := by
  decide +kernel

theorem plain_of {v : Val} (h : ∀ b s, v = sym b s → s.name.head? ≠ some 95) : Plain v :=
  fun b i e => ph_ne i _ (h b _ e) rfl

theorem plain_sym {s : Sym} (h : s.name.head? ≠ some 95) : Plain (ofSym s) :=
  plain_of (fun b t e => by injection e with _ e; rw [← e]; exact h)

theorem plain_num (i : Int) : Plain (num i) := fun _ _ e => by cases e

theorem notCnd_sym {s : Sym} (h : s ≠ n "if" ∧ s ≠ n "when" ∧ s ≠ n "unless") : NotCnd (ofSym s) :=
  fun b t e => by injection e with _ e; rw [← e]; exact h

/-- The conditions of `C83_preserved_partial` hold of `fact`. -/
theorem fact_ok : fact.Ok ∧ fact.Src ∧ fact.Aligned ∧ fact.TotalArgs := by
  refine ⟨?_, ?_, ?_, ?_⟩
  · simp only [fact, Ex.Ok, Exs.Ok]
    decide
  · have p := fun s (h : (Sym.name s).head? ≠ some 95) => plain_sym h
    have q := fun s (h : s ≠ n "if" ∧ s ≠ n "when" ∧ s ≠ n "unless") => notCnd_sym h
    exact ⟨⟨p _ (by decide), q _ (by decide), p _ (by decide), plain_num _, trivial⟩, plain_num _,
      p _ (by decide), q _ (by decide), p _ (by decide), ⟨p _ (by decide), q _ (by decide), ⟨p _ (by decide), q _ (by decide), p _ (by decide),
        plain_num _, trivial⟩, trivial⟩, trivial⟩
  · exact ⟨⟨trivial, ⟨trivial, trivial, fun h => nomatch h⟩, fun h => nomatch h⟩, trivial, trivial,
      ⟨⟨⟨trivial, ⟨trivial, trivial, fun h => nomatch h⟩, fun h => nomatch h⟩, trivial, fun _ => trivial⟩, trivial, fun _ => trivial⟩, fun h => nomatch h⟩
  · simp only [fact, Ex.TotalArgs, Ex.Total, Exs.Total]
    decide

/-- `(def fact (n) (if (= n 0) 1 (* n (fact (- n 1)))))`, then `(>& 'fact)`. -/
example : ∃ w, sem nil (L [S ">&", Q (S "fact")]) (define "fact" (L [L [S "n"], nil, fact.val]) cpsSt) =
      .ok (L [L [S "n", ofSym (ph 1)], nil, w], define "fact" (L [L [S "n"], nil, fact.val]) cpsSt) ∧
    ∀ (m : Type → Type) [Monad m] [LawfulMonad m] (D : Type) (I : Interp m D) (r : Env D), den I (ph 1) w r = fact.den I r := by
  have u : Uses cpsUses [] (define "fact" (L [L [S "n"], nil, fact.val]) cpsSt) := by unfold Uses; decide +kernel
  obtain ⟨h1, h2, h3, h4⟩ := fact_ok
  exact C83_preserved_partial (l := []) (s := n "fact") (xs := [n "n"]) (clo := nil) (e := fact) List.Pairwise.nil u rfl (by decide) h1 h2 h3 h4
    (resolves_global (l := []) rfl (by decide +kernel)) (by decide +kernel) (ok_quote (u.at 10 rfl))

/-- **C83.** The conversion of `(+ (h z) (if c (f x) (g y)))` has a placeholder that nothing binds: `cps:swap` counts the branches of the
conditional, and `cps:lift` does not. It is `(h z (\\ (_3) (if c (f x (\\ (_2) (+ _5 _2 _1))) (g y (\\ (_2) (+ _5 _2 _1))))))`: the value of
`(h z)` is lost. -/
theorem C83_crossed_counterexample : runCps 60 (L [S "cps:lift", Q (L [S "_1"]), N 2, Q crossed.val]) =
      .ok (cons (N 4) (L [S "h", S "z", lamV (n "_3") (L [S "if", S "c",
        L [S "f", S "x", lamV (n "_2") (L [S "+", S "_5", S "_2", S "_1"])],
        L [S "g", S "y", lamV (n "_2") (L [S "+", S "_5", S "_2", S "_1"])]])])) ∧
    (crossed.den free id).run = L [S "+", L [S "h", S "z"], L [S "f", S "x"]] ∧
    (den free (ph 1) (crossed.lift [ofSym (ph 1)] 2).2 id).run = L [S "+", S "_5", L [S "f", S "x"]] := by
  refine ⟨?_, ?_, ?_⟩ <;> decide +kernel

/-- **C83.** A conditional without else branch that is an argument: in the conversion of `(+ 1 (if c x))`, which is
`(if c ((\\ (_2) (+ 1 _2 _1)) x))`, the addition is not made if `c` is false. -/
theorem C83_escape_counterexample : runCps 60 (L [S "cps:lift", Q (L [S "_1"]), N 2, Q escaping.val]) =
      .ok (cons (N 3) (L [S "if", S "c", L [lamV (n "_2") (L [S "+", N 1, S "_2", S "_1"]), S "x"]])) ∧
    (escaping.den free (fun v => if v = S "c" then nil else v)).run = L [S "+", N 1, nil] ∧
    (den free (ph 1) (escaping.lift [ofSym (ph 1)] 2).2 (fun v => if v = S "c" then nil else v)).run = nil := by
  refine ⟨?_, ?_, ?_⟩ <;> decide +kernel

/-- **C83.** NIL and strings are lists, and so are taken for calls: the conversion of `(f NIL)` is `((\\ (_2) (f _2 _1)))`, in which the
continuation gets no value; the conversion of `(f "ab")` is `(^a ^b (\\ (_2) (f _2 _1)))`, which calls a character. -/
theorem C83_literal_counterexample : runCps 60 (L [S "cps:lift", Q (L [S "_1"]), N 2, Q (L [S "f", nil])]) =
      .ok (cons (N 3) (L [lamV (n "_2") (L [S "f", S "_2", S "_1"])])) ∧
    runCps 60 (L [S "cps:lift", Q (L [S "_1"]), N 2, Q (L [S "f", str "ab"])]) =
      .ok (cons (N 3) (L [chr 97, chr 98, lamV (n "_2") (L [S "f", S "_2", S "_1"])])) := by
  constructor <;> decide +kernel

end Lib
end Mnml
