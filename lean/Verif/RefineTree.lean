import Verif.RefineIso

/-!
# Refinement: trees with addresses

The marking of tail calls sets flags in the cells of a function body. To follow it, the tree of a value is given together
with the addresses of its cells.
-/

namespace Mnml
namespace Heap

/-- A tree with the addresses of its cells. -/
inductive AT where
  | atom (a : Addr) (v : Val)
  | pair (a : Addr) (t : Bool) (x y : AT)

namespace AT

/-- The address of the root. -/
def root : AT → Addr
  | atom a _ => a
  | pair a _ _ _ => a
/-- The value. -/
def erase : AT → Val
  | atom _ v => v
  | pair _ t x y => .pair t x.erase y.erase
/-- All addresses. -/
def addrs : AT → List Addr
  | atom a _ => [a]
  | pair a _ x y => a :: (x.addrs ++ y.addrs)
/-- The tree is in memory. -/
def In (m : Addr → Option Cell) : AT → Prop
  | atom a v => ∃ c, m a = some c ∧ c.val = some v
  | pair a t x y => (∃ c, m a = some c ∧ c.tc = t ∧ c.data = .pair x.root y.root) ∧ x.In m ∧ y.In m
/-- CAR. -/
def car : AT → AT
  | pair _ _ x _ => x
  | atom .. => atom 0 .nil
/-- CDR. -/
def cdr : AT → AT
  | pair _ _ _ y => y
  | atom .. => atom 0 .nil
/-- Is it a pair? -/
def isPair : AT → Bool
  | pair .. => true
  | atom .. => false

theorem root_mem (T : AT) : T.root ∈ T.addrs := by cases T <;> simp [root, addrs]

/-- The value of a cell is no pair. -/
theorem _root_.Mnml.Heap.Cell.val_atom {c : Cell} {v : Val} (h : c.val = some v) : v.isPair = false := by
  unfold Cell.val at h
  cases hd : c.data <;> rw [hd] at h <;> cases h <;> rfl

theorem In.isPair {m : Addr → Option Cell} {T : AT} (h : T.In m) : T.erase.isPair = T.isPair := by
  cases T with
  | atom a v => obtain ⟨c, _, hv⟩ := h; exact Cell.val_atom hv
  | pair => rfl

theorem In.repr {m : Addr → Option Cell} {T : AT} (h : T.In m) {A : List Addr} (hA : ∀ x, x ∈ T.addrs → x ∉ A) :
    Repr A m T.root T.erase := by
  induction T with
  | atom a v =>
    obtain ⟨c, hc, hv⟩ := h
    exact .atom (hA a (by simp [addrs])) hc hv
  | pair a t x y ix iy =>
    obtain ⟨⟨c, hc, ht, hd⟩, hx, hy⟩ := h
    subst ht
    exact .pair (hA a (by simp [addrs])) hc hd (ix hx fun b hb => hA b (by simp [addrs, hb]))
      (iy hy fun b hb => hA b (by simp [addrs, hb]))

theorem In.rep {m : Addr → Option Cell} {T : AT} (h : T.In m) : Rep m T.root T.erase := h.repr (by simp)

/-- The cells of a value avoid what the value avoids. -/
theorem In.out {m : Addr → Option Cell} {T : AT} (h : T.In m) {A : List Addr} {v : Val} (r : Repr A m T.root v) :
    ∀ x, x ∈ T.addrs → x ∉ A := by
  induction T generalizing v with
  | atom a w => intro x hx; rw [addrs, List.mem_singleton] at hx; subst hx; exact r.out
  | pair a t x y ix iy =>
    obtain ⟨⟨c, hc, ht, hd⟩, hx, hy⟩ := h
    cases r with
    | @atom _ c' _ _ hc' hv' => rw [root, hc] at hc'; cases hc'; unfold Cell.val at hv'; rw [hd] at hv'; cases hv'
    | @pair _ x' y' c' u w ha hc' hd' hx' hy' =>
      rw [root, hc] at hc'; cases hc'
      rw [hd] at hd'; cases hd'
      intro b hb
      rw [addrs, List.mem_cons, List.mem_append] at hb
      rcases hb with rfl | hb | hb
      · exact ha
      · exact ix hx hx' b hb
      · exact iy hy hy' b hb

/-- Every value in memory is a tree in memory. -/
theorem _root_.Mnml.Heap.Repr.tree {A : List Addr} {m : Addr → Option Cell} {a : Addr} {v : Val} (h : Repr A m a v) :
    ∃ T : AT, T.root = a ∧ T.erase = v ∧ T.In m := by
  induction h with
  | @atom a c v _ hc hv => exact ⟨.atom a v, rfl, rfl, c, hc, hv⟩
  | @pair a x y c u v _ hc hd _ _ ix iy =>
    obtain ⟨X, rfl, rfl, hX⟩ := ix
    obtain ⟨Y, rfl, rfl, hY⟩ := iy
    exact ⟨.pair a c.tc X Y, rfl, rfl, ⟨c, hc, rfl, hd⟩, hX, hY⟩

theorem In.cells {m : Addr → Option Cell} {T : AT} (h : T.In m) : ∀ {n : Nat} {l : List Addr}, cellsOf m n T.root = some l →
    l = T.addrs := by
  induction T with
  | atom a v =>
    intro n l e
    obtain ⟨c, hc, hv⟩ := h
    cases n with
    | zero => cases e
    | succ n =>
      unfold cellsOf at e
      rw [root, hc] at e
      cases hd : c.data <;> simp only [hd] at e
      case pair => unfold Cell.val at hv; rw [hd] at hv; cases hv
      all_goals (cases e; rfl)
  | pair a t x y ix iy =>
    intro n l e
    obtain ⟨⟨c, hc, ht, hd⟩, hx, hy⟩ := h
    cases n with
    | zero => cases e
    | succ n =>
      unfold cellsOf at e
      rw [root, hc] at e
      simp only [hd] at e
      cases e1 : cellsOf m n x.root with
      | none => rw [e1] at e; cases e
      | some l1 =>
        cases e2 : cellsOf m n y.root with
        | none => rw [e1, e2] at e; cases e
        | some l2 =>
          rw [e1, e2] at e
          cases e
          rw [ix hx e1, iy hy e2]
          rfl

/-- The parts of a tree. -/
theorem In.part {m : Addr → Option Cell} {T : AT} (h : T.In m) {x : Addr} (p : Part m T.root x) : x ∈ T.addrs := by
  have key : ∃ S : AT, S.root = x ∧ S.In m ∧ ∀ b, b ∈ S.addrs → b ∈ T.addrs := by
    induction p with
    | refl => exact ⟨T, rfl, h, fun _ => id⟩
    | @car b x y c _ hc hd ih =>
      obtain ⟨S, rfl, hS, hs⟩ := ih
      cases S with
      | atom a v => obtain ⟨c', hc', hv⟩ := hS; rw [root, hc'] at hc; cases hc; unfold Cell.val at hv; rw [hd] at hv; cases hv
      | pair a t X Y =>
        obtain ⟨⟨c', hc', _, hd'⟩, hX, hY⟩ := hS
        rw [root, hc'] at hc; cases hc
        rw [hd'] at hd; cases hd
        exact ⟨X, rfl, hX, fun b hb => hs b (by simp [addrs, hb])⟩
    | @cdr b x y c _ hc hd ih =>
      obtain ⟨S, rfl, hS, hs⟩ := ih
      cases S with
      | atom a v => obtain ⟨c', hc', hv⟩ := hS; rw [root, hc'] at hc; cases hc; unfold Cell.val at hv; rw [hd] at hv; cases hv
      | pair a t X Y =>
        obtain ⟨⟨c', hc', _, hd'⟩, hX, hY⟩ := hS
        rw [root, hc'] at hc; cases hc
        rw [hd'] at hd; cases hd
        exact ⟨Y, rfl, hY, fun b hb => hs b (by simp [addrs, hb])⟩
  obtain ⟨S, rfl, _, hs⟩ := key
  exact hs _ S.root_mem

/-- A tree that is still referred to stays, because its cells are not written. -/
theorem In.keep {T : AT} {s s' : HSt} {n : Nat} (h : T.In s.mem) (hn : ∀ x, x ∈ T.addrs → x < n) (k : Kp n s s') {A : List Addr}
    {v : Val} (r : Repr A s'.mem T.root v) : T.In s'.mem := by
  induction T generalizing v with
  | atom a w =>
    obtain ⟨c, hc, hv⟩ := h
    obtain ⟨c', hc', _⟩ := r.is
    obtain ⟨c0, h0, e1, e2⟩ := k.2.2 a c' (hn a (by simp [addrs])) hc'
    rw [hc] at h0; cases h0
    refine ⟨c', hc', ?_⟩
    unfold Cell.val at hv ⊢
    rw [e1, e2]; exact hv
  | pair a t x y ix iy =>
    obtain ⟨⟨c, hc, ht, hd⟩, hx, hy⟩ := h
    obtain ⟨c', hc', _⟩ := r.is
    obtain ⟨c0, h0, e1, e2⟩ := k.2.2 a c' (hn a (by simp [addrs])) hc'
    rw [hc] at h0; cases h0
    cases r with
    | @atom _ c2 _ _ hc2 hv' =>
      rw [hc'] at hc2; cases hc2
      unfold Cell.val at hv'; rw [e1, hd] at hv'; cases hv'
    | @pair _ x' y' c2 u w ha hc2 hd' hx' hy' =>
      rw [hc'] at hc2; cases hc2
      rw [e1, hd] at hd'; cases hd'
      exact ⟨⟨c', hc', e2.trans ht, e1.trans hd⟩, ix hx (fun b hb => hn b (by simp [addrs, hb])) hx',
        iy hy (fun b hb => hn b (by simp [addrs, hb])) hy'⟩

/-! ## Parts -/

/-- `S` is a part of the tree. -/
inductive Sub (T : AT) : AT → Prop where
  | refl : Sub T T
  | car {a : Addr} {t : Bool} {x y : AT} : Sub T (.pair a t x y) → Sub T x
  | cdr {a : Addr} {t : Bool} {x y : AT} : Sub T (.pair a t x y) → Sub T y

theorem Sub.mem {T S : AT} (h : Sub T S) {m : Addr → Option Cell} (hT : T.In m) : S.In m := by
  induction h with
  | refl => exact hT
  | car _ ih => exact ih.2.1
  | cdr _ ih => exact ih.2.2

theorem Sub.addrs {T S : AT} (h : Sub T S) : ∀ x, x ∈ S.addrs → x ∈ T.addrs := by
  induction h with
  | refl => exact fun _ => id
  | car _ ih => intro x hx; exact ih x (by simp [AT.addrs, hx])
  | cdr _ ih => intro x hx; exact ih x (by simp [AT.addrs, hx])

theorem Sub.nodup {T S : AT} (h : Sub T S) (hn : T.addrs.Nodup) : S.addrs.Nodup := by
  induction h with
  | refl => exact hn
  | car _ ih => exact (List.nodup_append.1 (List.nodup_cons.1 ih).2).1
  | cdr _ ih => exact (List.nodup_append.1 (List.nodup_cons.1 ih).2).2.1

/-! ## Flags -/

/-- The value of a cell with the flag. -/
def flagV : Val → Val
  | .sym _ s => .sym true s
  | v => v

/-- The tree after flags were set in the cells `F`. -/
def flag (F : List Addr) : AT → AT
  | atom a v => .atom a (if a ∈ F then flagV v else v)
  | pair a t x y => .pair a (if a ∈ F then true else t) (flag F x) (flag F y)

theorem flag_root (F : List Addr) (T : AT) : (T.flag F).root = T.root := by cases T <;> rfl

theorem In.flag {F : List Addr} {m : Addr → Option Cell} {T : AT} (h : T.In m) : (T.flag F).In (flagM F m) := by
  induction T with
  | atom a v =>
    obtain ⟨c, hc, hv⟩ := h
    refine ⟨_, flagM_some hc, ?_⟩
    split
    · unfold Cell.val at hv ⊢
      cases hd : c.data <;> rw [hd] at hv <;> cases hv <;> simp only [hd] <;> rfl
    · exact hv
  | pair a t x y ix iy =>
    obtain ⟨⟨c, hc, ht, hd⟩, hx, hy⟩ := h
    refine ⟨⟨_, flagM_some hc, ?_, ?_⟩, ix hx, iy hy⟩
    · split
      · rfl
      · exact ht
    · rw [flag_root, flag_root, flag_data, hd]

theorem flag_addrs (F : List Addr) (T : AT) : (T.flag F).addrs = T.addrs := by
  induction T with
  | atom => rfl
  | pair a t x y ix iy => simp only [flag, addrs, ix, iy]

theorem flag_none {F : List Addr} {T : AT} (h : ∀ x, x ∈ T.addrs → x ∉ F) : T.flag F = T := by
  induction T with
  | atom a v => rw [flag, if_neg (h a (by simp [addrs]))]
  | pair a t x y ix iy =>
    rw [flag, if_neg (h a (by simp [addrs])), ix fun b hb => h b (by simp [addrs, hb]), iy fun b hb => h b (by simp [addrs, hb])]

theorem flagV_tag (v : Val) : (flagV v).tag = v.tag := by cases v <;> rfl
theorem flag_symIs (F : List Addr) (T : AT) (f : Sym) : (T.flag F).erase.symIs f = T.erase.symIs f := by
  cases T with
  | atom a v =>
    simp only [flag, erase]
    split
    · unfold Val.symIs; rw [flagV_tag]
    · rfl
  | pair => rfl

theorem mayApply_flagV (u v : Val) : Val.mayApply u (flagV v) = Val.mayApply u v := by
  cases u <;> cases v <;> rfl

theorem flag_mayApply (F : List Addr) (T : AT) (u : Val) : Val.mayApply u (T.flag F).erase = Val.mayApply u T.erase := by
  induction T generalizing u with
  | atom a v =>
    simp only [flag, erase]
    split
    · exact mayApply_flagV u v
    · rfl
  | pair a t x y ix iy =>
    simp only [flag, erase]
    cases u <;> first | rfl | exact iy _

/-! ## Tails -/

mutual
/-- `lisp_collect_tails` (`lib/core/utils.c:433-518`): the tail expressions in place. -/
def tails (T : AT) : List AT :=
  match T with
  | .pair a tc (.atom b (.sym st s)) rest =>
    if s = sIf then tailsIf rest
    else if s = sCond || s = sMatch then tailsClauses rest
    else if s = sProg || s = sStream then (if rest.isPair then tailsLast rest else [.atom b (.sym st s)])
    else if s = sUnless || s = sWhen then tailsSecond rest
    else [.pair a tc (.atom b (.sym st s)) rest]
  | .atom _ .nil => []
  | T => [T]
/-- The arguments of `if`. -/
def tailsIf (T : AT) : List AT :=
  match T with
  | .pair _ _ _ r => tailsThen r
  | _ => []
/-- The branches of `if`. -/
def tailsThen (T : AT) : List AT :=
  match T with
  | .pair _ _ x r => tails x ++ tailsElse r
  | _ => []
/-- The first element. -/
def tailsElse (T : AT) : List AT :=
  match T with
  | .pair _ _ x _ => tails x
  | _ => []
/-- The arguments of `cond` and `match`. -/
def tailsClauses (T : AT) : List AT :=
  match T with
  | .pair _ _ _ r => tailsAssoc r
  | _ => []
/-- `lisp_collect_tails_assoc` (`lib/core/utils.c:396-431`). -/
def tailsAssoc (T : AT) : List AT :=
  match T with
  | .pair _ _ c r => tailsClause c ++ tailsAssoc r
  | _ => []
/-- The CDR of a clause. -/
def tailsClause (T : AT) : List AT :=
  match T with
  | .pair _ _ _ x => tails x
  | _ => []
/-- The last element. -/
def tailsLast (T : AT) : List AT :=
  match T with
  | .pair _ _ x r => if r.isPair then tailsLast r else tails x
  | _ => []
/-- The arguments of `unless` and `when`. -/
def tailsSecond (T : AT) : List AT :=
  match T with
  | .pair _ _ _ r => tailsElse r
  | _ => []
end

/-- The last element. -/
def lastElt : AT → AT
  | .pair _ _ x r => if r.isPair then lastElt r else x
  | .atom .. => .atom 0 .nil

theorem tailsLast_eq (T : AT) : tailsLast T = tails (lastElt T) := by
  induction T with
  | pair a t x r _ ih =>
    rw [tailsLast, lastElt]
    by_cases hr : r.isPair
    · rw [if_pos hr, if_pos hr, ih]
    · rw [if_neg hr, if_neg hr]
  | atom => rfl

theorem tailsElse_eq (T : AT) : tailsElse T = tails T.car := by cases T <;> rfl
theorem tailsThen_eq (T : AT) : tailsThen T = tails T.car ++ tailsElse T.cdr := by cases T <;> rfl
theorem tailsIf_eq (T : AT) : tailsIf T = tailsThen T.cdr := by cases T <;> rfl
theorem tailsClauses_eq (T : AT) : tailsClauses T = tailsAssoc T.cdr := by cases T <;> rfl
theorem tailsClause_eq (T : AT) : tailsClause T = tails T.cdr := by cases T <;> rfl
theorem tailsSecond_eq (T : AT) : tailsSecond T = tailsElse T.cdr := by cases T <;> rfl

/-! ## Heads -/

/-- The head that gets flagged. -/
def head (f : Sym) (va : Val) : AT → Option Addr
  | .pair _ _ x y => if x.erase.symIs f && Val.mayApply va y.erase then some x.root else none
  | .atom .. => none

/-- The heads of the tails that call the function. -/
def heads (f : Sym) (va : Val) (l : List AT) : List Addr := l.filterMap (head f va)

theorem heads_append (f : Sym) (va : Val) (l l' : List AT) : heads f va (l ++ l') = heads f va l ++ heads f va l' :=
  List.filterMap_append

theorem heads_one {f : Sym} {va : Val} {T : AT} {x : Addr} (h : x ∈ heads f va [T]) : x ∈ T.addrs := by
  cases T with
  | atom => simp [heads, head] at h
  | pair a t X Y =>
    by_cases e : (X.erase.symIs f && Val.mayApply va Y.erase) = true
    · simp [heads, head, e] at h
      subst h
      simp [addrs, X.root_mem]
    · simp [heads, head, e] at h

mutual
theorem heads_tails {f : Sym} {va : Val} {x : Addr} : ∀ T : AT, x ∈ heads f va (tails T) → x ∈ T.addrs
  | .pair a tc (.atom b v) rest => by
    intro h
    cases v with
    | sym st s =>
      rw [tails] at h
      simp only [addrs, List.mem_cons, List.mem_append]
      split at h
      · exact .inr (.inr (heads_if rest h))
      · split at h
        · exact .inr (.inr (heads_clauses rest h))
        · split at h
          · split at h
            · exact .inr (.inr (heads_last rest h))
            · simp [heads, head] at h
          · split at h
            · exact .inr (.inr (heads_second rest h))
            · have := heads_one h
              simpa [addrs] using this
    | _ => exact heads_one h
  | .pair a tc (.pair ..) rest => fun h => heads_one h
  | .atom a v => by
    intro h
    cases v <;> first | (simp [tails, heads, head] at h; done) | exact heads_one h
theorem heads_if {f : Sym} {va : Val} {x : Addr} : ∀ T : AT, x ∈ heads f va (tailsIf T) → x ∈ T.addrs
  | .pair a t c r => fun h => by simp only [addrs, List.mem_cons, List.mem_append]; exact .inr (.inr (heads_then r h))
  | .atom .. => fun h => by simp [tailsIf, heads] at h
theorem heads_then {f : Sym} {va : Val} {x : Addr} : ∀ T : AT, x ∈ heads f va (tailsThen T) → x ∈ T.addrs
  | .pair a t c r => fun h => by
    rw [tailsThen, heads_append, List.mem_append] at h
    simp only [addrs, List.mem_cons, List.mem_append]
    rcases h with h | h
    · exact .inr (.inl (heads_tails c h))
    · exact .inr (.inr (heads_else r h))
  | .atom .. => fun h => by simp [tailsThen, heads] at h
theorem heads_else {f : Sym} {va : Val} {x : Addr} : ∀ T : AT, x ∈ heads f va (tailsElse T) → x ∈ T.addrs
  | .pair a t c r => fun h => by simp only [addrs, List.mem_cons, List.mem_append]; exact .inr (.inl (heads_tails c h))
  | .atom .. => fun h => by simp [tailsElse, heads] at h
theorem heads_clauses {f : Sym} {va : Val} {x : Addr} : ∀ T : AT, x ∈ heads f va (tailsClauses T) → x ∈ T.addrs
  | .pair a t c r => fun h => by simp only [addrs, List.mem_cons, List.mem_append]; exact .inr (.inr (heads_assoc r h))
  | .atom .. => fun h => by simp [tailsClauses, heads] at h
theorem heads_assoc {f : Sym} {va : Val} {x : Addr} : ∀ T : AT, x ∈ heads f va (tailsAssoc T) → x ∈ T.addrs
  | .pair a t c r => fun h => by
    rw [tailsAssoc, heads_append, List.mem_append] at h
    simp only [addrs, List.mem_cons, List.mem_append]
    rcases h with h | h
    · exact .inr (.inl (heads_clause c h))
    · exact .inr (.inr (heads_assoc r h))
  | .atom .. => fun h => by simp [tailsAssoc, heads] at h
theorem heads_clause {f : Sym} {va : Val} {x : Addr} : ∀ T : AT, x ∈ heads f va (tailsClause T) → x ∈ T.addrs
  | .pair a t c r => fun h => by simp only [addrs, List.mem_cons, List.mem_append]; exact .inr (.inr (heads_tails r h))
  | .atom .. => fun h => by simp [tailsClause, heads] at h
theorem heads_last {f : Sym} {va : Val} {x : Addr} : ∀ T : AT, x ∈ heads f va (tailsLast T) → x ∈ T.addrs
  | .pair a t c r => fun h => by
    rw [tailsLast] at h
    simp only [addrs, List.mem_cons, List.mem_append]
    split at h
    · exact .inr (.inr (heads_last r h))
    · exact .inr (.inl (heads_tails c h))
  | .atom .. => fun h => by simp [tailsLast, heads] at h
theorem heads_second {f : Sym} {va : Val} {x : Addr} : ∀ T : AT, x ∈ heads f va (tailsSecond T) → x ∈ T.addrs
  | .pair a t c r => fun h => by simp only [addrs, List.mem_cons, List.mem_append]; exact .inr (.inr (heads_else r h))
  | .atom .. => fun h => by simp [tailsSecond, heads] at h
end

/-- The flags `F` set in the tree are those of `L`. -/
structure Cond (F : List Addr) (T : AT) (L : List Addr) : Prop where
  nodup : T.addrs.Nodup
  iff : ∀ x, x ∈ T.addrs → (x ∈ F ↔ x ∈ L)

section
variable {F L L' : List Addr} {a : Addr} {t : Bool} {x y : AT}

theorem Cond.right (h : Cond F (.pair a t x y) L) (hL : ∀ b, b ∈ L → b ∈ y.addrs) :
    a ∉ F ∧ x.flag F = x ∧ Cond F y L := by
  have hn := List.nodup_cons.1 h.nodup
  have hd := List.nodup_append.1 hn.2
  refine ⟨fun hf => hn.1 (List.mem_append_right _ (hL a ((h.iff a (by simp [addrs])).1 hf))), flag_none fun b hb hf => ?_,
    hd.2.1, fun b hb => h.iff b (by simp [addrs, hb])⟩
  exact hd.2.2 b hb b (hL b ((h.iff b (by simp [addrs, hb])).1 hf)) rfl

theorem Cond.left (h : Cond F (.pair a t x y) L) (hL : ∀ b, b ∈ L → b ∈ x.addrs) :
    a ∉ F ∧ y.flag F = y ∧ Cond F x L := by
  have hn := List.nodup_cons.1 h.nodup
  have hd := List.nodup_append.1 hn.2
  refine ⟨fun hf => hn.1 (List.mem_append_left _ (hL a ((h.iff a (by simp [addrs])).1 hf))), flag_none fun b hb hf => ?_,
    hd.1, fun b hb => h.iff b (by simp [addrs, hb])⟩
  exact hd.2.2 b (hL b ((h.iff b (by simp [addrs, hb])).1 hf)) b hb rfl

theorem Cond.both (h : Cond F (.pair a t x y) (L ++ L')) (hL : ∀ b, b ∈ L → b ∈ x.addrs) (hL' : ∀ b, b ∈ L' → b ∈ y.addrs) :
    a ∉ F ∧ Cond F x L ∧ Cond F y L' := by
  have hn := List.nodup_cons.1 h.nodup
  have hd := List.nodup_append.1 hn.2
  refine ⟨fun hf => hn.1 ?_, ⟨hd.1, fun b hb => ?_⟩, ⟨hd.2.1, fun b hb => ?_⟩⟩
  · rcases List.mem_append.1 ((h.iff a (by simp [addrs])).1 hf) with h' | h'
    · exact List.mem_append_left _ (hL a h')
    · exact List.mem_append_right _ (hL' a h')
  · rw [h.iff b (by simp [addrs, hb]), List.mem_append]
    exact ⟨fun h' => h'.elim id fun h2 => absurd rfl (hd.2.2 b hb b (hL' b h2)), .inl⟩
  · rw [h.iff b (by simp [addrs, hb]), List.mem_append]
    exact ⟨fun h' => h'.elim (fun h2 => absurd rfl (hd.2.2 b (hL b h2) b hb)) id, .inr⟩
end

theorem Cond.none {F : List Addr} {T : AT} (h : Cond F T []) : T.flag F = T :=
  flag_none fun x hx hf => by have := (h.iff x hx).1 hf; cases this

/-- Atoms are no pairs. -/
def Good : AT → Prop
  | atom _ v => v.isPair = false
  | pair _ _ x y => x.Good ∧ y.Good

theorem In.good {m : Addr → Option Cell} {T : AT} (h : T.In m) : T.Good := by
  induction T with
  | atom a v => obtain ⟨c, _, hv⟩ := h; exact Cell.val_atom hv
  | pair a t x y ix iy => exact ⟨ix h.2.1, iy h.2.2⟩

theorem Good.isPair {T : AT} (h : T.Good) : T.erase.isPair = T.isPair := by
  cases T with
  | atom a v => exact h
  | pair => rfl

theorem mark_atom {f : Sym} {va v : Val} (h : v.isPair = false) : markTails f va v = v ∧ markIf f va v = v ∧ markThen f va v = v ∧
    markElse f va v = v ∧ markClauses f va v = v ∧ markAssoc f va v = v ∧ markClause f va v = v ∧ markLast f va v = v ∧
    markSecond f va v = v := by
  cases v <;> first | (cases h; done) | exact ⟨rfl, rfl, rfl, rfl, rfl, rfl, rfl, rfl, rfl⟩

theorem flag_pair {F : List Addr} {a : Addr} {t : Bool} {x y : AT} (h : a ∉ F) :
    ((AT.pair a t x y).flag F).erase = .pair t (x.flag F).erase (y.flag F).erase := by rw [flag, if_neg h, erase]

theorem Cond.atom {F : List Addr} {a : Addr} {v : Val} (h : Cond F (.atom a v) []) : ((AT.atom a v).flag F).erase = v := by
  rw [h.none]; rfl

mutual
/-- The flags of the heads of tail calls are those of the marking on trees. -/
theorem flag_tails {F : List Addr} {f : Sym} {va : Val} : ∀ T : AT, T.Good → Cond F T (heads f va (tails T)) →
    (T.flag F).erase = markTails f va T.erase
  | .pair a tc (.atom b v) rest, g, h => by
    cases v with
    | sym st s =>
      rw [tails] at h
      simp only [erase]
      rw [markTails]
      split
      · rename_i e
        rw [if_pos e] at h
        obtain ⟨h1, h2, h3⟩ := h.right (fun _ => heads_if rest)
        rw [flag_pair h1, h2, flag_if rest g.2 h3]; rfl
      · rename_i e
        rw [if_neg e] at h
        split
        · rename_i e
          rw [if_pos e] at h
          obtain ⟨h1, h2, h3⟩ := h.right (fun _ => heads_clauses rest)
          rw [flag_pair h1, h2, flag_clauses rest g.2 h3]; rfl
        · rename_i e
          rw [if_neg e] at h
          split
          · rename_i e
            rw [if_pos e] at h
            by_cases hr : rest.isPair
            · rw [if_pos hr] at h
              obtain ⟨h1, h2, h3⟩ := h.right (fun _ => heads_last rest)
              rw [flag_pair h1, h2, flag_last rest g.2 h3]; rfl
            · rw [if_neg hr] at h
              have h' : Cond F (.pair a tc (.atom b (.sym st s)) rest) [] := h
              rw [h'.none]
              have : rest.erase.isPair = false := by rw [g.2.isPair]; simpa using hr
              rw [(mark_atom this).2.2.2.2.2.2.2.1]; rfl
          · rename_i e
            rw [if_neg e] at h
            split
            · rename_i e
              rw [if_pos e] at h
              obtain ⟨h1, h2, h3⟩ := h.right (fun _ => heads_second rest)
              rw [flag_pair h1, h2, flag_second rest g.2 h3]; rfl
            · rename_i e
              rw [if_neg e] at h
              rw [markCall]
              by_cases hc : (symMatch s f && Val.mayApply va rest.erase) = true
              · have e1 : heads f va [.pair a tc (.atom b (.sym st s)) rest] = [b] := by
                  have : ((AT.atom b (.sym st s)).erase.symIs f && Val.mayApply va rest.erase) = true := hc
                  simp [heads, head, this, root]
                rw [e1] at h
                obtain ⟨h1, h2, h3⟩ := h.left (by simp [addrs])
                have hb : b ∈ F := (h3.iff b (by simp [addrs])).2 (by simp)
                rw [flag_pair h1, h2, if_pos hc, flag, if_pos hb]
                rfl
              · have e1 : heads f va [.pair a tc (.atom b (.sym st s)) rest] = [] := by
                  have : ¬ ((AT.atom b (.sym st s)).erase.symIs f && Val.mayApply va rest.erase) = true := hc
                  simp only [heads, List.filterMap_cons, List.filterMap_nil, head, if_neg this]
                rw [e1] at h
                rw [h.none, if_neg hc]
                rfl
    | pair => exact absurd g.1 (by simp [Good, Val.isPair])
    | _ =>
      have hh : ∀ v z, z ∈ heads f va [.pair a tc (.atom b v) rest] → z ∈ (AT.atom b v).addrs := by
        intro v z hz
        simp only [heads, List.filterMap_cons, List.filterMap_nil, head] at hz
        split at hz
        · cases hz
        · rename_i e
          split at e
          · cases e; simpa [addrs, root] using hz
          · cases e
      obtain ⟨h1, h2, h3⟩ := h.left (hh _)
      rw [flag_pair h1, h2, flag]
      split <;> rfl
  | .pair a tc (.pair b u x y) rest, _, h => by
    have : heads f va (tails (.pair a tc (.pair b u x y) rest)) = [] := by
      have e : tails (.pair a tc (.pair b u x y) rest) = [.pair a tc (.pair b u x y) rest] := rfl
      rw [e]
      simp [heads, head, erase, Val.symIs, Val.tag]
    rw [this] at h
    rw [h.none]
    rfl
  | .atom a v, g, h => by
    have : heads f va (tails (.atom a v)) = [] := by cases v <;> rfl
    rw [this] at h
    rw [h.atom]
    exact (mark_atom g).1.symm
theorem flag_if {F : List Addr} {f : Sym} {va : Val} : ∀ T : AT, T.Good → Cond F T (heads f va (tailsIf T)) →
    (T.flag F).erase = markIf f va T.erase
  | .pair a t c r, g, h => by
    rw [tailsIf] at h
    obtain ⟨h1, h2, h3⟩ := h.right (fun _ => heads_then r)
    rw [flag_pair h1, h2, flag_then r g.2 h3, erase, markIf]
  | .atom a v, g, h => by rw [Cond.atom (a := a) (v := v) h]; exact (mark_atom g).2.1.symm
theorem flag_then {F : List Addr} {f : Sym} {va : Val} : ∀ T : AT, T.Good → Cond F T (heads f va (tailsThen T)) →
    (T.flag F).erase = markThen f va T.erase
  | .pair a t c r, g, h => by
    rw [tailsThen, heads_append] at h
    obtain ⟨h1, h2, h3⟩ := h.both (fun _ => heads_tails c) (fun _ => heads_else r)
    rw [flag_pair h1, flag_tails c g.1 h2, flag_else r g.2 h3, erase, markThen]
  | .atom a v, g, h => by rw [Cond.atom (a := a) (v := v) h]; exact (mark_atom g).2.2.1.symm
theorem flag_else {F : List Addr} {f : Sym} {va : Val} : ∀ T : AT, T.Good → Cond F T (heads f va (tailsElse T)) →
    (T.flag F).erase = markElse f va T.erase
  | .pair a t c r, g, h => by
    rw [tailsElse] at h
    obtain ⟨h1, h2, h3⟩ := h.left (fun _ => heads_tails c)
    rw [flag_pair h1, h2, flag_tails c g.1 h3, erase, markElse]
  | .atom a v, g, h => by rw [Cond.atom (a := a) (v := v) h]; exact (mark_atom g).2.2.2.1.symm
theorem flag_clauses {F : List Addr} {f : Sym} {va : Val} : ∀ T : AT, T.Good → Cond F T (heads f va (tailsClauses T)) →
    (T.flag F).erase = markClauses f va T.erase
  | .pair a t c r, g, h => by
    rw [tailsClauses] at h
    obtain ⟨h1, h2, h3⟩ := h.right (fun _ => heads_assoc r)
    rw [flag_pair h1, h2, flag_assoc r g.2 h3, erase, markClauses]
  | .atom a v, g, h => by rw [Cond.atom (a := a) (v := v) h]; exact (mark_atom g).2.2.2.2.1.symm
theorem flag_assoc {F : List Addr} {f : Sym} {va : Val} : ∀ T : AT, T.Good → Cond F T (heads f va (tailsAssoc T)) →
    (T.flag F).erase = markAssoc f va T.erase
  | .pair a t c r, g, h => by
    rw [tailsAssoc, heads_append] at h
    obtain ⟨h1, h2, h3⟩ := h.both (fun _ => heads_clause c) (fun _ => heads_assoc r)
    rw [flag_pair h1, flag_clause c g.1 h2, flag_assoc r g.2 h3, erase, markAssoc]
  | .atom a v, g, h => by rw [Cond.atom (a := a) (v := v) h]; exact (mark_atom g).2.2.2.2.2.1.symm
theorem flag_clause {F : List Addr} {f : Sym} {va : Val} : ∀ T : AT, T.Good → Cond F T (heads f va (tailsClause T)) →
    (T.flag F).erase = markClause f va T.erase
  | .pair a t c r, g, h => by
    rw [tailsClause] at h
    obtain ⟨h1, h2, h3⟩ := h.right (fun _ => heads_tails r)
    rw [flag_pair h1, h2, flag_tails r g.2 h3, erase, markClause]
  | .atom a v, g, h => by rw [Cond.atom (a := a) (v := v) h]; exact (mark_atom g).2.2.2.2.2.2.1.symm
theorem flag_last {F : List Addr} {f : Sym} {va : Val} : ∀ T : AT, T.Good → Cond F T (heads f va (tailsLast T)) →
    (T.flag F).erase = markLast f va T.erase
  | .pair a t c r, g, h => by
    rw [tailsLast] at h
    rw [erase, markLast, g.2.isPair]
    split
    · rename_i e
      rw [if_pos e] at h
      obtain ⟨h1, h2, h3⟩ := h.right (fun _ => heads_last r)
      rw [flag_pair h1, h2, flag_last r g.2 h3]
    · rename_i e
      rw [if_neg e] at h
      obtain ⟨h1, h2, h3⟩ := h.left (fun _ => heads_tails c)
      rw [flag_pair h1, h2, flag_tails c g.1 h3]
  | .atom a v, g, h => by rw [Cond.atom (a := a) (v := v) h]; exact (mark_atom g).2.2.2.2.2.2.2.1.symm
theorem flag_second {F : List Addr} {f : Sym} {va : Val} : ∀ T : AT, T.Good → Cond F T (heads f va (tailsSecond T)) →
    (T.flag F).erase = markSecond f va T.erase
  | .pair a t c r, g, h => by
    rw [tailsSecond] at h
    obtain ⟨h1, h2, h3⟩ := h.right (fun _ => heads_else r)
    rw [flag_pair h1, h2, flag_else r g.2 h3, erase, markSecond]
  | .atom a v, g, h => by rw [Cond.atom (a := a) (v := v) h]; exact (mark_atom g).2.2.2.2.2.2.2.2.symm
end

end AT
end Heap
end Mnml
