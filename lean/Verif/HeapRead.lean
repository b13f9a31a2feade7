import Verif.HeapWp

/-!
# Rules for the functions that only read

None of them changes the state; started on live cells, they only meet live cells.
-/

namespace Mnml
namespace Heap

variable {s : HSt} {T : Addr → Nat}

theorem Data.number_ne (d : Data) : d.number ≠ .ub .useAfterFree := by
  cases d <;> simp [Data.number, Data.atom, Val.number]

theorem wp_compare (l : Live s a) (l' : Live s b) {Q : Ordering → HSt → Prop}
    (k : ∀ r, Q r s) : wp (compareH a b) Q s := by
  refine wp_bind (wp_dataOf l fun c _ => ?_)
  refine wp_bind (wp_dataOf l' fun c' _ => ?_)
  cases c.data.tag <;> cases c'.data.tag <;>
    first | exact wp_pure (k _) | exact wp_ub (by simp)

theorem wp_equ (h : Inv s T) : ∀ (n : Nat) {a b : Addr} {Q : Bool → HSt → Prop}, Live s a → Live s b →
    (∀ r, Q r s) → wp (equH n a b) Q s := by
  intro n
  induction n with
  | zero => intros; exact wp_oof
  | succ n ih =>
    intro a b Q l l' k
    refine wp_bind (wp_dataOf l fun c hc => ?_)
    refine wp_bind (wp_dataOf l' fun c' hc' => ?_)
    cases hd : c.data <;> cases hd' : c'.data <;> try exact wp_pure (k _)
    refine wp_bind (ih (h.childCar l (by simp) hc hd) (h.childCar l' (by simp) hc' hd') fun r => ?_)
    refine wp_ite (fun _ => ?_) (fun _ => wp_pure (k _))
    exact ih (h.childCdr l (by simp) hc hd) (h.childCdr l' (by simp) hc' hd') k

theorem wp_neq (h : Inv s T) : ∀ (n : Nat) {a b : Addr} {Q : Bool → HSt → Prop}, Live s a → Live s b →
    (∀ r, Q r s) → wp (neqH n a b) Q s := by
  intro n
  induction n with
  | zero => intros; exact wp_oof
  | succ n ih =>
    intro a b Q l l' k
    refine wp_bind (wp_dataOf l fun c hc => ?_)
    refine wp_bind (wp_dataOf l' fun c' hc' => ?_)
    cases hd : c.data <;> cases hd' : c'.data <;> try exact wp_pure (k _)
    refine wp_bind (ih (h.childCar l (by simp) hc hd) (h.childCar l' (by simp) hc' hd') fun r => ?_)
    refine wp_ite (fun _ => wp_pure (k _)) (fun _ => ?_)
    exact ih (h.childCdr l (by simp) hc hd) (h.childCdr l' (by simp) hc' hd') k

theorem wp_match (h : Inv s T) : ∀ (n : Nat) {a b : Addr} {Q : Bool → HSt → Prop}, Live s a → Live s b →
    (∀ r, Q r s) → wp (matchH n a b) Q s := by
  intro n
  induction n with
  | zero => intros; exact wp_oof
  | succ n ih =>
    intro a b Q l l' k
    refine wp_bind (wp_dataOf l fun c hc => ?_)
    refine wp_ite (fun _ => wp_pure (k _)) (fun _ => ?_)
    refine wp_bind (wp_dataOf l' fun c' hc' => ?_)
    cases hd : c.data <;> cases hd' : c'.data <;> try exact wp_pure (k _)
    refine wp_bind (ih (h.childCar l (by simp) hc hd) (h.childCar l' (by simp) hc' hd') fun r => ?_)
    refine wp_ite (fun _ => ?_) (fun _ => wp_pure (k _))
    exact ih (h.childCdr l (by simp) hc hd) (h.childCdr l' (by simp) hc' hd') k

theorem wp_len (h : Inv s T) : ∀ (n : Nat) {a : Addr} {Q : Nat → HSt → Prop}, Live s a →
    (∀ r, Q r s) → wp (lenH n a) Q s := by
  intro n
  induction n with
  | zero => intros; exact wp_oof
  | succ n ih =>
    intro a Q l k
    refine wp_bind (wp_dataOf l fun c hc => ?_)
    cases hd : c.data <;> try exact wp_pure (k _)
    exact wp_bind (ih (h.childCdr l (by simp) hc hd) fun r => wp_pure (k _))

theorem wp_isString (h : Inv s T) : ∀ (n : Nat) {a : Addr} {Q : Bool → HSt → Prop}, Live s a →
    (∀ r, Q r s) → wp (isStringH n a) Q s := by
  intro n
  induction n with
  | zero => intros; exact wp_oof
  | succ n ih =>
    intro a Q l k
    refine wp_bind (wp_dataOf l fun c hc => ?_)
    cases hd : c.data <;> try exact wp_pure (k _)
    refine wp_bind (wp_dataOf (h.childCar l (by simp) hc hd) fun c' _ => ?_)
    exact wp_ite (fun _ => ih (h.childCdr l (by simp) hc hd) k) (fun _ => wp_pure (k _))

theorem wp_cstring (h : Inv s T) : ∀ (n : Nat) {a : Addr} {len idx : Nat}
    {Q : List UInt8 × Nat → HSt → Prop}, Live s a → (∀ r, Q r s) → wp (cstringH n a len idx) Q s := by
  intro n
  induction n with
  | zero => intros; exact wp_oof
  | succ n ih =>
    intro a len idx Q l k
    refine wp_bind (wp_dataOf l fun c hc => ?_)
    refine wp_ite (fun _ => wp_pure (k _)) (fun _ => ?_)
    refine wp_bind (wp_pairOf' h l fun x y lx ly => ?_)
    refine wp_bind (ih ly fun r => ?_)
    refine wp_bind (wp_dataOf lx fun c' _ => ?_)
    exact wp_bind (wp_lift (Data.number_ne _) fun _ _ => wp_pure (k _))

theorem wp_mayApply (h : Inv s T) : ∀ (n : Nat) {a b : Addr} {Q : Bool → HSt → Prop}, Live s a →
    Live s b → (∀ r, Q r s) → wp (mayApplyH n a b) Q s := by
  intro n
  induction n with
  | zero => intros; exact wp_oof
  | succ n ih =>
    intro a b Q l l' k
    refine wp_bind (wp_dataOf l fun c hc => ?_)
    refine wp_bind (wp_dataOf l' fun c' hc' => ?_)
    cases hd : c.data <;> cases hd' : c'.data <;> try exact wp_pure (k _)
    exact ih (h.childCdr l (by simp) hc hd) (h.childCdr l' (by simp) hc' hd') k

theorem wp_isFunc (h : Inv s T) {a : Addr} {Q : Bool → HSt → Prop} (l : Live s a)
    (k : ∀ r, Q r s) : wp (isFuncH a) Q s := by
  refine wp_bind (wp_dataOf l fun c hc => ?_)
  cases hd : c.data <;> try exact wp_pure (k _)
  refine wp_bind (wp_dataOf (h.childCar l (by simp) hc hd) fun c1 _ => ?_)
  have ly := h.childCdr l (by simp) hc hd
  refine wp_bind (wp_dataOf ly fun c2 hc2 => ?_)
  cases hd2 : c2.data <;> try exact wp_pure (k _)
  refine wp_bind (wp_dataOf (h.childCar ly (by simp) hc2 hd2) fun c3 _ => ?_)
  refine wp_bind (wp_dataOf (h.childCdr ly (by simp) hc2 hd2) fun c4 _ => ?_)
  exact wp_pure (k _)

theorem wp_find (h : Inv s T) (sy : Sym) : ∀ (n : Nat) {a : Addr} {Q : Option Addr → HSt → Prop},
    Live s a → (∀ r, (∀ kv, r = some kv → Live s kv) → Q r s) → wp (findH n a sy) Q s := by
  intro n
  induction n with
  | zero => intros; exact wp_oof
  | succ n ih =>
    intro a Q l k
    refine wp_bind (wp_pairOf' h l fun kv y lkv ly => ?_)
    refine wp_bind (wp_pairOf' h lkv fun kk _ lk _ => ?_)
    refine wp_bind (wp_dataOf lk fun c _ => ?_)
    refine wp_ite (fun _ => wp_pure (k _ (by rintro _ ⟨⟩; exact lkv))) (fun _ => ?_)
    refine wp_bind (wp_dataOf ly fun c' _ => ?_)
    exact wp_ite (fun _ => ih ly k) (fun _ => wp_pure (k _ (by rintro _ ⟨⟩)))

theorem wp_assoc (h : Inv s T) {n : Nat} {sy : Sym} {a : Addr} {Q : Option Addr → HSt → Prop}
    (l : Live s a) (k : ∀ r, (∀ kv, r = some kv → Live s kv) → Q r s) : wp (assocH n a sy) Q s := by
  refine wp_bind (wp_dataOf l fun c _ => ?_)
  exact wp_ite (fun _ => wp_pure (k _ (by rintro _ ⟨⟩))) (fun _ => wp_find h sy n l k)

theorem wp_view (h : Inv s T) : ∀ (n : Nat) {a : Addr} {Q : Val → HSt → Prop}, Live s a →
    (∀ r, Q r s) → wp (viewH n a) Q s := by
  intro n
  induction n with
  | zero => intros; exact wp_oof
  | succ n ih =>
    intro a Q l k
    refine wp_bind (wp_cell l fun c hc => ?_)
    cases hd : c.data with
    | pair x y =>
      refine wp_bind (ih (h.childCar l (by simp) hc hd) fun _ => ?_)
      exact wp_bind (ih (h.childCdr l (by simp) hc hd) fun _ => wp_pure (k _))
    | _ => exact k _

theorem wp_isSelfTail (h : Inv s T) {a b : Addr} {Q : Bool → HSt → Prop} (l : Live s a) (l' : Live s b)
    (k : ∀ r, Q r s) : wp (isSelfTailH a b) Q s := by
  refine wp_bind (wp_cell l' fun c hc => ?_)
  refine wp_ite (fun _ => ?_) (fun _ => wp_pure (k _))
  refine wp_bind (wp_pairOf' h l' fun x y lx ly => ?_)
  refine wp_bind (wp_dataOf lx fun c1 _ => ?_)
  refine wp_bind (wp_dataOf l fun c2 _ => ?_)
  cases c2.data.tag <;> exact wp_pure (k _)

theorem wp_global {sy : Sym} {Q : Option Addr → HSt → Prop}
    (k : ∀ r, (∀ d, r = some d → d ∈ s.globals.map Prod.snd) → Q r s) : wp (globalOf sy) Q s := by
  refine wp_ok rfl (k _ ?_)
  intro d hd
  rw [Option.map_eq_some_iff] at hd
  obtain ⟨e, he, rfl⟩ := hd
  exact List.mem_map.2 ⟨e, List.mem_of_find?_eq_some he, rfl⟩

theorem wp_pop (h : Inv s T) {p : Addr} {Q : Addr × Addr → HSt → Prop} (l : Live s p)
    (k : ∀ v r, Live s v → Live s r → Q (v, r) s) : wp (popH p) Q s := by
  refine wp_bind (wp_pairOf' h l fun kv r lkv lr => ?_)
  refine wp_bind (wp_pairOf' h lkv fun _ v _ lv => ?_)
  exact wp_pure (k v r lv lr)

end Heap
end Mnml
