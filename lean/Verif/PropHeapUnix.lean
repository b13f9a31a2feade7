import Verif.HeapUnix
import Verif.PropHeap

/-!
# C84, C85: the natives of `unix` and `sys` and the cells

The natives release what they own and nothing else. The proofs use the weakest preconditions of `Verif.HeapWp`, extended to
computations that make calls (`wpU`): the operating system may answer anything.
-/

set_option maxRecDepth 100000

namespace Mnml
namespace Heap

open Unix (Sys Trace Call int32 int64 fdCheck)

/-- The weakest precondition for computations with calls. -/
def wpU {α : Type} (m : HU α) (Q : α → Trace → HSt → Prop) (os : Sys) (t : Trace) (s : HSt) : Prop :=
  wp (m os t) (fun p s' => Q p.1 p.2 s') s

section
variable {α β : Type} {os : Sys} {t : Trace} {s : HSt}

theorem wpU_bind {x : HU α} {f : α → HU β} {Q : β → Trace → HSt → Prop}
    (h : wpU x (fun a t' s' => wpU (f a) Q os t' s') os t s) : wpU (x >>= f) Q os t s := wp_bind h

theorem wpU_pure {a : α} {Q : α → Trace → HSt → Prop} (h : Q a t s) : wpU (pure a) Q os t s := wp_pure h

theorem wpU_cells {m : HM α} {Q : α → Trace → HSt → Prop} (h : wp m (fun a s' => Q a t s') s) :
    wpU (onCells m) Q os t s := by
  refine wp_bind ?_
  unfold wp at *
  cases e : m s with
  | ok p => rw [e] at h; exact wp_pure h
  | ub u => rw [e] at h; exact h
  | _ => trivial

theorem wpU_call {c : Call} {Q : Unix.Rep → Trace → HSt → Prop} (h : ∀ r t', Q r t' s) : wpU (callH c) Q os t s :=
  wp_pure (h _ _)

theorem wpU_ite {c : Prop} [Decidable c] {x y : HU α} {Q : α → Trace → HSt → Prop} (h1 : c → wpU x Q os t s)
    (h2 : ¬ c → wpU y Q os t s) : wpU (if c then x else y) Q os t s := by
  split
  · exact h1 ‹_›
  · exact h2 ‹_›
end

/-- The end of a computation that consumes the references `ins` and gives a new one. -/
abbrev PostU (Q : Addr → Trace → HSt → Prop) (T : Addr → Nat) (ins : List Addr) : Prop :=
  ∀ r t' s' T', Inv s' T' → (∀ b, T' b + ones ins b = T b + one r b) → Q r t' s'

/-- What is required of `lisp_eval`: the environment is borrowed, the expression is consumed. -/
abbrev EvSpecU (os : Sys) (ev : UEv) : Prop :=
  ∀ {Q : Addr → Trace → HSt → Prop} {t : Trace} {s0 : HSt} {T0 : Addr → Nat} {closure a : Addr}, Inv s0 T0 →
    (∀ b, ones [closure, a] b ≤ T0 b) → PostU Q T0 [a] → wpU (ev closure a) Q os t s0

section
variable {os : Sys} {Q : Addr → Trace → HSt → Prop} {t : Trace} {s : HSt} {T : Addr → Nat}

theorem wpU_nil (h : Inv s T) (k : PostU Q T []) : wpU (onCells mkNil) Q os t s :=
  wpU_cells (wp_nil h fun r s' T' h' e _ => k r t s' T' h' (by tok))

theorem wpU_num {i : Int} (h : Inv s T) (k : PostU Q T []) : wpU (onCells (mkNum i)) Q os t s :=
  wpU_cells (wp_mk h rfl fun r s' T' h' e _ => k r t s' T' h' (by tok))

theorem wpU_bool {b : Bool} (h : Inv s T) (k : PostU Q T []) : wpU (onCells (mkBool b)) Q os t s :=
  wpU_cells (wp_boolP h fun r s' T' h' e => k r t s' T' h' e)

theorem wpU_fork (h : Inv s T) (k : PostU Q T []) : wpU forkH Q os t s :=
  wpU_bind (wpU_call fun _ _ => wpU_num h k)

theorem wpU_pipe (h : Inv s T) (k : PostU Q T []) : wpU pipeH Q os t s := by
  refine wpU_bind (wpU_call fun r t1 => ?_)
  refine wpU_ite (fun _ => wpU_nil h k) (fun _ => ?_)
  refine wpU_bind (wpU_num h ?_)
  intro car t2 s2 T2 h2 e2
  refine wpU_bind (wpU_num h2 ?_)
  intro cdr t3 s3 T3 h3 e3
  refine wpU_cells (wp_cons h3 (by tok) ?_)
  intro r s4 T4 h4 e4 _
  exact k r _ s4 T4 h4 (by tok)

theorem wp_cbuffer {n len cap : Nat} {a : Addr} {Q : List UInt8 × Nat → HSt → Prop} (h : Inv s T) (l : Live s a) (k : ∀ r, Q r s) :
    wp (cbufferH n a len cap) Q s := by
  refine wp_bind (wp_cstring h n l fun r => ?_)
  exact wp_bind (wp_lift store_ne fun b _ => wp_pure (k _))

theorem wpU_unlink {n : Nat} {x : Addr} (h : Inv s T) (l : Live s x) (k : PostU Q T []) : wpU (unlinkH n x) Q os t s := by
  refine wpU_bind (wpU_cells (wp_isString h n l fun b => ?_))
  refine wpU_ite (fun _ => wpU_nil h k) (fun _ => ?_)
  refine wpU_bind (wpU_cells (wp_cbuffer h l fun p => ?_))
  exact wpU_bind (wpU_call fun _ _ => wpU_bool h k)

theorem number_ne (d : Data) : d.number ≠ .ub .useAfterFree := by
  cases d <;> simp [Data.number, Data.atom, Val.number]

theorem wpU_wait {x : Addr} (h : Inv s T) (l : Live s x) (k : PostU Q T []) : wpU (waitH x) Q os t s := by
  refine wpU_bind (wpU_cells (wp_dataOf l fun c _ => ?_))
  refine wpU_bind (wpU_cells (wp_lift (number_ne _) fun i _ => ?_))
  refine wpU_bind (wpU_call fun r _ => ?_)
  exact wpU_ite (fun _ => wpU_num h k) fun _ => wpU_ite (fun _ => wpU_num h k) fun _ => wpU_nil h k

theorem wp_peer {n : Nat} {p : Option (List UInt8 × Nat)} {Q : Addr → HSt → Prop} (h : Inv s T) (k : Post Q T []) : wp (peerH n p) Q s := by
  cases p with
  | none => exact wp_nil h fun r s' T' h' e _ => k r s' T' h' (by tok)
  | some p =>
    refine wp_bind (wp_makeString h ?_)
    intro host s1 T1 h1 e1
    refine wp_bind (wp_mk h1 rfl ?_)
    intro port s2 T2 h2 e2 _
    refine wp_cons h2 (by tok) ?_
    intro r s3 T3 h3 e3 _
    exact k r s3 T3 h3 (by tok)

theorem wpU_accept {n : Nat} {x : Addr} (h : Inv s T) (l : Live s x) (k : PostU Q T []) : wpU (acceptH n x) Q os t s := by
  refine wpU_bind (wpU_cells (wp_dataOf l fun c _ => ?_))
  cases c.data with
  | num i =>
    refine wpU_ite (fun _ => wpU_nil h k) (fun _ => ?_)
    refine wpU_bind (wpU_call fun r _ => ?_)
    refine wpU_ite (fun _ => wpU_nil h k) (fun _ => ?_)
    refine wpU_bind (wpU_num h ?_)
    intro clfd t1 s1 T1 h1 e1
    refine wpU_bind (wpU_cells (wp_peer h1 ?_))
    intro clad s2 T2 h2 e2
    refine wpU_cells (wp_cons h2 (by tok) ?_)
    intro r s3 T3 h3 e3 _
    exact k r _ s3 T3 h3 (by tok)
  | _ => exact wpU_nil h k

theorem wpU_fail {fd : Int} (h : Inv s T) (k : PostU Q T []) : wpU (failH fd) Q os t s :=
  wpU_bind (wpU_call fun _ _ => wpU_nil h k)

theorem wpU_listen {x : Addr} (h : Inv s T) (l : Live s x) (k : PostU Q T []) : wpU (listenH x) Q os t s := by
  refine wpU_bind (wpU_cells (wp_dataOf l fun c _ => ?_))
  cases c.data with
  | num i =>
    refine wpU_ite (fun _ => wpU_nil h k) (fun _ => ?_)
    refine wpU_bind (wpU_call fun r _ => wpU_ite (fun _ => wpU_nil h k) fun _ => ?_)
    refine wpU_bind (wpU_call fun r _ => wpU_ite (fun _ => wpU_fail h k) fun _ => ?_)
    refine wpU_bind (wpU_call fun r _ => wpU_ite (fun _ => wpU_fail h k) fun _ => ?_)
    refine wpU_bind (wpU_call fun r _ => wpU_ite (fun _ => wpU_fail h k) fun _ => ?_)
    exact wpU_bind (wpU_call fun r _ => wpU_ite (fun _ => wpU_fail h k) fun _ => wpU_num h k)
  | _ => exact wpU_nil h k

theorem wpU_connect {n : Nat} {x y : Addr} (h : Inv s T) (l : Live s x) (l' : Live s y) (k : PostU Q T []) :
    wpU (connectH n x y) Q os t s := by
  refine wpU_bind (wpU_cells (wp_isString h n l fun b => ?_))
  refine wpU_bind (wpU_cells (wp_ite (fun _ => wp_isString h n l' fun c => ?_) (fun _ => wp_pure ?_)))
  · refine wpU_ite (fun _ => wpU_nil h k) (fun _ => ?_)
    refine wpU_bind (wpU_cells (wp_cbuffer h l fun p => ?_))
    refine wpU_ite (fun _ => wpU_nil h k) (fun _ => ?_)
    refine wpU_bind (wpU_cells (wp_cbuffer h l' fun p => ?_))
    refine wpU_ite (fun _ => wpU_nil h k) (fun _ => ?_)
    refine wpU_bind (wpU_call fun r _ => wpU_ite (fun _ => wpU_nil h k) fun _ => ?_)
    refine wpU_bind (wpU_call fun r _ => wpU_ite (fun _ => wpU_fail h k) fun _ => ?_)
    refine wpU_bind (wpU_call fun r _ => wpU_ite (fun _ => wpU_fail h k) fun _ => ?_)
    exact wpU_bind (wpU_call fun r _ => wpU_ite (fun _ => wpU_fail h k) fun _ => wpU_num h k)
  · exact wpU_nil h k

theorem wp_makeStrings {n cap len : Nat} : ∀ (m : Nat) {s : HSt} {T : Addr → Nat} {a : Addr} {idx : Nat} {Q : List (List UInt8) → HSt → Prop},
    Inv s T → (∀ b, one a b ≤ T b) →
    (∀ r s' T', Inv s' T' → (∀ b, T' b + one a b = T b) → Fr s.next s s' → Q r s') → wp (makeStringsH n cap len m a idx) Q s := by
  intro m
  induction m with
  | zero => intros; exact wp_oof
  | succ m ih =>
    intro s T a idx Q h t k
    refine wp_bind (wp_dataOf (h.live (by tok)) fun c _ => ?_)
    refine wp_ite (fun _ => ?_) (fun _ => ?_)
    · refine wp_bind (wp_Xk h (by tok) ?_)
      intro s1 T1 h1 e1 f1
      exact wp_ite (fun _ => wp_pure (k _ s1 T1 h1 (by tok) (f1.fr _))) fun _ => wp_ub (by simp)
    · refine wp_bind (wp_car h (h.live (by tok)) ?_)
      intro car s1 T1 h1 e1 x1
      refine wp_bind (wp_cdr h1 (h1.live (by tok)) ?_)
      intro cdr s2 T2 h2 e2 x2
      refine wp_bind (wp_Xk h2 (by tok) ?_)
      intro s3 T3 h3 e3 f3
      refine wp_bind (wp_cbuffer h3 (h3.live (by tok)) fun p => ?_)
      refine wp_bind (wp_leak h3 (by tok) ?_)
      intro s4 T4 h4 e4 x4
      refine wp_ite (fun _ => ?_) fun _ => wp_ub (by simp)
      refine wp_bind (ih h4 (by tok) ?_)
      intro r s5 T5 h5 e5 f5
      have l1 := x1.next
      have l2 := x2.next
      have l3 := (f3.fr s.next).next
      have l4 := x4.next
      exact wp_pure (k _ s5 T5 h5 (by tok) ((((x1.fr.trans (x2.fr.mono l1)).trans (f3.fr _)).trans (x4.fr.mono (by omega))).trans
        (f5.mono (by omega))))

theorem wpU_exec {n : Nat} {x y z : Addr} {Q : Unit → Trace → HSt → Prop} (h : Inv s T) (lx : Live s x) (ly : Live s y)
    (lz : ∀ s' T', Inv s' T' → (∀ b, T' b = T b) → Fr s.next s s' → Live s' z)
    (k : ∀ t' s' T', Inv s' T' → (∀ b, T' b = T b) → Q () t' s') : wpU (execH n x y z) Q os t s := by
  refine wpU_bind (wpU_cells (wp_cbuffer h lx fun p => ?_))
  refine wpU_bind (wpU_cells (wp_up h ly ?_))
  intro s1 T1 h1 e1 x1
  refine wpU_bind (wpU_cells (wp_makeStrings n h1 (by tok) ?_))
  intro argv s2 T2 h2 e2 f2
  refine wpU_bind (wpU_cells (wp_up h2 (lz s2 T2 h2 (by tok) (x1.fr.trans (f2.mono x1.next))) ?_))
  intro s3 T3 h3 e3 x3
  refine wpU_bind (wpU_cells (wp_makeStrings n h3 (by tok) ?_))
  intro env s4 T4 h4 e4 _
  refine wpU_bind (wpU_call fun r _ => wpU_ite (fun _ => wpU_pure (k _ s4 T4 h4 (by tok))) fun _ => ?_)
  exact wpU_bind (wpU_call fun _ _ => wpU_bind (wpU_call fun _ _ => wpU_pure (k _ s4 T4 h4 (by tok))))

variable {ev : UEv} (hev : EvSpecU os ev)
include hev

theorem wpU_closeAll : ∀ (n : Nat) {Q : Bool → Trace → HSt → Prop} {t : Trace} {s : HSt} {T : Addr → Nat} {c a : Addr} {res : Bool},
    Inv s T → (∀ b, ones [c, a] b ≤ T b) → (∀ r t' s' T', Inv s' T' → (∀ b, T' b + one a b = T b) → Q r t' s') →
    wpU (closeAllH ev n c a res) Q os t s := by
  intro n
  induction n with
  | zero => intros; exact wpU_cells wp_oof
  | succ n ih =>
    intro Q t s T c a res h tk k
    refine wpU_bind (wpU_cells (wp_dataOf (h.live (by tok)) fun c _ => ?_))
    refine wpU_ite (fun _ => ?_) (fun _ => ?_)
    · refine wpU_bind (wpU_cells (wp_X h (by tok) ?_))
      intro s1 T1 h1 e1
      exact wpU_pure (k _ _ s1 T1 h1 (by tok))
    · refine wpU_bind (wpU_cells (wp_car h (h.live (by tok)) ?_))
      intro e s1 T1 h1 e1 x1
      refine wpU_bind (hev h1 (by tok) ?_)
      intro car t2 s2 T2 h2 e2
      refine wpU_bind (wpU_cells (wp_cdr h2 (h2.live (by tok)) ?_))
      intro cdr s3 T3 h3 e3 x3
      refine wpU_bind (wpU_cells (wp_dataOf (h3.live (by tok)) fun _ _ => ?_))
      refine wpU_bind (wpU_cells (wp_lift (number_ne _) fun i _ => ?_))
      refine wpU_bind (wpU_call fun r t4 => ?_)
      refine wpU_bind (wpU_cells (wp_Xs h3 (by tok) ?_))
      intro s4 T4 h4 e4
      refine ih h4 (by tok) ?_
      intro r t5 s5 T5 h5 e5
      exact k r t5 s5 T5 h5 (by tok)

theorem wpU_close {n : Nat} {c any : Addr} (h : Inv s T) (l : Live s any) (tk : ∀ b, ones [c] b ≤ T b) (k : PostU Q T []) :
    wpU (closeH ev n c any) Q os t s := by
  refine wpU_bind (wpU_cells (wp_up h l ?_))
  intro s1 T1 h1 e1 x1
  refine wpU_bind (wpU_closeAll hev n h1 (by tok) ?_)
  intro r t2 s2 T2 h2 e2
  refine wpU_bool h2 ?_
  intro r t3 s3 T3 h3 e3
  exact k r t3 s3 T3 h3 (by tok)

theorem wpU_dup {u : UB} {c any : Addr} (h : Inv s T) (l : Live s any) (tk : ∀ b, ones [c] b ≤ T b)
    (hu : u = .useAfterFree → ∀ b, ones [c, any] b ≤ T b) (k : PostU Q T []) : wpU (dupFdH ev u c any) Q os t s := by
  refine wpU_bind (wpU_cells (wp_car h l ?_))
  intro e s1 T1 h1 e1 x1
  refine wpU_bind (hev h1 (by tok) ?_)
  intro car t2 s2 T2 h2 e2
  refine wpU_bind (wpU_cells (wp_fresh (fun hu' => ?_) fun l2 => ?_))
  · have ta := hu hu'
    exact h2.live (by tok)
  refine wpU_bind (wpU_cells (wp_cdr h2 l2 ?_))
  intro cdr s3 T3 h3 e3 x3
  refine wpU_bind (wpU_cells (wp_car h3 (h3.live (by tok)) ?_))
  intro e' s4 T4 h4 e4 x4
  refine wpU_bind (hev h4 (by tok) ?_)
  intro tgt t5 s5 T5 h5 e5
  refine wpU_bind (wpU_cells (wp_X h5 (by tok) ?_))
  intro s6 T6 h6 e6
  refine wpU_bind (wpU_cells (wp_dataOf (h6.live (by tok)) fun _ _ => ?_))
  refine wpU_bind (wpU_cells (wp_dataOf (h6.live (by tok)) fun _ _ => ?_))
  refine wpU_bind (wpU_cells (wp_lift (number_ne _) fun i _ => ?_))
  have fin : ∀ {i : Int} {t : Trace}, wpU (do onCells (Xs [tgt, car]); onCells (mkNum i)) Q os t s6 := by
    intro i t
    refine wpU_bind (wpU_cells (wp_Xs h6 (by tok) ?_))
    intro s7 T7 h7 e7
    refine wpU_num h7 ?_
    intro r t8 s8 T8 h8 e8
    exact k r t8 s8 T8 h8 (by tok)
  refine wpU_ite (fun _ => ?_) (fun _ => ?_)
  · exact wpU_bind (wpU_call fun r _ => fin)
  · refine wpU_bind (wpU_cells (wp_lift (number_ne _) fun i _ => ?_))
    exact wpU_bind (wpU_call fun r _ => fin)

theorem wpU_time {c any : Addr} (h : Inv s T) (l : Live s any) (tk : ∀ b, ones [c] b ≤ T b) (k : PostU Q T []) :
    wpU (timeH ev c any) Q os t s := by
  refine wpU_bind (wpU_call fun b _ => ?_)
  refine wpU_bind (wpU_cells (wp_dataOf l fun _ _ => ?_))
  refine wpU_ite (fun _ => wpU_num h k) (fun _ => ?_)
  refine wpU_bind (wpU_cells (wp_car h l ?_))
  intro e s1 T1 h1 e1 x1
  refine wpU_bind (hev h1 (by tok) ?_)
  intro res t2 s2 T2 h2 e2
  refine wpU_bind (wpU_call fun b _ => ?_)
  refine wpU_bind (wpU_cells (wp_X h2 (by tok) ?_))
  intro s3 T3 h3 e3
  refine wpU_num h3 ?_
  intro r t4 s4 T4 h4 e4
  exact k r t4 s4 T4 h4 (by tok)

/-! ### `select` -/

omit hev in
theorem fdCheck_ne (k : Int) : fdCheck k ≠ .ub .useAfterFree := by
  unfold fdCheck
  split <;> simp

omit hev in
theorem wp_selectSet (h : Inv s T) : ∀ (n : Nat) {a : Addr} {Q : Int × List Int → HSt → Prop}, Live s a → (∀ r, Q r s) →
    wp (selectSetH n a) Q s := by
  intro n
  induction n with
  | zero => intros; exact wp_oof
  | succ n ih =>
    intro a Q l k
    refine wp_bind (wp_dataOf l fun c hc => ?_)
    cases hd : c.data with
    | pair x y =>
      have lx := h.childCar l (by simp) hc hd
      have ly := h.childCdr l (by simp) hc hd
      refine wp_bind (wp_dataOf lx fun d _ => ?_)
      cases d.data with
      | num i =>
        refine wp_ite (fun _ => ?_) (fun _ => ?_)
        · refine wp_bind (wp_lift (fdCheck_ne _) fun _ _ => ?_)
          exact wp_bind (ih ly fun r => wp_pure (k _))
        · exact wp_bind (ih ly fun r => wp_pure (k _))
      | _ => exact wp_bind (ih ly fun r => wp_pure (k _))
    | _ => exact wp_pure (k _)

omit hev in
/-- The release of an atom that is not a pair keeps the other cells. -/
theorem wp_Xleaf {Q : Unit → HSt → Prop} {a : Addr} {c : Cell} (h : Inv s T) (ha : ∀ b, one a b ≤ T b) (hc : s.mem a = some c)
    (hp : c.data.isPair = false)
    (k : ∀ s' T', Inv s' T' → (∀ b, T' b + one a b = T b) → (∀ b, b ≠ a → Live s b → Live s' b) → Q () s') : wp (X a) Q s := by
  obtain ⟨s', T', r, i, e, sh, m⟩ := X_atom_spec h ha (by simp) hc hp
  refine wp_ok r (k s' T' i e fun b hb l => ⟨?_, ?_⟩)
  · rw [m b hb]; exact l.1
  · rw [sh.zombies]; exact l.2

theorem wpU_action {cb c fds x y act : Addr} {cf ca : Cell} {set : List Int} (h : Inv s T) (lf : Live s fds) (hf : s.mem fds = some cf)
    (df : cf.data = .pair x y) (ha : s.mem act = some ca) (da : ca.data.isPair = false)
    (tk : ∀ b, ones [c, cb, act] b ≤ T b) (k : PostU Q T [act]) : wpU (actionH ev cb set c fds x act) Q os t s := by
  have lx := h.childCar lf (by simp) hf df
  refine wpU_bind (wpU_cells (wp_dataOf lx fun d _ => ?_))
  have ne : fds ≠ act := by
    rintro rfl
    rw [hf] at ha; cases ha
    rw [df] at da; cases da
  cases d.data with
  | num i =>
    refine wpU_bind (wpU_cells (wp_Xleaf h (by tok) ha da ?_))
    intro s1 T1 h1 e1 l1
    refine wpU_bind (wpU_cells (wp_mk h1 rfl ?_))
    intro act' s2 T2 h2 e2 x2
    refine wpU_bind (wpU_cells (wp_lift (fdCheck_ne _) fun _ _ => ?_))
    refine wpU_ite (fun _ => ?_) (fun _ => wpU_pure (k act' t s2 T2 h2 (by tok)))
    refine wpU_bind (wpU_cells (wp_car h2 ((l1 _ ne lf).ext x2) ?_))
    intro fdn s3 T3 h3 e3 x3
    refine wpU_bind (wpU_nil h3 ?_)
    intro nl t4 s4 T4 h4 e4
    refine wpU_bind (wpU_cells (wp_cons h4 (by tok) ?_))
    intro cn0 s5 T5 h5 e5 _
    refine wpU_bind (wpU_cells (wp_up h5 (h5.live (by tok)) ?_))
    intro s6 T6 h6 e6 _
    refine wpU_bind (wpU_cells (wp_cons h6 (by tok) ?_))
    intro cn1 s7 T7 h7 e7 _
    refine wpU_bind (wpU_cells (wp_X h7 (by tok) ?_))
    intro s8 T8 h8 e8
    refine hev h8 (by tok) ?_
    intro r t9 s9 T9 h9 e9
    exact k r t9 s9 T9 h9 (by tok)
  | _ => exact wpU_pure (k act t s T h (by tok))

theorem wpU_processR {cb c : Addr} {set : List Int} : ∀ (n : Nat) {Q : Addr → Trace → HSt → Prop} {t : Trace} {s : HSt} {T : Addr → Nat}
    {fds : Addr}, Inv s T → Live s fds → (∀ b, ones [c, cb] b ≤ T b) → PostU Q T [] → wpU (processRH ev cb set n c fds) Q os t s := by
  intro n
  induction n with
  | zero => intros; exact wpU_cells wp_oof
  | succ n ih =>
    intro Q t s T fds h lf tk k
    refine wpU_bind (wpU_cells (wp_alloc h .nil (by intro b; rw [occ_atom rfl]; omega) ?_))
    intro nl s1 T1 h1 e1 x1 _ _ m1
    replace e1 : ∀ b, T1 b = T b + one nl b := by intro b; have := e1 b; rw [occ_atom rfl] at this; omega
    have lf1 := lf.ext x1
    refine wpU_bind (wpU_cells (wp_dataOf lf1 fun cf hf => ?_))
    cases df : cf.data with
    | pair x y =>
      refine wpU_bind (wpU_action hev h1 lf1 hf df m1 rfl (by tok) ?_)
      intro act t2 s2 T2 h2 e2
      refine wpU_bind (wpU_cells (wp_fresh (by simp) fun lf2 => ?_))
      refine wpU_bind (wpU_cells (wp_dataOf (h2.live (by tok)) fun ca ha => ?_))
      cases da : ca.data with
      | num m =>
        refine wpU_bind (wpU_cells (wp_car h2 lf2 ?_))
        intro car s3 T3 h3 e3 x3
        refine wpU_bind (wpU_cells (wp_pairOf (lf2.ext x3) fun cf' x' y' hf' df' => ?_))
        have ly := h3.childCdr (lf2.ext x3) (by simp) hf' df'
        refine wpU_bind (ih h3 ly (by tok) ?_)
        intro nxt t4 s4 T4 h4 e4
        refine wpU_bind (wpU_cells (wp_cons h4 (by tok) ?_))
        intro cn0 s5 T5 h5 e5 x5
        have lcar : Live s5 car := (h4.live (by tok)).ext x5
        refine wpU_bind (wpU_cells (wp_dataOf lcar fun _ _ => ?_))
        refine wpU_bind (wpU_cells (wp_lift (number_ne _) fun i _ => ?_))
        refine wpU_ite (fun _ => ?_) (fun _ => ?_)
        · refine wpU_bind (wpU_cells (wp_up h5 (h5.live (by tok)) ?_))
          intro s6 T6 h6 e6 _
          refine wpU_bind (wpU_cells (wp_cons h6 (by tok) ?_))
          intro cn1 s7 T7 h7 e7 _
          refine wpU_bind (wpU_cells (wp_X h7 (by tok) ?_))
          intro s8 T8 h8 e8
          exact wpU_pure (k cn1 _ s8 T8 h8 (by tok))
        · refine wpU_bind (wpU_cells (wp_X h5 (by tok) ?_))
          intro s8 T8 h8 e8
          exact wpU_pure (k cn0 _ s8 T8 h8 (by tok))
      | nil =>
        refine wpU_bind (wpU_cells (wp_X h2 (by tok) ?_))
        intro s3 T3 h3 e3
        refine wpU_bind (wpU_cells (wp_fresh (by simp) fun lf3 => ?_))
        refine wpU_bind (wpU_cells (wp_pairOf lf3 fun cf' x' y' hf' df' => ?_))
        have lx := h3.childCar lf3 (by simp) hf' df'
        have ly := h3.childCdr lf3 (by simp) hf' df'
        refine wpU_bind (wpU_cells (wp_dataOf lx fun _ _ => ?_))
        refine wpU_bind (wpU_cells (wp_lift (number_ne _) fun i _ => ?_))
        refine wpU_bind (wpU_call fun _ _ => ?_)
        refine ih h3 ly (by tok) ?_
        intro r t4 s4 T4 h4 e4
        exact k r t4 s4 T4 h4 (by tok)
      | _ =>
        refine wpU_bind (wpU_cells (wp_X h2 (by tok) ?_))
        intro s3 T3 h3 e3
        refine wpU_bind (wpU_cells (wp_fresh (by simp) fun lf3 => ?_))
        refine wpU_bind (wpU_cells (wp_car h3 lf3 ?_))
        intro car s4 T4 h4 e4 x4
        refine wpU_bind (wpU_cells (wp_pairOf (lf3.ext x4) fun cf' x' y' hf' df' => ?_))
        have ly := h4.childCdr (lf3.ext x4) (by simp) hf' df'
        refine wpU_bind (ih h4 ly (by tok) ?_)
        intro nxt t5 s5 T5 h5 e5
        refine wpU_cells (wp_cons h5 (by tok) ?_)
        intro cn0 s6 T6 h6 e6 x6
        exact k cn0 _ s6 T6 h6 (by tok)
    | _ => exact wpU_pure (k nl _ s1 T1 h1 (by tok))

theorem wpU_process {n : Nat} {cb : Sym} {c fds : Addr} {set : List Int} (h : Inv s T) (lf : Live s fds) (tk : ∀ b, ones [c] b ≤ T b)
    (k : PostU Q T []) : wpU (processH ev n cb set c fds) Q os t s := by
  refine wpU_bind (wpU_cells (wp_mk h rfl ?_))
  intro cbk s1 T1 h1 e1 x1
  refine wpU_bind (wpU_processR hev n h1 (lf.ext x1) (by tok) ?_)
  intro r t2 s2 T2 h2 e2
  refine wpU_bind (wpU_cells (wp_X h2 (by tok) ?_))
  intro s3 T3 h3 e3
  exact wpU_pure (k r t2 s3 T3 h3 (by tok))

theorem wpU_select {n : Nat} {c fds : Addr} (h : Inv s T) (lf : Live s fds) (tk : ∀ b, ones [c] b ≤ T b) (k : PostU Q T []) :
    wpU (selectH ev n c fds) Q os t s := by
  refine wpU_bind (wpU_cells (wp_dataOf lf fun _ _ => ?_))
  refine wpU_ite (fun _ => wpU_nil h k) (fun _ => ?_)
  refine wpU_bind (wpU_cells (wp_selectSet h n lf fun p => ?_))
  refine wpU_bind (wpU_call fun r _ => ?_)
  refine wpU_ite (fun _ => wpU_nil h k) (fun _ => ?_)
  refine wpU_bind (wpU_process hev h lf tk ?_)
  intro rres t1 s1 T1 h1 e1
  refine wpU_bind (wpU_cells (wp_fresh (by simp) fun lf1 => ?_))
  refine wpU_bind (wpU_process hev h1 lf1 (by tok) ?_)
  intro eres t2 s2 T2 h2 e2
  refine wpU_bind (wpU_nil h2 ?_)
  intro nl t3 s3 T3 h3 e3
  refine wpU_bind (wpU_cells (wp_cons h3 (by tok) ?_))
  intro cn0 s4 T4 h4 e4 _
  refine wpU_cells (wp_cons h4 (by tok) ?_)
  intro r s5 T5 h5 e5 _
  exact k r _ s5 T5 h5 (by tok)

end

/-! ### Locality -/

/-- The same computation without the cells `H`, whatever the operating system. -/
def BlindU {α : Type} (H : List Addr) (m : HU α) : Prop := ∀ os t, Blind H (m os t)

section
variable {α β : Type} {H : List Addr}

theorem BlindU.bind {m : HU α} {f : α → HU β} (h : BlindU H m) (h' : ∀ a, BlindU H (f a)) : BlindU H (m >>= f) :=
  fun os t => Blind.bind (h os t) fun p => h' p.1 os p.2

theorem cells_bind {m : HM α} {f : α → HU β} {os : Sys} {t : Trace} : (onCells m >>= f) os t = m >>= fun a => f a os t := by
  funext s
  show (m s >>= _) >>= _ = m s >>= _
  cases m s <;> rfl

theorem run_cells {m : HM α} {f : α → HU β} {os : Sys} {t : Trace} {s s' : HSt} {a : α} (e : m s = .ok (a, s')) :
    (onCells m >>= f) os t s = f a os t s' := by
  rw [cells_bind]
  show (m s >>= fun p => f p.1 os t p.2) = _
  rw [e]
  rfl

theorem BlindU.cells {m : HM α} (h : Blind H m) : BlindU H (onCells m) := fun _ _ => Blind.bind h fun _ => .pure

theorem BlindU.cellsP {m : HM α} {P : α → Prop} {f : α → HU β} (h : BlindP H m P) (h' : ∀ a, P a → BlindU H (f a)) :
    BlindU H (onCells m >>= f) := by
  intro os t
  rw [cells_bind]
  exact h.bind fun a p => h' a p os t

theorem BlindU.pure {a : α} : BlindU H (Pure.pure a : HU α) := fun _ _ => Blind.pure
theorem BlindU.call {c : Call} : BlindU H (callH c) := fun _ _ => Blind.pure
theorem BlindU.ite {c : Prop} [Decidable c] {x y : HU α} (h : BlindU H x) (h' : BlindU H y) : BlindU H (if c then x else y) := by
  split <;> assumption

theorem loc_dataP {a : Addr} : BlindP H (dataOf a) fun _ => a ∉ H := by
  intro s hs
  unfold dataOf
  rcases loc_cellP (a := a) s hs with e | ⟨c, s1, e1, e2, hn, hf, hp⟩ | ⟨e, hn⟩
  · left
    show (cell a (hide H s) >>= _) = _
    rw [e]; rfl
  · right; left
    refine ⟨c.data, s1, ?_, ?_, hn, hf, hp⟩
    · show (cell a s >>= _) = _
      rw [e1]; rfl
    · show (cell a (hide H s) >>= _) = _
      rw [e2]; rfl
  · right; right
    refine ⟨?_, ?_⟩
    · show (cell a (hide H s) >>= _) = (cell a s >>= _)
      rw [e]
    · intro p
      show (cell a s >>= _) ≠ _
      cases hm : cell a s with
      | ok p => exact absurd hm (hn p)
      | _ => intro x; cases x

variable {ev : UEv} (hl : ∀ c a, BlindU H (ev c a))
include hl

theorem loc_dupFd {u : UB} {c any : Addr} : BlindU H (dupFdH ev u c any) := by
  refine .cellsP loc_carP fun e he => ?_
  refine (hl _ _).bind fun car => ?_
  refine BlindU.bind (.cells (loc_fresh he.1)) fun _ => ?_
  refine BlindU.bind (.cells loc_cdrH) fun cdr => ?_
  refine BlindU.bind (.cells loc_carH) fun e => ?_
  refine (hl _ _).bind fun tgt => ?_
  refine BlindU.bind (.cells loc_X) fun _ => ?_
  refine BlindU.bind (.cells loc_dataOf) fun _ => ?_
  refine BlindU.bind (.cells loc_dataOf) fun _ => ?_
  refine BlindU.bind (.cells loc_lift) fun _ => ?_
  refine .ite ?_ ?_
  · refine BlindU.call.bind fun _ => ?_
    exact BlindU.bind (.cells loc_Xs) fun _ => .cells loc_mkNum
  · refine BlindU.bind (.cells loc_lift) fun _ => ?_
    refine BlindU.call.bind fun _ => ?_
    exact BlindU.bind (.cells loc_Xs) fun _ => .cells loc_mkNum

omit hl in
theorem loc_selectSet : ∀ (n : Nat) {a : Addr}, Blind H (selectSetH n a) := by
  intro n
  induction n with
  | zero => intro a; exact loc_oof
  | succ n ih =>
    intro a
    refine Blind.bind loc_dataOf fun d => ?_
    cases d with
    | pair x y =>
      refine Blind.bind loc_dataOf fun d => ?_
      cases d with
      | num k =>
        dsimp only
        split
        · exact Blind.bind loc_lift fun _ => Blind.bind ih fun _ => .pure
        · exact Blind.bind ih fun _ => .pure
      | _ => exact Blind.bind ih fun _ => .pure
    | _ => exact .pure

theorem loc_action {cb c fds x act : Addr} {set : List Int} : BlindU H (actionH ev cb set c fds x act) := by
  refine BlindU.bind (.cells loc_dataOf) fun d => ?_
  cases d with
  | num k =>
    refine BlindU.bind (.cells loc_X) fun _ => ?_
    refine BlindU.bind (.cells loc_mkTrue) fun _ => ?_
    refine BlindU.bind (.cells loc_lift) fun _ => ?_
    refine .ite ?_ .pure
    refine BlindU.bind (.cells loc_carH) fun _ => ?_
    refine BlindU.bind (.cells loc_mkNil) fun _ => ?_
    refine BlindU.bind (.cells loc_consH) fun _ => ?_
    refine BlindU.bind (.cells loc_up) fun _ => ?_
    refine BlindU.bind (.cells loc_consH) fun _ => ?_
    refine BlindU.bind (.cells loc_X) fun _ => ?_
    exact hl _ _
  | _ => exact .pure

theorem loc_processR {cb c : Addr} {set : List Int} : ∀ (n : Nat) {fds : Addr}, BlindU H (processRH ev cb set n c fds) := by
  intro n
  induction n with
  | zero => intro fds; exact .cells loc_oof
  | succ n ih =>
    intro fds
    refine BlindU.bind (.cells loc_mkNil) fun _ => ?_
    refine .cellsP loc_dataP fun d hd => ?_
    cases d with
    | pair x y =>
      refine (loc_action hl).bind fun act => ?_
      refine BlindU.bind (.cells (loc_fresh hd)) fun _ => ?_
      refine BlindU.bind (.cells loc_dataOf) fun da => ?_
      cases da with
      | num m =>
        refine BlindU.bind (.cells loc_carH) fun _ => ?_
        refine BlindU.bind (.cells loc_pairOf) fun _ => ?_
        refine BlindU.bind ih fun _ => ?_
        refine BlindU.bind (.cells loc_consH) fun _ => ?_
        refine BlindU.bind (.cells loc_dataOf) fun _ => ?_
        refine BlindU.bind (.cells loc_lift) fun _ => ?_
        refine .ite ?_ ?_
        · refine BlindU.bind (.cells loc_up) fun _ => ?_
          refine BlindU.bind (.cells loc_consH) fun _ => ?_
          exact BlindU.bind (.cells loc_X) fun _ => .pure
        · exact BlindU.bind (.cells loc_X) fun _ => .pure
      | nil =>
        refine BlindU.bind (.cells loc_X) fun _ => ?_
        refine BlindU.bind (.cells (loc_fresh hd)) fun _ => ?_
        refine BlindU.bind (.cells loc_pairOf) fun _ => ?_
        refine BlindU.bind (.cells loc_dataOf) fun _ => ?_
        refine BlindU.bind (.cells loc_lift) fun _ => ?_
        exact BlindU.call.bind fun _ => ih
      | _ =>
        refine BlindU.bind (.cells loc_X) fun _ => ?_
        refine BlindU.bind (.cells (loc_fresh hd)) fun _ => ?_
        refine BlindU.bind (.cells loc_carH) fun _ => ?_
        refine BlindU.bind (.cells loc_pairOf) fun _ => ?_
        exact BlindU.bind ih fun _ => .cells loc_consH
    | _ => exact .pure

theorem loc_select {n : Nat} {c fds : Addr} : BlindU H (selectH ev n c fds) := by
  have pr : ∀ cb set, BlindU H (processH ev n cb set c fds) := fun cb set =>
    BlindU.bind (.cells loc_mkSym) fun _ => (loc_processR hl n).bind fun _ => BlindU.bind (.cells loc_X) fun _ => .pure
  refine .cellsP loc_dataP fun d hd => ?_
  refine .ite (.cells loc_mkNil) ?_
  refine BlindU.bind (.cells (loc_selectSet n)) fun _ => ?_
  refine BlindU.call.bind fun _ => ?_
  refine .ite (.cells loc_mkNil) ?_
  refine (pr _ _).bind fun _ => ?_
  refine BlindU.bind (.cells (loc_fresh hd)) fun _ => ?_
  refine (pr _ _).bind fun _ => ?_
  refine BlindU.bind (.cells loc_mkNil) fun _ => ?_
  refine BlindU.bind (.cells loc_consH) fun _ => ?_
  exact .cells loc_consH

end

/-- A pair that nothing else refers to is put back. -/
theorem InvO.unhide1 {s : HSt} {T : Addr → Nat} {a x y : Addr} {c : Cell} (h : Inv (hide [a] s) T) (hc : s.mem a = some c)
    (hn : a < s.next) (hr : c.refs = 1) (hd : c.data = .pair x y) (hk : c.cache = none) (t : ∀ b, one x b + one y b ≤ T b) :
    ∃ T', (∀ b, T' b + one x b + one y b = T b + one a b) ∧ Inv s T' := by
  have da := h.dead a (hide_in (by simp))
  have nz : a ∉ s.zombies := by
    intro hz
    have hl := (h.zomb a hz).1
    have : 0 < s.leaked.count a := List.count_pos_iff.2 hl
    unfold total roots at da
    simp only [hide] at da
    omega
  have key : ∀ b, edges ([] ++ s.zombies) (hide [a] s).mem s.next b + (one x b + one y b)
      = edges ([] ++ s.zombies) s.mem s.next b := by
    intro b
    have := edges_drop (x := b) (O := [] ++ s.zombies) (by simpa using nz) hn hc
    rw [hd, occ_pair] at this
    exact this
  have tot : ∀ b, total [] s (fun b => T b + one a b - one x b - one y b) b = total [] (hide [a] s) T b + one a b := by
    intro b
    have := key b
    have := t b
    have : roots (hide [a] s) b = roots s b := rfl
    unfold total
    show _ = edges ([] ++ s.zombies) (hide [a] s).mem s.next b + T b + _ + _
    dsimp only
    omega
  refine ⟨fun b => T b + one a b - one x b - one y b, by intro b; have := t b; dsimp only; omega, ?_, ?_, ?_, ?_, ?_, ?_, ?_⟩
  · intro b hb
    have := h.fresh b hb
    rwa [hide_out] at this
    intro e
    simp at e
    subst e
    exact absurd hn (Nat.not_lt.2 hb)
  · intro b cb hb
    rw [tot]
    by_cases e : b = a
    · subst e
      rw [hc] at hb; cases hb
      rw [da, one_self, hr]
    · rw [one_ne e]
      exact h.exact b cb (by rw [hide_out (by simpa using e)]; exact hb)
  · intro b hb
    have e : b ≠ a := by rintro rfl; rw [hc] at hb; cases hb
    rw [tot, one_ne e, h.dead b (by rw [hide_out (by simpa using e)]; exact hb)]
  · intro b cb hb _
    by_cases e : b = a
    · subst e
      rw [hc] at hb; cases hb
      omega
    · exact h.pos b cb (by rw [hide_out (by simpa using e)]; exact hb) (by simp)
  · intro o ho; cases ho
  · intro z hz
    have e : z ≠ a := by rintro rfl; exact nz hz
    refine ⟨(h.zomb z hz).1, ?_⟩
    have h1 := (h.zomb z hz).2
    have := key z
    have := t z
    have := one_ne e
    replace h1 : edges ([] ++ s.zombies) (hide [a] s).mem s.next z + T z + (s.globals.map Prod.snd).count z = 0 := h1
    omega
  · intro b cb d hb hcd
    by_cases e : b = a
    · subst e
      rw [hc] at hb; cases hb
      rw [hk] at hcd; cases hcd
    · exact h.cache b cb d (by rw [hide_out (by simpa using e)]; exact hb) hcd

/-- A native that is given what follows the first binding of its closure `full` and nothing else refers to `full`: it may use the content
of `full` as if it owned it. -/
theorem wp_hidden {α : Type} {m : HM α} {Q : α → HSt → Prop} {s : HSt} {T : Addr → Nat} {full x y : Addr} {cf : Cell}
    (hl : ∀ H, Blind H m) (h : Inv s T) (t : ∀ b, one full b ≤ T b) (hf : s.mem full = some cf) (rf : cf.refs = 1)
    (df : cf.data = .pair x y) (kf : cf.cache = none) (res : α → Addr → Nat)
    (w : ∀ s1 T1, Inv s1 T1 → (∀ b, T1 b + one full b = T b + one x b + one y b) → (∀ b, b ≠ full → s1.mem b = s.mem b) →
      wp m (fun a s' => ∃ T', Inv s' T' ∧ ∀ b, T' b = T1 b + res a b) s1)
    (k : ∀ a s' T', Inv s' T' → (∀ b, T' b = T b + res a b) → Q a s') : wp m Q s := by
  obtain ⟨nx, ny, T1, e1, h1⟩ := h.hide1 hf rf df t
  have w1 := w _ T1 h1 e1 (fun b hb => hide_out (by simpa using hb))
  have lt : ∀ x ∈ [full], x < s.next := by
    intro x hx
    simp only [List.mem_cons, List.not_mem_nil, or_false] at hx
    subst hx
    exact h.lt hf
  unfold wp at *
  rcases hl [full] s lt with e | ⟨a, s', e, e', hn, hm, _⟩ | ⟨e, hn⟩
  · rw [e] at w1; exact absurd rfl w1
  · rw [e'] at w1
    obtain ⟨T2, h2, e2⟩ := w1
    have hf' : s'.mem full = some cf := by rw [hm full (by simp)]; exact hf
    have le : ∀ b, one x b + one y b ≤ T1 b := by
      intro b
      have h3 := e1 b
      have h4 := t b
      omega
    obtain ⟨T3, e3, h3⟩ := InvO.unhide1 h2 hf' (Nat.lt_of_lt_of_le (h.lt hf) hn) rf df kf (by
      intro b
      have := le b
      have := e2 b
      omega)
    rw [e]
    refine k a s' T3 h3 fun b => ?_
    have := e1 b
    have := e2 b
    have := e3 b
    have := le b
    omega
  · rw [e] at w1
    cases hm : m s with
    | ok p => exact absurd hm (hn p)
    | ub u => rw [hm] at w1; exact w1
    | _ => trivial

section
variable {os : Sys} {ev : UEv}

theorem same_cells {α β : Type} {m m' : HM α} {f f' : α → HU β} {t : Trace} (h : SameOk m m')
    (h' : ∀ a t, SameOk (f a os t) (f' a os t)) : SameOk ((onCells m >>= f) os t) ((onCells m' >>= f') os t) := by
  rw [cells_bind, cells_bind]
  exact .bind h fun a => h' a t

theorem same_dupFd {u u' : UB} {c any : Addr} {t : Trace} : SameOk (dupFdH ev u c any os t) (dupFdH ev u' c any os t) := by
  refine same_cells .refl fun e t => ?_
  refine SameOk.bind .refl fun p => ?_
  exact same_cells .fresh fun _ _ => .refl

theorem wpU_callUnix (hev : EvSpecU os ev) (hl : ∀ H c a, BlindU H (ev c a)) (n : Nat) {Q : Addr → Trace → HSt → Prop} {t : Trace}
    {s : HSt} {T : Addr → Nat} {op : UnixOp} {clos closure : Addr} (h : Inv s T) (tk : ∀ b, ones [clos, closure] b ≤ T b)
    (k : PostU Q T []) : wpU (callUnixH n ev op clos closure) Q os t s := by
  have lc : Live s clos := h.live (by tok)
  cases op with
  | fork => exact wpU_fork h k
  | pipe => exact wpU_pipe h k
  | connect =>
    refine wpU_bind (wpU_cells (wp_pop h lc fun y c ly lc1 => ?_))
    refine wpU_bind (wpU_cells (wp_pop h lc1 fun x c lx _ => ?_))
    exact wpU_connect h lx ly k
  | accept => exact wpU_bind (wpU_cells (wp_pop h lc fun x c lx _ => wpU_accept h lx k))
  | listen => exact wpU_bind (wpU_cells (wp_pop h lc fun x c lx _ => wpU_listen h lx k))
  | unlink => exact wpU_bind (wpU_cells (wp_pop h lc fun x c lx _ => wpU_unlink h lx k))
  | wait => exact wpU_bind (wpU_cells (wp_pop h lc fun x c lx _ => wpU_wait h lx k))
  | close =>
    refine wpU_bind (wpU_cells (wp_pop h lc fun x c lx _ => ?_))
    refine wpU_bind (wpU_cells (wp_expect fun e => ?_))
    exact wpU_close hev h lx (by rw [e]; tok) k
  | time =>
    refine wpU_bind (wpU_cells (wp_pop h lc fun x c lx _ => ?_))
    refine wpU_bind (wpU_cells (wp_expect fun e => ?_))
    exact wpU_time hev h lx (by rw [e]; tok) k
  | dup =>
    refine wpU_bind (wpU_cells (wp_bind (wp_pairOf lc fun cf kv c hf df => ?_)))
    have lk : Live s kv := h.childCar lc (by simp) hf df
    refine wp_bind (wp_pairOf lk fun ck ky any hk dk => ?_)
    have la : Live s any := h.childCdr lk (by simp) hk dk
    refine wp_pure ?_
    refine wpU_bind (wpU_cells (wp_expect fun e => ?_))
    have e' : c = closure := e
    subst e'
    have st : wpU (dupFdH ev .staleArg c any) Q os t s := wpU_dup hev h la (by tok) (by simp) k
    refine wpU_bind (wpU_cells (wp_bind (wp_cell lc fun cf' hf' => ?_)))
    rw [hf] at hf'; cases hf'
    refine wp_bind (wp_pairOf lc fun cf' kv' c' hf' df' => ?_)
    rw [hf] at hf'; cases hf'
    rw [df] at df'; cases df'
    refine wp_bind (wp_cell lk fun ck' hk' => ?_)
    rw [hk] at hk'; cases hk'
    refine wp_pure ?_
    split
    · rename_i hr
      refine wp_own (m' := dupFdH ev .staleArg c any os t) (fun H => loc_dupFd (hl H) os t) same_dupFd h (by tok) hf hr.1 df hk hr.2 dk ?_ st
      intro s1 T1 h1 e1
      exact wpU_dup (Q := fun _ _ _ => True) hev h1 (h1.live (by tok)) (by tok) (fun _ => by tok) (fun _ _ _ _ _ _ => trivial)
    · exact st

theorem wpU_callExec (n : Nat) {Q : Unit → Trace → HSt → Prop} {t : Trace} {s : HSt} {T : Addr → Nat} {clos : Addr} (h : Inv s T)
    (tk : ∀ b, ones [clos] b ≤ T b) (k : ∀ t' s' T', Inv s' T' → (∀ b, T' b = T b) → Q () t' s') :
    wpU (callExecH n clos) Q os t s := by
  have lc : Live s clos := h.live (by tok)
  refine wpU_bind (wpU_cells (wp_bind (wp_pairOf lc fun cf kv c hf df => ?_)))
  have lk : Live s kv := h.childCar lc (by simp) hf df
  have lc1 : Live s c := h.childCdr lc (by simp) hf df
  refine wp_bind (wp_pairOf lk fun ck ky z hk dk => ?_)
  refine wp_pure ?_
  refine wpU_bind (wpU_cells (wp_pop h lc1 fun y c ly lc2 => ?_))
  refine wpU_bind (wpU_cells (wp_pop h lc2 fun x c lx _ => ?_))
  refine wpU_exec h lx ly ?_ k
  intro s' T' h' e' f
  have l' : Live s' clos := h'.live (by tok)
  obtain ⟨cf', hf'⟩ := l'.1
  obtain ⟨c0, h0, d0⟩ := f.mem clos cf' (h.lt hf) hf'
  rw [hf] at h0; cases h0
  have lk' : Live s' kv := h'.childCar l' (by simp) hf' (d0.trans df)
  obtain ⟨ck', hk'⟩ := lk'.1
  obtain ⟨c1, h1, d1⟩ := f.mem kv ck' (h.lt hk) hk'
  rw [hk] at h1; cases h1
  exact h'.childCdr lk' (by simp) hk' (d1.trans dk)

theorem wpU_callSelect (hev : EvSpecU os ev) (hl : ∀ H c a, BlindU H (ev c a)) (n : Nat) {Q : Addr → Trace → HSt → Prop} {t : Trace}
    {s : HSt} {T : Addr → Nat} {clos : Addr} {cf : Cell} (h : Inv s T) (tk : ∀ b, one clos b ≤ T b) (hf : s.mem clos = some cf)
    (rf : cf.refs = 1) (kf : cf.cache = none) (k : PostU Q T []) : wpU (callSelectH n ev clos) Q os t s := by
  have lc : Live s clos := h.live tk
  refine wpU_bind (wpU_cells (wp_bind (wp_pairOf lc fun cf' kv c hf' df => ?_)))
  rw [hf] at hf'; cases hf'
  have lk : Live s kv := h.childCar lc (by simp) hf df
  refine wp_bind (wp_pairOf lk fun ck ky any hk dk => ?_)
  refine wp_pure ?_
  refine wp_hidden (fun H => loc_select (hl H) os t) h tk hf rf df kf (fun p => one p.1) ?_ ?_
  · intro s1 T1 h1 e1 m1
    have nk : kv ≠ clos := (h.hide1 hf rf df tk).1
    have lk1 : Live s1 kv := h1.live (by tok)
    have la1 : Live s1 any := h1.childCdr lk1 (by simp) (by rw [m1 kv nk]; exact hk) dk
    refine wpU_select (Q := fun r _ s' => ∃ T', Inv s' T' ∧ ∀ b, T' b = T1 b + one r b) hev h1 la1 (by tok) ?_
    intro r t' s' T' h' e'
    exact ⟨T', h', by tok⟩
  · intro p s' T' h' e'
    exact k p.1 p.2 s' T' h' (by tok)

end

/-! ### The evaluator of `Verif.HeapEval` -/

theorem evU_spec (os : Sys) (n : Nat) : EvSpecU os (evU n) := by
  intro Q t s0 T0 closure a h tk k
  refine wpU_cells (wp_evalN n h tk ?_)
  intro r s' T' h' e
  exact k r t s' T' h' e

theorem evU_blind (n : Nat) (H : List Addr) (c a : Addr) : BlindU H (evU n c a) := .cells (loc_evalNH n c a)

theorem wpU_trial {α : Type} {os : Sys} {n : Nat} {ops : List Native} {es : List Val} {bs ds : Val} {call : Addr → Addr → HU α}
    {Q : α → Trace → HSt → Prop} {t : Trace} {s : HSt} {T : Addr → Nat} {res : α → Addr → Nat} (h : Inv s T)
    (hc : ∀ {Q : α → Trace → HSt → Prop} {t s T clos closure}, Inv s T → (∀ b, ones [clos, closure] b ≤ T b) →
      (∀ r t' s' T', Inv s' T' → (∀ b, T' b = T b + res r b) → Q r t' s') → wpU (call clos closure) Q os t s)
    (k : ∀ r t' s' T', Inv s' T' → (∀ b, T' b = T b + res r b) → Q r t' s') : wpU (trialH n ops es bs ds call) Q os t s := by
  refine wpU_bind (wpU_cells (wp_load ops h ?_))
  intro s1 h1
  refine wpU_bind (wpU_nil h1 ?_)
  intro nl t2 s2 T2 h2 e2
  refine wpU_bind (wpU_nil h2 ?_)
  intro r t3 s3 T3 h3 e3
  refine wpU_bind (wpU_cells (wp_topLoop n es h3 (by tok) ?_))
  intro r s4 T4 h4 e4
  refine wpU_bind (wpU_cells (wp_X h4 (by tok) ?_))
  intro s5 T5 h5 e5
  refine wpU_bind (wpU_cells (wp_build bs h5 ?_))
  intro e s6 T6 h6 e6
  refine wpU_bind (wpU_cells (wp_evalN n h6 (by tok) ?_))
  intro bscl s7 T7 h7 e7
  refine wpU_bind (wpU_cells (wp_build ds h7 ?_))
  intro e s8 T8 h8 e8
  refine wpU_bind (wpU_cells (wp_evalN n h8 (by tok) ?_))
  intro dscl s9 T9 h9 e9
  refine wpU_bind (wpU_cells (wp_nativeClos n h9 (by tok) ?_))
  intro clos s10 T10 h10 e10
  refine wpU_bind (hc h10 (by tok) ?_)
  intro r t11 s11 T11 h11 e11
  refine wpU_bind (wpU_cells (wp_Xs h11 (by tok) ?_))
  intro s12 T12 h12 e12
  exact wpU_pure (k r t11 s12 T12 h12 (by tok))

/-! ### C84 -/

section
variable {os : Sys} {ev : UEv}

/-- **C84**, one call in any memory: whatever the operating system answers, and for every evaluator that keeps the books (`EvSpecU`) and uses
only what it is given (`BlindU`), a native of `unix` or `sys` accesses no released cell. -/
theorem C84_no_use_after_free (hev : EvSpecU os ev) (hl : ∀ H c a, BlindU H (ev c a)) {n : Nat} {op : UnixOp} {t : Trace} {s : HSt}
    {T : Addr → Nat} {clos closure : Addr} (h : Inv s T) (own : ∀ b, ones [clos, closure] b ≤ T b) :
    callUnixH n ev op clos closure os t s ≠ .ub .useAfterFree := by
  have w := wpU_callUnix hev hl n (Q := fun _ _ _ => True) (op := op) (t := t) h own (fun _ _ _ _ _ _ => trivial)
  unfold wpU wp at w
  intro e
  rw [e] at w
  exact w rfl

/-- **C84**: and it keeps the books: all counts are exact afterwards, and the only reference that has been added is its value. -/
theorem C84_counts (hev : EvSpecU os ev) (hl : ∀ H c a, BlindU H (ev c a)) {n : Nat} {op : UnixOp} {t t' : Trace} {s s' : HSt}
    {T : Addr → Nat} {clos closure r : Addr} (h : Inv s T) (own : ∀ b, ones [clos, closure] b ≤ T b)
    (run : callUnixH n ev op clos closure os t s = .ok ((r, t'), s')) : ∃ T', Inv s' T' ∧ ∀ b, T' b = T b + one r b := by
  have w := wpU_callUnix hev hl n (Q := fun r _ s' => ∃ T', Inv s' T' ∧ ∀ b, T' b = T b + one r b) (op := op) (t := t) h own
    (fun r _ s' T' h' e => ⟨T', h', by tok⟩)
  unfold wpU wp at w
  rw [run] at w
  exact w

/-- **C84**: nothing is lost: once its value has been released, every allocated cell is reachable from what the caller owned before, from the
globals or from an abandoned reference. -/
theorem C84_reach (hev : EvSpecU os ev) (hl : ∀ H c a, BlindU H (ev c a)) {n : Nat} {op : UnixOp} {t t' : Trace} {s s' : HSt}
    {T : Addr → Nat} {clos closure a : Addr} {c : Cell} (h : Inv s T) (own : ∀ b, ones [clos, closure] b ≤ T b)
    (run : (callUnixH n ev op clos closure >>= fun r => onCells (X r)) os t s = .ok (((), t'), s')) (ac : Acyclic s')
    (hc : s'.mem a = some c) : Reach s' (fun b => 0 < T b ∨ b ∈ s'.globals.map Prod.snd ∨ b ∈ s'.leaked) a := by
  have w : wpU (callUnixH n ev op clos closure >>= fun r => onCells (X r)) (fun _ _ s' => Inv s' T) os t s := by
    refine wpU_bind (wpU_callUnix hev hl n h own ?_)
    intro r t1 s1 T1 h1 e1
    refine wpU_cells (wp_X h1 (by tok) ?_)
    intro s2 T2 h2 e2
    exact h2.congr (by tok)
  unfold wpU wp at w
  rw [run] at w
  exact w.reach ac hc

/-- **C84**: `dup` is the only one that reads its argument again after user code has run. If nothing else refers to its closure and to the first
binding, which is so for every ordinary call (`C04_own`), then a released argument is reported as `useAfterFree`,
which `C84_no_use_after_free` excludes. -/
theorem C84_dup {n : Nat} {t : Trace} {s : HSt} {clos kv any k closure : Addr} {cf ck : Cell} (hf : s.mem clos = some cf)
    (rf : cf.refs = 1) (df : cf.data = .pair kv closure) (hk : s.mem kv = some ck) (rk : ck.refs = 1) (dk : ck.data = .pair k any) :
    callUnixH n ev .dup clos closure os t s = dupFdH ev .useAfterFree closure any os t s := by
  have p1 : pairOf clos s = .ok ((kv, closure), s) := by
    simp only [pairOf, dataOf, cell, Bind.bind, HM.bind, hf, df, Res.bind, Pure.pure, HM.pure]
  have p2 : pairOf kv s = .ok ((k, any), s) := by
    simp only [pairOf, dataOf, cell, Bind.bind, HM.bind, hk, dk, Res.bind, Pure.pure, HM.pure]
  have c1 : cell clos s = .ok (cf, s) := by simp only [cell, hf]
  have c2 : cell kv s = .ok (ck, s) := by simp only [cell, hk]
  have po : popH clos s = .ok ((any, closure), s) := by
    show (pairOf clos s >>= _) = _
    rw [p1]
    show (pairOf kv s >>= _) = _
    rw [p2]; rfl
  have ow : ownH clos s = .ok (.useAfterFree, s) := by
    show (cell clos s >>= _) = _
    rw [c1]
    show (pairOf clos s >>= _) = _
    rw [p1]
    show (cell kv s >>= _) = _
    rw [c2]
    show Res.ok (if cf.refs = 1 ∧ ck.refs = 1 then UB.useAfterFree else UB.staleArg, s) = _
    rw [if_pos ⟨rf, rk⟩]
  have ex : expectEnv closure closure s = .ok ((), s) := by unfold expectEnv; rw [if_pos rfl]; rfl
  exact (run_cells po).trans ((run_cells ex).trans (run_cells ow))

/-- **C84**: `exec`, which does not return, accesses no released cell and keeps the books, except for the strings that it abandons. -/
theorem C84_exec {n : Nat} {t : Trace} {s : HSt} {T : Addr → Nat} {clos : Addr} (h : Inv s T) (own : ∀ b, one clos b ≤ T b) :
    callExecH n clos os t s ≠ .ub .useAfterFree ∧ ∀ t' s', callExecH n clos os t s = .ok (((), t'), s') → Inv s' T := by
  have w := wpU_callExec n (os := os) (Q := fun _ _ s' => Inv s' T) (t := t) h (by tok) (fun _ s' T' h' e => h'.congr (by tok))
  unfold wpU wp at w
  constructor
  · intro e
    rw [e] at w
    exact w rfl
  · intro t' s' e
    rw [e] at w
    exact w

end

/-- **C84**, whole programs: load natives, evaluate expressions, then call a native of `unix` or `sys` with arguments that have been
evaluated, and release its closure. No released cell is accessed, whatever the operating system answers. -/
theorem C84_program (os : Sys) (n : Nat) (ops : List Native) (es : List Val) (bs ds : Val) (op : UnixOp) (t : Trace) :
    trialH n ops es bs ds (callUnixH n (evU n) op) os t emptyH ≠ .ub .useAfterFree := by
  have w := wpU_trial (os := os) (n := n) (ops := ops) (es := es) (bs := bs) (ds := ds) (call := callUnixH n (evU n) op) (t := t)
    (Q := fun _ _ _ => True) (res := one) inv_empty
    (fun h own k => wpU_callUnix (evU_spec os n) (evU_blind n) n h own fun r t' s' T' h' e => k r t' s' T' h' (by tok))
    (fun _ _ _ _ _ _ => trivial)
  unfold wpU wp at w
  intro e
  rw [e] at w
  exact w rfl

/-- **C84**, whole programs: and when the value has been released too, what is left is reachable from the globals or abandoned. -/
theorem C84_clean {os : Sys} {n : Nat} {ops : List Native} {es : List Val} {bs ds : Val} {op : UnixOp} {t t' : Trace} {s' : HSt} {a : Addr}
    {c : Cell} (run : (trialH n ops es bs ds (callUnixH n (evU n) op) >>= fun r => onCells (X r)) os t emptyH = .ok (((), t'), s'))
    (ac : Acyclic s') (hc : s'.mem a = some c) : Reach s' (fun b => b ∈ s'.globals.map Prod.snd ∨ b ∈ s'.leaked) a := by
  have w : wpU (trialH n ops es bs ds (callUnixH n (evU n) op) >>= fun r => onCells (X r)) (fun _ _ s' => Inv s' fun _ => 0) os t emptyH := by
    refine wpU_bind (wpU_trial (res := one) inv_empty
      (fun h own k => wpU_callUnix (evU_spec os n) (evU_blind n) n h own fun r t' s' T' h' e => k r t' s' T' h' (by tok)) ?_)
    intro r t1 s1 T1 h1 e1
    refine wpU_cells (wp_X h1 (by tok) ?_)
    intro s2 T2 h2 e2
    exact h2.congr (by tok)
  unfold wpU wp at w
  rw [run] at w
  have := w.reach ac hc
  simpa using this

/-- An operating system that grants everything: descriptor 9, no peer, all descriptors ready. -/
def grant : Sys := fun _ c => match c with
  | .select _ r e => { ret := 1, rd := r, er := e }
  | _ => { ret := 9 }

deriving instance DecidableEq for Unix.Call

/-- The calls, latest first, and how many cells are left, the globals not counted. -/
def outcome {α : Type} (m : HU α) : Option (List Call × Nat) := match m grant [] emptyH with
  | .ok ((_, t), s) => some (t.map Prod.fst, ((List.range s.next).filter fun a => (s.mem a).isSome).length)
  | _ => none

set_option cbv.maxSteps 10000000 in
/-- `(dup 3 4)`: descriptor 4 is replaced; the cells that are left are those of the natives that have been loaded. -/
example : outcome (trialH 30 [.quote, .list, .cons] [] (L [S "list", L [S "cons", Q (S "ANY"), Q (L [N 3, N 4])]]) .nil
    (callUnixH 30 (evU 30) .dup) >>= fun r => onCells (X r)) = some ([.dup2 3 4],
    match outcome (onCells (loadH [.quote, .list, .cons])) with | some p => p.2 | none => 0) := by decide_cbv

set_option cbv.maxSteps 10000000 in
/-- **C84**: the hypothesis of `C84_dup` is needed. `G` and the closure of `dup` share the binding of the argument, as they can if the program has built
the closure by hand; evaluating the first descriptor calls `G`, which replaces the argument. -/
theorem C84_dup_counterexample : trialH 40 [.set, .quote, .setq, .cons, .list, .car]
      [L [S "setq", S "D", L [S "list", L [S "cons", Q (S "ANY"), Q (L [L [S "G"], N 7])]]],
       L [S "setq", S "G", L [S "cons", .nil, L [S "cons", S "D", Q (L [L [S "<-", Q (S "ANY"), N 5], Q (N 3)])]]]]
      (L [S "list", L [S "car", S "D"]]) .nil (callUnixH 40 (evU 40) .dup) grant [] emptyH = .ub .staleArg := isStale_eq (by decide_cbv)

/-! ### C85 -/

/-- **C85** (partial): `select` accesses no released cell and keeps the books, if nothing else refers to its closure.

Missing from the full statement: `select` walks the list of descriptors without owning it, while the callbacks run (`select.c:63-97`, `select.c:141`).
If a callback releases a cell of the list then the model reports the outcome `staleArg`. This does happen:
`C85_select_counterexample`. -/
theorem C85_select_partial {os : Sys} {ev : UEv} (hev : EvSpecU os ev) (hl : ∀ H c a, BlindU H (ev c a)) {n : Nat} {t : Trace} {s : HSt}
    {T : Addr → Nat} {clos : Addr} {cf : Cell} (h : Inv s T) (own : ∀ b, one clos b ≤ T b) (hf : s.mem clos = some cf)
    (rf : cf.refs = 1) (kf : cf.cache = none) :
    callSelectH n ev clos os t s ≠ .ub .useAfterFree ∧
      ∀ r t' s', callSelectH n ev clos os t s = .ok ((r, t'), s') → ∃ T', Inv s' T' ∧ ∀ b, T' b = T b + one r b := by
  have w := wpU_callSelect hev hl n (Q := fun r _ s' => ∃ T', Inv s' T' ∧ ∀ b, T' b = T b + one r b) (t := t) h own hf rf kf
    (fun r _ s' T' h' e => ⟨T', h', by tok⟩)
  unfold wpU wp at w
  constructor
  · intro e
    rw [e] at w
    exact w rfl
  · intro r t' s' e
    rw [e] at w
    exact w

set_option cbv.maxSteps 10000000 in
/-- **C85**: the full statement is false. The callback `G` and the closure of `select` share the binding of the list of descriptors; the callback
replaces the list while `select` walks it. -/
theorem C85_select_counterexample : trialH 40 [.set, .quote, .setq, .cons, .list, .car]
      [L [S "setq", S "D", L [S "list", L [S "cons", Q (S "ON_ERROR"), Q (L [N 5])]]],
       L [S "setq", S "G", L [S "cons", Q (L [S "fd"]), L [S "cons", S "D", Q (L [L [S "<-", Q (S "ON_ERROR"), N 5], N 5])]]]]
      (L [S "list", L [S "car", S "D"], L [S "cons", Q (S "ON_READ"), S "G"]]) .nil (fun clos _ => callSelectH 40 (evU 40) clos)
      grant [] emptyH = .ub .staleArg := isStale_eq (by decide_cbv)

set_option cbv.maxSteps 10000000 in
/-- The same call with a binding of its own is fine: both sets are processed, the callback is called for descriptor 5 and keeps it. -/
example : (outcome (trialH 40 [.set, .quote, .setq, .cons, .list, .car]
      [L [S "setq", S "D", L [S "list", L [S "cons", Q (S "ON_ERROR"), Q (L [N 5])]]],
       L [S "setq", S "G", L [S "cons", Q (L [S "fd"]), L [S "cons", S "D", Q (L [L [S "<-", Q (S "ON_ERROR"), N 5], N 5])]]]]
      (L [S "list", L [S "cons", Q (S "ON_ERROR"), Q (L [N 5])], L [S "cons", Q (S "ON_READ"), S "G"]]) .nil
      (fun clos _ => callSelectH 40 (evU 40) clos))).map Prod.fst = some [.select 6 [5] [5]] := by decide_cbv

end Heap
end Mnml
