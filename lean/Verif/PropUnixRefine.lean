import Verif.HeapUnix
import Verif.RefineTop
import Verif.Relax

/-!
# C86: the natives of `unix` on cells and on trees

The theorems about the calls that the natives make (C63–C68) are about `Verif.Unix`, where values are trees. Here the natives that do not
evaluate are shown to make the same calls and to give the same value on cells (`Verif.HeapUnix`).
-/

set_option maxRecDepth 100000

namespace Mnml
namespace Heap

open Unix (Sys Trace Call U)

/-- The call of a native that evaluates nothing, on trees: the arguments are the values of the first bindings of the closure, the last
argument first (`LISP_ARGS`, `include/mnml/module.h`). -/
def callUnixV (op : UnixOp) (clos : Val) : U Val :=
  match op with
  | .fork => Unix.natFork
  | .pipe => Unix.natPipe
  | .connect => do
    let p ← U.lift (popArg clos)
    let q ← U.lift (popArg p.2)
    Unix.natConnect q.1 p.1
  | .accept => do
    let p ← U.lift (popArg clos)
    Unix.natAccept p.1
  | .listen => do
    let p ← U.lift (popArg clos)
    Unix.natListen p.1
  | .unlink => do
    let p ← U.lift (popArg clos)
    Unix.natUnlink p.1
  | .wait => do
    let p ← U.lift (popArg clos)
    Unix.natWait p.1
  | _ => U.lift .unsupported

/-- The call of `exec` on trees. -/
def callExecV (clos : Val) : U Unit := do
  let p ← U.lift (popArg clos)
  let q ← U.lift (popArg p.2)
  let r ← U.lift (popArg q.2)
  Unix.natExec r.1 q.1 p.1

/-- The natives that evaluate. -/
def UnixOp.evaluates : UnixOp → Bool
  | .close | .dup | .time => true
  | _ => false

/-- If `m` succeeds then `Q` holds. -/
def SatU {α : Type} (m : HU α) (Q : α → Trace → HSt → Prop) (os : Sys) (t : Trace) (s : HSt) : Prop :=
  Sat (m os t) (fun p s' => Q p.1 p.2 s') s

/-- The computation `u` on trees makes the same calls and gives the value that `r` represents. -/
def GoalU (u : U Val) (os : Sys) (t : Trace) (st : St) (Γ : List B) (r : Addr) (t' : Trace) (s' : HSt) : Prop :=
  ∃ v, u os t = .ok (v, t') ∧ Sim (.tok r v [] :: Γ) s' st

section
variable {α β : Type} {os : Sys} {t : Trace} {s : HSt} {st : St} {Γ : List B}

theorem SatU.bind {x : HU α} {f : α → HU β} {Q : β → Trace → HSt → Prop}
    (h : SatU x (fun a t' s' => SatU (f a) Q os t' s') os t s) : SatU (x >>= f) Q os t s := Sat.bind h

theorem SatU.cells {m : HM α} {Q : α → Trace → HSt → Prop} (h : Sat m (fun a s' => Q a t s') s) : SatU (onCells m) Q os t s :=
  Sat.bind (h.mono fun _ _ q => Sat.pure q)

theorem SatU.ite {c : Prop} [Decidable c] {x y : HU α} {Q : α → Trace → HSt → Prop} (h1 : c → SatU x Q os t s)
    (h2 : ¬ c → SatU y Q os t s) : SatU (if c then x else y) Q os t s := by
  split
  · exact h1 ‹_›
  · exact h2 ‹_›

/-- A call on both sides. -/
theorem SatU.call {c : Call} {f : Unix.Rep → HU Addr} {g : Unix.Rep → U Val}
    (h : ∀ r t', SatU (f r) (GoalU (g r) os t' st Γ) os t' s) :
    SatU (callH c >>= f) (GoalU (Unix.sys c >>= g) os t st Γ) os t s :=
  SatU.bind (Sat.pure (h _ _))

theorem SatU.iteg {c : Prop} [Decidable c] {x y : HU Addr} {u v : U Val} (h1 : c → SatU x (GoalU u os t st Γ) os t s)
    (h2 : ¬ c → SatU y (GoalU v os t st Γ) os t s) : SatU (if c then x else y) (GoalU (if c then u else v) os t st Γ) os t s := by
  split
  · exact h1 ‹_›
  · exact h2 ‹_›

theorem SatU.nil (h : Sim Γ s st) : SatU (onCells mkNil) (GoalU (pure .nil) os t st Γ) os t s :=
  .cells (sat_nil h fun _ _ h' => ⟨_, rfl, h'⟩)
theorem SatU.num {k : Int} (h : Sim Γ s st) : SatU (onCells (mkNum k)) (GoalU (pure (.num k)) os t st Γ) os t s :=
  .cells (sat_num h fun _ _ h' => ⟨_, rfl, h'⟩)
theorem SatU.bool {b : Bool} (h : Sim Γ s st) : SatU (onCells (mkBool b)) (GoalU (pure (Unix.truth b)) os t st Γ) os t s :=
  .cells (sat_bool h fun _ _ h' => ⟨_, rfl, by cases b <;> exact h'⟩)

theorem SatU.step {γ : Type} {m : HU Addr} {r : Res γ} {a : γ} {g : γ → U Val} (e : r = .ok a)
    (h : SatU m (GoalU (g a) os t st Γ) os t s) : SatU m (GoalU (U.lift r >>= g) os t st Γ) os t s := by
  subst e; exact h

theorem sat_cbuffer {Q : List UInt8 × Nat → HSt → Prop} {n len cap : Nat} {a : Addr} {v : Val} (r : Rep s.mem a v)
    (k : ∀ b l, (makeCString v len 0 >>= fun p => store cap p.1 >>= fun b => .ok (b.takeWhile (· ≠ 0), p.2)) = .ok (b, l) → Q (b, l) s) :
    Sat (cbufferH n a len cap) Q s := by
  refine Sat.bind (sat_cstring n r fun p hp => ?_)
  refine Sat.bind (Sat.lift fun b hb => Sat.pure (k _ _ ?_))
  rw [hp]
  show (store cap p.1 >>= _) = _
  rw [hb]; rfl

theorem cbuffer_of {v : Val} {len cap : Nat} {b : List UInt8} {l : Nat}
    (h : (makeCString v len 0 >>= fun p => store cap p.1 >>= fun b => Res.ok (b.takeWhile (· ≠ 0), p.2)) = .ok (b, l)) :
    Module.cbuffer v len cap = .ok b := by
  unfold Module.cbuffer
  cases h1 : makeCString v len 0 with
  | ok p =>
    rw [h1] at h
    change (store cap p.1 >>= _) = _ at h
    show (store cap p.1 >>= _) = _
    cases h2 : store cap p.1 with
    | ok c => rw [h2] at h; cases h; rfl
    | _ => rw [h2] at h; cases h
  | _ => rw [h1] at h; cases h

theorem sat_fork (h : Sim Γ s st) : SatU forkH (GoalU Unix.natFork os t st Γ) os t s := .call fun _ _ => .num h

theorem sat_pipe (h : Sim Γ s st) : SatU pipeH (GoalU Unix.natPipe os t st Γ) os t s := by
  refine .call fun r t' => .iteg (fun _ => .nil h) fun _ => ?_
  refine .bind (.cells (sat_num h fun a s1 h1 => ?_))
  refine .bind (.cells (sat_num h1 fun b s2 h2 => ?_))
  exact .cells (sat_cons' h2.mv2 fun r s3 h3 => ⟨_, rfl, h3⟩)

theorem sat_unlink {n : Nat} {x : Addr} {vx : Val} (h : Sim Γ s st) (p : Pin Γ x vx) :
    SatU (unlinkH n x) (GoalU (Unix.natUnlink vx) os t st Γ) os t s := by
  refine .bind (.cells (sat_isString n (h.prep p) ?_))
  refine .iteg (fun _ => .nil h) fun _ => ?_
  refine .bind (.cells (sat_cbuffer (h.prep p) fun b l hb => ?_))
  refine .step (cbuffer_of hb) ?_
  exact .call fun _ _ => .bool h

theorem sat_wait {x : Addr} {vx : Val} (h : Sim Γ s st) (p : Pin Γ x vx) :
    SatU (waitH x) (GoalU (Unix.natWait vx) os t st Γ) os t s := by
  refine .bind (.cells (sat_data (h.prep p) fun d hd => ?_))
  refine .bind (.cells (Sat.lift fun k hk => ?_))
  refine .step (hd.number ▸ hk) ?_
  exact .call fun _ _ => .iteg (fun _ => .num h) fun _ => .iteg (fun _ => .num h) fun _ => .nil h

theorem sat_accept {n : Nat} {x : Addr} {vx : Val} (h : Sim Γ s st) (p : Pin Γ x vx) :
    SatU (acceptH n x) (GoalU (Unix.natAccept vx) os t st Γ) os t s := by
  refine .bind (.cells (sat_data (h.prep p) fun d hd => ?_))
  cases hd with
  | num =>
    refine .iteg (fun _ => .nil h) fun _ => .call fun r t' => .iteg (fun _ => .nil h) fun _ => ?_
    refine .bind (.cells (sat_num h fun a s1 h1 => ?_))
    cases hp : r.peer with
    | none =>
      refine .bind (.cells (sat_nil h1 fun b s2 h2 => ?_))
      exact .cells (sat_cons' h2.mv2 fun r s3 h3 => ⟨_, rfl, h3⟩)
    | some q =>
      obtain ⟨host, port⟩ := q
      refine .bind (.cells (Sat.bind (sat_makeString h1 fun b s2 h2 => ?_)))
      refine Sat.bind (sat_num h2 fun c s3 h3 => ?_)
      refine sat_cons' h3.mv2 fun d s4 h4 => ?_
      exact .cells (sat_cons' h4.mv2 fun r s5 h5 => ⟨_, rfl, h5⟩)
  | _ => exact .nil h

theorem sat_fail {fd : Int} (h : Sim Γ s st) :
    SatU (failH fd) (GoalU (do let _ ← Unix.sys (.close fd); pure .nil) os t st Γ) os t s := .call fun _ _ => .nil h

theorem sat_listen {x : Addr} {vx : Val} (h : Sim Γ s st) (p : Pin Γ x vx) :
    SatU (listenH x) (GoalU (Unix.natListen vx) os t st Γ) os t s := by
  refine .bind (.cells (sat_data (h.prep p) fun d hd => ?_))
  cases hd with
  | num =>
    refine .iteg (fun _ => .nil h) fun _ => .call fun _ _ => .iteg (fun _ => .nil h) fun _ => ?_
    refine .call fun _ _ => .iteg (fun _ => sat_fail h) fun _ => ?_
    refine .call fun _ _ => .iteg (fun _ => sat_fail h) fun _ => ?_
    refine .call fun _ _ => .iteg (fun _ => sat_fail h) fun _ => ?_
    exact .call fun _ _ => .iteg (fun _ => sat_fail h) fun _ => .num h
  | _ => exact .nil h

theorem sat_connect {n : Nat} {x y : Addr} {vx vy : Val} (h : Sim Γ s st) (p : Pin Γ x vx) (q : Pin Γ y vy) :
    SatU (connectH n x y) (GoalU (Unix.natConnect vx vy) os t st Γ) os t s := by
  refine .bind (.cells (sat_isString n (h.prep p) ?_))
  refine .bind (.cells (Q := fun b t s => _) ?_)
  have e : Sat (if vx.isString = true then isStringH n y else pure false) (fun b s' => s' = s ∧ b = (vx.isString && vy.isString)) s := by
    cases vx.isString
    · exact Sat.pure ⟨rfl, rfl⟩
    · exact sat_isString n (h.prep q) ⟨rfl, rfl⟩
  refine e.mono ?_
  rintro b s' ⟨rfl, rfl⟩
  refine .iteg (fun _ => .nil h) fun _ => ?_
  refine .bind (.cells (sat_cbuffer (h.prep p) fun b l hb => ?_))
  refine .step (a := (b, l)) hb ?_
  refine .iteg (fun _ => .nil h) fun _ => ?_
  refine .bind (.cells (sat_cbuffer (h.prep q) fun b' l' hb' => ?_))
  refine .step (a := (b', l')) hb' ?_
  refine .iteg (fun _ => .nil h) fun _ => ?_
  refine .call fun _ _ => .iteg (fun _ => .nil h) fun _ => ?_
  refine .call fun _ _ => .iteg (fun _ => sat_fail h) fun _ => ?_
  refine .call fun _ _ => .iteg (fun _ => sat_fail h) fun _ => ?_
  exact .call fun _ _ => .iteg (fun _ => sat_fail h) fun _ => .num h

theorem cbuffer_nil : Module.cbuffer .nil Module.pathMax (Module.pathMax + 1) = .ok [] := by
  simp [Module.cbuffer, makeCString, store, Module.pathMax]

theorem sat_makeStrings {n cap len : Nat} (m : Nat) : ∀ {Q : List (List UInt8) → HSt → Prop} {Γ : List B} {s : HSt} {a : Addr} {v : Val}
    {ps : List (Addr × Val)} {idx : Nat}, Sim (.tok a v ps :: Γ) s st →
    (∀ l s', Unix.makeStrings cap len v idx = .ok l → Sim Γ s' st → Q l s') → Sat (makeStringsH n cap len m a idx) Q s := by
  induction m with
  | zero => intros; exact Sat.oof
  | succ m ih =>
    intro Q Γ s a v ps idx h k
    refine Sat.bind (sat_data (h.rep (List.mem_cons_self ..)) fun d hd => ?_)
    rw [hd.isNil]
    refine Sat.ite (fun e => ?_) (fun e => ?_)
    · refine Sat.bind (sat_X h fun s1 h1 => ?_)
      refine Sat.ite (fun e1 => Sat.pure (k _ _ ?_ h1)) (fun e1 => Sat.ub)
      rcases e with e | e
      · cases v with
        | nil => simp only [Unix.makeStrings, if_pos e1]
        | _ => cases e
      · cases v <;> simp [Unix.makeStrings, e, e ▸ e1]
    · refine Sat.bind (sat_car h (h.bor (List.mem_cons_self ..)) fun car s1 h1 => ?_)
      refine Sat.bind (sat_cdr h1 (h1.bor (a := a) (v := v) (ps := ps) (by simp)) fun cdr s2 h2 => ?_)
      refine Sat.bind (sat_X h2.mv3 fun s3 h3 => ?_)
      refine Sat.bind (sat_cbuffer (h3.rep (a := car) (v := v.car) (ps := []) (by simp)) fun b l hb => ?_)
      have hb' := cbuffer_of hb
      refine Sat.bind (sat_leak h3.mv2.forget fun s4 h4 => ?_)
      refine Sat.ite (fun e1 => ?_) (fun e1 => Sat.ub)
      refine Sat.bind (ih h4 fun rest s5 hr h5 => Sat.pure (k _ _ ?_ h5))
      simp only [not_or, Bool.not_eq_true] at e
      cases v with
      | nil => cases e.1
      | pair t u w =>
        change Module.cbuffer u _ _ = _ at hb'
        change Unix.makeStrings cap len w _ = _ at hr
        simp only [Unix.makeStrings, if_neg e.2, hb', if_pos e1, hr]
        rfl
      | _ =>
        change Module.cbuffer .nil _ _ = _ at hb'
        rw [cbuffer_nil] at hb'
        cases hb'
        change Unix.makeStrings cap len .nil _ = _ at hr
        simp only [Unix.makeStrings] at hr ⊢
        rw [if_neg e.2]
        split at hr
        · rw [if_pos ‹_›]; cases hr; rfl
        · cases hr

/-- As `GoalU` for a native that gives no value. -/
def GoalE (u : U Unit) (os : Sys) (t : Trace) (st : St) (Γ : List B) (_ : Unit) (t' : Trace) (s' : HSt) : Prop :=
  u os t = .ok ((), t') ∧ Sim Γ s' st

theorem SatU.callE {c : Call} {f : Unix.Rep → HU Unit} {g : Unix.Rep → U Unit}
    (h : ∀ r t', SatU (f r) (GoalE (g r) os t' st Γ) os t' s) :
    SatU (callH c >>= f) (GoalE (Unix.sys c >>= g) os t st Γ) os t s :=
  SatU.bind (Sat.pure (h _ _))

theorem SatU.stepE {γ : Type} {m : HU Unit} {r : Res γ} {a : γ} {g : γ → U Unit} (e : r = .ok a)
    (h : SatU m (GoalE (g a) os t st Γ) os t s) : SatU m (GoalE (U.lift r >>= g) os t st Γ) os t s := by
  subst e; exact h

theorem sat_exec {n : Nat} {x y z : Addr} {vx vy vz : Val} (h : Sim Γ s st) (p : Pin Γ x vx) (q : Pin Γ y vy) (r : Pin Γ z vz) :
    SatU (execH n x y z) (GoalE (Unix.natExec vx vy vz) os t st Γ) os t s := by
  refine .bind (.cells (sat_cbuffer (h.prep p) fun b l hb => ?_))
  refine .bind (.cells (sat_up h (h.pbor q) fun s1 h1 => ?_))
  refine .bind (.cells (sat_makeStrings n h1 fun l1 s2 e2 h2 => ?_))
  refine .bind (.cells (sat_up h2 (h2.pbor r) fun s3 h3 => ?_))
  refine .bind (.cells (sat_makeStrings n h3 fun l2 s4 e4 h4 => ?_))
  refine .stepE (cbuffer_of hb) (.stepE e2 (.stepE e4 (.callE fun rep t' => ?_)))
  by_cases e : rep.ret = 0
  · simp only [if_pos e]
    exact Sat.pure ⟨rfl, h4⟩
  · simp only [if_neg e]
    exact .callE fun _ _ => .callE fun _ _ => Sat.pure ⟨rfl, h4⟩

theorem GoalU.forget {u : U Val} {σ : Addr} {w : Val} {ps : List (Addr × Val)} {r : Addr} {t' : Trace} {s' : HSt}
    (g : GoalU u os t st (.tok σ w ps :: Γ) r t' s') : GoalU u os t st (.ref σ :: Γ) r t' s' := by
  obtain ⟨v, e, h⟩ := g
  exact ⟨v, e, h.mv2.forget.mv2⟩

theorem sat_callUnix {ev : UEv} {n : Nat} {op : UnixOp} {clos κ : Addr} {vc : Val} {ps : List (Addr × Val)}
    (h : Sim (.tok clos vc ps :: Γ) s st) (ho : op.evaluates = false) :
    SatU (callUnixH n ev op clos κ) (GoalU (callUnixV op vc) os t st (.ref clos :: Γ)) os t s := by
  have w : ∀ {m : HU Addr} {u : U Val} {ps : List (Addr × Val)}, SatU m (GoalU u os t st (.tok clos vc ps :: Γ)) os t s →
      SatU m (GoalU u os t st (.ref clos :: Γ)) os t s := fun g => Sat.mono g fun _ _ => GoalU.forget
  have pop : ∀ {f : Addr → HU Addr} {g : Val → U Val},
      (∀ x vx ps, Sim (.tok clos vc ps :: Γ) s st → Pin (.tok clos vc ps :: Γ) x vx →
        SatU (f x) (GoalU (g vx) os t st (.tok clos vc ps :: Γ)) os t s) →
      SatU (onCells (popH clos) >>= fun p => f p.1) (GoalU (U.lift (popArg vc) >>= fun p => g p.1) os t st (.ref clos :: Γ)) os t s := by
    intro f g k
    refine .bind (.cells (sat_pop h ⟨.refl, h.rep (List.mem_cons_self ..)⟩ ?_))
    intro x r vx vr e1 h1
    exact .step e1 (w (k x vx _ h1 (.at (List.mem_cons_self ..) (by simp))))
  cases op with
  | fork => exact w (sat_fork h)
  | pipe => exact w (sat_pipe h)
  | accept => exact pop fun x vx ps h1 p => sat_accept h1 p
  | listen => exact pop fun x vx ps h1 p => sat_listen h1 p
  | unlink => exact pop fun x vx ps h1 p => sat_unlink h1 p
  | wait => exact pop fun x vx ps h1 p => sat_wait h1 p
  | connect =>
    refine .bind (.cells (sat_pop h ⟨.refl, h.rep (List.mem_cons_self ..)⟩ ?_))
    intro y r vy vr e1 h1
    refine .bind (.cells (sat_pop h1 (h1.pinned (List.mem_cons_self ..) (u := vr) (by simp)) ?_))
    intro x r2 vx vr2 e2 h2
    exact .step e1 (.step e2 (w (sat_connect h2 (.at (List.mem_cons_self ..) (by simp)) (.at (List.mem_cons_self ..) (by simp)))))
  | close => cases ho
  | dup => cases ho
  | time => cases ho

theorem sat_callExec {n : Nat} {clos : Addr} {vc : Val} {ps : List (Addr × Val)} (h : Sim (.tok clos vc ps :: Γ) s st) :
    SatU (callExecH n clos) (GoalE (callExecV vc) os t st (.ref clos :: Γ)) os t s := by
  refine .bind (.cells (sat_pop h ⟨.refl, h.rep (List.mem_cons_self ..)⟩ ?_))
  intro z r vz vr e1 h1
  refine .bind (.cells (sat_pop h1 (h1.pinned (List.mem_cons_self ..) (u := vr) (by simp)) ?_))
  intro y r2 vy vr2 e2 h2
  refine .bind (.cells (sat_pop h2 (h2.pinned (List.mem_cons_self ..) (u := vr2) (by simp)) ?_))
  intro x r3 vx vr3 e3 h3
  refine .stepE e1 (.stepE e2 (.stepE e3 (Sat.mono (sat_exec h3 (vx := vx) (vy := vy) (vz := vz) (.at (List.mem_cons_self ..) (by simp))
    (.at (List.mem_cons_self ..) (by simp)) (.at (List.mem_cons_self ..) (by simp))) ?_)))
  rintro _ s' ⟨e, h4⟩
  exact ⟨e, h4.forget⟩

end

/-! ## Whole programs -/

/-- A program that ends with the call of a native at top level: load `ops`, evaluate `es`, bind the parameters `ps` to the values of the expressions
`as` as `lisp_eval_func` does (`lib/core/eval.c:106-115`), make the closure of the native (`lib/core/eval.c:128-133`), call it (`lib/core/eval.c:137-138`) and release the closure
(`lib/core/eval.c:139`). A call with too few arguments gives a function and is left out. -/
def topCallH {α : Type} (n : Nat) (ops : List Native) (es : List Val) (ps as : Val) (call : Addr → Addr → HU α) : HU α := do
  onCells (loadH ops)
  let nl ← onCells mkNil
  let r ← onCells mkNil
  let r ← onCells (topLoopH n nl es r)
  onCells (X r)
  let clos ← onCells (do
    let vals ← buildH as
    let args ← buildH ps
    let dscl ← mkNil
    let acc ← mkNil
    let bind ← evalArgsH (evalNH n) n nl acc args vals
    let bscl ← carH bind
    let narg ← cdrH bind
    X bind
    let d ← dataOf narg
    if d.isNil then do
      X narg
      nativeClosH n nl bscl dscl
    else HM.unsupported)
  let r ← call clos nl
  onCells (Xs [clos, nl])
  pure r

/-- The same program on trees, up to the call: the closure of the native and the state. -/
def topArgsV (n : Nat) (ops : List Native) (es : List Val) (ps as : Val) : Res (Val × St) := do
  let (_, st) ← runTop n es (startSt ops)
  let (p, st) ← evalArgs (evalN n) .nil ps .nil as st
  if p.2.isNil then .ok (Val.conc p.1 .nil, st) else .unsupported

theorem sat_topCall {α : Type} {os : Sys} {t : Trace} {n : Nat} {ops : List Native} {es : List Val} {ps as : Val}
    {call : Addr → Addr → HU α} {R : Val → St → α → List B → Trace → Prop} {Q : α → Trace → HSt → Prop}
    (hp : ∀ e ∈ es, plain e = true) (hb : plain ps = true) (hd : plain as = true)
    (hc : ∀ clos nl vc pc s st, Sim (.tok clos vc pc :: .tok nl .nil [] :: []) s st →
      SatU (call clos nl) (fun a t' s' => ∃ Γ, R vc st a Γ t' ∧ Sim (.ref clos :: .tok nl .nil [] :: Γ) s' st) os t s)
    (k : ∀ vc st a Γ t' s', topArgsV n ops es ps as = .ok (vc, st) → R vc st a Γ t' → Sim Γ s' st → Q a t' s') :
    SatU (topCallH n ops es ps as call) Q os t strictH := by
  refine .bind (.cells (sat_load sim_empty fun s1 st1 e1 h1 => ?_))
  rw [loadV_start] at e1
  cases e1
  refine .bind (.cells (sat_nil h1 fun nl s2 h2 => ?_))
  refine .bind (.cells (sat_nil h2 fun res s3 h3 => ?_))
  refine .bind (.cells ((sat_topLoop hp h3 (.of (List.mem_cons_self ..))).mono ?_))
  rintro r s4 ⟨v4, st4, e4, h4⟩
  rw [← runTop_eq] at e4
  refine .bind (.cells (sat_X h4 fun s5 h5 => ?_))
  refine .bind (.cells (Sat.bind (sat_build hd h5 fun vals s6 h6 => ?_)))
  refine Sat.bind (sat_build hb h6 fun args s7 h7 => ?_)
  refine Sat.bind (sat_nil h7 fun dscl s8 h8 => ?_)
  refine Sat.bind (sat_nil h8 fun acc s9 h9 => ?_)
  have h9' : Sim (.tok acc .nil [] :: .tok args ps [] :: .tok vals as [] :: .tok dscl .nil [] :: .tok nl .nil [] :: []) s9 st4 :=
    h9.perm (by pm)
  refine Sat.bind (sat_evalArgs (evSim_evalN n) n (σ := .tok acc .nil []) (.atom rfl) h9' (.of (ps := []) (a := nl) (v := .nil) (by simp)) ?_)
  intro bind ρ narg nv pn s10 st10 e10 oρ h10
  refine sat_unpair h10.unfold (own_mem (σ := ρ) (by simp) ρ.addr_own)
    (own_mem (σ := .tok narg nv pn) (by simp) (by simp [B.own, B.addr])) fun s11 h11 => ?_
  refine Sat.bind (sat_data (h11.rep (a := narg) (v := nv) (ps := pn) (by simp)) fun dn hdn => ?_)
  rw [hdn.isNil]
  refine Sat.ite (fun en => ?_) (fun _ => Sat.unsupported)
  refine Sat.bind (sat_X h11.mv2 fun s12 h12 => ?_)
  refine sat_nativeClos oρ h12 (.of (ps := []) (a := nl) (v := .nil) (by simp)) ?_
  intro clos pc s13 h13
  have e13 : topArgsV n ops es ps as = .ok (Val.conc ρ.val .nil, st10) := by
    have e10' : evalArgs (evalN n) .nil ps .nil as st4 = .ok ((ρ.val, nv), st10) := e10
    simp [topArgsV, e4, e10', en]
  refine .bind (Sat.mono (hc clos nl _ pc s13 st10 h13) ?_)
  rintro ⟨a, t'⟩ s14 ⟨Γ, hR, h14⟩
  refine .bind (.cells (Sat.bind (sat_Xr h14 fun s15 h15 => Sat.bind (sat_X h15 fun s16 h16 => Sat.pure ?_))))
  exact Sat.pure (k _ _ _ _ _ _ e13 hR h16)

/-! ## Without strict mode -/

/-- Whatever the computation does, it does without strict mode. -/
def RlxU {α : Type} (m : HU α) : Prop := ∀ os t, Rlx (m os t)

theorem RlxU.bind {α β : Type} {m : HU α} {f : α → HU β} (h : RlxU m) (h' : ∀ a, RlxU (f a)) : RlxU (m >>= f) :=
  fun os t => Rlx.bind (h os t) fun p => h' p.1 os p.2
theorem RlxU.pure {α : Type} {a : α} : RlxU (Pure.pure a : HU α) := fun _ _ => Rlx.pure
theorem RlxU.cells {α : Type} {m : HM α} (h : Rlx m) : RlxU (onCells m) := fun _ _ => Rlx.bind h fun _ => Rlx.pure
theorem RlxU.call {c : Call} : RlxU (callH c) := fun _ _ => Rlx.pure

theorem rlx_cbufferH {n : Nat} {a : Addr} {len cap : Nat} : Rlx (cbufferH n a len cap) := by unfold cbufferH; rlx
macro_rules | `(tactic| rlxl) => `(tactic| with_reducible exact rlx_cbufferH)
theorem rlx_peerH {n : Nat} {p : Option (List UInt8 × Nat)} : Rlx (peerH n p) := by unfold peerH; rlx
macro_rules | `(tactic| rlxl) => `(tactic| with_reducible exact rlx_peerH)
theorem rlx_makeStringsH {n cap len : Nat} (m : Nat) : ∀ a idx, Rlx (makeStringsH n cap len m a idx) := by
  induction m with
  | zero => intro a idx; exact rlx_oof
  | succ m ih => intro a idx; unfold makeStringsH; rlx; exact ih _ _
macro_rules | `(tactic| rlxl) => `(tactic| with_reducible exact rlx_makeStringsH _ _ _)

/-- The structural steps. -/
macro "rlxu" : tactic => `(tactic| repeat' first
  | with_reducible exact RlxU.pure
  | with_reducible exact RlxU.call
  | with_reducible refine RlxU.cells ?_
  | rlxl
  | with_reducible refine Rlx.bind ?_ (fun _ => ?_)
  | with_reducible refine RlxU.bind ?_ (fun _ => ?_)
  | split)

theorem rlx_failH {fd : Int} : RlxU (failH fd) := by unfold failH; rlxu

theorem rlx_callUnix {ev : UEv} {n : Nat} {op : UnixOp} {clos κ : Addr} (ho : op.evaluates = false) : RlxU (callUnixH n ev op clos κ) := by
  cases op with
  | close => cases ho
  | dup => cases ho
  | time => cases ho
  | fork => unfold callUnixH forkH; rlxu
  | pipe => unfold callUnixH pipeH; rlxu
  | accept => unfold callUnixH acceptH; rlxu
  | listen => unfold callUnixH listenH; rlxu <;> exact rlx_failH
  | unlink => unfold callUnixH unlinkH; rlxu
  | wait => unfold callUnixH waitH; rlxu
  | connect => unfold callUnixH connectH connectTo; rlxu <;> exact rlx_failH

theorem rlx_callExec {n : Nat} {clos : Addr} : RlxU (callExecH n clos) := by unfold callExecH execH; rlxu

theorem rlx_topCall {α : Type} {n : Nat} {ops : List Native} {es : List Val} {ps as : Val} {call : Addr → Addr → HU α}
    (h : ∀ c k, RlxU (call c k)) : RlxU (topCallH n ops es ps as call) := by
  have hev := rlx_evalNH n
  unfold topCallH
  rlxu
  exact h _ _

/-! ## C86 -/

/-- **C86**: a program that calls a native of `unix` which evaluates nothing, on cells and on trees: if the program comes to an end in strict
mode, for any operating system `os` and any calls `t` so far, then it ends in the same way without strict mode; on trees the arguments have values
too, the native makes the same calls with the same replies, and gives the value that the result on cells represents. -/
theorem C86_native {os : Sys} {t t' : Trace} {n : Nat} {ops : List Native} {es : List Val} {ps as : Val} {op : UnixOp} {r : Addr} {s' : HSt}
    (hp : ∀ e ∈ es, plain e = true) (hb : plain ps = true) (hd : plain as = true) (ho : op.evaluates = false)
    (h : topCallH n ops es ps as (callUnixH n (evU n) op) os t strictH = .ok ((r, t'), s')) :
    topCallH n ops es ps as (callUnixH n (evU n) op) os t emptyH = .ok ((r, t'), { s' with strict := false }) ∧
    ∃ vc st v, topArgsV n ops es ps as = .ok (vc, st) ∧ callUnixV op vc os t = .ok (v, t') ∧ Rep s'.mem r v ∧ s'.out = st.out := by
  refine ⟨rlx_topCall (fun _ _ => rlx_callUnix ho) os t _ _ _ h, ?_⟩
  have w : SatU (topCallH n ops es ps as (callUnixH n (evU n) op)) (fun r t' s' => ∃ vc st v, topArgsV n ops es ps as = .ok (vc, st) ∧
      callUnixV op vc os t = .ok (v, t') ∧ Rep s'.mem r v ∧ s'.out = st.out) os t strictH := by
    refine sat_topCall (R := fun vc st r Γ t' => ∃ v, callUnixV op vc os t = .ok (v, t') ∧ Γ = [.tok r v []]) hp hb hd ?_ ?_
    · intro clos nl vc pc s st h1
      refine Sat.mono (sat_callUnix h1 ho) ?_
      rintro ⟨r, t'⟩ s' ⟨v, e, h2⟩
      exact ⟨_, ⟨v, e, rfl⟩, h2.perm (by pm)⟩
    · rintro vc st r Γ t' s' e ⟨v, ev, rfl⟩ h1
      refine ⟨vc, st, v, e, ev, h1.rep (List.mem_cons_self ..), ?_⟩
      obtain ⟨G, g⟩ := h1
      exact g.out.symm
  exact w _ _ h

/-- **C86**: the same for `exec`, which gives no value. -/
theorem C86_exec {os : Sys} {t t' : Trace} {n : Nat} {ops : List Native} {es : List Val} {ps as : Val} {s' : HSt}
    (hp : ∀ e ∈ es, plain e = true) (hb : plain ps = true) (hd : plain as = true)
    (h : topCallH n ops es ps as (fun clos _ => callExecH n clos) os t strictH = .ok (((), t'), s')) :
    topCallH n ops es ps as (fun clos _ => callExecH n clos) os t emptyH = .ok (((), t'), { s' with strict := false }) ∧
    ∃ vc st, topArgsV n ops es ps as = .ok (vc, st) ∧ callExecV vc os t = .ok ((), t') ∧ s'.out = st.out := by
  refine ⟨rlx_topCall (fun _ _ => rlx_callExec) os t _ _ _ h, ?_⟩
  have w : SatU (topCallH n ops es ps as (fun clos _ => callExecH n clos)) (fun _ t' s' => ∃ vc st, topArgsV n ops es ps as = .ok (vc, st) ∧
      callExecV vc os t = .ok ((), t') ∧ s'.out = st.out) os t strictH := by
    refine sat_topCall (R := fun vc st _ Γ t' => callExecV vc os t = .ok ((), t') ∧ Γ = []) hp hb hd ?_ ?_
    · intro clos nl vc pc s st h1
      refine Sat.mono (sat_callExec h1) ?_
      rintro ⟨_, t'⟩ s' ⟨e, h2⟩
      exact ⟨_, ⟨e, rfl⟩, h2⟩
    · rintro vc st _ Γ t' s' e ⟨ev, rfl⟩ h1
      refine ⟨vc, st, e, ev, ?_⟩
      obtain ⟨G, g⟩ := h1
      exact g.out.symm
  exact w _ _ h

/-- **C86**: `accept`, `listen`, `unlink` and `wait` get the value of their only argument. -/
theorem C86_argument {n : Nat} {ops : List Native} {es : List Val} {p : Sym} {e v0 v : Val} {st0 st : St}
    (h0 : runTop n es (startSt ops) = .ok (v0, st0)) (h : evalN n .nil e st0 = .ok (v, st)) :
    ∃ vc, topArgsV n ops es (Val.ofList [Val.ofSym p]) (Val.ofList [e]) = .ok (vc, st) ∧
      callUnixV .accept vc = Unix.natAccept v ∧ callUnixV .listen vc = Unix.natListen v ∧
      callUnixV .unlink vc = Unix.natUnlink v ∧ callUnixV .wait vc = Unix.natWait v := by
  refine ⟨.cons (.cons (.ofSym p) v) .nil, ?_, rfl, rfl, rfl, rfl⟩
  simp [topArgsV, h0, Val.ofList, Val.ofSym, evalArgs, Val.isNil, Val.car, h, Val.bind, Val.conc, Val.cons]

/-- **C86**: `(connect ADDRESS PORT)` gets its arguments in this order. -/
theorem C86_connect {n : Nat} {ops : List Native} {es : List Val} {p q : Sym} {e1 e2 v0 v1 v2 : Val} {st0 st1 st2 : St}
    (h0 : runTop n es (startSt ops) = .ok (v0, st0)) (h1 : evalN n .nil e1 st0 = .ok (v1, st1)) (h2 : evalN n .nil e2 st1 = .ok (v2, st2)) :
    ∃ vc, topArgsV n ops es (Val.ofList [Val.ofSym p, Val.ofSym q]) (Val.ofList [e1, e2]) = .ok (vc, st2) ∧
      callUnixV .connect vc = Unix.natConnect v1 v2 := by
  refine ⟨.cons (.cons (.ofSym q) v2) (.cons (.cons (.ofSym p) v1) .nil), ?_, rfl⟩
  simp [topArgsV, h0, Val.ofList, Val.ofSym, evalArgs, Val.isNil, Val.car, Val.cdr, h1, h2, Val.bind, Val.conc, Val.cons, Val.isPair]

/-- **C86**: `(exec PATH ARGS ENVP)` gets its arguments in this order. -/
theorem C86_execArgs {n : Nat} {ops : List Native} {es : List Val} {p q r : Sym} {e1 e2 e3 v0 v1 v2 v3 : Val} {st0 st1 st2 st3 : St}
    (h0 : runTop n es (startSt ops) = .ok (v0, st0)) (h1 : evalN n .nil e1 st0 = .ok (v1, st1)) (h2 : evalN n .nil e2 st1 = .ok (v2, st2))
    (h3 : evalN n .nil e3 st2 = .ok (v3, st3)) :
    ∃ vc, topArgsV n ops es (Val.ofList [Val.ofSym p, Val.ofSym q, Val.ofSym r]) (Val.ofList [e1, e2, e3]) = .ok (vc, st3) ∧
      callExecV vc = Unix.natExec v1 v2 v3 := by
  refine ⟨.cons (.cons (.ofSym r) v3) (.cons (.cons (.ofSym q) v2) (.cons (.cons (.ofSym p) v1) .nil)), ?_, rfl⟩
  simp [topArgsV, h0, Val.ofList, Val.ofSym, evalArgs, Val.isNil, Val.car, Val.cdr, h1, h2, h3, Val.bind, Val.conc, Val.cons, Val.isPair]

/-- An operating system that accepts a connection from `10.0.0.1`, port 80, and fails to execute programs. -/
def server : Sys := fun _ c => match c with
  | .accept _ => { ret := 4, peer := some ([49, 48, 46, 48, 46, 48, 46, 49], 80) }
  | .execve .. => { ret := -1, errno := 2 }
  | _ => { ret := 3 }

/-- How many calls a program in strict mode makes, if it comes to an end. -/
def calls {α : Type} (m : HU α) : Option Nat := match m server [] strictH with
  | .ok ((_, t), _) => some t.length
  | _ => none

set_option cbv.maxSteps 10000000 in
/-- The hypotheses of `C86_native` can be met: `(accept 3)` in strict mode. -/
example : calls (topCallH 30 [.quote] [] (.ofList [.ofSym (symLit ['F', 'D'])]) (.ofList [.num 3])
    (callUnixH 30 (evU 30) .accept)) = some 1 := by decide_cbv

set_option cbv.maxSteps 10000000 in
/-- … `(connect "h" "8")`: a socket, its option, the address, which is not found, and the socket is closed. -/
example : calls (topCallH 30 [.quote] [] (.ofList [.ofSym (symLit ['A']), .ofSym (symLit ['P'])])
    (.ofList [.ofList [.chr 104], .ofList [.chr 56]]) (callUnixH 30 (evU 30) .connect)) = some 4 := by decide_cbv

set_option cbv.maxSteps 10000000 in
/-- The hypotheses of `C86_exec` can be met: `(exec "p" NIL NIL)` fails, prints the error and exits. -/
example : calls (topCallH 30 [] [] (.ofList [.ofSym (symLit ['P']), .ofSym (symLit ['A']), .ofSym (symLit ['E'])])
    (.ofList [.ofList [.chr 112], .nil, .nil]) (fun clos _ => callExecH 30 clos)) = some 3 := by decide_cbv

end Heap
end Mnml
