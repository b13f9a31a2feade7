import Verif.RefineNat

/-!
# Refinement: sessions
-/

namespace Mnml
namespace Heap

/-- A value without tail-call flags, as the reader makes it. -/
def plain : Val → Bool
  | .pair t a d => !t && plain a && plain d
  | .sym t _ => !t
  | _ => true

theorem sat_build {v : Val} : ∀ {Q : Addr → HSt → Prop} {Γ : List B} {s : HSt} {st : St}, plain v = true → Sim Γ s st →
    (∀ r s', Sim (.tok r v [] :: Γ) s' st → Q r s') → Sat (buildH v) Q s := by
  induction v with
  | pair t a d iha ihd =>
    intro Q Γ s st hp h k
    simp only [plain, Bool.and_eq_true, Bool.not_eq_true'] at hp
    obtain ⟨⟨rfl, ha⟩, hd⟩ := hp
    refine Sat.bind (iha ha h fun x s1 h1 => ?_)
    refine Sat.bind (ihd hd h1 fun y s2 h2 => ?_)
    exact sat_cons' h2.mv2 k
  | nil => intro Q Γ s st _ h k; exact sat_nil h k
  | tru => intro Q Γ s st _ h k; exact sat_true h k
  | wild => intro Q Γ s st _ h k; exact sat_mk h rfl k
  | chr c => intro Q Γ s st _ h k; exact sat_chr h k
  | num n => intro Q Γ s st _ h k; exact sat_num h k
  | sym t sy =>
    intro Q Γ s st hp h k
    have : t = false := by simpa [plain] using hp
    subst this
    exact sat_sym h k

/-- The registration of natives on trees. -/
def loadV : List Native → M Unit
  | [] => pure ()
  | op :: ops => do
    setGlobal op.name op.val
    loadV ops

theorem plain_args (op : Native) : plain op.args = true := by cases op <;> rfl

theorem sat_loadNative {Q : Unit → HSt → Prop} {op : Native} {Γ : List B} {s : HSt} {st : St} (h : Sim Γ s st)
    (k : ∀ s' st', setGlobal op.name op.val st = .ok ((), st') → Sim Γ s' st' → Q () s') : Sat (loadNativeH op) Q s := by
  refine Sat.bind (sat_sym h fun sym s1 h1 => ?_)
  refine Sat.bind (sat_build (plain_args op) h1 fun arg s2 h2 => ?_)
  refine Sat.bind (sat_num h2 fun adr s3 h3 => ?_)
  refine Sat.bind (sat_nil h3 fun nl s4 h4 => ?_)
  refine Sat.bind (sat_cons' h4 fun cn0 s5 h5 => ?_)
  refine Sat.bind (sat_cons' h5.mv2 fun val s6 h6 => ?_)
  refine Sat.bind (sat_up h6 (h6.bor (a := sym) (v := Val.ofSym op.name) (ps := []) (by simp)) fun s7 h7 => ?_)
  refine Sat.bind (sat_pc h7 fun cns s8 h8 => ?_)
  refine Sat.bind (sat_setq h8 ?_)
  intro s9 st9 e9 h9
  exact sat_X h9 fun s10 h10 => k s10 st9 e9 h10

theorem sat_load {ops : List Native} : ∀ {Q : Unit → HSt → Prop} {Γ : List B} {s : HSt} {st : St}, Sim Γ s st →
    (∀ s' st', loadV ops st = .ok ((), st') → Sim Γ s' st' → Q () s') → Sat (loadH ops) Q s := by
  induction ops with
  | nil => intro Q Γ s st h k; exact Sat.pure (k s st rfl h)
  | cons op ops ih =>
    intro Q Γ s st h k
    refine Sat.bind (sat_loadNative h fun s1 st1 e1 h1 => ?_)
    refine ih h1 fun s2 st2 e2 h2 => k s2 st2 ?_ h2
    rw [loadV, M.bind_apply, e1]
    exact e2

/-- The global table that holds the given natives. -/
def tableOf (ops : List Native) : Sym → Option Val := fun k => (ops.find? (fun op => op.name = k)).map Native.val

theorem name_inj {a b : Native} (h : a.name = b.name) : a = b := by
  have key : ∀ x ∈ Native.all, ∀ y ∈ Native.all, x.name = y.name → x = y := by decide +kernel
  have mem : ∀ x : Native, x ∈ Native.all := by intro x; cases x <;> decide
  exact key a (mem a) b (mem b) h

theorem loadV_eq (ops : List Native) : ∀ st, loadV ops st =
    .ok ((), { st with globals := fun k => (tableOf ops k).or (st.globals k) }) := by
  induction ops with
  | nil => intro st; rfl
  | cons op ops ih =>
    intro st
    rw [loadV, M.bind_apply]
    show loadV ops _ = _
    rw [ih]
    congr 3
    funext k
    show (tableOf ops k).or (if k = op.name then some op.val else st.globals k) = (tableOf (op :: ops) k).or (st.globals k)
    unfold tableOf
    rw [List.find?_cons]
    by_cases e : op.name = k
    · rw [decide_eq_true e]
      subst e
      rw [if_pos rfl]
      cases hf : ops.find? (fun o => o.name = op.name) with
      | none => rfl
      | some o =>
        have : o.name = op.name := by simpa using List.find?_some hf
        rw [name_inj this]
        rfl
    · rw [decide_eq_false e, if_neg (fun x => e x.symm)]

/-- The state of the tree evaluator after loading natives. -/
def startSt (ops : List Native) : St := ⟨tableOf ops, []⟩

theorem startSt_all : startSt Native.all = initSt := rfl

theorem loadV_start (ops : List Native) : loadV ops ⟨fun _ => none, []⟩ = .ok ((), startSt ops) := by
  rw [loadV_eq]
  congr 3
  funext k
  show (tableOf ops k).or none = _
  cases tableOf ops k <;> rfl

/-- The main loop on trees. -/
def topV (n : Nat) : List Val → Val → M Val
  | [], res => pure res
  | e :: es, _ => do
    let r ← evalN n .nil e
    topV n es r

theorem runTop_topV (n : Nat) (e : Val) (es : List Val) (v : Val) : runTop n (e :: es) = topV n (e :: es) v := by
  induction es generalizing e v with
  | nil =>
    funext st
    show evalN n .nil e st = (evalN n .nil e >>= fun r => Pure.pure r) st
    rw [M.bind_apply]
    cases evalN n .nil e st <;> rfl
  | cons e' es ih =>
    show (evalN n .nil e >>= fun _ => runTop n (e' :: es)) = (evalN n .nil e >>= fun r => topV n (e' :: es) r)
    congr 1
    funext r
    exact ih e' r

theorem sat_topLoop {n : Nat} {nl : Addr} {es : List Val} : ∀ {Γ : List B} {s : HSt} {st : St} {res : Addr} {vr : Val},
    (∀ e ∈ es, plain e = true) → Sim (.tok res vr [] :: Γ) s st → Pin Γ nl .nil →
    Sat (topLoopH n nl es res) (Goal (topV n es vr) st Γ) s := by
  induction es with
  | nil => intro Γ s st res vr _ h p; exact Sat.pure (Goal.pure h)
  | cons e es ih =>
    intro Γ s st res vr hp h p
    refine Sat.bind (sat_build (hp e (by simp)) h fun input s1 h1 => ?_)
    refine Sat.bind (sat_X h1.mv2 fun s2 h2 => ?_)
    refine sat_ev (evSim_evalN n) h2 p ?_
    intro r v s3 st3 h3
    exact ih (fun x hx => hp x (by simp [hx])) h3 p

/-- The empty memory, in strict mode. -/
def strictH : HSt := { emptyH with strict := true }

theorem sim_empty : Sim [] strictH ⟨fun _ => none, []⟩ := by
  refine ⟨[], ?_, ?_, ?_, rfl, List.nodup_nil, List.nodup_nil, ?_, ?_, rfl, rfl, ?_⟩
  · have i := inv_empty
    exact ⟨i.fresh, i.exact, i.dead, i.pos, i.opn, i.zomb, i.cache⟩
  · intro σ hσ; cases hσ
  · intro e he; cases he
  · intro k; rfl
  · intro a c d k hc; cases hc
  · intro a l; obtain ⟨⟨c, hc⟩, _⟩ := l; cases hc

theorem runTop_eq (n : Nat) (es : List Val) : runTop n es = topV n es .nil := by
  cases es with
  | nil => rfl
  | cons e es => exact runTop_topV n e es .nil

/-- A session in strict mode and the same program on trees. -/
theorem sat_session {n : Nat} {ops : List Native} {es : List Val} (hp : ∀ e ∈ es, plain e = true) :
    Sat (sessionH n ops es) (Goal (runTop n es) (startSt ops) []) strictH := by
  refine Sat.bind (sat_load sim_empty fun s1 st1 e1 h1 => ?_)
  rw [loadV_start] at e1
  cases e1
  refine Sat.bind (sat_nil h1 fun nl s2 h2 => ?_)
  refine Sat.bind (sat_nil h2 fun res s3 h3 => ?_)
  rw [runTop_eq]
  refine Sat.bind ((sat_topLoop hp h3 (.of (List.mem_cons_self ..))).mono ?_)
  rintro r s4 ⟨v4, st4, e4, h4⟩
  exact Sat.bind (sat_X h4.mv2 fun s5 h5 => Sat.pure ⟨v4, st4, e4, h5⟩)

end Heap
end Mnml
