import Verif.RefineList
import Verif.Tails

/-!
# Refinement: strings and tail calls

`lisp_make_string` and `lisp_mark_tail_calls` on cells and on trees.
-/

namespace Mnml
namespace Heap

/-! ## Strings -/

theorem sat_chr {Q : Addr → HSt → Prop} {Γ : List B} {s : HSt} {st : St} {k : Int} (h : Sim Γ s st)
    (q : ∀ r s', Sim (.tok r (.chr k) [] :: Γ) s' st → Q r s') : Sat (mkChr k) Q s := sat_mk h rfl q
theorem sat_num {Q : Addr → HSt → Prop} {Γ : List B} {s : HSt} {st : St} {k : Int} (h : Sim Γ s st)
    (q : ∀ r s', Sim (.tok r (.num k) [] :: Γ) s' st → Q r s') : Sat (mkNum k) Q s := sat_mk h rfl q
theorem sat_sym {Q : Addr → HSt → Prop} {Γ : List B} {s : HSt} {st : St} {k : Sym} (h : Sim Γ s st)
    (q : ∀ r s', Sim (.tok r (Val.ofSym k) [] :: Γ) s' st → Q r s') : Sat (mkSym k) Q s := sat_mk h rfl q

theorem sat_chars {ks : List Int} : ∀ {Q : Addr → HSt → Prop} {Γ : List B} {s : HSt} {st : St}, Sim Γ s st →
    (∀ r s', Sim (.tok r (strVal ks) [] :: Γ) s' st → Q r s') → Sat (charsH ks) Q s := by
  induction ks with
  | nil => intro Q Γ s st h k; exact sat_nil h k
  | cons c ks ih =>
    intro Q Γ s st h k
    refine Sat.bind (ih h fun r s1 h1 => ?_)
    refine Sat.bind (sat_chr h1 fun x s2 h2 => ?_)
    exact sat_cons' h2 k

theorem conc_list (l l' : List Val) : Val.conc (Val.ofList l) (Val.ofList l') = Val.ofList (l ++ l') := by
  induction l with
  | nil => cases l' <;> rfl
  | cons x l ih =>
    show Val.conc (.pair false x (Val.ofList l)) _ = .pair false x (Val.ofList (l ++ l'))
    rw [Val.conc, ih]
    cases l <;> rfl

theorem append_str (ks : List Int) (k : Int) : Val.append (strVal ks) (.chr k) = strVal (ks ++ [k]) := by
  unfold strVal Val.append
  rw [List.map_append, ← conc_list]
  rfl

theorem sat_escapes (n : Nat) : ∀ {Q : Addr → HSt → Prop} {Γ : List B} {s : HSt} {st : St} {a : Addr} {ks : List Int} {esc : Bool}
    {σ : B} {acc : List Int}, Own σ → σ.val = strVal acc → Sim (.tok a (strVal ks) [] :: σ :: Γ) s st →
    (∀ ρ s', Own ρ → ρ.val = strVal (processEscapes ks esc acc) → Sim (ρ :: Γ) s' st → Q ρ.addr s') →
    Sat (escapesH n a esc σ.addr) Q s := by
  induction n with
  | zero => intros; exact Sat.oof
  | succ n ih =>
    intro Q Γ s st a ks esc σ acc hσ hv h k
    have ha := h.rep (List.mem_cons_self ..)
    refine Sat.bind (sat_data ha fun d hd => ?_)
    rw [hd.isNil]
    cases ks with
    | nil =>
      refine Sat.ite (fun _ => ?_) (fun e => absurd rfl e)
      exact Sat.bind (sat_X h fun s1 h1 => Sat.pure (k σ s1 hσ hv h1))
    | cons c ks =>
      refine Sat.ite (fun e => by cases e) (fun _ => ?_)
      have hb := h.bor (List.mem_cons_self ..)
      refine Sat.bind (sat_car h hb fun car s1 h1 => ?_)
      refine Sat.bind (sat_cdr h1 (h1.bor (a := a) (v := strVal (c :: ks)) (ps := []) (by simp)) fun cdr s2 h2 => ?_)
      refine Sat.bind (sat_X h2.mv3 fun s3 h3 => ?_)
      have h3 : Sim (.tok cdr (strVal ks) [] :: .tok car (.chr c) [] :: σ :: Γ) s3 st := h3
      refine Sat.bind (sat_data (h3.rep (a := car) (v := .chr c) (ps := []) (by simp)) fun dc hdc => ?_)
      refine Sat.bind (Sat.lift ?_)
      intro k' hk
      rw [hdc.number] at hk
      cases hk
      have app : ∀ {s : HSt} {z : Addr} {k0 : Int},
          (∀ ρ s', Own ρ → ρ.val = strVal (processEscapes ks false (acc ++ [k0])) → Sim (ρ :: Γ) s' st → Q ρ.addr s') →
          Sim (σ :: .tok z (.chr k0) [] :: .tok cdr (strVal ks) [] :: Γ) s st →
          Sat (appendH n σ.addr z >>= fun nxt => escapesH n cdr false nxt) Q s := by
        intro s z k0 kk hh
        refine Sat.bind (sat_append hσ hh ?_)
        intro ρ s' oρ eρ h'
        refine ih oρ ?_ h'.mv2 kk
        rw [eρ, hv, append_str]
      rw [processEscapes] at k
      refine Sat.ite (fun e => ?_) (fun e => ?_)
      · subst e
        refine Sat.ite (fun e1 => ?_) (fun e1 => ?_)
        · refine Sat.bind (sat_X h3.mv2 fun s4 h4 => ?_)
          refine Sat.bind (sat_chr h4 fun z s5 h5 => ?_)
          refine app ?_ (h5.perm (by pm))
          simpa [e1] using k
        · refine Sat.ite (fun e2 => ?_) (fun e2 => ?_)
          · refine Sat.bind (sat_X h3.mv2 fun s4 h4 => ?_)
            refine Sat.bind (sat_chr h4 fun z s5 h5 => ?_)
            refine app ?_ (h5.perm (by pm))
            simpa [e1, e2, show ¬ chT = chN by decide] using k
          · refine app ?_ (h3.perm (by pm))
            simpa [e1, e2, show ¬ chT = chN by decide] using k
      · rw [Bool.not_eq_true] at e
        subst e
        refine Sat.ite (fun e1 => ?_) (fun e1 => ?_)
        · refine Sat.bind (sat_X h3.mv2 fun s4 h4 => ?_)
          refine ih hσ hv h4 ?_
          simpa [e1] using k
        · refine app ?_ (h3.perm (by pm))
          simpa [e1] using k

theorem sat_makeString {Q : Addr → HSt → Prop} {n : Nat} {Γ : List B} {s : HSt} {st : St} {bytes : List UInt8}
    (h : Sim Γ s st) (k : ∀ r s', Sim (.tok r (strVal (makeString bytes bytes.length)) [] :: Γ) s' st → Q r s') :
    Sat (makeStringH n bytes) Q s := by
  refine Sat.bind (sat_chars h fun a s1 h1 => ?_)
  refine Sat.bind (sat_nil h1 fun nl s2 h2 => ?_)
  refine sat_escapes (σ := .tok nl .nil []) (acc := []) n (.atom rfl) rfl h2.mv2 ?_
  intro ρ s' oρ eρ h'
  have := h'.plain oρ.spine
  rw [eρ] at this
  refine k _ s' ?_
  unfold makeString
  rw [List.take_length]
  exact this

/-! ## The tails of an expression -/

mutual
/-- `lisp_collect_tails` (`lib/core/utils.c:433-518`) on trees. -/
def tailsV (v : Val) : List Val :=
  match v with
  | .pair tc (.sym st s) rest =>
    if s = sIf then tailsIf rest
    else if s = sCond || s = sMatch then tailsClauses rest
    else if s = sProg || s = sStream then (if rest.isPair then tailsLast rest else [.sym st s])
    else if s = sUnless || s = sWhen then tailsSecond rest
    else [.pair tc (.sym st s) rest]
  | .nil => []
  | v => [v]
/-- The arguments of `if`. -/
def tailsIf (v : Val) : List Val :=
  match v with
  | .pair _ _ r => tailsThen r
  | _ => []
/-- The branches of `if`. -/
def tailsThen (v : Val) : List Val :=
  match v with
  | .pair _ x r => tailsV x ++ tailsElse r
  | _ => []
/-- The first element. -/
def tailsElse (v : Val) : List Val :=
  match v with
  | .pair _ x _ => tailsV x
  | _ => []
/-- The arguments of `cond` and `match`. -/
def tailsClauses (v : Val) : List Val :=
  match v with
  | .pair _ _ r => tailsAssoc r
  | _ => []
/-- `lisp_collect_tails_assoc` (`lib/core/utils.c:396-431`) on trees. -/
def tailsAssoc (v : Val) : List Val :=
  match v with
  | .pair _ c r => tailsClause c ++ tailsAssoc r
  | _ => []
/-- The CDR of a clause. -/
def tailsClause (v : Val) : List Val :=
  match v with
  | .pair _ _ x => tailsV x
  | _ => []
/-- The last element. -/
def tailsLast (v : Val) : List Val :=
  match v with
  | .pair _ x r => if r.isPair then tailsLast r else tailsV x
  | _ => []
/-- The arguments of `unless` and `when`. -/
def tailsSecond (v : Val) : List Val :=
  match v with
  | .pair _ _ r => tailsElse r
  | _ => []
end

mutual
theorem markTails_id {f : Sym} {args : Val} : ∀ v, (∀ t, t ∈ tailsV v → markCall f args t = t) → markTails f args v = v
  | .pair tc (.sym st s) rest, h => by
    rw [tailsV] at h
    rw [markTails]
    split
    · rename_i e; rw [if_pos e] at h; rw [markIf_id rest h]
    · rename_i e; rw [if_neg e] at h
      split
      · rename_i e; rw [if_pos e] at h; rw [markClauses_id rest h]
      · rename_i e; rw [if_neg e] at h
        split
        · rename_i e
          rw [if_pos e] at h
          by_cases hr : rest.isPair
          · rw [if_pos hr] at h; rw [markLast_id rest h]
          · cases rest <;> first | (exact absurd rfl hr) | rfl
        · rename_i e; rw [if_neg e] at h
          split
          · rename_i e; rw [if_pos e] at h; rw [markSecond_id rest h]
          · rename_i e; rw [if_neg e] at h; exact h _ (List.mem_singleton.2 rfl)
  | .pair _ .nil _, _ => rfl
  | .pair _ .tru _, _ => rfl
  | .pair _ .wild _, _ => rfl
  | .pair _ (.chr _) _, _ => rfl
  | .pair _ (.num _) _, _ => rfl
  | .pair _ (.pair ..) _, _ => rfl
  | .nil, _ => rfl
  | .tru, _ => rfl
  | .wild, _ => rfl
  | .chr _, _ => rfl
  | .num _, _ => rfl
  | .sym .., _ => rfl
theorem markIf_id {f : Sym} {args : Val} : ∀ v, (∀ t, t ∈ tailsIf v → markCall f args t = t) → markIf f args v = v
  | .pair t c r, h => by rw [markIf, markThen_id r h]
  | .nil, _ => rfl
  | .tru, _ => rfl
  | .wild, _ => rfl
  | .chr _, _ => rfl
  | .num _, _ => rfl
  | .sym .., _ => rfl
theorem markThen_id {f : Sym} {args : Val} : ∀ v, (∀ t, t ∈ tailsThen v → markCall f args t = t) → markThen f args v = v
  | .pair t x r, h => by
    rw [tailsThen] at h
    rw [markThen, markTails_id x (fun t ht => h t (List.mem_append_left _ ht)),
      markElse_id r (fun t ht => h t (List.mem_append_right _ ht))]
  | .nil, _ => rfl
  | .tru, _ => rfl
  | .wild, _ => rfl
  | .chr _, _ => rfl
  | .num _, _ => rfl
  | .sym .., _ => rfl
theorem markElse_id {f : Sym} {args : Val} : ∀ v, (∀ t, t ∈ tailsElse v → markCall f args t = t) → markElse f args v = v
  | .pair t x r, h => by rw [markElse, markTails_id x h]
  | .nil, _ => rfl
  | .tru, _ => rfl
  | .wild, _ => rfl
  | .chr _, _ => rfl
  | .num _, _ => rfl
  | .sym .., _ => rfl
theorem markClauses_id {f : Sym} {args : Val} : ∀ v, (∀ t, t ∈ tailsClauses v → markCall f args t = t) → markClauses f args v = v
  | .pair t c r, h => by rw [markClauses, markAssoc_id r h]
  | .nil, _ => rfl
  | .tru, _ => rfl
  | .wild, _ => rfl
  | .chr _, _ => rfl
  | .num _, _ => rfl
  | .sym .., _ => rfl
theorem markAssoc_id {f : Sym} {args : Val} : ∀ v, (∀ t, t ∈ tailsAssoc v → markCall f args t = t) → markAssoc f args v = v
  | .pair t c r, h => by
    rw [tailsAssoc] at h
    rw [markAssoc, markClause_id c (fun t ht => h t (List.mem_append_left _ ht)),
      markAssoc_id r (fun t ht => h t (List.mem_append_right _ ht))]
  | .nil, _ => rfl
  | .tru, _ => rfl
  | .wild, _ => rfl
  | .chr _, _ => rfl
  | .num _, _ => rfl
  | .sym .., _ => rfl
theorem markClause_id {f : Sym} {args : Val} : ∀ v, (∀ t, t ∈ tailsClause v → markCall f args t = t) → markClause f args v = v
  | .pair t p x, h => by rw [markClause, markTails_id x h]
  | .nil, _ => rfl
  | .tru, _ => rfl
  | .wild, _ => rfl
  | .chr _, _ => rfl
  | .num _, _ => rfl
  | .sym .., _ => rfl
theorem markLast_id {f : Sym} {args : Val} : ∀ v, (∀ t, t ∈ tailsLast v → markCall f args t = t) → markLast f args v = v
  | .pair t x r, h => by
    rw [tailsLast] at h
    rw [markLast]
    by_cases hr : r.isPair
    · rw [if_pos hr] at h ⊢; rw [markLast_id r h]
    · rw [if_neg hr] at h ⊢; rw [markTails_id x h]
  | .nil, _ => rfl
  | .tru, _ => rfl
  | .wild, _ => rfl
  | .chr _, _ => rfl
  | .num _, _ => rfl
  | .sym .., _ => rfl
theorem markSecond_id {f : Sym} {args : Val} : ∀ v, (∀ t, t ∈ tailsSecond v → markCall f args t = t) → markSecond f args v = v
  | .pair t c r, h => by rw [markSecond, markElse_id r h]
  | .nil, _ => rfl
  | .tru, _ => rfl
  | .wild, _ => rfl
  | .chr _, _ => rfl
  | .num _, _ => rfl
  | .sym .., _ => rfl
end

/-- The last element. -/
def lastElt : Val → Val
  | .pair _ x r => if r.isPair then lastElt r else x
  | _ => .nil

theorem tailsLast_eq (v : Val) : tailsLast v = tailsV (lastElt v) := by
  induction v with
  | pair t x r _ ih =>
    rw [tailsLast, lastElt]
    by_cases hr : r.isPair
    · rw [if_pos hr, if_pos hr, ih]
    · rw [if_neg hr, if_neg hr]
  | _ => rfl

theorem tailsElse_eq (v : Val) : tailsElse v = tailsV v.car := by cases v <;> rfl
theorem tailsThen_eq (v : Val) : tailsThen v = tailsV v.car ++ tailsElse v.cdr := by cases v <;> rfl
theorem tailsIf_eq (v : Val) : tailsIf v = tailsThen v.cdr := by cases v <;> rfl
theorem tailsClauses_eq (v : Val) : tailsClauses v = tailsAssoc v.cdr := by cases v <;> rfl
theorem tailsClause_eq (v : Val) : tailsClause v = tailsV v.cdr := by cases v <;> rfl
theorem tailsSecond_eq (v : Val) : tailsSecond v = tailsElse v.cdr := by cases v <;> rfl

theorem sat_lastPair (n : Nat) : ∀ {Q : Addr → HSt → Prop} {s : HSt} {a : Addr} {v : Val}, Rep s.mem a v →
    (∀ p x y t u w, v.isPair = true → lastElt v = u → s.mem p ≠ none → Rep s.mem p (.pair t u w) → Rep s.mem x u →
      (∀ b, Part s.mem b a → Part s.mem b p) → (pairOf p s = .ok ((x, y), s)) → (∀ b, Part s.mem b a → Part s.mem b x) → Q p s) →
    Sat (lastPair n a) Q s := by
  induction n with
  | zero => intros; exact Sat.oof
  | succ n ih =>
    intro Q s a v h k
    have hh := h
    cases h with
    | @atom _ c _ _ hc hv =>
      refine Sat.bind (sat_pairOf hh ?_)
      intro x y t u w e
      subst e
      unfold Cell.val at hv
      cases hd : c.data <;> rw [hd] at hv <;> simp [Data.atom] at hv
    | @pair _ x y c u w _ hc hd hx hy =>
      have e1 : pairOf a s = .ok ((x, y), s) := by
        unfold pairOf dataOf
        rw [HM.bind_ok (HM.bind_ok (cell_ok hc)), hd]; rfl
      refine Sat.bind (Sat.ok e1 ?_)
      refine Sat.bind (sat_data hy fun d hdy => ?_)
      rw [hdy.isPair]
      refine Sat.ite (fun e => ?_) (fun e => ?_)
      · refine ih hy ?_
        intro p x' y' t' u' w' e1 e2 hp h1 h2 h3 h4 h5
        refine k p x' y' t' u' w' rfl ?_ hp h1 h2 (fun b hb => h3 b (.cdr hb hc hd)) h4 (fun b hb => h5 b (.cdr hb hc hd))
        rw [lastElt, if_pos e1, e2]
      · refine Sat.pure (k a x y c.tc u w rfl ?_ (by rw [hc]; simp) hh hx (fun _ hb => hb) e1 (fun b hb => .car hb hc hd))
        rw [lastElt, if_neg e]

/-- The collection of tails. -/
theorem sat_tails_both (n : Nat) :
    (∀ {Q : Addr → HSt → Prop} {Γ : List B} {s : HSt} {st : St} {a : Addr} {v : Val} {ps : List (Addr × Val)},
      Sim (.tok a v ps :: Γ) s st →
      (∀ ρ s', Own ρ → ρ.val = Val.ofList (tailsAssoc v) → Sim (ρ :: Γ) s' st → Q ρ.addr s') → Sat (tailsAssocH n a) Q s) ∧
    (∀ {Q : Addr → HSt → Prop} {Γ : List B} {s : HSt} {st : St} {a : Addr} {v : Val} {ps : List (Addr × Val)},
      Sim (.tok a v ps :: Γ) s st →
      (∀ ρ s', Own ρ → ρ.val = Val.ofList (tailsV v) → Sim (ρ :: Γ) s' st → Q ρ.addr s') → Sat (tailsH n a) Q s) := by
  induction n with
  | zero => exact ⟨by intros; unfold tailsAssocH; exact Sat.oof, by intros; unfold tailsH; exact Sat.oof⟩
  | succ n ih =>
    obtain ⟨ihA, ihT⟩ := ih
    constructor
    · intro Q Γ s st a v ps h k
      unfold tailsAssocH
      refine Sat.bind (sat_data (h.rep (List.mem_cons_self ..)) fun d hd => ?_)
      rw [hd.isNil, hd.isPair]
      refine Sat.ite (fun e => ?_) (fun e => ?_)
      · have : v = .nil := by cases v <;> simp [Val.isNil] at e; rfl
        subst this
        exact Sat.pure (k (.tok a .nil ps) s (.atom rfl) rfl h)
      · refine Sat.ite (fun e' => ?_) (fun e' => ?_)
        · refine Sat.bind (sat_X h fun s1 h1 => ?_)
          refine sat_nil h1 fun r s2 h2 => k (.tok r .nil []) s2 (.atom rfl) ?_ h2
          cases v <;> first | rfl | (simp [Val.isPair] at e')
        · obtain ⟨t, u, w, rfl⟩ : ∃ t u w, v = .pair t u w := by
            cases v <;> simp [Val.isPair] at e' ⊢
          refine Sat.bind (sat_car h (h.bor (List.mem_cons_self ..)) fun car s1 h1 => ?_)
          refine Sat.bind (sat_cdr h1 (h1.bor (a := a) (v := .pair t u w) (ps := ps) (by simp)) fun cdr s2 h2 => ?_)
          refine Sat.bind (sat_X h2.mv3 fun s3 h3 => ?_)
          refine Sat.bind (sat_cdr h3 (h3.bor (a := car) (v := u) (ps := []) (by simp [Val.car])) fun e0 s4 h4 => ?_)
          refine Sat.bind (ihT h4 ?_)
          intro ρ s5 oρ eρ h5
          refine Sat.bind (sat_X h5.mv3 fun s6 h6 => ?_)
          refine Sat.bind (ihA h6.mv2 ?_)
          intro ρ' s7 oρ' eρ' h7
          refine sat_conc oρ h7.mv2 fun s8 h8 => k _ s8 (oρ.app_own oρ') ?_ h8
          rw [oρ.app_val, eρ, eρ', tailsAssoc, tailsClause_eq]
          exact conc_list _ _
    · intro Q Γ s st a v ps h k
      unfold tailsH
      have single : ∀ (_ : tailsV v = [v]), Sat (mkNil >>= fun nl => consH a nl) Q s := by
        intro e
        refine Sat.bind (sat_nil h fun nl s1 h1 => ?_)
        refine sat_pc h1 fun r s2 h2 => ?_
        have h3 := Sim.fold (σ := .tok a v ps) (τ := .tok nl .nil []) (h2.perm (by pm))
        refine k _ s2 (.node _ _ _ _ _ (.atom rfl)) ?_ h3
        rw [e]; rfl
      refine sat_cases (h.rep (List.mem_cons_self ..)) ?_ ?_
      · intro d _ hd hp
        cases hd with
        | nil => exact Sat.pure (k (.tok a .nil ps) s (.atom rfl) rfl h)
        | pair => exact Bool.noConfusion hp
        | _ => exact single rfl
      · intro x y t u w e hx hy _ _
        subst e
        refine sat_cases hx ?_ ?_
        · intro d _ hd hp
          cases hd with
          | pair => exact Bool.noConfusion hp
          | sym tc sy =>
            rw [tailsV] at k single
            refine Sat.ite (fun e => ?_) (fun e => ?_)
            · rw [if_pos e, tailsIf_eq, tailsThen_eq, tailsElse_eq] at k
              refine Sat.bind (sat_cdr h (h.bor (List.mem_cons_self ..)) fun cd0 s1 h1 => ?_)
              refine Sat.bind (sat_cdr h1 (h1.bor (List.mem_cons_self ..)) fun cd1 s2 h2 => ?_)
              refine Sat.bind (sat_car h2 (h2.bor (List.mem_cons_self ..)) fun e1 s3 h3 => ?_)
              refine Sat.bind (ihT h3 ?_)
              intro ρ s4 oρ eρ h4
              refine Sat.bind (sat_cdr h4 (h4.bor (a := cd1) (v := w.cdr) (ps := []) (by simp [Val.cdr])) fun cd2 s5 h5 => ?_)
              refine Sat.bind (sat_car h5 (h5.bor (List.mem_cons_self ..)) fun e2 s6 h6 => ?_)
              refine Sat.bind (ihT h6 ?_)
              intro ρ' s7 oρ' eρ' h7
              have h8 : Sim (.tok a (.pair t (.sym tc sy) w) ps :: .tok cd0 w [] :: .tok cd1 w.cdr [] :: .tok cd2 w.cdr.cdr [] ::
                  ρ :: ρ' :: Γ) s7 st := h7.perm (by pm)
              refine Sat.bind (sat_Xs4 h8 fun s8 h9 => ?_)
              refine sat_conc oρ h9 fun s9 h10 => k _ s9 (oρ.app_own oρ') ?_ h10
              rw [oρ.app_val, eρ, eρ']
              exact conc_list _ _
            · rw [if_neg e] at k single
              refine Sat.ite (fun e => ?_) (fun e => ?_)
              · rw [if_pos e, tailsClauses_eq] at k
                refine Sat.bind (sat_cdr h (h.bor (List.mem_cons_self ..)) fun cd0 s1 h1 => ?_)
                refine Sat.bind (sat_cdr h1 (h1.bor (List.mem_cons_self ..)) fun cd1 s2 h2 => ?_)
                refine Sat.bind (ihA h2 ?_)
                intro ρ s3 oρ eρ h3
                have h4 : Sim (.tok a (.pair t (.sym tc sy) w) ps :: .tok cd0 w [] :: ρ :: Γ) s3 st := h3.perm (by pm)
                refine Sat.bind (sat_Xs2 h4 fun s4 h5 => Sat.pure ?_)
                exact k ρ s4 oρ eρ h5
              · rw [if_neg e] at k single
                refine Sat.ite (fun e => ?_) (fun e => ?_)
                · rw [if_pos e] at k
                  refine Sat.bind (sat_lastPair n (h.rep (List.mem_cons_self ..)) ?_)
                  intro p x' y' t' u' w' _ e2 _ _ h2 _ h4 h5
                  refine Sat.bind (Sat.ok h4 ?_)
                  refine Sat.bind (sat_up h ⟨a, _, ps, List.mem_cons_self .., h5 a .refl, h2⟩ fun s1 h6 => ?_)
                  refine Sat.bind (ihT h6 ?_)
                  intro ρ s2 oρ eρ h7
                  refine Sat.bind (sat_X h7.mv2 fun s3 h8 => Sat.pure (k ρ s3 oρ ?_ h8))
                  rw [eρ, ← e2, lastElt]
                  by_cases hw : w.isPair
                  · rw [if_pos hw, if_pos hw, tailsLast_eq]
                  · rw [if_neg hw, if_neg hw]; rfl
                · rw [if_neg e] at k single
                  refine Sat.ite (fun e => ?_) (fun e => ?_)
                  · rw [if_pos e, tailsSecond_eq, tailsElse_eq] at k
                    refine Sat.bind (sat_cdr h (h.bor (List.mem_cons_self ..)) fun cd0 s1 h1 => ?_)
                    refine Sat.bind (sat_cdr h1 (h1.bor (List.mem_cons_self ..)) fun cd1 s2 h2 => ?_)
                    refine Sat.bind (sat_car h2 (h2.bor (List.mem_cons_self ..)) fun e1 s3 h3 => ?_)
                    refine Sat.bind (ihT h3 ?_)
                    intro ρ s4 oρ eρ h4
                    have h5 : Sim (.tok a (.pair t (.sym tc sy) w) ps :: .tok cd0 w [] :: .tok cd1 w.cdr [] :: ρ :: Γ) s4 st :=
                      h4.perm (by pm)
                    refine Sat.bind (sat_Xs3 h5 fun s5 h6 => Sat.pure (k ρ s5 oρ eρ h6))
                  · rw [if_neg e] at single
                    exact single rfl
          | _ => exact single rfl
        · intro _ _ _ _ _ e _ _ _ _
          subst e
          exact single rfl

theorem sat_tails {Q : Addr → HSt → Prop} {n : Nat} {Γ : List B} {s : HSt} {st : St} {a : Addr} {v : Val}
    {ps : List (Addr × Val)} (h : Sim (.tok a v ps :: Γ) s st)
    (k : ∀ ρ s', Own ρ → ρ.val = Val.ofList (tailsV v) → Sim (ρ :: Γ) s' st → Q ρ.addr s') : Sat (tailsH n a) Q s :=
  (sat_tails_both n).2 h k

end Heap
end Mnml
