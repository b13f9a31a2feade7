import Verif.TreeFix

/-!
# Insertion
-/

namespace Mnml

namespace Tree

theorem hole_ne_sib {σ : Store} {root np : Nat} {f : Frame} {fs : List Frame} {t : T}
    (h : Valid σ root np (plug (f :: fs) t)) : t.addr ≠ f.sib.addr := by
  have hn := ((plug_addrs_perm (f :: fs) t).nodup (List.nodup_cons.1 h.nodup).2)
  intro e
  exact (List.nodup_append.1 hn).2.2 _ t.addr_mem f.sib.addr (by simp [addrsC, T.addr_mem]) e

/-- The loop of `tree_add_check` computes `fixUp`. -/
theorem addCheck_spec {nd np : Nat} (fs : List Frame) (t : T) {σ : Store} {root n : Nat}
    (h : Valid σ root np (plug fs t)) (hn : t.isNode = true) (hl : ∀ f ∈ fs.getLast?, f.red = false)
    (hc : Childless σ nd) (hfuel : fs.length + 2 ≤ n) :
    ∃ σ', addCheck nd n root t.addr σ = .ok ((fixUp fs t).addr, σ') ∧
      Valid σ' (fixUp fs t).addr np ((fixUp fs t).withRed false) ∧ σ'.data = σ.data ∧ σ'.next = σ.next := by
  induction hlen : fs.length using Nat.strongRecOn generalizing fs t σ root n with
  | _ len ih =>
  have stop : (∀ f ∈ fs.head?, f.red = false) → fixUp fs t = plug fs t → ∃ σ',
      addCheck nd n root t.addr σ = .ok ((fixUp fs t).addr, σ') ∧
      Valid σ' (fixUp fs t).addr np ((fixUp fs t).withRed false) ∧ σ'.data = σ.data ∧ σ'.next = σ.next := by
    intro hh e
    obtain ⟨m, rfl⟩ : ∃ m, n = m + 1 := ⟨n - 1, by omega⟩
    obtain ⟨σ', a, b, c⟩ := addCheck_exit nd m h hn hh
    rw [e, h.root]
    exact ⟨σ', a, b, c.data, c.next⟩
  match fs, h, hl, hfuel, hlen, stop with
  | [], h, hl, hfuel, hlen, stop => exact stop (by simp) rfl
  | [f], h, hl, hfuel, hlen, stop => exact stop (by simpa using hl) rfl
  | f :: g :: fs, h, hl, hfuel, hlen, stop =>
    cases hred : f.red with
    | false => exact stop (by simpa using hred) (by simp [fixUp, hred, plug])
    | true =>
    obtain ⟨m, rfl⟩ : ∃ m, n = m + 1 := ⟨n - 1, by simp at hfuel; omega⟩
    obtain ⟨hC, ht⟩ := (rep_plug ..).1 h.rep
    obtain ⟨cell, ht1, ht2, ht3⟩ := node_cell ht hn
    have hmore : addMore root t.addr σ = .ok (true, σ) := by rw [addMore_spec h hn, headRed, hred]
    have hp : parent t.addr σ = .ok (f.a, σ) := by rw [parent_ok ht1, ht2]; rfl
    have hg : parent f.a σ = .ok (g.a, σ) := parent_ok hC.1
    have hlg : left g.a σ = .ok (if g.goLeft then f.a else g.sib.addr, σ) := left_ok hC.2.2.2.1
    have hrg : right g.a σ = .ok (if g.goLeft then g.sib.addr else f.a, σ) := right_ok hC.2.2.2.1
    have hlp : left f.a σ = .ok (if f.goLeft then t.addr else f.sib.addr, σ) := left_ok hC.1
    have hrp : right f.a σ = .ok (if f.goLeft then f.sib.addr else t.addr, σ) := right_ok hC.1
    have hfs : f.a ≠ g.sib.addr := by
      have := hole_ne_sib (f := g) (fs := fs) (t := f.plug t) h
      rwa [plug_addr] at this
    have hts : t.addr ≠ f.sib.addr := hole_ne_sib h
    have hcol : colored g.sib.addr σ = .ok (g.sib.isRed, σ) := colored_rep hC.2.2.2.2.2.1
    -- case 1
    have case1 : g.sib.isRed = true → ∃ σ',
        (do addCase1 f.a g.sib.addr g.a; addCheck nd m root g.a : TM Nat) σ =
          .ok ((fixUp (f :: g :: fs) t).addr, σ') ∧
        Valid σ' (fixUp (f :: g :: fs) t).addr np ((fixUp (f :: g :: fs) t).withRed false) ∧
        σ'.data = σ.data ∧ σ'.next = σ.next := by
      intro hr
      obtain ⟨σ1, a1, b1, c1⟩ := addCase1_spec h
      have hlast : ∀ k ∈ fs.getLast?, k.red = false := by
        intro k hk
        apply hl
        cases fs with
        | nil => simp at hk
        | cons k' ks => simpa [List.getLast?_cons_cons] using hk
      obtain ⟨σ2, a2, b2, d2, n2⟩ := ih fs.length (by simp at hlen; omega) fs _ b1
        (by unfold Frame.plug; split <;> rfl) hlast (hc.recolored c1) (n := m) (by simp at hfuel; omega) rfl
      rw [plug_addr] at a2
      have e : fixUp (f :: g :: fs) t =
          fixUp fs ({ g with red := true, sib := g.sib.withRed false }.plug ((f.withRed false).plug t)) := by
        rw [fixUp, if_pos hred, if_pos hr]
      rw [e]
      refine ⟨σ2, ?_, b2, d2.trans c1.data, n2.trans c1.next⟩
      rw [TM.bind_apply, a1]
      exact a2
    -- cases 2 and 3
    have fin : g.sib.isRed = false → ∃ σ' q, (if f.goLeft = g.goLeft then
          (do let y ← addCase3 t.addr
              let r ← turnM g.goLeft root y
              pure (t.addr, r) : TM (Nat × Nat))
        else (do let y ← addCase3 f.a
                 let r ← turnM g.goLeft root y
                 pure (f.a, r))) σ = .ok (q, σ') ∧ ∃ σ'',
        addCheck nd m q.2 q.1 σ' = .ok ((fixUp (f :: g :: fs) t).addr, σ'') ∧
        Valid σ'' (fixUp (f :: g :: fs) t).addr np ((fixUp (f :: g :: fs) t).withRed false) ∧
        σ''.data = σ.data ∧ σ''.next = σ.next := by
      intro hr
      obtain ⟨m', rfl⟩ : ∃ m', m = m' + 1 := ⟨m - 1, by simp at hfuel; omega⟩
      by_cases ho : f.goLeft = g.goLeft
      · obtain ⟨σ1, fs', a1, e1, r1, b1, d1, n1⟩ := case3_spec h hn ho
        obtain ⟨σ2, a2, b2, c2⟩ := addCheck_exit nd m' b1 hn (by
          intro k hk; cases fs' with
          | nil => simp at hk
          | cons k' ks => simp at hk; subst hk; exact r1)
        have e : fixUp (f :: g :: fs) t = plug fs' t := by
          rw [e1, fixUp, if_pos hred, if_neg (by simp [hr]), if_pos ho]
        refine ⟨σ1, (t.addr, (plug fs' t).addr), ?_, σ2, ?_, ?_, c2.data.trans d1, c2.next.trans n1⟩
        · rw [if_pos ho]
          rw [TM.bind_apply] at a1 ⊢
          cases hx : addCase3 t.addr σ with
          | ok p => rw [hx] at a1; simp only [Res.ok_bind, TM.bind_apply] at a1 ⊢; rw [a1]; rfl
          | _ => rw [hx] at a1; cases a1
        · rw [e]; exact a2
        · rw [e]; exact b2
      · obtain ⟨σ1, fs', a1, e1, r1, b1, d1, n1⟩ := case2_spec h
        obtain ⟨σ2, a2, b2, c2⟩ := addCheck_exit nd m' b1 (by unfold Frame.plug; split <;> rfl) (by
          intro k hk; cases fs' with
          | nil => simp at hk
          | cons k' ks => simp at hk; subst hk; exact r1)
        rw [plug_addr] at a2
        have e : fixUp (f :: g :: fs) t = plug fs' (f.plug t) := by
          rw [e1, fixUp, if_pos hred, if_neg (by simp [hr]), if_neg ho]
        refine ⟨σ1, (f.a, (plug fs' (f.plug t)).addr), ?_, σ2, ?_, ?_, c2.data.trans d1, c2.next.trans n1⟩
        · rw [if_neg ho]
          rw [TM.bind_apply] at a1 ⊢
          cases hx : addCase3 f.a σ with
          | ok p => rw [hx] at a1; simp only [Res.ok_bind, TM.bind_apply] at a1 ⊢; rw [a1]; rfl
          | _ => rw [hx] at a1; cases a1
        · rw [e]; exact a2
        · rw [e]; exact b2
    unfold addCheck
    simp only [TM.bind_apply, hmore, Res.ok_bind, if_true, hp, hg, hlg, hrg]
    cases hgl : g.goLeft with
    | true =>
      rw [hgl] at fin
      simp only [if_true, TM.bind_apply, hcol, Res.ok_bind]
      cases hr : g.sib.isRed with
      | true => exact case1 hr
      | false =>
        obtain ⟨σ1, q, a1, σ2, a2, b2⟩ := fin hr
        have hfix : addFixLeft nd root t.addr f.a σ = .ok (q, σ1) := by
          rw [← a1]
          unfold addFixLeft
          rw [TM.bind_apply, hrp]
          cases hfl : f.goLeft with
          | true =>
            simp only [if_true, Res.ok_bind, hts, if_false]
            rfl
          | false =>
            simp only [Bool.false_eq_true, if_false, Res.ok_bind, if_true]
            rw [TM.bind_apply, hc.lrot]; rfl
        refine ⟨σ2, ?_, b2⟩
        show (addFixLeft nd root t.addr f.a >>= fun q => addCheck nd m q.2 q.1) σ = _
        rw [TM.bind_apply, hfix]; exact a2
    | false =>
      rw [hgl] at fin
      simp only [Bool.false_eq_true, if_false, hfs, TM.bind_apply, hcol, Res.ok_bind]
      cases hr : g.sib.isRed with
      | true => exact case1 hr
      | false =>
        obtain ⟨σ1, q, a1, σ2, a2, b2⟩ := fin hr
        have hfix : addFixRight nd root t.addr f.a σ = .ok (q, σ1) := by
          rw [← a1]
          unfold addFixRight
          rw [TM.bind_apply, hlp]
          cases hfl : f.goLeft with
          | false =>
            simp only [Bool.false_eq_true, if_false, Res.ok_bind, hts, if_true]
            rfl
          | true =>
            simp only [Bool.false_eq_true, if_false, Res.ok_bind, if_true]
            rw [TM.bind_apply, hc.rrot]; rfl
        refine ⟨σ2, ?_, b2⟩
        show (addFixRight nd root t.addr f.a >>= fun q => addCheck nd m q.2 q.1) σ = _
        rw [TM.bind_apply, hfix]; exact a2

end Tree

end Mnml
