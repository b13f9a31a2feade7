import Verif.HeapTail

/-!
# Rules for variables and abandoned references

Lookup, assignment, the global table, output, and the two recorders `leak` and `abandon`.
-/

namespace Mnml
namespace Heap

/-! ## Abandoned references and the global table -/

/-- An owned reference is abandoned. -/
theorem InvO.leak {s : HSt} {T T' : Addr → Nat} {a : Addr} (h : Inv s T)
    (e : ∀ b, T' b + one a b = T b) : Inv { s with leaked := a :: s.leaked } T' := by
  have hc : ∀ b, (a :: s.leaked).count b = s.leaked.count b + one a b := by
    intro b
    rw [List.count_cons]
    simp only [one, beq_iff_eq]
    by_cases hb : a = b
    · simp [hb]
    · have : ¬ b = a := fun x => hb x.symm
      simp [hb, this]
  have tot : ∀ b, total [] { s with leaked := a :: s.leaked } T' b = total [] s T b := by
    intro b
    have := hc b
    have := e b
    simp only [total, roots]
    omega
  refine ⟨h.fresh, ?_, ?_, h.pos, h.opn, ?_, h.cache⟩
  · intro b c hb; rw [tot]; exact h.exact b c hb
  · intro b hb; rw [tot]; exact h.dead b hb
  · intro z hz
    refine ⟨List.mem_cons_of_mem _ (h.zomb z hz).1, ?_⟩
    have := (h.zomb z hz).2
    have := e z
    show edges ([] ++ s.zombies) s.mem s.next z + T' z + (s.globals.map Prod.snd).count z = 0
    omega

/-- The only reference to a pair is abandoned and its content becomes owned. -/
theorem InvO.abandon {s : HSt} {T T' : Addr → Nat} {a x y : Addr} {c : Cell} (h : Inv s T)
    (hc : s.mem a = some c) (hr : c.refs = 1) (hd : c.data = .pair x y) (ha : ∀ b, one a b ≤ T b)
    (e : ∀ b, T' b + one a b = T b + one x b + one y b) :
    Inv { s with leaked := a :: s.leaked, zombies := a :: s.zombies } T' := by
  have l : Live s a := h.live ha
  have hcnt : ∀ b, (a :: s.leaked).count b = s.leaked.count b + one a b := by
    intro b
    rw [List.count_cons]
    simp only [one, beq_iff_eq]
    by_cases hb : a = b
    · simp [hb]
    · have : ¬ b = a := fun x => hb x.symm
      simp [hb, this]
  have key : ∀ b, edges ([] ++ a :: s.zombies) s.mem s.next b + (one x b + one y b)
      = edges ([] ++ s.zombies) s.mem s.next b := by
    intro b
    have hn : a ∉ [] ++ s.zombies := by simpa using l.2
    have := sumTo_change (f := contrib ([] ++ a :: s.zombies) s.mem b)
      (g := contrib ([] ++ s.zombies) s.mem b) (h.lt hc) (by
        intro x hx
        simp [contrib, hx])
    rw [contrib_some hn hc, contrib_open (by simp), hd, occ_pair] at this
    exact this
  have tot : ∀ b, total [] { s with leaked := a :: s.leaked, zombies := a :: s.zombies } T' b
      = total [] s T b := by
    intro b
    have := hcnt b
    have := key b
    have := e b
    simp only [total, roots]
    omega
  refine ⟨h.fresh, ?_, ?_, h.pos, h.opn, ?_, h.cache⟩
  · intro b c hb; rw [tot]; exact h.exact b c hb
  · intro b hb; rw [tot]; exact h.dead b hb
  · intro z hz
    have kz := key z
    have ez := e z
    show z ∈ a :: s.leaked ∧ edges ([] ++ a :: s.zombies) s.mem s.next z + T' z +
      (s.globals.map Prod.snd).count z = 0
    rcases List.mem_cons.1 hz with e' | e'
    · subst e'
      refine ⟨by simp, ?_⟩
      have t1 := h.exact z c hc
      have t2 := ha z
      rw [one_self] at ez t2
      unfold total roots at t1
      omega
    · refine ⟨List.mem_cons_of_mem _ (h.zomb z e').1, ?_⟩
      have := (h.zomb z e').2
      have : z ≠ a := by rintro rfl; exact l.2 e'
      rw [one_ne this] at ez
      omega

/-- An owned reference becomes an entry of the global table. -/
theorem InvO.push {s : HSt} {T T' : Addr → Nat} {a : Addr} {sy : Sym} (h : Inv s T)
    (ha : ∀ b, one a b ≤ T b) (e : ∀ b, T' b + one a b = T b) :
    Inv { s with globals := s.globals ++ [(sy, a)] } T' := by
  have l : Live s a := h.live ha
  have hc : ∀ b, ((s.globals ++ [(sy, a)]).map Prod.snd).count b
      = (s.globals.map Prod.snd).count b + one a b := by
    intro b
    rw [List.map_append, List.count_append]
    simp only [List.map_cons, List.map_nil, List.count_cons, List.count_nil, one, beq_iff_eq]
    by_cases hb : a = b
    · simp [hb]
    · have : ¬ b = a := fun x => hb x.symm
      simp [hb, this]
  have tot : ∀ b, total [] { s with globals := s.globals ++ [(sy, a)] } T' b = total [] s T b := by
    intro b
    have := hc b
    have := e b
    simp only [total, roots]
    omega
  refine ⟨h.fresh, ?_, ?_, h.pos, h.opn, ?_, ?_⟩
  · intro b c hb; rw [tot]; exact h.exact b c hb
  · intro b hb; rw [tot]; exact h.dead b hb
  · intro z hz
    refine ⟨(h.zomb z hz).1, ?_⟩
    have := (h.zomb z hz).2
    have := e z
    have := hc z
    have hne : z ≠ a := by rintro rfl; exact l.2 hz
    rw [one_ne hne] at *
    simp only
    omega
  · intro b c d hb hd
    have := h.cache b c d hb hd
    simp only [List.map_append, List.mem_append]
    exact Or.inl this

theorem wp_leak {Q : Unit → HSt → Prop} {s : HSt} {T : Addr → Nat} {a : Addr} (h : Inv s T)
    (ha : ∀ b, one a b ≤ T b)
    (k : ∀ s' T', Inv s' T' → (∀ b, T' b + one a b = T b) → Ext s s' → Q () s') : wp (leak a) Q s := by
  have e : ∀ b, T b - one a b + one a b = T b := by tok
  exact wp_ok rfl (k _ (fun b => T b - one a b) (h.leak e) e
    ⟨rfl, Nat.le_refl _, fun _ c hc => ⟨c, hc, rfl⟩, fun _ c _ hc => ⟨c, hc, rfl⟩⟩)

theorem wp_abandon {Q : Unit → HSt → Prop} {s : HSt} {T : Addr → Nat} {a x y : Addr} {c : Cell} (h : Inv s T)
    (hc : s.mem a = some c) (hr : c.refs = 1) (hd : c.data = .pair x y) (ha : ∀ b, one a b ≤ T b)
    (k : ∀ s' T', Inv s' T' → (∀ b, T' b + one a b = T b + one x b + one y b) → Q () s') :
    wp (abandon a) Q s := by
  have e : ∀ b, T b + one x b + one y b - one a b + one a b = T b + one x b + one y b := by tok
  exact wp_ok rfl (k _ (fun b => T b + one x b + one y b - one a b) (h.abandon hc hr hd ha e) e)

theorem wp_push {Q : Unit → HSt → Prop} {s : HSt} {T : Addr → Nat} {a : Addr} {sy : Sym} (h : Inv s T)
    (ha : ∀ b, one a b ≤ T b)
    (k : ∀ s' T', Inv s' T' → (∀ b, T' b + one a b = T b) → Q () s') : wp (pushGlobal sy a) Q s := by
  have e : ∀ b, T b - one a b + one a b = T b := by tok
  exact wp_ok rfl (k _ (fun b => T b - one a b) (h.push ha e) e)

theorem wp_emit {Q : Unit → HSt → Prop} {s : HSt} {T : Addr → Nat} {l : List UInt8} (h : Inv s T)
    (k : ∀ s', Inv s' T → Ext s s' → Q () s') : wp (emitH l) Q s :=
  wp_ok rfl (k _ ⟨h.fresh, h.exact, h.dead, h.pos, h.opn, h.zomb, h.cache⟩
    ⟨rfl, Nat.le_refl _, fun _ c hc => ⟨c, hc, rfl⟩, fun _ c _ hc => ⟨c, hc, rfl⟩⟩)

/-- An argument that is not owned: it has to be live where the program must not read a released cell. -/
theorem wp_fresh {Q : Unit → HSt → Prop} {s : HSt} {u : UB} {a : Addr} (hu : u = .useAfterFree → Live s a)
    (k : Live s a → Q () s) : wp (fresh u a) Q s := by
  unfold wp
  rw [fresh_apart]
  by_cases hc : (s.mem a).isSome ∧ a ∉ s.zombies
  · simp only [hc, not_false_eq_true, and_self, if_true]
    exact k ⟨Option.isSome_iff_exists.1 hc.1, hc.2⟩
  · simp only [hc, if_false]
    intro e
    have l := hu e
    exact hc ⟨Option.isSome_iff_exists.2 l.1, l.2⟩

theorem wp_entry {Q : Addr × Addr → HSt → Prop} {s : HSt} {T : Addr → Nat} {sy : Sym} {e : Addr} (h : Inv s T)
    (l : Live s e) (k : ∀ c x y, s.mem e = some c → c.data = .pair x y → Q (x, y) s) : wp (entryH sy e) Q s := by
  refine wp_bind (wp_pairOf l fun c x y hc hd => ?_)
  refine wp_bind (wp_dataOf (h.childCar l (by simp) hc hd) fun cx _ => ?_)
  exact wp_ite (fun _ => wp_pure (k c x y hc hd)) (fun _ => wp_unsupported)

theorem Res.ne_bind {α β : Type} {x : Res α} {f : α → Res β} (hx : x ≠ .ub .useAfterFree)
    (hf : ∀ a, f a ≠ .ub .useAfterFree) : (x >>= f) ≠ .ub .useAfterFree := by
  cases x with
  | ok a => exact hf a
  | ub u => intro e; apply hx; cases e; rfl
  | _ => intro e; cases e

theorem Res.ne_ok {α : Type} (a : α) : (Res.ok a) ≠ .ub .useAfterFree := by intro e; cases e

theorem Print.write_ne (st : Print.PB) (l : List UInt8) : Print.write st l ≠ .ub .useAfterFree := by
  unfold Print.write
  dsimp only
  split <;> split <;> intro e <;> cases e

theorem Print.leaf_ne (q : Bool) (v : Val) (st : Print.PB) : Print.prinLeaf q v st ≠ .ub .useAfterFree := by
  unfold Print.prinLeaf
  repeat' split
  all_goals first
    | exact Print.write_ne _ _
    | exact Res.ne_ok _
    | exact Res.ne_bind (Print.write_ne _ _) fun _ => Print.write_ne _ _

theorem Print.atom_ne (q : Bool) (v : Val) : (∀ st, Print.prinAtom q v st ≠ .ub .useAfterFree) ∧
    ∀ st, Print.prinTail q v st ≠ .ub .useAfterFree := by
  induction v with
  | pair tc a d iha ihd =>
    constructor
    · intro st
      unfold Print.prinAtom
      cases q
      · exact Res.ne_bind (Res.ne_ok _) fun _ => Res.ne_bind (iha.1 _) fun _ => Res.ne_bind (ihd.2 _)
          fun _ => Res.ne_ok _
      · exact Res.ne_bind (Print.write_ne _ _) fun _ => Res.ne_bind (iha.1 _) fun _ => Res.ne_bind (ihd.2 _)
          fun _ => Print.write_ne _ _
    · intro st
      unfold Print.prinTail
      cases q
      · exact Res.ne_bind (Res.ne_ok _) fun _ => Res.ne_bind (iha.1 _) fun _ => ihd.2 _
      · exact Res.ne_bind (Print.write_ne _ _) fun _ => Res.ne_bind (iha.1 _) fun _ => ihd.2 _
  | nil =>
    constructor
    · intro st; unfold Print.prinAtom; exact Print.leaf_ne _ _ _
    · intro st; unfold Print.prinTail; exact Res.ne_ok _
  | _ =>
    constructor
    · intro st; unfold Print.prinAtom; exact Print.leaf_ne _ _ _
    · intro st; unfold Print.prinTail
      cases q
      · exact Res.ne_bind (Res.ne_ok _) fun _ => Print.leaf_ne _ _ _
      · exact Res.ne_bind (Print.write_ne _ _) fun _ => Print.leaf_ne _ _ _

theorem Print.prin_ne (v : Val) (q : Bool) : Print.prin v q ≠ .ub .useAfterFree := by
  unfold Print.prin
  exact Res.ne_bind ((Print.atom_ne q v).1 _) fun _ => by simp

theorem wp_prin {Q : Unit → HSt → Prop} {n : Nat} {s : HSt} {T : Addr → Nat} {a : Addr} {q : Bool} (h : Inv s T)
    (l : Live s a) (k : ∀ s', Inv s' T → Ext s s' → Q () s') : wp (prinH n a q) Q s := by
  refine wp_bind (wp_view h n l fun v => ?_)
  refine wp_bind (wp_lift (Print.prin_ne v q) fun _ _ => ?_)
  exact wp_emit h k

/-! ## Assignment -/

/-- Swap the values of two bindings. -/
theorem wp_swap {α : Type} {Q : α → HSt → Prop} {f : Unit → HM α} {s : HSt} {T : Addr → Nat} {e p k0 k v old : Addr}
    {ce cp : Cell} (h : Inv s T) (le : Live s e) (lp : Live s p)
    (he : s.mem e = some ce) (hp : s.mem p = some cp) (de : ce.data = .pair k0 old)
    (dp : cp.data = .pair k v) (kk : ∀ s', Inv s' T → wp (f ()) Q s') :
    wp (setData e (.pair k0 v) >>= fun _ => setData p (.pair k old) >>= f) Q s := by
  by_cases hne : p = e
  · subst hne
    rw [he] at hp; cases hp
    rw [de] at dp
    obtain ⟨rfl, rfl⟩ : k0 = k ∧ old = v := by cases dp; exact ⟨rfl, rfl⟩
    refine wp_bind (wp_ok (modify_ok _ he) ?_)
    have i1 := h.touch (T' := T) le he (c' := { ce with data := .pair k0 old }) de.symm (fun _ => rfl)
      (Or.inr (h.pos p ce he (by simp))) (fun d hd => h.cache p ce d he hd)
    have he1 := upd_self s.mem p (some { ce with data := Data.pair k0 old })
    refine wp_bind (wp_ok (modify_ok _ he1) ?_)
    refine kk _ (i1.touch (T' := T) (c := { ce with data := .pair k0 old })
      (c' := { ce with data := .pair k0 old }) ⟨⟨_, he1⟩, le.2⟩ he1 rfl
      (fun _ => rfl) (Or.inr (h.pos p ce he (by simp))) (fun d hd => h.cache p ce d he hd))
  · have o1 := h.open_ (T' := fun b => T b + (one k0 b + one old b)) le (by simp) he
      (fun b => by rw [de, occ_pair])
    have o2 := o1.open_ (T' := fun b => T b + (one k0 b + one old b) + (one k b + one v b)) lp (by simpa using hne) hp
      (fun b => by rw [dp, occ_pair])
    refine wp_bind (wp_setData o2 (by simp) he ?_)
    intro s1 h1 hm1 other1 z1 n1 _
    have hp1 : s1.mem p = some cp := by rw [other1 p hne]; exact hp
    refine wp_bind (wp_setData h1 (by simp) hp1 ?_)
    intro s2 h2 hm2 other2 z2 n2 _
    have hm1' : s2.mem e = some { ce with data := .pair k0 v } := by
      rw [other2 e (fun x => hne x.symm)]; exact hm1
    have zz : s2.zombies = s.zombies := z2.trans z1
    have c1 := h2.close (T' := fun b => T b + one k0 b + one v b) (by rw [zz]; exact lp.2) (by simpa using hne) hm2
      (h.pos p cp hp (by simp)) (by tok)
    have c2 := c1.close (T' := T) (by rw [zz]; exact le.2) (by simp) hm1' (h.pos e ce he (by simp)) (by tok)
    exact kk s2 c2

theorem wp_setq {Q : Unit → HSt → Prop} {s : HSt} {T : Addr → Nat} {p : Addr} (h : Inv s T)
    (ha : ∀ b, one p b ≤ T b) (k : ∀ s' T', Inv s' T' → (∀ b, T' b + one p b = T b) → Q () s') :
    wp (setqH p) Q s := by
  have lp := h.live ha
  refine wp_bind (wp_dataOf lp fun c hc => ?_)
  cases hd : c.data with
  | pair kk v =>
    refine wp_bind (wp_dataOf (h.childCar lp (by simp) hc hd) fun ck _ => ?_)
    cases ck.data with
    | sym sy =>
      refine wp_bind (wp_global fun r hr => ?_)
      cases r with
      | none => exact wp_push h ha k
      | some e =>
        have le := h.liveGlobal (hr e rfl)
        refine wp_bind (wp_entry h le fun ce k0 old he de => ?_)
        refine wp_swap h le lp he hc de hd ?_
        intro s1 h1
        exact wp_X h1 ha k
    | _ => exact wp_X h ha k
  | _ => exact wp_X h ha k

theorem wp_lookup {Q : Addr → HSt → Prop} {n : Nat} {sy : Sym} {s : HSt} {T : Addr → Nat} {closure a : Addr} (h : Inv s T)
    (lc : Live s closure) (la : Live s a)
    (k : ∀ r s' T', Inv s' T' → (∀ b, T' b = T b + one r b) → Q r s') : wp (lookupH n closure a sy) Q s := by
  refine wp_bind (wp_assoc h lc fun r hr => ?_)
  cases r with
  | some kv =>
    refine wp_bind (wp_pairOf' h (hr kv rfl) fun _ v _ lv => ?_)
    refine wp_bind (wp_up h lv ?_)
    intro s1 T1 h1 e1 _
    exact wp_pure (k v s1 T1 h1 e1)
  | none =>
    refine wp_bind (wp_cell la fun c hc => ?_)
    cases hch : c.cache with
    | some d =>
      have ld := h.liveGlobal (h.cache a c d hc hch)
      refine wp_bind (wp_pairOf' h ld fun _ v _ lv => ?_)
      refine wp_bind (wp_up h lv ?_)
      intro s1 T1 h1 e1 _
      exact wp_pure (k v s1 T1 h1 e1)
    | none =>
      refine wp_bind (wp_bind (wp_global fun r hr => ?_))
      cases r with
      | some d =>
        have ld := h.liveGlobal (hr d rfl)
        obtain ⟨cd, hcd⟩ := ld.1
        refine wp_bind (wp_ok (modify_ok _ hcd) ?_)
        have h1 := h.touch (T' := fun b => T b + one d b) ld hcd (c' := { cd with refs := cd.refs + 1 }) rfl
          (by intro b; rw [Nat.mul_add, Nat.mul_one]; omega) (Or.inr (Nat.succ_pos _))
          (fun x hx => h.cache _ _ x hcd hx)
        have x1 := touch_ext (c' := { cd with refs := cd.refs + 1 }) hcd rfl
        refine wp_pure ?_
        refine wp_bind ?_
        refine wp_bind (wp_dataOf (ld.ext x1) fun c1 hc1 => ?_)
        have fin : ∀ {res : Addr} {s2 : HSt} {T2 : Addr → Nat}, Inv s2 T2 →
            (∀ b, T2 b = T b + one d b + one res b) → Ext s s2 → s2.globals = s.globals →
            wp (do setCache a d; X d; pure res) Q s2 := by
          intro res s2 T2 h2 e2 x2 g2
          refine wp_bind (wp_setCache h2 (la.ext x2) (by rw [g2]; exact hr d rfl) ?_)
          intro s3 h3 _
          refine wp_bind (wp_X h3 (by tok) ?_)
          intro s4 T4 h4 e4
          exact wp_pure (k res s4 T4 h4 (by tok))
        cases hd1 : c1.data with
        | pair xx yy =>
          have ly := h1.childCdr (ld.ext x1) (by simp) hc1 hd1
          obtain ⟨cy, hcy⟩ := ly.1
          refine wp_bind (wp_ok (modify_ok _ hcy) ?_)
          have h2 := h1.touch (T' := fun b => T b + one d b + one yy b) ly hcy (c' := { cy with refs := cy.refs + 1 }) rfl
            (by intro b; rw [Nat.mul_add, Nat.mul_one]; omega) (Or.inr (Nat.succ_pos _))
            (fun x hx => h1.cache _ _ x hcy hx)
          have x2 := touch_ext (c' := { cy with refs := cy.refs + 1 }) hcy rfl
          exact wp_pure (fin h2 (fun _ => rfl) (x1.trans x2) rfl)
        | _ =>
          refine wp_ok rfl (fin (h1.alloc .nil (T' := fun b => T b + one d b + one s.next b) (fun _ => rfl))
            (fun _ => rfl) (x1.trans ?_) rfl)
          refine ⟨rfl, Nat.le_succ _, fun a c hc => ⟨c, ?_, rfl⟩, fun a c ha hc => ⟨c, ?_, rfl⟩⟩
          · have := h1.lt hc
            have : a ≠ s.next := by simp only at this; omega
            simp only [upd_ne this]
            exact hc
          · have : a ≠ s.next := by simp only at ha; omega
            simp only [upd_ne this] at hc
            exact hc
      | none =>
        refine wp_bind (wp_nil h ?_)
        intro elt s1 T1 h1 e1 x1
        refine wp_pure ?_
        refine wp_bind (wp_cdr h1 (h1.live (by tok)) ?_)
        intro res s2 T2 h2 e2 _
        refine wp_bind (wp_X h2 (by tok) ?_)
        intro s3 T3 h3 e3
        exact wp_pure (k res s3 T3 h3 (by tok))

theorem wp_assign {Q : Addr → HSt → Prop} {n : Nat} {s : HSt} {T : Addr → Nat} {c sym val : Addr} (h : Inv s T)
    (lc : Live s c) (t : ∀ b, one sym b + one val b ≤ T b)
    (k : ∀ r s' T', Inv s' T' → (∀ b, T' b + one sym b + one val b = T b + one r b) → Q r s') :
    wp (assignH n c sym val) Q s := by
  have other : wp (do Xs [sym, val]; mkNil) Q s := by
    refine wp_bind (wp_Xs h (by tok) ?_)
    intro s1 T1 h1 e1
    refine wp_nil h1 ?_
    intro r s2 T2 h2 e2 _
    exact k r s2 T2 h2 (by tok)
  refine wp_bind (wp_dataOf (h.live (by tok)) fun cs _ => ?_)
  cases cs.data with
  | sym sy =>
    refine wp_bind (wp_assoc h lc fun r hr => ?_)
    cases r with
    | some kv =>
      have lkv := hr kv rfl
      refine wp_bind (wp_guard ?_)
      refine wp_bind (wp_pairOf lkv fun ck kk old hck hdk => ?_)
      have o := h.open_ (T' := fun b => T b + (one kk b + one old b)) lkv (by simp) hck
        (fun b => by rw [hdk, occ_pair])
      refine wp_bind (wp_setData o (by simp) hck ?_)
      intro s1 h1 hm1 _ z1 _ _
      have c1 := h1.close (T' := fun b => T b + one old b - one val b) (by rw [z1]; exact lkv.2) (by simp) hm1
        (h.pos kv ck hck (by simp)) (by tok)
      refine wp_bind (wp_X c1 (by tok) ?_)
      intro s2 T2 h2 e2
      exact wp_pure (k old s2 T2 h2 (by tok))
    | none =>
      refine wp_bind (wp_alloc h (.pair sym val) (by tok) ?_)
      intro elt s1 T1 h1 e1 x1 _ hn1 hm1
      refine wp_bind (wp_global fun r hr => ?_)
      cases r with
      | some e =>
        have le := h1.liveGlobal (hr e rfl)
        refine wp_bind (wp_entry h1 le fun ce k0 old he de => ?_)
        refine wp_swap h1 le (h1.live (by tok)) he hm1 de rfl ?_
        intro s2 h2
        exact wp_pure (k elt s2 T1 h2 (by tok))
      | none =>
        refine wp_bind (wp_ok rfl ?_)
        have h2 := h1.alloc .nil (T' := fun b => T1 b + one s1.next b) (fun _ => rfl)
        have hne : elt ≠ s1.next := by have := h1.lt hm1; omega
        obtain ⟨s3, T3, r3, h3, e3, k3, f3⟩ := X_atom_spec h2 (by tok) (by simp) (upd_self _ _ _) rfl
        refine wp_bind (wp_ok r3 ?_)
        have hm3 : s3.mem elt = some ⟨1, false, none, .pair sym val⟩ := by
          rw [f3 elt hne]
          simp only [upd_ne hne]
          exact hm1
        refine wp_bind (wp_abandon h3 hm3 rfl rfl (by tok) ?_)
        intro s4 T4 h4 e4
        refine wp_bind (wp_Xs h4 (by tok) ?_)
        intro s5 T5 h5 e5
        refine wp_nil h5 ?_
        intro r s6 T6 h6 e6 _
        exact k r s6 T6 h6 (by tok)
  | _ => exact other

end Heap
end Mnml
