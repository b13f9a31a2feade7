import Verif.Val

/-!
# Environments

Facts on the association lists used as local environments: `sss`, `merge`, `assq`, `bind` of
`Verif.Val`, seen as operations on lists of entries.
-/

namespace Mnml

open Val

/-- An entry `(K . V)` of an environment; `tc` is the flag of the key's cell. -/
structure Entry where
  tc : Bool
  key : Sym
  val : Val
deriving DecidableEq

namespace Entry
/-- The cell `(K . V)`. -/
def toVal (e : Entry) : Val := cons (sym e.tc e.key) e.val
end Entry

/-- The association list with the given entries. -/
def envVal (l : List Entry) : Val := ofList (l.map Entry.toVal)

/-- The binding of a name in a list of entries: the first one. -/
def getEnv (l : List Entry) (s : Sym) : Option Val :=
  (l.find? (fun e => decide (e.key = s))).map (·.val)

/-- Sorted by key without duplicates. -/
def Sorted (l : List Entry) : Prop := l.Pairwise (fun a b => symCompare a.key b.key = .lt)

@[simp] theorem envVal_nil : envVal [] = nil := rfl
@[simp] theorem envVal_cons (e : Entry) (l : List Entry) :
    envVal (e :: l) = cons e.toVal (envVal l) := rfl

@[simp] theorem getEnv_nil (s : Sym) : getEnv [] s = none := rfl
theorem getEnv_cons (e : Entry) (l : List Entry) (s : Sym) :
    getEnv (e :: l) s = if e.key = s then some e.val else getEnv l s := by
  simp only [getEnv, List.find?_cons]
  split <;> simp_all

theorem sorted_cons {e : Entry} {l : List Entry} :
    Sorted (e :: l) ↔ (∀ x ∈ l, symCompare e.key x.key = .lt) ∧ Sorted l :=
  List.pairwise_cons

/-- Insertion of an entry in a sorted list of entries. -/
def insEnv (l : List Entry) (e : Entry) : List Entry :=
  match l with
  | [] => [e]
  | x :: xs =>
    match symCompare x.key e.key with
    | .lt => x :: insEnv xs e
    | .eq => e :: xs
    | .gt => e :: x :: xs

theorem sss_envVal (l : List Entry) (e : Entry) :
    sss (envVal l) e.toVal = .ok (envVal (insEnv l e)) := by
  induction l with
  | nil => rfl
  | cons x xs ih =>
    simp only [envVal_cons, Entry.toVal, sss, tag, insEnv]
    simp only [Entry.toVal] at ih
    cases symCompare x.key e.key with
    | lt => simp only [ih, Res.ok_bind]; rfl
    | eq => rfl
    | gt => rfl

theorem mem_insEnv {l : List Entry} {e x : Entry} (h : x ∈ insEnv l e) : x = e ∨ x ∈ l := by
  induction l with
  | nil => simp only [insEnv, List.mem_singleton] at h; exact .inl h
  | cons y ys ih =>
    simp only [insEnv] at h
    split at h
    · rcases List.mem_cons.1 h with r | r
      · exact .inr (by simp [r])
      · rcases ih r with r | r
        · exact .inl r
        · exact .inr (by simp [r])
    · rcases List.mem_cons.1 h with r | r
      · exact .inl r
      · exact .inr (by simp [r])
    · rcases List.mem_cons.1 h with r | r
      · exact .inl r
      · exact .inr r

theorem sorted_insEnv {l : List Entry} (e : Entry) (h : Sorted l) : Sorted (insEnv l e) := by
  induction l with
  | nil => exact List.pairwise_singleton _ _
  | cons x xs ih =>
    obtain ⟨h1, h2⟩ := sorted_cons.1 h
    simp only [insEnv]
    split
    · next hc =>
      refine sorted_cons.2 ⟨fun y hy => ?_, ih h2⟩
      rcases mem_insEnv hy with r | r
      · subst r; exact hc
      · exact h1 y r
    · next hc =>
      have hk := (symCompare_eq_iff _ _).1 hc
      exact sorted_cons.2 ⟨fun y hy => by rw [← hk]; exact h1 y hy, h2⟩
    · next hc =>
      have hc' := (symCompare_gt_iff _ _).1 hc
      refine sorted_cons.2 ⟨fun y hy => ?_, h⟩
      rcases List.mem_cons.1 hy with r | r
      · subst r; exact hc'
      · exact symCompare_lt_trans hc' (h1 y r)

theorem getEnv_of_lt {l : List Entry} {s : Sym} (h : ∀ x ∈ l, symCompare s x.key = .lt) :
    getEnv l s = none := by
  induction l with
  | nil => rfl
  | cons x xs ih =>
    rw [getEnv_cons, if_neg]
    · exact ih (fun y hy => h y (by simp [hy]))
    · intro e
      have := h x (by simp)
      rw [e, symCompare_self] at this
      cases this

theorem getEnv_insEnv {l : List Entry} (e : Entry) (h : Sorted l) (s : Sym) :
    getEnv (insEnv l e) s = if e.key = s then some e.val else getEnv l s := by
  induction l with
  | nil => simp [insEnv, getEnv_cons]
  | cons x xs ih =>
    obtain ⟨h1, h2⟩ := sorted_cons.1 h
    simp only [insEnv]
    split
    · next hc =>
      rw [getEnv_cons, getEnv_cons, ih h2]
      by_cases hx : x.key = s
      · rw [if_pos hx, if_pos hx, if_neg]
        intro he
        rw [hx, he, symCompare_self] at hc
        cases hc
      · rw [if_neg hx, if_neg hx]
    · next hc =>
      have hk := (symCompare_eq_iff _ _).1 hc
      rw [getEnv_cons, getEnv_cons, hk]
      by_cases he : e.key = s
      · rw [if_pos he, if_pos he]
      · rw [if_neg he, if_neg he, if_neg he]
    · rw [getEnv_cons]

/-- Insertion of several entries, first to last. -/
def mergeEnv (l add : List Entry) : List Entry := add.foldl insEnv l

theorem merge_envVal (l add : List Entry) :
    merge (envVal l) (envVal add) = .ok (envVal (mergeEnv l add)) := by
  induction add generalizing l with
  | nil => rfl
  | cons e es ih =>
    have h0 : merge (envVal l) (envVal (e :: es)) = (do
        let root' ← sss (envVal l) e.toVal
        match envVal es with
        | pair .. => merge root' (envVal es)
        | _ => .ok root') := rfl
    rw [h0, sss_envVal, Res.ok_bind]
    have := ih (insEnv l e)
    simp only [mergeEnv, List.foldl_cons] at this ⊢
    rw [← this]
    cases es with
    | nil => rfl
    | cons y ys => rfl

theorem sorted_mergeEnv {l : List Entry} (add : List Entry) (h : Sorted l) :
    Sorted (mergeEnv l add) := by
  induction add generalizing l with
  | nil => exact h
  | cons e es ih => exact ih (sorted_insEnv e h)

theorem getEnv_append (a b : List Entry) (s : Sym) :
    getEnv (a ++ b) s = (getEnv a s).or (getEnv b s) := by
  induction a with
  | nil => simp
  | cons x xs ih =>
    rw [List.cons_append, getEnv_cons, getEnv_cons, ih]
    split <;> simp

theorem getEnv_mergeEnv {l : List Entry} (add : List Entry) (h : Sorted l) (s : Sym) :
    getEnv (mergeEnv l add) s = (getEnv add.reverse s).or (getEnv l s) := by
  induction add generalizing l with
  | nil => simp [mergeEnv]
  | cons e es ih =>
    have := ih (sorted_insEnv e h)
    simp only [mergeEnv, List.foldl_cons] at this ⊢
    rw [this, getEnv_insEnv e h, List.reverse_cons, getEnv_append, getEnv_cons]
    by_cases he : e.key = s
    · rw [if_pos he, if_pos he]
      cases getEnv es.reverse s <;> rfl
    · rw [if_neg he, if_neg he]
      cases getEnv es.reverse s <;> rfl

theorem assq_envVal (l : List Entry) (s : Sym) : assq (envVal l) s = .ok (getEnv l s) := by
  induction l with
  | nil => rfl
  | cons e es ih =>
    have h0 : assq (envVal (e :: es)) s =
        (if (sym e.tc e.key).symIs s then .ok (some e.val)
         else match envVal es with
          | pair .. => assq (envVal es) s
          | _ => .ok none) := rfl
    have hs : (sym e.tc e.key).symIs s = decide (e.key = s) := by
      simp [symIs, tag, symMatch_eq_decide]
    rw [h0, getEnv_cons, hs]
    by_cases he : e.key = s
    · simp [he]
    · simp only [he, decide_false, Bool.false_eq_true, if_false]
      cases es with
      | nil => rfl
      | cons y ys => exact ih

/-- Conversely, two sorted lists with the same bindings have the same keys and values. -/
theorem sorted_ext {a b : List Entry} (ha : Sorted a) (hb : Sorted b)
    (h : ∀ s, getEnv a s = getEnv b s) :
    a.map (fun e => (e.key, e.val)) = b.map (fun e => (e.key, e.val)) := by
  induction a generalizing b with
  | nil =>
    cases b with
    | nil => rfl
    | cons y ys =>
      have := h y.key
      rw [getEnv_cons, if_pos rfl] at this
      cases this
  | cons x xs ih =>
    obtain ⟨hx1, hx2⟩ := sorted_cons.1 ha
    cases b with
    | nil =>
      have := h x.key
      rw [getEnv_cons, if_pos rfl] at this
      cases this
    | cons y ys =>
      obtain ⟨hy1, hy2⟩ := sorted_cons.1 hb
      have hlt : ∀ (u v : Entry) (us vs : List Entry),
          (∀ z ∈ us, symCompare u.key z.key = .lt) → (∀ z ∈ vs, symCompare v.key z.key = .lt) →
          (∀ s, getEnv (u :: us) s = getEnv (v :: vs) s) → ¬ symCompare u.key v.key = .lt := by
        intro u v us vs _ hv hh hc
        have h1 := hh u.key
        rw [getEnv_cons, if_pos rfl, getEnv_cons, if_neg] at h1
        · rw [getEnv_of_lt] at h1
          · cases h1
          · intro z hz; exact symCompare_lt_trans hc (hv z hz)
        · intro e; rw [e, symCompare_self] at hc; cases hc
      have hk : x.key = y.key := by
        have n1 := hlt x y xs ys hx1 hy1 h
        have n2 := hlt y x ys xs hy1 hx1 (fun s => (h s).symm)
        rw [← symCompare_gt_iff] at n2
        cases hc : symCompare x.key y.key with
        | lt => exact absurd hc n1
        | gt => exact absurd hc n2
        | eq => exact (symCompare_eq_iff _ _).1 hc
      have hv : x.val = y.val := by
        have := h x.key
        rw [getEnv_cons, if_pos rfl, getEnv_cons, if_pos hk.symm] at this
        exact Option.some.inj this
      have hrest : ∀ s, getEnv xs s = getEnv ys s := by
        intro s
        by_cases hs : x.key = s
        · subst hs
          rw [getEnv_of_lt hx1, getEnv_of_lt (by rw [hk]; exact hy1)]
        · have := h s
          rwa [getEnv_cons, if_neg hs, getEnv_cons, if_neg (by rwa [← hk])] at this
      simp only [List.map_cons, hk, hv, ih hx2 hy2 hrest]

/-- The bindings made by destructuring, in the order in which `bind` pushes them. -/
def bindList : Val → Val → List Entry
  | pair _ a d, v => bindList a v.car ++ bindList d v.cdr
  | sym tc s, v => [⟨tc, s, v⟩]
  | _, _ => []

theorem bind_eq (l : List Entry) (p v : Val) :
    bind (envVal l) p v = envVal ((bindList p v).reverse ++ l) := by
  induction p generalizing l v with
  | pair tc a d iha ihd =>
    simp only [Val.bind, bindList, List.reverse_append, List.append_assoc]
    rw [iha, ihd]
  | _ => rfl

end Mnml

namespace Mnml

open Val

/-- Insertions of different names commute. -/
theorem insEnv_comm {l : List Entry} (hl : Sorted l) (a b : Entry) (h : a.key ≠ b.key) :
    insEnv (insEnv l a) b = insEnv (insEnv l b) a := by
  induction l with
  | nil =>
    simp only [insEnv]
    cases hc : symCompare a.key b.key with
    | lt => rw [(symCompare_gt_iff _ _).2 hc]
    | eq => exact absurd ((symCompare_eq_iff _ _).1 hc) h
    | gt => rw [(symCompare_gt_iff _ _).1 hc]
  | cons x xs ih =>
    obtain ⟨h1, h2⟩ := sorted_cons.1 hl
    have hab : symCompare a.key b.key = .lt ∨ symCompare b.key a.key = .lt := by
      cases hc : symCompare a.key b.key with
      | lt => exact .inl rfl
      | eq => exact absurd ((symCompare_eq_iff _ _).1 hc) h
      | gt => exact .inr ((symCompare_gt_iff _ _).1 hc)
    have gt_of : ∀ u v : Sym, symCompare u v = .lt → symCompare v u = .gt :=
      fun u v => (symCompare_gt_iff v u).2
    cases ha : symCompare x.key a.key with
    | lt =>
      cases hb : symCompare x.key b.key with
      | lt => simp only [insEnv, ha, hb, ih h2]
      | eq =>
        have e := (symCompare_eq_iff _ _).1 hb
        have ha2 := ha
        rw [e] at ha2
        simp only [insEnv, ha, hb, ha2]
      | gt =>
        have hb' := (symCompare_gt_iff _ _).1 hb
        have : symCompare b.key a.key = .lt := symCompare_lt_trans hb' ha
        simp only [insEnv, ha, hb, this]
    | eq =>
      have e := (symCompare_eq_iff _ _).1 ha
      cases hb : symCompare x.key b.key with
      | lt =>
        have hb2 := hb
        rw [e] at hb2
        simp only [insEnv, ha, hb, hb2]
      | eq =>
        exact absurd (e.symm.trans ((symCompare_eq_iff _ _).1 hb)) h
      | gt =>
        have hb' := (symCompare_gt_iff _ _).1 hb
        have hb2 := hb
        rw [e] at hb2 hb'
        simp only [insEnv, ha, hb, hb2, hb']
    | gt =>
      have ha' := (symCompare_gt_iff _ _).1 ha
      cases hb : symCompare x.key b.key with
      | lt =>
        have : symCompare a.key b.key = .lt := symCompare_lt_trans ha' hb
        simp only [insEnv, ha, hb, this]
      | eq =>
        have e := (symCompare_eq_iff _ _).1 hb
        rw [e] at ha'
        simp only [insEnv, ha, hb, ha', gt_of _ _ ha']
      | gt =>
        rcases hab with hab | hab
        · simp only [insEnv, ha, hb, hab, gt_of _ _ hab]
        · simp only [insEnv, ha, hb, hab, gt_of _ _ hab]

theorem mergeEnv_append (l a b : List Entry) : mergeEnv l (a ++ b) = mergeEnv (mergeEnv l a) b := by
  simp [mergeEnv, List.foldl_append]

theorem mergeEnv_insEnv_comm {l : List Entry} (hl : Sorted l) (a : List Entry) (e : Entry)
    (h : ∀ x ∈ a, x.key ≠ e.key) : mergeEnv (insEnv l e) a = insEnv (mergeEnv l a) e := by
  induction a generalizing l with
  | nil => rfl
  | cons x xs ih =>
    simp only [mergeEnv, List.foldl_cons]
    rw [insEnv_comm hl e x (fun c => h x (by simp) c.symm)]
    exact ih (sorted_insEnv x hl) (fun y hy => h y (by simp [hy]))

/-- Merging two lists of bindings of different names can be done in either order. -/
theorem mergeEnv_comm {l : List Entry} (hl : Sorted l) (a b : List Entry)
    (h : ∀ x ∈ a, ∀ y ∈ b, x.key ≠ y.key) : mergeEnv l (a ++ b) = mergeEnv l (b ++ a) := by
  induction b generalizing l with
  | nil => simp
  | cons y ys ih =>
    rw [mergeEnv_append]
    simp only [mergeEnv, List.foldl_cons, List.cons_append]
    have h1 := mergeEnv_insEnv_comm hl a y (fun x hx => h x hx y (by simp))
    simp only [mergeEnv] at h1
    rw [← h1]
    have h2 := ih (sorted_insEnv y hl) (fun x hx z hz => h x hx z (by simp [hz]))
    rw [mergeEnv_append] at h2
    exact h2

end Mnml

namespace Mnml

open Val

/-- The first entry for a name. -/
def getEntry (l : List Entry) (s : Sym) : Option Entry := l.find? (fun e => decide (e.key = s))

theorem getEntry_cons (e : Entry) (l : List Entry) (s : Sym) :
    getEntry (e :: l) s = if e.key = s then some e else getEntry l s := by
  simp only [getEntry, List.find?_cons]
  split <;> simp_all

theorem getEntry_of_lt {l : List Entry} {s : Sym} (h : ∀ x ∈ l, symCompare s x.key = .lt) :
    getEntry l s = none := by
  have := getEnv_of_lt h
  simpa [getEnv, getEntry] using this

theorem getEntry_insEnv {l : List Entry} (e : Entry) (h : Sorted l) (s : Sym) :
    getEntry (insEnv l e) s = if e.key = s then some e else getEntry l s := by
  induction l with
  | nil => simp [insEnv, getEntry_cons]
  | cons x xs ih =>
    obtain ⟨h1, h2⟩ := sorted_cons.1 h
    simp only [insEnv]
    split
    · next hc =>
      rw [getEntry_cons, getEntry_cons, ih h2]
      by_cases hx : x.key = s
      · rw [if_pos hx, if_pos hx, if_neg]
        intro he
        rw [hx, he, symCompare_self] at hc
        cases hc
      · rw [if_neg hx, if_neg hx]
    · next hc =>
      have hk := (symCompare_eq_iff _ _).1 hc
      rw [getEntry_cons, getEntry_cons, hk]
      by_cases he : e.key = s
      · rw [if_pos he, if_pos he]
      · rw [if_neg he, if_neg he, if_neg he]
    · rw [getEntry_cons]

theorem getEntry_append (a b : List Entry) (s : Sym) :
    getEntry (a ++ b) s = (getEntry a s).or (getEntry b s) := by
  simp [getEntry, List.find?_append]

theorem getEntry_mergeEnv {l : List Entry} (add : List Entry) (h : Sorted l) (s : Sym) :
    getEntry (mergeEnv l add) s = (getEntry add.reverse s).or (getEntry l s) := by
  induction add generalizing l with
  | nil => simp [mergeEnv, getEntry]
  | cons e es ih =>
    have := ih (sorted_insEnv e h)
    simp only [mergeEnv, List.foldl_cons] at this ⊢
    rw [this, getEntry_insEnv e h, List.reverse_cons, getEntry_append, getEntry_cons]
    by_cases he : e.key = s
    · rw [if_pos he, if_pos he]
      cases getEntry es.reverse s <;> rfl
    · rw [if_neg he, if_neg he]
      cases getEntry es.reverse s <;> rfl

/-- Sorted lists with the same entries are equal. -/
theorem sorted_ext_entry {a b : List Entry} (ha : Sorted a) (hb : Sorted b)
    (h : ∀ s, getEntry a s = getEntry b s) : a = b := by
  have hkv := sorted_ext ha hb (fun s => by simpa [getEnv, getEntry] using congrArg (Option.map Entry.val) (h s))
  induction a generalizing b with
  | nil => cases b with
    | nil => rfl
    | cons y ys => simp at hkv
  | cons x xs ih =>
    cases b with
    | nil => simp at hkv
    | cons y ys =>
      simp only [List.map_cons, List.cons.injEq, Prod.mk.injEq] at hkv
      obtain ⟨⟨hk, _⟩, hkv'⟩ := hkv
      have hxy : x = y := by
        have := h x.key
        rw [getEntry_cons, if_pos rfl, getEntry_cons, if_pos hk.symm] at this
        exact Option.some.inj this
      subst hxy
      obtain ⟨h1, h2⟩ := sorted_cons.1 ha
      obtain ⟨h3, h4⟩ := sorted_cons.1 hb
      rw [ih h2 h4 ?_ hkv']
      intro s
      have := h s
      by_cases hs : x.key = s
      · subst hs
        rw [getEntry_of_lt h1, getEntry_of_lt h3]
      · rwa [getEntry_cons, if_neg hs, getEntry_cons, if_neg hs] at this

/-- New bindings of the same names replace the old ones. -/
theorem mergeEnv_override {l : List Entry} (hl : Sorted l) (b b' : List Entry)
    (h : ∀ x ∈ b, ∃ y ∈ b', y.key = x.key) : mergeEnv (mergeEnv l b) b' = mergeEnv l b' := by
  refine sorted_ext_entry (sorted_mergeEnv _ (sorted_mergeEnv _ hl)) (sorted_mergeEnv _ hl) fun s => ?_
  rw [getEntry_mergeEnv _ (sorted_mergeEnv _ hl), getEntry_mergeEnv _ hl, getEntry_mergeEnv _ hl]
  cases hx : getEntry b'.reverse s with
  | some e => rfl
  | none =>
    have hb : getEntry b.reverse s = none := by
      simp only [getEntry, List.find?_eq_none, decide_eq_true_eq, List.mem_reverse] at hx ⊢
      intro x hxb hc
      obtain ⟨y, hy, hk⟩ := h x hxb
      exact hx y hy (hk.trans hc)
    rw [hb]; rfl

end Mnml
