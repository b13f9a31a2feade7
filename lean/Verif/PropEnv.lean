import Verif.Env

/-!
# C10, C22: environments and destructuring
-/

namespace Mnml

open Val

/-! ## C10 -/

/-- **C10.** Setting a binding in a sorted environment yields a sorted environment in which the name has the
new value and every other name is unchanged. -/
theorem C10_update (l : List Entry) (hl : Sorted l) (e : Entry) :
    ∃ l', sss (envVal l) e.toVal = .ok (envVal l') ∧ Sorted l' ∧
      getEnv l' e.key = some e.val ∧ ∀ s, s ≠ e.key → getEnv l' s = getEnv l s := by
  refine ⟨insEnv l e, sss_envVal l e, sorted_insEnv e hl, ?_, ?_⟩
  · rw [getEnv_insEnv e hl, if_pos rfl]
  · intro s hs; rw [getEnv_insEnv e hl, if_neg (fun h => hs h.symm)]

/-- **C10.** Merging a list of bindings into a sorted environment: the last binding of a name in the list
wins over earlier ones and over the environment; names not in the list are unchanged. -/
theorem C10_merge (l : List Entry) (hl : Sorted l) (add : List Entry) :
    ∃ l', merge (envVal l) (envVal add) = .ok (envVal l') ∧ Sorted l' ∧
      ∀ s, getEnv l' s = (getEnv add.reverse s).or (getEnv l s) :=
  ⟨mergeEnv l add, merge_envVal l add, sorted_mergeEnv add hl, getEnv_mergeEnv add hl⟩

/-- **C10.** Lookup in an environment finds its first binding of the name. -/
theorem C10_lookup (l : List Entry) (s : Sym) : assq (envVal l) s = .ok (getEnv l s) :=
  assq_envVal l s

/-- **C10.** A sorted environment has at most one entry per name. -/
theorem C10_no_duplicates {l : List Entry} (hl : Sorted l) : (l.map Entry.key).Nodup := by
  rw [List.Nodup, List.pairwise_map]
  refine List.Pairwise.imp ?_ hl
  intro a b h e
  rw [e, symCompare_self] at h
  cases h

/-- The environment `((a . 1) (b . 2))` satisfies the hypotheses. -/
example : Sorted [⟨false, Sym.ofChars ['a'], num 1⟩, ⟨false, Sym.ofChars ['b'], num 2⟩] ∧
    sss (envVal [⟨false, Sym.ofChars ['a'], num 1⟩, ⟨false, Sym.ofChars ['b'], num 2⟩])
      (Entry.toVal ⟨false, Sym.ofChars ['a'], num 3⟩) =
    .ok (envVal [⟨false, Sym.ofChars ['a'], num 3⟩, ⟨false, Sym.ofChars ['b'], num 2⟩]) := by
  refine ⟨?_, by decide⟩
  simp only [sorted_cons]
  exact ⟨by intro x hx; simp at hx; subst hx; decide, by simp, List.Pairwise.nil⟩

/-! ## C22 -/

/-- The part of a pattern at a path of CAR (`false`) / CDR (`true`) steps, if there is one. -/
def Val.sub : Val → List Bool → Option Val
  | v, [] => some v
  | pair _ a _, false :: p => sub a p
  | pair _ _ d, true :: p => sub d p
  | _, _ :: _ => none

/-- The part of a value at a path; NIL where the value is too short. -/
def Val.at : Val → List Bool → Val
  | v, [] => v
  | v, false :: p => Val.at v.car p
  | v, true :: p => Val.at v.cdr p

theorem mem_bindList (p v : Val) (e : Entry) :
    e ∈ bindList p v ↔ ∃ path, p.sub path = some (sym e.tc e.key) ∧ e.val = v.at path := by
  induction p generalizing v with
  | pair tc a d iha ihd =>
    simp only [bindList, List.mem_append, iha, ihd]
    constructor
    · rintro (⟨q, h1, h2⟩ | ⟨q, h1, h2⟩)
      · exact ⟨false :: q, h1, h2⟩
      · exact ⟨true :: q, h1, h2⟩
    · rintro ⟨q, h1, h2⟩
      cases q with
      | nil => simp [sub] at h1
      | cons b q =>
        cases b
        · exact .inl ⟨q, h1, h2⟩
        · exact .inr ⟨q, h1, h2⟩
  | sym tc s =>
    simp only [bindList, List.mem_singleton]
    constructor
    · rintro rfl; exact ⟨[], rfl, rfl⟩
    · rintro ⟨q, h1, h2⟩
      cases q with
      | nil =>
        simp only [sub, Option.some.injEq, sym.injEq] at h1
        cases e; simp_all [Val.at]
      | cons b q => cases b <;> simp [sub] at h1
  | _ =>
    simp only [bindList, List.not_mem_nil, false_iff, not_exists, not_and]
    intro q h1
    cases q with
    | nil => simp [sub] at h1
    | cons b q => cases b <;> simp [sub] at h1

/-- **C22.** Destructuring `v` along the pattern `p` adds exactly the bindings `(s . part of v)` for the
positions of `p` that hold a symbol `s`, in front of the environment; parts that are missing in `v`
are NIL, and `_` and other atoms of the pattern bind nothing. -/
theorem C22_bind (l : List Entry) (p v : Val) :
    ∃ new, bind (envVal l) p v = envVal (new ++ l) ∧
      ∀ e : Entry, e ∈ new ↔ ∃ path, p.sub path = some (sym e.tc e.key) ∧ e.val = v.at path := by
  refine ⟨(bindList p v).reverse, bind_eq l p v, fun e => ?_⟩
  rw [List.mem_reverse]; exact mem_bindList p v e

/-- The symbols of a pattern, left to right. -/
def patSyms : Val → List Sym
  | pair _ a d => patSyms a ++ patSyms d
  | sym _ s => [s]
  | _ => []

theorem bindList_keys (p v : Val) : (bindList p v).map Entry.key = patSyms p := by
  induction p generalizing v with
  | pair tc a d iha ihd => simp [bindList, patSyms, iha, ihd]
  | _ => rfl

theorem getEnv_of_mem {l : List Entry} (h : (l.map Entry.key).Nodup) {e : Entry} (he : e ∈ l) :
    getEnv l e.key = some e.val := by
  induction l with
  | nil => cases he
  | cons x xs ih =>
    simp only [List.map_cons, List.nodup_cons] at h
    rw [getEnv_cons]
    rcases List.mem_cons.1 he with r | r
    · subst r; simp
    · rw [if_neg]
      · exact ih h.2 r
      · intro e'; exact h.1 (e' ▸ List.mem_map_of_mem r)

/-- **C22.** When the symbols of the pattern are distinct, looking one up afterwards gives the part of the
value at its position. -/
theorem C22_lookup (p v : Val) (hp : (patSyms p).Nodup) (path : List Bool) (tc : Bool) (s : Sym)
    (hs : p.sub path = some (sym tc s)) :
    assq (bind nil p v) s = .ok (some (v.at path)) := by
  have h0 := bind_eq [] p v
  simp only [envVal_nil, List.append_nil] at h0
  rw [h0, assq_envVal]
  congr 1
  have hm : (⟨tc, s, v.at path⟩ : Entry) ∈ (bindList p v).reverse := by
    rw [List.mem_reverse, mem_bindList]; exact ⟨path, hs, rfl⟩
  have hn : ((bindList p v).reverse.map Entry.key).Nodup := by
    rw [List.map_reverse, bindList_keys]
    exact ((List.reverse_perm _).nodup_iff).2 hp
  exact getEnv_of_mem hn hm

/-- `((a _ b) . c)` against `((1 2) 3)`: `b` gets NIL since the inner list is too short. -/
example : assq (bind nil (cons (ofList [ofSym (Sym.ofChars ['a']), wild, ofSym (Sym.ofChars ['b'])])
      (ofSym (Sym.ofChars ['c'])))
    (ofList [ofList [num 1, num 2], num 3])) (Sym.ofChars ['b']) = .ok (some nil) :=
  C22_lookup _ _ (by decide) [false, true, true, false] false _ rfl

end Mnml
