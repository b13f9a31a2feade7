import Verif.HeapSpec

/-!
# Refinement: what the memory represents

The evaluator on cells (`Verif.HeapEval`) refines the evaluator on trees (`Verif.Eval`) as long as no shared
cell is changed in place. This file defines when the memory represents tree values: a list of *owned
references* `Γ`, each either a plain value or a private structure under construction, together with the global
table. The cells of private structures have a single reference, and no other value contains them.
-/

namespace Mnml
namespace Heap

/-! ## Values in memory -/

/-- The value of an atom, with the flag of a symbol. -/
def Cell.val (c : Cell) : Option Val :=
  match c.data with
  | .sym s => some (.sym c.tc s)
  | d => d.atom

/-- The cell at `a` is the root of the finite tree `v`, none of whose cells is in `A`. -/
inductive Repr (A : List Addr) (m : Addr → Option Cell) : Addr → Val → Prop where
  | atom {a : Addr} {c : Cell} {v : Val} : a ∉ A → m a = some c → c.val = some v → Repr A m a v
  | pair {a x y : Addr} {c : Cell} {u v : Val} : a ∉ A → m a = some c → c.data = .pair x y →
      Repr A m x u → Repr A m y v → Repr A m a (.pair c.tc u v)

/-- `Repr` without cells to avoid. -/
abbrev Rep (m : Addr → Option Cell) (a : Addr) (v : Val) : Prop := Repr [] m a v

/-- The cell `b` is part of the value at `a`. -/
inductive Part (m : Addr → Option Cell) (a : Addr) : Addr → Prop where
  | refl : Part m a a
  | car {b x y : Addr} {c : Cell} : Part m a b → m b = some c → c.data = .pair x y → Part m a x
  | cdr {b x y : Addr} {c : Cell} : Part m a b → m b = some c → c.data = .pair x y → Part m a y

/-- The data of a cell and the value it is the root of. -/
inductive Data.Is : Data → Val → Prop where
  | nil : Is .nil .nil
  | tru : Is .tru .tru
  | wild : Is .wild .wild
  | chr (c : Int) : Is (.chr c) (.chr c)
  | num (n : Int) : Is (.num n) (.num n)
  | sym (t : Bool) (s : Sym) : Is (.sym s) (.sym t s)
  | pair (x y : Addr) (t : Bool) (u v : Val) : Is (.pair x y) (.pair t u v)

theorem Data.Is.isNil {d : Data} {v : Val} (h : d.Is v) : d.isNil = v.isNil := by cases h <;> rfl
theorem Data.Is.isTrue {d : Data} {v : Val} (h : d.Is v) : d.isTrue = v.isTrue := by cases h <;> rfl
theorem Data.Is.isWild {d : Data} {v : Val} (h : d.Is v) : d.isWild = v.isWild := by cases h <;> rfl
theorem Data.Is.isChr {d : Data} {v : Val} (h : d.Is v) : d.isChr = v.isChr := by cases h <;> rfl
theorem Data.Is.isNum {d : Data} {v : Val} (h : d.Is v) : d.isNum = v.isNum := by cases h <;> rfl
theorem Data.Is.isPair {d : Data} {v : Val} (h : d.Is v) : d.isPair = v.isPair := by cases h <;> rfl
theorem Data.Is.isSym {d : Data} {v : Val} (h : d.Is v) : d.isSym = v.isSym := by cases h <;> rfl
theorem Data.Is.isList {d : Data} {v : Val} (h : d.Is v) : d.isList = v.isList := by cases h <;> rfl
theorem Data.Is.type {d : Data} {v : Val} (h : d.Is v) : d.type = v.type := by cases h <;> rfl
theorem Data.Is.tag {d : Data} {v : Val} (h : d.Is v) : d.tag = v.tag := by cases h <;> rfl
theorem Data.Is.symIs {d : Data} {v : Val} (h : d.Is v) (s : Sym) : d.symIs s = v.symIs s := by
  cases h <;> rfl
theorem Data.Is.number {d : Data} {v : Val} (h : d.Is v) : d.number = v.number := by cases h <;> rfl

/-- The data of the root. -/
theorem Repr.is {A : List Addr} {m : Addr → Option Cell} {a : Addr} {v : Val} (h : Repr A m a v) :
    ∃ c, m a = some c ∧ c.data.Is v := by
  cases h with
  | @atom _ c _ _ hc hv =>
    refine ⟨c, hc, ?_⟩
    unfold Cell.val at hv
    cases hd : c.data <;> rw [hd] at hv <;> simp [Data.atom] at hv <;> subst hv <;> constructor
  | @pair _ _ _ c _ _ _ hc hd _ _ => exact ⟨c, hc, by rw [hd]; constructor⟩

theorem Repr.out {A : List Addr} {m : Addr → Option Cell} {a : Addr} {v : Val} (h : Repr A m a v) :
    a ∉ A := by
  cases h <;> assumption

/-- The components of a pair. -/
theorem Repr.pair_inv {A : List Addr} {m : Addr → Option Cell} {a : Addr} {t : Bool} {u v : Val}
    (h : Repr A m a (.pair t u v)) : ∃ c x y, m a = some c ∧ c.tc = t ∧ c.data = .pair x y ∧
      Repr A m x u ∧ Repr A m y v := by
  cases h with
  | @atom _ c _ _ hc hv =>
    unfold Cell.val at hv
    cases hd : c.data <;> rw [hd] at hv <;> simp [Data.atom] at hv
  | @pair _ x y c _ _ _ hc hd hx hy => exact ⟨c, x, y, hc, rfl, hd, hx, hy⟩

theorem Repr.mono {A A' : List Addr} {m : Addr → Option Cell} {a : Addr} {v : Val} (h : Repr A m a v)
    (i : ∀ b, b ∈ A' → b ∈ A ∨ m b = none) : Repr A' m a v := by
  have key : ∀ {b : Addr} {c : Cell}, b ∉ A → m b = some c → b ∉ A' := by
    intro b c hb hc hi
    rcases i b hi with h' | h'
    · exact hb h'
    · rw [hc] at h'; cases h'
  induction h with
  | atom ha hc hv => exact .atom (key ha hc) hc hv
  | pair ha hc hd _ _ ix iy => exact .pair (key ha hc) hc hd ix iy

theorem Repr.rep {A : List Addr} {m : Addr → Option Cell} {a : Addr} {v : Val} (h : Repr A m a v) :
    Rep m a v := h.mono (by simp)

/-- The memory determines the value. -/
theorem Repr.det {A A' : List Addr} {m : Addr → Option Cell} {a : Addr} {v v' : Val} (h : Repr A m a v)
    (h' : Repr A' m a v') : v = v' := by
  induction h generalizing v' with
  | @atom a c v ha hc hv =>
    cases h' with
    | @atom _ c' _ _ hc' hv' => rw [hc] at hc'; cases hc'; rw [hv] at hv'; exact Option.some.inj hv'
    | @pair _ x y c' _ _ _ hc' hd' _ _ =>
      rw [hc] at hc'; cases hc'
      unfold Cell.val at hv
      rw [hd'] at hv
      cases hv
  | @pair a x y c u w ha hc hd _ _ ix iy =>
    cases h' with
    | @atom _ c' _ _ hc' hv' =>
      rw [hc] at hc'; cases hc'
      unfold Cell.val at hv'
      rw [hd] at hv'
      cases hv'
    | @pair _ x' y' c' _ _ _ hc' hd' hx' hy' =>
      rw [hc] at hc'; cases hc'
      rw [hd] at hd'; cases hd'
      rw [ix hx', iy hy']

/-- What is part of a value is a value. -/
theorem Part.repr {A : List Addr} {m : Addr → Option Cell} {a b : Addr} {v : Val} (r : Part m a b)
    (h : Repr A m a v) : ∃ u, Repr A m b u := by
  induction r with
  | refl => exact ⟨v, h⟩
  | car _ hc hd ih =>
    obtain ⟨u, hu⟩ := ih
    cases hu with
    | @atom _ c' _ _ hc' hv' => rw [hc] at hc'; cases hc'; unfold Cell.val at hv'; rw [hd] at hv'; cases hv'
    | @pair _ x' y' c' _ _ _ hc' hd' hx' hy' =>
      rw [hc] at hc'; cases hc'; rw [hd] at hd'; cases hd'; exact ⟨_, hx'⟩
  | cdr _ hc hd ih =>
    obtain ⟨u, hu⟩ := ih
    cases hu with
    | @atom _ c' _ _ hc' hv' => rw [hc] at hc'; cases hc'; unfold Cell.val at hv'; rw [hd] at hv'; cases hv'
    | @pair _ x' y' c' _ _ _ hc' hd' hx' hy' =>
      rw [hc] at hc'; cases hc'; rw [hd] at hd'; cases hd'; exact ⟨_, hy'⟩

theorem Part.trans {m : Addr → Option Cell} {a b c : Addr} (h : Part m a b) (h' : Part m b c) :
    Part m a c := by
  induction h' with
  | refl => exact h
  | car _ hc hd ih => exact .car ih hc hd
  | cdr _ hc hd ih => exact .cdr ih hc hd

/-- Reaching is the same when the data is. -/
theorem Part.congr {A : List Addr} {m m' : Addr → Option Cell} {a b : Addr} {v : Val} (r : Part m a b)
    (h : Repr A m a v)
    (e : ∀ x c, x ∉ A → m x = some c → Part m' a x → ∃ c', m' x = some c' ∧ c'.data = c.data) :
    Part m' a b := by
  induction r with
  | refl => exact .refl
  | car r hc hd ih =>
    obtain ⟨u, hu⟩ := r.repr h
    obtain ⟨c', hc', e'⟩ := e _ _ hu.out hc ih
    exact .car ih hc' (e'.trans hd)
  | cdr r hc hd ih =>
    obtain ⟨u, hu⟩ := r.repr h
    obtain ⟨c', hc', e'⟩ := e _ _ hu.out hc ih
    exact .cdr ih hc' (e'.trans hd)

/-! ## Owned references -/

/-- An owned reference: to a plain value, together with parts of it that the code refers to without owning
them, to a cell about which nothing is known, to a private pair cell whose fields are not counted, or to a private
pair with its fields. -/
inductive B where
  | tok (a : Addr) (v : Val) (ps : List (Addr × Val))
  | ref (a : Addr)
  | pc (a : Addr) (t : Bool) (x y : Addr)
  | node (a : Addr) (t : Bool) (x y : B)

namespace B
/-- The address. -/
def addr : B → Addr
  | tok a _ _ => a
  | ref a => a
  | pc a _ _ _ => a
  | node a _ _ _ => a
/-- The value. The cell alone has none. -/
def val : B → Val
  | tok _ v _ => v
  | ref _ => .nil
  | pc .. => .nil
  | node _ t x y => .pair t x.val y.val
/-- The references that it consists of. -/
def own : B → List Addr
  | tok a _ _ => [a]
  | ref a => [a]
  | pc a _ _ _ => [a]
  | node a _ x y => a :: (x.own ++ y.own)
/-- The private cells. -/
def priv : B → List Addr
  | tok _ _ _ => []
  | ref _ => []
  | pc a _ _ _ => [a]
  | node a _ x y => a :: (x.priv ++ y.priv)
/-- It is as described. -/
def Ok (A : List Addr) (m : Addr → Option Cell) : B → Prop
  | tok a v ps => Repr A m a v ∧ ∀ p, p ∈ ps → Part m a p.1 ∧ Repr A m p.1 p.2
  | ref _ => True
  | pc a t x y => ∃ c, m a = some c ∧ c.refs = 1 ∧ c.tc = t ∧ c.data = .pair x y
  | node a t x y =>
    (∃ c, m a = some c ∧ c.refs = 1 ∧ c.tc = t ∧ c.data = .pair x.addr y.addr) ∧ x.Ok A m ∧ y.Ok A m
end B

/-- The references of a list. -/
def own (Γ : List B) : List Addr := Γ.flatMap B.own
/-- The private cells of a list. -/
def priv (Γ : List B) : List Addr := Γ.flatMap B.priv

theorem own_cons (σ : B) (Γ : List B) : own (σ :: Γ) = σ.own ++ own Γ := by simp [own]
theorem priv_cons (σ : B) (Γ : List B) : priv (σ :: Γ) = σ.priv ++ priv Γ := by simp [priv]
theorem own_nil : own [] = [] := rfl
theorem priv_nil : priv [] = [] := rfl

theorem B.priv_sub_own {σ : B} {a : Addr} (h : a ∈ σ.priv) : a ∈ σ.own := by
  induction σ with
  | tok => cases h
  | ref => cases h
  | pc => exact h
  | node b t x y ix iy =>
    simp only [priv, own, List.mem_cons, List.mem_append] at *
    rcases h with h | h | h
    · exact .inl h
    · exact .inr (.inl (ix h))
    · exact .inr (.inr (iy h))

theorem B.addr_own (σ : B) : σ.addr ∈ σ.own := by cases σ <;> simp [addr, own]

theorem own_mem {Γ : List B} {σ : B} (h : σ ∈ Γ) {a : Addr} (ha : a ∈ σ.own) : a ∈ own Γ :=
  List.mem_flatMap.2 ⟨σ, h, ha⟩
theorem priv_mem {Γ : List B} {σ : B} (h : σ ∈ Γ) {a : Addr} (ha : a ∈ σ.priv) : a ∈ priv Γ :=
  List.mem_flatMap.2 ⟨σ, h, ha⟩
theorem priv_sub_own {Γ : List B} {a : Addr} (h : a ∈ priv Γ) : a ∈ own Γ := by
  obtain ⟨σ, hσ, ha⟩ := List.mem_flatMap.1 h
  exact own_mem hσ (B.priv_sub_own ha)

theorem ones_append (l l' : List Addr) (b : Addr) : ones (l ++ l') b = ones l b + ones l' b := by
  induction l with
  | nil => simp [ones]
  | cons a l ih => rw [List.cons_append, ones_cons, ones_cons, ih]; omega

theorem ones_mem {l : List Addr} {a : Addr} (h : a ∈ l) (b : Addr) : one a b ≤ ones l b := by
  induction l with
  | nil => cases h
  | cons x l ih =>
    rw [ones_cons]
    rcases List.mem_cons.1 h with h | h
    · subst h; omega
    · have := ih h; omega

theorem ones_perm {l l' : List Addr} (h : l.Perm l') (b : Addr) : ones l b = ones l' b := by
  induction h with
  | nil => rfl
  | cons x _ ih => rw [ones_cons, ones_cons, ih]
  | swap x y l => simp only [ones_cons]; omega
  | trans _ _ ih ih' => exact ih.trans ih'

/-- An entry of the global table. -/
structure Ent where
  key : Sym
  addr : Addr
  kc : Addr
  vc : Addr
  val : Val

/-- The entry is as described. -/
def Ent.Ok (A : List Addr) (m : Addr → Option Cell) (e : Ent) : Prop :=
  (∃ c, m e.addr = some c ∧ c.data = .pair e.kc e.vc) ∧ (∃ v, Repr A m e.kc v) ∧ Repr A m e.vc e.val

/-- The cells that plain values do not contain. -/
def avoid (G : List Ent) (Γ : List B) : List Addr := priv Γ ++ G.map Ent.addr

/-- The state `s` on cells represents the state `st` on trees, and the running code owns `Γ`. -/
structure SimG (G : List Ent) (Γ : List B) (s : HSt) (st : St) : Prop where
  inv : InvO (priv Γ) s (ones (own Γ))
  ok : ∀ σ, σ ∈ Γ → σ.Ok (avoid G Γ) s.mem
  ent : ∀ e, e ∈ G → e.Ok (avoid G Γ) s.mem
  glob : s.globals = G.map fun e => (e.key, e.addr)
  keys : (G.map Ent.key).Nodup
  addrs : (G.map Ent.addr).Nodup
  vals : ∀ k, st.globals k = (G.find? fun e => e.key = k).map Ent.val
  cache : ∀ a c d k, s.mem a = some c → c.cache = some d → c.data = .sym k → (k, d) ∈ s.globals
  out : st.out = s.out
  strict : s.strict = true
  /-- other cells, whether reachable or not, are roots of finite trees -/
  all : ∀ a, Live s a → a ∉ avoid G Γ → ∃ v, Repr (avoid G Γ) s.mem a v

/-- The same, for some description of the global table. -/
def Sim (Γ : List B) (s : HSt) (st : St) : Prop := ∃ G, SimG G Γ s st

/-! ## Basic consequences -/

theorem InvO.congrO {O O' : List Addr} {s : HSt} {T : Addr → Nat} (h : InvO O s T)
    (e : ∀ a, a ∈ O ↔ a ∈ O') : InvO O' s T := by
  have he : ∀ b, edges (O ++ s.zombies) s.mem s.next b = edges (O' ++ s.zombies) s.mem s.next b := by
    intro b
    refine edges_eq fun x _ => ?_
    unfold contrib
    have : x ∈ O ++ s.zombies ↔ x ∈ O' ++ s.zombies := by simp [e]
    by_cases hx : x ∈ O ++ s.zombies
    · rw [if_pos hx, if_pos (this.1 hx)]
    · rw [if_neg hx, if_neg (fun h => hx (this.2 h))]
  refine ⟨h.fresh, ?_, ?_, ?_, ?_, ?_, h.cache⟩
  · intro a c hc; have := h.exact a c hc; simp only [total, he] at this ⊢; exact this
  · intro a ha; have := h.dead a ha; simp only [total, he] at this ⊢; exact this
  · intro a c hc ho; exact h.pos a c hc (fun h' => ho ((e a).1 h'))
  · intro o ho; exact h.opn o ((e o).2 ho)
  · intro z hz; have := h.zomb z hz; simp only [he] at this; exact this

namespace SimG
variable {G : List Ent} {Γ : List B} {s : HSt} {st : St}

theorem live (h : SimG G Γ s st) {a : Addr} (ha : a ∈ own Γ) : Live s a :=
  h.inv.live (ones_mem ha)

theorem perm {Γ' : List B} (h : SimG G Γ s st) (p : Γ.Perm Γ') : SimG G Γ' s st := by
  have pp : ∀ a, a ∈ priv Γ ↔ a ∈ priv Γ' := fun a => (p.flatMap_right B.priv).mem_iff
  have pa : ∀ a, a ∈ avoid G Γ' → a ∈ avoid G Γ := by
    intro a; simp only [avoid, List.mem_append, pp]; exact id
  have okA : ∀ σ : B, σ.Ok (avoid G Γ) s.mem → σ.Ok (avoid G Γ') s.mem := by
    intro σ
    induction σ with
    | tok a v ps =>
      intro hk
      refine ⟨hk.1.mono fun b hb => .inl (pa b hb), fun q hq => ?_⟩
      have := hk.2 q hq
      exact ⟨this.1, this.2.mono fun b hb => .inl (pa b hb)⟩
    | ref => exact id
    | pc => exact id
    | node a t x y ix iy => intro hk; exact ⟨hk.1, ix hk.2.1, iy hk.2.2⟩
  refine ⟨?_, ?_, ?_, h.glob, h.keys, h.addrs, h.vals, h.cache, h.out, h.strict, ?_⟩
  · exact (h.inv.congrO pp).congr fun b => ones_perm (p.flatMap_right B.own) b
  · intro σ hσ; exact okA σ (h.ok σ (p.mem_iff.2 hσ))
  · intro e he
    obtain ⟨h1, ⟨v, h2⟩, h3⟩ := h.ent e he
    exact ⟨h1, ⟨v, h2.mono fun b hb => .inl (pa b hb)⟩, h3.mono fun b hb => .inl (pa b hb)⟩
  · intro a l ha
    have : a ∉ avoid G Γ := by
      intro h'; apply ha
      simpa only [avoid, List.mem_append, pp] using h'
    obtain ⟨v, hv⟩ := h.all a l this
    exact ⟨v, hv.mono fun b hb => .inl (pa b hb)⟩

/-- The cell of a private pair has one reference, which is ours. -/
theorem _root_.Mnml.Heap.B.Ok.priv {A : List Addr} {m : Addr → Option Cell} {σ : B} (h : σ.Ok A m) {a : Addr}
    (ha : a ∈ σ.priv) : ∃ c, m a = some c ∧ c.refs = 1 := by
  induction σ with
  | tok => cases ha
  | ref => cases ha
  | pc b t x y =>
    simp only [B.priv, List.mem_singleton] at ha
    subst ha
    obtain ⟨c, hc, hr, _⟩ := h
    exact ⟨c, hc, hr⟩
  | node b t x y ix iy =>
    simp only [B.priv, List.mem_cons, List.mem_append] at ha
    rcases ha with ha | ha | ha
    · subst ha
      obtain ⟨⟨c, hc, hr, _⟩, _⟩ := h
      exact ⟨c, hc, hr⟩
    · exact ix h.2.1 ha
    · exact iy h.2.2 ha

theorem priv_cell (h : SimG G Γ s st) {a : Addr} (ha : a ∈ priv Γ) : ∃ c, s.mem a = some c ∧ c.refs = 1 := by
  obtain ⟨σ, hσ, ha'⟩ := List.mem_flatMap.1 ha
  exact (h.ok σ hσ).priv ha'

/-- A private cell is owned once and nothing else refers to it. -/
theorem priv_once (h : SimG G Γ s st) {a : Addr} (ha : a ∈ priv Γ) :
    ones (own Γ) a = 1 ∧ edges (priv Γ ++ s.zombies) s.mem s.next a = 0 ∧ roots s a = 0 := by
  obtain ⟨c, hc, hr⟩ := h.priv_cell ha
  have e := h.inv.exact a c hc
  have := ones_mem (priv_sub_own ha) a
  rw [one_self] at this
  unfold total at e
  omega

theorem priv_entry (h : SimG G Γ s st) {a : Addr} (ha : a ∈ priv Γ) : a ∉ G.map Ent.addr := by
  intro hg
  have := (h.priv_once ha).2.2
  unfold roots at this
  rw [h.glob] at this
  have hc : 0 < ((G.map fun e => (e.key, e.addr)).map Prod.snd).count a := by
    refine List.count_pos_iff.2 ?_
    simpa [List.map_map] using hg
  omega

theorem entry_mem (_h : SimG G Γ s st) {e : Ent} (he : e ∈ G) : e.addr ∈ avoid G Γ := by
  simp only [avoid, List.mem_append]
  exact .inr (List.mem_map.2 ⟨e, he, rfl⟩)

theorem entry_live (h : SimG G Γ s st) {e : Ent} (he : e ∈ G) : Live s e.addr := by
  refine h.inv.liveGlobal ?_
  rw [h.glob, List.map_map]
  exact List.mem_map.2 ⟨e, he, rfl⟩

end SimG

/-! ## Steps -/

/-- What may have changed in the memory: flags and data only in `W`, counts go up only in `U`. -/
def Step (W U : List Addr) (s s' : HSt) : Prop :=
  ∀ a c c', s.mem a = some c → s'.mem a = some c' →
    (a ∉ W → c'.data = c.data ∧ c'.tc = c.tc) ∧ (a ∉ U → c'.refs ≤ c.refs)

theorem Repr.step {A A' W U O' : List Addr} {s s' : HSt} {T' : Addr → Nat} (hs : Step W U s s')
    (hW : ∀ a, a ∈ W → a ∈ A) (hA : ∀ b, b ∈ A' → b ∈ A ∨ s.mem b = none) (hO : ∀ b, b ∈ O' → b ∈ A')
    (i : InvO O' s' T') {a : Addr} {v : Val} (h : Repr A s.mem a v) (l : Live s' a) :
    Repr A' s'.mem a v := by
  have key : ∀ {b : Addr} {c : Cell}, b ∉ A → s.mem b = some c → b ∉ A' := by
    intro b c hb hc hi
    rcases hA b hi with h' | h'
    · exact hb h'
    · rw [hc] at h'; cases h'
  induction h with
  | @atom a c v ha hc hv =>
    obtain ⟨⟨c', hc'⟩, _⟩ := l
    obtain ⟨e1, e2⟩ := (hs a c c' hc hc').1 (fun h' => ha (hW a h'))
    refine .atom (key ha hc) hc' ?_
    unfold Cell.val at hv ⊢
    rw [e1, e2]
    exact hv
  | @pair a x y c u w ha hc hd _ _ ix iy =>
    obtain ⟨⟨c', hc'⟩, hz⟩ := l
    obtain ⟨e1, e2⟩ := (hs a c c' hc hc').1 (fun h' => ha (hW a h'))
    have l' : Live s' a := ⟨⟨c', hc'⟩, hz⟩
    have hd' : c'.data = .pair x y := e1.trans hd
    have no : a ∉ O' := fun h' => key ha hc (hO a h')
    rw [← e2]
    exact .pair (key ha hc) hc' hd' (ix (i.childCar l' no hc' hd')) (iy (i.childCdr l' no hc' hd'))

theorem Part.step {A W U O' : List Addr} {s s' : HSt} {T' : Addr → Nat} (hs : Step W U s s')
    (hW : ∀ a, a ∈ W → a ∈ A) (hO : ∀ b, b ∈ O' → b ∈ A ∨ s.mem b = none)
    (i : InvO O' s' T') {a b : Addr} {v : Val} (h : Repr A s.mem a v) (l : Live s' a)
    (r : Part s.mem a b) : Part s'.mem a b ∧ Live s' b := by
  induction r with
  | refl => exact ⟨.refl, l⟩
  | @car b x y c r hc hd ih =>
    obtain ⟨u, hu⟩ := r.repr h
    obtain ⟨⟨c', hc'⟩, hz⟩ := ih.2
    have e1 := ((hs b c c' hc hc').1 (fun h' => hu.out (hW b h'))).1
    have no : b ∉ O' := by
      intro h'
      rcases hO b h' with h2 | h2
      · exact hu.out h2
      · rw [hc] at h2; cases h2
    exact ⟨.car ih.1 hc' (e1.trans hd), i.childCar ih.2 no hc' (e1.trans hd)⟩
  | @cdr b x y c r hc hd ih =>
    obtain ⟨u, hu⟩ := r.repr h
    obtain ⟨⟨c', hc'⟩, hz⟩ := ih.2
    have e1 := ((hs b c c' hc hc').1 (fun h' => hu.out (hW b h'))).1
    have no : b ∉ O' := by
      intro h'
      rcases hO b h' with h2 | h2
      · exact hu.out h2
      · rw [hc] at h2; cases h2
    exact ⟨.cdr ih.1 hc' (e1.trans hd), i.childCdr ih.2 no hc' (e1.trans hd)⟩

theorem B.Ok.step {A A' W U O' : List Addr} {s s' : HSt} {T' : Addr → Nat} (hs : Step W U s s')
    (hW : ∀ a, a ∈ W → a ∈ A) (hA : ∀ b, b ∈ A' → b ∈ A ∨ s.mem b = none) (hO : ∀ b, b ∈ O' → b ∈ A')
    (i : InvO O' s' T') : ∀ {σ : B}, σ.Ok A s.mem → (∀ a, a ∈ σ.own → 0 < T' a) →
      (∀ a, a ∈ σ.priv → a ∉ W ∧ a ∉ U) → σ.Ok A' s'.mem := by
  intro σ
  induction σ with
  | tok a v ps =>
    intro h ho _
    have l : Live s' a := by
      refine i.live fun b => ?_
      by_cases e : b = a
      · subst e; rw [one_self]; exact ho b (by simp [B.own])
      · rw [one_ne e]; omega
    refine ⟨h.1.step hs hW hA hO i l, fun p hp => ?_⟩
    obtain ⟨r, hr⟩ := h.2 p hp
    obtain ⟨r', l'⟩ := r.step hs hW (fun b hb => hA b (hO b hb)) i h.1 l
    exact ⟨r', hr.step hs hW hA hO i l'⟩
  | ref => intro _ _ _; trivial
  | pc a t x y =>
    intro ⟨c, hc, hr, ht, hd⟩ ho hp
    have l : Live s' a := by
      refine i.live fun b => ?_
      by_cases e : b = a
      · subst e; rw [one_self]; exact ho b (by simp [B.own])
      · rw [one_ne e]; omega
    obtain ⟨⟨c', hc'⟩, _⟩ := l
    have hn := hp a (by simp [B.priv])
    obtain ⟨e1, e2⟩ := (hs a c c' hc hc').1 hn.1
    have e3 := (hs a c c' hc hc').2 hn.2
    have e4 := i.exact a c' hc'
    have := ho a (by simp [B.own])
    unfold total at e4
    exact ⟨c', hc', by omega, e2.trans ht, e1.trans hd⟩
  | node a t x y ix iy =>
    intro ⟨⟨c, hc, hr, ht, hd⟩, hx, hy⟩ ho hp
    have l : Live s' a := by
      refine i.live fun b => ?_
      by_cases e : b = a
      · subst e; rw [one_self]; exact ho b (by simp [B.own])
      · rw [one_ne e]; omega
    obtain ⟨⟨c', hc'⟩, _⟩ := l
    have hn := hp a (by simp [B.priv])
    obtain ⟨e1, e2⟩ := (hs a c c' hc hc').1 hn.1
    have e3 := (hs a c c' hc hc').2 hn.2
    have e4 := i.exact a c' hc'
    have := ho a (by simp [B.own])
    unfold total at e4
    refine ⟨⟨c', hc', by omega, e2.trans ht, e1.trans hd⟩, ?_, ?_⟩
    · exact ix hx (fun b hb => ho b (by simp [B.own, hb])) (fun b hb => hp b (by simp [B.priv, hb]))
    · exact iy hy (fun b hb => ho b (by simp [B.own, hb])) (fun b hb => hp b (by simp [B.priv, hb]))

/-- The general form of a step that does not change the global table. -/
theorem SimG.step {G : List Ent} {Γ Γ' : List B} {s s' : HSt} {st : St} {W U : List Addr}
    (h : SimG G Γ s st) (i : InvO (priv Γ') s' (ones (own Γ'))) (hs : Step W U s s')
    (hW : ∀ a, a ∈ W → a ∈ priv Γ) (hP : ∀ b, b ∈ priv Γ' → b ∈ priv Γ ∨ s.mem b = none)
    (hg : s'.globals = s.globals) (ho : s'.out = s.out) (ht : s'.strict = s.strict)
    (hc : ∀ a c d k, s'.mem a = some c → c.cache = some d → c.data = .sym k → (k, d) ∈ s.globals)
    (new : ∀ σ, σ ∈ Γ' → (σ.Ok (avoid G Γ) s.mem ∧ ∀ b, b ∈ σ.priv → b ∉ W ∧ b ∉ U) ∨
      σ.Ok (avoid G Γ') s'.mem)
    (hn : ∀ a, Live s' a → a ∉ avoid G Γ' → (Live s a ∧ a ∉ avoid G Γ) ∨ ∃ v, Repr (avoid G Γ') s'.mem a v) :
    SimG G Γ' s' st := by
  have hWA : ∀ a, a ∈ W → a ∈ avoid G Γ := fun a ha => by
    simp only [avoid, List.mem_append]; exact .inl (hW a ha)
  have hA : ∀ b, b ∈ avoid G Γ' → b ∈ avoid G Γ ∨ s.mem b = none := by
    intro b hb
    simp only [avoid, List.mem_append] at hb ⊢
    rcases hb with hb | hb
    · rcases hP b hb with h' | h'
      · exact .inl (.inl h')
      · exact .inr h'
    · exact .inl (.inr hb)
  have hO : ∀ b, b ∈ priv Γ' → b ∈ avoid G Γ' := fun b hb => by
    simp only [avoid, List.mem_append]; exact .inl hb
  refine ⟨i, ?_, ?_, hg.trans h.glob, h.keys, h.addrs, h.vals, ?_, ?_, ?_, ?_⟩
  · intro σ hσ
    rcases new σ hσ with ⟨h1, h2⟩ | h1
    · refine h1.step hs hWA hA hO i (fun a ha => ?_) h2
      have := ones_mem (own_mem hσ ha) a
      rw [one_self] at this
      exact this
    · exact h1
  · intro e he
    obtain ⟨⟨c, hc1, hd⟩, ⟨v, hk⟩, hv⟩ := h.ent e he
    have l : Live s' e.addr := by
      refine i.liveGlobal ?_
      rw [hg, h.glob, List.map_map]
      exact List.mem_map.2 ⟨e, he, rfl⟩
    obtain ⟨⟨c', hc'⟩, hz⟩ := l
    have l' : Live s' e.addr := ⟨⟨c', hc'⟩, hz⟩
    have nW : e.addr ∉ W := fun hw => h.priv_entry (hW _ hw) (List.mem_map.2 ⟨e, he, rfl⟩)
    have e1 := ((hs e.addr c c' hc1 hc').1 nW).1
    have no : e.addr ∉ priv Γ' := by
      intro hp
      rcases hP _ hp with h' | h'
      · exact h.priv_entry h' (List.mem_map.2 ⟨e, he, rfl⟩)
      · rw [hc1] at h'; cases h'
    exact ⟨⟨c', hc', e1.trans hd⟩, ⟨v, hk.step hs hWA hA hO i (i.childCar l' no hc' (e1.trans hd))⟩,
      hv.step hs hWA hA hO i (i.childCdr l' no hc' (e1.trans hd))⟩
  · intro a c d k h1 h2 h3; rw [hg]; exact hc a c d k h1 h2 h3
  · rw [ho]; exact h.out
  · rw [ht]; exact h.strict
  · intro a l ha
    rcases hn a l ha with ⟨l0, h0⟩ | h0
    · obtain ⟨v, hv⟩ := h.all a l0 h0
      exact ⟨v, hv.step hs hWA hA hO i l⟩
    · exact h0

/-! ## Partial correctness -/

/-- If `x` succeeds, then `Q` holds. -/
def Sat {α : Type} (x : HM α) (Q : α → HSt → Prop) (s : HSt) : Prop := ∀ a s', x s = .ok (a, s') → Q a s'

section
variable {α β : Type} {Q : α → HSt → Prop} {s : HSt}

theorem Sat.bind {x : HM α} {f : α → HM β} {Q : β → HSt → Prop}
    (h : Sat x (fun a s' => Sat (f a) Q s') s) : Sat (x >>= f) Q s := by
  intro b s'' e
  change HM.bind x f s = _ at e
  unfold HM.bind at e
  cases hx : x s with
  | ok p => rw [hx] at e; exact h p.1 p.2 hx b s'' e
  | ub u => rw [hx] at e; cases e
  | abort => rw [hx] at e; cases e
  | oof => rw [hx] at e; cases e
  | unsupported => rw [hx] at e; cases e

theorem Sat.pure {a : α} (h : Q a s) : Sat (Pure.pure a : HM α) Q s := by
  intro b s' e; cases e; exact h
theorem Sat.ok {x : HM α} {s' : HSt} {a : α} (h : x s = .ok (a, s')) (q : Q a s') : Sat x Q s := by
  intro b s'' e; rw [h] at e; cases e; exact q
theorem Sat.oof : Sat (HM.oof : HM α) Q s := by intro b s' e; cases e
theorem Sat.unsupported : Sat (HM.unsupported : HM α) Q s := by intro b s' e; cases e
theorem Sat.ub {u : UB} : Sat (HM.ub u : HM α) Q s := by intro b s' e; cases e
theorem Sat.ite {c : Prop} [Decidable c] {x y : HM α} (h1 : c → Sat x Q s) (h2 : ¬ c → Sat y Q s) :
    Sat (if c then x else y) Q s := by
  by_cases h : c
  · rw [if_pos h]; exact h1 h
  · rw [if_neg h]; exact h2 h
theorem Sat.lift {r : Res α} (k : ∀ a, r = .ok a → Q a s) : Sat (HM.lift r) Q s := by
  intro b s' e
  unfold HM.lift at e
  cases r with
  | ok a => cases e; exact k _ rfl
  | _ => cases e
theorem Sat.mono {Q' : α → HSt → Prop} {x : HM α} (h : Sat x Q s) (i : ∀ a s', Q a s' → Q' a s') :
    Sat x Q' s := fun a s' e => i a s' (h a s' e)
theorem Sat.and {Q' : α → HSt → Prop} {x : HM α} (h : Sat x Q s) (h' : Sat x Q' s) :
    Sat x (fun a s' => Q a s' ∧ Q' a s') s := fun a s' e => ⟨h a s' e, h' a s' e⟩
theorem Sat.of_wp {x : HM α} (h : wp x Q s) : Sat x Q s := by
  intro a s' e; unfold wp at h; rw [e] at h; exact h

theorem sat_guard {b : Bool} {Q : Unit → HSt → Prop} {s : HSt} (hs : s.strict = true) (k : b = true → Q () s) :
    Sat (guard b) Q s := by
  intro a s' e
  unfold guard at e
  rw [hs] at e
  cases b with
  | true => cases e; exact k rfl
  | false => cases e

theorem sat_cell {Q : Cell → HSt → Prop} {a : Addr} (k : ∀ c, s.mem a = some c → Q c s) :
    Sat (cell a) Q s := by
  intro c s' e
  unfold cell at e
  cases h : s.mem a with
  | some c' => rw [h] at e; cases e; exact k c h
  | none => rw [h] at e; cases e

/-- Reading the data of a value. -/
theorem sat_data {Q : Data → HSt → Prop} {a : Addr} {v : Val} (r : Rep s.mem a v)
    (k : ∀ d, d.Is v → Q d s) : Sat (dataOf a) Q s := by
  refine Sat.bind (sat_cell fun c hc => Sat.pure ?_)
  obtain ⟨c', hc', hd⟩ := r.is
  rw [hc] at hc'; cases hc'
  exact k _ hd

/-- Reading the fields of a value. -/
theorem sat_pairOf {Q : Addr × Addr → HSt → Prop} {a : Addr} {v : Val} (r : Rep s.mem a v)
    (k : ∀ x y t u w, v = .pair t u w → Rep s.mem x u → Rep s.mem y w →
      (∀ b, Part s.mem b a → Part s.mem b x) → (∀ b, Part s.mem b a → Part s.mem b y) → Q (x, y) s) :
    Sat (pairOf a) Q s := by
  refine Sat.bind (Sat.bind (sat_cell fun c hc => Sat.pure ?_))
  cases r with
  | @atom _ c' _ _ hc' hv' =>
    rw [hc] at hc'; cases hc'
    cases hd : c.data with
    | pair x y => unfold Cell.val at hv'; rw [hd] at hv'; cases hv'
    | _ => exact Sat.ub
  | @pair _ x y c' u w _ hc' hd hx hy =>
    rw [hc] at hc'; cases hc'
    rw [hd]
    exact Sat.pure (k x y _ u w rfl hx hy (fun b hb => .car hb hc hd) (fun b hb => .cdr hb hc hd))
end

end Heap
end Mnml
