import Verif.Val

/-!
# The global table: red-black tree with parent pointers

Models `lib/core/tree.c` and `include/mnml/tree.h` at pointer level.

A node is three cells `(DATA . (LEFT . (PARENT . RIGHT)))` that are only reachable through the tree; it is
represented by one record under the address of its first cell. `DATA` is a pair `(KEY . VALUE)` with its own
address, because symbol cells remember that address (`lisp_lookup`). Missing children, and the parent of the root,
are NIL cells, which have an address and a colour flag of their own. Reading a field of a NIL cell is a null pointer
dereference (`badPointer`), touching a released cell is `useAfterFree`.

Simplifications: reference counts are not represented (a cell is released where the code drops its last
reference, and `TOWEAK`/`UNWEAK`, which only matter for reference counts, are left out); new cells come from a counter
that never returns an address twice (the slab allocator never returns a cell that is in use, see C01); the loops take
a bound on the number of iterations.
-/

namespace Mnml

namespace Tree

/-- A node (`include/mnml/tree.h:16-21`); `red` is the flag `F_HAS_COLOR` of its first cell. -/
structure Node where
  data : Nat
  left : Nat
  right : Nat
  parent : Nat
  red : Bool
deriving DecidableEq

/-- A cell of the tree: NIL with its colour flag, or a node. -/
inductive Cell where
  | nil (red : Bool)
  | node (n : Node)
deriving DecidableEq

/-- The memory: nodes and NIL cells, `(KEY . VALUE)` pairs, next fresh address. -/
structure Store where
  cells : Nat → Option Cell
  data : Nat → Option (Sym × Val)
  next : Nat

/-- Computations on the memory. -/
def TM (α : Type) : Type := Store → Res (α × Store)

namespace TM
/-- Return without effect. -/
def pure {α : Type} (a : α) : TM α := fun σ => .ok (a, σ)
/-- Sequencing. -/
def bind {α β : Type} (x : TM α) (f : α → TM β) : TM β := fun σ => x σ >>= fun p => f p.1 p.2
instance : Monad TM where
  pure := pure
  bind := bind
/-- Out of fuel. -/
def oof {α : Type} : TM α := fun _ => .oof

@[simp] theorem pure_apply {α : Type} (a : α) (σ : Store) : (Pure.pure a : TM α) σ = .ok (a, σ) := rfl
@[simp] theorem bind_apply {α β : Type} (x : TM α) (f : α → TM β) (σ : Store) :
    (x >>= f) σ = (x σ >>= fun p => f p.1 p.2) := rfl
@[simp] theorem oof_apply {α : Type} (σ : Store) : (oof : TM α) σ = .oof := rfl
end TM

/-- Dereference a node. -/
def node (p : Nat) : TM Node := fun σ =>
  match σ.cells p with
  | some (.node n) => .ok (n, σ)
  | some (.nil _) => .ub .badPointer
  | none => .ub .useAfterFree

/-- `IS_NULL`. -/
def isNull (p : Nat) : TM Bool := fun σ =>
  match σ.cells p with
  | some (.node _) => .ok (false, σ)
  | some (.nil _) => .ok (true, σ)
  | none => .ub .useAfterFree

/-- `IS_COLORED` (`include/mnml/types.h:110`), also of NIL cells. -/
def colored (p : Nat) : TM Bool := fun σ =>
  match σ.cells p with
  | some (.node n) => .ok (n.red, σ)
  | some (.nil r) => .ok (r, σ)
  | none => .ub .useAfterFree

/-- Overwrite a cell. -/
def Store.setCell (σ : Store) (p : Nat) (c : Option Cell) : Store :=
  { σ with cells := fun q => if q = p then c else σ.cells q }

/-- Overwrite a `(KEY . VALUE)` pair. -/
def Store.setData (σ : Store) (p : Nat) (c : Option (Sym × Val)) : Store :=
  { σ with data := fun q => if q = p then c else σ.data q }

/-- Assignment to a field of a node. -/
def update (p : Nat) (f : Node → Node) : TM Unit := fun σ =>
  match σ.cells p with
  | some (.node n) => .ok ((), σ.setCell p (some (.node (f n))))
  | some (.nil _) => .ub .badPointer
  | none => .ub .useAfterFree

/-- `SET_COLOR`/`CLR_COLOR` (`include/mnml/types.h:116-117`), also on NIL cells. -/
def setColor (p : Nat) (b : Bool) : TM Unit := fun σ =>
  match σ.cells p with
  | some (.node n) => .ok ((), σ.setCell p (some (.node { n with red := b })))
  | some (.nil _) => .ok ((), σ.setCell p (some (.nil b)))
  | none => .ub .useAfterFree

/-- `LEFT(p)`. -/
def left (p : Nat) : TM Nat := do
  let n ← node p
  pure n.left
/-- `RIGHT(p)`. -/
def right (p : Nat) : TM Nat := do
  let n ← node p
  pure n.right
/-- `PARENT(p)`. -/
def parent (p : Nat) : TM Nat := do
  let n ← node p
  pure n.parent
/-- `LEFT(p) = q`. -/
def setLeft (p q : Nat) : TM Unit := update p fun n => { n with left := q }
/-- `RIGHT(p) = q`. -/
def setRight (p q : Nat) : TM Unit := update p fun n => { n with right := q }
/-- `PARENT(p) = q`. -/
def setParent (p q : Nat) : TM Unit := update p fun n => { n with parent := q }

/-- The `(KEY . VALUE)` pair at an address. -/
def readData (d : Nat) : TM (Sym × Val) := fun σ =>
  match σ.data d with
  | some kv => .ok (kv, σ)
  | none => .ub .useAfterFree

/-- Assignment to the value of a `(KEY . VALUE)` pair. -/
def writeValue (d : Nat) (v : Val) : TM Unit := fun σ =>
  match σ.data d with
  | some kv => .ok ((), σ.setData d (some (kv.1, v)))
  | none => .ub .useAfterFree

/-- `KEY(p)`. -/
def key (p : Nat) : TM Sym := do
  let n ← node p
  let kv ← readData n.data
  pure kv.1

/-- A new NIL cell. -/
def newNil : TM Nat := fun σ =>
  .ok (σ.next, { σ.setCell σ.next (some (.nil false)) with next := σ.next + 1 })

/-- A new node. -/
def newNode (n : Node) : TM Nat := fun σ =>
  .ok (σ.next, { σ.setCell σ.next (some (.node n)) with next := σ.next + 1 })

/-- A new `(KEY . VALUE)` pair, made by the caller of the table functions (`lisp_cons`). -/
def newData (k : Sym) (v : Val) : TM Nat := fun σ =>
  .ok (σ.next, { σ.setData σ.next (some (k, v)) with next := σ.next + 1 })

/-- Release a cell. -/
def free (p : Nat) : TM Unit := fun σ =>
  match σ.cells p with
  | some _ => .ok ((), σ.setCell p none)
  | none => .ub .useAfterFree

/-- Release a `(KEY . VALUE)` pair. -/
def freeData (d : Nat) : TM Unit := fun σ =>
  match σ.data d with
  | some _ => .ok ((), σ.setData d none)
  | none => .ub .useAfterFree

/-- The parent given to a new node (`lib/core/tree.c:70`). -/
def rootParent (root : Nat) : TM Nat := do
  if ← isNull root then pure root else parent root

/-- `lisp_tree_new` (`lib/core/tree.c:63-86`). -/
def treeNew (root d : Nat) : TM Nat := do
  let l ← newNil
  let p ← rootParent root
  let r ← newNil
  newNode ⟨d, l, r, p, false⟩

/-- Set the parent of a subtree unless it is NIL (`lib/core/tree.c:116-118`, `167-169`, `594-596`). -/
def adopt (c p : Nat) : TM Unit := do
  if ← isNull c then pure () else setParent c p

/-- Assign the child of `p` that is `x`, looking at the left one first (`lib/core/tree.c:126-130`,
`606-610`). -/
def swapLeft (p x y : Nat) : TM Unit := do
  if x = (← left p) then setLeft p y else setRight p y

/-- Assign the child of `p` that is `x`, looking at the right one first (`lib/core/tree.c:177-181`). -/
def swapRight (p x y : Nat) : TM Unit := do
  if x = (← right p) then setRight p y else setLeft p y

/-- Link `y` to the parent of `x` (`lib/core/tree.c:123-131`); the new root. -/
def linkLeft (root p x y : Nat) : TM Nat := do
  if ← isNull p then pure y
  else do
    swapLeft p x y
    pure root

/-- Link `y` to the parent of `x` (`lib/core/tree.c:174-182`); the new root. -/
def linkRight (root p x y : Nat) : TM Nat := do
  if ← isNull p then pure y
  else do
    swapRight p x y
    pure root

/-- `lisp_tree_lrot` (`lib/core/tree.c:92-141`). -/
def lrot (root x : Nat) : TM Nat := do
  if ← isNull x then pure root
  else do
    let y ← right x
    if ← isNull y then pure root
    else do
      let ly ← left y
      setRight x ly
      adopt ly x
      let px ← parent x
      setParent y px
      let next ← linkLeft root px x y
      setLeft y x
      setParent x y
      pure next

/-- `lisp_tree_rrot` (`lib/core/tree.c:143-192`). -/
def rrot (root x : Nat) : TM Nat := do
  if ← isNull x then pure root
  else do
    let y ← left x
    if ← isNull y then pure root
    else do
      let ry ← right y
      setLeft x ry
      adopt ry x
      let px ← parent x
      setParent y px
      let next ← linkRight root px x y
      setRight y x
      setParent x y
      pure next

/-- Exchange of the values of two pairs (`lib/core/tree.c:231-233`, `400-402`). -/
def swapValues (d d' : Nat) : TM Unit := do
  let old ← readData d
  let new ← readData d'
  writeValue d new.2
  writeValue d' old.2

/-- The descent of `tree_add_node` (`lib/core/tree.c:211-242`): the leaf to attach to, or `none` if the key
exists, in which case the values of the two `(KEY . VALUE)` pairs have been exchanged. -/
def addWalk (nd : Nat) : Nat → Nat → Nat → TM (Option Nat)
  | 0, _, _ => TM.oof
  | n + 1, x, y => do
    if ← isNull x then pure (some y)
    else do
      let kn ← key nd
      let kx ← key x
      match symCompare kn kx with
      | .lt => do
        let l ← left x
        addWalk nd n l x
      | .eq => do
        let nx ← node x
        let nn ← node nd
        swapValues nx.data nn.data
        pure none
      | .gt => do
        let r ← right x
        addWalk nd n r x

/-- Attach the new node to the leaf `y` (`lib/core/tree.c:246-256`). -/
def attach (nd y : Nat) : TM Unit := do
  setParent nd y
  let kn ← key nd
  let ky ← key y
  if symCompare kn ky = .lt then do
    let l ← left y
    free l
    setLeft y nd
  else do
    let r ← right y
    free r
    setRight y nd

/-- `tree_add_node` (`lib/core/tree.c:198-261`). `none` stands for the atom T. -/
def addNode (n : Nat) (root nd : Nat) : TM (Option Nat) := do
  if ← isNull root then pure (some nd)
  else do
    match ← addWalk nd n root root with
    | none => pure none
    | some y => do
      attach nd y
      pure (some root)

/-- The condition of the loop (`lib/core/tree.c:271`). -/
def addMore (next x : Nat) : TM Bool := do
  if x = next then pure false
  else do
    let p ← parent x
    colored p

/-- Case 1 (`lib/core/tree.c:277-280`, `302-305`). -/
def addCase1 (p y g : Nat) : TM Unit := do
  setColor p false
  setColor y false
  setColor g true

/-- Recolouring of case 3 (`lib/core/tree.c:293-294`, `318-319`); answers `PARENT(PARENT(x))`. -/
def addCase3 (x : Nat) : TM Nat := do
  let p ← parent x
  setColor p false
  let g ← parent p
  setColor g true
  pure g

/-- Cases 2 and 3 on the left side (`lib/core/tree.c:286-295`): the new `x` and root. -/
def addFixLeft (nd next x p : Nat) : TM (Nat × Nat) := do
  let rp ← right p
  if x = rp then do
    let next ← lrot next nd
    let g ← addCase3 p
    let next ← rrot next g
    pure (p, next)
  else do
    let g ← addCase3 x
    let next ← rrot next g
    pure (x, next)

/-- Cases 2 and 3 on the right side (`lib/core/tree.c:311-320`). -/
def addFixRight (nd next x p : Nat) : TM (Nat × Nat) := do
  let lp ← left p
  if x = lp then do
    let next ← rrot next nd
    let g ← addCase3 p
    let next ← lrot next g
    pure (p, next)
  else do
    let g ← addCase3 x
    let next ← lrot next g
    pure (x, next)

/-- `tree_add_check` (`lib/core/tree.c:263-329`). -/
def addCheck (nd : Nat) : Nat → Nat → Nat → TM Nat
  | 0, _, _ => TM.oof
  | n + 1, next, x => do
    if ← addMore next x then do
      let p ← parent x
      let g ← parent p
      let lg ← left g
      let rg ← right g
      if p = lg then do
        if ← colored rg then do
          addCase1 p rg g
          addCheck nd n next g
        else do
          let q ← addFixLeft nd next x p
          addCheck nd n q.2 q.1
      else do
        if ← colored lg then do
          addCase1 p lg g
          addCheck nd n next g
        else do
          let q ← addFixRight nd next x p
          addCheck nd n q.2 q.1
    else do
      setColor next false
      pure next

/-- `lisp_tree_add` (`lib/core/tree.c:331-358`): `d` is the `(KEY . VALUE)` pair, which becomes part of the
table, or is released with the old value if the key exists. -/
def treeAdd (n : Nat) (root d : Nat) : TM Nat := do
  let nd ← treeNew root d
  setColor nd true
  match ← addNode n root nd with
  | none => do
    let nn ← node nd
    free nn.left
    free nn.right
    free nd
    freeData d
    pure root
  | some next => addCheck nd n next nd

/-- `tree_get_node` and the search of `lisp_tree_upd` (`lib/core/tree.c:370-396`, `413-450`). `none` is a NIL. -/
def getWalk (k : Sym) : Nat → Nat → TM (Option Nat)
  | 0, _ => TM.oof
  | n + 1, x => do
    if ← isNull x then pure none
    else do
      let kx ← key x
      if symMatch kx k then pure (some x)
      else do
        if symCompare kx k = .lt then do
          let r ← right x
          getWalk k n r
        else do
          let l ← left x
          getWalk k n l

/-- `lisp_tree_get` (`lib/core/tree.c:452-457`): the `(KEY . VALUE)` pair. -/
def treeGet (n : Nat) (root : Nat) (k : Sym) : TM (Option Nat) := do
  match ← getWalk k n root with
  | none => pure none
  | some x => do
    let nx ← node x
    pure (some nx.data)

/-- `lisp_tree_upd` (`lib/core/tree.c:364-407`): exchanges the values of the entry and of the pair `d`. Answers
whether the key was found. -/
def treeUpd (n : Nat) (root d : Nat) : TM Bool := do
  let kv ← readData d
  match ← getWalk kv.1 n root with
  | none => pure false
  | some x => do
    let nx ← node x
    swapValues nx.data d
    pure true

/-- `tree_minimum` (`lib/core/tree.c:8-28`). -/
def minimum : Nat → Nat → TM Nat
  | 0, _ => TM.oof
  | n + 1, x => do
    if ← isNull x then pure x
    else do
      let l ← left x
      if ← isNull l then pure x else minimum n l

/-- The way up in `tree_successor` (`lib/core/tree.c:48-52`). -/
def climb : Nat → Nat → Nat → TM Nat
  | 0, _, _ => TM.oof
  | n + 1, x, y => do
    if ← isNull y then pure y
    else do
      let r ← right y
      if x = r then do
        let p ← parent y
        climb n y p
      else pure y

/-- `tree_successor` (`lib/core/tree.c:30-57`). -/
def successor (n : Nat) (x : Nat) : TM Nat := do
  if ← isNull x then pure x
  else do
    let r ← right x
    if ← isNull r then do
      let p ← parent x
      climb n x p
    else minimum n r

/-- Case 1 of the removal on the left side (`lib/core/tree.c:481-485`): sibling and root. -/
def remCase1Left (next p w : Nat) : TM (Nat × Nat) := do
  if ← colored w then do
    setColor w false
    let next ← lrot next p
    let w ← right p
    pure (w, next)
  else pure (w, next)

/-- Case 3 of the removal on the left side (`lib/core/tree.c:500-505`): sibling and root. -/
def remCase3Left (next p w : Nat) : TM (Nat × Nat) := do
  let rw ← right w
  if ← colored rw then pure (w, next)
  else do
    let lw ← left w
    setColor lw false
    setColor w true
    let next ← rrot next w
    let w ← right p
    pure (w, next)

/-- Case 4 of the removal on the left side (`lib/core/tree.c:509-512`): the new `x`. The new root is
only assigned to `x`. -/
def remCase4Left (next p w : Nat) : TM Nat := do
  let cp ← colored p
  setColor w cp
  setColor p false
  let rw ← right w
  setColor rw false
  lrot next p

/-- Case 1 of the removal on the right side (`lib/core/tree.c:523-527`). It rotates around the parent of `x`,
which may be a NIL cell. -/
def remCase1Right (next p w x : Nat) : TM (Nat × Nat) := do
  if ← colored w then do
    setColor w false
    let px ← parent x
    let next ← rrot next px
    let w ← left p
    pure (w, next)
  else pure (w, next)

/-- Case 3 of the removal on the right side (`lib/core/tree.c:542-547`). -/
def remCase3Right (next p w : Nat) : TM (Nat × Nat) := do
  let lw ← left w
  if ← colored lw then pure (w, next)
  else do
    let rw ← right w
    setColor rw false
    setColor w true
    let next ← lrot next w
    let w ← left p
    pure (w, next)

/-- Case 4 of the removal on the right side (`lib/core/tree.c:551-554`). -/
def remCase4Right (next p w : Nat) : TM Nat := do
  let cp ← colored p
  setColor w cp
  setColor p false
  let lw ← left w
  setColor lw false
  rrot next p

/-- The condition of the loop (`lib/core/tree.c:472`). -/
def remMore (next x : Nat) : TM Bool := do
  if x = next then pure false
  else do
    let c ← colored x
    pure (!c)

/-- Both children are black (`lib/core/tree.c:489`, `531`). The second one is only read if the first is black,
which makes no difference. -/
def bothBlack (w : Nat) : TM Bool := do
  let lw ← left w
  let rw ← right w
  let c1 ← colored lw
  let c2 ← colored rw
  pure (!c1 && !c2)

/-- `tree_rem_check` (`lib/core/tree.c:463-562`). -/
def remCheck : Nat → Nat → Nat → Nat → TM Nat
  | 0, _, _, _ => TM.oof
  | n + 1, next, p, x => do
    if ← remMore next x then do
      let lp ← left p
      if x = lp then do
        let w ← right p
        let q ← remCase1Left next p w
        if ← bothBlack q.1 then do
          setColor q.1 true
          let pp ← parent p
          remCheck n q.2 pp p
        else do
          let q ← remCase3Left q.2 p q.1
          let x ← remCase4Left q.2 p q.1
          remCheck n q.2 p x
      else do
        let q ← remCase1Right next p lp x
        if ← bothBlack q.1 then do
          setColor q.1 true
          let pp ← parent p
          remCheck n q.2 pp p
        else do
          let q ← remCase3Right q.2 p q.1
          let x ← remCase4Right q.2 p q.1
          remCheck n q.2 p x
    else pure next

/-- The node to unlink (`lib/core/tree.c:579-585`): the node itself, or its successor if it has two children. -/
def remTarget (n nd : Nat) : TM Nat := do
  let l ← left nd
  let r ← right nd
  let el ← isNull l
  let er ← isNull r
  if el || er then pure nd else successor n nd

/-- The only child of the node to unlink, or a NIL cell (`lib/core/tree.c:589`). -/
def onlyChild (y : Nat) : TM Nat := do
  let l ← left y
  if ← isNull l then right y else pure l

/-- Unlink `y`, whose place `x` takes (`lib/core/tree.c:600-610`): the new root and the new `x`. -/
def unlink (root p x y : Nat) : TM (Nat × Nat) := do
  if ← isNull p then do
    if ← isNull x then pure (p, p) else pure (x, x)
  else do
    swapLeft p y x
    pure (root, x)

/-- Exchange the pairs of the two nodes (`lib/core/tree.c:614-618`). -/
def exchange (nd y : Nat) : TM Unit := do
  if y = nd then pure ()
  else do
    let nn ← node nd
    let ny ← node y
    update nd fun m => { m with data := ny.data }
    update y fun m => { m with data := nn.data }

/-- Release a cell unless it is `x`. -/
def freeUnless (p x : Nat) : TM Unit := if p = x then pure () else free p

/-- `X(lisp, y)` (`lib/core/tree.c:624`, `635`): releases the unlinked node with its pair. The child that
replaces it has one more reference and stays; the other one is a NIL cell. -/
def release (y x : Nat) : TM Unit := do
  let ny ← node y
  freeUnless ny.left x
  freeUnless ny.right x
  free y
  freeData ny.data

/-- `lisp_tree_rem` (`lib/core/tree.c:564-637`): the new root. If the key is not found, a fresh NIL is returned
(`lib/core/tree.c:571-575`). -/
def treeRem (n : Nat) (root : Nat) (k : Sym) : TM Nat := do
  match ← getWalk k n root with
  | none => newNil
  | some nd => do
    let y ← remTarget n nd
    let x ← onlyChild y
    let p ← parent y
    adopt x p
    let q ← unlink root p x y
    exchange nd y
    if ← colored y then do
      release y q.2
      pure q.1
    else do
      let next ← remCheck n q.1 p q.2
      release y q.2
      pure next

/-- `lisp_tree_dfs` (`lib/core/tree.c:643-671`): the entries given to the visitor, in order, and the node at
which the visitor answered true. -/
def dfs (cb : Sym → Val → Bool) : Nat → Nat → TM (List (Sym × Val) × Option Nat)
  | 0, _ => TM.oof
  | n + 1, x => do
    if ← isNull x then pure ([], none)
    else do
      let l ← left x
      let q ← dfs cb n l
      if q.2.isSome then pure q
      else do
        let nx ← node x
        let kv ← readData nx.data
        if cb kv.1 kv.2 then pure (q.1 ++ [kv], some x)
        else do
          let r ← right x
          let q' ← dfs cb n r
          pure (q.1 ++ kv :: q'.1, q'.2)

/-- The memory with the empty table (`lib/core/lisp.c:20`): a NIL cell at address 0. -/
def empty : Store := ⟨fun p => if p = 0 then some (.nil false) else none, fun _ => none, 1⟩

end Tree

end Mnml
