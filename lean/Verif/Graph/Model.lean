import Verif.Dofs.Model
/-!
# Model of class `Optimizable` (simsopt/_core/optimizable.py L512-1501)

The store of all Optimizable and DOFs objects, and every operation that changes the graph or the
dofs, statement by statement.  Operations are `EStateM` actions: when an exception is raised the
half-updated store is kept, as in Python.

Python facts that matter and how they are modelled
* `Optimizable.__eq__`/`__hash__` compare *names* (L714-726): every `in`, `dict.fromkeys`, `dict(...)`,
  `list.remove` and set operation on Optimizables below compares names, not identities.
* `_children` is a `set` of weak references with unspecified iteration order: each mutation
  of such a set passes the new content through `Cfg.shuffle`, an arbitrary reordering.
* weak references: `alive` is the set of objects not yet garbage-collected; iteration over
  children and `_dep_opts` skips dead ones, `gc` may collect an object that is nobody's parent.
* recursion: deeper than `Cfg.limit` frames raises `RecursionError`.
Not modelled here: `return_fns`/`funcs_in` (see `Verif.LeastSquares`), logging, serialisation.
-/

namespace Simsopt.Graph
open Simsopt

/-- Parameters of the runtime and of the class table. -/
structure Cfg (V : Type) where
  /-- recursion limit of the interpreter -/
  limit : Nat
  /-- iteration order of a `_children` set after its `k`-th mutation -/
  shuffle : Nat → List Nat → List Nat
  /-- `__class__.__name__` of class number `c` -/
  cname : Nat → String
  /-- `-np.inf`, `np.inf` -/
  ninf : V
  pinf : V

/-- Instance attributes of an `Optimizable` (set in L636-690, L948-950, L975-985). -/
structure Obj (V : Type) where
  cls : Nat
  num : Nat
  name : String
  dofs : Nat
  setter : Bool
  parents : List Nat
  children : List Nat
  anc : List Nat
  uniq : List Nat
  fullSize : Nat
  fullIdx : List (Nat × (Nat × Nat))
  freeSize : Nat
  freeIdx : List (Nat × (Nat × Nat))
  newX : Bool
  bells : Nat
  ext : List V

/-- The heap: Optimizable objects `0 .. nobj-1`, DOFs objects `0 .. ndof-1`, `_dep_opts` of each
    DOFs object, the per-class instance counters (util.py L74-84) and the set-mutation clock. -/
structure State (V : Type) where
  nobj : Nat
  obj : Nat → Obj V
  alive : Nat → Bool
  ndof : Nat
  dof : Nat → Dofs V
  deps : Nat → List Nat
  ids : Nat → Nat
  tick : Nat

variable {V : Type}

abbrev M (V α : Type) := EStateM Err (State V) α

def blankObj : Obj V :=
  { cls := 0, num := 0, name := "", dofs := 0, setter := false, parents := [], children := [], anc := [],
    uniq := [], fullSize := 0, fullIdx := [], freeSize := 0, freeIdx := [], newX := false, bells := 0, ext := [] }

/-- The empty heap. -/
def State.empty : State V :=
  { nobj := 0, obj := fun _ => blankObj, alive := fun _ => false, ndof := 0,
    dof := fun _ => { names := [], x := [], free := [], lb := [], ub := [] }, deps := fun _ => [],
    ids := fun _ => 0, tick := 0 }

/-- pointwise update of a store -/
def upd {α : Type} (f : Nat → α) (i : Nat) (v : α) : Nat → α := fun j => if j = i then v else f j

def State.setObj (s : State V) (i : Nat) (o : Obj V) : State V := { s with obj := upd s.obj i o }

/-- `a == b` for Optimizables (L717-727). -/
def State.eqv (s : State V) (a b : Nat) : Bool := (s.obj a).name == (s.obj b).name

/-- `list(dict.fromkeys(l))` for a key function: later duplicates are dropped. -/
def dedupOn {α β : Type} [DecidableEq β] (key : α → β) (l : List α) : List α :=
  l.foldl (fun acc a => if acc.any (fun b => key b = key a) then acc else acc ++ [a]) []

/-- `d[k] = v` on an insertion-ordered dict whose keys are compared by `key`: an existing entry keeps its
    first key object and position. -/
def dictSet {α β γ : Type} [DecidableEq β] (key : α → β) (d : List (α × γ)) (k : α) (v : γ) : List (α × γ) :=
  if d.any (fun e => key e.1 = key k) then d.map (fun e => if key e.1 = key k then (e.1, v) else e)
  else d ++ [(k, v)]

/-- `dict(pairs)`. -/
def dictOf {α β γ : Type} [DecidableEq β] (key : α → β) (l : List (α × γ)) : List (α × γ) :=
  l.foldl (fun d e => dictSet key d e.1 e.2) []

/-- the list `dof_indices = [0, s0, s0+s1, ...]` built in the loops at L939-946 and L969-981 -/
def cumul : Nat → List Nat → List Nat
  | a, [] => [a]
  | a, n :: l => a :: cumul (a + n) l

/-- `zip(opts, zip(dof_indices[:-1], dof_indices[1:]))` (L949-950, L984-985) -/
def indexPairs (opts sizes : List Nat) : List (Nat × (Nat × Nat)) :=
  let idx := cumul 0 sizes
  opts.zip (idx.dropLast.zip idx.tail)

/-- stable insertion of `a` into a sorted list -/
def insertBy {α : Type} (le : α → α → Bool) (a : α) : List α → List α
  | [] => [a]
  | b :: l => if le a b then a :: b :: l else b :: insertBy le a l

/-- a stable sort (the result of a stable sort does not depend on the algorithm) -/
def sortBy {α : Type} (le : α → α → Bool) : List α → List α
  | [] => []
  | a :: l => insertBy le a (sortBy le l)

/-- `sorted(l, key=lambda a: a.name)` (L919): stable, by code-point order of the names. -/
def sortByName (s : State V) (l : List Nat) : List Nat :=
  sortBy (fun a b => decide ((s.obj a).name ≤ (s.obj b).name)) l

/-- `Optimizable._get_ancestors` (L907-919). -/
def getAncestors (s : State V) (i : Nat) : List Nat :=
  let ps := (s.obj i).parents
  sortByName s (dedupOn (fun a => (s.obj a).name) (ps.flatMap (fun p => (s.obj p).anc) ++ ps))

/-- `local_full_dof_size` (L1017-1027): `len(self._dofs)`. -/
def localFullSize (s : State V) (o : Nat) : Nat := (s.dof (s.obj o).dofs).len

/-- `local_dof_size` (L1029-1037): `self._dofs.reduced_len`. -/
def localSize (s : State V) (o : Nat) : Nat := (s.dof (s.obj o).dofs).reducedLen

/-- One visit of `_update_full_dof_size_indices` (L956-985), without the recursion into children. -/
def actFull (s : State V) (i : Nat) : State V :=
  let anc := getAncestors s i
  let uniq := dedupOn (fun o => (s.obj o).dofs) (anc ++ [i])
  let sizes := uniq.map (localFullSize s)
  s.setObj i { s.obj i with
    anc := anc, uniq := uniq, fullSize := sizes.sum,
    fullIdx := dictOf (fun o => (s.obj o).name) (indexPairs uniq sizes) }

/-- One visit of `update_free_dof_size_indices` (L925-950), without the recursion into children. -/
def actFree (s : State V) (i : Nat) : State V :=
  let uniq := (s.obj i).uniq
  let sizes := uniq.map (localSize s)
  s.setObj i { s.obj i with
    freeSize := sizes.sum,
    freeIdx := dictOf (fun o => (s.obj o).name) (indexPairs uniq sizes) }

/-- One visit of `set_recompute_flag` (L1112-1114): `new_x = True` and `recompute_bell(...)`; the latter is
    recorded by a counter, its effects in subclasses are modelled in `Verif.Caches`. -/
def actFlag (s : State V) (i : Nat) : State V :=
  s.setObj i { s.obj i with newX := true, bells := (s.obj i).bells + 1 }

/-- Children visited by the recursions: `for weakref_child in self._children` with dead ones skipped
    (L952-955, L987-990, L1117-1120). -/
def kids (s : State V) (i : Nat) : List Nat := (s.obj i).children.filter (fun c => s.alive c)

/-- The common shape of the three recursions: visit `i`, then recurse into the live children.
    `none` is `RecursionError`. -/
def walk (act : State V → Nat → State V) : Nat → Nat → State V → Option (State V)
  | 0, _, _ => none
  | n + 1, i, s => (kids (act s i) i).foldlM (fun s c => walk act n c s) (act s i)

/-- Run one of the recursions as an action. -/
def walkM (cfg : Cfg V) (act : State V → Nat → State V) (i : Nat) : M V Unit := fun s =>
  match walk act cfg.limit i s with
  | some s' => .ok () s'
  | none => .error .recursionError s

/-- run `f` on each element, in order -/
def forEach {α : Type} : List α → (α → M V Unit) → M V Unit
  | [], _ => pure ()
  | a :: l, f => do f a; forEach l f

/-- a method of the DOFs object number `d` -/
def onDofs {α : Type} (d : Nat) (m : Dofs.M V α) : M V α := fun s =>
  match m (s.dof d) with
  | .ok a r => .ok a { s with dof := upd s.dof d r }
  | .error e r => .error e { s with dof := upd s.dof d r }

/-- `DOFs.add_opt` (L132-138). -/
def addOpt (d i : Nat) : M V Unit := modify fun s =>
  if (s.deps d).any (fun o => s.alive o && s.eqv o i) then s
  else { s with deps := upd s.deps d (s.deps d ++ [i]) }

/-- remove the first element satisfying `p` -/
def removeFirst {α : Type} (p : α → Bool) : List α → List α
  | [] => []
  | a :: l => if p a then l else a :: removeFirst p l

/-- `DOFs.remove_opt` (L140-143). -/
def removeOpt (d i : Nat) : M V Unit := modify fun s =>
  { s with deps := upd s.deps d (removeFirst (fun o => s.alive o && s.eqv o i) (s.deps d)) }

/-- `DOFs._flag_recompute_opt` (L154-165). -/
def flagDofs (cfg : Cfg V) (d : Nat) : M V Unit := do
  let s ← get
  forEach (s.deps d) fun o => do
    let s ← get
    if s.alive o then
      if (s.obj o).setter then set (s.setObj o { s.obj o with ext := (s.dof d).x })
      walkM cfg actFlag o

/-- `DOFs._update_opt_indices` (L167-175). -/
def updateOptIndices (cfg : Cfg V) (d : Nat) : M V Unit := do
  let s ← get
  forEach (s.deps d) fun o => do
    let s ← get
    if s.alive o then walkM cfg actFree o

/-- `Optimizable._add_child` (L824-836). -/
def addChild (cfg : Cfg V) (p c : Nat) : M V Unit := modify fun s =>
  if (s.obj p).children.any (fun k => s.alive k && s.eqv k c) then s
  else
    { s with
      obj := upd s.obj p { s.obj p with children := cfg.shuffle s.tick ((s.obj p).children ++ [c]) }
      tick := s.tick + 1 }

/-- `Optimizable._remove_child` (L838-848): `set.remove` raises `KeyError` if absent. -/
def removeChild (cfg : Cfg V) (p c : Nat) : M V Unit := do
  let s ← get
  if (s.obj p).children.any (fun k => s.alive k && s.eqv k c) then
    set { s with
      obj := upd s.obj p { s.obj p with
        children := cfg.shuffle s.tick
          (removeFirst (fun k => s.alive k && s.eqv k c) (s.obj p).children) }
      tick := s.tick + 1 }
  else throw .keyError

/-- `self._update_full_dof_size_indices(); self.update_free_dof_size_indices(); self.set_recompute_flag()`,
    the tail shared by L685-690, L706-708, L862-864, L889-891, L903-905. -/
def refresh (cfg : Cfg V) (i : Nat) : M V Unit := do
  walkM cfg actFull i
  walkM cfg actFree i
  walkM cfg actFlag i

/-- Arguments of `DOFs(...)`. -/
structure DofArgs (V : Type) where
  x : Option (List V) := none
  names : Option (List String) := none
  free : Option (List Bool) := none
  lb : Option (List V) := none
  ub : Option (List V) := none

/-- `DOFs(...)` (L77-127): a new DOFs object with no dependents. -/
def newDofs (cfg : Cfg V) (a : DofArgs V) : M V Nat := do
  let s ← get
  match Dofs.init cfg.ninf cfg.pinf a.x a.names a.free a.lb a.ub with
  | .ok d =>
    set { s with ndof := s.ndof + 1, dof := upd s.dof s.ndof d, deps := upd s.deps s.ndof [] }
    pure s.ndof
  | .error e => throw e

/-- The DOFs argument of a constructor: `dofs=` or the pieces of a fresh one. -/
inductive DofSource (V : Type) where
  | shared (d : Nat)
  | fresh (a : DofArgs V)

/-- `Optimizable.__init__` (L625-695).  `dedup = true` is the `funcs_in` branch (L675-681), where
    parents go through `dict.fromkeys`; `dedup = false` is the `depends_on` branch (L659-674), where they do not.
    Simplification: with a fresh DOFs and an external setter the subclass has itself just loaded the
    same `x0`, so `ext` starts equal to `x`. -/
def new (cfg : Cfg V) (cls : Nat) (src : DofSource V) (setter : Bool) (depends : List Nat) (dedup : Bool) :
    M V Nat := do
  let d ← match src with
    | .shared d => pure d
    | .fresh a => newDofs cfg a
  let s ← get
  let i := s.nobj
  let num := s.ids cls + 1
  let parents := if dedup then dedupOn (fun a => (s.obj a).name) depends else depends
  set { s with
    nobj := i + 1
    alive := upd s.alive i true
    ids := upd s.ids cls num
    obj := upd s.obj i { (blankObj : Obj V) with
      cls := cls, num := num, name := cfg.cname cls ++ toString num, dofs := d, setter := setter,
      parents := parents, ext := if setter then (s.dof d).x else [] } }
  forEach parents fun p => addChild cfg p i
  refresh cfg i
  addOpt d i
  pure i

/-- `Optimizable.replace_dofs` (L697-709). -/
def replaceDofs (cfg : Cfg V) (i d : Nat) : M V Unit := do
  let s ← get
  removeOpt (s.obj i).dofs i
  modify fun s => s.setObj i { s.obj i with dofs := d }
  refresh cfg i
  addOpt d i

/-- `list.insert(index, x)`: out-of-range indices are clipped. -/
def pyInsert {α : Type} (l : List α) (idx : Int) (a : α) : List α :=
  let k : Nat := if 0 ≤ idx then min idx.toNat l.length else (idx + l.length).toNat
  l.take k ++ a :: l.drop k

/-- `Optimizable.add_parent` (L850-865). -/
def addParent (cfg : Cfg V) (i : Nat) (idx : Int) (p : Nat) : M V Unit := do
  let s ← get
  if (s.obj i).parents.any (fun q => s.eqv q p) then pure ()
  else
    set (s.setObj i { s.obj i with parents := pyInsert (s.obj i).parents idx p })
    addChild cfg p i
    refresh cfg i

/-- `Optimizable.append_parent` (L867-874). -/
def appendParent (cfg : Cfg V) (i p : Nat) : M V Unit := do
  let s ← get
  addParent cfg i (s.obj i).parents.length p

/-- `Optimizable.pop_parent` (L876-892). -/
def popParent (cfg : Cfg V) (i : Nat) (idx : Int) : M V Nat := do
  let s ← get
  match pyIndex (s.obj i).parents.length idx with
  | .error e => throw e
  | .ok k =>
    match (s.obj i).parents[k]? with
    | none => throw .indexError
    | some p =>
      set (s.setObj i { s.obj i with parents := (s.obj i).parents.eraseIdx k })
      removeChild cfg p i
      refresh cfg i
      pure p

/-- `Optimizable.remove_parent` (L894-905): `list.remove` raises `ValueError` if absent. -/
def removeParent (cfg : Cfg V) (i p : Nat) : M V Unit := do
  let s ← get
  if (s.obj i).parents.any (fun q => s.eqv q p) then
    set (s.setObj i { s.obj i with parents := removeFirst (fun q => s.eqv q p) (s.obj i).parents })
    removeChild cfg p i
    refresh cfg i
  else throw .valueError

/-! ### dof values -/

/-- `Optimizable.x` getter (L1038-1045): `np.concatenate` over the lineage. -/
def getX (s : State V) (i : Nat) : List V :=
  (s.obj i).uniq.flatMap fun o => (s.dof (s.obj o).dofs).freeX

/-- `Optimizable.full_x` getter (L1054-1061). -/
def getFullX (s : State V) (i : Nat) : List V :=
  (s.obj i).uniq.flatMap fun o => (s.dof (s.obj o).dofs).fullX

/-- `local_x` setter (L1079-1086). -/
def setLocalX (cfg : Cfg V) (i : Nat) (v : List V) : M V Unit := do
  let s ← get
  if localSize s i ≠ v.length then throw .valueError
  onDofs (s.obj i).dofs (Dofs.setFreeX v)
  flagDofs cfg (s.obj i).dofs

/-- `local_full_x` setter (L1103-1110). -/
def setLocalFullX (cfg : Cfg V) (i : Nat) (v : List V) : M V Unit := do
  let s ← get
  onDofs (s.obj i).dofs (Dofs.setFullX v)
  flagDofs cfg (s.obj i).dofs

/-- `list(self.dof_indices.values())[-1][-1]`; the dict is never empty. -/
def lastIndex (idx : List (Nat × (Nat × Nat))) : Except Err Nat :=
  match idx.getLast? with
  | some e => .ok e.2.2
  | none => .error .indexError

/-- `x` setter (L1047-1052). -/
def setX (cfg : Cfg V) (i : Nat) (v : List V) : M V Unit := do
  let s ← get
  match lastIndex (s.obj i).freeIdx with
  | .error e => throw e
  | .ok n =>
    if n ≠ v.length then throw .valueError
    forEach (s.obj i).freeIdx fun e => setLocalX cfg e.1 (pySlice v e.2.1 e.2.2)

/-- `full_x` setter (L1063-1069): no length check before the first assignment. -/
def setFullX (cfg : Cfg V) (i : Nat) (v : List V) : M V Unit := do
  let s ← get
  forEach (s.obj i).fullIdx fun e => setLocalFullX cfg e.1 (pySlice v e.2.1 e.2.2)

/-- `Optimizable.set` (L1132-1141). -/
def setKey (cfg : Cfg V) (i : Nat) (k : Key) (v : V) : M V Unit := do
  let s ← get
  onDofs (s.obj i).dofs (Dofs.setKey k v)
  flagDofs cfg (s.obj i).dofs

/-- `Optimizable.get` (L1122-1130). -/
def getKey (i : Nat) (k : Key) : M V V := do
  let s ← get
  onDofs (s.obj i).dofs (Dofs.getKey k)

/-! ### free / fixed -/

/-- `Optimizable.fix` (L1421-1431). -/
def fix (cfg : Cfg V) (i : Nat) (k : Key) : M V Unit := do
  let s ← get
  onDofs (s.obj i).dofs (Dofs.fix k)
  updateOptIndices cfg (s.obj i).dofs
  walkM cfg actFree i

/-- `Optimizable.unfix` (L1433-1441). -/
def unfix (cfg : Cfg V) (i : Nat) (k : Key) : M V Unit := do
  let s ← get
  onDofs (s.obj i).dofs (Dofs.unfix k)
  updateOptIndices cfg (s.obj i).dofs
  walkM cfg actFree i

/-- `Optimizable.local_fix_all` (L1471-1477). -/
def localFixAll (cfg : Cfg V) (i : Nat) : M V Unit := do
  let s ← get
  onDofs (s.obj i).dofs Dofs.fixAll
  updateOptIndices cfg (s.obj i).dofs
  walkM cfg actFree i

/-- `Optimizable.local_unfix_all` (L1487-1493). -/
def localUnfixAll (cfg : Cfg V) (i : Nat) : M V Unit := do
  let s ← get
  onDofs (s.obj i).dofs Dofs.unfixAll
  updateOptIndices cfg (s.obj i).dofs
  walkM cfg actFree i

/-- `Optimizable.fix_all` (L1479-1485). -/
def fixAll (cfg : Cfg V) (i : Nat) : M V Unit := do
  let s ← get
  forEach (s.obj i).uniq fun o => localFixAll cfg o

/-- `Optimizable.unfix_all` (L1495-1501). -/
def unfixAll (cfg : Cfg V) (i : Nat) : M V Unit := do
  let s ← get
  forEach (s.obj i).uniq fun o => localUnfixAll cfg o

/-- `Optimizable.full_fix` (L1443-1455). -/
def fullFix (cfg : Cfg V) (i : Nat) (arr : List Bool) : M V Unit := do
  let s ← get
  forEach (s.obj i).fullIdx fun e => do
    let s ← get
    onDofs (s.obj e.1).dofs (Dofs.assignFree ((pySlice arr e.2.1 e.2.2).map (!·)))
    updateOptIndices cfg (s.obj e.1).dofs

/-- `Optimizable.full_unfix` (L1457-1469). -/
def fullUnfix (cfg : Cfg V) (i : Nat) (arr : List Bool) : M V Unit := do
  let s ← get
  forEach (s.obj i).fullIdx fun e => do
    let s ← get
    onDofs (s.obj e.1).dofs (Dofs.assignFree (pySlice arr e.2.1 e.2.2))
    updateOptIndices cfg (s.obj e.1).dofs

/-- `dofs_free_status` (L1386-1393). -/
def freeStatus (s : State V) (i : Nat) : List Bool :=
  (s.obj i).uniq.flatMap fun o => (s.dof (s.obj o).dofs).free

/-- `dof_names` (L1348-1357). -/
def dofNames (s : State V) (i : Nat) : List String :=
  (s.obj i).uniq.flatMap fun o => (s.dof (s.obj o).dofs).freeNames.map fun n => (s.obj o).name ++ ":" ++ n

/-- `full_dof_names` (L1359-1368). -/
def fullDofNames (s : State V) (i : Nat) : List String :=
  (s.obj i).uniq.flatMap fun o => (s.dof (s.obj o).dofs).fullNames.map fun n => (s.obj o).name ++ ":" ++ n

/-! ### bounds -/

/-- `lower_bounds` getter (L1205-1211). -/
def getLb (s : State V) (i : Nat) : List V :=
  (s.obj i).uniq.flatMap fun o => (s.dof (s.obj o).dofs).freeLb
/-- `upper_bounds` getter (L1286-1292). -/
def getUb (s : State V) (i : Nat) : List V :=
  (s.obj i).uniq.flatMap fun o => (s.dof (s.obj o).dofs).freeUb
/-- `full_lower_bounds` getter (L1186-1192). -/
def getFullLb (s : State V) (i : Nat) : List V :=
  (s.obj i).uniq.flatMap fun o => (s.dof (s.obj o).dofs).lb
/-- `full_upper_bounds` getter (L1267-1273). -/
def getFullUb (s : State V) (i : Nat) : List V :=
  (s.obj i).uniq.flatMap fun o => (s.dof (s.obj o).dofs).ub

/-- The four lineage-wide bound setters (L1194-1203, L1213-1222, L1275-1284, L1294-1303) share this body; `m` is the
    setter of the DOFs object.  Note that the *full* setters also go through `dof_indices` (free sizes). -/
def setBoundsWith (m : List V → Dofs.M V Unit) (i : Nat) (v : List V) : M V Unit := do
  let s ← get
  match lastIndex (s.obj i).freeIdx with
  | .error e => throw e
  | .ok n =>
    if n ≠ v.length then throw .valueError
    forEach (s.obj i).freeIdx fun e => do
      let s ← get
      onDofs (s.obj e.1).dofs (m (pySlice v e.2.1 e.2.2))

def setLb (i : Nat) (v : List V) : M V Unit := setBoundsWith Dofs.setFreeLb i v
def setUb (i : Nat) (v : List V) : M V Unit := setBoundsWith Dofs.setFreeUb i v
def setFullLb (i : Nat) (v : List V) : M V Unit := setBoundsWith Dofs.setFullLb i v
def setFullUb (i : Nat) (v : List V) : M V Unit := setBoundsWith Dofs.setFullUb i v

/-- `local_lower_bounds` setter (L1243-1249) and its three siblings, `set_lower_bound`, `set_upper_bound`
    (L1224-1233, L1305-1314): one call on the local DOFs object. -/
def onLocalDofs (i : Nat) (m : Dofs.M V Unit) : M V Unit := do
  let s ← get
  onDofs (s.obj i).dofs m

/-- Garbage collection of an object that is not a parent of a live object (children hold
    strong references to their parents, parents hold weak references to children). -/
def gc (i : Nat) : M V Unit := modify fun s =>
  if (List.range s.nobj).any (fun c => s.alive c && (s.obj c).parents.contains i) then s
  else { s with alive := upd s.alive i false }

/-- `self.new_x = False`, executed by subclasses when an evaluation has been cached (least_squares.py L175, L180,
    constrained.py L164, L169, L204, surfacegarabedian.py L225). -/
def clearNewX (i : Nat) : M V Unit := modify fun s => s.setObj i { s.obj i with newX := false }

/-! ### operations -/

/-- Which bound array, and which call. -/
inductive BoundOp (V : Type) where
  | lb (v : List V) | ub (v : List V) | fullLb (v : List V) | fullUb (v : List V)
  | localLb (v : List V) | localUb (v : List V) | localFullLb (v : List V) | localFullUb (v : List V)
  | lbKey (k : Key) (v : V) | ubKey (k : Key) (v : V)

/-- API calls. -/
inductive Op (V : Type) where
  | newDofs (a : DofArgs V)
  | new (cls : Nat) (src : DofSource V) (setter : Bool) (depends : List Nat) (dedup : Bool)
  | replaceDofs (i d : Nat)
  | addParent (i : Nat) (idx : Int) (p : Nat)
  | appendParent (i p : Nat)
  | popParent (i : Nat) (idx : Int)
  | removeParent (i p : Nat)
  | setX (i : Nat) (v : List V)
  | setFullX (i : Nat) (v : List V)
  | setLocalX (i : Nat) (v : List V)
  | setLocalFullX (i : Nat) (v : List V)
  | setKey (i : Nat) (k : Key) (v : V)
  | fix (i : Nat) (k : Key)
  | unfix (i : Nat) (k : Key)
  | localFixAll (i : Nat)
  | localUnfixAll (i : Nat)
  | fixAll (i : Nat)
  | unfixAll (i : Nat)
  | fullFix (i : Nat) (arr : List Bool)
  | fullUnfix (i : Nat) (arr : List Bool)
  | bounds (i : Nat) (b : BoundOp V)
  | gc (i : Nat)
  | clearNewX (i : Nat)

def execBound (i : Nat) : BoundOp V → M V Unit
  | .lb v => setLb i v
  | .ub v => setUb i v
  | .fullLb v => setFullLb i v
  | .fullUb v => setFullUb i v
  | .localLb v => onLocalDofs i (Dofs.setFreeLb v)
  | .localUb v => onLocalDofs i (Dofs.setFreeUb v)
  | .localFullLb v => onLocalDofs i (Dofs.setFullLb v)
  | .localFullUb v => onLocalDofs i (Dofs.setFullUb v)
  | .lbKey k v => onLocalDofs i (Dofs.updateLb k v)
  | .ubKey k v => onLocalDofs i (Dofs.updateUb k v)

def exec (cfg : Cfg V) : Op V → M V Unit
  | .newDofs a => do discard (newDofs cfg a)
  | .new cls src setter depends dedup => do discard (new cfg cls src setter depends dedup)
  | .replaceDofs i d => replaceDofs cfg i d
  | .addParent i idx p => addParent cfg i idx p
  | .appendParent i p => appendParent cfg i p
  | .popParent i idx => do discard (popParent cfg i idx)
  | .removeParent i p => removeParent cfg i p
  | .setX i v => setX cfg i v
  | .setFullX i v => setFullX cfg i v
  | .setLocalX i v => setLocalX cfg i v
  | .setLocalFullX i v => setLocalFullX cfg i v
  | .setKey i k v => setKey cfg i k v
  | .fix i k => fix cfg i k
  | .unfix i k => unfix cfg i k
  | .localFixAll i => localFixAll cfg i
  | .localUnfixAll i => localUnfixAll cfg i
  | .fixAll i => fixAll cfg i
  | .unfixAll i => unfixAll cfg i
  | .fullFix i arr => fullFix cfg i arr
  | .fullUnfix i arr => fullUnfix cfg i arr
  | .bounds i b => execBound i b
  | .gc i => gc i
  | .clearNewX i => clearNewX i

end Simsopt.Graph
