import Verif.PyList
/-!
# Model of class `DOFs` (simsopt/_core/optimizable.py L53-509)

One `DOFs` object, without its list of dependent Optimizables (that part is in
`Verif.Graph.Model`).  Every method is an `EStateM` action on the record: on an exception the
state reached *so far* is kept, as in Python, so "nothing changed" is a theorem and not
a consequence of the encoding.

`V` is the type of dof values (`np.double`); nothing is assumed about it, so the
theorems cover floats, including NaN and infinities.
-/

namespace Simsopt

/-- `Key` (simsopt/_core/types.py): a dof name or an integer index. -/
inductive Key where
  | name (s : String)
  | idx (i : Int)
  deriving DecidableEq, Repr

/-- optimizable.py L74 `__slots__`: `_x, _free, _lower_bounds, _upper_bounds, _names`.
    (`_dep_opts` is modelled in the graph.) -/
structure Dofs (V : Type) where
  names : List String
  x : List V
  free : List Bool
  lb : List V
  ub : List V
  deriving DecidableEq, Repr

namespace Dofs
variable {V : Type}

/-- A method of `DOFs`: raises `Err`, or returns `α`; the state survives an exception. -/
abbrev M (V α : Type) := EStateM Err (Dofs V) α

/-- Default dof names `x0, x1, ...` (optimizable.py L99-100). -/
def defaultNames (n : Nat) : List String := (List.range n).map (fun i => s!"x{i}")

/-- `DOFs.__init__` (optimizable.py L77-127).  `ninf`, `pinf` stand for `-np.inf`, `np.inf`.
    `None` arguments are `Option.none`.  The uniqueness test `len(np.unique(names)) == len(names)` is
    modelled by `names.Nodup`. -/
def init (ninf pinf : V) (x : Option (List V)) (names : Option (List String))
    (free : Option (List Bool)) (lb ub : Option (List V)) : Except Err (Dofs V) :=
  let x := x.getD []
  let names := names.getD (defaultNames x.length)
  if names.Nodup then
    let free := free.getD (List.replicate x.length true)
    let lb := lb.getD (List.replicate x.length ninf)
    let ub := ub.getD (List.replicate x.length pinf)
    if x.length = free.length ∧ free.length = lb.length ∧ lb.length = ub.length
        ∧ ub.length = names.length then
      .ok { names, x, free, lb, ub }
    else .error .assertionError
  else .error .assertionError

/-- `if isinstance(key, str): key = self._names.index(key)` followed by the NumPy subscript
    (optimizable.py L187-189 and the other keyed methods). -/
def resolve (d : Dofs V) : Key → Except Err Nat
  | .name s => match pyListIndex d.names s with
    | .ok i => pyIndex d.free.length i
    | .error e => .error e
  | .idx i => pyIndex d.free.length i

/-- Raise or continue. -/
def liftE {α : Type} (e : Except Err α) : M V α := fun s =>
  match e with
  | .ok a => .ok a s
  | .error e => .error e s

/-- `DOFs.__len__` (L177-178). -/
def len (d : Dofs V) : Nat := d.free.length

/-- `DOFs.reduced_len` (L352-362): `len(self._free[self._free])`. -/
def reducedLen (d : Dofs V) : Nat := (gather d.free d.free).length

/-- `DOFs.fix` (L180-190). -/
def fix (k : Key) : M V Unit := do
  let d ← get
  let i ← liftE (d.resolve k)
  set { d with free := d.free.set i false }

/-- `DOFs.unfix` (L192-202). -/
def unfix (k : Key) : M V Unit := do
  let d ← get
  let i ← liftE (d.resolve k)
  set { d with free := d.free.set i true }

/-- `DOFs.fix_all` (L267-272): `self._free.fill(False)`. -/
def fixAll : M V Unit := do
  let d ← get
  set { d with free := List.replicate d.free.length false }

/-- `DOFs.unfix_all` (L274-280). -/
def unfixAll : M V Unit := do
  let d ← get
  set { d with free := List.replicate d.free.length true }

/-- `DOFs.all_free` (L204-211). -/
def allFree (d : Dofs V) : Bool := d.free.all id
/-- `DOFs.all_fixed` (L213-220). -/
def allFixed (d : Dofs V) : Bool := !(d.free.any id)
/-- `DOFs.any_free` (L282-289). -/
def anyFree (d : Dofs V) : Bool := d.free.any id
/-- `DOFs.any_fixed` (L291-298). -/
def anyFixed (d : Dofs V) : Bool := !(d.free.all id)

/-- `DOFs.get` (L226-238). -/
def getKey (k : Key) : M V V := do
  let d ← get
  let i ← liftE (d.resolve k)
  match d.x[i]? with
  | some v => pure v
  | none => throw .indexError

/-- `DOFs.set` (L240-252). -/
def setKey (k : Key) (v : V) : M V Unit := do
  let d ← get
  let i ← liftE (d.resolve k)
  set { d with x := d.x.set i v }

/-- `DOFs.is_free` (L254-265). -/
def isFree (k : Key) : M V Bool := do
  let d ← get
  let i ← liftE (d.resolve k)
  match d.free[i]? with
  | some b => pure b
  | none => throw .indexError

/-- `DOFs.free_x` getter (L300-307). -/
def freeX (d : Dofs V) : List V := gather d.free d.x

/-- `DOFs.free_x` setter (L309-324): length check, then masked assignment. -/
def setFreeX (v : List V) : M V Unit := do
  let d ← get
  if d.reducedLen ≠ v.length then throw .dofLengthMismatch
  set { d with x := scatter d.free d.x v }

/-- `DOFs.full_x` getter (L326-334). -/
def fullX (d : Dofs V) : List V := d.x

/-- `DOFs.full_x` setter (L336-350).  (That the new array is the caller's own buffer is modelled
    separately in `Verif.Alias`.) -/
def setFullX (v : List V) : M V Unit := do
  let d ← get
  if d.x.length ≠ v.length then throw .dofLengthMismatch
  set { d with x := v }

/-- `DOFs.free_lower_bounds` getter (L364-372). -/
def freeLb (d : Dofs V) : List V := gather d.free d.lb
/-- `DOFs.free_upper_bounds` getter (L403-410). -/
def freeUb (d : Dofs V) : List V := gather d.free d.ub

/-- `DOFs.free_lower_bounds` setter (L374-385). -/
def setFreeLb (v : List V) : M V Unit := do
  let d ← get
  if d.reducedLen ≠ v.length then throw .dofLengthMismatch
  set { d with lb := scatter d.free d.lb v }

/-- `DOFs.free_upper_bounds` setter (L412-423). -/
def setFreeUb (v : List V) : M V Unit := do
  let d ← get
  if d.reducedLen ≠ v.length then throw .dofLengthMismatch
  set { d with ub := scatter d.free d.ub v }

/-- `DOFs.full_lower_bounds` setter (L391-401).  The body reads `self.lower_bounds`, an
    attribute that `DOFs` does not have, so evaluation stops there with `AttributeError`. -/
def setFullLb (_v : List V) : M V Unit := throw .attributeError

/-- `DOFs.full_upper_bounds` setter (L429-439); reads the missing attribute `self.upper_bounds`. -/
def setFullUb (_v : List V) : M V Unit := throw .attributeError

/-- `DOFs.update_lower_bound` (L454-464). -/
def updateLb (k : Key) (v : V) : M V Unit := do
  let d ← get
  let i ← liftE (d.resolve k)
  set { d with lb := d.lb.set i v }

/-- `DOFs.update_upper_bound` (L466-476). -/
def updateUb (k : Key) (v : V) : M V Unit := do
  let d ← get
  let i ← liftE (d.resolve k)
  set { d with ub := d.ub.set i v }

/-- `DOFs.update_bounds` (L478-489). -/
def updateBounds (k : Key) (v : V × V) : M V Unit := do
  let d ← get
  let i ← liftE (d.resolve k)
  set { d with lb := d.lb.set i v.1, ub := d.ub.set i v.2 }

/-- `DOFs.free_names` (L491-505): the loop over `enumerate(free)`.  (The `lru_cache` lives in a function
    object created on each call, so it never carries anything over.) -/
def freeNames (d : Dofs V) : List String := gather d.free d.names

/-- `DOFs.full_names` (L507-509). -/
def fullNames (d : Dofs V) : List String := d.names

/-- `opt._dofs._free[:] = arr` as used by `Optimizable.full_fix` / `full_unfix` (L1453-1455, L1467-1469):
    NumPy slice assignment, which broadcasts a length-one right-hand side. -/
def assignFree (arr : List Bool) : M V Unit := do
  let d ← get
  if arr.length = d.free.length then set { d with free := arr }
  else match arr with
    | [b] => set { d with free := List.replicate d.free.length b }
    | _ => throw .valueError

/-- The length invariant asserted at the end of `__init__` (L118-119). -/
structure WF (d : Dofs V) : Prop where
  free_len : d.free.length = d.x.length
  lb_len : d.lb.length = d.x.length
  ub_len : d.ub.length = d.x.length
  names_len : d.names.length = d.x.length
  names_nodup : d.names.Nodup

end Dofs
end Simsopt
