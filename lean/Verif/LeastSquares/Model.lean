import Verif.Graph.Stable
import Mathlib.Algebra.Order.Field.Basic
/-!
# Model of `LeastSquaresProblem` (simsopt/objectives/least_squares.py)

A problem is an Optimizable of the graph model together with its own attributes.  Component functions are bound methods of
Optimizable objects; calling one reads the store and returns a number, an array, or raises.

Simplifications: outputs and goals are numbers or 1-d arrays of numbers of a field `R` (`Real` in the theorems that need square
roots); extra `*args, **kwargs` are not passed; component functions do not themselves change dofs.
-/
namespace Simsopt.LSq
open Simsopt
open Simsopt.Graph (State Cfg Obj Op)
variable {V R : Type}

/-- What a component function returns. -/
inductive Out (R : Type) where
  | scalar (r : R)
  | array (l : List R)

/-- `np.array([out]) if not np.ndim(out) else np.asarray(out)` (L164). -/
def Out.toArray : Out R → List R
  | .scalar r => [r]
  | .array l => l

/-- A method as stored in a class: called with the instance. -/
abbrev Method (V R : Type) := Nat → State V → Except Err (Out R)

/-- Entries of `opt_return_fns[i]`: a method object or the name of one (optimizable.py L610-619). -/
inductive RetFn (V R : Type) where
  | fn (m : Method V R)
  | name (s : String)

/-- Entries of `funcs_in`: a bound method, or `binder(fn, parent)` (optimizable.py L654-657). -/
structure Bound (V R : Type) where
  owner : Nat
  fn : RetFn V R

/-- Calling an entry of `funcs_in`; `binder` does not look names up, so a name is called as if it were a function: `TypeError`. -/
def Bound.call (f : Bound V R) (s : State V) : Except Err (Out R) :=
  match f.fn with
  | .fn m => m f.owner s
  | .name _ => .error .typeError

/-- Attributes of a `LeastSquaresProblem` (L61-81); `self` is its index in the store, `weights` and `cache` do not exist
    before the first evaluation. -/
structure Prob (V R : Type) where
  self : Nat
  goals : List R
  inpWeights : List R
  fail : Option R
  funcs : List (Bound V R)
  nvals : Nat := 0
  firstEval : Bool := true
  weights : Option (List R) := none
  cache : Option (List R) := none

structure World (V R : Type) where
  g : State V
  p : Prob V R

abbrev M (V R α : Type) := EStateM Err (World V R) α

/-- How the `for` loop of L153-170 ends: with its `else` branch, with `break`/`raise` after an `ObjectiveFailure`, or with another exception. -/
inductive LoopRes (R : Type) where
  | done (weights outputs : List R)
  | failed
  | raised (e : Err)

section
variable [Sub R]
/-- The loop of L153-170 from index `i` on, and the number of values that it adds to `nvals` when `first_eval` is set (L166-167). -/
def evalLoop (g : State V) (goals weights : List R) : Nat → List (Bound V R) → LoopRes R × Nat
  | _, [] => (.done [] [], 0)
  | i, f :: l =>
    match f.call g with
    | .error .objectiveFailure => (.failed, 0)
    | .error e => (.raised e, 0)
    | .ok out =>
      match goals[i]? with
      | none => (.raised .indexError, 0)
      | some goal =>
        let o := out.toArray.map (fun v => v - goal)
        match weights[i]? with
        | none => (.raised .indexError, o.length)
        | some wt =>
          match evalLoop g goals weights (i + 1) l with
          | (.done ws os, n) => (.done (List.replicate o.length wt ++ ws) (o ++ os), o.length + n)
          | (r, n) => (r, o.length + n)
end

/-- A method of the Optimizable part. -/
def liftG {α : Type} (m : Graph.M V α) : M V R α := fun w =>
  match m w.g with
  | .ok a g => .ok a { w with g := g }
  | .error e g => .error e { w with g := g }

def modifyP (f : Prob V R → Prob V R) : M V R Unit := modify fun w => { w with p := f w.p }

/-- `if x is not None: self.x = x` (L147-148). -/
def assignX (cfg : Cfg V) (x : Option (List V)) : M V R Unit := do
  match x with
  | none => pure ()
  | some v => do
    let w ← get
    liftG (Graph.setX cfg w.p.self v)

section
variable [Sub R]
/-- L150-183: evaluate if `new_x`, otherwise return the cache.  `np.concatenate` of no arrays raises `ValueError`, after
    `first_eval` and `weights` have been written. -/
def compute : M V R (List R) := do
  let w ← get
  if (w.g.obj w.p.self).newX then
    let r := evalLoop w.g w.p.goals w.p.inpWeights 0 w.p.funcs
    if w.p.firstEval then modifyP fun p => { p with nvals := p.nvals + r.2 }
    match r.1 with
    | .raised e => throw e
    | .failed =>
      if w.p.fail.isNone || w.p.firstEval then throw .objectiveFailure
      match w.p.fail with
      | none => throw .objectiveFailure
      | some v => do
        let c := List.replicate w.p.nvals v
        modifyP fun p => { p with cache := some c }
        liftG (Graph.clearNewX w.p.self)
        pure c
    | .done ws os => do
      modifyP fun p => { p with firstEval := false, weights := some ws }
      if w.p.funcs.isEmpty then throw .valueError
      modifyP fun p => { p with cache := some os }
      liftG (Graph.clearNewX w.p.self)
      pure os
  else
    match w.p.cache with
    | some c => pure c
    | none => throw .attributeError

/-- `unweighted_residuals(x)` (L138-183). -/
def unweighted (cfg : Cfg V) (x : Option (List V)) : M V R (List R) := do
  assignX cfg x
  compute
end

section
variable [Field R]

/-- NumPy `a * b` for 1-d arrays. -/
def npMul (a b : List R) : Except Err (List R) :=
  if a.length = b.length then .ok (List.zipWith (· * ·) a b)
  else match a, b with
    | [v], _ => .ok (b.map (fun u => v * u))
    | _, [v] => .ok (a.map (fun u => u * v))
    | _, _ => .error .valueError

/-- `residuals(x)` (L185-195). -/
def residuals (sqrt : R → R) (cfg : Cfg V) (x : Option (List V)) : M V R (List R) := do
  let u ← unweighted cfg x
  let w ← get
  match w.p.weights with
  | none => throw .attributeError
  | some ws =>
    match npMul u (ws.map sqrt) with
    | .ok r => pure r
    | .error e => throw e

/-- The accumulation of L209-211, from index `i` on. -/
def accum (ws : List R) : Nat → R → List R → Except Err R
  | _, s, [] => .ok s
  | i, s, v :: l =>
    match ws[i]? with
    | none => .error .indexError
    | some wt => accum ws (i + 1) (s + v * v * wt) l

/-- `objective(x)` (L197-214). -/
def objective (cfg : Cfg V) (x : Option (List V)) : M V R R := do
  let u ← unweighted cfg x
  let w ← get
  match w.p.weights with
  | none =>
    match u with
    | [] => pure 0
    | _ => throw .attributeError
  | some ws =>
    match accum ws 0 0 u with
    | .ok r => pure r
    | .error e => throw e

/-! ### construction -/

/-- A number or a sequence of numbers. -/
inductive NumArg (R : Type) where
  | num (r : R)
  | seq (l : List R)

/-- `if isinstance(a, Real): a = [a]` (L64-67). -/
def NumArg.toList : NumArg R → List R
  | .num r => [r]
  | .seq l => l

/-- `return_fns` of every object (optimizable.py L647): the methods that a child asked for, by (parent, child).  Keys are weak references
    compared by name; uniquely named live objects are assumed, so the index of the object is the key. -/
abbrev Registry (V R : Type) := Nat → Nat → List (Method V R)

def Registry.push (reg : Registry V R) (parent child : Nat) (m : Method V R) : Registry V R :=
  fun a b => if a = parent ∧ b = child then reg a b ++ [m] else reg a b

/-- `return_fn_map` of the class of each object, in order; empty also stands for `NotImplemented` (optimizable.py L573, L664-668). -/
abbrev FnMap (V R : Type) := Nat → List (String × Method V R)

/-- Attributes given to `Optimizable.__init__` by the constructor (L82-83) and by the two ways of naming functions. -/
inductive Source (V R : Type) where
  | funcs (l : List (Bound V R))
  | depends (parents : List Nat) (opt : List (List (RetFn V R)))

/-- `add_return_fn` (optimizable.py L756-770), registry part (`_add_child` is part of `Graph.new`). -/
def addReturnFn (fm : FnMap V R) (reg : Registry V R) (parent child : Nat) : RetFn V R → Except Err (Registry V R)
  | .fn m => .ok (reg.push parent child m)
  | .name s => match (fm parent).lookup s with
    | some m => .ok (reg.push parent child m)
    | none => .error .keyError

/-- the inner loop of optimizable.py L669-671 -/
def linkFns (fm : FnMap V R) (child parent : Nat) : List (RetFn V R) → Registry V R → Except Err (Registry V R × List (Bound V R))
  | [], reg => .ok (reg, [])
  | f :: l, reg => do
    let reg ← addReturnFn fm reg parent child f
    let (reg, fs) ← linkFns fm child parent l reg
    .ok (reg, ⟨parent, f⟩ :: fs)

/-- optimizable.py L663-667: the functions asked for of parent `i`; none given means all that the class of the parent offers -/
def fnsAt (fm : FnMap V R) (opt : List (List (RetFn V R))) (i parent : Nat) : Except Err (List (RetFn V R)) :=
  if opt.isEmpty then .ok ((fm parent).map (fun e => RetFn.fn e.2))
  else match opt[i]? with
    | none => .error .indexError
    | some l => .ok (if l.isEmpty then (fm parent).map (fun e => RetFn.fn e.2) else l)

/-- the outer loop of optimizable.py L661-671, from index `i` on -/
def linkDepends (fm : FnMap V R) (child : Nat) (opt : List (List (RetFn V R))) :
    Nat → List Nat → Registry V R → Except Err (Registry V R × List (Bound V R))
  | _, [], reg => .ok (reg, [])
  | i, parent :: ps, reg => do
    let fns ← fnsAt fm opt i parent
    let (reg, fs) ← linkFns fm child parent fns reg
    let (reg, fs') ← linkDepends fm child opt (i + 1) ps reg
    .ok (reg, fs ++ fs')

/-- optimizable.py L672-676: bound methods register themselves with their owners -/
def linkFuncs (child : Nat) : List (Bound V R) → Registry V R → Registry V R
  | [], reg => reg
  | f :: l, reg => linkFuncs child l (match f.fn with
      | .fn m => reg.push f.owner child m
      | .name _ => reg)

/-- `LeastSquaresProblem.__init__` (L54-83) on top of `Optimizable.__init__`: a new store with the problem as object `g.nobj`,
    the new registry and the new problem.  `cls` is the class number of LeastSquaresProblem. -/
def create [LinearOrder R] (cfg : Cfg V) (cls : Nat) (fm : FnMap V R) (reg : Registry V R) (g : State V)
    (goals weights : NumArg R) (src : Source V R) (fail : Option R) :
    Except Err (World V R × Registry V R) :=
  if weights.toList.any (fun w => decide (w < 0)) then .error .valueError
  else
    let mk (parents : List Nat) (dedup : Bool) (fs : List (Bound V R)) (reg : Registry V R) : Except Err (World V R × Registry V R) :=
      match Graph.new cfg cls (.fresh {}) false parents dedup g with
      | .error e _ => .error e
      | .ok i g' => .ok ({ g := g', p := { self := i, goals := goals.toList, inpWeights := weights.toList, fail := fail, funcs := fs } }, reg)
    match src with
    | .funcs l => mk (l.map (·.owner)) true l (linkFuncs g.nobj l reg)
    | .depends [] _ => mk [] true [] reg
    | .depends (p :: ps) opt =>
      match linkDepends fm g.nobj opt 0 (p :: ps) reg with
      | .error e => .error e
      | .ok (reg, fs) => mk (p :: ps) false fs reg

/-- `from_sigma` (L85-119). -/
def fromSigma [LinearOrder R] (cfg : Cfg V) (cls : Nat) (fm : FnMap V R) (reg : Registry V R) (g : State V)
    (goals sigma : NumArg R) (src : Source V R) (fail : Option R) : Except Err (World V R × Registry V R) :=
  if sigma.toList.any (fun v => decide (v = 0)) then .error .valueError
  else
    let weights : NumArg R := match sigma with
      | .num r => .num (1 / (r * r))
      | .seq l => .seq (l.map (fun r => 1 / (r * r)))
    create cfg cls fm reg g goals weights src fail

/-- `from_tuples` (L121-136): `zip(*[])` cannot be unpacked. -/
def fromTuples [LinearOrder R] (cfg : Cfg V) (cls : Nat) (fm : FnMap V R) (reg : Registry V R) (g : State V)
    (tuples : List (Bound V R × R × R)) (fail : Option R) : Except Err (World V R × Registry V R) :=
  match tuples with
  | [] => .error .valueError
  | _ => create cfg cls fm reg g (.seq (tuples.map (·.2.1))) (.seq (tuples.map (·.2.2))) (.funcs (tuples.map (·.1))) fail

/-- `get_parent_return_fns_list` (optimizable.py L797-807). -/
def parentFns (reg : Registry V R) (g : State V) (i : Nat) : List (List (RetFn V R)) :=
  (g.obj i).parents.map fun a => (reg a i).map RetFn.fn

/-- `__add__` (L218-227); both problems live in the store `g`.  `max(None, ...)` raises `TypeError`. -/
def add [LinearOrder R] (cfg : Cfg V) (cls : Nat) (fm : FnMap V R) (reg : Registry V R) (g : State V) (p q : Prob V R) :
    Except Err (World V R × Registry V R) :=
  match p.fail, q.fail with
  | some a, some b =>
    create cfg cls fm reg g (.seq (p.goals ++ q.goals)) (.seq (p.inpWeights ++ q.inpWeights))
      (.depends ((g.obj p.self).parents ++ (g.obj q.self).parents) (parentFns reg g p.self ++ parentFns reg g q.self))
      (some (max a b))
  | _, _ => .error .typeError

end
end Simsopt.LSq
