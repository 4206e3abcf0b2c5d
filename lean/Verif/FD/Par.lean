import Verif.FD.Model
/-!
# Model of `MPIFiniteDifference` (finite_difference.py L117-390): what every process computes

Each process has its own copy of the `Optimizable`; what matters of it is its full dof vector, `full_x`, and the (common) mask of free dofs.  A worker group
is the list of the `full_x` of its members, leader first; the groups are listed in the order of `rank_leaders`, so the first member of the first group is
`proc0_world`.  The order and matching of the collective calls is the subject of C25 (`Verif.Mpi`); here the broadcasts deliver the root's value and the
reduction adds.  The user's function is a function of the states of all the members of the group that evaluates it (it may itself use the group's
communicator); its value on the leader is what enters the Jacobian.  Exceptions in it: see C25.
-/
namespace Simsopt.FD
open Simsopt Simsopt.Util

/-- full dof vectors of the members of a group, leader first -/
abbrev Group := List (List ℝ)

/-- `opt.x = x` on one process, for `x` of the right length -/
def setFree (mask : List Bool) (x : List ℝ) (full : List ℝ) : List ℝ := scatter mask full x

/-- One evaluation by a group at `x` (L253-258 on the leader, L322-338 on its workers): every member sets `opt.x = x`, then `fn()`. -/
def groupEval (f : Group → List ℝ) (mask : List Bool) (grp : Group) (x : List ℝ) : List ℝ × Group :=
  (f (grp.map (setFree mask x)), grp.map (setFree mask x))

/-- Columns of `xs` (L221-238). -/
noncomputable def trialPoints (centered : Bool) (x0 steps : List ℝ) : List (List ℝ) :=
  if centered then
    (List.range x0.length).flatMap fun j =>
      [x0.set j (x0.getD j 0 + steps.getD j 0), x0.set j (x0.getD j 0 - steps.getD j 0)]
  else
    x0 :: (List.range x0.length).map fun j => x0.set j (x0.getD j 0 + steps.getD j 0)

/-- The loop `for j in range(nevals_jac)` on the leader of group `g` (L250-265), from index `j` on: columns of its `evals` (zero where it is not its turn).
    `evals[:, j] = out` raises if `out` does not have `m` entries (a single entry is broadcast). -/
def runGroup (f : Group → List ℝ) (mask : List Bool) (m ngroups g : Nat) : Nat → List (List ℝ) → Group → Except Err (List (List ℝ))
  | _, [], _ => .ok []
  | j, p :: ps, grp =>
    if j % ngroups = g then do
      let r := groupEval f mask grp p
      let col ← if r.1.length = m then .ok r.1 else if r.1.length = 1 then .ok (List.replicate m (r.1.headD 0)) else .error .valueError
      let rest ← runGroup f mask m ngroups g (j + 1) ps r.2
      .ok (col :: rest)
    else do
      let rest ← runGroup f mask m ngroups g (j + 1) ps grp
      .ok (List.replicate m 0 :: rest)

/-- sum of two matrices given by columns -/
noncomputable def addMat (a b : List (List ℝ)) : List (List ℝ) := List.zipWith (List.zipWith (· + ·)) a b

/-- `comm_leaders.reduce(evals, op=SUM, root=0)` (L268) -/
noncomputable def reduceSum : List (List (List ℝ)) → List (List ℝ)
  | [] => []
  | [a] => a
  | a :: l => addMat a (reduceSum l)

/-- the runs of all leaders, `rank_leaders = g, g+1, ...` -/
def runAll (f : Group → List ℝ) (mask : List Bool) (m ngroups : Nat) (pts : List (List ℝ)) : Nat → List Group → Except Err (List (List (List ℝ)))
  | _, [] => .ok []
  | g, grp :: rest => do
    let a ← runGroup f mask m ngroups g 0 pts grp
    let r ← runAll f mask m ngroups pts (g + 1) rest
    .ok (a :: r)

/-- Jacobian from the evaluations (L277-287), as list of columns. -/
noncomputable def assemble (centered : Bool) (n : Nat) (steps : List ℝ) (evals : List (List ℝ)) : List (List ℝ) :=
  (List.range n).map fun j =>
    if centered then (List.zipWith (· - ·) (evals.getD (2 * j) []) (evals.getD (2 * j + 1) [])).map (· / (2 * steps.getD j 0))
    else (List.zipWith (· - ·) (evals.getD (j + 1) []) (evals.getD 0 [])).map (· / steps.getD j 0)

/-- replace the leader's state -/
def setLeader (full : List ℝ) : Group → Group
  | [] => []
  | _ :: ws => full :: ws

/-- `MPIFiniteDifference.jac(x)` called on `proc0_world` with an explicit `x` (as scipy does), cache not hit (L340-366), together with `_jac` on all leaders
    (L193-290): value returned on `proc0_world`. -/
noncomputable def parJac (f : Group → List ℝ) (mask : List Bool) (absStep relStep : ℝ) (centered : Bool) (jacSize : Option (Nat × Nat)) (x : List ℝ)
    (groups : List Group) : Except Err (List (List ℝ)) :=
  match groups with
  | [] => .error .runtimeError
  | g0 :: others =>
    if x.length ≠ countTrue mask then .error .valueError else
    -- first evaluation, in the group of proc0, to learn the output size (L349-361)
    let (sz, g0) := match jacSize with
      | some p => (p, g0)
      | none => let r := groupEval f mask g0 x; ((r.1.length, x.length), r.2)
    -- broadcast of full_x to the leaders (L363-366, L310-314)
    let full := g0.headD []
    let others := others.map (setLeader full)
    -- `opt.x = x` on proc0 (L202-203), `x0 = np.copy(opt.x)` broadcast (L207-210)
    let g0 := setLeader (setFree mask x full) g0
    let x0 := gather mask (g0.headD [])
    match finiteDifferenceSteps id x0 absStep relStep with
    | .error e => .error e
    | .ok steps =>
      match runAll f mask sz.1 (others.length + 1) (trialPoints centered x0 steps) 0 (g0 :: others) with
      | .error e => .error e
      | .ok evals => .ok (assemble centered sz.2 steps (reduceSum evals))

/-! ### The cache in front of it -/

/-- The fields used by the cache: `x_cache` holds the caller's array itself (a reference into the heap), `jac_cache`, and whether `jac_size` is known. -/
structure JCache where
  xCache : Option Nat
  jacCache : Option (List (List ℝ))
  sizeKnown : Bool

/-- `np.all(x == self.x_cache)` for arrays of equal, non-zero length (or `None`) (L344); the arrays are compared by present content. -/
noncomputable def cacheHit (heap : Nat → List ℝ) (x : Option Nat) (xc : Option Nat) : Bool :=
  open Classical in
  match x, xc with
  | none, none => true
  | some r, some r' => decide (heap r = heap r')
  | _, _ => false

/-- `MPIFiniteDifference.jac` (L340-390) around the computation: `compute none` is `_jac(None)` (at the current `opt.x`), `compute (some v)` is at `v`.
    `selfX0` is the array stored as `self.x0`; log-file writing is left out. -/
noncomputable def jacCached (compute : Option (List ℝ) → List (List ℝ)) (heap : Nat → List ℝ) (selfX0 : Nat) (x : Option Nat) (c : JCache) : List (List ℝ) × JCache :=
  match cacheHit heap x c.xCache, c.jacCache with
  | true, some J => (J, c)
  | _, _ =>
    let x := if c.sizeKnown then x else match x with | none => some selfX0 | some r => some r
    let J := compute (x.map heap)
    (J, { xCache := x, jacCache := some J, sizeKnown := true })

/-- The values returned by a sequence of calls `jac(x_1), jac(x_2), ...` with explicit arrays. -/
noncomputable def jacSeq (compute : Option (List ℝ) → List (List ℝ)) (heap : Nat → List ℝ) (selfX0 : Nat) : JCache → List Nat → List (List (List ℝ))
  | _, [] => []
  | c, r :: rs => (jacCached compute heap selfX0 (some r) c).1 :: jacSeq compute heap selfX0 (jacCached compute heap selfX0 (some r) c).2 rs

end Simsopt.FD
