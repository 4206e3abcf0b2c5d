import Verif.PyList
import Mathlib.Data.Real.Basic
import Mathlib.Algebra.Order.Floor.Defs
import Mathlib.Data.Rat.Floor
/-!
# Model of the small utilities in simsopt/_core/util.py and of `MpiPartition.__init__` (simsopt/util/mpi.py)
-/
namespace Simsopt.Util
open Simsopt

/-- `parallel_loop_bounds(comm, n)` (util.py L284-299): `none` is `comm is None`, `some (rank, size)` a communicator.
    `idxs = [i*n//size for i in range(size+1)]` uses integer floor division; the two assertions are checked. -/
def parallelLoopBounds (comm : Option (Nat × Nat)) (n : Nat) : Except Err (Nat × Nat) :=
  match comm with
  | none => .ok (0, n)
  | some (rank, size) =>
    let idxs := (List.range (size + 1)).map (fun i => i * n / size)
    if idxs.head? ≠ some 0 then .error .assertionError
    else if idxs.getLast? ≠ some n then .error .assertionError
    else match idxs[rank]?, idxs[rank + 1]? with
      | some a, some b => .ok (a, b)
      | _, _ => .error .indexError

/-- `finite_difference_steps` (util.py L170-226).  `rnd` is the rounding of the product `np.abs(x) * rel_step`. -/
noncomputable def finiteDifferenceSteps (rnd : ℝ → ℝ) (x : List ℝ) (absStep relStep : ℝ) : Except Err (List ℝ) :=
  open Classical in
  if absStep < 0 then .error .valueError
  else if relStep < 0 then .error .valueError
  else
    let steps := x.map (fun xj => max (rnd (|xj| * relStep)) absStep)
    if steps.any (fun s => s = 0) then .error .valueError
    else .ok steps

/-- `unique` (util.py L46-61). -/
def unique {α : Type} [DecidableEq α] (l : List α) : List α :=
  (l.foldl (fun (st : List α × List α) j => if j ∈ st.2 then st else (st.1 ++ [j], j :: st.2)) ([], [])).1

/-- one row of `nested_lists_to_array` -/
def padRow {α : Type} [Zero α] (ndim : Nat) (r : List (Option α)) : List α :=
  (List.range ndim).map fun n => match r[n]? with
    | some (some v) => v
    | _ => 0

/-- `nested_lists_to_array` (util.py L229-247): `np.max` of an empty list raises `ValueError`. -/
def nestedListsToArray {α : Type} [Zero α] (ll : List (List (Option α))) : Except Err (List (List α)) :=
  match ll with
  | [] => .error .valueError
  | _ =>
    let ndim := (ll.map List.length).foldl max 0
    .ok (ll.map (padRow ndim))

/-! ### MpiPartition -/

/-- The `ngroups` clamp (mpi.py L103-112). -/
def clampGroups (nprocs : Nat) (ngroups : Option Int) : Int :=
  let g : Int := match ngroups with | none => nprocs | some g => g
  let g := if g < 1 then 1 else g
  if g > nprocs then nprocs else g

/-- `group = int(floor((rank * ngroups) / nprocs))` (mpi.py L114-115): a floating-point quotient, rounded by `rnd`. -/
def group (rnd : ℚ → ℚ) (nprocs : Nat) (ngroups : Int) (rank : Nat) : Int :=
  ⌊rnd (((rank : ℤ) * ngroups : ℤ) / (nprocs : ℚ))⌋

/-- Members of `comm_groups` of a process, in rank order: `comm_world.Split(color=group, key=rank_world)` (L118-119). -/
def groupMembers (rnd : ℚ → ℚ) (nprocs : Nat) (ngroups : Int) (rank : Nat) : List Nat :=
  (List.range nprocs).filter (fun r => group rnd nprocs ngroups r = group rnd nprocs ngroups rank)

/-- `rank_groups`: position in `comm_groups` (L120). -/
def rankGroups (rnd : ℚ → ℚ) (nprocs : Nat) (ngroups : Int) (rank : Nat) : Nat :=
  (groupMembers rnd nprocs ngroups rank).idxOf rank

/-- `proc0_groups` (L122). -/
def isLeader (rnd : ℚ → ℚ) (nprocs : Nat) (ngroups : Int) (rank : Nat) : Bool :=
  rankGroups rnd nprocs ngroups rank == 0

/-- Members of `comm_leaders`: processes with colour 0; the others pass `MPI.UNDEFINED` (L125-130). -/
def leaders (rnd : ℚ → ℚ) (nprocs : Nat) (ngroups : Int) : List Nat :=
  (List.range nprocs).filter (isLeader rnd nprocs ngroups)

/-- `rank_leaders` (L131-138): position in `comm_leaders`, `-1` for non-leaders. -/
def rankLeaders (rnd : ℚ → ℚ) (nprocs : Nat) (ngroups : Int) (rank : Nat) : Int :=
  if isLeader rnd nprocs ngroups rank then (leaders rnd nprocs ngroups).idxOf rank else -1

end Simsopt.Util
