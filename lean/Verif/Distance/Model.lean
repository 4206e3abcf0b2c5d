import Verif.Coils.Model
import Mathlib.Data.List.Sort
import Mathlib.Data.Prod.Lex
import Mathlib.Algebra.Order.Floor.Ring
import Mathlib.Data.Real.Archimedean
/-!
# Close pairs of point clouds

Model of src/simsoptpp/python_distance.cpp L13-172.  A point cloud is a list of points (the rows of the array).  Simplifications:
real numbers instead of doubles, cell numbers are unbounded integers (the C++ code casts `floor` to `int`).  The two loops marked
`omp parallel for` push results in an order that depends on the schedule: the model is a relation that allows every order.
-/
namespace Simsopt.Distance
open Simsopt.Coils

/-- A grid cell: `tuple<int, int, int>`, compared lexicographically. -/
abbrev Cell := Int ×ₗ Int ×ₗ Int

/-- `std::set<tuple<int,int,int>>::insert`: the set is its sorted sequence of elements. -/
def setInsert (c : Cell) : List Cell → List Cell
  | [] => [c]
  | x :: s => if c < x then c :: x :: s else if x < c then x :: setInsert c s else x :: s

/-- `empty_intersection` (L13-28): the two iterators advance in lockstep. -/
def emptyIntersection : List Cell → List Cell → Bool
  | [], _ => true
  | _ :: _, [] => true
  | x :: s, y :: t =>
    if x = y then false
    else if x < y then emptyIntersection s (y :: t)
    else emptyIntersection (x :: s) t
termination_by s t => s.length + t.length

/-- The squared distance (L33). -/
def distSq (a b : V3) : ℝ := (a.1 - b.1) ^ 2 + (a.2.1 - b.2.1) ^ 2 + (a.2.2 - b.2.2) ^ 2

/-- `two_points_too_close_exist` (L30-39). -/
noncomputable def tooClose (A B : List V3) (t2 : ℝ) : Bool := by
  classical exact A.any fun a => B.any fun b => decide (distSq a b < t2)

/-- The three `floor` lines (L58-60, L115-117, L127-129). -/
noncomputable def cell (t : ℝ) (p : V3) : Int × Int × Int := (⌊p.1 / t⌋, ⌊p.2.1 / t⌋, ⌊p.2.2 / t⌋)

/-- The element `{i, j, k}`. -/
def mkCell (i j k : Int) : Cell := toLex (i, toLex (j, k))

/-- `sets[p]` (L57-61): the cells that have a point. -/
noncomputable def cells (t : ℝ) (pts : List V3) : List Cell :=
  pts.foldl (fun s p => setInsert (mkCell (cell t p).1 (cell t p).2.1 (cell t p).2.2) s) []

/-- The loops over `ii`, `jj`, `kk` (L62-68): the cell and its neighbours, in the order of the loops. -/
def offsets : List (Int × Int × Int) :=
  [-1, 0, 1].flatMap fun ii => [-1, 0, 1].flatMap fun jj => [-1, 0, 1].map fun kk => (ii, jj, kk)

/-- `sets_extended[p]` (L57-68). -/
noncomputable def cellsExtended (t : ℝ) (pts : List V3) : List Cell :=
  pts.foldl (fun s p => offsets.foldl (fun s o =>
    setInsert (mkCell ((cell t p).1 + o.1) ((cell t p).2.1 + o.2.1) ((cell t p).2.2 + o.2.2)) s) s) []

/-- The cloud with index `i`. -/
def cloud (pc : List (List V3)) (i : Nat) : List V3 := pc[i]?.getD []

/-- `candidates_1` of `get_close_candidates_pdist` (L73-79). -/
def pairs (n nb : Nat) : List (Nat × Nat) :=
  (List.range n).flatMap fun i => (List.range i).filterMap fun j => if j < nb then some (i, j) else none

/-- `get_close_candidates_pdist` (L41-104): `r` is a possible result.  `candidates_2` and `candidates_3` are filled in any order. -/
def PDist (pc : List (List V3)) (t : ℝ) (nb : Nat) (r : List (Nat × Nat)) : Prop :=
  ∃ c2 : List (Nat × Nat), c2.Perm ((pairs pc.length nb).filter fun p => !emptyIntersection (cellsExtended t (cloud pc p.1)) (cells t (cloud pc p.2))) ∧
    r.Perm (c2.filter fun p => tooClose (cloud pc p.1) (cloud pc p.2) (t * t))

/-- `candidates_1` of `get_close_candidates_cdist` (L143-148). -/
def allPairs (n m : Nat) : List (Nat × Nat) := (List.range n).flatMap fun i => (List.range m).map fun j => (i, j)

/-- `get_close_candidates_cdist` (L106-172). -/
def CDist (A B : List (List V3)) (t : ℝ) (r : List (Nat × Nat)) : Prop :=
  ∃ c2 : List (Nat × Nat), c2.Perm ((allPairs A.length B.length).filter fun p => !emptyIntersection (cells t (cloud A p.1)) (cellsExtended t (cloud B p.2))) ∧
    r.Perm (c2.filter fun p => tooClose (cloud A p.1) (cloud B p.2) (t * t))

end Simsopt.Distance
