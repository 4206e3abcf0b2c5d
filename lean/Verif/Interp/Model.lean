import Mathlib.Algebra.BigOperators.Group.Finset.Basic
import Mathlib.Analysis.SpecialFunctions.Trigonometric.Basic
import Mathlib.Algebra.Order.Floor.Ring
/-!
# The interpolant on a regular grid

Model of `InterpolationRule`, `UniformInterpolationRule`, `ChebyshevInterpolationRule` and `RegularGridInterpolant3D` (src/simsoptpp/regular_grid_interpolant_3d.h, regular_grid_interpolant_3d_impl.h).  Floating-point numbers are real numbers, so the order of a sum or
product does not matter and sums and products over a loop are written as finite sums and products; 32-bit indices do not overflow.  Arrays are functions on the indices; a loop that writes an array is the list of its writes in order.
-/
namespace Simsopt.Interp
open Finset

/-- A rule: its degree and nodes (h L20-46). -/
structure Rule where
  degree : ℕ
  nodes : ℕ → ℝ

/-- `build_scalings` (h L31-38). -/
noncomputable def Rule.scaling (r : Rule) (idx : ℕ) : ℝ := ∏ i ∈ (range (r.degree + 1)).erase idx, 1 / (r.nodes idx - r.nodes i)

/-- `basis_fun` (h L45-53). -/
noncomputable def Rule.basis (r : Rule) (idx : ℕ) (x : ℝ) : ℝ := r.scaling idx * ∏ i ∈ (range (r.degree + 1)).erase idx, (x - r.nodes i)

/-- `UniformInterpolationRule` (h L308-323). -/
noncomputable def uniform (degree : ℕ) : Rule := ⟨degree, fun i => i * (1 / degree)⟩

/-- `ChebyshevInterpolationRule` (h L326-341). -/
noncomputable def chebyshev (degree : ℕ) : Rule := ⟨degree, fun i => -0.5 * Real.cos (i * Real.pi * (1 / degree)) + 0.5⟩

/-- One of the three `RangeTriplet`s: lower and upper bound and number of cells. -/
structure Axis where
  lo : ℝ
  hi : ℝ
  n : ℕ

/-- `hx` (h L158-160). -/
noncomputable def Axis.h (a : Axis) : ℝ := (a.hi - a.lo) / a.n

/-- `linspace(xmin, xmax, nx+1, true)` (h L163-165, impl L237-249): `n+1` entries. -/
noncomputable def Axis.mesh (a : Axis) (i : ℕ) : ℝ := a.lo + i * ((a.hi - a.lo) / ((a.n + 1 : ℕ) - 1))

/-- What the constructor is given: the rule, the ranges, `value_size`, `out_of_bounds_ok`, the SIMD width, and the values `skip` returned at the mesh points (h L146-152, L185). -/
structure Cfg where
  rule : Rule
  x : Axis
  y : Axis
  z : Axis
  vs : ℕ
  oob : Bool
  simd : ℕ
  skipMesh : ℕ → ℕ → ℕ → Bool

variable (c : Cfg)

/-- An array after a list of writes. -/
def writes {α : Type} (ws : List (ℕ × α)) (a : ℕ → α) : ℕ → α := ws.foldl (fun a w => Function.update a w.1 w.2) a

/-- `idx_dof` (h L120-123). -/
def Cfg.idxDof (i j k : ℕ) : ℕ := i * (c.y.n * c.rule.degree + 1) * (c.z.n * c.rule.degree + 1) + j * (c.z.n * c.rule.degree + 1) + k

/-- `idx_cell` (h L125-127); the indices may be out of range when a point is. -/
def Cfg.idxCell (i j k : ℤ) : ℤ := i * c.y.n * c.z.n + j * c.z.n + k

/-- `idx_dof_local` (h L133-136). -/
def Cfg.idxLocal (i j k : ℕ) : ℕ := i * (c.rule.degree + 1) * (c.rule.degree + 1) + j * (c.rule.degree + 1) + k

/-- `skip_cell` (h L188-207): all eight corners are to be skipped. -/
def Cfg.skipCell (i j k : ℕ) : Bool :=
  c.skipMesh i j k && c.skipMesh i j (k + 1) && c.skipMesh i (j + 1) k && c.skipMesh i (j + 1) (k + 1) &&
  c.skipMesh (i + 1) j k && c.skipMesh (i + 1) j (k + 1) && c.skipMesh (i + 1) (j + 1) k && c.skipMesh (i + 1) (j + 1) (k + 1)

/-- The loops that fill `xdof` (h L215-229): `xdof[i*degree+j] = xmesh[i] + rule.nodes[j]*hx`. -/
noncomputable def Axis.dofWrites (a : Axis) (r : Rule) : List (ℕ × ℝ) :=
  (List.range a.n).flatMap fun i => (List.range (r.degree + 1)).map fun j => (i * r.degree + j, a.mesh i + r.nodes j * a.h)

/-- `xdof` (h L211-219). -/
noncomputable def Axis.dof (a : Axis) (r : Rule) : ℕ → ℝ := writes (a.dofWrites r) fun _ => 0

/-- The loops over `i`, `j`, `k` below three bounds. -/
def triples (a b d : ℕ) : List (ℕ × ℕ × ℕ) := (List.range a).flatMap fun i => (List.range b).flatMap fun j => (List.range d).map fun k => (i, j, k)

/-- The loop that fills `xdoftensor`, `ydoftensor` and `zdoftensor` (h L231-245). -/
noncomputable def Cfg.dofTensor : ℕ → ℝ × ℝ × ℝ :=
  writes ((triples (c.x.n * c.rule.degree + 1) (c.y.n * c.rule.degree + 1) (c.z.n * c.rule.degree + 1)).map fun t =>
    (c.idxDof t.1 t.2.1 t.2.2, (c.x.dof c.rule t.1, c.y.dof c.rule t.2.1, c.z.dof c.rule t.2.2))) fun _ => (0, 0, 0)

/-- `n` (h L230): the number of all interpolation points. -/
def Cfg.N : ℕ := (c.x.n * c.rule.degree + 1) * (c.y.n * c.rule.degree + 1) * (c.z.n * c.rule.degree + 1)

/-- The cells of the grid, in the order of the loops. -/
def Cfg.cells : List (ℕ × ℕ × ℕ) := triples c.x.n c.y.n c.z.n

/-- The interpolation points of a cell. -/
def Cfg.cellDofs (i j k : ℕ) : List ℕ :=
  (triples (c.rule.degree + 1) (c.rule.degree + 1) (c.rule.degree + 1)).map fun t =>
    c.idxDof (i * c.rule.degree + t.1) (j * c.rule.degree + t.2.1) (k * c.rule.degree + t.2.2)

/-- `skip_dof` (h L250-265): initially true, set to false for the points of all the cells that are kept. -/
def Cfg.skipDof : ℕ → Bool :=
  writes (((c.cells.filter fun t => !c.skipCell t.1 t.2.1 t.2.2).flatMap fun t => c.cellDofs t.1 t.2.1 t.2.2).map fun m => (m, false)) fun _ => true

/-- The number of skipped points among the first `m`: `dofs_to_skip` for `m = n` (h L267-270), and `ctr` when the loop at h L277-284 reaches `m`. -/
def Cfg.ctr (m : ℕ) : ℕ := ((List.range m).filter c.skipDof).length

/-- `dofs_to_keep` (h L271). -/
def Cfg.keep : ℕ := c.N - c.ctr c.N

/-- `full_to_reduced_map` (h L277-278). -/
def Cfg.fullToReduced (m : ℕ) : ℕ := m - c.ctr m

/-- `reduced_to_full_map` (h L277-284). -/
def Cfg.reducedToFull : ℕ → ℕ :=
  writes (((List.range c.N).filter fun i => !c.skipDof i).map fun i => (i - c.ctr i, i)) fun _ => 0

/-- `xdoftensor_reduced`, `ydoftensor_reduced`, `zdoftensor_reduced` (h L287-294). -/
noncomputable def Cfg.reduced (i : ℕ) : ℝ × ℝ × ℝ := c.dofTensor (c.reducedToFull i)

/-- `padded_value_size` (h L298). -/
def Cfg.pad : ℕ := if c.vs % c.simd ≠ 0 then (c.vs + c.simd) - c.vs % c.simd else c.vs

/-- The user's function: from the lists of the coordinates to the flat array of the values. -/
abbrev Fun := List ℝ → List ℝ → List ℝ → ℕ → ℝ

/-- `BATCH_SIZE` (impl L15). -/
def batch : ℕ := 16384

/-- The writes of one batch (impl L18-29). -/
noncomputable def Cfg.batchWrites (f : Fun) (i : ℕ) : List (ℕ × ℝ) :=
  let first := i * batch
  let last := min ((i + 1) * batch) c.keep
  let sub := (List.range (last - first)).map fun j => c.reduced (first + j)
  let fsub := f (sub.map fun p => p.1) (sub.map fun p => p.2.1) (sub.map fun p => p.2.2)
  (List.range (last - first)).flatMap fun j => (List.range c.vs).map fun l => (first * c.vs + j * c.vs + l, fsub (j * c.vs + l))

/-- `vals` after the batches (impl L14-30). -/
noncomputable def Cfg.vals (f : Fun) : ℕ → ℝ :=
  writes ((List.range (c.keep / batch + if c.keep % batch ≠ 0 then 1 else 0)).flatMap fun i => c.batchWrites f i) fun _ => 0

/-- `local_vals` of one cell (impl L41-52). -/
noncomputable def Cfg.localVals (f : Fun) (i j k : ℕ) : ℕ → ℝ :=
  writes ((triples (c.rule.degree + 1) (c.rule.degree + 1) (c.rule.degree + 1)).flatMap fun t => (List.range c.vs).map fun l =>
    (c.pad * c.idxLocal t.1 t.2.1 t.2.2 + l,
      c.vals f (c.vs * c.fullToReduced (c.idxDof (i * c.rule.degree + t.1) (j * c.rule.degree + t.2.1) (k * c.rule.degree + t.2.2)) + l))) fun _ => 0

/-- `all_local_vals_map.find(cell_idx)` (impl L33-57, L122): the cell, if any, that was entered under this index. -/
def Cfg.find (idx : ℤ) : Option (ℕ × ℕ × ℕ) :=
  (c.cells.filter fun t => !c.skipCell t.1 t.2.1 t.2.2).find? fun t => c.idxCell t.1 t.2.1 t.2.2 == idx

/-- Conversion `int(q)` of a double: towards zero. -/
noncomputable def trunc (q : ℝ) : ℤ := if 0 ≤ q then ⌊q⌋ else ⌈q⌉

/-- `_EPS_` (impl L8). -/
noncomputable def eps : ℝ := 1e-13

/-- The shift at the start of `evaluate_inplace` (impl L91-96), one coordinate. -/
noncomputable def Axis.shift (a : Axis) (x : ℝ) : ℝ := if x ≥ a.hi then x - eps else if x ≤ a.lo then x + eps else x

/-- `xidx` (impl L98-100), one coordinate. -/
noncomputable def Axis.idx (a : Axis) (x : ℝ) : ℤ := trunc (a.n * (x - a.lo) / (a.hi - a.lo))

/-- What an evaluation does. -/
inductive Out where
  /-- the components 0 .. value_size-1 are written -/
  | written (v : ℕ → ℝ)
  /-- the function returns without writing -/
  | untouched
  /-- `std::runtime_error` -/
  | error
  /-- `xmesh[xidx]` is read outside the array: undefined behaviour -/
  | undefined

/-- The sum at the end of `evaluate_local` (impl L186-212); the SIMD variant at L130-184 computes the same. -/
noncomputable def Cfg.sum (f : Fun) (i j k : ℕ) (x y z : ℝ) (l : ℕ) : ℝ :=
  ∑ a ∈ range (c.rule.degree + 1), (∑ b ∈ range (c.rule.degree + 1), (∑ d ∈ range (c.rule.degree + 1),
    c.localVals f i j k (l + c.pad * c.idxLocal a b d) * c.rule.basis d z) * c.rule.basis b y) * c.rule.basis a x

/-- `evaluate_local` (impl L118-214). -/
noncomputable def Cfg.evalLocal (f : Fun) (x y z : ℝ) (idx : ℤ) : Out :=
  match c.find idx with
  | none => if c.oob then .untouched else .error
  | some t => .written (c.sum f t.1 t.2.1 t.2.2 x y z)

/-- `xmesh[xidx]` for an index that may be out of range. -/
noncomputable def Axis.meshAt (a : Axis) (i : ℤ) : Option ℝ := if 0 ≤ i ∧ i ≤ a.n then some (a.mesh i.toNat) else none

/-- `evaluate_inplace` (impl L87-115), after `interpolate_batch(f)`. -/
noncomputable def Cfg.eval (f : Fun) (x y z : ℝ) : Out :=
  let x := c.x.shift x
  let y := c.y.shift y
  let z := c.z.shift z
  let xi := c.x.idx x
  let yi := c.y.idx y
  let zi := c.z.idx z
  if !c.oob && (decide (xi < 0 ∨ xi ≥ c.x.n) || decide (yi < 0 ∨ yi ≥ c.y.n) || decide (zi < 0 ∨ zi ≥ c.z.n)) then .error
  else match c.x.meshAt xi, c.y.meshAt yi, c.z.meshAt zi with
  | some xm, some ym, some zm => c.evalLocal f ((x - xm) / c.x.h) ((y - ym) / c.y.h) ((z - zm) / c.z.h) (c.idxCell xi yi zi)
  | _, _, _ => .undefined

/-! ## Specification -/

/-- The user's function acts on each point separately and returns `vs` components `F`. -/
def Pointwise (vs : ℕ) (f : Fun) (F : ℝ → ℝ → ℝ → ℕ → ℝ) : Prop :=
  ∀ (ps : List (ℝ × ℝ × ℝ)) (j l : ℕ) (h : j < ps.length), l < vs →
    f (ps.map fun p => p.1) (ps.map fun p => p.2.1) (ps.map fun p => p.2.2) (j * vs + l) = F (ps[j]).1 (ps[j]).2.1 (ps[j]).2.2 l

/-- A rule as the two classes build it: distinct nodes from 0 to 1. -/
structure Rule.OK (r : Rule) : Prop where
  pos : 0 < r.degree
  first : r.nodes 0 = 0
  last : r.nodes r.degree = 1
  inj : ∀ i ≤ r.degree, ∀ j ≤ r.degree, r.nodes i = r.nodes j → i = j

/-- A sensible configuration: proper ranges, at least one cell each way, a rule as the classes build it. -/
structure Cfg.OK : Prop where
  rule : c.rule.OK
  x : c.x.lo < c.x.hi ∧ 0 < c.x.n
  y : c.y.lo < c.y.hi ∧ 0 < c.y.n
  z : c.z.lo < c.z.hi ∧ 0 < c.z.n
  simd : 0 < c.simd

end Simsopt.Interp
