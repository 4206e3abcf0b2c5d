import Verif.Fields.Model
/-!
# The field of a wireframe: src/simsoptpp/wireframe_field_impl.h, magneticfield_wireframe.cpp, src/simsopt/field/wireframefield.py

One evaluation point; the loops over the points act on each point separately.  Real arithmetic.
-/
namespace Simsopt.WField
open Fields

/-- `inner` (vec3dsimd.h). -/
def dot (u v : P3) : ℝ := u 0 * v 0 + u 1 * v 1 + u 2 * v 2

/-- `cross` (vec3dsimd.h). -/
def cross (u v : P3) : P3 := ![u 1 * v 2 - u 2 * v 1, u 2 * v 0 - u 0 * v 2, u 0 * v 1 - u 1 * v 0]

/-- `norm_diff` (wireframe_field_impl.h L188-191): `sqrt(normsq(diff))`. -/
noncomputable def nrm (u : P3) : ℝ := √(dot u u)

/-- `denom` (L192-193), as a function of the two differences. -/
noncomputable def denom (d0 d1 : P3) : ℝ := nrm d0 * nrm d1 * (nrm d0 * nrm d1 + dot d0 d1)

/-- `factor` (L194). -/
noncomputable def factor (d0 d1 : P3) : ℝ := (nrm d0 + nrm d1) / denom d0 d1

/-- `B` of `wireframe_field_kernel` (L186-197, L226-228): the field of a segment from `n0` to `n1` with unit current. -/
noncomputable def segB (n0 n1 p : P3) : P3 :=
  let d0 := p - n0
  let d1 := p - n1
  fun k => 1e-7 * (factor d0 d1 * cross d0 d1 k)

/-- `grad_factor` (L201-206). -/
noncomputable def gradFactor (d0 d1 : P3) : P3 := fun l =>
  let p0 := d0 l * nrm d1
  let p1 := d1 l * nrm d0
  (p0 + p1) * (-(factor d0 d1 * factor d0 d1)) - (p0 * (1 / dot d0 d0) + p1 * (1 / dot d1 d1)) * (1 / denom d0 d1)

/-- `dB_by_dX` of `wireframe_field_kernel` (L208-222, L229-235): entry `[k, 0]` is `dB_dX_i[k].x`, and so on. -/
noncomputable def segDB (n0 n1 p : P3) : T2 :=
  let d0 := p - n0
  let d1 := p - n1
  let g := gradFactor d0 d1
  let f := factor d0 d1
  let c := cross d0 d1
  fun k l => 1e-7 * (![![g 0 * c 0, g 1 * c 0 + f * (d1 2 - d0 2), g 2 * c 0 + f * (d0 1 - d1 1)],
    ![g 0 * c 1 + f * (-d1 2 + d0 2), g 1 * c 1, g 2 * c 1 + f * (-d0 0 + d1 0)],
    ![g 0 * c 2 + f * (d1 1 - d0 1), g 1 * c 2 + f * (d0 0 - d1 0), g 2 * c 2]] k l)

/-- The members of `WireframeField` (magneticfield_wireframe.h L23-26): for each half period the nodes and the sign of the segments; the end nodes of the segments; the currents. -/
structure Wire where
  halves : List ((ℕ → P3) × ℝ)
  segments : List (ℕ × ℕ)
  currents : ℕ → ℝ

/-- `Bi` and `dBi` (magneticfield_wireframe.cpp L64-112): the loop over the half periods. -/
noncomputable def Wire.Bi (w : Wire) (s : ℕ × ℕ) (p : P3) : P3 := w.halves.foldl (fun B h => B + h.2 • segB (h.1 s.1) (h.1 s.2) p) 0

noncomputable def Wire.dBi (w : Wire) (s : ℕ × ℕ) (p : P3) : T2 := w.halves.foldl (fun B h => B + h.2 • segDB (h.1 s.1) (h.1 s.2) p) 0

/-- `B` after `compute` (magneticfield_wireframe.cpp L114-118). -/
noncomputable def Wire.B (w : Wire) (p : P3) : P3 := w.segments.zipIdx.foldl (fun B si => B + w.currents si.2 • w.Bi si.1 p) 0

/-- `dB_by_dX` after `compute(1)` (magneticfield_wireframe.cpp L119-125). -/
noncomputable def Wire.dB (w : Wire) (p : P3) : T2 := w.segments.zipIdx.foldl (fun B si => B + w.currents si.2 • w.dBi si.1 p) 0

/-- `dB_by_dsegmentcurrents(compute_derivatives)` at one point (wireframefield.py L29-58), one entry for each segment: whatever the argument, the list consists of the arrays `B_i`. -/
noncomputable def Wire.dBdCurrents (w : Wire) (_computeDerivatives : ℕ) (p : P3) : List P3 := w.segments.map fun s => w.Bi s p

/-- `dBnormal_by_dsegmentcurrents_matrix` (wireframefield.py L60-104): the row of the evaluation point `p`, where the surface with `npts` quadrature points has the normal `n`. -/
noncomputable def Wire.normalRow (w : Wire) (areaWeighted : Bool) (npts : ℕ) (n p : P3) : List ℝ :=
  let absn := nrm n
  let unitn := (1 / absn) • n
  let fac := if areaWeighted then √(absn / npts) else 1
  (w.dBdCurrents 0 p).map fun b => fac * dot b unitn

end Simsopt.WField
