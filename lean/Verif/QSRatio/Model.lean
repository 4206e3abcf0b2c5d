import Verif.PyList
import Mathlib.Analysis.SpecialFunctions.Trigonometric.Deriv
import Mathlib.Analysis.SpecialFunctions.Trigonometric.Basic
import Mathlib.Analysis.SpecialFunctions.Sqrt
import Mathlib.Tactic.LinearCombination
import Mathlib.Tactic.FieldSimp
/-!
# QuasisymmetryRatioResidual (C168)

Model of src/simsopt/mhd/vmec_diagnostics.py L30-275.  Real numbers instead of doubles.  What VMEC computed (`wout`) is data.  numpy's square root of a negative number is NaN; here it is 0, and the theorems about values assume
that the radicands are not negative.
-/
namespace Simsopt.QSRatio
open Simsopt

/-- The data of `vmec.wout` used (L164-199): the radial lists are those with `[1:]` applied, on `s_half_grid`. -/
structure Wout where
  nfp : ℕ
  lasym : Bool
  phiEdge : ℝ
  sHalf : List ℝ
  iotas : List ℝ
  bvco : List ℝ
  buco : List ℝ
  /-- `xm_nyq`, `xn_nyq` -/
  modes : List (ℝ × ℝ)
  gmnc : List (List ℝ)
  bmnc : List (List ℝ)
  bsubumnc : List (List ℝ)
  bsubvmnc : List (List ℝ)
  bsupumnc : List (List ℝ)
  bsupvmnc : List (List ℝ)

/-- The constructor's arguments (L113-143): surfaces and weights, helicity, grid. -/
structure Metric where
  surfaces : List ℝ
  weights : List ℝ
  m : ℝ
  n : ℝ
  ntheta : ℕ
  nphi : ℕ

/-- `__init__` (L113-143): a missing list of weights is ones; the lengths must agree. -/
def Metric.make (surfaces : List ℝ) (m n : ℝ) (weights : Option (List ℝ)) (ntheta nphi : ℕ) : Except Err Metric :=
  let w := weights.getD (List.replicate surfaces.length 1)
  if w.length ≠ surfaces.length then .error .assertionError else .ok ⟨surfaces, w, m, n, ntheta, nphi⟩

open Classical in
/-- `np.searchsorted(xs, x)` (side left): the number of entries below `x`, for increasing `xs`. -/
noncomputable def searchsorted (xs : List ℝ) (x : ℝ) : ℕ := (xs.takeWhile fun y => y < x).length

/-- `scipy.interpolate.interp1d(xs, ys, fill_value="extrapolate")(x)` (kind linear): the interval is clipped to the first or last one. -/
noncomputable def interp (xs ys : List ℝ) (x : ℝ) : ℝ :=
  let hi := min (max (searchsorted xs x) 1) (xs.length - 1)
  let lo := hi - 1
  (ys.getD hi 0 - ys.getD lo 0) / (xs.getD hi 0 - xs.getD lo 0) * (x - xs.getD lo 0) + ys.getD lo 0

/-- The cosine series summed over the modes (L210-224). -/
noncomputable def series (w : Wout) (c : List (List ℝ)) (s th ph : ℝ) : ℝ := ((w.modes.zip c).map fun q => interp w.sHalf q.2 s * Real.cos (q.1.1 * th - q.1.2 * ph)).sum

/-- `d_B_d_theta` (L218). -/
noncomputable def dTheta (w : Wout) (s th ph : ℝ) : ℝ := ((w.modes.zip w.bmnc).map fun q => interp w.sHalf q.2 s * (-q.1.1 * Real.sin (q.1.1 * th - q.1.2 * ph))).sum

/-- `d_B_d_phi` (L219). -/
noncomputable def dPhi (w : Wout) (s th ph : ℝ) : ℝ := ((w.modes.zip w.bmnc).map fun q => interp w.sHalf q.2 s * (q.1.2 * Real.sin (q.1.1 * th - q.1.2 * ph))).sum

/-- `d_psi_d_s` (L164). -/
noncomputable def dPsi (w : Wout) : ℝ := -w.phiEdge / (2 * Real.pi)

/-- `B_dot_grad_B` (L226). -/
noncomputable def dotGrad (w : Wout) (s th ph : ℝ) : ℝ := series w w.bsupumnc s th ph * dTheta w s th ph + series w w.bsupvmnc s th ph * dPhi w s th ph

/-- `B_cross_grad_B_dot_grad_psi` (L227). -/
noncomputable def crossGrad (w : Wout) (s th ph : ℝ) : ℝ :=
  dPsi w * (series w w.bsubumnc s th ph * dPhi w s th ph - series w w.bsubvmnc s th ph * dTheta w s th ph) / series w w.gmnc s th ph

/-- `theta1d`, `phi1d` (L201-202). -/
noncomputable def theta (q : Metric) (i : ℕ) : ℝ := 2 * Real.pi * i / q.ntheta
noncomputable def phi (w : Wout) (q : Metric) (k : ℕ) : ℝ := 2 * Real.pi / w.nfp * k / q.nphi

/-- `np.sum(..., axis=(1, 2))`: the sum over the angles of one surface. -/
noncomputable def gridSum (q : Metric) (f : ℕ → ℕ → ℝ) : ℝ := ((List.range q.ntheta).map fun i => ((List.range q.nphi).map fun k => f i k).sum).sum

/-- `dtheta`, `dphi` (L229-230). -/
noncomputable def dtheta (q : Metric) : ℝ := theta q 1 - theta q 0
noncomputable def dphi (w : Wout) (q : Metric) : ℝ := phi w q 1 - phi w q 0

/-- `V_prime` (L231). -/
noncomputable def vPrime (w : Wout) (q : Metric) (s : ℝ) : ℝ := w.nfp * dtheta q * dphi w q * gridSum q fun i k => series w w.gmnc s (theta q i) (phi w q k)

/-- `residuals3d[js, i, k]` (L235-240) for the surface `s` with weight `wt`. -/
noncomputable def residual (w : Wout) (q : Metric) (s wt : ℝ) (i k : ℕ) : ℝ :=
  Real.sqrt (wt * w.nfp * dtheta q * dphi w q / vPrime w q s * series w w.gmnc s (theta q i) (phi w q k)) *
    (crossGrad w s (theta q i) (phi w q k) * (q.n * w.nfp - interp w.sHalf w.iotas s * q.m) -
      dotGrad w s (theta q i) (phi w q k) * (q.m * interp w.sHalf w.bvco s + q.n * w.nfp * interp w.sHalf w.buco s)) / series w w.bmnc s (theta q i) (phi w q k) ^ 3

/-- What `compute` returns (L242-256): the residuals in the order of the surfaces, theta, phi; the profile; the total. -/
structure Results where
  residuals : List ℝ
  profile : List ℝ
  total : ℝ

open Classical in
/-- `compute` (L149-259): stellarator asymmetry is refused; the spacings index the second grid point; a surface with `V_prime = 0` fails the assertion (the quotient is NaN). -/
noncomputable def compute (w : Wout) (q : Metric) : Except Err Results :=
  if w.lasym then .error .runtimeError
  else if q.ntheta < 2 ∨ q.nphi < 2 then .error .indexError
  else if ∃ s ∈ q.surfaces, vPrime w q s = 0 then .error .assertionError
  else
    let r := (q.surfaces.zip q.weights).map fun z => (List.range q.ntheta).map fun i => (List.range q.nphi).map fun k => residual w q z.1 z.2 i k
    .ok { residuals := (r.map List.flatten).flatten
          profile := r.map fun t => (t.map fun l => (l.map fun x => x * x).sum).sum
          total := (((r.map List.flatten).flatten).map fun x => x * x).sum }

end Simsopt.QSRatio
