import Verif.Labels.Path
import Verif.Surfaces.GenericProps
import Mathlib.Analysis.SpecialFunctions.ExpDeriv
/-!
# Surface objectives: ToroidalFlux, PrincipalCurvature, QfmResidual

Model of src/simsopt/geo/surfaceobjectives.py L170-337 and L553-624.  The functions take the arrays that the methods read: the surface as a `Shape` (C70), the columns of its Jacobian arrays for one dof as
another `Shape`, and the arrays of the field at the points `p` of a list (the grid, or one row of it).  Real numbers instead of doubles.
-/
namespace Simsopt.Labels
open Simsopt Simsopt.Coils Simsopt.Surface
open Simsopt.Geometry hiding norm normal

variable {P : Type}

/-! ### ToroidalFlux -/

/-- `ToroidalFlux.J` (L216-225): `row` are the points of the row `idx`. -/
noncomputable def tfJ (A : P → V3) (S : Shape P) (row : List P) : ℝ := (row.map fun p => inner (A p) (S.g2 p)).sum / row.length

/-- `dJ_by_dsurfacecoefficients` (L233-249), entry of the dof with columns `D`; `dA p k` is `dA_by_dX[p, k, :]`. -/
noncomputable def tfGrad (A : P → V3) (dA : P → Fin 3 → V3) (S D : Shape P) (row : List P) : ℝ :=
  let dAdc := fun p => lin (dA p) (D.x p)
  let term1 := (row.map fun p => inner (dAdc p) (S.g2 p)).sum
  let term2 := (row.map fun p => inner (A p) (D.g2 p)).sum
  (term1 + term2) / row.length

/-- `einsum('jkpl,jpn,jkm->jlmn', d2A_by_dXdX, dx_dc, dx_dc)` (L260) at one point, entry `(m, n)` with columns `xm`, `xn`. -/
def d2Adcdc (d2A : Fin 3 → Fin 3 → V3) (xm xn : V3) : V3 := lin (fun k => lin (d2A k) xn) xm

/-- `d2J_by_dsurfacecoefficientsdsurfacecoefficients` (L251-270), entry `(m, n)` with columns `D`, `E`. -/
noncomputable def tfHess (dA : P → Fin 3 → V3) (d2A : P → Fin 3 → Fin 3 → V3) (S D E : Shape P) (row : List P) : ℝ :=
  1 / row.length * (row.map fun p =>
    inner (d2Adcdc (d2A p) (D.x p) (E.x p)) (S.g2 p) + inner (lin (dA p) (D.x p)) (E.g2 p) + inner (lin (dA p) (E.x p)) (D.g2 p)).sum

/-- The array that `dJ_by_dcoils` passes to `A_vjp` (L276-278). -/
noncomputable def tfdA (S : Shape P) (row : List P) (p : P) : V3 := (1 / (row.length : ℝ)) • S.g2 p

/-! ### PrincipalCurvature -/

/-- `J` (L311-319). -/
noncomputable def pcJ (km1 km2 w1 w2 : ℝ) (S : Shape P) (pts : List P) : ℝ :=
  (pts.map fun p => len (normal S p) * Real.exp (-((principal S p).1 - km1) / w1)).sum +
  (pts.map fun p => len (normal S p) * Real.exp (-(-(principal S p).2 - km2) / w2)).sum

/-- `dJ` (L321-337), entry of the dof with columns `D`. -/
noncomputable def pcGrad (km1 km2 w1 w2 : ℝ) (S D : Shape P) (pts : List P) : ℝ :=
  let k1 := fun p => (principal S p).1
  let k2 := fun p => (principal S p).2
  let dk1 := fun p => (dcurvatures S D p).2.2.1
  let dk2 := fun p => (dcurvatures S D p).2.2.2
  let nn := fun p => len (normal S p)
  let dnn := fun p => (normal S p).1 * (dnormal S D p).1 / nn p + (normal S p).2.1 * (dnormal S D p).2.1 / nn p + (normal S p).2.2 * (dnormal S D p).2.2 / nn p
  (pts.map fun p => dnn p * Real.exp (-(k1 p - km1) / w1)).sum +
  (pts.map fun p => nn p * Real.exp (-(k1 p - km1) / w1) * (-dk1 p / w1)).sum +
  (pts.map fun p => dnn p * Real.exp (-(-k2 p - km2) / w2)).sum +
  (pts.map fun p => nn p * Real.exp (-(-k2 p - km2) / w2) * (dk2 p / w2)).sum

/-! ### QfmResidual -/

/-- `QfmResidual.J` (L579-589). -/
noncomputable def qfmJ (B : P → V3) (S : Shape P) (pts : List P) : ℝ :=
  let n := fun p => ((normal S p).1 / len (normal S p), (normal S p).2.1 / len (normal S p), (normal S p).2.2 / len (normal S p))
  let Bn := fun p => inner (B p) (n p)
  (pts.map fun p => Bn p ^ 2 * len (normal S p)).sum / (pts.map fun p => len (B p) ^ 2 * len (normal S p)).sum

/-- `dJ1dx` (L608). -/
noncomputable def dJ1dx (B : P → V3) (dB : P → Fin 3 → V3) (S : Shape P) (p : P) : V3 :=
  (2 * inner (B p) (normal S p) / len (normal S p)) • (inner (dB p 0) (normal S p), inner (dB p 1) (normal S p), inner (dB p 2) (normal S p))

/-- `dJ1dN` (L609). -/
noncomputable def dJ1dN (B : P → V3) (S : Shape P) (p : P) : V3 :=
  (2 * inner (B p) (normal S p) / len (normal S p)) • B p - (inner (B p) (normal S p) ^ 2 / len (normal S p) ^ 3) • normal S p

/-- `dJ2dx` (L611). -/
noncomputable def dJ2dx (B : P → V3) (dB : P → Fin 3 → V3) (S : Shape P) (p : P) : V3 :=
  len (normal S p) • ((2 : ℝ) • (inner (dB p 0) (B p), inner (dB p 1) (B p), inner (dB p 2) (B p)))

/-- `dJ2dN` (L612). -/
noncomputable def dJ2dN (B : P → V3) (S : Shape P) (p : P) : V3 := (inner (B p) (B p) / len (normal S p)) • normal S p

/-- `dJ_by_dsurfacecoefficients` (L591-624), entry of the dof with columns `D`. -/
noncomputable def qfmGrad (B : P → V3) (dB : P → Fin 3 → V3) (S D : Shape P) (pts : List P) : ℝ :=
  let J1 := (pts.map fun p => inner (B p) (normal S p) ^ 2 / len (normal S p)).sum
  let J2 := (pts.map fun p => inner (B p) (B p) * len (normal S p)).sum
  dnormalVjp S D (fun p => (1 / J2) • dJ1dN B S p - (J1 / (J2 * J2)) • dJ2dN B S p) pts +
  contract D.x (fun p => (1 / J2) • dJ1dx B dB S p - (J1 / (J2 * J2)) • dJ2dx B dB S p) pts

end Simsopt.Labels
