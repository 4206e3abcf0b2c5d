import Verif.Fields.DomRadial
/-!
# The Dommaschk field

Model of the functions of src/simsoptpp/dommaschk.cpp after the coefficients (L60-533) and of `Dommaschk` (src/simsopt/field/magneticfieldclasses.py L751-798) at one evaluation point.  Each C++ function is written out as it stands.  A loop is a sum;
`floor(n/2)` and `n/2` are the truncating division of C; `pow` has integer exponents; `tgamma` is Mathlib's Gamma function, which is 0 (instead of infinite) at 0 and the negative integers, so that a division by it gives 0 in both cases.  Numbers are
real.  Not modelled: the OpenMP loop over the points (C105), overflow, NaN: the theorems only speak about the cases in which the program divides by no zero.
-/
namespace Simsopt.Fields.Dom
open Finset

/-- The number of iterations of `for (k=0; k<=floor(n/2); k++)`, and of `for (k=0; k<n/2+1; k++)` (L63, L201). -/
def cnt (n : ℤ) : ℕ := (n.tdiv 2 + 1).toNat

/-- `Dmn` (L60-71). -/
noncomputable def Dmn (m n : ℤ) (R Z : ℝ) : ℝ :=
  ∑ k ∈ range (cnt n), (Z ^ (n - 2 * k) / Real.Gamma (n - 2 * k + 1)) * ∑ j ∈ range (k + 1),
    (-(alpha m j * (alphas m (k - m - j) * Real.log R + gammas m (k - m - j) - alpha m (k - m - j)) - gamma1 m j * alphas m (k - m - j) + alpha m j * betas m (k - j)) * R ^ (2 * j + m) + alphas m (k - j) * beta m j * R ^ (2 * j - m))

/-- `Nmn` (L73-84). -/
noncomputable def Nmn (m n : ℤ) (R Z : ℝ) : ℝ :=
  ∑ k ∈ range (cnt n), (Z ^ (n - 2 * k) / Real.Gamma (n - 2 * k + 1)) * ∑ j ∈ range (k + 1),
    ((alpha m j * (alpha m (k - m - j) * Real.log R + gamma1 m (k - m - j)) - gamma1 m j * alpha m (k - m - j) + alpha m j * beta m (k - j)) * R ^ (2 * j + m) - alpha m (k - j) * beta m j * R ^ (2 * j - m))

/-- `dRDmn` (L86-97). -/
noncomputable def dRDmn (m n : ℤ) (R Z : ℝ) : ℝ :=
  ∑ k ∈ range (cnt n), (Z ^ (n - 2 * k) / Real.Gamma (n - 2 * k + 1)) * ∑ j ∈ range (k + 1),
    (-(alpha m j * (alphas m (k - m - j) * (1 / (2 * j + m) + Real.log R) + gammas m (k - m - j) - alpha m (k - m - j)) - gamma1 m j * alphas m (k - m - j) + alpha m j * betas m (k - j)) * R ^ (2 * j + m - 1) * (2 * j + m)
      + alphas m (k - j) * beta m j * R ^ (2 * j - m - 1) * (2 * j - m))

/-- `dZDmn` (L99-115). -/
noncomputable def dZDmn (m n : ℤ) (R Z : ℝ) : ℝ :=
  ∑ k ∈ range (cnt n), if n - 2 * k = 0 then 0 else ((n - 2 * k) * Z ^ (n - 2 * k - 1) / Real.Gamma (n - 2 * k + 1)) * ∑ j ∈ range (k + 1),
    (-(alpha m j * (alphas m (k - m - j) * Real.log R + gammas m (k - m - j) - alpha m (k - m - j)) - gamma1 m j * alphas m (k - m - j) + alpha m j * betas m (k - j)) * R ^ (2 * j + m) + alphas m (k - j) * beta m j * R ^ (2 * j - m))

/-- `dRRDmn` (L117-128). -/
noncomputable def dRRDmn (m n : ℤ) (R Z : ℝ) : ℝ :=
  ∑ k ∈ range (cnt n), (Z ^ (n - 2 * k) / Real.Gamma (n - 2 * k + 1)) * ∑ j ∈ range (k + 1),
    (-(alpha m j * (alphas m (k - m - j) * ((4 * j + 2 * m - 1) / ((2 * j + m) * (2 * j + m - 1)) + Real.log R) + gammas m (k - m - j) - alpha m (k - m - j)) - gamma1 m j * alphas m (k - m - j) + alpha m j * betas m (k - j)) * R ^ (2 * j + m - 2) * (2 * j + m) * (2 * j + m - 1)
      + alphas m (k - j) * beta m j * R ^ (2 * j - m - 2) * (2 * j - m) * (2 * j - m - 1))

/-- `dZZDmn` (L130-146). -/
noncomputable def dZZDmn (m n : ℤ) (R Z : ℝ) : ℝ :=
  ∑ k ∈ range (cnt n), if n - 2 * k = 0 ∨ n - 2 * k - 1 = 0 then 0 else ((n - 2 * k - 1) * Z ^ (n - 2 * k - 2) / Real.Gamma (n - 2 * k)) * ∑ j ∈ range (k + 1),
    (-(alpha m j * (alphas m (k - m - j) * Real.log R + gammas m (k - m - j) - alpha m (k - m - j)) - gamma1 m j * alphas m (k - m - j) + alpha m j * betas m (k - j)) * R ^ (2 * j + m) + alphas m (k - j) * beta m j * R ^ (2 * j - m))

/-- `dRZDmn` (L148-164). -/
noncomputable def dRZDmn (m n : ℤ) (R Z : ℝ) : ℝ :=
  ∑ k ∈ range (cnt n), if n - 2 * k = 0 then 0 else (Z ^ (n - 2 * k - 1) / Real.Gamma (n - 2 * k)) * ∑ j ∈ range (k + 1),
    (-(alpha m j * (alphas m (k - m - j) * (1 / (2 * j + m) + Real.log R) + gammas m (k - m - j) - alpha m (k - m - j)) - gamma1 m j * alphas m (k - m - j) + alpha m j * betas m (k - j)) * R ^ (2 * j + m - 1) * (2 * j + m)
      + alphas m (k - j) * beta m j * R ^ (2 * j - m - 1) * (2 * j - m))

/-- `dRNmn` (L166-178). -/
noncomputable def dRNmn (m n : ℤ) (R Z : ℝ) : ℝ :=
  ∑ k ∈ range (cnt n), (Z ^ (n - 2 * k) / Real.Gamma (n - 2 * k + 1)) * ∑ j ∈ range (k + 1),
    ((alpha m j * (alpha m (k - m - j) * (1 / (2 * j + m) + Real.log R) + gamma1 m (k - m - j)) - gamma1 m j * alpha m (k - m - j) + alpha m j * beta m (k - j)) * R ^ (2 * j + m - 1) * (2 * j + m)
      - alpha m (k - j) * beta m j * R ^ (2 * j - m - 1) * (2 * j - m))

/-- `dZNmn` (L180-196). -/
noncomputable def dZNmn (m n : ℤ) (R Z : ℝ) : ℝ :=
  ∑ k ∈ range (cnt n), if n - 2 * k = 0 ∨ n < 0 then 0 else ((n - 2 * k) * Z ^ (n - 2 * k - 1) / Real.Gamma (n - 2 * k + 1)) * ∑ j ∈ range (k + 1),
    ((alpha m j * (alpha m (k - m - j) * Real.log R + gamma1 m (k - m - j)) - gamma1 m j * alpha m (k - m - j) + alpha m j * beta m (k - j)) * R ^ (2 * j + m) - alpha m (k - j) * beta m j * R ^ (2 * j - m))

/-- `dRRNmn` (L198-209). -/
noncomputable def dRRNmn (m n : ℤ) (R Z : ℝ) : ℝ :=
  ∑ k ∈ range (cnt n), (Z ^ (n - 2 * k) / Real.Gamma (n - 2 * k + 1)) * ∑ j ∈ range (k + 1),
    ((alpha m j * (alpha m (k - m - j) * ((4 * j + 2 * m - 1) / ((2 * j + m) * (2 * j + m - 1)) + Real.log R) + gamma1 m (k - m - j)) - gamma1 m j * alpha m (k - m - j) + alpha m j * beta m (k - j)) * R ^ (2 * j + m - 2) * (2 * j + m) * (2 * j + m - 1)
      - alpha m (k - j) * beta m j * R ^ (2 * j - m - 2) * (2 * j - m) * (2 * j - m - 1))

/-- `dZZNmn` (L211-227); the loop is `for (k=0; k< n/2; k++)`. -/
noncomputable def dZZNmn (m n : ℤ) (R Z : ℝ) : ℝ :=
  ∑ k ∈ range (n.tdiv 2).toNat, if n - 2 * k = 0 ∨ n - 2 * k - 1 = 0 ∨ n < 0 then 0 else ((n - 2 * k - 1) * Z ^ (n - 2 * k - 2) / Real.Gamma (n - 2 * k)) * ∑ j ∈ range (k + 1),
    ((alpha m j * (alpha m (k - m - j) * Real.log R + gamma1 m (k - m - j)) - gamma1 m j * alpha m (k - m - j) + alpha m j * beta m (k - j)) * R ^ (2 * j + m) - alpha m (k - j) * beta m j * R ^ (2 * j - m))

/-- `dRZNmn` (L229-245). -/
noncomputable def dRZNmn (m n : ℤ) (R Z : ℝ) : ℝ :=
  ∑ k ∈ range (cnt n), if n - 2 * k = 0 ∨ n < 0 then 0 else ((n - 2 * k) * Z ^ (n - 2 * k - 1) / Real.Gamma (n - 2 * k + 1)) * ∑ j ∈ range (k + 1),
    ((alpha m j * (alpha m (k - m - j) * (1 / (2 * j + m) + Real.log R) + gamma1 m (k - m - j)) - gamma1 m j * alpha m (k - m - j) + alpha m j * beta m (k - j)) * R ^ (2 * j + m - 1) * (2 * j + m)
      - alpha m (k - j) * beta m j * R ^ (2 * j - m - 1) * (2 * j - m))

/-- One pair of harmonics with its two coefficients: a row of `mn` and of `coeffs`. -/
structure Mode where
  m : ℤ
  n : ℤ
  coeff1 : ℝ
  coeff2 : ℝ

namespace Mode
variable (w : Mode)

/-- The local variables `a`, `b`, `c`, `d` (L250-259 and the same lines in each function below). -/
def a : ℝ := if w.n % 2 = 0 then 0 else w.coeff1
def b : ℝ := if w.n % 2 = 0 then w.coeff1 else 0
def c : ℝ := if w.n % 2 = 0 then w.coeff2 else 0
def d : ℝ := if w.n % 2 = 0 then 0 else w.coeff2

/-- `Phi` (L247-262). -/
noncomputable def Phi (R Z phi : ℝ) : ℝ :=
  (w.a * Real.cos (w.m * phi) + w.b * Real.sin (w.m * phi)) * Dmn w.m w.n R Z + (w.c * Real.cos (w.m * phi) + w.d * Real.sin (w.m * phi)) * Nmn w.m (w.n - 1) R Z

/-- `BR` (L264-279). -/
noncomputable def BR (R Z phi : ℝ) : ℝ :=
  (w.a * Real.cos (w.m * phi) + w.b * Real.sin (w.m * phi)) * dRDmn w.m w.n R Z + (w.c * Real.cos (w.m * phi) + w.d * Real.sin (w.m * phi)) * dRNmn w.m (w.n - 1) R Z

/-- `BZ` (L281-296). -/
noncomputable def BZ (R Z phi : ℝ) : ℝ :=
  (w.a * Real.cos (w.m * phi) + w.b * Real.sin (w.m * phi)) * dZDmn w.m w.n R Z + (w.c * Real.cos (w.m * phi) + w.d * Real.sin (w.m * phi)) * dZNmn w.m (w.n - 1) R Z

/-- `Bphi` (L298-313). -/
noncomputable def Bphi (R Z phi : ℝ) : ℝ :=
  w.m * (-w.a * Real.sin (w.m * phi) + w.b * Real.cos (w.m * phi)) * Dmn w.m w.n R Z / R + w.m * (-w.c * Real.sin (w.m * phi) + w.d * Real.cos (w.m * phi)) * Nmn w.m (w.n - 1) R Z / R

/-- `dphiBR` (L315-330). -/
noncomputable def dphiBR (R Z phi : ℝ) : ℝ :=
  w.m * ((-w.a * Real.sin (w.m * phi) + w.b * Real.cos (w.m * phi)) * dRDmn w.m w.n R Z + (-w.c * Real.sin (w.m * phi) + w.d * Real.cos (w.m * phi)) * dRNmn w.m (w.n - 1) R Z)

/-- `dphiBZ` (L332-347). -/
noncomputable def dphiBZ (R Z phi : ℝ) : ℝ :=
  w.m * ((-w.a * Real.sin (w.m * phi) + w.b * Real.cos (w.m * phi)) * dZDmn w.m w.n R Z + (-w.c * Real.sin (w.m * phi) + w.d * Real.cos (w.m * phi)) * dZNmn w.m (w.n - 1) R Z)

/-- `dphiBphi` (L349-364). -/
noncomputable def dphiBphi (R Z phi : ℝ) : ℝ :=
  w.m * (w.m * (-w.a * Real.cos (w.m * phi) - w.b * Real.sin (w.m * phi)) * Dmn w.m w.n R Z / R + w.m * (-w.c * Real.cos (w.m * phi) - w.d * Real.sin (w.m * phi)) * Nmn w.m (w.n - 1) R Z / R)

/-- `dRBR` (L366-381). -/
noncomputable def dRBR (R Z phi : ℝ) : ℝ :=
  (w.a * Real.cos (w.m * phi) + w.b * Real.sin (w.m * phi)) * dRRDmn w.m w.n R Z + (w.c * Real.cos (w.m * phi) + w.d * Real.sin (w.m * phi)) * dRRNmn w.m (w.n - 1) R Z

/-- `dZBZ` (L383-398). -/
noncomputable def dZBZ (R Z phi : ℝ) : ℝ :=
  (w.a * Real.cos (w.m * phi) + w.b * Real.sin (w.m * phi)) * dZZDmn w.m w.n R Z + (w.c * Real.cos (w.m * phi) + w.d * Real.sin (w.m * phi)) * dZZNmn w.m (w.n - 1) R Z

/-- `dRBZ` (L400-415). -/
noncomputable def dRBZ (R Z phi : ℝ) : ℝ :=
  (w.a * Real.cos (w.m * phi) + w.b * Real.sin (w.m * phi)) * dRZDmn w.m w.n R Z + (w.c * Real.cos (w.m * phi) + w.d * Real.sin (w.m * phi)) * dRZNmn w.m (w.n - 1) R Z

/-- `dZBR` (L417-432). -/
noncomputable def dZBR (R Z phi : ℝ) : ℝ :=
  (w.a * Real.cos (w.m * phi) + w.b * Real.sin (w.m * phi)) * dRZDmn w.m w.n R Z + (w.c * Real.cos (w.m * phi) + w.d * Real.sin (w.m * phi)) * dRZNmn w.m (w.n - 1) R Z

/-- `dRBphi` (L434-449). -/
noncomputable def dRBphi (R Z phi : ℝ) : ℝ :=
  w.m * (-w.a * Real.sin (w.m * phi) + w.b * Real.cos (w.m * phi)) * dRDmn w.m w.n R Z / R + w.m * (-w.c * Real.sin (w.m * phi) + w.d * Real.cos (w.m * phi)) * dRNmn w.m (w.n - 1) R Z / R
    - w.m * (-w.a * Real.sin (w.m * phi) + w.b * Real.cos (w.m * phi)) * Dmn w.m w.n R Z / R ^ 2 - w.m * (-w.c * Real.sin (w.m * phi) + w.d * Real.cos (w.m * phi)) * Nmn w.m (w.n - 1) R Z / R ^ 2

/-- `dZBphi` (L451-466). -/
noncomputable def dZBphi (R Z phi : ℝ) : ℝ :=
  w.m * (-w.a * Real.sin (w.m * phi) + w.b * Real.cos (w.m * phi)) * dZDmn w.m w.n R Z / R + w.m * (-w.c * Real.sin (w.m * phi) + w.d * Real.cos (w.m * phi)) * dZNmn w.m (w.n - 1) R Z / R

/-- The body of the loop of `DommaschkB` (L471-497). -/
noncomputable def B (p : P3) : P3 :=
  let x := p 0
  let y := p 1
  let z := p 2
  let R := √(x * x + y * y)
  let phi := arctan2 y x
  let cosphi := x / R
  let sinphi := y / R
  ![w.BR R z phi * cosphi - w.Bphi R z phi * sinphi, w.BR R z phi * sinphi + w.Bphi R z phi * cosphi, w.BZ R z phi]

/-- The body of the loop of `DommaschkdB` (L499-533). -/
noncomputable def dB (p : P3) : T2 :=
  let x := p 0
  let y := p 1
  let z := p 2
  let R := √(x * x + y * y)
  let phi := arctan2 y x
  let cosphi := x / R
  let sinphi := y / R
  ![![w.dRBR R z phi * cosphi * cosphi - (w.dphiBR R z phi - w.Bphi R z phi + w.dRBphi R z phi * R) * cosphi * sinphi / R + sinphi * sinphi * (w.dphiBphi R z phi + w.BR R z phi) / R,
      sinphi * cosphi * (w.dRBR R z phi * R - w.dphiBphi R z phi - w.BR R z phi) / R + sinphi * sinphi * (w.Bphi R z phi - w.dphiBR R z phi) / R + cosphi * cosphi * w.dRBphi R z phi,
      w.dRBZ R z phi * cosphi - w.dphiBZ R z phi * sinphi / R],
    ![sinphi * cosphi * (w.dRBR R z phi * R - w.dphiBphi R z phi - w.BR R z phi) / R + cosphi * cosphi * (w.dphiBR R z phi - w.Bphi R z phi) / R - sinphi * sinphi * w.dRBphi R z phi,
      w.dRBR R z phi * sinphi * sinphi + (w.dphiBR R z phi - w.Bphi R z phi + w.dRBphi R z phi * R) * cosphi * sinphi / R + cosphi * cosphi * (w.dphiBphi R z phi + w.BR R z phi) / R,
      w.dRBZ R z phi * sinphi + w.dphiBZ R z phi * cosphi / R],
    ![w.dZBR R z phi * cosphi - w.dZBphi R z phi * sinphi, w.dZBR R z phi * sinphi + w.dZBphi R z phi * cosphi, w.dZBZ R z phi]]

end Mode

/-- `Dommaschk._B_impl` (magneticfieldclasses.py L774-776): the sum over the harmonics plus `ToroidalField(1, 1)`. -/
noncomputable def B (modes : List Mode) (p : P3) : P3 := fun l => (modes.map fun w => w.B p l).sum + (Toroidal.mk 1 1).B p l

/-- `Dommaschk._dB_by_dX_impl` (magneticfieldclasses.py L778-780). -/
noncomputable def dB (modes : List Mode) (p : P3) : T2 := fun j l => (modes.map fun w => w.dB p j l).sum + (Toroidal.mk 1 1).dB p j l

/-! ## Specification -/

/-- The harmonics and points for which the program divides by no zero: `m ≥ 2` (for `m = 0` and `m = 1` the products `0 * (1/0)` in `dRDmn` and `dRRDmn` are NaN), `n ≥ 0`, and off the plane `Z = 0` when `n = 0` (`Nmn` is called with -1, and `pow(0, -1)/tgamma(0)` is NaN). -/
def Mode.Fits (w : Mode) (p : P3) : Prop := 2 ≤ w.m ∧ 0 ≤ w.n ∧ (w.n = 0 → p 2 ≠ 0)

/-- The scalar potential of a mode as a function of the Cartesian point. -/
noncomputable def Mode.potential (w : Mode) (p : P3) : ℝ := w.Phi (√(p 0 ^ 2 + p 1 ^ 2)) (p 2) (arctan2 (p 1) (p 0))

end Simsopt.Fields.Dom
