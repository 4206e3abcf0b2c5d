import Verif.Curves.Geometry
import Mathlib.Analysis.SpecialFunctions.Pow.Deriv
import Mathlib.Algebra.BigOperators.Fin
/-!
# Single-curve objectives

Model of `CurveLength`, `LpCurveCurvature`, `LpCurveTorsion`, `ArclengthVariation` and `MeanSquaredCurvature`
(src/simsopt/geo/curveobjectives.py L17-140, L357-478) and of the contraction behind the `_by_dcoeff_vjp` functions
(src/simsoptpp/curve.h L17-40).  `n` is the number of quadrature points, `m` the number of dofs, `d1 k` the row `gammadash()[k]`,
`E1 k i` the column `dgammadash_by_dcoeff()[k, :, i]`, and so on.  Simplifications: real numbers instead of doubles; the functions that
JAX derives (`thisgrad`, `kappavjp0`, ...) are the symbolic derivatives by JAX's rules: `maximum(x, 0)` has slope 1/2 at 0, `abs` and
`sign` slope 0 at 0, `norm` the slope `v / |v|`.
-/
namespace Simsopt.Penalties
open Simsopt.Coils
open Simsopt.Geometry hiding norm

/-- `jnp.mean`. -/
noncomputable def mean {n : Nat} (f : Fin n → ℝ) : ℝ := (∑ k, f k) / n

/-- `curve_vjp_contraction` (curve.h L17-40): the row vector `v`, of length `3 * numquadpoints`, times the matrix of `3 * numquadpoints` rows. -/
def contract {n m : Nat} (mat : Fin n → Fin m → V3) (v : Fin n → V3) (i : Fin m) : ℝ :=
  ∑ r : Fin (n * 3), comp (v r.divNat) r.modNat * comp (mat r.divNat i) r.modNat

/-- `incremental_arclength_vjp` (curve.py L26). -/
noncomputable def arclengthVjp {n : Nat} (d1 : Fin n → V3) (v : Fin n → ℝ) (k : Fin n) : V3 := (v k / Geometry.norm (d1 k)) • d1 k

/-- `Curve.dincremental_arclength_by_dcoeff_vjp` (curve.py L169-181). -/
noncomputable def dArclengthVjp {n m : Nat} (d1 : Fin n → V3) (E1 : Fin n → Fin m → V3) (v : Fin n → ℝ) : Fin m → ℝ :=
  contract E1 (arclengthVjp d1 v)

/-- `Curve.dkappa_by_dcoeff_vjp` (curve.py L240-252): `kappavjp0`, `kappavjp1` give the partial derivatives of `v ⬝ kappa`. -/
noncomputable def dKappaVjp {n m : Nat} (d1 d2 : Fin n → V3) (E1 E2 : Fin n → Fin m → V3) (v : Fin n → ℝ) (i : Fin m) : ℝ :=
  (∑ k, v k * dKappa (d1 k) (d2 k) (E1 k i) 0) + ∑ k, v k * dKappa (d1 k) (d2 k) 0 (E2 k i)

/-- `Curve.dtorsion_by_dcoeff_vjp` (curve.py L254-266). -/
noncomputable def dTorsionVjp {n m : Nat} (d1 d2 d3 : Fin n → V3) (E1 E2 E3 : Fin n → Fin m → V3) (v : Fin n → ℝ) (i : Fin m) : ℝ :=
  (∑ k, v k * dTorsion (d1 k) (d2 k) (d3 k) (E1 k i) 0 0) + (∑ k, v k * dTorsion (d1 k) (d2 k) (d3 k) 0 (E2 k i) 0)
    + ∑ k, v k * dTorsion (d1 k) (d2 k) (d3 k) 0 0 (E3 k i)

/-! ### CurveLength -/

/-- `CurveLength.J` (L17-43). -/
noncomputable def length {n : Nat} (d1 : Fin n → V3) : ℝ := mean fun k => arclength (d1 k)

/-- `CurveLength.dJ` (L45-52). -/
noncomputable def dLength {n m : Nat} (d1 : Fin n → V3) (E1 : Fin n → Fin m → V3) : Fin m → ℝ :=
  dArclengthVjp d1 E1 fun _ => 1 / n

/-! ### LpCurveCurvature and LpCurveTorsion -/

/-- `Lp_curvature_pure` (L57-63). -/
noncomputable def lpCurvature {n : Nat} (kap : Fin n → ℝ) (d1 : Fin n → V3) (p threshold : ℝ) : ℝ :=
  (1 / p) * mean fun k => max (kap k - threshold) 0 ^ p * Geometry.norm (d1 k)

/-- JAX's slope of `maximum(x, 0)`. -/
noncomputable def slope (x : ℝ) : ℝ := if 0 < x then 1 else if x = 0 then 1 / 2 else 0

/-- `thisgrad0` (L83). -/
noncomputable def lpCurvatureGrad0 {n : Nat} (kap : Fin n → ℝ) (d1 : Fin n → V3) (p threshold : ℝ) (k : Fin n) : ℝ :=
  (1 / p) * (1 / n) * (p * max (kap k - threshold) 0 ^ (p - 1) * slope (kap k - threshold)) * Geometry.norm (d1 k)

/-- `thisgrad1` (L84). -/
noncomputable def lpCurvatureGrad1 {n : Nat} (kap : Fin n → ℝ) (d1 : Fin n → V3) (p threshold : ℝ) (k : Fin n) : V3 :=
  ((1 / p) * (1 / n) * max (kap k - threshold) 0 ^ p / Geometry.norm (d1 k)) • d1 k

/-- `LpCurveCurvature.J` (L86-90). -/
noncomputable def LpCurvature {n : Nat} (d1 d2 : Fin n → V3) (p threshold : ℝ) : ℝ :=
  lpCurvature (fun k => kappa (d1 k) (d2 k)) d1 p threshold

/-- `LpCurveCurvature.dJ` (L92-99). -/
noncomputable def dLpCurvature {n m : Nat} (d1 d2 : Fin n → V3) (E1 E2 : Fin n → Fin m → V3) (p threshold : ℝ) (i : Fin m) : ℝ :=
  let kap := fun k => kappa (d1 k) (d2 k)
  let grad0 := lpCurvatureGrad0 kap d1 p threshold
  let grad1 := lpCurvatureGrad1 kap d1 p threshold
  dKappaVjp d1 d2 E1 E2 grad0 i + contract E1 grad1 i

/-- `Lp_torsion_pure` (L104-110). -/
noncomputable def lpTorsion {n : Nat} (tor : Fin n → ℝ) (d1 : Fin n → V3) (p threshold : ℝ) : ℝ :=
  (1 / p) * mean fun k => max (|tor k| - threshold) 0 ^ p * Geometry.norm (d1 k)

/-- JAX's slope of `abs`. -/
noncomputable def sign (x : ℝ) : ℝ := if 0 < x then 1 else if x < 0 then -1 else 0

/-- `thisgrad0` (L129). -/
noncomputable def lpTorsionGrad0 {n : Nat} (tor : Fin n → ℝ) (d1 : Fin n → V3) (p threshold : ℝ) (k : Fin n) : ℝ :=
  (1 / p) * (1 / n) * (p * max (|tor k| - threshold) 0 ^ (p - 1) * slope (|tor k| - threshold) * sign (tor k)) * Geometry.norm (d1 k)

/-- `thisgrad1` (L130). -/
noncomputable def lpTorsionGrad1 {n : Nat} (tor : Fin n → ℝ) (d1 : Fin n → V3) (p threshold : ℝ) (k : Fin n) : V3 :=
  ((1 / p) * (1 / n) * max (|tor k| - threshold) 0 ^ p / Geometry.norm (d1 k)) • d1 k

/-- `LpCurveTorsion.J` (L132-136). -/
noncomputable def LpTorsion {n : Nat} (d1 d2 d3 : Fin n → V3) (p threshold : ℝ) : ℝ :=
  lpTorsion (fun k => torsion (d1 k) (d2 k) (d3 k)) d1 p threshold

/-- `LpCurveTorsion.dJ` (L138-145). -/
noncomputable def dLpTorsion {n m : Nat} (d1 d2 d3 : Fin n → V3) (E1 E2 E3 : Fin n → Fin m → V3) (p threshold : ℝ) (i : Fin m) : ℝ :=
  let tor := fun k => torsion (d1 k) (d2 k) (d3 k)
  let grad0 := lpTorsionGrad0 tor d1 p threshold
  let grad1 := lpTorsionGrad1 tor d1 p threshold
  dTorsionVjp d1 d2 d3 E1 E2 E3 grad0 i + contract E1 grad1 i

/-! ### ArclengthVariation -/

/-- The argument `nintervals`. -/
inductive NIntervals where
  | full
  | partially
  | int (k : Int)

/-- `__init__` (L401-412): the number of intervals; `order` is the order of a CurveXYZFourier, `none` for other classes of curves.
The result is `none` if the constructor raises. -/
def nIntervals (nquadpoints : Nat) (order : Option Nat) : NIntervals → Option Nat
  | .full => some nquadpoints
  | .partially => match order with
    | some p => some (2 * p)
    | none => none
  | .int k => if 0 < k ∧ k ≤ nquadpoints then some k.toNat else none

/-- `np.floor(np.linspace(0, nquadpoints, nintervals+1)).astype(int)[i]` (L415), computed exactly. -/
def index (nquadpoints nintervals i : Nat) : Nat := i * nquadpoints / nintervals

/-- `mat` (L416-418); numpy evaluates `1/0` to inf, which is then assigned to an empty slice. -/
noncomputable def mat (nquadpoints nintervals : Nat) (i : Fin nintervals) (k : Fin nquadpoints) : ℝ :=
  if index nquadpoints nintervals i ≤ k ∧ (k : Nat) < index nquadpoints nintervals (i + 1) then
    1 / ((index nquadpoints nintervals (i + 1) : ℝ) - (index nquadpoints nintervals i : ℝ))
  else 0

/-- `mat @ l`. -/
noncomputable def matMul {a b : Nat} (A : Fin a → Fin b → ℝ) (l : Fin b → ℝ) (i : Fin a) : ℝ := ∑ k, A i k * l k

/-- `jnp.var`. -/
noncomputable def var {n : Nat} (y : Fin n → ℝ) : ℝ := mean fun i => (y i - mean y) ^ 2

/-- `ArclengthVariation.J` (L358-363, L422-423). -/
noncomputable def variation {n : Nat} (ni : Nat) (d1 : Fin n → V3) : ℝ := var (matMul (mat n ni) fun k => arclength (d1 k))

/-- `thisgrad` (L420). -/
noncomputable def variationGrad {n : Nat} (ni : Nat) (l : Fin n → ℝ) (k : Fin n) : ℝ :=
  let y := matMul (mat n ni) l
  ∑ i, (1 / ni) * (2 * (y i - mean y)) * mat n ni i k

/-- `ArclengthVariation.dJ` (L425-431). -/
noncomputable def dVariation {n m : Nat} (ni : Nat) (d1 : Fin n → V3) (E1 : Fin n → Fin m → V3) : Fin m → ℝ :=
  dArclengthVjp d1 E1 (variationGrad ni fun k => arclength (d1 k))

/-! ### MeanSquaredCurvature -/

/-- `curve_msc_pure` (L436-442). -/
noncomputable def mscPure {n : Nat} (kap : Fin n → ℝ) (d1 : Fin n → V3) : ℝ :=
  (mean fun k => kap k ^ 2 * Geometry.norm (d1 k)) / mean fun k => Geometry.norm (d1 k)

/-- `thisgrad0` (L462). -/
noncomputable def mscGrad0 {n : Nat} (kap : Fin n → ℝ) (d1 : Fin n → V3) (k : Fin n) : ℝ :=
  (1 / n) * (2 * kap k) * Geometry.norm (d1 k) / mean fun k => Geometry.norm (d1 k)

/-- `thisgrad1` (L463). -/
noncomputable def mscGrad1 {n : Nat} (kap : Fin n → ℝ) (d1 : Fin n → V3) (k : Fin n) : V3 :=
  (((1 / n) * kap k ^ 2 / (mean fun k => Geometry.norm (d1 k))
    - (mean fun k => kap k ^ 2 * Geometry.norm (d1 k)) / (mean fun k => Geometry.norm (d1 k)) ^ 2 * (1 / n)) / Geometry.norm (d1 k)) • d1 k

/-- `MeanSquaredCurvature.J` (L465-466). -/
noncomputable def msc {n : Nat} (d1 d2 : Fin n → V3) : ℝ := mscPure (fun k => kappa (d1 k) (d2 k)) d1

/-- `MeanSquaredCurvature.dJ` (L468-472). -/
noncomputable def dMsc {n m : Nat} (d1 d2 : Fin n → V3) (E1 E2 : Fin n → Fin m → V3) (i : Fin m) : ℝ :=
  let kap := fun k => kappa (d1 k) (d2 k)
  dKappaVjp d1 d2 E1 E2 (mscGrad0 kap d1) i + contract E1 (mscGrad1 kap d1) i

end Simsopt.Penalties
