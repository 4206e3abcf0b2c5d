import Verif.Frames.DashVjp
import Verif.Frames.Torsion
import Verif.Penalties.Grad
import Verif.Penalties.Values
/-!
# Model of the strain penalties (simsopt/geo/strain_optimization.py) and of the pull-backs of frame torsion and binormal curvature
(simsopt/geo/framedcurve.py)

Exact real arithmetic; `jax.vjp` of an array valued function `T` at `p` applied to `v` is the gradient of `q ↦ Σ v_i T(q)_i` at `p`.
-/
namespace Simsopt.Strain
open Simsopt Simsopt.Coils Simsopt.Frames

variable {N : ℕ} {E : Type}

/-- A quantity computed from `gamma, gammadash, gammadashdash, gammadashdashdash, alpha, alphadash` (of a Frenet frame). -/
abbrev Quant6 (N : ℕ) := (Fin N → V3) → (Fin N → V3) → (Fin N → V3) → (Fin N → V3) → (Fin N → ℝ) → (Fin N → ℝ) → Fin N → ℝ
/-- The same without `gammadashdashdash` (of a centroid frame). -/
abbrev Quant5 (N : ℕ) := (Fin N → V3) → (Fin N → V3) → (Fin N → V3) → (Fin N → ℝ) → (Fin N → ℝ) → Fin N → ℝ

/-- `FramedCurveFrenet.frame_torsion` and `frame_binormal_curvature` (framedcurve.py L91-109). -/
noncomputable def frenetTorsion : Quant6 N := fun g gd gdd gddd a ad i => torsionFrenet i g gd gdd gddd a ad
noncomputable def frenetBinormal : Quant6 N := fun g gd gdd gddd a ad i => binormalFrenet i g gd gdd gddd a ad
/-- `FramedCurveCentroid.frame_torsion` and `frame_binormal_curvature` (L256-272). -/
noncomputable def centroidTorsion : Quant5 N := fun g gd gdd a ad i => torsionCentroid i g gd gdd a ad
noncomputable def centroidBinormal : Quant5 N := fun g gd gdd a ad i => binormalCentroid i g gd gdd a ad

/-- `FramedCurveFrenet.dframe_torsion_by_dcoeff_vjp(v)` and `dframe_binormal_curvature_by_dcoeff_vjp(v)` (L111-165, with the functions of L49-82), for
    `T` the torsion and the binormal curvature. -/
noncomputable def vjp6 (T : Quant6 N) (P : Pulls N E) (g gd gdd gddd : Fin N → V3) (a ad v : Fin N → ℝ) (e : E) : ℝ :=
  let grad0 := gradV (fun y => pairR v (T y gd gdd gddd a ad)) g
  let grad1 := gradV (fun y => pairR v (T g y gdd gddd a ad)) gd
  let grad2 := gradV (fun y => pairR v (T g gd y gddd a ad)) gdd
  let grad3 := gradV (fun y => pairR v (T g gd gdd y a ad)) gddd
  let grad4 := gradR (fun y => pairR v (T g gd gdd gddd y ad)) a
  let grad5 := gradR (fun y => pairR v (T g gd gdd gddd a y)) ad
  P.d0 grad0 e + P.d1 grad1 e + P.d2 grad2 e + P.d3 grad3 e + P.al grad4 e + P.ald grad5 e

/-- `FramedCurveCentroid.dframe_binormal_curvature_by_dcoeff_vjp(v)` and `dframe_torsion_by_dcoeff_vjp(v)` (L331-376, with L231-254). -/
noncomputable def vjp5 (T : Quant5 N) (P : Pulls N E) (g gd gdd : Fin N → V3) (a ad v : Fin N → ℝ) (e : E) : ℝ :=
  let grad0 := gradV (fun y => pairR v (T y gd gdd a ad)) g
  let grad1 := gradV (fun y => pairR v (T g y gdd a ad)) gd
  let grad2 := gradV (fun y => pairR v (T g gd y a ad)) gdd
  let grad4 := gradR (fun y => pairR v (T g gd gdd y ad)) a
  let grad5 := gradR (fun y => pairR v (T g gd gdd a y)) ad
  P.d0 grad0 e + P.d1 grad1 e + P.d2 grad2 e + P.al grad4 e + P.ald grad5 e

/-- `torstrain_pure` (strain_optimization.py L177-182). -/
noncomputable def torstrain (torsion width : ℝ) : ℝ := torsion ^ 2 * width ^ 2 / 12
/-- `binormstrain_pure` (L185-191). -/
noncomputable def binormstrain (binorm width : ℝ) : ℝ := (width / 2) * |binorm|

/-- `torstrain_vjp(torsion, width, v)` and `binormstrain_vjp(binorm, width, v)` (L152-155); JAX's slope of `abs` at 0 is 0. -/
noncomputable def torstrainVjp (torsion : Fin N → ℝ) (width : ℝ) (v : Fin N → ℝ) : Fin N → ℝ := fun i => v i * (2 * torsion i * width ^ 2 / 12)
noncomputable def binormstrainVjp (binorm : Fin N → ℝ) (width : ℝ) (v : Fin N → ℝ) : Fin N → ℝ := fun i => v i * ((width / 2) * Penalties.sign (binorm i))

/-- `LPTorsionalStrainPenalty.J` (L100-104), from the frame torsion and `gammadash`. -/
noncomputable def torJ (tor : Fin N → ℝ) (gd : Fin N → V3) (width p threshold : ℝ) : ℝ :=
  Penalties.lpTorsion (fun i => torstrain (tor i) width) gd p threshold
/-- `LPBinormalCurvatureStrainPenalty.J` (L46-50). -/
noncomputable def binormJ (bn : Fin N → ℝ) (gd : Fin N → V3) (width p threshold : ℝ) : ℝ :=
  Penalties.lpTorsion (fun i => binormstrain (bn i) width) gd p threshold

/-- `LPTorsionalStrainPenalty.dJ` (L106-118): `back` is `framedcurve.dframe_torsion_by_dcoeff_vjp`. -/
noncomputable def torDJ (back : (Fin N → ℝ) → E → ℝ) (P : Pulls N E) (tor : Fin N → ℝ) (gd : Fin N → V3) (width p threshold : ℝ) (e : E) : ℝ :=
  let grad0 := Penalties.lpTorsionGrad0 (fun i => torstrain (tor i) width) gd p threshold
  let grad1 := Penalties.lpTorsionGrad1 (fun i => torstrain (tor i) width) gd p threshold
  let vjp0 := torstrainVjp tor width grad0
  back vjp0 e + P.d1 grad1 e
/-- `LPBinormalCurvatureStrainPenalty.dJ` (L52-64): `back` is `framedcurve.dframe_binormal_curvature_by_dcoeff_vjp`. -/
noncomputable def binormDJ (back : (Fin N → ℝ) → E → ℝ) (P : Pulls N E) (bn : Fin N → ℝ) (gd : Fin N → V3) (width p threshold : ℝ) (e : E) : ℝ :=
  let grad0 := Penalties.lpTorsionGrad0 (fun i => binormstrain (bn i) width) gd p threshold
  let grad1 := Penalties.lpTorsionGrad1 (fun i => binormstrain (bn i) width) gd p threshold
  let vjp0 := binormstrainVjp bn width grad0
  back vjp0 e + P.d1 grad1 e

end Simsopt.Strain
