import Verif.Curves.Geometry
import Mathlib.Analysis.Calculus.FDeriv.Prod
import Mathlib.Analysis.Calculus.FDeriv.Pi
/-!
# Model of framed curves and filaments (simsopt/geo/framedcurve.py, simsopt/geo/finitebuild.py)

Exact real arithmetic.  Arrays of shape `(N, 3)` are functions `Fin N → V3`.  `jax.jvp` and `jax.vjp` are modelled by the Fréchet derivative of the
row in question and by its transpose (with respect to the componentwise sum of products).  `inner` is `np.sum(a*b, axis=1)` (L600-602), the same
function as in curve.py.
-/
namespace Simsopt.Frames
open Simsopt Simsopt.Coils

/-- A tuple `t, n, b` at one point. -/
abbrev Frame := V3 × V3 × V3

/-- The rotation by `alpha` at the end of both frames (framedcurve.py L453-456, L512-516), together with `b = cross(t, n)` (L451, L511). -/
noncomputable def rotate (alpha : ℝ) (t n : V3) : Frame :=
  let b := cross t n
  (t, Real.cos alpha • n - Real.sin alpha • b, Real.sin alpha • n + Real.cos alpha • b)

/-- `jnp.mean(gamma, axis=0)` (L447). -/
noncomputable def mean {N : ℕ} (g : Fin N → V3) : V3 := ((N : ℝ)⁻¹) • ∑ i, g i

/-- L449-450: the part of `delta` orthogonal to `t`, normalised. -/
noncomputable def centroidNormal (delta t : V3) : V3 :=
  let n := delta - Geometry.inner delta t • t
  (1 / Geometry.norm n) • n

/-- One row of `rotated_centroid_frame(gamma, gammadash, alpha)` (L443-456). -/
noncomputable def centroidFrame {N : ℕ} (i : Fin N) (p : (Fin N → V3) × (Fin N → V3) × (Fin N → ℝ)) : Frame :=
  let t := (1 / Geometry.norm (p.2.1 i)) • p.2.1 i
  let delta := p.1 i - mean p.1
  rotate (p.2.2 i) t (centroidNormal delta t)

/-- L506-507: `tdash` of `rotated_frenet_frame`. -/
noncomputable def tdash (d1 d2 : V3) : V3 :=
  ((1 / Geometry.norm d1) ^ 2) • (Geometry.norm d1 • d2 - (Geometry.inner d1 d2 / Geometry.norm d1) • d1)

/-- One row of `rotated_frenet_frame(gamma, gammadash, gammadashdash, alpha)` (L497-516). -/
noncomputable def frenetFrame {N : ℕ} (i : Fin N) (p : (Fin N → V3) × (Fin N → V3) × (Fin N → V3) × (Fin N → ℝ)) : Frame :=
  let t := (1 / Geometry.norm (p.2.1 i)) • p.2.1 i
  let td := tdash (p.2.1 i) (p.2.2.1 i)
  rotate (p.2.2.2 i) t ((1 / Geometry.norm td) • td)

/-- `jvp(F, p, v)[1]`, one row. -/
noncomputable def jvp {X : Type*} [NormedAddCommGroup X] [NormedSpace ℝ X] (F : X → Frame) (p v : X) : Frame := fderiv ℝ F p v

/-- One row of `rotated_centroid_frame_dash` (L459-462): the tangents are `gammadash, gammadashdash, alphadash`. -/
noncomputable def centroidFrameDash {N : ℕ} (i : Fin N) (gamma gammadash gammadashdash : Fin N → V3) (alpha alphadash : Fin N → ℝ) : Frame :=
  jvp (centroidFrame i) (gamma, gammadash, alpha) (gammadash, gammadashdash, alphadash)

/-- One row of `rotated_frenet_frame_dash` (L519-523). -/
noncomputable def frenetFrameDash {N : ℕ} (i : Fin N) (gamma gammadash gammadashdash gammadashdashdash : Fin N → V3) (alpha alphadash : Fin N → ℝ) : Frame :=
  jvp (frenetFrame i) (gamma, gammadash, gammadashdash, alpha) (gammadash, gammadashdash, gammadashdashdash, alphadash)

/-- `torsion_pure_frenet` (L605-614), one row. -/
noncomputable def torsionFrenet {N : ℕ} (i : Fin N) (g gd gdd gddd : Fin N → V3) (a ad : Fin N → ℝ) : ℝ :=
  Geometry.inner ((1 / Geometry.norm (gd i)) • (frenetFrameDash i g gd gdd gddd a ad).2.1) (frenetFrame i (g, gd, gdd, a)).2.2

/-- `binormal_curvature_pure_frenet` (L617-626), one row. -/
noncomputable def binormalFrenet {N : ℕ} (i : Fin N) (g gd gdd gddd : Fin N → V3) (a ad : Fin N → ℝ) : ℝ :=
  Geometry.inner ((1 / Geometry.norm (gd i)) • (frenetFrameDash i g gd gdd gddd a ad).1) (frenetFrame i (g, gd, gdd, a)).2.2

/-- `torsion_pure_centroid` (L629-638), one row. -/
noncomputable def torsionCentroid {N : ℕ} (i : Fin N) (g gd gdd : Fin N → V3) (a ad : Fin N → ℝ) : ℝ :=
  Geometry.inner ((1 / Geometry.norm (gd i)) • (centroidFrameDash i g gd gdd a ad).2.1) (centroidFrame i (g, gd, a)).2.2

/-- `binormal_curvature_pure_centroid` (L641-649), one row. -/
noncomputable def binormalCentroid {N : ℕ} (i : Fin N) (g gd gdd : Fin N → V3) (a ad : Fin N → ℝ) : ℝ :=
  Geometry.inner ((1 / Geometry.norm (gd i)) • (centroidFrameDash i g gd gdd a ad).1) (centroidFrame i (g, gd, a)).2.2

/-! ### `FrameRotation` -/

/-- `jaxrotation_pure(dofs, points, order)` at one point (L566-572). -/
noncomputable def rotation (order : ℕ) (dofs : ℕ → ℝ) (x : ℝ) : ℝ :=
  (List.range order).foldl (fun acc k => (acc + dofs (2 * (k + 1) - 1) * Real.sin (2 * Real.pi * (k + 1 : ℕ) * x)) +
    dofs (2 * (k + 1)) * Real.cos (2 * Real.pi * (k + 1 : ℕ) * x)) (0 + dofs 0)

/-- `jaxrotationdash_pure` (L575-580). -/
noncomputable def rotationdash (order : ℕ) (dofs : ℕ → ℝ) (x : ℝ) : ℝ :=
  (List.range order).foldl (fun acc k => (acc + dofs (2 * (k + 1) - 1) * 2 * Real.pi * (k + 1 : ℕ) * Real.cos (2 * Real.pi * (k + 1 : ℕ) * x)) -
    dofs (2 * (k + 1)) * 2 * Real.pi * (k + 1 : ℕ) * Real.sin (2 * Real.pi * (k + 1 : ℕ) * x)) 0

/-- `jac[i, p]` of `rotation_dcoeff` (L583-589): `p` is odd for sines. -/
noncomputable def rotationJac (x : ℝ) (p : ℕ) : ℝ :=
  if p = 0 then 1 else if p % 2 = 1 then Real.sin (2 * Real.pi * ((p + 1) / 2 : ℕ) * x) else Real.cos (2 * Real.pi * (p / 2 : ℕ) * x)

/-- `jac[i, p]` of `rotationdash_dcoeff` (L592-597). -/
noncomputable def rotationdashJac (x : ℝ) (p : ℕ) : ℝ :=
  if p = 0 then 0 else if p % 2 = 1 then 2 * Real.pi * ((p + 1) / 2 : ℕ) * Real.cos (2 * Real.pi * ((p + 1) / 2 : ℕ) * x)
  else -(2 * Real.pi * (p / 2 : ℕ) * Real.sin (2 * Real.pi * (p / 2 : ℕ) * x))

/-- `FrameRotation.alpha` and `alphadash` (L402-406). -/
noncomputable def alpha (order : ℕ) (scale : ℝ) (dofs : ℕ → ℝ) (x : ℝ) : ℝ := scale * rotation order dofs x
noncomputable def alphadash (order : ℕ) (scale : ℝ) (dofs : ℕ → ℝ) (x : ℝ) : ℝ := scale * rotationdash order dofs x

/-- `dalpha_by_dcoeff_vjp(_, v)` and `dalphadash_by_dcoeff_vjp(_, v)` (L408-412): entry `p` of `scale * vjp(v, jac)`; the Jacobians are those at
    the quadrature points `q` of the rotation, whatever points are passed. -/
noncomputable def alphaVjp {N : ℕ} (scale : ℝ) (q : Fin N → ℝ) (v : Fin N → ℝ) (p : ℕ) : ℝ := scale * ∑ i, v i * rotationJac (q i) p
noncomputable def alphadashVjp {N : ℕ} (scale : ℝ) (q : Fin N → ℝ) (v : Fin N → ℝ) (p : ℕ) : ℝ := scale * ∑ i, v i * rotationdashJac (q i) p

/-! ### `CurveFilament` and `create_multifilament_grid` -/

/-- `gamma[:] = self.curve.gamma() + self.dn * n + self.db * b` (finitebuild.py L43-47) and the same with the derivatives (L49-51): one row. -/
noncomputable def filament (dn db : ℝ) (gamma : V3) (f : Frame) : V3 := gamma + dn • f.2.1 + db • f.2.2

/-- `shifts_n`, `shifts_b` (finitebuild.py L108-117). -/
noncomputable def shift (num : ℕ) (gap : ℝ) (i : ℕ) : ℝ :=
  (if num % 2 = 1 then (i : ℝ) - ((num / 2 : ℕ) : ℝ) else (i : ℝ) - (num : ℝ) / 2 + 0.5) * gap

/-- The pairs `(dn, db)` of the filaments in the order of the returned list (L130-134). -/
noncomputable def gridShifts (nn nb : ℕ) (gapn gapb : ℝ) : List (ℝ × ℝ) :=
  (List.range nn).flatMap fun i => (List.range nb).map fun j => (shift nn gapn i, shift nb gapb j)

/-- The scale of the rotation (L119-124). -/
noncomputable def rotationScale (scaling : Option ℝ) (gapn gapb : ℝ) : ℝ := scaling.getD (1 / max gapn gapb)

/-! ### Pull-backs of filaments -/

/-- The pairing of two arrays. -/
def pair {N : ℕ} (u v : Fin N → V3) : ℝ := ∑ i, Geometry.inner (u i) (v i)
def pairR {N : ℕ} (u v : Fin N → ℝ) : ℝ := ∑ i, u i * v i

/-- The gradient of a scalar function of an array. -/
noncomputable def gradV {N : ℕ} (φ : (Fin N → V3) → ℝ) (p : Fin N → V3) : Fin N → V3 :=
  fun j => (fderiv ℝ φ p (Pi.single j (1, 0, 0)), fderiv ℝ φ p (Pi.single j (0, 1, 0)), fderiv ℝ φ p (Pi.single j (0, 0, 1)))
noncomputable def gradR {N : ℕ} (φ : (Fin N → ℝ) → ℝ) (p : Fin N → ℝ) : Fin N → ℝ := fun j => fderiv ℝ φ p (Pi.single j 1)

/-- The pairing of the cotangent `(zero, dn*v, db*v)` (L174-185 and so on) with the three arrays of a frame; `vjp(F, p)[1](w)[0]` is the gradient
    of `q ↦ Σ w·F(q)` at `p`. -/
def cotangent {N : ℕ} (dn db : ℝ) (v : Fin N → V3) (F : Fin N → Frame) : ℝ :=
  ∑ i, (Geometry.inner 0 (F i).1 + Geometry.inner (dn • v i) (F i).2.1 + Geometry.inner (db • v i) (F i).2.2)

section vjp
variable {N : ℕ} (dn db : ℝ) (v g gd gdd gddd : Fin N → V3) (a ad : Fin N → ℝ)

/-- `FramedCurveFrenet.rotated_frame_dcoeff_vjp(v, dn, db, arg)` for `arg` = 0, 1, 2 and for 3 (L167-185, L525-539). -/
noncomputable def frenetVjp (k : Fin 3) : Fin N → V3 := match k with
  | 0 => gradV (fun y => cotangent dn db v fun i => frenetFrame i (y, gd, gdd, a)) g
  | 1 => gradV (fun y => cotangent dn db v fun i => frenetFrame i (g, y, gdd, a)) gd
  | 2 => gradV (fun y => cotangent dn db v fun i => frenetFrame i (g, gd, y, a)) gdd
noncomputable def frenetVjpAlpha : Fin N → ℝ := gradR (fun y => cotangent dn db v fun i => frenetFrame i (g, gd, gdd, y)) a

/-- `FramedCurveCentroid.rotated_frame_dcoeff_vjp` for `arg` = 0, 1 and for 3 (L286-302, L464-474); for `arg` = 2 it is `None`. -/
noncomputable def centroidVjp (k : Fin 2) : Fin N → V3 := match k with
  | 0 => gradV (fun y => cotangent dn db v fun i => centroidFrame i (y, gd, a)) g
  | 1 => gradV (fun y => cotangent dn db v fun i => centroidFrame i (g, y, a)) gd
noncomputable def centroidVjpAlpha : Fin N → ℝ := gradR (fun y => cotangent dn db v fun i => centroidFrame i (g, gd, y)) a

/-- `FramedCurveFrenet.rotated_frame_dash_dcoeff_vjp` for `arg` = 0, 1, 2, 3 and for 4, 5 (L187-215, L541-563). -/
noncomputable def frenetDashVjp (k : Fin 4) : Fin N → V3 := match k with
  | 0 => gradV (fun y => cotangent dn db v fun i => frenetFrameDash i y gd gdd gddd a ad) g
  | 1 => gradV (fun y => cotangent dn db v fun i => frenetFrameDash i g y gdd gddd a ad) gd
  | 2 => gradV (fun y => cotangent dn db v fun i => frenetFrameDash i g gd y gddd a ad) gdd
  | 3 => gradV (fun y => cotangent dn db v fun i => frenetFrameDash i g gd gdd y a ad) gddd
noncomputable def frenetDashVjpAlpha (k : Fin 2) : Fin N → ℝ := match k with
  | 0 => gradR (fun y => cotangent dn db v fun i => frenetFrameDash i g gd gdd gddd y ad) a
  | 1 => gradR (fun y => cotangent dn db v fun i => frenetFrameDash i g gd gdd gddd a y) ad

/-- `FramedCurveCentroid.rotated_frame_dash_dcoeff_vjp` for `arg` = 0, 1, 2 and for 4, 5 (L304-329, L476-494); for `arg` = 3 it is `None`. -/
noncomputable def centroidDashVjp (k : Fin 3) : Fin N → V3 := match k with
  | 0 => gradV (fun y => cotangent dn db v fun i => centroidFrameDash i y gd gdd a ad) g
  | 1 => gradV (fun y => cotangent dn db v fun i => centroidFrameDash i g y gdd a ad) gd
  | 2 => gradV (fun y => cotangent dn db v fun i => centroidFrameDash i g gd y a ad) gdd
noncomputable def centroidDashVjpAlpha (k : Fin 2) : Fin N → ℝ := match k with
  | 0 => gradR (fun y => cotangent dn db v fun i => centroidFrameDash i g gd gdd y ad) a
  | 1 => gradR (fun y => cotangent dn db v fun i => centroidFrameDash i g gd gdd a y) ad
end vjp

/-- What a filament uses of its curve and its rotation: the pull-backs `dgamma_by_dcoeff_vjp`, ..., `dalphadash_by_dcoeff_vjp`.  A `Derivative` is
    modelled by the linear functional on the directions `E` in the space of all dofs. -/
structure Pulls (N : ℕ) (E : Type) where
  d0 : (Fin N → V3) → E → ℝ
  d1 : (Fin N → V3) → E → ℝ
  d2 : (Fin N → V3) → E → ℝ
  d3 : (Fin N → V3) → E → ℝ
  al : (Fin N → ℝ) → E → ℝ
  ald : (Fin N → ℝ) → E → ℝ

/-- `CurveFilament.dgamma_by_dcoeff_vjp(v)` (finitebuild.py L53-63), given the results of `rotated_frame_dcoeff_vjp`. -/
def filamentVjp {N : ℕ} {E : Type} (P : Pulls N E) (v vg vgd : Fin N → V3) (vgdd : Option (Fin N → V3)) (va : Fin N → ℝ) (e : E) : ℝ :=
  let out := P.d0 (v + vg) e + P.d1 vgd e + P.al va e
  match vgdd with
  | none => out
  | some u => out + P.d2 u e

/-- `CurveFilament.dgammadash_by_dcoeff_vjp(v)` (finitebuild.py L65-80). -/
def filamentDashVjp {N : ℕ} {E : Type} (P : Pulls N E) (v vg vgd vgdd : Fin N → V3) (vgddd : Option (Fin N → V3)) (va vad : Fin N → ℝ) (e : E) : ℝ :=
  let out := P.d0 vg e + P.d1 (v + vgd) e + P.d2 vgdd e + P.al va e + P.ald vad e
  match vgddd with
  | none => out
  | some u => out + P.d3 u e

end Simsopt.Frames
