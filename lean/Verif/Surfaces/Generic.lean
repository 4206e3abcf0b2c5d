import Verif.Curves.Geometry
import Mathlib.Analysis.SpecialFunctions.Pow.Deriv
import Mathlib.Algebra.BigOperators.Field
/-!
# Quantities derived from the arrays of a surface: model

Model of src/simsoptpp/surface.cpp (normals, fundamental forms, curvatures, area, volume and their first and second derivatives in the dofs) and of the
aspect ratio, minor and major radius and mean cross-sectional area in src/simsopt/geo/surface.py.

Simplifications: real numbers instead of doubles (division by 0 gives 0 here; theorems assume that there is none); the quadrature points `(i, j)` are the elements of
a list; the columns of the Jacobian arrays that belong to one dof form a `Shape` like the arrays themselves.
-/
namespace Simsopt.Surface
open Simsopt Simsopt.Coils
open Simsopt.Geometry hiding norm normal

/-- The arrays `gamma`, `gammadash1`, `gammadash2`, `gammadash1dash1`, `gammadash1dash2`, `gammadash2dash2` of a surface; or the columns of `dgamma_by_dcoeff`, ... for one dof. -/
structure Shape (P : Type) where
  x : P → V3
  g1 : P → V3
  g2 : P → V3
  g11 : P → V3
  g12 : P → V3
  g22 : P → V3

variable {P : Type}

/-- `normal_impl` (surface.cpp L380-391). -/
def normal (S : Shape P) (p : P) : V3 :=
  let a := S.g1 p; let b := S.g2 p
  (a.2.1 * b.2.2 - a.2.2 * b.2.1, a.2.2 * b.1 - a.1 * b.2.2, a.1 * b.2.1 - a.2.1 * b.1)

/-- `dnormal_by_dcoeff_impl` (surface.cpp L392-424): the column of one dof. -/
def dnormal (S D : Shape P) (p : P) : V3 :=
  let a := S.g1 p; let b := S.g2 p; let da := D.g1 p; let db := D.g2 p
  (da.2.1 * b.2.2 - da.2.2 * b.2.1 + (a.2.1 * db.2.2 - a.2.2 * db.2.1),
   da.2.2 * b.1 - da.1 * b.2.2 + (a.2.2 * db.1 - a.1 * db.2.2),
   da.1 * b.2.1 - da.2.1 * b.1 + (a.1 * db.2.1 - a.2.1 * db.1))

/-- `d2normal_by_dcoeffdcoeff_impl` (surface.cpp L426-447): the entry of dofs `m` (columns `D`) and `n` (columns `E`). -/
def d2normal (D E : Shape P) (p : P) : V3 :=
  let am := D.g1 p; let bm := D.g2 p; let an := E.g1 p; let bn := E.g2 p
  (am.2.1 * bn.2.2 - am.2.2 * bn.2.1 + (an.2.1 * bm.2.2 - an.2.2 * bm.2.1),
   am.2.2 * bn.1 - am.1 * bn.2.2 + (an.2.2 * bm.1 - an.1 * bm.2.2),
   am.1 * bn.2.1 - am.2.1 * bn.1 + (an.1 * bm.2.1 - an.2.1 * bm.1))

/-- The local `norm`, `normn`. -/
noncomputable def len (n : V3) : ℝ := Real.sqrt (n.1 * n.1 + n.2.1 * n.2.1 + n.2.2 * n.2.2)

/-- `unitnormal_impl` (surface.cpp L449-460). -/
noncomputable def unitnormal (S : Shape P) (p : P) : V3 :=
  let n := normal S p; let l := len n
  (n.1 / l, n.2.1 / l, n.2.2 / l)

/-- `dunitnormal_by_dcoeff_impl` (surface.cpp L462-489). -/
noncomputable def dunitnormal (S D : Shape P) (p : P) : V3 :=
  let n := normal S p; let dn := dnormal S D p; let l := len n
  let fac0 := -n.1 * n.1 / (l * l * l) + 1 / l
  let fac1 := -n.2.1 * n.2.1 / (l * l * l) + 1 / l
  let fac2 := -n.2.2 * n.2.2 / (l * l * l) + 1 / l
  (fac0 * dn.1 - n.1 * n.2.1 * dn.2.1 / (l * l * l) - n.1 * n.2.2 * dn.2.2 / (l * l * l),
   fac1 * dn.2.1 - n.2.1 * n.1 * dn.1 / (l * l * l) - n.2.1 * n.2.2 * dn.2.2 / (l * l * l),
   fac2 * dn.2.2 - n.2.2 * n.1 * dn.1 / (l * l * l) - n.2.2 * n.2.1 * dn.2.1 / (l * l * l))

/-- `first_fund_form_impl` (surface.cpp L183-194): `(E, F, G)`. -/
def firstForm (S : Shape P) (p : P) : V3 :=
  let a := S.g1 p; let b := S.g2 p
  (a.1 * a.1 + a.2.1 * a.2.1 + a.2.2 * a.2.2, a.1 * b.1 + a.2.1 * b.2.1 + a.2.2 * b.2.2, b.1 * b.1 + b.2.1 * b.2.1 + b.2.2 * b.2.2)

/-- `dfirst_fund_form_by_dcoeff_impl` (surface.cpp L196-232). -/
def dfirstForm (S D : Shape P) (p : P) : V3 :=
  let a := S.g1 p; let b := S.g2 p; let da := D.g1 p; let db := D.g2 p
  (2 * da.1 * a.1 + 2 * da.2.1 * a.2.1 + 2 * da.2.2 * a.2.2,
   da.1 * b.1 + db.1 * a.1 + da.2.1 * b.2.1 + db.2.1 * a.2.1 + da.2.2 * b.2.2 + db.2.2 * a.2.2,
   2 * db.1 * b.1 + 2 * db.2.1 * b.2.1 + 2 * db.2.2 * b.2.2)

/-- `second_fund_form_impl` (surface.cpp L234-249): `(e, f, g)`. -/
noncomputable def secondForm (S : Shape P) (p : P) : V3 :=
  let u := unitnormal S p
  (u.1 * (S.g11 p).1 + u.2.1 * (S.g11 p).2.1 + u.2.2 * (S.g11 p).2.2,
   u.1 * (S.g12 p).1 + u.2.1 * (S.g12 p).2.1 + u.2.2 * (S.g12 p).2.2,
   u.1 * (S.g22 p).1 + u.2.1 * (S.g22 p).2.1 + u.2.2 * (S.g22 p).2.2)

/-- `dsecond_fund_form_by_dcoeff_impl` (surface.cpp L251-305). -/
noncomputable def dsecondForm (S D : Shape P) (p : P) : V3 :=
  let u := unitnormal S p; let du := dunitnormal S D p
  (du.1 * (S.g11 p).1 + u.1 * (D.g11 p).1 + du.2.1 * (S.g11 p).2.1 + u.2.1 * (D.g11 p).2.1 + du.2.2 * (S.g11 p).2.2 + u.2.2 * (D.g11 p).2.2,
   du.1 * (S.g12 p).1 + u.1 * (D.g12 p).1 + du.2.1 * (S.g12 p).2.1 + u.2.1 * (D.g12 p).2.1 + du.2.2 * (S.g12 p).2.2 + u.2.2 * (D.g12 p).2.2,
   du.1 * (S.g22 p).1 + u.1 * (D.g22 p).1 + du.2.1 * (S.g22 p).2.1 + u.2.1 * (D.g22 p).2.1 + du.2.2 * (S.g22 p).2.2 + u.2.2 * (D.g22 p).2.2)

/-- The mean curvature, `data(i, j, 0)` of `surface_curvatures_impl` (surface.cpp L356-373). -/
noncomputable def meanCurv (S : Shape P) (p : P) : ℝ :=
  let I := firstForm S p; let II := secondForm S p
  (II.1 * I.2.2 - 2 * I.2.1 * II.2.1 + II.2.2 * I.1) / (2 * (I.1 * I.2.2 - I.2.1 * I.2.1))

/-- The Gaussian curvature, `data(i, j, 1)` (surface.cpp L374). -/
noncomputable def gaussCurv (S : Shape P) (p : P) : ℝ :=
  let I := firstForm S p; let II := secondForm S p
  (II.1 * II.2.2 - II.2.1 * II.2.1) / (I.1 * I.2.2 - I.2.1 * I.2.1)

/-- The principal curvatures, `data(i, j, 2)` and `data(i, j, 3)` (surface.cpp L375-376). -/
noncomputable def principal (S : Shape P) (p : P) : ℝ × ℝ :=
  (meanCurv S p + Real.sqrt (meanCurv S p * meanCurv S p - gaussCurv S p), meanCurv S p - Real.sqrt (meanCurv S p * meanCurv S p - gaussCurv S p))

/-- `dsurface_curvatures_by_dcoeff_impl` (surface.cpp L307-353): `(dH, dK, dκ1, dκ2)`. -/
noncomputable def dcurvatures (S D : Shape P) (p : P) : ℝ × ℝ × ℝ × ℝ :=
  let I := firstForm S p; let II := secondForm S p; let dI := dfirstForm S D p; let dII := dsecondForm S D p
  let denom := I.1 * I.2.2 - I.2.1 * I.2.1
  let data0 := (II.1 * I.2.2 - 2 * I.2.1 * II.2.1 + II.2.2 * I.1) / (2 * denom)
  let data1 := (II.1 * II.2.2 - II.2.1 * II.2.1) / denom
  let term2 := Real.sqrt (data0 * data0 - data1)
  let ddenom := dI.1 * I.2.2 + I.1 * dI.2.2 - 2 * dI.2.1 * I.2.1
  let d0 := (dII.1 * I.2.2 + II.1 * dI.2.2 - 2 * dI.2.1 * II.2.1 - 2 * I.2.1 * dII.2.1 + dII.2.2 * I.1 + II.2.2 * dI.1) / (2 * denom) - data0 * ddenom / denom
  let d1 := (dII.1 * II.2.2 + II.1 * dII.2.2 - 2 * dII.2.1 * II.2.1) / denom - data1 * ddenom / denom
  let dterm2 := (data0 * d0 - 0.5 * d1) / term2
  (d0, d1, d0 + dterm2, d0 - dterm2)

/-- `area` (surface.cpp L491-501). -/
noncomputable def area (S : Shape P) (pts : List P) : ℝ := (pts.map fun p => len (normal S p)).sum / pts.length

/-- A contraction of an array `v` with the columns of one dof: `surface_vjp_contraction` (surface.cpp L7-40), entry of one dof; for SurfaceRZFourier the overridden
`_vjp` functions compute the same (C67). -/
def contract (col v : P → V3) (pts : List P) : ℝ := (pts.map fun p => inner (col p) (v p)).sum

/-- `res_dgammadash1` of `dnormal_by_dcoeff_vjp` (surface.cpp L545-554): component `d` is `(e_d × g2) · v`. -/
def vjpRes1 (S : Shape P) (v : P → V3) (p : P) : V3 :=
  let b := S.g2 p
  let entry := fun (e0 e1 e2 : ℝ) => (e1 * b.2.2 - e2 * b.2.1) * (v p).1 + (e2 * b.1 - e0 * b.2.2) * (v p).2.1 + (e0 * b.2.1 - e1 * b.1) * (v p).2.2
  (entry 1 0 0, entry 0 1 0, entry 0 0 1)

/-- `res_dgammadash2` of `dnormal_by_dcoeff_vjp` (surface.cpp L555-558): component `d` is `(g1 × e_d) · v`. -/
def vjpRes2 (S : Shape P) (v : P → V3) (p : P) : V3 :=
  let a := S.g1 p
  let entry := fun (e0 e1 e2 : ℝ) => (a.2.1 * e2 - a.2.2 * e1) * (v p).1 + (a.2.2 * e0 - a.1 * e2) * (v p).2.1 + (a.1 * e1 - a.2.1 * e0) * (v p).2.2
  (entry 1 0 0, entry 0 1 0, entry 0 0 1)

/-- `dnormal_by_dcoeff_vjp` (surface.cpp L538-562), entry of the dof with columns `D`. -/
def dnormalVjp (S D : Shape P) (v : P → V3) (pts : List P) : ℝ := contract D.g1 (vjpRes1 S v) pts + contract D.g2 (vjpRes2 S v) pts

/-- `darea_by_dcoeff_impl` (surface.cpp L503-536), entry of the dof with columns `D`. -/
noncomputable def darea (S D : Shape P) (pts : List P) : ℝ :=
  dnormalVjp S D (fun p => let n := normal S p; (n.1 / len n * (1 / pts.length), n.2.1 / len n * (1 / pts.length), n.2.2 / len n * (1 / pts.length))) pts

/-- `d2area_by_dcoeffdcoeff_impl` (surface.cpp L564-593), entry `(m, n)` with columns `D`, `E`. -/
noncomputable def d2area (S D E : Shape P) (pts : List P) : ℝ :=
  (pts.map fun p =>
    let nor := normal S p; let dm := dnormal S D p; let dn := dnormal S E p; let d2 := d2normal D E p
    let l := len nor
    let dl := (dn.1 * nor.1 + dn.2.1 * nor.2.1 + dn.2.2 * nor.2.2) / l
    dm.1 * (dn.1 * l - dl * nor.1) / (l * l) + dm.2.1 * (dn.2.1 * l - dl * nor.2.1) / (l * l) + dm.2.2 * (dn.2.2 * l - dl * nor.2.2) / (l * l)
      + d2.1 * nor.1 / l + d2.2.1 * nor.2.1 / l + d2.2.2 * nor.2.2 / l).sum * (1 / pts.length)

/-- `volume` (surface.cpp L596-609). -/
noncomputable def volume (S : Shape P) (pts : List P) : ℝ :=
  (pts.map fun p => (1 / 3) * ((S.x p).1 * (normal S p).1 + (S.x p).2.1 * (normal S p).2.1 + (S.x p).2.2 * (normal S p).2.2)).sum / pts.length

/-- `dvolume_by_dcoeff_impl` (surface.cpp L611-647). -/
noncomputable def dvolume (S D : Shape P) (pts : List P) : ℝ :=
  dnormalVjp S D (fun p => ((1 / 3) * (S.x p).1 * (1 / pts.length), (1 / 3) * (S.x p).2.1 * (1 / pts.length), (1 / 3) * (S.x p).2.2 * (1 / pts.length))) pts +
  contract D.x (fun p => ((1 / 3) * (normal S p).1 * (1 / pts.length), (1 / 3) * (normal S p).2.1 * (1 / pts.length), (1 / 3) * (normal S p).2.2 * (1 / pts.length))) pts

/-- `d2volume_by_dcoeffdcoeff_impl` (surface.cpp L651-777 vectorised, L781-805 scalar). -/
noncomputable def d2volume (S D E : Shape P) (pts : List P) : ℝ :=
  (pts.map fun p =>
    let x := S.x p; let xm := D.x p; let xn := E.x p; let nm := dnormal S D p; let nn := dnormal S E p; let d2 := d2normal D E p
    (1 / 3) * (xm.1 * nn.1 + xm.2.1 * nn.2.1 + xm.2.2 * nn.2.2) +
    (1 / 3) * (x.1 * d2.1 + xn.1 * nm.1 + x.2.1 * d2.2.1 + xn.2.1 * nm.2.1 + x.2.2 * d2.2.2 + xn.2.2 * nm.2.2)).sum * (1 / pts.length)

/-! ### surface.py -/

/-- `np.mean` over both axes. -/
noncomputable def mean (f : P → ℝ) (pts : List P) : ℝ := (pts.map f).sum / pts.length

/-- The summand of `mean_cross_sectional_area` (surface.py L651-668): the entries of `J`, its determinant and the entries of its inverse as `np.linalg` defines them. -/
noncomputable def csTerm (S : Shape P) (p : P) : ℝ :=
  let X := S.x p; let a := S.g1 p; let b := S.g2 p
  let x2y2 := X.1 ^ 2 + X.2.1 ^ 2
  let J00 := (X.1 * a.2.1 - X.2.1 * a.1) / x2y2
  let J01 := (X.1 * b.2.1 - X.2.1 * b.1) / x2y2
  let J10 : ℝ := 0
  let J11 : ℝ := 1
  let detJ := J00 * J11 - J01 * J10
  let inv01 := -J01 / detJ
  let inv11 := J00 / detJ
  let dZ := a.2.2 * inv01 + b.2.2 * inv11
  Real.sqrt x2y2 * dZ * detJ

/-- `mean_cross_sectional_area` (surface.py L596-669). -/
noncomputable def meanArea (S : Shape P) (pts : List P) : ℝ := |mean (csTerm S) pts| / (2 * Real.pi)

/-- The summand of `mean_area` in `dmean_cross_sectional_area_by_dcoeff` (surface.py L709, L764). -/
noncomputable def areaTerm (S : Shape P) (p : P) : ℝ :=
  let X := S.x p; let a := S.g1 p; let b := S.g2 p
  (1 / Real.sqrt (X.1 ^ 2 + X.2.1 ^ 2)) * (b.2.2 * (X.1 * a.2.1 - X.2.1 * a.1) - a.2.2 * (X.1 * b.2.1 - X.2.1 * b.1))

/-- The summand of `dmean_area_ds` (surface.py L710). -/
noncomputable def dareaTerm (S D : Shape P) (p : P) : ℝ :=
  let x := (S.x p).1; let y := (S.x p).2.1
  let dx := (D.x p).1; let dy := (D.x p).2.1
  let r := Real.sqrt (x ^ 2 + y ^ 2)
  let dr := (x * dx + y * dy) / r
  let xv := (S.g1 p).1; let yv := (S.g1 p).2.1; let zv := (S.g1 p).2.2
  let xt := (S.g2 p).1; let yt := (S.g2 p).2.1; let zt := (S.g2 p).2.2
  let dxv := (D.g1 p).1; let dyv := (D.g1 p).2.1; let dzv := (D.g1 p).2.2
  let dxt := (D.g2 p).1; let dyt := (D.g2 p).2.1; let dzt := (D.g2 p).2.2
  (1 / r ^ 2) * ((xv * y * zt - xt * y * zv + x * (-yv * zt + yt * zv)) * dr +
    r * (-zv * (yt * dx - y * dxt - xt * dy + x * dyt) + zt * (yv * dx - y * dxv - xv * dy + x * dyv) + (-xv * y + x * yv) * dzt + (xt * y - x * yt) * dzv))

/-- `dmean_cross_sectional_area_by_dcoeff` (surface.py L671-711), entry of the dof with columns `D`. -/
noncomputable def dmeanArea (S D : Shape P) (pts : List P) : ℝ :=
  SignType.sign (mean (areaTerm S) pts / (2 * Real.pi)) * mean (dareaTerm S D) pts / (2 * Real.pi)

/-- The summand of `d2mean_area_ds2` (surface.py L765-788). -/
noncomputable def d2areaTerm (S D E : Shape P) (p : P) : ℝ :=
  let x := (S.x p).1; let y := (S.x p).2.1
  let dx_ds := (D.x p).1; let dy_ds := (D.x p).2.1
  let dx_dt := (E.x p).1; let dy_dt := (E.x p).2.1
  let r := Real.sqrt (x ^ 2 + y ^ 2)
  let dr_ds := (x * dx_ds + y * dy_ds) / r
  let dr_dt := (x * dx_dt + y * dy_dt) / r
  let dr2_dsdt := -((2 * x * dx_dt + 2 * y * dy_dt) * (2 * x * dx_ds + 2 * y * dy_ds)) / (4 * (x ^ 2 + y ^ 2) ^ (3 / 2 : ℝ)) + (2 * dx_dt * dx_ds + 2 * dy_dt * dy_ds) / (2 * r)
  let xvarphi := (S.g1 p).1; let yvarphi := (S.g1 p).2.1; let zvarphi := (S.g1 p).2.2
  let xtheta := (S.g2 p).1; let ytheta := (S.g2 p).2.1; let ztheta := (S.g2 p).2.2
  let dxvarphi_ds := (D.g1 p).1; let dyvarphi_ds := (D.g1 p).2.1; let dzvarphi_ds := (D.g1 p).2.2
  let dxtheta_ds := (D.g2 p).1; let dytheta_ds := (D.g2 p).2.1; let dztheta_ds := (D.g2 p).2.2
  let dxvarphi_dt := (E.g1 p).1; let dyvarphi_dt := (E.g1 p).2.1; let dzvarphi_dt := (E.g1 p).2.2
  let dxtheta_dt := (E.g2 p).1; let dytheta_dt := (E.g2 p).2.1; let dztheta_dt := (E.g2 p).2.2
  (2 * (-(xvarphi * y * ztheta) + xtheta * y * zvarphi + x * (yvarphi * ztheta - ytheta * zvarphi)) * dr_dt * dr_ds -
    r * ((yvarphi * ztheta - ytheta * zvarphi) * dx_dt + y * zvarphi * dxtheta_dt - y * ztheta * dxvarphi_dt - xvarphi * ztheta * dy_dt + xtheta * zvarphi * dy_dt -
      xvarphi * y * dztheta_dt + xtheta * y * dzvarphi_dt + x * (-(zvarphi * dytheta_dt) + ztheta * dyvarphi_dt + yvarphi * dztheta_dt - ytheta * dzvarphi_dt)) * dr_ds -
    r * dr_dt * ((yvarphi * ztheta - ytheta * zvarphi) * dx_ds + y * zvarphi * dxtheta_ds - y * ztheta * dxvarphi_ds - xvarphi * ztheta * dy_ds + xtheta * zvarphi * dy_ds -
      xvarphi * y * dztheta_ds + xtheta * y * dzvarphi_ds + x * (-(zvarphi * dytheta_ds) + ztheta * dyvarphi_ds + yvarphi * dztheta_ds - ytheta * dzvarphi_ds)) +
    r ^ 2 * ((-(zvarphi * dytheta_dt) + ztheta * dyvarphi_dt + yvarphi * dztheta_dt - ytheta * dzvarphi_dt) * dx_ds + zvarphi * dy_dt * dxtheta_ds + y * dzvarphi_dt * dxtheta_ds -
      ztheta * dy_dt * dxvarphi_ds - y * dztheta_dt * dxvarphi_ds + zvarphi * dxtheta_dt * dy_ds - ztheta * dxvarphi_dt * dy_ds - xvarphi * dztheta_dt * dy_ds + xtheta * dzvarphi_dt * dy_ds -
      y * dxvarphi_dt * dztheta_ds - xvarphi * dy_dt * dztheta_ds + y * dxtheta_dt * dzvarphi_ds + xtheta * dy_dt * dzvarphi_ds +
      dx_dt * (-(zvarphi * dytheta_ds) + ztheta * dyvarphi_ds + yvarphi * dztheta_ds - ytheta * dzvarphi_ds) +
      x * (-(dzvarphi_dt * dytheta_ds) + dztheta_dt * dyvarphi_ds + dyvarphi_dt * dztheta_ds - dytheta_dt * dzvarphi_ds)) +
    r * (xvarphi * y * ztheta - xtheta * y * zvarphi + x * (-(yvarphi * ztheta) + ytheta * zvarphi)) * dr2_dsdt) / r ^ 3

/-- `d2mean_cross_sectional_area_by_dcoeff_dcoeff` (surface.py L713-789). -/
noncomputable def d2meanArea (S D E : Shape P) (pts : List P) : ℝ :=
  SignType.sign (mean (areaTerm S) pts / (2 * Real.pi)) * mean (d2areaTerm S D E) pts / (2 * Real.pi)

/-- `minor_radius` (surface.py L519-531). -/
noncomputable def minor (S : Shape P) (pts : List P) : ℝ := Real.sqrt (meanArea S pts / Real.pi)

/-- `dminor_radius_by_dcoeff` (surface.py L533-539). -/
noncomputable def dminor (S D : Shape P) (pts : List P) : ℝ := (0.5 / Real.pi) * dmeanArea S D pts / Real.sqrt (meanArea S pts / Real.pi)

/-- `d2minor_radius_by_dcoeff_dcoeff` (surface.py L541-550). -/
noncomputable def d2minor (S D E : Shape P) (pts : List P) : ℝ :=
  (-(dmeanArea S E pts * dmeanArea S D pts) + 2 * meanArea S pts * d2meanArea S D E pts) / (4 * Real.sqrt Real.pi * meanArea S pts ^ (3 / 2 : ℝ))

/-- `major_radius` (surface.py L552-566). -/
noncomputable def major (S : Shape P) (pts : List P) : ℝ := |volume S pts| / (2 * Real.pi ^ 2 * minor S pts ^ 2)

/-- `dmajor_radius_by_dcoeff` (surface.py L568-577). -/
noncomputable def dmajor (S D : Shape P) (pts : List P) : ℝ :=
  (-volume S pts * dmeanArea S D pts + dvolume S D pts * meanArea S pts) / meanArea S pts ^ 2 * SignType.sign (volume S pts) / (2 * Real.pi)

/-- `d2major_radius_by_dcoeff_dcoeff` (surface.py L579-594). -/
noncomputable def d2major (S D E : Shape P) (pts : List P) : ℝ :=
  let V := volume S pts; let dV_ds := dvolume S D pts; let dV_dt := dvolume S E pts; let d2V := d2volume S D E pts
  let r := minor S pts; let dr_ds := dminor S D pts; let dr_dt := dminor S E pts; let d2r := d2minor S D E pts
  ((6 * V * dr_dt * dr_ds) / r ^ 4 - (2 * dV_dt * dr_ds) / r ^ 3 - (2 * dr_dt * dV_ds) / r ^ 3 - (2 * V * d2r) / r ^ 3 + d2V / r ^ 2) * SignType.sign V / (2 * Real.pi ^ 2)

/-- `aspect_ratio` (surface.py L467-492). -/
noncomputable def aspect (S : Shape P) (pts : List P) : ℝ := major S pts / minor S pts

/-- `daspect_ratio_by_dcoeff` (surface.py L494-502). -/
noncomputable def daspect (S D : Shape P) (pts : List P) : ℝ := (dmajor S D pts * minor S pts - dminor S D pts * major S pts) / minor S pts ^ 2

/-- `d2aspect_ratio_by_dcoeff_dcoeff` (surface.py L504-517). -/
noncomputable def d2aspect (S D E : Shape P) (pts : List P) : ℝ :=
  let r := minor S pts; let dr_ds := dminor S D pts; let dr_dt := dminor S E pts; let d2r := d2minor S D E pts
  let R := major S pts; let dR_ds := dmajor S D pts; let dR_dt := dmajor S E pts; let d2R := d2major S D E pts
  (2 * R * dr_dt * dr_ds) / r ^ 3 - (dR_dt * dr_ds) / r ^ 2 - (dr_dt * dR_ds) / r ^ 2 - (R * d2r) / r ^ 2 + d2R / r

end Simsopt.Surface
