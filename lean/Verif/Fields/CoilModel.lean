import Verif.Fields.Toroidal
import Verif.Fields.Elliptic
/-!
# The field of a circular coil

Model of `CircularCoil` (src/simsopt/field/magneticfieldclasses.py L335-517) at one evaluation point.  The constant `1e-31` in the denominators is the parameter `ε`; the program is `ε = 1e-31`.  `scipy.special.ellipe` and `ellipk` are the complete elliptic integrals.
-/
namespace Simsopt.Fields
open Elliptic

/-- The two forms of the argument `normal`. -/
inductive Normal where
  | angles (theta phi : ℝ)
  | vec (x y z : ℝ)

/-- A coil; `inorm` is `self.Inorm`. -/
structure Coil where
  r0 : ℝ
  center : P3
  inorm : ℝ
  normal : Normal

/-- The constructor (L356-363). -/
noncomputable def Coil.new (r0 : ℝ) (center : P3) (I : ℝ) (normal : Normal) : Coil := ⟨r0, center, I * 4e-7, normal⟩

/-- The property `I` (L384-386). -/
noncomputable def Coil.I (c : Coil) : ℝ := c.inorm * 25e5

/-- The angles in `_rotmat` (L389-397). -/
noncomputable def Coil.theta (c : Coil) : ℝ :=
  match c.normal with
  | .angles theta _ => theta
  | .vec x y _ => arctan2 y x

noncomputable def Coil.phi (c : Coil) : ℝ :=
  match c.normal with
  | .angles _ phi => phi
  | .vec x y z => arctan2 (√(x ^ 2 + y ^ 2)) z

/-- `_rotmat` (L388-410). -/
noncomputable def Coil.rotmat (c : Coil) : T2 :=
  let theta := c.theta
  let phi := c.phi
  ![![Real.cos phi * Real.cos theta ^ 2 + Real.sin theta ^ 2, -Real.sin (phi / 2) ^ 2 * Real.sin (2 * theta), Real.cos theta * Real.sin phi],
    ![-Real.sin (phi / 2) ^ 2 * Real.sin (2 * theta), Real.cos theta ^ 2 + Real.cos phi * Real.sin theta ^ 2, Real.sin phi * Real.sin theta],
    ![-Real.cos theta * Real.sin phi, -Real.sin phi * Real.sin theta, Real.cos phi]]

/-- `np.dot(m, v)` for a matrix and a vector. -/
def dotv (m : T2) (v : P3) : P3 := fun i => m i 0 * v 0 + m i 1 * v 1 + m i 2 * v 2

/-- `_rotmatinv` (L412-415). -/
noncomputable def Coil.rotmatinv (c : Coil) : T2 := fun i j => c.rotmat j i

/-- The point in the frame of the coil (L419). -/
noncomputable def Coil.toLocal (c : Coil) (p : P3) : P3 := dotv c.rotmatinv (fun i => p i - c.center i)

/-- The local variables of the three methods (L420-426). -/
structure Loc where
  rho : ℝ
  r : ℝ
  alpha : ℝ
  beta : ℝ
  e : ℝ
  k : ℝ

noncomputable def loc (r0 : ℝ) (q : P3) : Loc :=
  let rho := √(q 0 ^ 2 + q 1 ^ 2)
  let r := √(q 0 ^ 2 + q 1 ^ 2 + q 2 ^ 2)
  let alpha := √(r0 ^ 2 + r ^ 2 - 2 * r0 * rho)
  let beta := √(r0 ^ 2 + r ^ 2 + 2 * r0 * rho)
  let k := √(1 - alpha ^ 2 / beta ^ 2)
  { rho := rho, r := r, alpha := alpha, beta := beta, e := E (k ^ 2), k := K (k ^ 2) }

/-- The field in the frame of the coil (L427-430). -/
noncomputable def localB (ε inorm r0 : ℝ) (q : P3) : P3 :=
  let v := loc r0 q
  ![inorm * q 0 * q 2 / (2 * v.alpha ^ 2 * v.beta * v.rho ^ 2 + ε) * ((r0 ^ 2 + v.r ^ 2) * v.e - v.alpha ^ 2 * v.k),
    inorm * q 1 * q 2 / (2 * v.alpha ^ 2 * v.beta * v.rho ^ 2 + ε) * ((r0 ^ 2 + v.r ^ 2) * v.e - v.alpha ^ 2 * v.k),
    inorm / (2 * v.alpha ^ 2 * v.beta + ε) * ((r0 ^ 2 - v.r ^ 2) * v.e + v.alpha ^ 2 * v.k)]

/-- `_B_impl` (L417-430). -/
noncomputable def Coil.B (ε : ℝ) (c : Coil) (p : P3) : P3 := dotv c.rotmat (localB ε c.inorm c.r0 (c.toLocal p))

/-- `dB_by_dXm` (L442-487): row = direction, column = component. -/
noncomputable def localDB (ε inorm r0 : ℝ) (q : P3) : T2 :=
  let v := loc r0 q
  let x := q 0
  let y := q 1
  let z := q 2
  let rho := v.rho
  let r := v.r
  let alpha := v.alpha
  let beta := v.beta
  let e := v.e
  let k := v.k
  let gamma := x ^ 2 - y ^ 2
  let dBxdx := (inorm * z * (
    k * alpha ^ 2 * ((2 * x ^ 4 + gamma * (y ^ 2 + z ^ 2)) * r ^ 2 + r0 ^ 2 * (gamma * (r0 ^ 2 + 2 * z ^ 2) - (3 * x ^ 2 - 2 * y ^ 2) * rho ^ 2))
    + e * (-((2 * x ^ 4 + gamma * (y ^ 2 + z ^ 2)) * r ^ 4)
        + r0 ^ 4 * (-(gamma * (r0 ^ 2 + 3 * z ^ 2)) + (8 * x ^ 2 - y ^ 2) * rho ^ 2)
        - r0 ^ 2 * (3 * gamma * z ^ 4 - 2 * (2 * x ^ 2 + y ^ 2) * z ^ 2 * rho ^ 2 + (5 * x ^ 2 + y ^ 2) * rho ^ 4)))) / (2 * alpha ^ 4 * beta ^ 3 * rho ^ 4 + ε)
  let dBydx := (inorm * x * y * z * (
    k * alpha ^ 2 * (2 * r0 ^ 4 + r ^ 2 * (2 * r ^ 2 + rho ^ 2) - r0 ^ 2 * (-4 * z ^ 2 + 5 * rho ^ 2))
    + e * (-2 * r0 ^ 6 - r ^ 4 * (2 * r ^ 2 + rho ^ 2) + 3 * r0 ^ 4 * (-2 * z ^ 2 + 3 * rho ^ 2) - 2 * r0 ^ 2 * (3 * z ^ 4 - z ^ 2 * rho ^ 2 + 2 * rho ^ 4)))) / (2 * alpha ^ 4 * beta ^ 3 * rho ^ 4 + ε)
  let dBzdx := (inorm * x * (
    -(k * alpha ^ 2 * ((-r0 ^ 2 + rho ^ 2) ^ 2 + z ^ 2 * (r0 ^ 2 + rho ^ 2)))
    + e * (z ^ 4 * (r0 ^ 2 + rho ^ 2) + (-r0 ^ 2 + rho ^ 2) ^ 2 * (r0 ^ 2 + rho ^ 2) + 2 * z ^ 2 * (r0 ^ 4 - 6 * r0 ^ 2 * rho ^ 2 + rho ^ 4)))) / (2 * alpha ^ 4 * beta ^ 3 * rho ^ 2 + ε)
  let dBxdy := dBydx
  let dBydy := (inorm * z * (
    k * alpha ^ 2 * ((2 * y ^ 4 - gamma * (x ^ 2 + z ^ 2)) * r ^ 2 + r0 ^ 2 * (-(gamma * (r0 ^ 2 + 2 * z ^ 2)) - (-2 * x ^ 2 + 3 * y ^ 2) * rho ^ 2))
    + e * (-((2 * y ^ 4 - gamma * (x ^ 2 + z ^ 2)) * r ^ 4)
        + r0 ^ 4 * (gamma * (r0 ^ 2 + 3 * z ^ 2) + (-x ^ 2 + 8 * y ^ 2) * rho ^ 2)
        - r0 ^ 2 * (-3 * gamma * z ^ 4 - 2 * (x ^ 2 + 2 * y ^ 2) * z ^ 2 * rho ^ 2 + (x ^ 2 + 5 * y ^ 2) * rho ^ 4)))) / (2 * alpha ^ 4 * beta ^ 3 * rho ^ 4 + ε)
  let dBzdy := dBzdx * y / (x + ε)
  let dBxdz := dBzdx
  let dBydz := dBzdy
  let dBzdz := (inorm * z * (k * alpha ^ 2 * (r0 ^ 2 - r ^ 2) + e * (-7 * r0 ^ 4 + r ^ 4 + 6 * r0 ^ 2 * (-z ^ 2 + rho ^ 2)))) / (2 * alpha ^ 4 * beta ^ 3 + ε)
  ![![dBxdx, dBydx, dBzdx], ![dBxdy, dBydy, dBzdy], ![dBxdz, dBydz, dBzdz]]

/-- `np.dot(rotmatinv[:, j], np.dot(rotmat[i, :], dB_by_dXm))`: `np.dot` of a vector and an array `[d, c, p]` sums over `c` (L489-499). -/
noncomputable def Coil.entry (c : Coil) (D : T2) (i j : Fin 3) : ℝ :=
  let inner : P3 := fun d => c.rotmat i 0 * D d 0 + c.rotmat i 1 * D d 1 + c.rotmat i 2 * D d 2
  c.rotmatinv 0 j * inner 0 + c.rotmatinv 1 j * inner 1 + c.rotmatinv 2 j * inner 2

/-- `_dB_by_dX_impl` (L432-499). -/
noncomputable def Coil.dB (ε : ℝ) (c : Coil) (p : P3) : T2 := transp2 (c.entry (localDB ε c.inorm c.r0 (c.toLocal p)))

/-- The vector potential in the frame of the coil (L510-516). -/
noncomputable def localA (ε inorm r0 : ℝ) (q : P3) : P3 :=
  let v := loc r0 q
  let num := 2 * r0 + √(q 0 ^ 2 + q 1 ^ 2) * v.e + (r0 ^ 2 + q 0 ^ 2 + q 1 ^ 2 + q 2 ^ 2) * (v.e - v.k)
  let denom := (q 0 ^ 2 + q 1 ^ 2 + ε) * √(r0 ^ 2 + q 0 ^ 2 + q 1 ^ 2 + 2 * r0 * √(q 0 ^ 2 + q 1 ^ 2) + q 2 ^ 2 + ε)
  let fak := num / denom
  fun l => -inorm / 2 * (![fak * -q 1, fak * q 0, fak * 0] : P3) l

/-- `_A_impl` (L501-517). -/
noncomputable def Coil.A (ε : ℝ) (c : Coil) (p : P3) : P3 := dotv c.rotmat (localA ε c.inorm c.r0 (c.toLocal p))

end Simsopt.Fields
