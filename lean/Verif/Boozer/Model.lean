import Mathlib.Analysis.SpecialFunctions.Pow.Real
import Mathlib.Analysis.SpecialFunctions.Sqrt
import Mathlib.Algebra.BigOperators.Fin
import Mathlib.Analysis.Calculus.FDeriv.Pi

/-!
# The Boozer surface residual

Model of `boozer_surface_residual` (src/simsopt/geo/surfaceobjectives.py L340-514), of `boozer_dresidual_dc` (src/simsoptpp/python.cpp L106-132), of `boozer_residual_impl` (src/simsoptpp/boozerresidual_impl.h L345-556, the scalar version; the SIMD
version above it does the same operations on lanes of the index `m`), and of `BoozerSurface.boozer_penalty_constraints`, `boozer_penalty_constraints_vectorized` and `boozer_exact_constraints` (src/simsopt/geo/boozersurface.py L171-431).  Floating-point
numbers are real numbers.  The grid of `nphi` times `ntheta` quadrature points is flattened, as `reshape` does: `N` points, indexed by `q`; all the array expressions act on each point separately.
-/
namespace Simsopt.BSurf

/-- A vector of ℝ³. -/
abbrev V := Fin 3 → ℝ

/-- The columns of the Jacobian: the dofs of the surface, then `iota`, then `G` (the last one only if `G` was given by the caller; surfaceobjectives.py L435-446). -/
inductive Col (n : ℕ) where
  | c (m : Fin n)
  | iota
  | G
deriving DecidableEq

/-- What the functions read at one quadrature point: the parameters, `surface.gammadash1()` and `gammadash2()`, the field and its derivatives (`dB k l` is `dB_by_dX[k, l]`, the derivative of the component `l` in the direction `k`), and the derivatives of the surface
with respect to its dofs (surfaceobjectives.py L380-414). -/
structure Data (n : ℕ) where
  G : ℝ
  iota : ℝ
  xphi : V
  xtheta : V
  B : V
  dB : Fin 3 → Fin 3 → ℝ
  d2B : Fin 3 → Fin 3 → Fin 3 → ℝ
  dx : Fin 3 → Fin n → ℝ
  dxphi : Fin 3 → Fin n → ℝ
  dxtheta : Fin 3 → Fin n → ℝ

namespace Data
variable {n : ℕ} (d : Data n)

/-- surfaceobjectives.py L392. -/
def tang (l : Fin 3) : ℝ := d.xphi l + d.iota * d.xtheta l
/-- surfaceobjectives.py L393. -/
def B2 : ℝ := ∑ l, d.B l ^ 2
/-- surfaceobjectives.py L394. -/
def residual (l : Fin 3) : ℝ := d.G * d.B l - d.B2 * d.tang l
/-- surfaceobjectives.py L397. -/
noncomputable def modB : ℝ := √d.B2
/-- surfaceobjectives.py L398. -/
noncomputable def w : ℝ := 1 / d.modB
/-- surfaceobjectives.py L396-401. -/
noncomputable def rtil (wt : Bool) (l : Fin 3) : ℝ := if wt then d.w * d.residual l else d.residual l

/-- surfaceobjectives.py L414: `einsum('ijkl,ijkm->ijlm', dB_by_dX, dx_dc)`. -/
def dB_dc (l : Fin 3) (m : Fin n) : ℝ := ∑ k, d.dB k l * d.dx k m
/-- python.cpp L106-132, as called in surfaceobjectives.py L417. -/
def dresidual_dc (l : Fin 3) (m : Fin n) : ℝ :=
  let B_dB_dc := d.B 0 * d.dB_dc 0 m + d.B 1 * d.dB_dc 1 m + d.B 2 * d.dB_dc 2 m
  d.G * d.dB_dc l m - 2 * B_dB_dc * d.tang l - d.B2 * (d.dxphi l m + d.iota * d.dxtheta l m)
/-- surfaceobjectives.py L418. -/
def dresidual_diota (l : Fin 3) : ℝ := -d.B2 * d.xtheta l
/-- surfaceobjectives.py L421, L452. -/
def dB2_dc (m : Fin n) : ℝ := 2 * ∑ k, d.B k * d.dB_dc k m
/-- surfaceobjectives.py L422. -/
noncomputable def dmodB_dc (m : Fin n) : ℝ := 0.5 * d.dB2_dc m / √d.B2
/-- surfaceobjectives.py L423. -/
noncomputable def dw_dc (m : Fin n) : ℝ := -d.dmodB_dc m / d.modB ^ 2

/-- The Jacobian, surfaceobjectives.py L420-446: row `l` of the point, by columns. -/
noncomputable def J (wt : Bool) (l : Fin 3) : Col n → ℝ
  | .c m => if wt then d.residual l * d.dw_dc m + d.w * d.dresidual_dc l m else d.dresidual_dc l m
  | .iota => if wt then d.w * d.dresidual_diota l else d.dresidual_diota l
  | .G => if wt then d.w * d.B l else d.B l

/-- surfaceobjectives.py L451: `einsum('ijkpl,ijpn,ijkm->ijlmn', d2B_by_dXdX, dx_dc, dx_dc)`. -/
def d2B_dcdc (l : Fin 3) (m n' : Fin n) : ℝ := ∑ k, ∑ p, d.d2B k p l * d.dx p n' * d.dx k m
/-- surfaceobjectives.py L454-456. -/
def d2B2_dcdc (m n' : Fin n) : ℝ :=
  let term1 := ∑ l, d.dB_dc l m * d.dB_dc l n'
  let term2 := ∑ l, d.d2B_dcdc l m n' * d.B l
  2 * (term1 + term2)
/-- surfaceobjectives.py L458-461. -/
def d2residual_by_dcdc (l : Fin 3) (m n' : Fin n) : ℝ :=
  let term1 := -(d.dxphi l n' + d.iota * d.dxtheta l n') * d.dB2_dc m
  let term2 := -(d.dxphi l m + d.iota * d.dxtheta l m) * d.dB2_dc n'
  let term3 := -(d.xphi l + d.iota * d.xtheta l) * d.d2B2_dcdc m n'
  d.G * d.d2B_dcdc l m n' + term1 + term2 + term3
/-- surfaceobjectives.py L462. -/
def d2residual_by_dcdiota (l : Fin 3) (m : Fin n) : ℝ := -(d.dB2_dc m * d.xtheta l + d.B2 * d.dxtheta l m)
/-- surfaceobjectives.py L466-467 (L466 recomputes `d2B2_dcdc`, by the same sums). -/
noncomputable def d2modB_dc2 (m n' : Fin n) : ℝ := (2 * d.B2 * d.d2B2_dcdc m n' - d.dB2_dc m * d.dB2_dc n') * (1 / (4 * d.B2 ^ (1.5 : ℝ)))
/-- surfaceobjectives.py L468. -/
noncomputable def d2w_dc2 (m n' : Fin n) : ℝ := (2 * d.dmodB_dc m * d.dmodB_dc n' - d.modB * d.d2modB_dc2 m n') / d.modB ^ 3
/-- surfaceobjectives.py L470-473, L477. -/
noncomputable def d2rtil_dcdc (wt : Bool) (l : Fin 3) (m n' : Fin n) : ℝ :=
  if wt then d.residual l * d.d2w_dc2 m n' + d.dw_dc m * d.dresidual_dc l n' + d.dw_dc n' * d.dresidual_dc l m + d.w * d.d2residual_by_dcdc l m n'
  else d.d2residual_by_dcdc l m n'
/-- surfaceobjectives.py L474, L478. -/
noncomputable def d2rtil_dcdiota (wt : Bool) (l : Fin 3) (m : Fin n) : ℝ :=
  if wt then d.w * d.d2residual_by_dcdiota l m + d.dw_dc m * d.dresidual_diota l else d.d2residual_by_dcdiota l m
/-- surfaceobjectives.py L486-490. -/
noncomputable def d2rtil_dcdG (wt : Bool) (l : Fin 3) (m : Fin n) : ℝ :=
  if wt then d.dw_dc m * d.B l + d.w * d.dB_dc l m else d.dB_dc l m

/-- The second derivatives, surfaceobjectives.py L497-512: the row `l` of the point. -/
noncomputable def H (wt : Bool) (l : Fin 3) : Col n → Col n → ℝ
  | .c m, .c m' => d.d2rtil_dcdc wt l m m'
  | .c m, .iota => d.d2rtil_dcdiota wt l m
  | .c m, .G => d.d2rtil_dcdG wt l m
  | .iota, .c m => d.d2rtil_dcdiota wt l m
  | .iota, .iota => 0
  | .iota, .G => 0
  | .G, .c m => d.d2rtil_dcdG wt l m
  | .G, .iota => 0
  | .G, .G => 0

end Data

/-! ## The surface and the field -/

/-- A field and a surface.  `F` is the field, `dF` and `d2F` what `dB_by_dX()` and `d2B_by_dXdX()` return; the surfaces that `BoozerSurface` accepts (`SurfaceXYZFourier`, `SurfaceXYZTensorFourier`, boozersurface.py L71-72) are linear in their dofs, and `gx`, `gphi` and
`gtheta` are the arrays `dgamma_by_dcoeff()`, `dgammadash1_by_dcoeff()` and `dgammadash2_by_dcoeff()`, which do not depend on the dofs. -/
structure Setting (N n : ℕ) where
  F : V → V
  dF : V → Fin 3 → Fin 3 → ℝ
  d2F : V → Fin 3 → Fin 3 → Fin 3 → ℝ
  gx : Fin N → Fin 3 → Fin n → ℝ
  gphi : Fin N → Fin 3 → Fin n → ℝ
  gtheta : Fin N → Fin 3 → Fin n → ℝ

namespace Setting
variable {N n : ℕ} (s : Setting N n)

/-- `surface.gamma()` at the point `q`, for the dofs in `u`. -/
def x (u : Col n → ℝ) (q : Fin N) : V := fun l => ∑ m, s.gx q l m * u (.c m)
/-- `surface.gammadash1()`. -/
def xphi (u : Col n → ℝ) (q : Fin N) : V := fun l => ∑ m, s.gphi q l m * u (.c m)
/-- `surface.gammadash2()`. -/
def xtheta (u : Col n → ℝ) (q : Fin N) : V := fun l => ∑ m, s.gtheta q l m * u (.c m)

/-- What is read at the point `q`, surfaceobjectives.py L380-390, L408-413. -/
def data (u : Col n → ℝ) (q : Fin N) : Data n where
  G := u .G
  iota := u .iota
  xphi := s.xphi u q
  xtheta := s.xtheta u q
  B := s.F (s.x u q)
  dB := s.dF (s.x u q)
  d2B := s.d2F (s.x u q)
  dx := s.gx q
  dxphi := s.gphi q
  dxtheta := s.gtheta q

/-! ## Specification -/

/-- The Boozer residual `G B - |B|² (x_φ + ι x_θ)` at a point of the surface, with the weight `1 / |B|` if asked for. -/
noncomputable def boozer (wt : Bool) (u : Col n → ℝ) (q : Fin N) (l : Fin 3) : ℝ :=
  let B := s.F (s.x u q)
  let modB := √(B 0 ^ 2 + B 1 ^ 2 + B 2 ^ 2)
  let r := u .G * B l - modB ^ 2 * (s.xphi u q l + u .iota * s.xtheta u q l)
  if wt then r / modB else r

/-- At the point `p`, `dF` holds the derivative of the field. -/
def Diff1 (p : V) : Prop := ∀ l, HasFDerivAt (fun q => s.F q l) (∑ k, s.dF p k l • ContinuousLinearMap.proj (R := ℝ) (φ := fun _ : Fin 3 => ℝ) k) p

/-- At the point `p`, `d2F` holds the derivative of the array `dF`. -/
def Diff2 (p : V) : Prop := ∀ k l, HasFDerivAt (fun q => s.dF q k l) (∑ j, s.d2F p k j l • ContinuousLinearMap.proj (R := ℝ) (φ := fun _ : Fin 3 => ℝ) j) p

end Setting
end Simsopt.BSurf
