import Verif.PyList
import Mathlib.Analysis.SpecialFunctions.Trigonometric.Basic
/-!
# Model of coils, currents and the Biot-Savart law

simsopt/field/coil.py, `RotatedCurve` (simsopt/geo/curve.py L614-690), `biot_savart_kernel` (simsoptpp/biot_savart_impl.h L173-288, the
variant without SIMD; the SIMD one, L20-171, does the same operations), `BiotSavart::compute` (simsoptpp/magneticfield_biotsavart.cpp L13-88).
Floating-point numbers are modelled by reals.
-/
namespace Simsopt.Coils
open Simsopt

/-- A row of an `(n, 3)` array. -/
abbrev V3 := ℝ × ℝ × ℝ

/-- A 3x3 array, by rows. -/
abbrev M3 := V3 × V3 × V3

def M3.transpose (m : M3) : M3 := ((m.1.1, m.2.1.1, m.2.2.1), (m.1.2.1, m.2.1.2.1, m.2.2.2.1), (m.1.2.2, m.2.1.2.2, m.2.2.2.2))

/-- `v @ m` for one row `v`. -/
def rowMul (v : V3) (m : M3) : V3 :=
  (v.1 * m.1.1 + v.2.1 * m.2.1.1 + v.2.2 * m.2.2.1, v.1 * m.1.2.1 + v.2.1 * m.2.1.2.1 + v.2.2 * m.2.2.2.1,
   v.1 * m.1.2.2 + v.2.1 * m.2.1.2.2 + v.2.2 * m.2.2.2.2)

/-- `a @ b` for two 3x3 arrays. -/
def M3.mul (a b : M3) : M3 := (rowMul a.1 b, rowMul a.2.1 b, rowMul a.2.2 b)

/-- `RotatedCurve.__init__` (curve.py L626-634). -/
noncomputable def rotmat (phi : ℝ) (flip : Bool) : M3 :=
  let r : M3 := M3.transpose ((Real.cos phi, -Real.sin phi, 0), (Real.sin phi, Real.cos phi, 0), (0, 0, 1))
  if flip then r.mul ((1, 0, 0), (0, -1, 0), (0, 0, -1)) else r

/-- A curve with its own dofs, or a RotatedCurve. -/
inductive Curve where
  | base (i : Nat)
  | rotated (c : Curve) (phi : ℝ) (flip : Bool)

/-- `gamma()` at the quadrature points of the base curve, and likewise `gammadash()`, `gammadashdash()`, ... (curve.py L657-696): `g` gives the
    array of each base curve. -/
noncomputable def Curve.points (g : Nat → List V3) : Curve → List V3
  | .base i => g i
  | .rotated c phi flip => (c.points g).map fun v => rowMul v (rotmat phi flip)

/-- Currents (coil.py L79-138). -/
inductive Cur (K R : Type) where
  /-- `Current` -/
  | base (k : K)
  /-- `ScaledCurrent(current, scale)` -/
  | scaled (c : R) (e : Cur K R)
  /-- `CurrentSum(a, b)` -/
  | sum (a b : Cur K R)

/-- `get_value()` (coil.py L98-99, L118-119, L137-138); `val` gives the value of each `Current`. -/
def Cur.value {K R : Type} [Mul R] [Add R] (val : K → R) : Cur K R → R
  | .base k => val k
  | .scaled c e => c * e.value val
  | .sum a b => a.value val + b.value val

/-- `apply_symmetries_to_curves` (coil.py L139-156). -/
noncomputable def symCurves (bs : List Curve) (nfp : Nat) (stellsym : Bool) : List Curve :=
  (List.range nfp).flatMap fun (k : Nat) => (if stellsym then [false, true] else [false]).flatMap fun flip =>
    bs.map fun b => if k = 0 && !flip then b else .rotated b (2 * Real.pi * (k : ℝ) / nfp) flip

/-- `apply_symmetries_to_currents` (coil.py L159-172). -/
noncomputable def symCurrents {K : Type} (bs : List (Cur K ℝ)) (nfp : Nat) (stellsym : Bool) : List (Cur K ℝ) :=
  (List.range nfp).flatMap fun _ => (if stellsym then [false, true] else [false]).flatMap fun flip =>
    bs.map fun b => if flip then .scaled (-1) b else b

/-- `coils_via_symmetries` (coil.py L175-186); a coil is a pair of a curve and a current. -/
noncomputable def coilsViaSymmetries {K : Type} (curves : List Curve) (currents : List (Cur K ℝ)) (nfp : Nat) (stellsym : Bool) :
    Except Err (List (Curve × Cur K ℝ)) :=
  if curves.length ≠ currents.length then .error .assertionError
  else .ok ((symCurves curves nfp stellsym).zip (symCurrents currents nfp stellsym))

/-! ### Biot-Savart -/

/-- `cross(a, b)` (vec3dsimd.h L13-15, L166-172). -/
def cross (a b : V3) : V3 := (a.2.1 * b.2.2 - a.2.2 * b.2.1, a.2.2 * b.1 - a.1 * b.2.2, a.1 * b.2.1 - a.2.1 * b.1)

/-- `normsq(a)`. -/
def normsq (a : V3) : ℝ := a.1 * a.1 + a.2.1 * a.2.1 + a.2.2 * a.2.2

/-- `rsqrt(r2)` (simdhelpers.h): `1/sqrt(r2)`. -/
noncomputable def rsqrt (r : ℝ) : ℝ := 1 / Real.sqrt r

/-- One term of the sum over quadrature points (biot_savart_impl.h L216-225). -/
noncomputable def kernelTerm (x gamma dgamma : V3) : V3 :=
  let diff := x - gamma
  let normDiffInv := rsqrt (normsq diff)
  (normDiffInv * normDiffInv * normDiffInv) • cross dgamma diff

/-- `B_i` of one coil (L196, L215-225, L262-264): `gamma` and `gammadash` are arrays of the same length. -/
noncomputable def coilField (gamma gammadash : List V3) (x : V3) : V3 :=
  (1e-7 / gamma.length : ℝ) • ((gamma.zip gammadash).map fun e => kernelTerm x e.1 e.2).sum

/-- `B()` of BiotSavart at the point `x` (magneticfield_biotsavart.cpp L68-72). -/
noncomputable def biotSavart (coils : List ((List V3 × List V3) × ℝ)) (x : V3) : V3 :=
  coils.foldl (fun B c => B + c.2 • coilField c.1.1 c.1.2 x) 0

end Simsopt.Coils
