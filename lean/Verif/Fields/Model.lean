import Mathlib.Analysis.SpecialFunctions.Sqrt
import Mathlib.Analysis.SpecialFunctions.Complex.Arg
import Mathlib.Analysis.Calculus.Deriv.Add
import Mathlib.Analysis.Calculus.Deriv.Mul
import Mathlib.Analysis.Calculus.Deriv.Inv
import Mathlib.Analysis.Calculus.Deriv.Pow
import Mathlib.Data.Fin.VecNotation
import Mathlib.Tactic.FieldSimp
import Mathlib.Tactic.FinCases
import Mathlib.Tactic.Linarith
import Mathlib.Tactic.NormNum
import Mathlib.Tactic.Positivity
import Mathlib.Tactic.Ring
/-!
# The analytic magnetic fields

Model of `ToroidalField`, `PoloidalField` and `MirrorModel` (src/simsopt/field/magneticfieldclasses.py L24-233, L918-1013) at one evaluation point: all the array expressions act on each point separately.  Floating-point numbers are real numbers; a division
by zero (NaN or infinity in the program) gives 0 here, and every theorem is about points where the program divides by no zero, or says otherwise.
-/
namespace Simsopt.Fields

/-- A point or a vector: entries 0, 1, 2 are the cartesian components. -/
abbrev P3 := Fin 3 → ℝ
/-- One point's part of the array of first derivatives: `dB[p, i, j]` is `D i j`. -/
abbrev T2 := Fin 3 → Fin 3 → ℝ
/-- One point's part of the array of second derivatives. -/
abbrev T3 := Fin 3 → Fin 3 → Fin 3 → ℝ

/-- `np.arctan2(y, x)`: the argument of `x + i y` in (-π, π], and 0 for `x = y = 0`. -/
noncomputable def arctan2 (y x : ℝ) : ℝ := Complex.arg ⟨x, y⟩

/-- `np.array([...]).T` of an array with indices `[a, b, p]`: the result has indices `[p, b, a]`. -/
def transp2 (a : T2) : T2 := fun i j => a j i

/-- `np.array([...]).T` of an array with indices `[a, b, c, p]`: the result has indices `[p, c, b, a]`. -/
def transp3 (a : T3) : T3 := fun i j k => a k j i

/-! ## ToroidalField -/

structure Toroidal where
  R0 : ℝ
  B0 : ℝ

/-- `_B_impl` (L40-45). -/
noncomputable def Toroidal.B (f : Toroidal) (p : P3) : P3 :=
  let phi := arctan2 (p 1) (p 0)
  let R := √(p 0 ^ 2 + p 1 ^ 2)
  fun l => f.B0 * f.R0 * ![-Real.sin phi / R, Real.cos phi / R, 0] l

/-- `_dB_by_dX_impl` (L47-64). -/
noncomputable def Toroidal.dB (f : Toroidal) (p : P3) : T2 :=
  let R := √(p 0 ^ 2 + p 1 ^ 2)
  let x := p 0
  let y := p 1
  transp2 ![
    ![f.B0 * f.R0 / R ^ 4 * (2 * (x * y)), f.B0 * f.R0 / R ^ 4 * (y ^ 2 - x ^ 2), 0 * R],
    ![f.B0 * f.R0 / R ^ 4 * (y ^ 2 - x ^ 2), f.B0 * f.R0 / R ^ 4 * (-2 * (x * y)), 0 * R],
    ![0 * R, 0 * R, 0 * R]]

/-- `_d2B_by_dXdX_impl` (L66-79). -/
noncomputable def Toroidal.ddB (f : Toroidal) (p : P3) : T3 :=
  let x := p 0
  let y := p 1
  transp3 fun a b c => 2 * f.B0 * f.R0 * (1 / (x ^ 2 + y ^ 2) ^ 3 * (![
    ![![3 * x ^ 2 + y ^ 3, x ^ 3 - 3 * x * y ^ 2, 0],
      ![x ^ 3 - 3 * x * y ^ 2, 3 * x ^ 2 * y - y ^ 3, 0],
      ![0, 0, 0]],
    ![![x ^ 3 - 3 * x * y ^ 2, 3 * x ^ 2 * y - y ^ 3, 0],
      ![3 * x ^ 2 * y - y ^ 3, -x ^ 3 + 3 * x * y ^ 2, 0],
      ![0, 0, 0]],
    ![![0, 0, 0], ![0, 0, 0], ![0, 0, 0]]] : T3) a b c)

/-- `_A_impl` (L81-86). -/
noncomputable def Toroidal.A (f : Toroidal) (p : P3) : P3 :=
  let x := p 0
  let y := p 1
  let z := p 2
  fun l => f.B0 * f.R0 * ![z * x / (x ^ 2 + y ^ 2), z * y / (x ^ 2 + y ^ 2), 0 * z] l

/-- `_dA_by_dX_impl` (L88-95). -/
noncomputable def Toroidal.dA (f : Toroidal) (p : P3) : T2 :=
  let x := p 0
  let y := p 1
  let z := p 2
  transp2 fun a b => f.B0 * f.R0 * (z / (x ^ 2 + y ^ 2) ^ 2 * (![
    ![-x ^ 2 + y ^ 2, -2 * x * y, 0],
    ![-2 * x * y, x ^ 2 - y ^ 2, 0],
    ![x * (x ^ 2 + y ^ 2) / z, y * (x ^ 2 + y ^ 2) / z, 0]] : T2) a b)

/-- `_d2A_by_dXdX_impl` (L97-116); `transpose((3, 0, 1, 2))` of an array `[a, b, c, p]` has indices `[p, a, b, c]`. -/
noncomputable def Toroidal.ddA (f : Toroidal) (p : P3) : T3 :=
  let x := p 0
  let y := p 1
  let z := p 2
  fun a b c => 2 * f.B0 * f.R0 * (z / (x ^ 2 + y ^ 2) ^ 3 * (![
    ![![x ^ 3 - 3 * x * y ^ 2, 3 * x ^ 2 * y - y ^ 3, (-x ^ 4 + y ^ 4) / (2 * z)],
      ![3 * x ^ 2 * y - y ^ 3, -x ^ 3 + 3 * x * y ^ 2, -x * y * (x ^ 2 + y ^ 2) / z],
      ![(-x ^ 4 + y ^ 4) / (2 * z), -x * y * (x ^ 2 + y ^ 2) / z, 0]],
    ![![3 * x ^ 2 * y - y ^ 3, -x ^ 3 + 3 * x * y ^ 2, -x * y * (x ^ 2 + y ^ 2) / z],
      ![-x ^ 3 + 3 * x * y ^ 2, -3 * x ^ 2 * y + y ^ 3, (x ^ 4 - y ^ 4) / (2 * z)],
      ![-x * y * (x ^ 2 + y ^ 2) / z, (x ^ 4 - y ^ 4) / (2 * z), 0]],
    ![![0, 0, 0], ![0, 0, 0], ![0, 0, 0]]] : T3) a b c)

/-! ## PoloidalField -/

structure Poloidal where
  R0 : ℝ
  B0 : ℝ
  q : ℝ

/-- `_B_impl` (L147-158). -/
noncomputable def Poloidal.B (f : Poloidal) (p : P3) : P3 :=
  let x := p 0
  let y := p 1
  let z := p 2
  let phi := arctan2 y x
  let theta := arctan2 z (√(x ^ 2 + y ^ 2) - f.R0)
  let r := √((√(x ^ 2 + y ^ 2) - f.R0) ^ 2 + z ^ 2)
  fun l => f.B0 / f.R0 / f.q * ![-(Real.sin theta * r) * Real.cos phi, -(Real.sin theta * r) * Real.sin phi, Real.cos theta * r] l

/-- `_dB_by_dX_impl` (L160-217). -/
noncomputable def Poloidal.dB (f : Poloidal) (p : P3) : T2 :=
  let x := p 0
  let y := p 1
  let z := p 2
  let phi := arctan2 y x
  let theta := arctan2 z (√(x ^ 2 + y ^ 2) - f.R0)
  let r := √((√(x ^ 2 + y ^ 2) - f.R0) ^ 2 + z ^ 2)
  let dtheta : P3 := ![
    -((x * z) / (√(x ^ 2 + y ^ 2) * (x ^ 2 + y ^ 2 + z ^ 2 - 2 * √(x ^ 2 + y ^ 2) * f.R0 + f.R0 ^ 2))),
    -((y * z) / (√(x ^ 2 + y ^ 2) * (x ^ 2 + y ^ 2 + z ^ 2 - 2 * √(x ^ 2 + y ^ 2) * f.R0 + f.R0 ^ 2))),
    1 / ((-f.R0 + √(x ^ 2 + y ^ 2)) * (1 + z ^ 2 / (f.R0 - √(x ^ 2 + y ^ 2)) ^ 2))]
  let dphi : P3 := ![-(y / (x ^ 2 + y ^ 2)), x / (x ^ 2 + y ^ 2), 0 * z]
  let dunit : Fin 3 → P3 := fun a => ![
    -Real.cos theta * Real.cos phi * dtheta a + Real.sin theta * Real.sin phi * dphi a,
    -Real.cos theta * Real.sin phi * dtheta a - Real.sin theta * Real.cos phi * dphi a,
    -Real.sin theta * dtheta a]
  let unit : P3 := ![-Real.sin theta * Real.cos phi, -Real.sin theta * Real.sin phi, Real.cos theta]
  let dr : P3 := ![
    (x * (-f.R0 + √(x ^ 2 + y ^ 2))) / (√(x ^ 2 + y ^ 2) * √((f.R0 - √(x ^ 2 + y ^ 2)) ^ 2 + z ^ 2)),
    (y * (-f.R0 + √(x ^ 2 + y ^ 2))) / (√(x ^ 2 + y ^ 2) * √((f.R0 - √(x ^ 2 + y ^ 2)) ^ 2 + z ^ 2)),
    z / √((f.R0 - √(x ^ 2 + y ^ 2)) ^ 2 + z ^ 2)]
  transp2 fun a b => f.B0 / f.R0 / f.q * (dunit a b * r + unit b * dr a)

/-! ## MirrorModel -/

structure Mirror where
  B0 : ℝ
  gamma : ℝ
  Zm : ℝ

/-- `_psi` (L956-960). -/
noncomputable def Mirror.psi (f : Mirror) (R Z : ℝ) : ℝ :=
  let factor1 := 1 + ((Z - f.Zm) / f.gamma) ^ 2
  let factor2 := 1 + ((Z + f.Zm) / f.gamma) ^ 2
  (R * R * f.B0 / (2 * Real.pi * f.gamma)) * (1 / factor1 + 1 / factor2)

/-- The local variable `Br` of `_B_impl` and `_dB_by_dX_impl` (L968-970, L983-985). -/
noncomputable def Mirror.Br (f : Mirror) (r z : ℝ) : ℝ :=
  let factor1 := (1 + ((z - f.Zm) / f.gamma) ^ 2) ^ 2
  let factor2 := (1 + ((z + f.Zm) / f.gamma) ^ 2) ^ 2
  (r * f.B0 / (Real.pi * f.gamma ^ 3)) * ((z - f.Zm) / factor1 + (z + f.Zm) / factor2)

/-- `_B_impl` (L962-974). -/
noncomputable def Mirror.B (f : Mirror) (p : P3) : P3 :=
  let r := √(p 0 ^ 2 + p 1 ^ 2)
  let z := p 2
  let phi := arctan2 (p 1) (p 0)
  let Bz := f.psi r z * 2 / r / r
  ![f.Br r z * Real.cos phi, f.Br r z * Real.sin phi, Bz]

/-- `_dB_by_dX_impl` (L976-1013); the entries are assigned one by one, `dB[:, i, j]` is row `i`, column `j`. -/
noncomputable def Mirror.dB (f : Mirror) (p : P3) : T2 :=
  let r := √(p 0 ^ 2 + p 1 ^ 2)
  let z := p 2
  let phi := arctan2 (p 1) (p 0)
  let factor1 := (1 + ((z - f.Zm) / f.gamma) ^ 2) ^ 2
  let factor2 := (1 + ((z + f.Zm) / f.gamma) ^ 2) ^ 2
  let Br := f.Br r z
  let dBrdr := (f.B0 / (Real.pi * f.gamma ^ 3)) * ((z - f.Zm) / factor1 + (z + f.Zm) / factor2)
  let dBzdz := -2 * dBrdr
  let dBrdz := (f.B0 * r / (Real.pi * f.gamma ^ 3)) * (1 / factor1 + 1 / factor2
    - 4 * f.gamma ^ 4 * ((z - f.Zm) ^ 2 / ((z - f.Zm) ^ 2 + f.gamma ^ 2) ^ 3 + (z + f.Zm) ^ 2 / ((z + f.Zm) ^ 2 + f.gamma ^ 2) ^ 3))
  let cosphi := Real.cos phi
  let sinphi := Real.sin phi
  let dcosphidx := -p 0 ^ 2 / r ^ 3 + 1 / r
  let dsinphidx := -p 0 * p 1 / r ^ 3
  let dcosphidy := -p 0 * p 1 / r ^ 3
  let dsinphidy := -p 1 ^ 2 / r ^ 3 + 1 / r
  let drdx := p 0 / r
  let drdy := p 1 / r
  let dBxdx := dBrdr * drdx * cosphi + Br * dcosphidx
  let dBxdy := dBrdr * drdy * cosphi + Br * dcosphidy
  let dBxdz := dBrdz * cosphi
  let dBydx := dBrdr * drdx * sinphi + Br * dsinphidx
  let dBydy := dBrdr * drdy * sinphi + Br * dsinphidy
  let dBydz := dBrdz * sinphi
  ![![dBxdx, dBydx, 0], ![dBxdy, dBydy, 0], ![dBxdz, dBydz, dBzdz]]

/-! ## Specification -/

/-- The documented convention (docs/source/fields.rst L234-240, simsoptpp/python_magneticfield.cpp L30-46): `dF[p, j, l]` is the derivative of the component `l` in the direction `j`. -/
def IsJacobian (F : P3 → P3) (p : P3) (D : T2) : Prop :=
  ∀ j l, HasDerivAt (fun t => F (Function.update p j t) l) (D j l) (p j)

/-- The documented convention for second derivatives: `ddF[p, j, k, l]` is `∂_k ∂_j F_l`; `dF` are the first derivatives, at all the points off the axis. -/
def IsHessian (F : P3 → P3) (p : P3) (H : T3) : Prop :=
  ∃ dF : P3 → T2, (∀ q : P3, q 0 ^ 2 + q 1 ^ 2 ≠ 0 → IsJacobian F q (dF q)) ∧
    ∀ j k l, HasDerivAt (fun t => dF (Function.update p k t) j l) (H j k l) (p k)

/-- The curl, from an array of first derivatives in the documented order. -/
def curl (D : T2) : P3 := ![D 1 2 - D 2 1, D 2 0 - D 0 2, D 0 1 - D 1 0]

/-- The divergence. -/
def dive (D : T2) : ℝ := D 0 0 + D 1 1 + D 2 2

end Simsopt.Fields
