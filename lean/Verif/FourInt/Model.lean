import Mathlib.Analysis.SpecialFunctions.Trigonometric.Basic
/-!
# Model of `fourier_interpolation` (simsopt/util/fourier_interpolation.py)

Exact real arithmetic instead of floating point.  `x` is one entry of the vector of evaluation points (the rows of `D` do not interact).
-/
namespace Simsopt.FourInt
open Finset

/-- `xk` (L39). -/
noncomputable def node (N k : ℕ) : ℝ := (k * 2 * Real.pi) / N

/-- `w` (L42). -/
noncomputable def weight (k : ℕ) : ℝ := (-1) ^ k

/-- `D + eps * (D == 0)` with the first `D` (L44, L48, L51). -/
noncomputable def arg (eps : ℝ) (N : ℕ) (x : ℝ) (k : ℕ) : ℝ :=
  let d := 0.5 * (x - node N k)
  d + eps * (open Classical in if d = 0 then 1 else 0)

/-- the second `D` (L46-51) -/
noncomputable def entry (eps : ℝ) (N : ℕ) (x : ℝ) (k : ℕ) : ℝ :=
  if N % 2 = 0 then 1 / Real.tan (arg eps N x k) else 1 / Real.sin (arg eps N x k)

/-- The entry of the returned array for the evaluation point `x` (L54). -/
noncomputable def fourierInterpolation (eps : ℝ) (N : ℕ) (fk : ℕ → ℝ) (x : ℝ) : ℝ :=
  (∑ k ∈ range N, entry eps N x k * (weight k * fk k)) / ∑ k ∈ range N, entry eps N x k * weight k

end Simsopt.FourInt
