import Verif.Fields.Model
/-!
# Lemmas on the analytic magnetic fields
-/
namespace Simsopt.Fields

theorem isJacobian_of {F : P3 → P3} {F0 F1 F2 : ℝ → ℝ → ℝ → ℝ} (h0 : ∀ q, F q 0 = F0 (q 0) (q 1) (q 2)) (h1 : ∀ q, F q 1 = F1 (q 0) (q 1) (q 2)) (h2 : ∀ q, F q 2 = F2 (q 0) (q 1) (q 2)) {p : P3} {D : T2}
    (d00 : HasDerivAt (fun t => F0 t (p 1) (p 2)) (D 0 0) (p 0)) (d10 : HasDerivAt (fun t => F0 (p 0) t (p 2)) (D 1 0) (p 1)) (d20 : HasDerivAt (fun t => F0 (p 0) (p 1) t) (D 2 0) (p 2))
    (d01 : HasDerivAt (fun t => F1 t (p 1) (p 2)) (D 0 1) (p 0)) (d11 : HasDerivAt (fun t => F1 (p 0) t (p 2)) (D 1 1) (p 1)) (d21 : HasDerivAt (fun t => F1 (p 0) (p 1) t) (D 2 1) (p 2))
    (d02 : HasDerivAt (fun t => F2 t (p 1) (p 2)) (D 0 2) (p 0)) (d12 : HasDerivAt (fun t => F2 (p 0) t (p 2)) (D 1 2) (p 1)) (d22 : HasDerivAt (fun t => F2 (p 0) (p 1) t) (D 2 2) (p 2)) :
    IsJacobian F p D := by
  intro j l
  fin_cases j <;> fin_cases l <;> dsimp only [Fin.zero_eta, Fin.mk_one, Fin.reduceFinMk] <;> simp only [h0, h1, h2, Function.update_self, Function.update_of_ne, ne_eq, Fin.isValue, Fin.reduceEq, zero_ne_one, one_ne_zero, not_false_eq_true] <;> assumption

theorem norm_mk (x y : ℝ) : ‖(⟨x, y⟩ : ℂ)‖ = √(x ^ 2 + y ^ 2) := by
  rw [Complex.norm_eq_sqrt_sq_add_sq]

theorem sin_arctan2 (y x : ℝ) : Real.sin (arctan2 y x) = y / √(x ^ 2 + y ^ 2) := by
  unfold arctan2
  rw [Complex.sin_arg, norm_mk]

theorem cos_arctan2 {y x : ℝ} (h : x ^ 2 + y ^ 2 ≠ 0) : Real.cos (arctan2 y x) = x / √(x ^ 2 + y ^ 2) := by
  unfold arctan2
  rw [Complex.cos_arg, norm_mk]
  intro hz
  have h0 : x = 0 := congrArg Complex.re hz
  have h1 : y = 0 := congrArg Complex.im hz
  exact h (by rw [h0, h1]; simp)

theorem sq_zero_of {x y : ℝ} (h : x ^ 2 + y ^ 2 = 0) : x = 0 ∧ y = 0 := by
  constructor <;> nlinarith [sq_nonneg x, sq_nonneg y]

theorem r_mul_cos (y x : ℝ) : √(x ^ 2 + y ^ 2) * Real.cos (arctan2 y x) = x := by
  by_cases h : x ^ 2 + y ^ 2 = 0
  · rw [h, Real.sqrt_zero, zero_mul, (sq_zero_of h).1]
  · rw [cos_arctan2 h]
    field_simp

theorem r_mul_sin (y x : ℝ) : √(x ^ 2 + y ^ 2) * Real.sin (arctan2 y x) = y := by
  by_cases h : x ^ 2 + y ^ 2 = 0
  · rw [h, Real.sqrt_zero, zero_mul, (sq_zero_of h).2]
  · rw [sin_arctan2]
    field_simp

theorem cos_div (y x : ℝ) : Real.cos (arctan2 y x) / √(x ^ 2 + y ^ 2) = x / (x ^ 2 + y ^ 2) := by
  by_cases h : x ^ 2 + y ^ 2 = 0
  · rw [h, Real.sqrt_zero, div_zero, div_zero]
  · rw [cos_arctan2 h, div_div, Real.mul_self_sqrt (by positivity)]

theorem sin_div (y x : ℝ) : Real.sin (arctan2 y x) / √(x ^ 2 + y ^ 2) = y / (x ^ 2 + y ^ 2) := by
  rw [sin_arctan2, div_div, Real.mul_self_sqrt (by positivity)]

/-- The derivative of a power series' building block. -/
theorem d_sq (t : ℝ) : HasDerivAt (fun s => s ^ 2) (2 * t) t := by
  simpa using hasDerivAt_pow 2 t

theorem d_x (x y : ℝ) : HasDerivAt (fun t => t ^ 2 + y ^ 2) (2 * x) x := (d_sq x).add_const _
theorem d_y (x y : ℝ) : HasDerivAt (fun t => x ^ 2 + t ^ 2) (2 * y) y := (d_sq y).const_add _

theorem d_Rx {x y : ℝ} (h : x ^ 2 + y ^ 2 ≠ 0) : HasDerivAt (fun t => √(t ^ 2 + y ^ 2)) (x / √(x ^ 2 + y ^ 2)) x := by
  refine ((d_x x y).sqrt h).congr_deriv ?_
  rw [mul_div_mul_left _ _ two_ne_zero]

theorem d_Ry {x y : ℝ} (h : x ^ 2 + y ^ 2 ≠ 0) : HasDerivAt (fun t => √(x ^ 2 + t ^ 2)) (y / √(x ^ 2 + y ^ 2)) y := by
  refine ((d_y x y).sqrt h).congr_deriv ?_
  rw [mul_div_mul_left _ _ two_ne_zero]

end Simsopt.Fields
