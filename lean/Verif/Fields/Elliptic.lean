import Mathlib.Analysis.Calculus.ParametricIntervalIntegral
import Mathlib.MeasureTheory.Integral.IntervalIntegral.FundThmCalculus
import Mathlib.Analysis.SpecialFunctions.Sqrt
import Mathlib.Analysis.SpecialFunctions.Integrals.Basic
import Mathlib.Tactic.FieldSimp
import Mathlib.Tactic.LinearCombination
/-!
# Complete elliptic integrals

`scipy.special.ellipk(m)` and `ellipe(m)` are the complete elliptic integrals of the parameter `m`.  Their derivatives.
-/
namespace Simsopt.Elliptic
open MeasureTheory Set

/-- `√(1 - m sin² θ)`. -/
noncomputable def del (m θ : ℝ) : ℝ := √(1 - m * Real.sin θ ^ 2)

/-- `ellipk(m)`. -/
noncomputable def K (m : ℝ) : ℝ := ∫ θ in (0 : ℝ)..(Real.pi / 2), 1 / del m θ
/-- `ellipe(m)`. -/
noncomputable def E (m : ℝ) : ℝ := ∫ θ in (0 : ℝ)..(Real.pi / 2), del m θ

theorem arg_pos {m : ℝ} (h : m < 1) (θ : ℝ) : 0 < 1 - m * Real.sin θ ^ 2 := by
  have h1 := Real.sin_sq_le_one θ
  have h0 := sq_nonneg (Real.sin θ)
  by_cases hm : 0 ≤ m
  · nlinarith
  · push Not at hm; nlinarith

theorem del_pos {m : ℝ} (h : m < 1) (θ : ℝ) : 0 < del m θ := Real.sqrt_pos.mpr (arg_pos h θ)
theorem del_sq {m : ℝ} (h : m < 1) (θ : ℝ) : del m θ ^ 2 = 1 - m * Real.sin θ ^ 2 := Real.sq_sqrt (arg_pos h θ).le

theorem continuous_del (m : ℝ) : Continuous (del m) := by unfold del; fun_prop
theorem continuous_inv {m : ℝ} (h : m < 1) : Continuous fun θ => 1 / del m θ := continuous_const.div (continuous_del m) fun θ => (del_pos h θ).ne'
theorem continuous_inv3 {m : ℝ} (h : m < 1) : Continuous fun θ => 1 / del m θ ^ 3 := continuous_const.div ((continuous_del m).pow 3) fun θ => (pow_pos (del_pos h θ) 3).ne'

theorem d_del {m : ℝ} (h : m < 1) (θ : ℝ) : HasDerivAt (fun t => del t θ) (-(Real.sin θ ^ 2) / (2 * del m θ)) m := by
  have : HasDerivAt (fun t => 1 - t * Real.sin θ ^ 2) (-(1 * Real.sin θ ^ 2)) m := ((hasDerivAt_id m).mul_const (Real.sin θ ^ 2)).const_sub 1
  refine (this.sqrt (arg_pos h θ).ne').congr_deriv ?_
  rw [one_mul]; rfl

theorem d_invdel {m : ℝ} (h : m < 1) (θ : ℝ) : HasDerivAt (fun t => 1 / del t θ) (Real.sin θ ^ 2 / (2 * del m θ ^ 3)) m := by
  refine ((hasDerivAt_const m (1 : ℝ)).fun_div (d_del h θ) (del_pos h θ).ne').congr_deriv ?_
  have := (del_pos h θ).ne'
  field_simp
  ring

/-- The square root is bounded below near a parameter smaller than 1. -/
theorem del_lower {m t θ : ℝ} (hm : m < 1) (ht : t ∈ Metric.ball m ((1 - m) / 2)) : √(min 1 ((1 - m) / 2)) ≤ del t θ := by
  rw [Metric.mem_ball, Real.dist_eq] at ht
  have ht' := (abs_lt.mp ht).2
  apply Real.sqrt_le_sqrt
  have h1 := Real.sin_sq_le_one θ
  have h0 := sq_nonneg (Real.sin θ)
  by_cases h : 0 ≤ t
  · refine (min_le_right _ _).trans ?_
    nlinarith
  · push Not at h
    refine (min_le_left _ _).trans ?_
    nlinarith

theorem low_pos {m : ℝ} (hm : m < 1) : 0 < √(min 1 ((1 - m) / 2)) := Real.sqrt_pos.mpr (lt_min one_pos (by linarith))

theorem ball_lt {m t : ℝ} (hm : m < 1) (ht : t ∈ Metric.ball m ((1 - m) / 2)) : t < 1 := by
  rw [Metric.mem_ball, Real.dist_eq] at ht
  have := (abs_lt.mp ht).2
  linarith

/-- Differentiation under the integral. -/
theorem d_E_raw {m : ℝ} (hm : m < 1) : HasDerivAt E (∫ θ in (0 : ℝ)..(Real.pi / 2), -(Real.sin θ ^ 2) / (2 * del m θ)) m := by
  have hs : Metric.ball m ((1 - m) / 2) ∈ nhds m := Metric.ball_mem_nhds m (by linarith)
  refine (intervalIntegral.hasDerivAt_integral_of_dominated_loc_of_deriv_le (μ := volume) (F := fun t θ => del t θ) (F' := fun t θ => -(Real.sin θ ^ 2) / (2 * del t θ))
    (bound := fun _ => 1 / (2 * √(min 1 ((1 - m) / 2)))) hs ?_ ?_ ?_ ?_ ?_ ?_).2
  · exact Filter.Eventually.of_forall fun t => (continuous_del t).aestronglyMeasurable
  · exact (continuous_del m).intervalIntegrable _ _
  · exact ((((Real.continuous_sin.pow 2).neg).div (continuous_const.mul (continuous_del m)) fun θ => (mul_pos two_pos (del_pos hm θ)).ne')).aestronglyMeasurable
  · refine Filter.Eventually.of_forall fun θ _ t ht => ?_
    have hp := del_pos (ball_lt hm ht) θ
    rw [norm_div, norm_neg, Real.norm_of_nonneg (sq_nonneg _), Real.norm_of_nonneg (by positivity)]
    have := del_lower (θ := θ) hm ht
    have := low_pos hm
    gcongr
    exact Real.sin_sq_le_one θ
  · exact continuous_const.intervalIntegrable _ _
  · exact Filter.Eventually.of_forall fun θ _ t ht => d_del (ball_lt hm ht) θ

theorem d_K_raw {m : ℝ} (hm : m < 1) : HasDerivAt K (∫ θ in (0 : ℝ)..(Real.pi / 2), Real.sin θ ^ 2 / (2 * del m θ ^ 3)) m := by
  have hs : Metric.ball m ((1 - m) / 2) ∈ nhds m := Metric.ball_mem_nhds m (by linarith)
  refine (intervalIntegral.hasDerivAt_integral_of_dominated_loc_of_deriv_le (μ := volume) (F := fun t θ => 1 / del t θ) (F' := fun t θ => Real.sin θ ^ 2 / (2 * del t θ ^ 3))
    (bound := fun _ => 1 / (2 * √(min 1 ((1 - m) / 2)) ^ 3)) hs ?_ ?_ ?_ ?_ ?_ ?_).2
  · filter_upwards [hs] with t ht
    exact (continuous_inv (ball_lt hm ht)).aestronglyMeasurable
  · exact (continuous_inv hm).intervalIntegrable _ _
  · exact ((Real.continuous_sin.pow 2).div (continuous_const.mul ((continuous_del m).pow 3)) fun θ => (mul_pos two_pos (pow_pos (del_pos hm θ) 3)).ne').aestronglyMeasurable
  · refine Filter.Eventually.of_forall fun θ _ t ht => ?_
    have hp := del_pos (ball_lt hm ht) θ
    rw [norm_div, Real.norm_of_nonneg (sq_nonneg _), Real.norm_of_nonneg (by positivity)]
    have := del_lower (θ := θ) hm ht
    have := low_pos hm
    gcongr
    exact Real.sin_sq_le_one θ
  · exact continuous_const.intervalIntegrable _ _
  · exact Filter.Eventually.of_forall fun θ _ t ht => d_invdel (ball_lt hm ht) θ

/-- The integral of `Δ⁻³`, by parts. -/
theorem integral_inv3 {m : ℝ} (hm : m < 1) : (1 - m) * ∫ θ in (0 : ℝ)..(Real.pi / 2), 1 / del m θ ^ 3 = E m := by
  have hder : ∀ θ : ℝ, HasDerivAt (fun s => m * (Real.sin s * Real.cos s / del m s)) (del m θ - (1 - m) * (1 / del m θ ^ 3)) θ := fun θ => by
    have h1 : HasDerivAt (fun s => 1 - m * Real.sin s ^ 2) (-(m * (2 * Real.sin θ * Real.cos θ))) θ := by
      refine (((Real.hasDerivAt_sin θ).fun_pow 2).const_mul m |>.const_sub 1).congr_deriv ?_
      simp
    have h2 : HasDerivAt (del m) (-(m * (2 * Real.sin θ * Real.cos θ)) / (2 * del m θ)) θ := h1.sqrt (arg_pos hm θ).ne'
    have h3 := ((Real.hasDerivAt_sin θ).fun_mul (Real.hasDerivAt_cos θ)).fun_div h2 (del_pos hm θ).ne'
    refine (h3.const_mul m).congr_deriv ?_
    have hd := del_sq hm θ
    have hp := (del_pos hm θ).ne'
    have hc : Real.cos θ ^ 2 = 1 - Real.sin θ ^ 2 := Real.cos_sq' θ
    generalize del m θ = d at *
    generalize Real.sin θ = s at *
    generalize Real.cos θ = c at *
    field_simp
    have e4 : d ^ 4 = (1 - m * s ^ 2) ^ 2 := by rw [← hd]; ring
    have : m * (d ^ 2 * (c ^ 2 - s ^ 2) + m * s ^ 2 * c ^ 2) = d ^ 4 - (1 - m) := by rw [e4, hd, hc]; ring
    linear_combination this
  have hint : ∫ θ in (0 : ℝ)..(Real.pi / 2), (del m θ - (1 - m) * (1 / del m θ ^ 3)) = 0 := by
    rw [intervalIntegral.integral_eq_sub_of_hasDerivAt (fun θ _ => hder θ)]
    · simp
    · exact ((continuous_del m).sub (continuous_const.mul (continuous_inv3 hm))).intervalIntegrable _ _
  have hci : Continuous fun θ => (1 - m) * (1 / del m θ ^ 3) := continuous_const.mul (continuous_inv3 hm)
  rw [intervalIntegral.integral_sub ((continuous_del m).intervalIntegrable _ _) (hci.intervalIntegrable _ _), intervalIntegral.integral_const_mul] at hint
  unfold E
  linarith

/-- The derivative of `E`. -/
theorem d_E {m : ℝ} (hm : m < 1) (h0 : m ≠ 0) : HasDerivAt E ((E m - K m) / (2 * m)) m := by
  refine (d_E_raw hm).congr_deriv ?_
  unfold E K
  rw [← intervalIntegral.integral_sub ((continuous_del m).intervalIntegrable _ _) ((continuous_inv hm).intervalIntegrable _ _), ← intervalIntegral.integral_div]
  congr 1
  funext θ
  have hp := (del_pos hm θ).ne'
  have hd := del_sq hm θ
  field_simp
  rw [hd]; ring

/-- The derivative of `K`. -/
theorem d_K {m : ℝ} (hm : m < 1) (h0 : m ≠ 0) : HasDerivAt K ((E m - (1 - m) * K m) / (2 * m * (1 - m))) m := by
  refine (d_K_raw hm).congr_deriv ?_
  have h1 : (1 - m) ≠ 0 := by linarith
  have e1 := integral_inv3 hm
  have e2 : ∫ θ in (0 : ℝ)..(Real.pi / 2), Real.sin θ ^ 2 / (2 * del m θ ^ 3) = ((∫ θ in (0 : ℝ)..(Real.pi / 2), 1 / del m θ ^ 3) - K m) / (2 * m) := by
    unfold K
    rw [← intervalIntegral.integral_sub ((continuous_inv3 hm).intervalIntegrable _ _) ((continuous_inv hm).intervalIntegrable _ _), ← intervalIntegral.integral_div]
    congr 1
    funext θ
    have hp := (del_pos hm θ).ne'
    have hd := del_sq hm θ
    field_simp
    rw [hd]; ring
  rw [e2, ← e1]
  field_simp

theorem E_zero : E 0 = Real.pi / 2 := by simp [E, del]
theorem K_zero : K 0 = Real.pi / 2 := by simp [K, del]

theorem continuousAt_E {m : ℝ} (hm : m < 1) : ContinuousAt E m := (d_E_raw hm).continuousAt
theorem continuousAt_K {m : ℝ} (hm : m < 1) : ContinuousAt K m := (d_K_raw hm).continuousAt

end Simsopt.Elliptic
