import Verif.Fields.CoilProps
import Mathlib.Analysis.Calculus.MeanValue
/-!
# Circular coil: derivatives at x = 0, and the vector potential
-/
namespace Simsopt.Fields
open Elliptic

/-- A coil in the plane z = 0 around the origin. -/
def flat (r0 inorm : ℝ) : Coil := ⟨r0, 0, inorm, .angles 0 0⟩

theorem flat_rot (r0 inorm : ℝ) : (flat r0 inorm).rotmat = ![![1, 0, 0], ![0, 1, 0], ![0, 0, 1]] := by
  simp [Coil.rotmat, Coil.theta, Coil.phi, flat]

theorem flat_local (r0 inorm : ℝ) (p : P3) : (flat r0 inorm).toLocal p = p := by
  funext i
  unfold Coil.toLocal Coil.rotmatinv dotv
  rw [flat_rot]
  fin_cases i <;> simp [flat]

theorem flat_dot (r0 inorm : ℝ) (v : P3) : dotv (flat r0 inorm).rotmat v = v := by
  rw [flat_rot]
  funext i
  fin_cases i <;> simp [dotv]

theorem flat_B (ε r0 inorm : ℝ) (p : P3) : (flat r0 inorm).B ε p = localB ε inorm r0 p := by
  unfold Coil.B
  rw [flat_dot, flat_local]; rfl

theorem flat_A (ε r0 inorm : ℝ) (p : P3) : (flat r0 inorm).A ε p = localA ε inorm r0 p := by
  unfold Coil.A
  rw [flat_dot, flat_local]; rfl

theorem flat_dB (ε r0 inorm : ℝ) (p : P3) : (flat r0 inorm).dB ε p = localDB ε inorm r0 p := by
  unfold Coil.dB
  rw [flat_local]
  funext i j
  simp only [transp2, Coil.entry, Coil.rotmatinv, flat_rot]
  fin_cases i <;> fin_cases j <;> simp [flat]

theorem K_le {m : ℝ} (hm : m ≤ 1 / 2) : K m ≤ Real.pi := by
  have h1 : m < 1 := by linarith
  have hle : ∀ θ : ℝ, 1 / del m θ ≤ 2 := fun θ => by
    have hp := del_pos h1 θ
    rw [div_le_iff₀ hp]
    have : (1 / 2 : ℝ) ≤ del m θ := by
      apply Real.le_sqrt_of_sq_le
      have := Real.sin_sq_le_one θ
      have := sq_nonneg (Real.sin θ)
      nlinarith
    linarith
  have := intervalIntegral.integral_mono_on (a := 0) (b := Real.pi / 2) (by positivity) ((continuous_inv h1).intervalIntegrable _ _) (continuous_const.intervalIntegrable (μ := MeasureTheory.volume) _ _) (fun θ _ => hle θ)
  rw [intervalIntegral.integral_const] at this
  unfold K
  refine this.trans (le_of_eq ?_)
  simp

theorem E_nonneg (m : ℝ) : 0 ≤ E m := intervalIntegral.integral_nonneg (by positivity) fun θ _ => Real.sqrt_nonneg _

/-- **C100.** At points whose x coordinate in the frame of the coil is 0 the program's array is wrong: it divides 0 by 1e-31 and has the derivative 0 of `B_z` in y.  For the coil of radius 1 in the plane z = 0, somewhere on the line x = 0, z = 1 `dB_by_dX` is not the
array of first derivatives of `B`. -/
theorem C100_dB_violated : ∃ y : ℝ, ¬IsJacobian ((flat 1 1).B 1e-31) ![0, y, 1] ((flat 1 1).dB 1e-31 ![0, y, 1]) := by
  by_contra hcon
  push Not at hcon
  have hd : ∀ y : ℝ, HasDerivAt (fun t => localB 1e-31 1 1 ![0, t, 1] 2) 0 y := fun y => by
    have h := hcon y 1 2
    have hu : ∀ t, Function.update (![0, y, 1] : P3) 1 t = ![0, t, 1] := fun t => by
      funext i; fin_cases i <;> simp
    simp only [hu, flat_B, flat_dB] at h
    refine h.congr_deriv ?_
    simp [localDB]
  have hconst := is_const_of_deriv_eq_zero (fun y => (hd y).differentiableAt) (fun y => (hd y).deriv) 0 100
  have h0 : localB 1e-31 1 1 ![0, 0, 1] 2 = 1 * Real.pi * 1 ^ 2 / (2 * √(1 ^ 2 + 1 ^ 2) ^ 3 + 1e-31) := by
    rw [localB_axis _ _ _ _ one_pos]; rfl
  have hs2 : √((1 : ℝ) ^ 2 + 1 ^ 2) ≤ 3 / 2 := by
    rw [Real.sqrt_le_left (by norm_num)]; norm_num
  have hs0 : (0 : ℝ) ≤ √((1 : ℝ) ^ 2 + 1 ^ 2) := Real.sqrt_nonneg _
  have hs3 : √((1 : ℝ) ^ 2 + 1 ^ 2) ^ 3 ≤ (3 / 2) ^ 3 := pow_le_pow_left₀ hs0 hs2 3
  have hbig : Real.pi / 7 ≤ localB 1e-31 1 1 ![0, 0, 1] 2 := by
    rw [h0, one_mul, one_pow, mul_one]
    apply div_le_div_of_nonneg_left Real.pi_pos.le
    · positivity
    · norm_num at hs3 ⊢; linarith
  have hrho : (loc 1 (![0, 100, 1] : P3)).rho = 100 := by
    show √((0 : ℝ) ^ 2 + 100 ^ 2) = 100
    rw [show ((0 : ℝ) ^ 2 + 100 ^ 2) = 100 ^ 2 by norm_num, Real.sqrt_sq (by norm_num)]
  have hz : (![0, 100, 1] : P3) 2 = 1 := rfl
  have ha : (loc 1 (![0, 100, 1] : P3)).alpha ^ 2 = 9802 := by rw [loc_alpha2, hrho, hz]; norm_num [ca]
  have hb : (loc 1 (![0, 100, 1] : P3)).beta = √10202 := by rw [loc_beta, hrho, hz]; norm_num [cb]
  have hr : (loc 1 (![0, 100, 1] : P3)).r ^ 2 = 10001 := by rw [loc_r2, hrho, hz]; norm_num
  have hk : (loc 1 (![0, 100, 1] : P3)).k ≤ Real.pi := by
    rw [loc_k one_pos, hrho, hz]
    exact K_le (by norm_num [ca, cb])
  have he : 0 ≤ (loc 1 (![0, 100, 1] : P3)).e := E_nonneg _
  have hβ : (101 : ℝ) ≤ √10202 := by
    apply Real.le_sqrt_of_sq_le; norm_num
  have hsmall : localB 1e-31 1 1 ![0, 100, 1] 2 ≤ Real.pi / 202 := by
    show 1 / (2 * (loc 1 ![0, 100, 1]).alpha ^ 2 * (loc 1 ![0, 100, 1]).beta + 1e-31) * ((1 ^ 2 - (loc 1 ![0, 100, 1]).r ^ 2) * (loc 1 ![0, 100, 1]).e + (loc 1 ![0, 100, 1]).alpha ^ 2 * (loc 1 ![0, 100, 1]).k) ≤ _
    rw [ha, hb, hr, one_div_mul_eq_div, div_le_div_iff₀ (by positivity) (by norm_num)]
    have hpi := Real.pi_pos
    nlinarith [mul_le_mul_of_nonneg_left hβ hpi.le]
  have hpi := Real.pi_pos
  have : Real.pi / 7 ≤ Real.pi / 202 := by
    calc Real.pi / 7 ≤ _ := hbig
      _ = _ := hconst
      _ ≤ _ := hsmall
  linarith

end Simsopt.Fields
