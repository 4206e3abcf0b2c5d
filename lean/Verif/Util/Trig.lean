import Mathlib.Analysis.SpecialFunctions.Complex.Log
import Mathlib.Algebra.Field.GeomSum
import Mathlib.Analysis.SpecialFunctions.Trigonometric.Basic
import Mathlib.Algebra.BigOperators.Ring.Finset
import Mathlib.Tactic.Linarith
import Mathlib.Tactic.Ring
import Mathlib.Tactic.FieldSimp
/-!
# Sums of trigonometric functions over uniform grids
-/
namespace Simsopt.Trig
open Finset Real

theorem ratio_eq_one (K : Nat) (hK : 0 < K) (a : ℤ) : Complex.exp (2 * π * a / K * Complex.I) = 1 ↔ (K : ℤ) ∣ a := by
  rw [Complex.exp_eq_one_iff]
  have hK' : (K : ℂ) ≠ 0 := by exact_mod_cast hK.ne'
  have hpi : (2 * (π : ℂ) * Complex.I) ≠ 0 := Complex.two_pi_I_ne_zero
  constructor
  · rintro ⟨n, hn⟩
    refine ⟨n, ?_⟩
    have : (a : ℂ) * (2 * π * Complex.I) = (K * n : ℂ) * (2 * π * Complex.I) := by
      field_simp at hn
      linear_combination (2 * (π : ℂ) * Complex.I) * hn
    have := mul_right_cancel₀ hpi this
    exact_mod_cast this
  · rintro ⟨n, rfl⟩
    refine ⟨n, ?_⟩
    push_cast
    field_simp

/-- The sum of `cos(2π a j / K + φ)` over a period: all terms are equal if `K` divides `a`, otherwise they cancel. -/
theorem sum_cos_period (K : Nat) (hK : 0 < K) (a : ℤ) (φ : ℝ) :
    ∑ j ∈ range K, Real.cos (a * (2 * π * (j / K)) + φ) = if (K : ℤ) ∣ a then K * Real.cos φ else 0 := by
  have hK' : (K : ℝ) ≠ 0 := by exact_mod_cast hK.ne'
  have hterm : ∀ j : Nat, Real.cos (a * (2 * π * (j / K)) + φ) = ((Complex.exp (2 * π * a / K * Complex.I)) ^ j * Complex.exp (φ * Complex.I)).re := by
    intro j
    rw [← Complex.exp_nat_mul, ← Complex.exp_add, show (j : ℂ) * (2 * π * a / K * Complex.I) + φ * Complex.I = ((a * (2 * π * (j / K)) + φ : ℝ) : ℂ) * Complex.I by push_cast; ring,
      Complex.exp_ofReal_mul_I_re]
  simp_rw [hterm]
  rw [← Complex.re_sum, ← Finset.sum_mul]
  by_cases hd : (K : ℤ) ∣ a
  · rw [if_pos hd, (ratio_eq_one K hK a).mpr hd]
    simp only [one_pow, Finset.sum_const, Finset.card_range, nsmul_eq_mul, mul_one]
    rw [show (K : ℂ) * Complex.exp (φ * Complex.I) = ((K : ℝ) : ℂ) * Complex.exp (φ * Complex.I) by push_cast; rfl, Complex.re_ofReal_mul, Complex.exp_ofReal_mul_I_re]
  · rw [if_neg hd]
    have hr : Complex.exp (2 * π * a / K * Complex.I) ≠ 1 := fun h => hd ((ratio_eq_one K hK a).mp h)
    have hpow : Complex.exp (2 * π * a / K * Complex.I) ^ K = 1 := by
      rw [← Complex.exp_nat_mul, Complex.exp_eq_one_iff]
      refine ⟨a, ?_⟩
      have : (K : ℂ) ≠ 0 := by exact_mod_cast hK.ne'
      field_simp
    have := geom_sum_mul (Complex.exp (2 * π * a / K * Complex.I)) K
    rw [hpow, sub_self] at this
    rcases mul_eq_zero.mp this with h | h
    · rw [h]; simp
    · exact absurd (sub_eq_zero.mp h) hr

/-- The same on a grid in two angles. -/
theorem sum_cos_grid (K L : Nat) (hK : 0 < K) (hL : 0 < L) (a b : ℤ) (φ : ℝ) :
    ∑ j ∈ range K, ∑ k ∈ range L, Real.cos (a * (2 * π * (j / K)) + b * (2 * π * (k / L)) + φ) =
      if (K : ℤ) ∣ a ∧ (L : ℤ) ∣ b then K * L * Real.cos φ else 0 := by
  have h1 : ∀ j : Nat, ∑ k ∈ range L, Real.cos (a * (2 * π * (j / K)) + b * (2 * π * (k / L)) + φ) =
      if (L : ℤ) ∣ b then L * Real.cos (a * (2 * π * (j / K)) + φ) else 0 := by
    intro j
    rw [← sum_cos_period L hL b]
    exact Finset.sum_congr rfl fun k _ => by congr 1; ring
  simp_rw [h1]
  by_cases hb : (L : ℤ) ∣ b
  · simp only [hb, if_true, and_true]
    rw [← Finset.mul_sum, sum_cos_period K hK]
    split <;> ring
  · simp only [hb, if_false, and_false, Finset.sum_const_zero]

theorem sum_sin_grid (K L : Nat) (hK : 0 < K) (hL : 0 < L) (a b : ℤ) (φ : ℝ) :
    ∑ j ∈ range K, ∑ k ∈ range L, Real.sin (a * (2 * π * (j / K)) + b * (2 * π * (k / L)) + φ) =
      if (K : ℤ) ∣ a ∧ (L : ℤ) ∣ b then K * L * Real.sin φ else 0 := by
  have h := sum_cos_grid K L hK hL a b (φ - π / 2)
  rw [Real.cos_sub_pi_div_two] at h
  rw [← h]
  refine Finset.sum_congr rfl fun j _ => Finset.sum_congr rfl fun k _ => ?_
  rw [← Real.cos_sub_pi_div_two]
  congr 1
  ring

end Simsopt.Trig
