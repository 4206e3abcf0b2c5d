import Verif.Fields.Reiman
import Mathlib.Analysis.SpecialFunctions.Log.Deriv
import Mathlib.Analysis.SpecialFunctions.Gamma.Basic
import Mathlib.Algebra.BigOperators.Intervals
/-!
# Dommaschk's coefficients and radial functions

Model of `alpha`, `alphas`, `beta`, `betas`, `gamma1`, `gammas` (src/simsoptpp/dommaschk.cpp L4-59), and the radial sums of `Dmn`, `Nmn` and their derivatives.  The arguments `int m, int l` are integers; `tgamma` is the Gamma function; `pow` has integer
exponents.
-/
namespace Simsopt.Fields.Dom
open Finset

/-- `alpha` (L4-13). -/
noncomputable def alpha (m l : ℤ) : ℝ :=
  if l < 0 then 0 else (-1) ^ l / (Real.Gamma (m + l + 1) * Real.Gamma (l + 1) * 2 ^ (2 * l + m))

/-- `alphas` (L15-19). -/
noncomputable def alphas (m l : ℤ) : ℝ := (2 * l + m) * alpha m l

/-- `beta` (L21-30). -/
noncomputable def beta (m l : ℤ) : ℝ :=
  if l < 0 ∨ l ≥ m then 0 else Real.Gamma (m - l) / (Real.Gamma (l + 1) * 2 ^ (2 * l - m + 1))

/-- `betas` (L32-36). -/
noncomputable def betas (m l : ℤ) : ℝ := (2 * l - m) * beta m l

/-- `gamma1` (L38-52); the loop index `i` runs from 1 to `l`. -/
noncomputable def gamma1 (m l : ℤ) : ℝ :=
  if l ≤ 0 then 0 else alpha m l / 2 * ∑ i ∈ range l.toNat, (1 / ((i : ℝ) + 1) + 1 / (m + ((i : ℝ) + 1)))

/-- `gammas` (L54-58). -/
noncomputable def gammas (m l : ℤ) : ℝ := (2 * l + m) * gamma1 m l

/-! ## Recursions -/

theorem alpha_step {m l : ℤ} (hm : 0 ≤ m) (hl : 1 ≤ l) : 4 * l * (l + m) * alpha m l = -alpha m (l - 1) := by
  have h1 : (l : ℝ) ≠ 0 := by exact_mod_cast (by omega : l ≠ 0)
  have h2 : (m : ℝ) + l ≠ 0 := by exact_mod_cast (by omega : m + l ≠ 0)
  unfold alpha
  rw [if_neg (by omega), if_neg (by omega)]
  push_cast
  have g1 : Real.Gamma (m + l + 1) = (m + l) * Real.Gamma (m + l) := Real.Gamma_add_one h2
  have g2 : Real.Gamma (l + 1) = l * Real.Gamma l := Real.Gamma_add_one h1
  have e1 : (m : ℝ) + (l - 1) + 1 = m + l := by ring
  have e2 : (l : ℝ) - 1 + 1 = l := by ring
  have p1 : (2 : ℝ) ^ (2 * l + m) = 4 * 2 ^ (2 * (l - 1) + m) := by
    have : (2 : ℝ) ^ (2 * l + m) = 2 ^ (2 * (l - 1) + m) * 2 ^ (2 : ℤ) := by rw [← zpow_add₀ two_ne_zero]; congr 1; ring
    rw [this]; norm_num; ring
  have p2 : (-1 : ℝ) ^ l = -(-1) ^ (l - 1) := by
    have : (-1 : ℝ) ^ l = (-1) ^ (l - 1) * (-1) ^ (1 : ℤ) := by rw [← zpow_add₀ (by norm_num)]; congr 1; ring
    rw [this]; norm_num
  rw [e1, e2, g1, g2, p1, p2]
  have hp : (2 : ℝ) ^ (2 * (l - 1) + m) ≠ 0 := zpow_ne_zero _ two_ne_zero
  have hg1 : Real.Gamma ((m : ℝ) + l) ≠ 0 := (Real.Gamma_pos_of_pos (by exact_mod_cast (by omega : 0 < m + l))).ne'
  have hg2 : Real.Gamma (l : ℝ) ≠ 0 := (Real.Gamma_pos_of_pos (by exact_mod_cast (by omega : 0 < l))).ne'
  field_simp
  ring

theorem gamma_step {m l : ℤ} (hm : 0 ≤ m) (hl : 1 ≤ l) : 4 * l * (l + m) * gamma1 m l = -gamma1 m (l - 1) + 2 * (2 * l + m) * alpha m l := by
  have h1 : (l : ℝ) ≠ 0 := by exact_mod_cast (by omega : l ≠ 0)
  have h2 : (m : ℝ) + l ≠ 0 := by exact_mod_cast (by omega : m + l ≠ 0)
  obtain ⟨k, rfl⟩ : ∃ k : ℕ, l = k + 1 := ⟨(l - 1).toNat, by omega⟩
  have hs := alpha_step hm hl
  have e : (gamma1 m ((k : ℤ) + 1 - 1)) = alpha m ((k : ℤ) + 1 - 1) / 2 * ∑ i ∈ range k, (1 / ((i : ℝ) + 1) + 1 / (m + ((i : ℝ) + 1))) := by
    unfold gamma1
    by_cases hk : k = 0
    · subst hk; simp
    · rw [if_neg (by omega)]
      have : ((k : ℤ) + 1 - 1).toNat = k := by omega
      rw [this]
  rw [e]
  unfold gamma1
  rw [if_neg (by omega)]
  have : ((k : ℤ) + 1).toNat = k + 1 := by omega
  rw [this, sum_range_succ]
  generalize ∑ i ∈ range k, (1 / ((i : ℝ) + 1) + 1 / (m + ((i : ℝ) + 1))) = H
  generalize alpha m ((k : ℤ) + 1) = a at *
  generalize alpha m ((k : ℤ) + 1 - 1) = b at *
  push_cast at *
  have hb : b = -(4 * (k + 1) * (k + 1 + m) * a) := by linarith
  rw [hb]
  field_simp
  ring

theorem beta_step {m l : ℤ} (hl : 1 ≤ l) : 4 * l * (l - m) * beta m l = -beta m (l - 1) + if l = m then beta m (m - 1) else 0 := by
  unfold beta
  rcases lt_trichotomy l m with h | h | h
  · rw [if_neg (by omega), if_neg (by omega), if_neg (by omega)]
    have h1 : (l : ℝ) ≠ 0 := by exact_mod_cast (by omega : l ≠ 0)
    have h2 : (m : ℝ) - l ≠ 0 := by exact_mod_cast (by omega : m - l ≠ 0)
    push_cast
    have g1 : Real.Gamma (m - l + 1) = (m - l) * Real.Gamma (m - l) := Real.Gamma_add_one h2
    have g2 : Real.Gamma (l + 1) = l * Real.Gamma l := Real.Gamma_add_one h1
    have e1 : (m : ℝ) - (l - 1) = m - l + 1 := by ring
    have e2 : (l : ℝ) - 1 + 1 = l := by ring
    have p1 : (2 : ℝ) ^ (2 * l - m + 1) = 4 * 2 ^ (2 * (l - 1) - m + 1) := by
      have : (2 : ℝ) ^ (2 * l - m + 1) = 2 ^ (2 * (l - 1) - m + 1) * 2 ^ (2 : ℤ) := by rw [← zpow_add₀ two_ne_zero]; congr 1; ring
      rw [this]; norm_num; ring
    rw [e1, e2, g1, g2, p1]
    have hp : (2 : ℝ) ^ (2 * (l - 1) - m + 1) ≠ 0 := zpow_ne_zero _ two_ne_zero
    have hg2 : Real.Gamma (l : ℝ) ≠ 0 := (Real.Gamma_pos_of_pos (by exact_mod_cast (by omega : 0 < l))).ne'
    field_simp
    ring
  · subst h
    rw [if_pos (Or.inr le_rfl), if_pos rfl]
    ring
  · rw [if_pos (Or.inr (by omega)), if_pos (Or.inr (by omega)), if_neg (by omega)]
    ring

theorem beta_last {m : ℤ} (hm : 1 ≤ m) : beta m (m - 1) = 2 * m * alpha m 0 := by
  unfold beta alpha
  rw [if_neg (by omega), if_neg (by omega)]
  have h1 : (m : ℝ) ≠ 0 := by exact_mod_cast (by omega : m ≠ 0)
  push_cast
  have e1 : (m : ℝ) - (m - 1) = 1 := by ring
  have e2 : (m : ℝ) - 1 + 1 = m := by ring
  have g1 : Real.Gamma (m + 0 + 1) = m * Real.Gamma m := by rw [add_zero]; exact Real.Gamma_add_one h1
  have p1 : (2 : ℝ) ^ (0 + m) = 2 * 2 ^ (2 * (m - 1) - m + 1) := by
    have : (2 : ℝ) ^ (0 + m) = 2 ^ (2 * (m - 1) - m + 1) * 2 ^ (1 : ℤ) := by rw [← zpow_add₀ two_ne_zero]; congr 1; ring
    rw [this]; norm_num; ring
  have hp : (2 : ℝ) ^ (2 * (m - 1) - m + 1) ≠ 0 := zpow_ne_zero _ two_ne_zero
  have hg2 : Real.Gamma (m : ℝ) ≠ 0 := (Real.Gamma_pos_of_pos (by exact_mod_cast (by omega : 0 < m))).ne'
  rw [p1, e1, e2, g1, zero_add, Real.Gamma_one, zpow_zero]
  field_simp

/-! ## The radial sums -/

/-- The common form of the inner sums of `Dmn` and `Nmn`: `X`, `Y`, `W` are sequences of coefficients. -/
structure Seqs where
  X : ℤ → ℝ
  Y : ℤ → ℝ
  W : ℤ → ℝ

/-- The coefficient of `R ^ (2 j + m)` without the logarithm. -/
noncomputable def Seqs.c (q : Seqs) (m : ℤ) (k j : ℕ) : ℝ := alpha m j * q.Y (k - m - j) - gamma1 m j * q.X (k - m - j) + alpha m j * q.W (k - j)

noncomputable def Seqs.term (q : Seqs) (m : ℤ) (k j : ℕ) (R : ℝ) : ℝ :=
  -(alpha m j * q.X (k - m - j) * Real.log R + q.c m k j) * R ^ (2 * j + m) + q.X (k - j) * beta m j * R ^ (2 * j - m)

noncomputable def Seqs.dterm (q : Seqs) (m : ℤ) (k j : ℕ) (R : ℝ) : ℝ :=
  -(alpha m j * q.X (k - m - j) * (1 / (2 * j + m) + Real.log R) + q.c m k j) * R ^ (2 * j + m - 1) * (2 * j + m) + q.X (k - j) * beta m j * R ^ (2 * j - m - 1) * (2 * j - m)

noncomputable def Seqs.ddterm (q : Seqs) (m : ℤ) (k j : ℕ) (R : ℝ) : ℝ :=
  -(alpha m j * q.X (k - m - j) * ((4 * j + 2 * m - 1) / ((2 * j + m) * (2 * j + m - 1)) + Real.log R) + q.c m k j) * R ^ (2 * j + m - 2) * (2 * j + m) * (2 * j + m - 1)
    + q.X (k - j) * beta m j * R ^ (2 * j - m - 2) * (2 * j - m) * (2 * j - m - 1)

theorem Seqs.d_term (q : Seqs) {m : ℤ} (hm : 1 ≤ m) (k j : ℕ) {R : ℝ} (hR : R ≠ 0) : HasDerivAt (q.term m k j) (q.dterm m k j R) R := by
  have hp : (2 : ℝ) * j + m ≠ 0 := by exact_mod_cast (by omega : 2 * (j : ℤ) + m ≠ 0)
  have h1 := ((((Real.hasDerivAt_log hR).const_mul (alpha m j * q.X (k - m - j))).add_const (q.c m k j)).fun_neg).fun_mul (hasDerivAt_zpow (2 * j + m) R (Or.inl hR))
  have h2 := (hasDerivAt_zpow (2 * j - m) R (Or.inl hR)).const_mul (q.X (k - j) * beta m j)
  refine (h1.fun_add h2).congr_deriv ?_
  have e : R ^ (2 * (j : ℤ) + m) = R ^ (2 * (j : ℤ) + m - 1) * R := by rw [← zpow_add_one₀ hR]; congr 1; ring
  simp only [Seqs.dterm]
  rw [e]
  push_cast
  field_simp
  ring

theorem Seqs.d_dterm (q : Seqs) {m : ℤ} (hm : 2 ≤ m) (k j : ℕ) {R : ℝ} (hR : R ≠ 0) : HasDerivAt (q.dterm m k j) (q.ddterm m k j R) R := by
  have hp : (2 : ℝ) * j + m ≠ 0 := by exact_mod_cast (by omega : 2 * (j : ℤ) + m ≠ 0)
  have hp1 : (2 : ℝ) * j + m - 1 ≠ 0 := by exact_mod_cast (by omega : 2 * (j : ℤ) + m - 1 ≠ 0)
  have h1 := (((((((Real.hasDerivAt_log hR).const_add (1 / (2 * (j : ℝ) + m))).const_mul (alpha m j * q.X (k - m - j))).add_const (q.c m k j)).fun_neg).fun_mul (hasDerivAt_zpow (2 * j + m - 1) R (Or.inl hR))).mul_const ((2 : ℝ) * j + m))
  have h2 := ((hasDerivAt_zpow (2 * j - m - 1) R (Or.inl hR)).const_mul (q.X (k - j) * beta m j)).mul_const ((2 : ℝ) * j - m)
  refine (h1.fun_add h2).congr_deriv ?_
  have e : R ^ (2 * (j : ℤ) + m - 1) = R ^ (2 * (j : ℤ) + m - 2) * R := by rw [← zpow_add_one₀ hR]; congr 1; ring
  have e2 : (2 * (j : ℤ) + m - 1 - 1) = 2 * j + m - 2 := by ring
  have e3 : (2 * (j : ℤ) - m - 1 - 1) = 2 * j - m - 2 := by ring
  simp only [Seqs.ddterm]
  rw [e2, e3, e]
  push_cast
  field_simp
  ring

/-- The inner sum. -/
noncomputable def Seqs.S (q : Seqs) (m : ℤ) (k : ℕ) (R : ℝ) : ℝ := ∑ j ∈ range (k + 1), q.term m k j R
noncomputable def Seqs.dS (q : Seqs) (m : ℤ) (k : ℕ) (R : ℝ) : ℝ := ∑ j ∈ range (k + 1), q.dterm m k j R
noncomputable def Seqs.ddS (q : Seqs) (m : ℤ) (k : ℕ) (R : ℝ) : ℝ := ∑ j ∈ range (k + 1), q.ddterm m k j R

theorem Seqs.d_S (q : Seqs) {m : ℤ} (hm : 1 ≤ m) (k : ℕ) {R : ℝ} (hR : R ≠ 0) : HasDerivAt (q.S m k) (q.dS m k R) R :=
  HasDerivAt.fun_sum fun j _ => q.d_term hm k j hR

theorem Seqs.d_dS (q : Seqs) {m : ℤ} (hm : 2 ≤ m) (k : ℕ) {R : ℝ} (hR : R ≠ 0) : HasDerivAt (q.dS m k) (q.ddS m k R) R :=
  HasDerivAt.fun_sum fun j _ => q.d_dterm hm k j hR

/-- One term under Bessel's operator. -/
theorem Seqs.bessel_term (q : Seqs) {m : ℤ} (hm : 2 ≤ m) (k j : ℕ) {R : ℝ} (hR : R ≠ 0) :
    R ^ 2 * q.ddterm m k j R + R * q.dterm m k j R - m ^ 2 * q.term m k j R =
      -(4 * j * (j + m) * (alpha m j * q.X (k - m - j) * Real.log R + q.c m k j) + 2 * (2 * j + m) * alpha m j * q.X (k - m - j)) * R ^ (2 * j + m) + q.X (k - j) * (4 * j * (j - m) * beta m j) * R ^ (2 * j - m) := by
  have hp : (2 : ℝ) * j + m ≠ 0 := by exact_mod_cast (by omega : 2 * (j : ℤ) + m ≠ 0)
  have hp1 : (2 : ℝ) * j + m - 1 ≠ 0 := by exact_mod_cast (by omega : 2 * (j : ℤ) + m - 1 ≠ 0)
  have a1 : R ^ (2 * (j : ℤ) + m) = R ^ (2 * (j : ℤ) + m - 2) * R ^ 2 := by rw [← zpow_natCast R 2, ← zpow_add₀ hR]; congr 1; push_cast; ring
  have a2 : R ^ (2 * (j : ℤ) + m - 1) = R ^ (2 * (j : ℤ) + m - 2) * R := by rw [← zpow_add_one₀ hR]; congr 1; ring
  have b1 : R ^ (2 * (j : ℤ) - m) = R ^ (2 * (j : ℤ) - m - 2) * R ^ 2 := by rw [← zpow_natCast R 2, ← zpow_add₀ hR]; congr 1; push_cast; ring
  have b2 : R ^ (2 * (j : ℤ) - m - 1) = R ^ (2 * (j : ℤ) - m - 2) * R := by rw [← zpow_add_one₀ hR]; congr 1; ring
  simp only [Seqs.ddterm, Seqs.dterm, Seqs.term]
  rw [a1, a2, b1, b2]
  generalize R ^ (2 * (j : ℤ) + m - 2) = P
  generalize R ^ (2 * (j : ℤ) - m - 2) = Q
  generalize q.c m k j = c
  generalize ha : alpha m j * q.X (k - m - j) = a
  generalize hb : q.X (k - j) * beta m j = b
  have hu : (m : ℝ) = ((2 : ℝ) * j + m) - 2 * j := by ring
  have h4 : (4 : ℝ) * j + 2 * m - 1 = 2 * ((2 : ℝ) * j + m) - 1 := by ring
  rw [h4]
  generalize (2 : ℝ) * j + m = u at *
  rw [hu]
  have e1 : a * ((2 * u - 1) / (u * (u - 1)) + Real.log R) * (u * (u - 1)) = a * (2 * u - 1) + a * Real.log R * (u * (u - 1)) := by field_simp
  have e2 : a * (1 / u + Real.log R) * u = a + a * Real.log R * u := by field_simp
  linear_combination (-(P * R ^ 2)) * e1 + (-(P * R ^ 2)) * e2 + (2 * u * P * R ^ 2) * ha + (R ^ 2 * Q * (4 * u * j - 12 * j ^ 2)) * hb

/-- Bessel's operator lowers the index of the radial sums. -/
theorem Seqs.bessel (q : Seqs) (hX : ∀ l < 0, q.X l = 0) {m : ℤ} (hm : 2 ≤ m) (k : ℕ) {R : ℝ} (hR : R ≠ 0) :
    R ^ 2 * q.ddS m k R + R * q.dS m k R - m ^ 2 * q.S m k R = -(R ^ 2 * match k with | 0 => 0 | k + 1 => q.S m k R) := by
  have h1 : R ^ 2 * q.ddS m k R + R * q.dS m k R - m ^ 2 * q.S m k R = ∑ j ∈ range (k + 1), (R ^ 2 * q.ddterm m k j R + R * q.dterm m k j R - m ^ 2 * q.term m k j R) := by
    rw [sum_sub_distrib, sum_add_distrib, ← mul_sum, ← mul_sum, ← mul_sum]; rfl
  rw [h1, sum_congr rfl fun j _ => q.bessel_term hm k j hR, sum_range_succ']
  -- the term j = 0
  have h0 : -(4 * ((0 : ℕ) : ℝ) * ((0 : ℕ) + m) * (alpha m (0 : ℕ) * q.X (k - m - (0 : ℕ)) * Real.log R + q.c m k 0) + 2 * (2 * ((0 : ℕ) : ℝ) + m) * alpha m (0 : ℕ) * q.X (k - m - (0 : ℕ))) * R ^ (2 * ((0 : ℕ) : ℤ) + m) + q.X (k - (0 : ℕ)) * (4 * ((0 : ℕ) : ℝ) * ((0 : ℕ) - m) * beta m (0 : ℕ)) * R ^ (2 * ((0 : ℕ) : ℤ) - m)
      = -(beta m (m - 1) * q.X (k - m) * R ^ m) := by
    rw [beta_last (by omega)]
    push_cast
    simp only [mul_zero, zero_add, sub_zero, zero_mul, add_zero]
    ring
  rw [h0]
  have hstep : ∀ j ∈ range k, -(4 * ((j + 1 : ℕ) : ℝ) * ((j + 1 : ℕ) + m) * (alpha m (j + 1 : ℕ) * q.X (k - m - (j + 1 : ℕ)) * Real.log R + q.c m k (j + 1)) + 2 * (2 * ((j + 1 : ℕ) : ℝ) + m) * alpha m (j + 1 : ℕ) * q.X (k - m - (j + 1 : ℕ))) * R ^ (2 * ((j + 1 : ℕ) : ℤ) + m) + q.X (k - (j + 1 : ℕ)) * (4 * ((j + 1 : ℕ) : ℝ) * ((j + 1 : ℕ) - m) * beta m (j + 1 : ℕ)) * R ^ (2 * ((j + 1 : ℕ) : ℤ) - m)
      = -(R ^ 2 * q.term m (k - 1) j R) + if (j : ℤ) + 1 = m then beta m (m - 1) * q.X (k - m) * R ^ m else 0 := by
    intro j hj
    have hjk := mem_range.mp hj
    have ha := alpha_step (m := m) (l := ((j + 1 : ℕ) : ℤ)) (by omega) (by omega)
    have hg := gamma_step (m := m) (l := ((j + 1 : ℕ) : ℤ)) (by omega) (by omega)
    have hb := beta_step (m := m) (l := ((j + 1 : ℕ) : ℤ)) (by omega)
    have i1 : ((k - 1 : ℕ) : ℤ) = k - 1 := by omega
    have r1 : R ^ (2 * ((j + 1 : ℕ) : ℤ) + m) = R ^ (2 * (j : ℤ) + m) * R ^ 2 := by rw [← zpow_natCast R 2, ← zpow_add₀ hR]; congr 1; push_cast; ring
    have r2 : R ^ (2 * ((j + 1 : ℕ) : ℤ) - m) = R ^ (2 * (j : ℤ) - m) * R ^ 2 := by rw [← zpow_natCast R 2, ← zpow_add₀ hR]; congr 1; push_cast; ring
    have i2 : ((k - 1 : ℕ) : ℤ) - m - j = k - m - (j + 1 : ℕ) := by push_cast [i1]; omega
    have i3 : ((k - 1 : ℕ) : ℤ) - j = k - (j + 1 : ℕ) := by push_cast [i1]; omega
    have i4 : (((j + 1 : ℕ) : ℤ)) - 1 = j := by push_cast; ring
    rw [i4] at ha hg hb
    have hextra : (if (((j + 1 : ℕ) : ℤ)) = m then beta m (m - 1) else 0) * q.X (k - (j + 1 : ℕ)) * (R ^ (2 * (j : ℤ) - m) * R ^ 2) = if (j : ℤ) + 1 = m then beta m (m - 1) * q.X (k - m) * R ^ m else 0 := by
      by_cases h : (j : ℤ) + 1 = m
      · rw [if_pos h, if_pos (by push_cast; exact h)]
        have e1 : ((k : ℤ) - (j + 1 : ℕ)) = k - m := by push_cast; omega
        rw [e1, ← r2]
        congr 2
        push_cast
        omega
      · rw [if_neg h, if_neg (by push_cast; exact h)]; ring
    rw [← hextra]
    simp only [Seqs.term, Seqs.c, i2, i3]
    rw [r1, r2]
    push_cast at ha hg hb ⊢
    generalize (if (j : ℤ) + 1 = m then beta m (m - 1) else 0) = E at *
    generalize alpha m ((j : ℤ) + 1) = a1 at *
    generalize alpha m (j : ℤ) = a0 at *
    generalize gamma1 m ((j : ℤ) + 1) = g1 at *
    generalize gamma1 m (j : ℤ) = g0 at *
    generalize beta m ((j : ℤ) + 1) = b1 at *
    generalize beta m (j : ℤ) = b0 at *
    generalize R ^ (2 * (j : ℤ) + m) = P at *
    generalize R ^ (2 * (j : ℤ) - m) = Q at *
    generalize q.X ((k : ℤ) - m - (j + 1)) = x at *
    generalize q.Y ((k : ℤ) - m - (j + 1)) = y at *
    generalize q.W ((k : ℤ) - (j + 1)) = w at *
    generalize q.X ((k : ℤ) - (j + 1)) = x' at *
    linear_combination (-(x * Real.log R + y + w) * P * R ^ 2) * ha + (x * P * R ^ 2) * hg + (x' * Q * R ^ 2) * hb
  rw [sum_congr rfl hstep, sum_add_distrib]
  have hsum : ∑ j ∈ range k, (if (j : ℤ) + 1 = m then beta m (m - 1) * q.X (k - m) * R ^ m else 0) = beta m (m - 1) * q.X (k - m) * R ^ m := by
    by_cases h : m ≤ k
    · rw [sum_eq_single (m - 1).toNat]
      · rw [if_pos (by omega)]
      · intro b _ hb
        rw [if_neg (by omega)]
      · intro hmem
        exact absurd (mem_range.mpr (by omega)) hmem
    · rw [hX _ (by omega)]
      simp
  rw [hsum]
  cases k with
  | zero => simp
  | succ k =>
    simp only [Nat.add_sub_cancel]
    rw [sum_neg_distrib, ← mul_sum]
    simp only [Seqs.S]
    ring

end Simsopt.Fields.Dom
