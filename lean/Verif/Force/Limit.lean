import Verif.Force.Smooth
import Mathlib.MeasureTheory.Integral.IntervalIntegral.Basic
import Mathlib.Topology.UniformSpace.HeineCantor
import Mathlib.Analysis.SpecificLimits.Basic
/-!
# C158: with more and more quadrature points the self-field converges to the documented integral

The formula of Hurwitz, Landreman and Antonsen (arXiv:2310.09313, eq. for the regularized field with the near-singularity subtracted), as the limit of `B_regularized_pure` for an infinite number of quadrature points.
-/
namespace Simsopt.Force
open Simsopt Simsopt.Coils
open Simsopt.Geometry hiding norm tangent
open Filter MeasureTheory

/-- Riemann sums of a continuous function converge to its integral over the unit interval. -/
theorem riemann (f : ℝ → V3) (hf : Continuous f) : Tendsto (fun n : ℕ => (1 / (n : ℝ)) • ∑ j : Fin n, f (j / n)) atTop (nhds (∫ x in (0 : ℝ)..1, f x)) := by
  rw [Metric.tendsto_atTop]
  intro ε hε
  have huc : UniformContinuousOn f (Set.Icc 0 1) := isCompact_Icc.uniformContinuousOn_of_continuous hf.continuousOn
  rw [Metric.uniformContinuousOn_iff] at huc
  obtain ⟨δ, hδ, hu⟩ := huc (ε / 2) (by linarith)
  obtain ⟨N, hN⟩ := exists_nat_gt (1 / δ)
  refine ⟨N + 1, fun n hn => ?_⟩
  have hn0 : (0 : ℝ) < n := by exact_mod_cast (by omega : 0 < n)
  have hnd : 1 / (n : ℝ) < δ := by
    rw [div_lt_iff₀ hn0]
    rw [div_lt_iff₀ hδ] at hN
    have : (N : ℝ) < n := by exact_mod_cast hn
    nlinarith
  have hi : ∀ a b : ℝ, IntervalIntegrable f volume a b := fun a b => hf.intervalIntegrable a b
  have hsplit : ∫ x in (0 : ℝ)..1, f x = ∑ j ∈ Finset.range n, ∫ x in ((j : ℝ) / n)..(((j + 1 : ℕ) : ℝ) / n), f x := by
    rw [intervalIntegral.sum_integral_adjacent_intervals (a := fun j : ℕ => (j : ℝ) / n) fun k _ => hi _ _]
    simp [div_self hn0.ne']
  have hsum : (1 / (n : ℝ)) • ∑ j : Fin n, f (j / n) = ∑ j ∈ Finset.range n, ∫ x in ((j : ℝ) / n)..(((j + 1 : ℕ) : ℝ) / n), f (j / n) := by
    rw [Finset.smul_sum, ← Fin.sum_univ_eq_sum_range (fun j => ∫ x in ((j : ℝ) / n)..(((j + 1 : ℕ) : ℝ) / n), f (j / n))]
    refine Finset.sum_congr rfl fun j _ => ?_
    rw [intervalIntegral.integral_const]
    congr 1
    push_cast; ring
  rw [hsum, hsplit, dist_eq_norm, ← Finset.sum_sub_distrib]
  have hterm : ∀ j ∈ Finset.range n, ‖(∫ x in ((j : ℝ) / n)..(((j + 1 : ℕ) : ℝ) / n), f (j / n)) - ∫ x in ((j : ℝ) / n)..(((j + 1 : ℕ) : ℝ) / n), f x‖ ≤ ε / 2 * (1 / n) := by
    intro j hj
    have hj : (j : ℝ) + 1 ≤ n := by exact_mod_cast Finset.mem_range.mp hj
    rw [← intervalIntegral.integral_sub (continuous_const.intervalIntegrable _ _) (hi _ _)]
    have hle : (j : ℝ) / n ≤ ((j + 1 : ℕ) : ℝ) / n := by push_cast; gcongr; linarith
    have hlen : ((j + 1 : ℕ) : ℝ) / n - j / n = 1 / n := by push_cast; ring
    have := intervalIntegral.norm_integral_le_of_norm_le_const (a := (j : ℝ) / n) (b := ((j + 1 : ℕ) : ℝ) / n) (C := ε / 2) (f := fun x => f (j / n) - f x) (by
      intro x hx
      rw [Set.uIoc_of_le hle] at hx
      rw [← dist_eq_norm]
      have h0 : (0 : ℝ) ≤ j / n := by positivity
      have h1 : ((j + 1 : ℕ) : ℝ) / n ≤ 1 := by push_cast; rw [div_le_one hn0]; exact hj
      refine (hu _ ⟨h0, hle.trans h1⟩ _ ⟨h0.trans hx.1.le, hx.2.trans h1⟩ ?_).le
      rw [Real.dist_eq, abs_sub_comm, abs_of_pos (by linarith [hx.1])]
      linarith [hx.2])
    rw [hlen, abs_of_pos (by positivity)] at this
    exact this
  calc ‖∑ j ∈ Finset.range n, ((∫ x in ((j : ℝ) / n)..(((j + 1 : ℕ) : ℝ) / n), f (j / n)) - ∫ x in ((j : ℝ) / n)..(((j + 1 : ℕ) : ℝ) / n), f x)‖
      ≤ ∑ j ∈ Finset.range n, ε / 2 * (1 / n) := norm_sum_le_of_le _ hterm
    _ = ε / 2 := by rw [Finset.sum_const, Finset.card_range, nsmul_eq_mul]; field_simp
    _ < ε := by linarith

/-- The documented field at the angle `φ` of a curve `r` of the angle: the analytic term and the integral over one turn. -/
noncomputable def documentedField (pref I reg : ℝ) (r r1 r2 : ℝ → V3) (φ : ℝ) : V3 :=
  (pref * I) • (((1 / (2 * Real.sqrt (inner (r1 φ) (r1 φ)) ^ 3)) * (-2 + Real.log (64 * inner (r1 φ) (r1 φ) / reg))) • cross (r1 φ) (r2 φ)
    + (2 * Real.pi) • ∫ x in (0 : ℝ)..1,
        ((1 / (inner (r φ - r (φ + 2 * Real.pi * x)) (r φ - r (φ + 2 * Real.pi * x)) + reg) ^ (3 / 2 : ℝ)) • cross (r1 (φ + 2 * Real.pi * x)) (r φ - r (φ + 2 * Real.pi * x))
          + ((1 - Real.cos (2 * Real.pi * x)) / ((2 - 2 * Real.cos (2 * Real.pi * x)) * inner (r1 φ) (r1 φ) + reg) ^ (3 / 2 : ℝ)) • cross (r2 φ) (r1 φ)))

theorem cont_inner {f h : ℝ → V3} (hf : Continuous f) (hh : Continuous h) : Continuous fun x => inner (f x) (h x) := by unfold Geometry.inner; fun_prop

theorem cont_cross {f h : ℝ → V3} (hf : Continuous f) (hh : Continuous h) : Continuous fun x => cross (f x) (h x) := by unfold Coils.cross; fun_prop

/-- **C158.** For a closed curve given by its arrays at `n` equidistant quadrature points starting anywhere (`s`), the self-field at the first point converges to the documented integral as `n` grows.  `r` is the curve as a function of the
angle, `r1`, `r2` its derivatives; the arrays of simsopt are those of the curve parameter `angle / 2π`. -/
theorem C158_limit (pref I reg : ℝ) (hreg : 0 < reg) (r r1 r2 : ℝ → V3) (hr : Continuous r) (hr1 : Continuous r1) (s : ℝ) :
    Tendsto (fun n : ℕ => bReg (n := n + 1) pref (fun j => r (2 * Real.pi * (s + j / ((n + 1 : ℕ) : ℝ)))) (fun j => (2 * Real.pi) • r1 (2 * Real.pi * (s + j / ((n + 1 : ℕ) : ℝ))))
      (fun j => (4 * Real.pi ^ 2) • r2 (2 * Real.pi * (s + j / ((n + 1 : ℕ) : ℝ)))) (fun j => s + j / ((n + 1 : ℕ) : ℝ)) I reg 0) atTop (nhds (documentedField pref I reg r r1 r2 (2 * Real.pi * s))) := by
  have hpi := Real.pi_ne_zero
  have e1 : ∀ v : V3, (1 / 2 / Real.pi) • (2 * Real.pi) • v = v := fun v => by rw [smul_smul, show 1 / 2 / Real.pi * (2 * Real.pi) = 1 by field_simp, one_smul]
  have e2 : ∀ v : V3, (1 / 4 / Real.pi ^ 2) • (4 * Real.pi ^ 2) • v = v := fun v => by rw [smul_smul, show 1 / 4 / Real.pi ^ 2 * (4 * Real.pi ^ 2) = 1 by field_simp, one_smul]
  let φ := 2 * Real.pi * s
  let F : ℝ → V3 := fun x => (1 / (inner (r φ - r (φ + 2 * Real.pi * x)) (r φ - r (φ + 2 * Real.pi * x)) + reg) ^ (3 / 2 : ℝ)) • cross (r1 (φ + 2 * Real.pi * x)) (r φ - r (φ + 2 * Real.pi * x))
          + ((1 - Real.cos (2 * Real.pi * x)) / ((2 - 2 * Real.cos (2 * Real.pi * x)) * inner (r1 φ) (r1 φ) + reg) ^ (3 / 2 : ℝ)) • cross (r2 φ) (r1 φ)
  have hF : Continuous F := by
    have ha : Continuous fun x : ℝ => φ + 2 * Real.pi * x := by fun_prop
    have hd : Continuous fun x : ℝ => r φ - r (φ + 2 * Real.pi * x) := continuous_const.sub (hr.comp ha)
    have hp1 : ∀ x : ℝ, 0 < inner (r φ - r (φ + 2 * Real.pi * x)) (r φ - r (φ + 2 * Real.pi * x)) + reg := fun x => by have := inner_self_nonneg (r φ - r (φ + 2 * Real.pi * x)); linarith
    have hp2 : ∀ x : ℝ, 0 < (2 - 2 * Real.cos (2 * Real.pi * x)) * inner (r1 φ) (r1 φ) + reg := fun x => by have := mul_nonneg (cosFac_nonneg (2 * Real.pi * x)) (inner_self_nonneg (r1 φ)); linarith
    refine Continuous.add (Continuous.smul (continuous_const.div ?_ fun x => (Real.rpow_pos_of_pos (hp1 x) _).ne') (cont_cross (hr1.comp ha) hd)) (Continuous.smul (Continuous.div (by fun_prop) ?_ fun x => (Real.rpow_pos_of_pos (hp2 x) _).ne') continuous_const)
    · exact Continuous.rpow_const ((cont_inner hd hd).add continuous_const) fun x => Or.inl (hp1 x).ne'
    · exact Continuous.rpow_const (by fun_prop) fun x => Or.inl (hp2 x).ne'
  have hlim := (riemann F hF).comp (tendsto_add_atTop_nat 1)
  have hval : ∀ n : ℕ, bReg (n := n + 1) pref (fun j => r (2 * Real.pi * (s + j / ((n + 1 : ℕ) : ℝ)))) (fun j => (2 * Real.pi) • r1 (2 * Real.pi * (s + j / ((n + 1 : ℕ) : ℝ))))
      (fun j => (4 * Real.pi ^ 2) • r2 (2 * Real.pi * (s + j / ((n + 1 : ℕ) : ℝ)))) (fun j => s + j / ((n + 1 : ℕ) : ℝ)) I reg 0 =
      (pref * I) • (((1 / (2 * Real.sqrt (inner (r1 φ) (r1 φ)) ^ 3)) * (-2 + Real.log (64 * inner (r1 φ) (r1 φ) / reg))) • cross (r1 φ) (r2 φ) + (2 * Real.pi) • ((1 / ((n + 1 : ℕ) : ℝ)) • ∑ j : Fin (n + 1), F (j / ((n + 1 : ℕ) : ℝ)))) := by
    intro n
    have e0 : 2 * Real.pi * (s + ((0 : Fin (n + 1)) : ℕ) / ((n + 1 : ℕ) : ℝ)) = φ := by simp [φ]
    have e3 : ∀ j : Fin (n + 1), 2 * Real.pi * (s + (j : ℕ) / ((n + 1 : ℕ) : ℝ)) = φ + 2 * Real.pi * ((j : ℕ) / ((n + 1 : ℕ) : ℝ)) := fun j => by simp only [φ]; ring
    have e4 : ∀ j : Fin (n + 1), (s + (j : ℕ) / ((n + 1 : ℕ) : ℝ)) * 2 * Real.pi - (s + ((0 : Fin (n + 1)) : ℕ) / ((n + 1 : ℕ) : ℝ)) * 2 * Real.pi = 2 * Real.pi * ((j : ℕ) / ((n + 1 : ℕ) : ℝ)) := fun j => by
      simp only [Fin.val_zero, Nat.cast_zero, zero_div, add_zero]; ring
    simp only [bReg, singTerm, e1, e2, e4]
    rw [e0]
    simp only [e3]
    have h1 : nrm (r1 φ) * nrm (r1 φ) = inner (r1 φ) (r1 φ) := by rw [← nrm_sq]; ring
    have h2 : (0.5 * (-2 + Real.log (64 * nrm (r1 φ) * nrm (r1 φ) / reg)) / nrm (r1 φ) ^ 3) = (1 / (2 * Real.sqrt (inner (r1 φ) (r1 φ)) ^ 3)) * (-2 + Real.log (64 * inner (r1 φ) (r1 φ) / reg)) := by
      rw [mul_assoc 64, h1, ← nrm_eq]
      by_cases h : nrm (r1 φ) = 0
      · simp [h]
      · field_simp; norm_num
    rw [h2, mul_comm I pref]
    congr 2
    rw [smul_smul, mul_one_div]
    congr 1
    refine Finset.sum_congr rfl fun j _ => ?_
    simp only [F]
    rw [show (1.5 : ℝ) = 3 / 2 by norm_num]
    congr 3
    ring
  simp only [hval]
  exact ((hlim.const_smul (2 * Real.pi)).const_add _).const_smul (pref * I)

end Simsopt.Force
