import Verif.WField.Model
import Mathlib.Analysis.Calculus.Deriv.Prod
import Mathlib.MeasureTheory.Integral.IntervalIntegral.FundThmCalculus
import Mathlib.Tactic.LinearCombination
/-!
# The field of one segment (C129)
-/
namespace Simsopt.WField
open Fields

/-- Specification: the point at parameter `t` of the segment. -/
def onSeg (n0 n1 : P3) (t : ℝ) : P3 := n0 + t • (n1 - n0)

/-- Specification: `p` is not a point of the segment. -/
def OffSeg (n0 n1 p : P3) : Prop := ∀ t ∈ Set.Icc (0 : ℝ) 1, p ≠ onSeg n0 n1 t

theorem dot_self_nonneg (u : P3) : 0 ≤ dot u u := by unfold dot; nlinarith [mul_self_nonneg (u 0), mul_self_nonneg (u 1), mul_self_nonneg (u 2)]

theorem dot_self_eq_zero {u : P3} (h : dot u u = 0) : u = 0 := by
  unfold dot at h
  have h0 := mul_self_nonneg (u 0); have h1 := mul_self_nonneg (u 1); have h2 := mul_self_nonneg (u 2)
  funext i
  have a0 : u 0 = 0 := mul_self_eq_zero.1 (by linarith)
  have a1 : u 1 = 0 := mul_self_eq_zero.1 (by linarith)
  have a2 : u 2 = 0 := mul_self_eq_zero.1 (by linarith)
  fin_cases i
  · exact a0
  · exact a1
  · exact a2

theorem nrm_sq (u : P3) : nrm u ^ 2 = dot u u := Real.sq_sqrt (dot_self_nonneg u)

theorem nrm_nonneg (u : P3) : 0 ≤ nrm u := Real.sqrt_nonneg _

theorem nrm_pos {u : P3} (h : u ≠ 0) : 0 < nrm u :=
  Real.sqrt_pos.2 (lt_of_le_of_ne (dot_self_nonneg u) fun h0 => h (dot_self_eq_zero h0.symm))

/-- Off the segment nothing is divided by zero. -/
theorem off_pos {n0 n1 p : P3} (h : OffSeg n0 n1 p) : p - n0 ≠ 0 ∧ p - n1 ≠ 0 ∧ 0 < nrm (p - n0) * nrm (p - n1) + dot (p - n0) (p - n1) := by
  have h0 : p - n0 ≠ 0 := by
    intro e
    exact h 0 ⟨le_refl _, zero_le_one⟩ (by rw [sub_eq_zero.1 e]; simp [onSeg])
  have h1 : p - n1 ≠ 0 := by
    intro e
    exact h 1 ⟨zero_le_one, le_refl _⟩ (by rw [sub_eq_zero.1 e]; simp [onSeg])
  refine ⟨h0, h1, ?_⟩
  set a := p - n0 with ha
  set b := p - n1 with hb
  have pa := nrm_pos h0
  have pb := nrm_pos h1
  -- |b| a + |a| b ≠ 0
  have hne : nrm b • a + nrm a • b ≠ 0 := by
    intro e
    have hs : 0 < nrm a + nrm b := by linarith
    refine h (nrm a / (nrm a + nrm b)) ⟨by positivity, (div_le_one hs).2 (by linarith)⟩ ?_
    funext i
    have e2 := congrFun e i
    simp only [Pi.add_apply, Pi.smul_apply, smul_eq_mul, Pi.zero_apply, ha, hb, Pi.sub_apply] at e2
    simp only [onSeg, Pi.add_apply, Pi.smul_apply, smul_eq_mul, Pi.sub_apply]
    rw [div_mul_eq_mul_div, ← sub_eq_zero, sub_add_eq_sub_sub, sub_eq_zero, eq_div_iff hs.ne']
    rw [← ha, ← hb] at e2
    linear_combination e2
  have hpos : 0 < dot (nrm b • a + nrm a • b) (nrm b • a + nrm a • b) :=
    lt_of_le_of_ne (dot_self_nonneg _) fun h0 => hne (dot_self_eq_zero h0.symm)
  have e : dot (nrm b • a + nrm a • b) (nrm b • a + nrm a • b) = 2 * (nrm a * nrm b) * (nrm a * nrm b + dot a b) := by
    have h1 := nrm_sq a
    have h2 := nrm_sq b
    generalize nrm a = x at *
    generalize nrm b = y at *
    unfold dot at *
    simp only [Pi.add_apply, Pi.smul_apply, smul_eq_mul]
    linear_combination (-(y ^ 2)) * h1 - x ^ 2 * h2
  rw [e] at hpos
  exact (pos_iff_pos_of_mul_pos hpos).1 (by positivity)

/-- **C129.** The field of a segment is the Biot-Savart law: `μ0/4π` times the integral of `dl × (p - l) / |p - l|³` along the straight line from its first to its second node, at every point that is not on the segment. -/
theorem C129_segment (n0 n1 p : P3) (h : OffSeg n0 n1 p) (k : Fin 3) :
    segB n0 n1 p k = 1e-7 * ∫ t in (0 : ℝ)..1, cross (n1 - n0) (p - onSeg n0 n1 t) k / nrm (p - onSeg n0 n1 t) ^ 3 := by
  obtain ⟨h0, h1, hpos⟩ := off_pos h
  set a := p - n0 with ha
  set b := p - n1 with hb
  have pa := nrm_pos h0
  have pb := nrm_pos h1
  have hd : n1 - n0 = a - b := by rw [ha, hb]; abel
  have hl : ∀ t, p - onSeg n0 n1 t = a - t • (a - b) := by
    intro t; rw [onSeg, hd, ha]; abel
  have hc : ∀ t, cross (n1 - n0) (p - onSeg n0 n1 t) k = cross a b k := by
    intro t
    rw [hl, hd]
    fin_cases k <;> simp [cross] <;> ring
  simp only [hc]
  have hnz : ∀ t ∈ Set.Icc (0 : ℝ) 1, p - onSeg n0 n1 t ≠ 0 := fun t ht e => h t ht (sub_eq_zero.1 e)
  show 1e-7 * (factor a b * cross a b k) = _
  congr 1
  have sa := nrm_sq a
  have sb := nrm_sq b
  -- the case of a point on the line through the nodes
  by_cases hQ : nrm a * nrm b - dot a b = 0
  · have hz : cross a b k = 0 := by
      have e : dot (cross a b) (cross a b) = (nrm a * nrm b - dot a b) * (nrm a * nrm b + dot a b) := by
        have : (nrm a * nrm b - dot a b) * (nrm a * nrm b + dot a b) = nrm a ^ 2 * nrm b ^ 2 - dot a b ^ 2 := by ring
        rw [this, sa, sb]
        simp only [dot, cross, Matrix.cons_val_zero, Matrix.cons_val_one, Matrix.cons_val]
        ring
      rw [hQ, zero_mul] at e
      rw [dot_self_eq_zero e]; rfl
    simp [hz]
  -- the antiderivative
  set A := dot (a - b) (a - b) with hA
  set Bq := -dot (a - b) a with hB
  have hAe : A = nrm a ^ 2 + nrm b ^ 2 - 2 * dot a b := by
    rw [sa, sb, hA]; simp only [dot, Pi.sub_apply]; ring
  have hBe : Bq = dot a b - nrm a ^ 2 := by
    rw [sa, hB]; simp only [dot, Pi.sub_apply]; ring
  have hq : ∀ t, dot (a - t • (a - b)) (a - t • (a - b)) = A * t ^ 2 + 2 * Bq * t + nrm a ^ 2 := by
    intro t
    rw [sa, hA, hB]
    simp only [dot, Pi.sub_apply, Pi.smul_apply, smul_eq_mul]; ring
  have hdisc : A * nrm a ^ 2 - Bq ^ 2 = (nrm a * nrm b - dot a b) * (nrm a * nrm b + dot a b) := by
    rw [hAe, hBe]; ring
  have hD0 : A * nrm a ^ 2 - Bq ^ 2 ≠ 0 := by rw [hdisc]; exact mul_ne_zero hQ hpos.ne'
  have hderiv : ∀ t ∈ Set.uIcc (0 : ℝ) 1, HasDerivAt (fun t => cross a b k * ((A * t + Bq) / ((A * nrm a ^ 2 - Bq ^ 2) * nrm (a - t • (a - b)))))
      (cross a b k / nrm (p - onSeg n0 n1 t) ^ 3) t := by
    intro t ht
    rw [Set.uIcc_of_le zero_le_one] at ht
    have hn := hnz t ht
    rw [hl] at hn ⊢
    have hp := nrm_pos hn
    have hdq : HasDerivAt (fun t => A * t ^ 2 + 2 * Bq * t + nrm a ^ 2) (2 * A * t + 2 * Bq) t := by
      refine ((((hasDerivAt_id t).fun_pow 2).const_mul A).fun_add ((hasDerivAt_id t).const_mul (2 * Bq))).add_const _ |>.congr_deriv ?_
      simp; ring
    have hqe : A * t ^ 2 + 2 * Bq * t + nrm a ^ 2 = nrm (a - t • (a - b)) ^ 2 := by rw [nrm_sq (a - t • (a - b)), hq]
    have hs : HasDerivAt (fun t => nrm (a - t • (a - b))) ((A * t + Bq) / nrm (a - t • (a - b))) t := by
      have := hdq.sqrt (by rw [hqe]; positivity)
      have e : (fun t => nrm (a - t • (a - b))) = fun t => √(A * t ^ 2 + 2 * Bq * t + nrm a ^ 2) := by
        funext t; rw [nrm, hq]
      rw [e]
      refine this.congr_deriv ?_
      rw [hqe, Real.sqrt_sq hp.le]
      field_simp
    have hlin : HasDerivAt (fun t => A * t + Bq) A t := by
      simpa using ((hasDerivAt_id t).const_mul A).add_const Bq
    refine ((hlin.fun_div (hs.const_mul (A * nrm a ^ 2 - Bq ^ 2)) (mul_ne_zero hD0 hp.ne')).const_mul (cross a b k)).congr_deriv ?_
    generalize nrm (a - t • (a - b)) = r at *
    have hD : A * r ^ 2 - (A * t + Bq) ^ 2 = A * nrm a ^ 2 - Bq ^ 2 := by rw [← hqe]; ring
    generalize A * nrm a ^ 2 - Bq ^ 2 = D at *
    field_simp
    linear_combination (cross a b k) * hD
  have hcont : ContinuousOn (fun t => cross a b k / nrm (p - onSeg n0 n1 t) ^ 3) (Set.uIcc 0 1) := by
    rw [Set.uIcc_of_le zero_le_one]
    refine continuousOn_const.div ?_ fun t ht => (pow_pos (nrm_pos (hnz t ht)) 3).ne'
    refine (ContinuousOn.pow ?_ 3)
    simp only [hl, nrm, hq]
    fun_prop
  rw [intervalIntegral.integral_eq_sub_of_hasDerivAt hderiv hcont.intervalIntegrable]
  have e1 : a - (1 : ℝ) • (a - b) = b := by rw [one_smul]; abel
  have e0 : a - (0 : ℝ) • (a - b) = a := by simp
  rw [e1, e0, factor, denom, hdisc, hAe, hBe]
  generalize nrm a = x at *
  generalize nrm b = y at *
  generalize dot a b = s at *
  have hx : x ≠ 0 := pa.ne'
  have hy : y ≠ 0 := pb.ne'
  have h3 : x * y + s ≠ 0 := hpos.ne'
  field_simp
  ring

end Simsopt.WField
