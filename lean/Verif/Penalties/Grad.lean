import Verif.Penalties.Model
import Mathlib.Algebra.BigOperators.Field
/-!
# C60: gradients of the single-curve objectives
-/
namespace Simsopt.Penalties
open Simsopt.Coils
open Simsopt.Geometry hiding norm

/-! ### The contraction -/

theorem inner_comp (a b : V3) : ∑ c : Fin 3, comp a c * comp b c = inner a b := by
  simp only [Fin.sum_univ_three, comp, inner]

/-- The flattened product is the documented contraction `res(i) = Σ_j Σ_k mat(j, k, i) v(j, k)`. -/
theorem contract_eq {n m : Nat} (M : Fin n → Fin m → V3) (v : Fin n → V3) (i : Fin m) : contract M v i = ∑ k, inner (v k) (M k i) := by
  rw [contract, ← finProdFinEquiv.sum_comp, Fintype.sum_prod_type]
  refine Finset.sum_congr rfl fun k _ => ?_
  rw [← inner_comp]
  refine Finset.sum_congr rfl fun c _ => ?_
  have h1 : (finProdFinEquiv (k, c)).divNat = k := congrArg Prod.fst (finProdFinEquiv.symm_apply_apply (k, c))
  have h2 : (finProdFinEquiv (k, c)).modNat = c := congrArg Prod.snd (finProdFinEquiv.symm_apply_apply (k, c))
  rw [h1, h2]

theorem inner_smul_left (r : ℝ) (a b : V3) : inner (r • a) b = r * inner a b := by
  simp only [inner, Prod.smul_fst, Prod.smul_snd, smul_eq_mul]; ring

/-! ### Calculus -/

theorem hasDerivAt_mean {n : Nat} {f : ℝ → Fin n → ℝ} {f' : Fin n → ℝ} {u : ℝ} (h : ∀ k, HasDerivAt (fun x => f x k) (f' k) u) :
    HasDerivAt (fun x => mean (f x)) (mean f') u := by
  exact (HasDerivAt.fun_sum fun k _ => h k).div_const _

/-- `maximum(x, 0)**p` is differentiable for `p > 1`, with the slope that JAX gives. -/
theorem hasDerivAt_maxPow (p : ℝ) (hp : 1 < p) (x : ℝ) :
    HasDerivAt (fun x : ℝ => max x 0 ^ p) (p * max x 0 ^ (p - 1) * slope x) x := by
  rcases lt_trichotomy x 0 with hx | rfl | hx
  · have e : (fun x : ℝ => max x 0 ^ p) =ᶠ[nhds x] fun _ => 0 := by
      filter_upwards [Iio_mem_nhds hx] with y hy
      rw [max_eq_right (le_of_lt hy), Real.zero_rpow (by linarith)]
    refine ((hasDerivAt_const x (0 : ℝ)).congr_of_eventuallyEq e).congr_deriv ?_
    simp [slope, not_lt.mpr hx.le, hx.ne]
  · have h0 : p * max (0 : ℝ) 0 ^ (p - 1) * slope 0 = 0 := by
      rw [max_self, Real.zero_rpow (by linarith)]; ring
    rw [h0]
    have hr : HasDerivWithinAt (fun x : ℝ => max x 0 ^ p) 0 (Set.Ici 0) 0 := by
      have h := (Real.hasDerivAt_rpow_const (x := 0) (p := p) (Or.inr hp.le)).hasDerivWithinAt (s := Set.Ici 0)
      rw [Real.zero_rpow (by linarith), mul_zero] at h
      refine h.congr (fun y hy => ?_) (by simp)
      rw [max_eq_left hy]
    have hl : HasDerivWithinAt (fun x : ℝ => max x 0 ^ p) 0 (Set.Iic 0) 0 := by
      refine (hasDerivWithinAt_const (0 : ℝ) (Set.Iic 0) (0 : ℝ)).congr (fun y hy => ?_) ?_
      · rw [max_eq_right hy, Real.zero_rpow (by linarith)]
      · rw [max_self, Real.zero_rpow (by linarith)]
    have := hl.union hr
    rw [Set.Iic_union_Ici] at this
    exact hasDerivWithinAt_univ.mp this
  · have e : (fun x : ℝ => max x 0 ^ p) =ᶠ[nhds x] fun x => x ^ p := by
      filter_upwards [Ioi_mem_nhds hx] with y hy
      rw [max_eq_left (le_of_lt hy)]
    refine ((Real.hasDerivAt_rpow_const (Or.inr hp.le)).congr_of_eventuallyEq e).congr_deriv ?_
    rw [max_eq_left hx.le, slope, if_pos hx, mul_one]

/-- `maximum(abs(x)-t, 0)**p` is differentiable for `p > 1` and `t ≥ 0`. -/
theorem hasDerivAt_absMaxPow (p t : ℝ) (hp : 1 < p) (ht : 0 ≤ t) (x : ℝ) :
    HasDerivAt (fun x : ℝ => max (|x| - t) 0 ^ p) (p * max (|x| - t) 0 ^ (p - 1) * slope (|x| - t) * sign x) x := by
  rcases lt_trichotomy x 0 with hx | rfl | hx
  · have e : (fun x : ℝ => max (|x| - t) 0 ^ p) =ᶠ[nhds x] fun x => max (-x - t) 0 ^ p := by
      filter_upwards [Iio_mem_nhds hx] with y hy
      rw [abs_of_neg hy]
    have h := (hasDerivAt_maxPow p hp (-x - t)).comp x ((hasDerivAt_id x).neg.sub_const t)
    refine (h.congr_of_eventuallyEq e).congr_deriv ?_
    rw [abs_of_neg hx, sign, if_neg (not_lt.mpr hx.le), if_pos hx]
  · have h0 : p * max (|(0 : ℝ)| - t) 0 ^ (p - 1) * slope (|(0 : ℝ)| - t) * sign 0 = 0 := by simp [sign]
    rw [h0]
    have hm : p * max (0 - t) 0 ^ (p - 1) * slope (0 - t) = 0 := by
      rw [max_eq_right (by linarith), Real.zero_rpow (by linarith)]; ring
    have hr : HasDerivWithinAt (fun x : ℝ => max (|x| - t) 0 ^ p) 0 (Set.Ici 0) 0 := by
      have h := (hasDerivAt_maxPow p hp ((0 : ℝ) - t)).comp 0 ((hasDerivAt_id (0 : ℝ)).sub_const t)
      rw [hm, zero_mul] at h
      refine h.hasDerivWithinAt.congr (fun y hy => ?_) (by simp)
      rw [abs_of_nonneg hy]; rfl
    have hl : HasDerivWithinAt (fun x : ℝ => max (|x| - t) 0 ^ p) 0 (Set.Iic 0) 0 := by
      have h := (hasDerivAt_maxPow p hp (-(0 : ℝ) - t)).comp 0 ((hasDerivAt_id (0 : ℝ)).neg.sub_const t)
      rw [neg_zero, hm, zero_mul] at h
      refine h.hasDerivWithinAt.congr (fun y hy => ?_) (by simp)
      rw [abs_of_nonpos hy]; rfl
    have := hl.union hr
    rw [Set.Iic_union_Ici] at this
    exact hasDerivWithinAt_univ.mp this
  · have e : (fun x : ℝ => max (|x| - t) 0 ^ p) =ᶠ[nhds x] fun x => max (x - t) 0 ^ p := by
      filter_upwards [Ioi_mem_nhds hx] with y hy
      rw [abs_of_pos hy]
    have h := (hasDerivAt_maxPow p hp (x - t)).comp x ((hasDerivAt_id x).sub_const t)
    refine (h.congr_of_eventuallyEq e).congr_deriv ?_
    rw [abs_of_pos hx, sign, if_pos hx]

theorem dKappa_split (d1 d2 e1 e2 : V3) : dKappa d1 d2 e1 0 + dKappa d1 d2 0 e2 = dKappa d1 d2 e1 e2 := by
  simp only [dKappa, inner, cross, Prod.fst_add, Prod.snd_add, Prod.fst_zero, Prod.snd_zero]; ring

theorem dTorsion_split (d1 d2 d3 e1 e2 e3 : V3) :
    dTorsion d1 d2 d3 e1 0 0 + dTorsion d1 d2 d3 0 e2 0 + dTorsion d1 d2 d3 0 0 e3 = dTorsion d1 d2 d3 e1 e2 e3 := by
  simp only [dTorsion, inner, cross, Prod.fst_add, Prod.snd_add, Prod.fst_zero, Prod.snd_zero, Prod.smul_fst, Prod.smul_snd, smul_eq_mul]; ring

theorem dKappaVjp_eq {n m : Nat} (d1 d2 : Fin n → V3) (E1 E2 : Fin n → Fin m → V3) (v : Fin n → ℝ) (i : Fin m) :
    dKappaVjp d1 d2 E1 E2 v i = ∑ k, v k * dKappa (d1 k) (d2 k) (E1 k i) (E2 k i) := by
  rw [dKappaVjp, ← Finset.sum_add_distrib]
  refine Finset.sum_congr rfl fun k _ => ?_
  rw [← mul_add, dKappa_split]

theorem dTorsionVjp_eq {n m : Nat} (d1 d2 d3 : Fin n → V3) (E1 E2 E3 : Fin n → Fin m → V3) (v : Fin n → ℝ) (i : Fin m) :
    dTorsionVjp d1 d2 d3 E1 E2 E3 v i = ∑ k, v k * dTorsion (d1 k) (d2 k) (d3 k) (E1 k i) (E2 k i) (E3 k i) := by
  rw [dTorsionVjp, ← Finset.sum_add_distrib, ← Finset.sum_add_distrib]
  refine Finset.sum_congr rfl fun k _ => ?_
  rw [← mul_add, ← mul_add, dTorsion_split]

variable {n m : Nat} {D1 D2 D3 : ℝ → Fin n → V3} {E1 E2 E3 : Fin n → Fin m → V3} {i : Fin m} {u : ℝ}

/-- **C60.** `dJ()[i]` of CurveLength is the derivative of `J()` in the dof `i`, wherever the curve is regular at the quadrature points. -/
theorem C60_length_gradient (h1 : ∀ k, HasDerivAt (fun x => D1 x k) (E1 k i) u) (hne : ∀ k, D1 u k ≠ 0) :
    HasDerivAt (fun x => length (D1 x)) (dLength (D1 u) E1 i) u := by
  refine (hasDerivAt_mean fun k => C53_arclength (h1 k) (hne k)).congr_deriv ?_
  rw [dLength, dArclengthVjp, contract_eq, mean, Finset.sum_div]
  refine Finset.sum_congr rfl fun k _ => ?_
  rw [arclengthVjp, inner_smul_left]
  simp only [dArclength, arclength, Geometry.norm, inner]
  ring

/-- **C60.** `dJ()[i]` of LpCurveCurvature is the derivative of `J()` in the dof `i`, for every exponent `p > 1` and threshold, also where the
curvature equals the threshold. -/
theorem C60_curvature_gradient (p threshold : ℝ) (hp : 1 < p) (h1 : ∀ k, HasDerivAt (fun x => D1 x k) (E1 k i) u)
    (h2 : ∀ k, HasDerivAt (fun x => D2 x k) (E2 k i) u) (hne : ∀ k, cross (D1 u k) (D2 u k) ≠ 0) :
    HasDerivAt (fun x => LpCurvature (D1 x) (D2 x) p threshold) (dLpCurvature (D1 u) (D2 u) E1 E2 p threshold i) u := by
  have h0 : ∀ k, D1 u k ≠ 0 := fun k h => hne k (by simp [h, cross])
  have hd := (hasDerivAt_mean fun k =>
    (((hasDerivAt_maxPow p hp (kappa (D1 u k) (D2 u k) - threshold)).comp u ((C53_kappa (h1 k) (h2 k) (hne k)).sub_const threshold))).mul
      (d_norm (h1 k) (h0 k))).const_mul (1 / p)
  refine hd.congr_deriv ?_
  rw [dLpCurvature, dKappaVjp_eq, contract_eq, ← Finset.sum_add_distrib, mean, Finset.sum_div, Finset.mul_sum]
  refine Finset.sum_congr rfl fun k _ => ?_
  rw [lpCurvatureGrad1, inner_smul_left, lpCurvatureGrad0]
  simp only [Function.comp]
  ring

/-- **C60.** `dJ()[i]` of LpCurveTorsion is the derivative of `J()` in the dof `i`, for every exponent `p > 1` and threshold `≥ 0`, also where
the torsion is 0 or equals the threshold. -/
theorem C60_torsion_gradient (p threshold : ℝ) (hp : 1 < p) (ht : 0 ≤ threshold) (h1 : ∀ k, HasDerivAt (fun x => D1 x k) (E1 k i) u)
    (h2 : ∀ k, HasDerivAt (fun x => D2 x k) (E2 k i) u) (h3 : ∀ k, HasDerivAt (fun x => D3 x k) (E3 k i) u)
    (hne : ∀ k, cross (D1 u k) (D2 u k) ≠ 0) :
    HasDerivAt (fun x => LpTorsion (D1 x) (D2 x) (D3 x) p threshold) (dLpTorsion (D1 u) (D2 u) (D3 u) E1 E2 E3 p threshold i) u := by
  have h0 : ∀ k, D1 u k ≠ 0 := fun k h => hne k (by simp [h, cross])
  have hd := (hasDerivAt_mean fun k =>
    (((hasDerivAt_absMaxPow p threshold hp ht (torsion (D1 u k) (D2 u k) (D3 u k))).comp u (C53_torsion (h1 k) (h2 k) (h3 k) (hne k)))).mul
      (d_norm (h1 k) (h0 k))).const_mul (1 / p)
  refine hd.congr_deriv ?_
  rw [dLpTorsion, dTorsionVjp_eq, contract_eq, ← Finset.sum_add_distrib, mean, Finset.sum_div, Finset.mul_sum]
  refine Finset.sum_congr rfl fun k _ => ?_
  rw [lpTorsionGrad1, inner_smul_left, lpTorsionGrad0]
  simp only [Function.comp]
  ring

theorem mean_sub_mean {n : Nat} (y : Fin n → ℝ) : ∑ i, (y i - mean y) = 0 := by
  rw [Finset.sum_sub_distrib, Finset.sum_const, Finset.card_univ, Fintype.card_fin, nsmul_eq_mul, mean]
  rcases Nat.eq_zero_or_pos n with rfl | hn
  · simp
  · have : (n : ℝ) ≠ 0 := by positivity
    field_simp; ring

/-- **C60.** `dJ()[i]` of ArclengthVariation is the derivative of `J()` in the dof `i`, for every number of intervals. -/
theorem C60_variation_gradient (ni : Nat) (h1 : ∀ k, HasDerivAt (fun x => D1 x k) (E1 k i) u) (hne : ∀ k, D1 u k ≠ 0) :
    HasDerivAt (fun x => variation ni (D1 x)) (dVariation ni (D1 u) E1 i) u := by
  set y := matMul (mat n ni) fun k => arclength (D1 u k) with hy
  set y' : Fin ni → ℝ := matMul (mat n ni) fun k => dArclength (D1 u k) (E1 k i) with hy'
  have hM : ∀ j, HasDerivAt (fun x => matMul (mat n ni) (fun k => arclength (D1 x k)) j) (y' j) u := fun j =>
    HasDerivAt.fun_sum fun k _ => (C53_arclength (h1 k) (hne k)).const_mul (mat n ni j k)
  have hmean := hasDerivAt_mean hM
  have hd := hasDerivAt_mean fun j => ((hM j).sub hmean).pow 2
  refine hd.congr_deriv ?_
  have e1 : dVariation ni (D1 u) E1 i = ∑ j, (1 / ni) * (2 * (y j - mean y)) * y' j := by
    rw [dVariation, dArclengthVjp, contract_eq]
    have : ∀ k, inner (arclengthVjp (D1 u) (variationGrad ni fun k => arclength (D1 u k)) k) (E1 k i) =
        ∑ j, (1 / ni) * (2 * (y j - mean y)) * mat n ni j k * dArclength (D1 u k) (E1 k i) := by
      intro k
      rw [arclengthVjp, inner_smul_left, ← Finset.sum_mul]
      have : variationGrad ni (fun k => arclength (D1 u k)) k = ∑ j, (1 / ni) * (2 * (y j - mean y)) * mat n ni j k := rfl
      rw [this]
      simp only [dArclength, arclength, Geometry.norm, inner]
      ring
    simp only [this]
    rw [Finset.sum_comm]
    refine Finset.sum_congr rfl fun j _ => ?_
    rw [hy', matMul, Finset.mul_sum]
    exact Finset.sum_congr rfl fun k _ => by ring
  rw [e1, mean, Finset.sum_div]
  have e2 : ∀ j, (↑2 * ((fun x => matMul (mat n ni) (fun k => arclength (D1 x k)) j) u - mean (matMul (mat n ni) fun k => arclength (D1 u k))) ^ (2 - 1) *
      (y' j - mean y') : ℝ) / ni = (1 / ni) * (2 * (y j - mean y)) * y' j - (1 / ni) * 2 * mean y' * (y j - mean y) := by
    intro j
    simp only [← hy]
    ring
  have e3 : ∑ j, (1 / (ni : ℝ)) * 2 * mean y' * (y j - mean y) = 0 := by rw [← Finset.mul_sum, mean_sub_mean, mul_zero]
  rw [← sub_zero (∑ j, (1 / (ni : ℝ)) * (2 * (y j - mean y)) * y' j), ← e3, ← Finset.sum_sub_distrib]
  refine Finset.sum_congr rfl fun j _ => ?_
  rw [← e2]
  simp

/-- **C60.** `dJ()[i]` of MeanSquaredCurvature is the derivative of `J()` in the dof `i`. -/
theorem C60_msc_gradient (hn : 0 < n) (h1 : ∀ k, HasDerivAt (fun x => D1 x k) (E1 k i) u)
    (h2 : ∀ k, HasDerivAt (fun x => D2 x k) (E2 k i) u) (hne : ∀ k, cross (D1 u k) (D2 u k) ≠ 0) :
    HasDerivAt (fun x => msc (D1 x) (D2 x)) (dMsc (D1 u) (D2 u) E1 E2 i) u := by
  have h0 : ∀ k, D1 u k ≠ 0 := fun k h => hne k (by simp [h, cross])
  have hpos : 0 < mean fun k => Geometry.norm (D1 u k) := by
    rw [mean]
    have : Nonempty (Fin n) := ⟨⟨0, hn⟩⟩
    exact div_pos (Finset.sum_pos (fun k _ => norm_pos _ (h0 k)) Finset.univ_nonempty) (by exact_mod_cast hn)
  have ha := hasDerivAt_mean fun k => ((C53_kappa (h1 k) (h2 k) (hne k)).pow 2).mul (d_norm (h1 k) (h0 k))
  have hb := hasDerivAt_mean fun k => d_norm (h1 k) (h0 k)
  refine (ha.div hb hpos.ne').congr_deriv ?_
  rw [dMsc, dKappaVjp_eq, contract_eq, ← Finset.sum_add_distrib]
  simp only [mscGrad1, inner_smul_left, mscGrad0]
  set L := mean fun k => Geometry.norm (D1 u k) with hL
  set Q := mean fun k => kappa (D1 u k) (D2 u k) ^ 2 * Geometry.norm (D1 u k) with hQ
  have eQ : mean ((fun x k => ((fun s => kappa (D1 s k) (D2 s k)) ^ 2 * fun t => Geometry.norm (D1 t k)) x) u) = Q := rfl
  rw [show (mean fun k => ((fun s => kappa (D1 s k) (D2 s k)) ^ 2 * fun t => Geometry.norm (D1 t k)) u) = Q from rfl]
  have key : ∀ (A B : Fin n → ℝ), (mean A * L - Q * mean B) / L ^ 2 = ∑ k, (1 / n * A k / L - Q / L ^ 2 * (1 / n) * B k) := by
    intro A B
    rw [Finset.sum_sub_distrib, ← Finset.mul_sum, ← Finset.sum_div, ← Finset.mul_sum, mean, mean]
    field_simp
  rw [key]
  refine Finset.sum_congr rfl fun k _ => ?_
  simp only [Pi.pow_apply]
  ring

end Simsopt.Penalties
