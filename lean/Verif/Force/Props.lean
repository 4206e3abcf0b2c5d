import Verif.Force.Joint
import Mathlib.Analysis.Calculus.Deriv.Prod
/-!
# C159: forces on coils and their objectives

The force objectives of src/simsopt/field/force.py and their gradients.
-/
namespace Simsopt.Force
open Simsopt Simsopt.Coils Simsopt.Vjp Simsopt.Labels Simsopt.Penalties
open Simsopt.Geometry hiding norm tangent

variable {n nc m : Nat} {k : Fin nc → Nat}

/-- **C159.** `coil_force` is the Lorentz force `I t x B` in the sum of the regularized self-field and the field of the other coils, has no component along the coil, and is the vector whose norm enters both objectives. -/
theorem C159_lorentz (pref : ℝ) (g g1 g2 : Fin n → V3) (q : Fin n → ℝ) (I reg : ℝ) (others : List ((List V3 × List V3) × ℝ)) (i : Fin n) :
    coilForce pref g g1 g2 q I reg others i = cross (I • (1 / nrm (g1 i)) • g1 i) (bReg pref g g1 g2 q I reg i + biotSavart others (g i)) ∧ inner (coilForce pref g g1 g2 q I reg others i) (g1 i) = 0 ∧
    coilForce pref g g1 g2 q I reg others i = force pref g g1 g2 q I reg (fun j => biotSavart others (g j)) i := by
  have h : coilForce pref g g1 g2 q I reg others i = cross (I • (1 / nrm (g1 i)) • g1 i) (bReg pref g g1 g2 q I reg i + biotSavart others (g i)) := by
    simp only [coilForce, selfForce, tangent]
    refine Prod.ext ?_ (Prod.ext ?_ ?_) <;> simp [cross] <;> ring
  refine ⟨h, ?_, h⟩
  rw [h]
  simp [inner, cross]; ring

/-- **C159.** The hoop force: on a circular coil with circular cross-section of radius `a` the self-force points outwards with the magnitude `pref I² / R (log(8R/a) - 3/4)`, for every set of quadrature points. -/
theorem C159_hoop (pref R I a : ℝ) (hR : 0 < R) (ha : 0 < a) (q : Fin n → ℝ) (i : Fin n) :
    selfForce pref (circle R q) (circle1 R q) (circle2 R q) q I (regCirc a) i =
      (pref * I ^ 2 / R * (Real.log (8 * R / a) - 3 / 4)) • (Real.cos (2 * Real.pi * q i), Real.sin (2 * Real.pi * q i), (0 : ℝ)) := by
  have hn : nrm (circle1 R q i) = 2 * Real.pi * R := by
    have hp : 0 < 2 * Real.pi * R := by positivity
    rw [nrm_eq, show inner (circle1 R q i) (circle1 R q i) = (2 * Real.pi * R) ^ 2 by
      simp only [inner, circle1]; linear_combination (2 * Real.pi * R) ^ 2 * Real.sin_sq_add_cos_sq (2 * Real.pi * q i), Real.sqrt_sq hp.le]
  have hpi := Real.pi_ne_zero
  rw [selfForce, C158_circle_circ pref R I a hR ha, tangent, hn]
  refine Prod.ext ?_ (Prod.ext ?_ ?_) <;> simp [cross, circle1] <;> field_simp

/-- The quadrature of `∫ f dl` over the coil: the mean of `f |gammadash|` over the quadrature points (as for `CurveLength`). -/
noncomputable def lineIntegral (g1 : Fin n → V3) (f : Fin n → ℝ) : ℝ := (∑ i, f i * nrm (g1 i)) / n

/-- **C159.** `MeanSquaredForce` is the documented quotient `∫ |F|² dl / ∫ dl`; it is never negative, zero exactly if the force vanishes at every quadrature point, and lies between the smallest and the largest `|F|²`. -/
theorem C159_mean_squared (pref : ℝ) (q : Fin n → ℝ) (reg : ℝ) (g g1 g2 : Fin n → V3) (I : ℝ) (B : Fin n → V3) (hn : 0 < n) (h1 : ∀ i, g1 i ≠ 0) :
    msForce pref q reg g g1 g2 I B = lineIntegral g1 (fun i => nrm (force pref g g1 g2 q I reg B i) ^ 2) / lineIntegral g1 (fun _ => 1) ∧ 0 ≤ msForce pref q reg g g1 g2 I B ∧
    (msForce pref q reg g g1 g2 I B = 0 ↔ ∀ i, force pref g g1 g2 q I reg B i = 0) ∧
    ∀ lo hi : ℝ, (∀ i, lo ≤ nrm (force pref g g1 g2 q I reg B i) ^ 2 ∧ nrm (force pref g g1 g2 q I reg B i) ^ 2 ≤ hi) → lo ≤ msForce pref q reg g g1 g2 I B ∧ msForce pref q reg g g1 g2 I B ≤ hi := by
  have hp : ∀ i, 0 < nrm (g1 i) := fun i => lt_of_le_of_ne (nrm_nonneg _) fun h => h1 i ((nrm_zero_iff _).mp h.symm)
  have hs : 0 < ∑ i, nrm (g1 i) := Finset.sum_pos (fun i _ => hp i) ⟨⟨0, hn⟩, Finset.mem_univ _⟩
  have hn' : (n : ℝ) ≠ 0 := by exact_mod_cast hn.ne'
  refine ⟨?_, ?_, ?_, ?_⟩
  · rw [msForce, lineIntegral, lineIntegral, div_div_div_cancel_right₀ hn']
    simp only [one_mul, mul_comm (nrm (g1 _))]
  · exact div_nonneg (Finset.sum_nonneg fun i _ => mul_nonneg (hp i).le (sq_nonneg _)) hs.le
  · rw [msForce, div_eq_zero_iff, or_iff_left hs.ne', Finset.sum_eq_zero_iff_of_nonneg fun i _ => mul_nonneg (hp i).le (sq_nonneg _)]
    constructor
    · intro h i
      have := h i (Finset.mem_univ _)
      rw [mul_eq_zero, or_iff_right (hp i).ne', sq_eq_zero_iff] at this
      exact (nrm_zero_iff _).mp this
    · intro h i _
      rw [h i, (nrm_zero_iff 0).mpr rfl]; simp
  · intro lo hi h
    constructor
    · rw [msForce, le_div_iff₀ hs, Finset.mul_sum]
      exact Finset.sum_le_sum fun i _ => by rw [mul_comm]; exact mul_le_mul_of_nonneg_left (h i).1 (hp i).le
    · rw [msForce, div_le_iff₀ hs, Finset.mul_sum]
      exact Finset.sum_le_sum fun i _ => by rw [mul_comm hi]; exact mul_le_mul_of_nonneg_left (h i).2 (hp i).le

/-- **C159.** `LpCurveForce` is never negative and zero exactly if the force exceeds the threshold nowhere. -/
theorem C159_lp (pref : ℝ) (q : Fin n → ℝ) (reg p threshold : ℝ) (hp : 0 < p) (g g1 g2 : Fin n → V3) (I : ℝ) (B : Fin n → V3) (h1 : ∀ i, g1 i ≠ 0) :
    0 ≤ lpForce pref q reg p threshold g g1 g2 I B ∧ (lpForce pref q reg p threshold g g1 g2 I B = 0 ↔ ∀ i, nrm (force pref g g1 g2 q I reg B i) ≤ threshold) := by
  have hq : ∀ i, 0 < nrm (g1 i) := fun i => lt_of_le_of_ne (nrm_nonneg _) fun h => h1 i ((nrm_zero_iff _).mp h.symm)
  have hnn : ∀ i, 0 ≤ max (nrm (force pref g g1 g2 q I reg B i) - threshold) 0 ^ p * nrm (g1 i) := fun i => mul_nonneg (Real.rpow_nonneg (le_max_right _ _) _) (hq i).le
  refine ⟨mul_nonneg (Finset.sum_nonneg fun i _ => hnn i) (by positivity), ?_⟩
  rw [lpForce, mul_eq_zero, or_iff_left (by positivity), Finset.sum_eq_zero_iff_of_nonneg fun i _ => hnn i]
  constructor
  · intro h i
    have := h i (Finset.mem_univ _)
    rw [mul_eq_zero, or_iff_left (hq i).ne', Real.rpow_eq_zero (le_max_right _ _) hp.ne'] at this
    have := le_max_left (nrm (force pref g g1 g2 q I reg B i) - threshold) 0
    linarith
  · intro h i _
    rw [max_eq_right (by linarith [h i]), Real.zero_rpow hp.ne', zero_mul]

/-- **C159, violated.** The documentation says `1/p ∫ max(|F| - F0, 0)^p dl`: the value is the number of quadrature points times that. -/
theorem C159_lp_violated (pref : ℝ) (q : Fin n → ℝ) (reg p threshold : ℝ) (g g1 g2 : Fin n → V3) (I : ℝ) (B : Fin n → V3) (hn : 0 < n) :
    lpForce pref q reg p threshold g g1 g2 I B = n * ((1 / p) * lineIntegral g1 fun i => max (nrm (force pref g g1 g2 q I reg B i) - threshold) 0 ^ p) := by
  have hn' : (n : ℝ) ≠ 0 := by exact_mod_cast hn.ne'
  rw [lpForce, lineIntegral]
  field_simp

/-- For a circular coil the documented integral does not depend on the number of quadrature points, so that the value does: with twice the points it is twice as large. -/
theorem C159_lp_circle_violated (pref R I a p threshold : ℝ) (hR : 0 < R) (ha : 0 < a) (q : Fin n → ℝ) :
    lpForce pref q (regCirc a) p threshold (circle R q) (circle1 R q) (circle2 R q) I (fun _ => 0) =
      n * ((1 / p) * (max (|pref * I ^ 2 / R * (Real.log (8 * R / a) - 3 / 4)| - threshold) 0 ^ p * (2 * Real.pi * R))) := by
  have hn : ∀ i, nrm (circle1 R q i) = 2 * Real.pi * R := fun i => by
    have hp : 0 < 2 * Real.pi * R := by positivity
    rw [nrm_eq, show inner (circle1 R q i) (circle1 R q i) = (2 * Real.pi * R) ^ 2 by
      simp only [inner, circle1]; linear_combination (2 * Real.pi * R) ^ 2 * Real.sin_sq_add_cos_sq (2 * Real.pi * q i), Real.sqrt_sq hp.le]
  have hf : ∀ i, nrm (force pref (circle R q) (circle1 R q) (circle2 R q) q I (regCirc a) (fun _ => 0) i) = |pref * I ^ 2 / R * (Real.log (8 * R / a) - 3 / 4)| := fun i => by
    have := C159_hoop pref R I a hR ha q i
    rw [selfForce] at this
    rw [force, add_zero, this, nrm_smul, nrm_eq, show inner ((Real.cos (2 * Real.pi * q i), Real.sin (2 * Real.pi * q i), (0 : ℝ)) : V3) (Real.cos (2 * Real.pi * q i), Real.sin (2 * Real.pi * q i), (0 : ℝ)) = 1 by
      simp only [inner]; linear_combination Real.sin_sq_add_cos_sq (2 * Real.pi * q i), Real.sqrt_one, mul_one]
  simp only [lpForce, hn, hf, Finset.sum_const, Finset.card_univ, Fintype.card_fin, nsmul_eq_mul]
  ring

/-! ### The gradient -/

/-- The five arrays `gr` are the gradients of `jax` in its five arguments: along every path of the arguments, `jax` has the derivative that they give. -/
def IsGrad (jax : Jax n) (gr : (Fin n → V3) × (Fin n → V3) × (Fin n → V3) × ℝ × (Fin n → V3)) (g g1 g2 : Fin n → V3) (I : ℝ) (B : Fin n → V3) : Prop :=
  ∀ (x x1 x2 : ℝ → Fin n → V3) (c : ℝ → ℝ) (b : ℝ → Fin n → V3) (x' x1' x2' : Fin n → V3) (c' : ℝ) (b' : Fin n → V3) (u : ℝ), x u = g → x1 u = g1 → x2 u = g2 → c u = I → b u = B →
    (∀ i, HasDerivAt (fun t => x t i) (x' i) u) → (∀ i, HasDerivAt (fun t => x1 t i) (x1' i) u) → (∀ i, HasDerivAt (fun t => x2 t i) (x2' i) u) → HasDerivAt c c' u → (∀ i, HasDerivAt (fun t => b t i) (b' i) u) →
    HasDerivAt (fun t => jax (x t) (x1 t) (x2 t) (c t) (b t))
      ((∑ i, inner (gr.1 i) (x' i)) + (∑ i, inner (gr.2.1 i) (x1' i)) + (∑ i, inner (gr.2.2.1 i) (x2' i)) + gr.2.2.2.1 * c' + ∑ i, inner (gr.2.2.2.2 i) (b' i)) u

/-- **C159.** `dJ()` is the derivative of `J()` in every dof: the coil itself, its current and the other coils all move with it, and the field of the other coils is evaluated on the moving coil. -/
theorem C159_gradient (jax : Jax n) (g g1 g2 : ℝ → Fin n → V3) (I : ℝ → ℝ) (others : ℝ → Arrays nc k) (Jc : Jacobians nc k m) (E0 E1 E2 : Fin n → Fin m → V3) (D : Fin m → ℝ) (l : Fin m) (u : ℝ)
    (hg : ∀ i, HasDerivAt (fun t => g t i) (E0 i l) u) (hg1 : ∀ i, HasDerivAt (fun t => g1 t i) (E1 i l) u) (hg2 : ∀ i, HasDerivAt (fun t => g2 t i) (E2 i l) u) (hI : HasDerivAt I (D l) u) (hm : Moves others Jc l u)
    (hoff : ∀ i c j, g u i ≠ (others u).gamma c j) (gr : (Fin n → V3) × (Fin n → V3) × (Fin n → V3) × ℝ × (Fin n → V3))
    (hgr : IsGrad jax gr (g u) (g1 u) (g2 u) (I u) fun i => biotSavart (others u).coils (g u i)) :
    HasDerivAt (fun t => J jax (g t) (g1 t) (g2 t) (I t) (others t).coils) (dJ (g u) (others u) Jc E0 E1 E2 D gr l) u := by
  choose B' hB hB' using fun i => field_joint others Jc l u hm (fun t => g t i) (E0 i l) (hg i) (hoff i)
  have h := hgr g g1 g2 I (fun t i => biotSavart (others t).coils (g t i)) (fun i => E0 i l) (fun i => E1 i l) (fun i => E2 i l) (D l) B' u rfl rfl rfl rfl rfl hg hg1 hg2 hI hB
  refine h.congr_deriv ?_
  simp only [hB', dJ, bVjp_points (g u)]
  have ha : ∀ x y z : V3, inner x (y + z) = inner x y + inner x z := fun x y z => by simp [inner]; ring
  have hsym : ∀ x y : V3, inner x y = inner y x := fun x y => by simp [inner]; ring
  simp only [ha, Finset.sum_add_distrib, hsym (gr.1 _), hsym (gr.2.1 _), hsym (gr.2.2.1 _)]
  ring

end Simsopt.Force
