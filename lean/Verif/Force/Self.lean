import Verif.Force.Model
import Mathlib.Analysis.SpecialFunctions.Trigonometric.Bounds
import Mathlib.Tactic.Positivity
/-!
# C158: the regularized self-field

What `B_regularized_pure` computes: it moves with the coil (translations, rotations), scales as a field does, and for a circular coil gives the analytic result exactly, for every number and position of the quadrature points.
-/
namespace Simsopt.Force
open Simsopt Simsopt.Coils
open Simsopt.Geometry hiding norm tangent

variable {n : Nat}

theorem nrm_sq (v : V3) : nrm v ^ 2 = inner v v := by
  rw [nrm, Real.sq_sqrt (by positivity)]; simp only [inner]; ring

theorem nrm_eq (v : V3) : nrm v = Real.sqrt (inner v v) := by rw [nrm]; congr 1; simp only [inner]; ring

theorem nrm_nonneg (v : V3) : 0 ≤ nrm v := Real.sqrt_nonneg _

theorem nrm_zero_iff (v : V3) : nrm v = 0 ↔ v = 0 := by
  rw [nrm, Real.sqrt_eq_zero (by positivity)]
  constructor
  · intro h
    have h1 : v.1 ^ 2 = 0 := by nlinarith [sq_nonneg v.1, sq_nonneg v.2.1, sq_nonneg v.2.2]
    have h2 : v.2.1 ^ 2 = 0 := by nlinarith [sq_nonneg v.1, sq_nonneg v.2.1, sq_nonneg v.2.2]
    have h3 : v.2.2 ^ 2 = 0 := by nlinarith [sq_nonneg v.1, sq_nonneg v.2.1, sq_nonneg v.2.2]
    exact Prod.ext (by simpa using h1) (Prod.ext (by simpa using h2) (by simpa using h3))
  · rintro rfl; simp

theorem inner_smul_smul (s t : ℝ) (a b : V3) : inner (s • a) (t • b) = s * t * inner a b := by simp [inner]; ring

theorem cross_smul_smul (s t : ℝ) (a b : V3) : cross (s • a) (t • b) = (s * t) • cross a b := by
  refine Prod.ext ?_ (Prod.ext ?_ ?_) <;> simp [cross] <;> ring

theorem nrm_smul (s : ℝ) (v : V3) : nrm (s • v) = |s| * nrm v := by
  rw [nrm_eq, nrm_eq, inner_smul_smul, Real.sqrt_mul (mul_self_nonneg s), Real.sqrt_mul_self_eq_abs]

/-- A rotation: a linear map that preserves inner and cross products. -/
structure IsRotation (R : V3 →ₗ[ℝ] V3) : Prop where
  inner : ∀ a b, inner (R a) (R b) = inner a b
  cross : ∀ a b, cross (R a) (R b) = R (cross a b)

/-- **C158.** The self-field does not depend on the position of the coil. -/
theorem C158_translation (pref : ℝ) (g g1 g2 : Fin n → V3) (q : Fin n → ℝ) (I reg : ℝ) (c : V3) : bReg pref (fun i => g i + c) g1 g2 q I reg = bReg pref g g1 g2 q I reg := by
  funext i
  simp only [bReg, add_sub_add_right_eq_sub]

/-- **C158.** The self-field of a rotated coil is the rotated self-field. -/
theorem C158_rotation (R : V3 →ₗ[ℝ] V3) (hR : IsRotation R) (pref : ℝ) (g g1 g2 : Fin n → V3) (q : Fin n → ℝ) (I reg : ℝ) (i : Fin n) :
    bReg pref (fun j => R (g j)) (fun j => R (g1 j)) (fun j => R (g2 j)) q I reg i = R (bReg pref g g1 g2 q I reg i) := by
  have hn : ∀ v, nrm (R v) = nrm v := fun v => by rw [nrm_eq, nrm_eq, hR.inner]
  simp only [bReg, singTerm, ← map_smul, ← map_sub, hR.cross, hR.inner, hn]
  simp only [map_smul, map_add, map_sum]

/-- **C158.** Linear in the current. -/
theorem C158_current (pref : ℝ) (g g1 g2 : Fin n → V3) (q : Fin n → ℝ) (I reg s : ℝ) (i : Fin n) : bReg pref g g1 g2 q (s * I) reg i = s • bReg pref g g1 g2 q I reg i := by
  simp only [bReg, smul_smul, mul_assoc]

theorem cosFac_nonneg (x : ℝ) : 0 ≤ 2 - 2 * Real.cos x := by linarith [Real.cos_le_one x]

theorem inner_self_nonneg (v : V3) : 0 ≤ inner v v := by simp only [inner]; nlinarith [mul_self_nonneg v.1, mul_self_nonneg v.2.1, mul_self_nonneg v.2.2]

theorem rpow_scale {s X : ℝ} (hs : 0 < s) (hX : 0 ≤ X) : (s ^ 2 * X) ^ (1.5 : ℝ) = s ^ 3 * X ^ (1.5 : ℝ) := by
  rw [Real.mul_rpow (by positivity) hX, ← Real.rpow_natCast s 2, ← Real.rpow_mul hs.le]
  congr 1
  rw [← Real.rpow_natCast s 3]
  norm_num

/-- **C158.** A coil scaled by `s`, cross-section included, has the field `1/s` times as large. -/
theorem C158_scaling (pref : ℝ) (g g1 g2 : Fin n → V3) (q : Fin n → ℝ) (I reg s : ℝ) (hs : 0 < s) (hreg : 0 ≤ reg) (i : Fin n) :
    bReg pref (fun j => s • g j) (fun j => s • g1 j) (fun j => s • g2 j) q I (s ^ 2 * reg) i = (1 / s) • bReg pref g g1 g2 q I reg i := by
  have hs0 : s ≠ 0 := hs.ne'
  have e1 : ∀ (c : ℝ) (v : V3), c • s • v = s • c • v := fun c v => smul_comm _ _ _
  simp only [bReg, singTerm, e1, ← smul_sub, cross_smul_smul s s, inner_smul_smul s s, nrm_smul s, abs_of_pos hs]
  have e9 : ∀ (c : ℝ) (v : V3), c • (s * s) • v = (c * (s * s)) • v := fun c v => smul_smul _ _ _
  have e2 : ∀ a b : V3, s * s * inner a b + s ^ 2 * reg = s ^ 2 * (inner a b + reg) := fun a b => by ring
  have e3 : ∀ (x : ℝ) (a b : V3), (2 - 2 * Real.cos x) * (s * s * inner a b) + s ^ 2 * reg = s ^ 2 * ((2 - 2 * Real.cos x) * inner a b + reg) := fun x a b => by ring
  have p2 : ∀ a : V3, (s ^ 2 * (inner a a + reg)) ^ (1.5 : ℝ) = s ^ 3 * (inner a a + reg) ^ (1.5 : ℝ) := fun a => rpow_scale hs (by linarith [inner_self_nonneg a])
  have p3 : ∀ (x : ℝ) (a : V3), (s ^ 2 * ((2 - 2 * Real.cos x) * inner a a + reg)) ^ (1.5 : ℝ) = s ^ 3 * ((2 - 2 * Real.cos x) * inner a a + reg) ^ (1.5 : ℝ) :=
    fun x a => rpow_scale hs (by have := mul_nonneg (cosFac_nonneg x) (inner_self_nonneg a); linarith)
  have e4 : ∀ m : ℝ, 64 * (s * m) * (s * m) / (s ^ 2 * reg) = 64 * m * m / reg := fun m => by
    rw [show 64 * (s * m) * (s * m) = s ^ 2 * (64 * m * m) by ring, mul_div_mul_left _ _ (by positivity)]
  have e5 : ∀ X : ℝ, 1 / (s ^ 3 * X) * (s * s) = 1 / s * (1 / X) := fun X => by
    by_cases h : X = 0
    · simp [h]
    · field_simp
  have e6 : ∀ Y X : ℝ, Y / (s ^ 3 * X) * (s * s) = 1 / s * (Y / X) := fun Y X => by
    by_cases h : X = 0
    · simp [h]
    · field_simp
  have e7 : ∀ Y X : ℝ, Y / (s * X) ^ 3 * (s * s) = 1 / s * (Y / X ^ 3) := fun Y X => by
    by_cases h : X = 0
    · simp [h]
    · field_simp
  simp only [e2, e3, p2, p3, e4, e9, e5, e6, e7]
  have e8 : ∀ (x : ℝ) (v : V3), (1 / s * x) • v = (1 / s) • x • v := fun x v => mul_smul _ _ _
  simp only [e8, ← smul_add, ← Finset.smul_sum]
  rw [smul_comm (2 * Real.pi / (n : ℝ)) (1 / s), ← smul_add, smul_comm (I * pref) (1 / s)]

/-- **C158.** The field does not depend on where the parametrization starts, nor on its direction: for every renumbering `σ` of the points with the curve parameter shifted (`ε = 1`) or reversed (`ε = -1`), the field at a
point is the same if the current is counted in the new direction. -/
theorem C158_parametrization (pref : ℝ) (g g1 g2 : Fin n → V3) (q : Fin n → ℝ) (I reg ε c : ℝ) (hε : ε = 1 ∨ ε = -1) (σ : Equiv.Perm (Fin n)) (i : Fin n) :
    bReg pref (fun j => g (σ j)) (fun j => ε • g1 (σ j)) (fun j => g2 (σ j)) (fun j => ε * q (σ j) + c) (ε * I) reg i = bReg pref g g1 g2 q I reg (σ i) := by
  have hcos : ∀ a b : ℝ, Real.cos ((ε * a + c) * 2 * Real.pi - (ε * b + c) * 2 * Real.pi) = Real.cos (a * 2 * Real.pi - b * 2 * Real.pi) := by
    intro a b
    rw [show (ε * a + c) * 2 * Real.pi - (ε * b + c) * 2 * Real.pi = ε * (a * 2 * Real.pi - b * 2 * Real.pi) by ring]
    rcases hε with h | h <;> rw [h]
    · rw [one_mul]
    · rw [neg_one_mul, Real.cos_neg]
  have hsq : ε * ε = 1 := by rcases hε with h | h <;> rw [h] <;> norm_num
  have habs : |ε| = 1 := by rcases hε with h | h <;> rw [h] <;> norm_num
  have e1 : ∀ (c : ℝ) (v : V3), c • ε • v = ε • c • v := fun c v => smul_comm _ _ _
  have c1 : ∀ a b : V3, cross (ε • a) b = ε • cross a b := fun a b => by simpa using cross_smul_smul ε 1 a b
  have c2 : ∀ a b : V3, cross a (ε • b) = ε • cross a b := fun a b => by simpa using cross_smul_smul 1 ε a b
  simp only [bReg, singTerm, e1, hcos, c1, c2, inner_smul_smul ε ε, hsq, one_mul, nrm_smul ε, habs]
  rw [← Equiv.sum_comp σ (fun j => (1 / (inner (g (σ i) - g j) (g (σ i) - g j) + reg) ^ (1.5 : ℝ)) • cross ((1 / 2 / Real.pi) • g1 j) (g (σ i) - g j) + _)]
  simp only [e1, ← smul_add, ← Finset.smul_sum]
  simp only [smul_smul]
  congr 1
  linear_combination I * pref * hsq

theorem cross_normal (e a b : V3) (he : e ≠ 0) (ha : inner a e = 0) (hb : inner b e = 0) : cross a b = (inner (cross a b) e / inner e e) • e := by
  have hp : inner e e ≠ 0 := fun h => he ((nrm_zero_iff e).mp (by rw [nrm_eq, h, Real.sqrt_zero]))
  have key : inner e e • cross a b = inner (cross a b) e • e := by
    simp only [inner] at ha hb
    refine Prod.ext ?_ (Prod.ext ?_ ?_) <;> simp [cross, inner]
    · linear_combination (e.2.1 * b.2.2 - e.2.2 * b.2.1) * ha - (e.2.1 * a.2.2 - e.2.2 * a.2.1) * hb
    · linear_combination (e.2.2 * b.1 - e.1 * b.2.2) * ha - (e.2.2 * a.1 - e.1 * a.2.2) * hb
    · linear_combination (e.1 * b.2.1 - e.2.1 * b.1) * ha - (e.1 * a.2.1 - e.2.1 * a.1) * hb
  rw [div_eq_inv_mul, mul_smul, ← key, smul_smul, inv_mul_cancel₀ hp, one_smul]

/-- **C158.** The self-field of a planar coil is normal to its plane. -/
theorem C158_planar (pref : ℝ) (g g1 g2 : Fin n → V3) (q : Fin n → ℝ) (I reg : ℝ) (e : V3) (he : e ≠ 0) (h0 : ∀ i j, inner (g i - g j) e = 0) (h1 : ∀ i, inner (g1 i) e = 0)
    (h2 : ∀ i, inner (g2 i) e = 0) (i : Fin n) : ∃ b : ℝ, bReg pref g g1 g2 q I reg i = b • e := by
  have hs : ∀ (c : ℝ) (v : V3), inner v e = 0 → inner (c • v) e = 0 := fun c v h => by
    have := inner_smul_smul c 1 v e
    rw [one_smul] at this
    rw [this, h, mul_zero]
  have hc : ∀ a b : V3, inner a e = 0 → inner b e = 0 → ∃ k : ℝ, cross a b = k • e := fun a b ha hb => ⟨_, cross_normal e a b he ha hb⟩
  obtain ⟨k1, hk1⟩ := hc _ _ (hs (1 / 2 / Real.pi) _ (h1 i)) (hs (1 / 4 / Real.pi ^ 2) _ (h2 i))
  obtain ⟨k2, hk2⟩ := hc _ _ (hs (1 / 4 / Real.pi ^ 2) _ (h2 i)) (hs (1 / 2 / Real.pi) _ (h1 i))
  choose k3 hk3 using fun j => hc _ _ (hs (1 / 2 / Real.pi) _ (h1 j)) (h0 i j)
  simp only [bReg, singTerm, hk1, hk2, hk3, smul_smul, ← add_smul, ← Finset.sum_smul]
  exact ⟨_, rfl⟩

/-! ### The circular coil -/

/-- A circular coil of radius `R` about the z axis, at the quadrature points `q`. -/
noncomputable def circle (R : ℝ) (q : Fin n → ℝ) (i : Fin n) : V3 := (R * Real.cos (2 * Real.pi * q i), R * Real.sin (2 * Real.pi * q i), 0)
/-- Its derivative in the curve parameter. -/
noncomputable def circle1 (R : ℝ) (q : Fin n → ℝ) (i : Fin n) : V3 := (-(2 * Real.pi * R * Real.sin (2 * Real.pi * q i)), 2 * Real.pi * R * Real.cos (2 * Real.pi * q i), 0)
/-- Its second derivative. -/
noncomputable def circle2 (R : ℝ) (q : Fin n → ℝ) (i : Fin n) : V3 :=
  (-(4 * Real.pi ^ 2 * R * Real.cos (2 * Real.pi * q i)), -(4 * Real.pi ^ 2 * R * Real.sin (2 * Real.pi * q i)), 0)

/-- The arrays are the derivatives of the circle. -/
theorem circle_derivatives (R t : ℝ) :
    HasDerivAt (fun s => circle (n := 1) R (fun _ => s) 0) (circle1 (n := 1) R (fun _ => t) 0) t ∧ HasDerivAt (fun s => circle1 (n := 1) R (fun _ => s) 0) (circle2 (n := 1) R (fun _ => t) 0) t := by
  have hl : HasDerivAt (fun s : ℝ => 2 * Real.pi * s) (2 * Real.pi) t := by simpa using (hasDerivAt_id t).const_mul (2 * Real.pi)
  constructor
  · refine (((hl.cos).const_mul R).prodMk (((hl.sin).const_mul R).prodMk (hasDerivAt_const t (0 : ℝ)))).congr_deriv ?_
    refine Prod.ext ?_ (Prod.ext ?_ ?_) <;> simp [circle1] <;> ring
  · refine ((((hl.sin).const_mul (2 * Real.pi * R)).neg).prodMk (((hl.cos).const_mul (2 * Real.pi * R)).prodMk (hasDerivAt_const t (0 : ℝ)))).congr_deriv ?_
    refine Prod.ext ?_ (Prod.ext ?_ ?_) <;> simp [circle2] <;> ring

/-- **C158.** For a circular coil the sum over the quadrature points vanishes term by term, so that the result is the analytic one for every set of quadrature points: the field is along the axis and has the value
`pref I / R (log(8 R / sqrt(reg)) - 1)`. -/
theorem C158_circle (pref R I reg : ℝ) (hR : 0 < R) (hreg : 0 < reg) (q : Fin n → ℝ) (i : Fin n) :
    bReg pref (circle R q) (circle1 R q) (circle2 R q) q I reg i = (0, 0, pref * I / R * (Real.log (8 * R / Real.sqrt reg) - 1)) := by
  have hpi := Real.pi_ne_zero
  have hrp : ∀ j, (1 / 2 / Real.pi) • circle1 R q j = (-(R * Real.sin (2 * Real.pi * q j)), R * Real.cos (2 * Real.pi * q j), 0) := fun j => by
    refine Prod.ext ?_ (Prod.ext ?_ ?_) <;> simp [circle1] <;> field_simp
  have hrpp : ∀ j, (1 / 4 / Real.pi ^ 2) • circle2 R q j = (-(R * Real.cos (2 * Real.pi * q j)), -(R * Real.sin (2 * Real.pi * q j)), 0) := fun j => by
    refine Prod.ext ?_ (Prod.ext ?_ ?_) <;> simp [circle2] <;> field_simp
  have hin : ∀ j, inner ((-(R * Real.sin (2 * Real.pi * q j)), R * Real.cos (2 * Real.pi * q j), 0) : V3) (-(R * Real.sin (2 * Real.pi * q j)), R * Real.cos (2 * Real.pi * q j), 0) = R ^ 2 := fun j => by
    simp only [inner]; linear_combination R ^ 2 * Real.sin_sq_add_cos_sq (2 * Real.pi * q j)
  have hnrm : ∀ j, nrm ((-(R * Real.sin (2 * Real.pi * q j)), R * Real.cos (2 * Real.pi * q j), 0) : V3) = R := fun j => by
    rw [nrm_eq, hin, Real.sqrt_sq hR.le]
  have hcos : ∀ j, Real.cos (q j * 2 * Real.pi - q i * 2 * Real.pi) = Real.cos (2 * Real.pi * q i) * Real.cos (2 * Real.pi * q j) + Real.sin (2 * Real.pi * q i) * Real.sin (2 * Real.pi * q j) := fun j => by
    rw [show q j * 2 * Real.pi - q i * 2 * Real.pi = 2 * Real.pi * q j - 2 * Real.pi * q i by ring, Real.cos_sub]; ring
  have hdr : ∀ j, inner (circle R q i - circle R q j) (circle R q i - circle R q j) = (2 - 2 * Real.cos (q j * 2 * Real.pi - q i * 2 * Real.pi)) * R ^ 2 := fun j => by
    rw [hcos]
    simp only [inner, circle, Prod.fst_sub, Prod.snd_sub]
    linear_combination R ^ 2 * Real.sin_sq_add_cos_sq (2 * Real.pi * q j) + R ^ 2 * Real.sin_sq_add_cos_sq (2 * Real.pi * q i)
  have hc1 : ∀ j, cross ((-(R * Real.sin (2 * Real.pi * q j)), R * Real.cos (2 * Real.pi * q j), 0) : V3) (circle R q i - circle R q j) =
      (0, 0, R ^ 2 * (1 - Real.cos (q j * 2 * Real.pi - q i * 2 * Real.pi))) := fun j => by
    rw [hcos]
    refine Prod.ext ?_ (Prod.ext ?_ ?_) <;> simp [cross, circle]
    linear_combination R ^ 2 * Real.sin_sq_add_cos_sq (2 * Real.pi * q j)
  have hc2 : cross ((-(R * Real.cos (2 * Real.pi * q i)), -(R * Real.sin (2 * Real.pi * q i)), 0) : V3) (-(R * Real.sin (2 * Real.pi * q i)), R * Real.cos (2 * Real.pi * q i), 0) = (0, 0, -R ^ 2) := by
    refine Prod.ext ?_ (Prod.ext ?_ ?_) <;> simp [cross]
    linear_combination -R ^ 2 * Real.sin_sq_add_cos_sq (2 * Real.pi * q i)
  have hc3 : cross ((-(R * Real.sin (2 * Real.pi * q i)), R * Real.cos (2 * Real.pi * q i), 0) : V3) (-(R * Real.cos (2 * Real.pi * q i)), -(R * Real.sin (2 * Real.pi * q i)), 0) = (0, 0, R ^ 2) := by
    refine Prod.ext ?_ (Prod.ext ?_ ?_) <;> simp [cross]
    linear_combination R ^ 2 * Real.sin_sq_add_cos_sq (2 * Real.pi * q i)
  simp only [bReg, singTerm, hrp, hrpp, hnrm, hin, hdr, hc1, hc2, hc3]
  have hz : ∀ j : Fin n, ((1 / ((2 - 2 * Real.cos (q j * 2 * Real.pi - q i * 2 * Real.pi)) * R ^ 2 + reg) ^ (1.5 : ℝ)) • ((0, 0, R ^ 2 * (1 - Real.cos (q j * 2 * Real.pi - q i * 2 * Real.pi))) : V3)
      + (0.5 * (2 - 2 * Real.cos (q j * 2 * Real.pi - q i * 2 * Real.pi)) / ((2 - 2 * Real.cos (q j * 2 * Real.pi - q i * 2 * Real.pi)) * R ^ 2 + reg) ^ (1.5 : ℝ)) • ((0, 0, -R ^ 2) : V3)) = 0 := fun j => by
    generalize ((2 - 2 * Real.cos (q j * 2 * Real.pi - q i * 2 * Real.pi)) * R ^ 2 + reg) ^ (1.5 : ℝ) = X
    refine Prod.ext ?_ (Prod.ext ?_ ?_) <;> simp
    ring
  simp only [hz, Finset.sum_const_zero, smul_zero, add_zero]
  have hlog : Real.log (64 * R * R / reg) = 2 * Real.log (8 * R / Real.sqrt reg) := by
    rw [show 64 * R * R / reg = (8 * R / Real.sqrt reg) ^ 2 by rw [div_pow, Real.sq_sqrt hreg.le]; ring, Real.log_pow]; norm_num
  rw [hlog]
  refine Prod.ext ?_ (Prod.ext ?_ ?_) <;> simp
  field_simp
  ring

/-- **C158.** With the regularization of a circular conductor of radius `a` this is the classical result `mu_0 I / (4 pi R) (log(8 R / a) - 3/4)`. -/
theorem C158_circle_circ (pref R I a : ℝ) (hR : 0 < R) (ha : 0 < a) (q : Fin n → ℝ) (i : Fin n) :
    bReg pref (circle R q) (circle1 R q) (circle2 R q) q I (regCirc a) i = (0, 0, pref * I / R * (Real.log (8 * R / a) - 3 / 4)) := by
  have hreg : 0 < regCirc a := by unfold regCirc; positivity
  rw [C158_circle pref R I _ hR hreg]
  have hsq : Real.log (Real.sqrt (regCirc a)) = Real.log a - 1 / 4 := by
    rw [Real.log_sqrt hreg.le, regCirc, Real.log_div (by positivity) (by positivity), Real.log_pow, Real.log_sqrt (Real.exp_pos 1).le, Real.log_exp]
    push_cast; ring
  rw [Real.log_div (by positivity) (Real.sqrt_pos.mpr hreg).ne', hsq, Real.log_div (by positivity) ha.ne']
  congr 2
  ring

/-! ### The regularizations -/

/-- **C158.** The regularization of a rectangular conductor does not depend on the order of the sides, scales as an area, and is positive; so does that of a circular one. -/
theorem C158_regularization (a b s : ℝ) (ha : 0 < a) (hb : 0 < b) (hs : 0 < s) :
    0 < regRect a b ∧ regRect a b = regRect b a ∧ regRect (s * a) (s * b) = s ^ 2 * regRect a b ∧ 0 < regCirc a ∧ regCirc (s * a) = s ^ 2 * regCirc a := by
  have hk : rectK a b = rectK b a := by
    unfold rectK
    rw [add_comm (a / b) (b / a)]
    field_simp
    ring
  have hsc : rectK (s * a) (s * b) = rectK a b := by
    unfold rectK
    rw [mul_div_mul_left _ _ hs.ne', mul_div_mul_left _ _ hs.ne']
    have h1 : ∀ x y : ℝ, 4 * (s * x) / (3 * (s * y)) = 4 * x / (3 * y) := fun x y => by
      rw [show 4 * (s * x) = s * (4 * x) by ring, show 3 * (s * y) = s * (3 * y) by ring, mul_div_mul_left _ _ hs.ne']
    have h2 : ∀ x y : ℝ, (s * x) ^ 2 / (6 * (s * y) ^ 2) = x ^ 2 / (6 * y ^ 2) := fun x y => by
      rw [show (s * x) ^ 2 = s ^ 2 * x ^ 2 by ring, show 6 * (s * y) ^ 2 = s ^ 2 * (6 * y ^ 2) by ring, mul_div_mul_left _ _ (by positivity)]
    have h3 : ((s * a) ^ 4 - 6 * (s * a) ^ 2 * (s * b) ^ 2 + (s * b) ^ 4) / (6 * (s * a) ^ 2 * (s * b) ^ 2) = (a ^ 4 - 6 * a ^ 2 * b ^ 2 + b ^ 4) / (6 * a ^ 2 * b ^ 2) := by
      rw [show (s * a) ^ 4 - 6 * (s * a) ^ 2 * (s * b) ^ 2 + (s * b) ^ 4 = s ^ 4 * (a ^ 4 - 6 * a ^ 2 * b ^ 2 + b ^ 4) by ring,
        show 6 * (s * a) ^ 2 * (s * b) ^ 2 = s ^ 4 * (6 * a ^ 2 * b ^ 2) by ring, mul_div_mul_left _ _ (by positivity)]
    rw [h1, h1, h2, h2, h3]
  refine ⟨?_, ?_, ?_, ?_, ?_⟩
  · unfold regRect rectDelta; positivity
  · unfold regRect rectDelta; rw [hk]; ring
  · unfold regRect rectDelta; rw [hsc]; ring
  · unfold regCirc; positivity
  · unfold regCirc; ring

end Simsopt.Force
