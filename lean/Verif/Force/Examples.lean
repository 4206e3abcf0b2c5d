import Verif.Force.Smooth
/-!
# Concrete cases for C158 and C159
-/
namespace Simsopt.Force
open Simsopt Simsopt.Coils Simsopt.Vjp
open Simsopt.Geometry hiding norm tangent

/-- The rotation that exchanges the axes cyclically meets `IsRotation`. -/
example : IsRotation ⟨⟨fun v => (v.2.1, v.2.2, v.1), fun _ _ => rfl⟩, fun _ _ => rfl⟩ where
  inner a b := by simp [inner]; ring
  cross a b := by refine Prod.ext ?_ (Prod.ext ?_ ?_) <;> simp [cross]

/-- The circle with any quadrature points meets the hypotheses of `C158_planar`. -/
example {n : Nat} (R : ℝ) (q : Fin n → ℝ) : (∀ i j, inner (circle R q i - circle R q j) (0, 0, 1) = 0) ∧ (∀ i, inner (circle1 R q i) (0, 0, 1) = 0) ∧ ∀ i, inner (circle2 R q i) (0, 0, 1) = 0 := by
  simp [inner, circle, circle1, circle2]

theorem circle1_ne {n : Nat} (R : ℝ) (hR : 0 < R) (q : Fin n → ℝ) (i : Fin n) : circle1 R q i ≠ 0 := by
  intro h
  have h1 : inner (circle1 R q i) (circle1 R q i) = (2 * Real.pi * R) ^ 2 := by
    simp only [inner, circle1]; linear_combination (2 * Real.pi * R) ^ 2 * Real.sin_sq_add_cos_sq (2 * Real.pi * q i)
  rw [h] at h1
  have : (0 : ℝ) < 2 * Real.pi * R := by have := Real.pi_pos; positivity
  have h2 : inner (0 : V3) 0 = 0 := by simp [inner]
  rw [h2] at h1
  have := pow_pos this 2
  linarith

/-- The hypotheses of `C159_gradient` are met together: a circular coil of radius 1 at four quadrature points, moved upwards with its current increased, and another coil, a straight element at `(5, 0, 0)`, moved sideways. -/
example : ∃ (gr : (Fin 4 → V3) × (Fin 4 → V3) × (Fin 4 → V3) × ℝ × (Fin 4 → V3)) (others : ℝ → Arrays 1 fun _ => 1) (Jc : Jacobians 1 (fun _ => 1) 1) (E0 E1 E2 : Fin 4 → Fin 1 → V3) (D : Fin 1 → ℝ),
    HasDerivAt (fun t => J (msForce 1 (fun i => (i : ℝ) / 4) 1) (fun i => circle 1 (fun i : Fin 4 => (i : ℝ) / 4) i + t • (0, 0, 1)) (circle1 1 fun i : Fin 4 => (i : ℝ) / 4) (circle2 1 fun i : Fin 4 => (i : ℝ) / 4) (1 + t)
      (others t).coils) (dJ (fun i => circle 1 (fun i : Fin 4 => (i : ℝ) / 4) i + (0 : ℝ) • (0, 0, 1)) (others 0) Jc E0 E1 E2 D gr 0) 0 := by
  let q : Fin 4 → ℝ := fun i => (i : ℝ) / 4
  let others : ℝ → Arrays 1 fun _ => 1 := fun t => ⟨fun _ _ => (5, t, 0), fun _ _ => (0, 1, 0), fun _ => 1⟩
  let Jc : Jacobians 1 (fun _ => 1) 1 := ⟨fun _ _ _ => (0, 1, 0), fun _ _ _ => 0, fun _ _ => 0⟩
  obtain ⟨gr, hgr⟩ := C159_gradient_exists 1 q 1 one_pos (by norm_num) (fun i => circle 1 q i + (0 : ℝ) • (0, 0, 1)) (circle1 1 q) (circle2 1 q) (1 + 0) (fun i => biotSavart (others 0).coils (circle 1 q i + (0 : ℝ) • (0, 0, 1)))
    (circle1_ne 1 one_pos q)
  refine ⟨gr, others, Jc, fun _ _ => (0, 0, 1), fun _ _ => 0, fun _ _ => 0, fun _ => 1, ?_⟩
  refine C159_gradient (msForce 1 q 1) (fun t i => circle 1 q i + t • (0, 0, 1)) (fun _ => circle1 1 q) (fun _ => circle2 1 q) (fun t => 1 + t) others Jc _ _ _ _ 0 0 ?_ ?_ ?_ ?_ ?_ ?_ gr hgr
  · intro i
    have := ((hasDerivAt_id (0 : ℝ)).smul_const ((0, 0, 1) : V3)).const_add (circle 1 q i)
    simpa using this
  · intro i; exact hasDerivAt_const _ _
  · intro i; exact hasDerivAt_const _ _
  · simpa using (hasDerivAt_id (0 : ℝ)).const_add 1
  · refine ⟨fun c j => ?_, fun c j => hasDerivAt_const _ _, fun c => hasDerivAt_const _ _⟩
    exact (hasDerivAt_const (0 : ℝ) (5 : ℝ)).prodMk ((hasDerivAt_id (0 : ℝ)).prodMk (hasDerivAt_const (0 : ℝ) (0 : ℝ)))
  · intro i c j h
    have h1 := congrArg Prod.fst h
    simp [circle, others] at h1
    have := Real.cos_le_one (2 * Real.pi * q i)
    linarith

end Simsopt.Force
