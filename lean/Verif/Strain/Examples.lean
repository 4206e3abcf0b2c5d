import Verif.Strain.Props
import Verif.Frames.Examples
/-!
# Strain penalties: the hypotheses are met by circles of varying radius
-/
namespace Simsopt.Strain
open Simsopt Simsopt.Coils Simsopt.Frames

/-- the derivative of `c ↦ c • w` -/
noncomputable def rad (w : Fin 2 → V3) : ℝ →L[ℝ] Fin 2 → V3 := (ContinuousLinearMap.id ℝ ℝ).smulRight w
theorem rad_deriv (w : Fin 2 → V3) : HasFDerivAt (fun c : ℝ => c • w) (rad w) 1 := (rad w).hasFDerivAt
/-- the two opposite points -/
noncomputable def opp : Fin 2 → ℝ := ![0, Real.pi]
/-- the third derivative of the circle -/
noncomputable def circ3 (s : ℝ) : V3 := (Real.sin s, -Real.cos s, 0)
/-- pull-backs of a circle whose only dof is the radius, with a fixed rotation -/
noncomputable def circPulls : Pulls 2 ℝ where
  d0 u e := pair u (rad (circ ∘ opp) e)
  d1 u e := pair u (rad (circ1 ∘ opp) e)
  d2 u e := pair u (rad (circ2 ∘ opp) e)
  d3 u e := pair u (rad (circ3 ∘ opp) e)
  al _ _ := 0
  ald _ _ := 0

theorem circPulls_of : PullsOf circPulls (rad (circ ∘ opp)) (rad (circ1 ∘ opp)) (rad (circ2 ∘ opp)) (rad (circ3 ∘ opp)) 0 0 :=
  ⟨fun _ _ => rfl, fun _ _ => rfl, fun _ _ => rfl, fun _ _ => rfl, fun u e => by simp [pairR, circPulls], fun u e => by simp [pairR, circPulls]⟩

/-- For circles of radius `c` at `c = 1`, rotation angle 1 and rate 1/2, the gradients of both penalties exist and are those returned. -/
example : ∃ L : ℝ →L[ℝ] ℝ, HasFDerivAt (fun c : ℝ => torJ (fun i => torsionFrenet i (c • (circ ∘ opp)) (c • (circ1 ∘ opp)) (c • (circ2 ∘ opp))
      (c • (circ3 ∘ opp)) (fun _ => 1) (fun _ => 1 / 2)) (c • (circ1 ∘ opp)) 1 2 0) L 1 ∧
    ∀ e, L e = torDJ (vjp6 frenetTorsion circPulls ((1 : ℝ) • (circ ∘ opp)) ((1 : ℝ) • (circ1 ∘ opp)) ((1 : ℝ) • (circ2 ∘ opp)) ((1 : ℝ) • (circ3 ∘ opp))
      (fun _ => 1) (fun _ => 1 / 2)) circPulls (fun i => torsionFrenet i ((1 : ℝ) • (circ ∘ opp)) ((1 : ℝ) • (circ1 ∘ opp)) ((1 : ℝ) • (circ2 ∘ opp))
      ((1 : ℝ) • (circ3 ∘ opp)) (fun _ => 1) (fun _ => 1 / 2)) ((1 : ℝ) • (circ1 ∘ opp)) 1 2 0 e := by
  have hne : ∀ i, cross (((1 : ℝ) • (circ1 ∘ opp)) i) (((1 : ℝ) • (circ2 ∘ opp)) i) ≠ 0 := fun i => by
    simp only [one_smul]; exact (circ_hyps.2 i).2
  have hb := (C137_frenet_pullback (G0 := fun c : ℝ => c • (circ ∘ opp)) (G1 := fun c : ℝ => c • (circ1 ∘ opp)) (G2 := fun c : ℝ => c • (circ2 ∘ opp))
    (G3 := fun c : ℝ => c • (circ3 ∘ opp)) (A := fun _ _ => 1) (A1 := fun _ _ => 1 / 2) (c := 1) circPulls_of (rad_deriv _) (rad_deriv _) (rad_deriv _)
    (rad_deriv _) (hasFDerivAt_const _ _) (hasFDerivAt_const _ _) hne).1
  exact C137_torsional_gradient hb circPulls_of.d1 (rad_deriv _) (fun i => ne_of_cross' (hne i)) 1 (by norm_num) le_rfl

end Simsopt.Strain
