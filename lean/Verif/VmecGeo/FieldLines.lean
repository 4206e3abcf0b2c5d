import Verif.VmecGeo.Basis
import Mathlib.Analysis.Calculus.Deriv.MeanValue
import Mathlib.Topology.Order.IntermediateValue
/-!
# vmec_fieldlines (C188)

Model of `vmec_fieldlines` (src/simsopt/mhd/vmec_diagnostics.py L1397-1562).  Real numbers instead of doubles, one entry of the arrays at a time; the root found by `scipy.optimize.newton` (L1526-1531) is an argument.
-/
namespace Simsopt.VmecGeo
open Real

/-- The grid along the line (L1481-1488): exactly one of `theta1d` and `phi1d` is given. -/
inductive Along where
  | phi (a : List ℝ)
  | theta (a : List ℝ)

/-- L1481-1488. -/
def along (theta1d phi1d : Option (List ℝ)) : Except Err Along := match theta1d, phi1d with
  | some _, some _ => .error .valueError
  | none, none => .error .valueError
  | none, some a => .ok (.phi a)
  | some a, none => .ok (.theta a)

/-- `nl` (L1486-1488). -/
def Along.nl : Along → ℕ
  | .phi a => a.length
  | .theta a => a.length
/-- `theta_pest[js, jalpha, jl]` and `phi[js, jalpha, jl]` (L1504-1513) on the surface with the transform `iota`. -/
noncomputable def Along.target (g : Along) (iota center alpha : ℝ) (jl : ℕ) : ℝ × ℝ := match g with
  | .phi a => (alpha + iota * (a.getD jl 0 - center), a.getD jl 0)
  | .theta a => (a.getD jl 0, center + (a.getD jl 0 - alpha) / iota)
/-- `residual` (L1515-1520). -/
noncomputable def residual (E : Splines) (s θ φ target : ℝ) : ℝ := target - (θ + sinSum E.modes Mode.m Mode.n (fun k => k.lmns s) θ φ)

/-! ### Theorems -/

/-- **C188** Exactly one of the two grids must be given; otherwise ValueError. -/
theorem C188_arguments (theta1d phi1d : Option (List ℝ)) :
    (along theta1d phi1d = .error .valueError ↔ (theta1d.isSome = phi1d.isSome)) ∧ (∀ g, along theta1d phi1d = .ok g → g.nl = (theta1d.getD []).length + (phi1d.getD []).length) := by
  cases theta1d <;> cases phi1d <;> simp [along, Along.nl]

/-- **C188** The points are on the field line with the given label, at the given angles: where the root finder succeeds, the label α of the point is the requested one, φ or θ_pest is the given one, and the array `theta_pest` of the result has the angle of the straight field line. -/
theorem C188_on_line (E : Splines) (s center alpha : ℝ) (hi : E.iota s ≠ 0) (g : Along) (jl : ℕ) (θ : ℝ)
    (hroot : residual E s θ (g.target (E.iota s) center alpha jl).2 (g.target (E.iota s) center alpha jl).1 = 0) :
    E.alpha center s θ (g.target (E.iota s) center alpha jl).2 = alpha ∧ E.theta_pest s θ (g.target (E.iota s) center alpha jl).2 = (g.target (E.iota s) center alpha jl).1 ∧
    (∀ a, g = .phi a → (g.target (E.iota s) center alpha jl).2 = a.getD jl 0) ∧ (∀ a, g = .theta a → E.theta_pest s θ (g.target (E.iota s) center alpha jl).2 = a.getD jl 0) := by
  have e : E.theta_pest s θ (g.target (E.iota s) center alpha jl).2 = (g.target (E.iota s) center alpha jl).1 := by
    unfold residual at hroot
    unfold Splines.theta_pest Splines.lambd
    linarith
  refine ⟨?_, e, ?_, ?_⟩
  · unfold Splines.alpha
    rw [e]
    cases g with
    | phi a => simp only [Along.target]; ring
    | theta a => simp only [Along.target]; field_simp; ring
  · rintro a rfl; rfl
  · rintro a rfl; rw [e]; rfl

theorem sinSum_bounded {K : Type} (l : List K) (m n c : K → ℝ) (θ φ : ℝ) : |sinSum l m n c θ φ| ≤ (l.map fun k => |c k|).sum := by
  unfold sinSum
  induction l with
  | nil => simp
  | cons a t ih =>
    simp only [List.map_cons, List.sum_cons]
    refine (abs_add_le _ _).trans (add_le_add ?_ ih)
    rw [abs_mul]
    exact mul_le_of_le_one_right (abs_nonneg _) (abs_sin_le_one _)

/-- **C188** The root that is sought always exists, and if θ_pest increases with θ (as in every nested equilibrium) there is only one, so that the result does not depend on the starting point of the root finder. -/
theorem C188_root (E : Splines) (h : E.Smooth) (s φ target : ℝ) :
    (∃ θ, residual E s θ φ target = 0) ∧ ((∀ θ, 0 < 1 + E.d_lambda_d_theta_vmec s θ φ) → ∃! θ, residual E s θ φ target = 0) := by
  have hd : ∀ θ, HasDerivAt (fun θ => E.theta_pest s θ φ) (1 + E.d_lambda_d_theta_vmec s θ φ) θ := fun θ => (hasDerivAt_id θ).fun_add (C184_first E h s θ φ).2.2.1.by_theta
  have hcont : Continuous fun θ => E.theta_pest s θ φ := continuous_iff_continuousAt.mpr fun θ => (hd θ).continuousAt
  have hr : ∀ θ, residual E s θ φ target = 0 ↔ E.theta_pest s θ φ = target := fun θ => by
    unfold residual Splines.theta_pest Splines.lambd
    constructor <;> intro h <;> linarith
  have hex : ∃ θ, residual E s θ φ target = 0 := by
    obtain ⟨M, hM⟩ : ∃ M, ∀ θ, |E.lambd s θ φ| ≤ M := ⟨_, fun θ => sinSum_bounded _ _ _ _ θ φ⟩
    have hM0 : 0 ≤ M := (abs_nonneg _).trans (hM 0)
    have h1 : E.theta_pest s (target - M) φ ≤ target := by
      have := (abs_le.mp (hM (target - M))).2
      unfold Splines.theta_pest; linarith
    have h2 : target ≤ E.theta_pest s (target + M) φ := by
      have := (abs_le.mp (hM (target + M))).1
      unfold Splines.theta_pest; linarith
    obtain ⟨θ, _, hθ⟩ := intermediate_value_Icc (by linarith : target - M ≤ target + M) hcont.continuousOn ⟨h1, h2⟩
    exact ⟨θ, (hr θ).mpr hθ⟩
  refine ⟨hex, fun hpos => ?_⟩
  obtain ⟨θ, hθ⟩ := hex
  have mono : StrictMono fun θ => E.theta_pest s θ φ := strictMono_of_deriv_pos fun θ => by rw [(hd θ).deriv]; exact hpos θ
  exact ⟨θ, hθ, fun y hy => mono.injective (by show E.theta_pest s y φ = E.theta_pest s θ φ; rw [(hr y).mp hy, (hr θ).mp hθ])⟩

/-- The hypotheses are met: with λ = s² sin θ / 2 the poloidal angles are not the same, and θ_pest increases with θ for s ≤ 1. -/
example (s φ target : ℝ) (hs : s ^ 2 ≤ 1) : ∃! θ, residual ⟨[⟨1, 0, fun _ => 1, fun _ => 1, fun s => s ^ 2 / 2, fun _ => 0, fun _ => 0, fun s => s⟩], [], fun _ => 1, fun _ => 0, fun _ => 0, 1, 1⟩ s θ φ target = 0 := by
  refine (C188_root _ ?_ s φ target).2 fun θ => ?_
  · constructor <;> simp only [List.mem_cons, List.not_mem_nil, or_false, false_imp_iff, implies_true, forall_eq]
    · exact fun s => hasDerivAt_const s 1
    · exact fun s => hasDerivAt_const s 1
    · exact fun s => (((hasDerivAt_id s).pow 2).div_const 2).congr_deriv (by simp)
  · simp only [Splines.d_lambda_d_theta_vmec, Splines.C, cosSum, List.map_cons, List.map_nil, List.sum_cons, List.sum_nil]
    have h1 := neg_one_le_cos (1 * θ - 0 * φ)
    have h2 := cos_le_one (1 * θ - 0 * φ)
    nlinarith [sq_nonneg s]

end Simsopt.VmecGeo
