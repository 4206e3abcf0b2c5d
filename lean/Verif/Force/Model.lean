import Verif.Coils.Vjp
import Mathlib.Analysis.SpecialFunctions.Pow.Real
import Mathlib.Analysis.SpecialFunctions.Trigonometric.Arctan
/-!
# Self-field and forces of coils

Model of src/simsopt/field/selffield.py L11-96 and src/simsopt/field/force.py L15-272.  Real numbers instead of doubles; `pref` is `Biot_savart_prefactor` (`mu_0/(4π)`); arrays of shape `(n, 3)` are functions `Fin n → V3`.
-/
namespace Simsopt.Force
open Simsopt Simsopt.Coils Simsopt.Vjp
open Simsopt.Geometry hiding norm

variable {n : Nat}

/-- `rectangular_xsection_k` (selffield.py L15-19). -/
noncomputable def rectK (a b : ℝ) : ℝ :=
  (4 * b) / (3 * a) * Real.arctan (a / b) + (4 * a) / (3 * b) * Real.arctan (b / a) + (b ^ 2) / (6 * a ^ 2) * Real.log (b / a) + (a ^ 2) / (6 * b ^ 2) * Real.log (a / b)
    - (a ^ 4 - 6 * a ^ 2 * b ^ 2 + b ^ 4) / (6 * a ^ 2 * b ^ 2) * Real.log (a / b + b / a)

/-- `rectangular_xsection_delta` (L22-24). -/
noncomputable def rectDelta (a b : ℝ) : ℝ := Real.exp (-25 / 6 + rectK a b)

/-- `regularization_circ` (L27-29). -/
noncomputable def regCirc (a : ℝ) : ℝ := a ^ 2 / Real.sqrt (Real.exp 1)

/-- `regularization_rect` (L32-34). -/
noncomputable def regRect (a b : ℝ) : ℝ := a * b * rectDelta a b

/-- `jnp.linalg.norm(v, axis=1)`. -/
noncomputable def nrm (v : V3) : ℝ := Real.sqrt (v.1 ^ 2 + v.2.1 ^ 2 + v.2.2 ^ 2)

/-- `B_regularized_singularity_term` (L37-52). -/
noncomputable def singTerm (rp rpp : V3) (reg : ℝ) : V3 := (0.5 * (-2 + Real.log (64 * nrm rp * nrm rp / reg)) / nrm rp ^ 3) • cross rp rpp

/-- `B_regularized_pure` (L55-76), row `i`. -/
noncomputable def bReg (pref : ℝ) (gamma gammadash gammadashdash : Fin n → V3) (quadpoints : Fin n → ℝ) (current reg : ℝ) (i : Fin n) : V3 :=
  let phi := fun j => quadpoints j * 2 * Real.pi
  let rp := fun j => (1 / 2 / Real.pi) • gammadash j
  let rpp := fun j => (1 / 4 / Real.pi ^ 2) • gammadashdash j
  let dphi := 2 * Real.pi / n
  let analytic := singTerm (rp i) (rpp i) reg
  let first := fun j => (1 / (inner (gamma i - gamma j) (gamma i - gamma j) + reg) ^ (1.5 : ℝ)) • cross (rp j) (gamma i - gamma j)
  let cosFac := fun j => 2 - 2 * Real.cos (phi j - phi i)
  let second := fun j => (0.5 * cosFac j / (cosFac j * inner (rp i) (rp i) + reg) ^ (1.5 : ℝ)) • cross (rpp i) (rp i)
  (current * pref) • (analytic + dphi • ∑ j, (first j + second j))

/-- `gammadash / gammadash_norm` (force.py L17-18, L36-37). -/
noncomputable def tangent (d : V3) : V3 := (1 / nrm d) • d

/-- `self_force`, with `coil_force_pure` (force.py L26-39). -/
noncomputable def selfForce (pref : ℝ) (g g1 g2 : Fin n → V3) (quad : Fin n → ℝ) (I reg : ℝ) (i : Fin n) : V3 := cross (I • tangent (g1 i)) (bReg pref g g1 g2 quad I reg i)

/-- `coil_force` (L15-23); `others` are the coils of `allcoils` other than this one. -/
noncomputable def coilForce (pref : ℝ) (g g1 g2 : Fin n → V3) (quad : Fin n → ℝ) (I reg : ℝ) (others : List ((List V3 × List V3) × ℝ)) (i : Fin n) : V3 :=
  selfForce pref g g1 g2 quad I reg i + cross (I • tangent (g1 i)) (biotSavart others (g i))

/-- The force inside the two objectives (L65-68, L177-180). -/
noncomputable def force (pref : ℝ) (g g1 g2 : Fin n → V3) (quad : Fin n → ℝ) (I reg : ℝ) (B : Fin n → V3) (i : Fin n) : V3 :=
  cross (I • tangent (g1 i)) (bReg pref g g1 g2 quad I reg i + B i)

/-- `lp_force_pure` (L53-70). -/
noncomputable def lpForce (pref : ℝ) (quad : Fin n → ℝ) (reg p threshold : ℝ) (g g1 g2 : Fin n → V3) (I : ℝ) (B : Fin n → V3) : ℝ :=
  (∑ i, max (nrm (force pref g g1 g2 quad I reg B i) - threshold) 0 ^ p * nrm (g1 i)) * (1 / p)

/-- `mean_squared_force_pure` (L165-182). -/
noncomputable def msForce (pref : ℝ) (quad : Fin n → ℝ) (reg : ℝ) (g g1 g2 : Fin n → V3) (I : ℝ) (B : Fin n → V3) : ℝ :=
  (∑ i, nrm (g1 i) * nrm (force pref g g1 g2 quad I reg B i) ^ 2) / ∑ i, nrm (g1 i)

/-- The arguments of `J_jax` (L92-95, L204-207): arrays of the curve, the current, the field of the other coils. -/
abbrev Jax (n : Nat) := (Fin n → V3) → (Fin n → V3) → (Fin n → V3) → ℝ → (Fin n → V3) → ℝ

/-- `J()` (L124-135, L236-247): the field of the other coils at the points of this one. -/
noncomputable def J (jax : Jax n) (g g1 g2 : Fin n → V3) (I : ℝ) (others : List ((List V3 × List V3) × ℝ)) : ℝ := jax g g1 g2 I fun i => biotSavart others (g i)

/-- `dJ_dX = np.einsum('ij,ikj->ik', dJ_dB, dB_dX)` (L151, L263). -/
noncomputable def dJdX (dJdB : V3) (dBdX : Fin 3 → V3) : V3 := (inner dJdB (dBdX 0), inner dJdB (dBdX 1), inner dJdB (dBdX 2))

/-- `dJ()` (L137-159, L249-271), entry of the dof `l`: `E0`, `E1`, `E2` are the Jacobian arrays of the curve, `D` is the derivative of the current, `others` and `Jc` the other coils with their Jacobians, `gr` the five gradients
computed by jax. -/
noncomputable def dJ {nc m : Nat} {k : Fin nc → Nat} (g : Fin n → V3) (others : Arrays nc k) (Jc : Jacobians nc k m) (E0 E1 E2 : Fin n → Fin m → V3) (D : Fin m → ℝ)
    (gr : (Fin n → V3) × (Fin n → V3) × (Fin n → V3) × ℝ × (Fin n → V3)) (l : Fin m) : ℝ :=
  (∑ i, inner (E0 i l) (gr.1 i + dJdX (gr.2.2.2.2 i) (dB others.coils (g i)))) + (∑ i, inner (E1 i l) (gr.2.1 i)) + (∑ i, inner (E2 i l) (gr.2.2.1 i)) + gr.2.2.2.1 * D l
    + bVjp g others Jc gr.2.2.2.2 l

end Simsopt.Force
