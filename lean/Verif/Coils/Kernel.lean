import Verif.Coils.Model
import Mathlib.Analysis.SpecialFunctions.Sqrt
import Mathlib.Analysis.Calculus.Deriv.Inv
import Mathlib.Analysis.Calculus.Deriv.Add
import Mathlib.Analysis.Calculus.Deriv.Mul
import Mathlib.Analysis.Calculus.Deriv.Prod
import Mathlib.Analysis.Calculus.Deriv.Pow
import Mathlib.Tactic.FieldSimp
import Mathlib.Tactic.Linarith
/-!
# C51: the derivative kernels of Biot-Savart are the derivatives of the field

The first and second derivative parts of `biot_savart_kernel` (simsoptpp/biot_savart_impl.h L226-288), the vector potential kernel
`biot_savart_kernel_A` (L407-515), and the sums over the coils (magneticfield_biotsavart.cpp L13-88, L91-170).
-/
namespace Simsopt.Coils
open Simsopt

/-- `v[k]` for `k = 0, 1, 2`. -/
def comp (v : V3) (k : Fin 3) : ℝ := match k with | 0 => v.1 | 1 => v.2.1 | 2 => v.2.2

/-- The k-th unit vector (used by the specification only). -/
def unit (k : Fin 3) : V3 := match k with | 0 => (1, 0, 0) | 1 => (0, 1, 0) | 2 => (0, 0, 1)

/-- `cross(a, k)` (vec3dsimd.h L30-37, L190-197). -/
def crossAxis (a : V3) (k : Fin 3) : V3 := match k with | 0 => (0, a.2.2, -a.2.1) | 1 => (-a.2.2, 0, a.1) | 2 => (a.2.1, -a.1, 0)

/-- The contribution of one quadrature point to `dB_dX_i[k]` (biot_savart_impl.h L226-240). -/
noncomputable def dKernelTerm (x gamma dgamma : V3) (k : Fin 3) : V3 :=
  let diff := x - gamma
  let n2 := normsq diff
  let ni := rsqrt n2
  let ni3 := ni * ni * ni
  let ni4 := ni3 * ni
  let three := (3 * ni) • cross dgamma diff
  let nd := n2 * ni
  let numerator1 := crossAxis (nd • dgamma) k
  ni4 • (numerator1 - comp diff k • three)

/-- The contribution to `d2B_dXdX_i[3*k1 + k2]`, computed for `k2 ≤ k1` (L241-262). -/
noncomputable def ddKernelTermLower (x gamma dgamma : V3) (k1 k2 : Fin 3) : V3 :=
  let diff := x - gamma
  let ni := rsqrt (normsq diff)
  let ni3 := ni * ni * ni
  let ni4 := ni3 * ni
  let ni5 := ni4 * ni
  let ni7 := ni4 * ni3
  let term124fak := (-3) * ni5
  let term12 := comp diff k1 • crossAxis dgamma k2 + comp diff k2 • crossAxis dgamma k1
  let term3fak := comp diff k1 * comp diff k2 * (ni7 * 15) + (if k1 = k2 then term124fak else 0)
  term124fak • term12 + term3fak • cross dgamma diff

/-- `d2B_by_dXdX(i, k1, k2, :)` of one quadrature point: the upper triangle is copied from the lower one (L274-286). -/
noncomputable def ddKernelTerm (x gamma dgamma : V3) (k1 k2 : Fin 3) : V3 :=
  if k2 ≤ k1 then ddKernelTermLower x gamma dgamma k1 k2 else ddKernelTermLower x gamma dgamma k2 k1

/-- The vector potential kernel (L446): one quadrature point of `A_i`. -/
noncomputable def aKernelTerm (x gamma dgamma : V3) : V3 := rsqrt (normsq (x - gamma)) • dgamma

/-- One quadrature point of `dA_dX_i[k]` (L448-453). -/
noncomputable def daKernelTerm (x gamma dgamma : V3) (k : Fin 3) : V3 :=
  let diff := x - gamma
  let ni := rsqrt (normsq diff)
  let ni3 := ni * ni * ni
  0 - (ni3 * comp diff k) • dgamma

/-- One quadrature point of `d2A_dXdX_i[3*k1+k2]`, `k2 ≤ k1` (L454-470). -/
noncomputable def ddaKernelTermLower (x gamma dgamma : V3) (k1 k2 : Fin 3) : V3 :=
  let diff := x - gamma
  let ni := rsqrt (normsq diff)
  let ni3 := ni * ni * ni
  let term124fak := (3 * ni3 * ni * ni) • dgamma
  let term12 := comp diff k1 * comp diff k2
  term12 • term124fak - (if k1 = k2 then ni3 • dgamma else 0)

/-- `d2A_by_dXdX(i, k1, k2, :)` (L497-510). -/
noncomputable def ddaKernelTerm (x gamma dgamma : V3) (k1 k2 : Fin 3) : V3 :=
  if k2 ≤ k1 then ddaKernelTermLower x gamma dgamma k1 k2 else ddaKernelTermLower x gamma dgamma k2 k1

/-- The sum over the quadrature points of one coil with the factor `fak` (L196, L264-286). -/
noncomputable def quadSum (gamma gammadash : List V3) (term : V3 → V3 → V3) : V3 :=
  (1e-7 / gamma.length : ℝ) • ((gamma.zip gammadash).map fun e => term e.1 e.2).sum

/-- The sum over the coils of current times the coil's array (magneticfield_biotsavart.cpp L68-87, L150-169). -/
noncomputable def coilSum (coils : List ((List V3 × List V3) × ℝ)) (term : V3 → V3 → V3) : V3 :=
  coils.foldl (fun B c => B + c.2 • quadSum c.1.1 c.1.2 term) 0

/-- `dB_by_dX()[i, k, :]`, `d2B_by_dXdX()[i, k1, k2, :]`, `A()`, `dA_by_dX()`, `d2A_by_dXdX()` at a point. -/
noncomputable def dB (coils : List ((List V3 × List V3) × ℝ)) (x : V3) (k : Fin 3) : V3 := coilSum coils fun g d => dKernelTerm x g d k
noncomputable def ddB (coils : List ((List V3 × List V3) × ℝ)) (x : V3) (k1 k2 : Fin 3) : V3 :=
  coilSum coils fun g d => ddKernelTerm x g d k1 k2
noncomputable def potential (coils : List ((List V3 × List V3) × ℝ)) (x : V3) : V3 := coilSum coils fun g d => aKernelTerm x g d
noncomputable def dA (coils : List ((List V3 × List V3) × ℝ)) (x : V3) (k : Fin 3) : V3 := coilSum coils fun g d => daKernelTerm x g d k
noncomputable def ddA (coils : List ((List V3 × List V3) × ℝ)) (x : V3) (k1 k2 : Fin 3) : V3 :=
  coilSum coils fun g d => ddaKernelTerm x g d k1 k2

theorem biotSavart_eq (coils : List ((List V3 × List V3) × ℝ)) (x : V3) :
    biotSavart coils x = coilSum coils fun g d => kernelTerm x g d := rfl

/-- The point is not on any quadrature point of any coil. -/
def Off (coils : List ((List V3 × List V3) × ℝ)) (x : V3) : Prop := ∀ c ∈ coils, ∀ g ∈ c.1.1, x ≠ g

/-! ### Calculus of one quadrature point -/

theorem normsq_pos (d : V3) (h : d ≠ 0) : 0 < normsq d := by
  unfold normsq
  by_contra hc
  have h1 : d.1 * d.1 = 0 := by nlinarith [mul_self_nonneg d.1, mul_self_nonneg d.2.1, mul_self_nonneg d.2.2]
  have h2 : d.2.1 * d.2.1 = 0 := by nlinarith [mul_self_nonneg d.1, mul_self_nonneg d.2.1, mul_self_nonneg d.2.2]
  have h3 : d.2.2 * d.2.2 = 0 := by nlinarith [mul_self_nonneg d.1, mul_self_nonneg d.2.1, mul_self_nonneg d.2.2]
  apply h
  ext
  · simpa using h1
  · simpa using h2
  · simpa using h3

theorem rsqrt_sq (r : ℝ) (h : 0 < r) : r * (rsqrt r * rsqrt r) = 1 := by
  unfold rsqrt
  have h1 := Real.sqrt_pos.mpr h
  have h2 := Real.mul_self_sqrt h.le
  field_simp
  rw [sq, h2]

theorem comp_unit (u : V3) (k : Fin 3) (t : ℝ) (j : Fin 3) : comp (u + t • unit k) j = comp u j + (if j = k then t else 0) := by
  match j, k with
  | 0, 0 | 0, 1 | 0, 2 | 1, 0 | 1, 1 | 1, 2 | 2, 0 | 2, 1 | 2, 2 => simp [comp, unit]

theorem hasDerivAt_affine {E : Type} [NormedAddCommGroup E] [NormedSpace ℝ E] (a b : E) :
    HasDerivAt (fun t : ℝ => a + t • b) b 0 := by
  have h := HasDerivAt.const_add a ((hasDerivAt_id (0 : ℝ)).smul_const b)
  rw [one_smul] at h
  exact h

/-- The derivative of the inverse distance along axis `k`. -/
theorem hasDerivAt_rsqrt (x g : V3) (h : x ≠ g) (k : Fin 3) :
    HasDerivAt (fun t : ℝ => rsqrt (normsq (x + t • unit k - g)))
      (-(rsqrt (normsq (x - g)) * rsqrt (normsq (x - g)) * rsqrt (normsq (x - g)) * comp (x - g) k)) 0 := by
  have hpos := normsq_pos (x - g) (sub_ne_zero.mpr h)
  have hn : HasDerivAt (fun t : ℝ => normsq (x + t • unit k - g)) (2 * comp (x - g) k) 0 := by
    have e : ∀ t : ℝ, normsq (x + t • unit k - g) = normsq (x - g) + 2 * comp (x - g) k * t + t ^ 2 := by
      intro t
      match k with
      | 0 | 1 | 2 => simp [normsq, unit, comp]; ring
    simp_rw [e]
    have h1 := hasDerivAt_affine (normsq (x - g)) (2 * comp (x - g) k)
    have h2 := hasDerivAt_pow 2 (0 : ℝ)
    have h3 := HasDerivAt.add h1 h2
    rw [show (2 * comp (x - g) k + ((2 : ℕ) : ℝ) * (0 : ℝ) ^ (2 - 1) : ℝ) = 2 * comp (x - g) k by simp] at h3
    refine h3.congr_of_eventuallyEq (Filter.Eventually.of_forall fun t => ?_)
    simp [mul_comm]
  have h0 : normsq (x + (0 : ℝ) • unit k - g) = normsq (x - g) := by simp
  have hs := (hn.sqrt (by rw [h0]; exact hpos.ne')).inv (by rw [h0]; exact (Real.sqrt_pos.mpr hpos).ne')
  rw [h0] at hs
  have hfun : (fun t : ℝ => rsqrt (normsq (x + t • unit k - g))) = (fun t : ℝ => Real.sqrt (normsq (x + t • unit k - g)))⁻¹ := by
    funext t; simp [rsqrt]
  rw [hfun]
  have h1 := (Real.sqrt_pos.mpr hpos).ne'
  have e : -(rsqrt (normsq (x - g)) * rsqrt (normsq (x - g)) * rsqrt (normsq (x - g)) * comp (x - g) k) =
      -(2 * comp (x - g) k / (2 * Real.sqrt (normsq (x - g)))) / Real.sqrt (normsq (x - g)) ^ 2 := by
    unfold rsqrt; field_simp
  rw [e]; exact hs

/-- Components of the displacement. -/
theorem hasDerivAt_comp (x g : V3) (k j : Fin 3) :
    HasDerivAt (fun t : ℝ => comp (x + t • unit k - g) j) (if j = k then 1 else 0) 0 := by
  have e : ∀ t : ℝ, comp (x + t • unit k - g) j = comp (x - g) j + t • (if j = k then (1 : ℝ) else 0) := by
    intro t
    rw [show x + t • unit k - g = (x - g) + t • unit k by abel, comp_unit]
    split_ifs <;> simp
  simp_rw [e]
  exact hasDerivAt_affine _ _

theorem hasDerivAt_cross (x g d : V3) (k : Fin 3) :
    HasDerivAt (fun t : ℝ => cross d (x + t • unit k - g)) (crossAxis d k) 0 := by
  have e : ∀ t : ℝ, cross d (x + t • unit k - g) = cross d (x - g) + t • crossAxis d k := by
    intro t
    match k with
    | 0 | 1 | 2 => ext <;> simp [cross, unit, crossAxis] <;> ring
  simp_rw [e]
  exact hasDerivAt_affine _ _

end Simsopt.Coils
