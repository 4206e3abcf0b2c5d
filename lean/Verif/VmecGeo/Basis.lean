import Verif.VmecGeo.Fourier
import Mathlib.Analysis.Calculus.Deriv.Prod
import Mathlib.Analysis.Calculus.Deriv.Inv
import Mathlib.Analysis.Calculus.FDeriv.Comp
import Mathlib.Analysis.SpecialFunctions.Sqrt
import Mathlib.Analysis.SpecialFunctions.Trigonometric.Basic
import Mathlib.Tactic.LinearCombination
import Mathlib.Tactic.Positivity
/-!
# Gradients, drifts and gyrokinetic coefficients of vmec_compute_geometry (C185, C186)

Model of `vmec_compute_geometry` (src/simsopt/mhd/vmec_diagnostics.py L1115-1250) at one point.  Real numbers instead of doubles.
-/
namespace Simsopt.VmecGeo
open Real

/-- Vectors of space. -/
abbrev V := ℝ × ℝ × ℝ
/-- The inner product. -/
def dot (v w : V) : ℝ := v.1 * w.1 + v.2.1 * w.2.1 + v.2.2 * w.2.2
/-- The vector product. -/
def cross (v w : V) : V := (v.2.1 * w.2.2 - v.2.2 * w.2.1, v.2.2 * w.1 - v.1 * w.2.2, v.1 * w.2.1 - v.2.1 * w.1)

/-- The arrays computed before L1115 (L1002-1118), at a point. -/
structure Pt where
  R : ℝ
  Rs : ℝ
  Rt : ℝ
  Rp : ℝ
  Zs : ℝ
  Zt : ℝ
  Zp : ℝ
  ls : ℝ
  lt : ℝ
  lp : ℝ
  cosphi : ℝ
  sinphi : ℝ
  /-- `sqrt_g_vmec` -/
  g : ℝ
  iota : ℝ
  iota' : ℝ
  /-- `phi - phi_center` -/
  dphi : ℝ
  /-- `edge_toroidal_flux_over_2pi` -/
  psi : ℝ
  B : ℝ
  Bs : ℝ
  Bt : ℝ
  Bp : ℝ
  /-- `B_sub_s`, `B_sub_theta_vmec`, `B_sub_phi` -/
  bs : ℝ
  bt : ℝ
  bp : ℝ
  /-- `d_pressure_d_s` -/
  press' : ℝ
  s : ℝ
  aminor : ℝ

namespace Pt
variable (p : Pt)
/-- `d_X_d_s, d_Y_d_s, d_Z_d_s` (L1129, L1133). -/
def es : V := (p.Rs * p.cosphi, p.Rs * p.sinphi, p.Zs)
/-- `d_X_d_theta_vmec, ...` (L1127, L1131). -/
def et : V := (p.Rt * p.cosphi, p.Rt * p.sinphi, p.Zt)
/-- `d_X_d_phi, ...` (L1128, L1132). -/
def ep : V := (p.Rp * p.cosphi - p.R * p.sinphi, p.Rp * p.sinphi + p.R * p.cosphi, p.Zp)
/-- `sqrt_g_vmec_alt` (L1115). -/
def galt : ℝ := p.R * (p.Zs * p.Rt - p.Rs * p.Zt)
/-- `grad_s_X, grad_s_Y, grad_s_Z` (L1136-1138). -/
noncomputable def gradS : V := ((p.et.2.1 * p.ep.2.2 - p.et.2.2 * p.ep.2.1) / p.g, (p.et.2.2 * p.ep.1 - p.et.1 * p.ep.2.2) / p.g, (p.et.1 * p.ep.2.1 - p.et.2.1 * p.ep.1) / p.g)
/-- `grad_theta_vmec_X, ...` (L1140-1142). -/
noncomputable def gradT : V := ((p.ep.2.1 * p.es.2.2 - p.ep.2.2 * p.es.2.1) / p.g, (p.ep.2.2 * p.es.1 - p.ep.1 * p.es.2.2) / p.g, (p.ep.1 * p.es.2.1 - p.ep.2.1 * p.es.1) / p.g)
/-- `grad_phi_X, ...` (L1144-1146). -/
noncomputable def gradP : V := ((p.es.2.1 * p.et.2.2 - p.es.2.2 * p.et.2.1) / p.g, (p.es.2.2 * p.et.1 - p.es.1 * p.et.2.2) / p.g, (p.es.1 * p.et.2.1 - p.es.2.1 * p.et.1) / p.g)
/-- A combination of the three gradients, component by component (L1158-1168). -/
noncomputable def combine (a b c : ℝ) : V := (a * p.gradS.1 + b * p.gradT.1 + c * p.gradP.1, a * p.gradS.2.1 + b * p.gradT.2.1 + c * p.gradP.2.1, a * p.gradS.2.2 + b * p.gradT.2.2 + c * p.gradP.2.2)
/-- `grad_psi_X, ...` (L1153-1155). -/
noncomputable def gradPsi : V := (p.gradS.1 * p.psi, p.gradS.2.1 * p.psi, p.gradS.2.2 * p.psi)
/-- The factor of `grad_s` in `grad_alpha` (L1158). -/
def as : ℝ := p.ls - p.dphi * p.iota'
/-- `grad_alpha_X, ...` (L1158-1164). -/
noncomputable def gradAlpha : V := p.combine p.as (1 + p.lt) (-p.iota + p.lp)
/-- `grad_B_X, ...` (L1166-1168). -/
noncomputable def gradB : V := p.combine p.Bs p.Bt p.Bp
/-- `B_X, B_Y, B_Z` (L1170-1172). -/
noncomputable def field : V :=
  (p.psi * ((1 + p.lt) * p.ep.1 + (p.iota - p.lp) * p.et.1) / p.g, p.psi * ((1 + p.lt) * p.ep.2.1 + (p.iota - p.lp) * p.et.2.1) / p.g, p.psi * ((1 + p.lt) * p.ep.2.2 + (p.iota - p.lp) * p.et.2.2) / p.g)
/-- `B_cross_grad_s_dot_grad_alpha` (L1181-1182). -/
noncomputable def BxSA : ℝ := (p.bp * (1 + p.lt) - p.bt * (p.lp - p.iota)) / p.g
/-- The alternates (L1184-1190, L1200-1206), with `v` for `grad_s` and `grad_B`. -/
noncomputable def alternate (v : V) : ℝ :=
  0 + p.field.1 * v.2.1 * p.gradAlpha.2.2 + p.field.2.1 * v.2.2 * p.gradAlpha.1 + p.field.2.2 * v.1 * p.gradAlpha.2.1
    - p.field.2.2 * v.2.1 * p.gradAlpha.1 - p.field.1 * v.2.2 * p.gradAlpha.2.1 - p.field.2.1 * v.1 * p.gradAlpha.2.2
/-- `B_cross_grad_B_dot_grad_alpha` (L1192-1198). -/
noncomputable def BxBA : ℝ :=
  0 + (p.bs * p.Bt * (p.lp - p.iota) + p.bt * p.Bp * (p.ls - p.dphi * p.iota') + p.bp * p.Bs * (1 + p.lt)
    - p.bp * p.Bt * (p.ls - p.dphi * p.iota') - p.bt * p.Bs * (p.lp - p.iota) - p.bs * p.Bp * (1 + p.lt)) / p.g
/-- `B_cross_grad_B_dot_grad_psi` (L1216). -/
noncomputable def BxBPsi : ℝ := (p.bt * p.Bp - p.bp * p.Bt) / p.g * p.psi
/-- `B_cross_kappa_dot_grad_psi` (L1218). -/
noncomputable def BxKPsi : ℝ := p.BxBPsi / p.B
/-- `mu_0` (L1220). -/
noncomputable def mu0 : ℝ := 4 * π * 1.0e-7
/-- `B_cross_kappa_dot_grad_alpha` (L1221). -/
noncomputable def BxKA : ℝ := p.BxBA / p.B + mu0 * p.press' / p.psi
/-- `shat` (L1007). -/
noncomputable def shat : ℝ := (-2 * p.s / p.iota) * p.iota'
/-- `B_reference` (L1226). -/
noncomputable def Bref : ℝ := 2 * |p.psi| / (p.aminor * p.aminor)
/-- `toroidal_flux_sign` (L1227). -/
noncomputable def sgn : ℝ := SignType.sign p.psi
/-- `bmag` (L1230). -/
noncomputable def bmag : ℝ := p.B / p.Bref
/-- `gds2` (L1208, L1236). -/
noncomputable def gds2 : ℝ := dot p.gradAlpha p.gradAlpha * p.aminor * p.aminor * p.s
/-- `gds21` (L1210, L1238). -/
noncomputable def gds21 : ℝ := dot p.gradAlpha p.gradPsi * p.shat / p.Bref
/-- `gds22` (L1212, L1240). -/
noncomputable def gds22 : ℝ := dot p.gradPsi p.gradPsi * p.shat * p.shat / (p.aminor * p.aminor * p.Bref * p.Bref * p.s)
/-- `gbdrift` (L1243). -/
noncomputable def gbdrift : ℝ := -1 * 2 * p.Bref * p.aminor * p.aminor * √p.s * p.BxBA / (p.B * p.B * p.B) * p.sgn
/-- `gbdrift0`, also `cvdrift0` (L1245, L1250). -/
noncomputable def gbdrift0 : ℝ := p.BxBPsi * 2 * p.shat / (p.B * p.B * p.B * √p.s) * p.sgn
/-- `cvdrift` (L1248). -/
noncomputable def cvdrift : ℝ := p.gbdrift - 2 * p.Bref * p.aminor * p.aminor * √p.s * mu0 * p.press' * p.sgn / (p.psi * p.B * p.B)
end Pt

/-- The arrays at the point (L1002-1133). -/
noncomputable def Splines.pt (E : Splines) (center s θ φ : ℝ) : Pt where
  R := E.R s θ φ
  Rs := E.d_R_d_s s θ φ
  Rt := E.d_R_d_theta_vmec s θ φ
  Rp := E.d_R_d_phi s θ φ
  Zs := E.d_Z_d_s s θ φ
  Zt := E.d_Z_d_theta_vmec s θ φ
  Zp := E.d_Z_d_phi s θ φ
  ls := E.d_lambda_d_s s θ φ
  lt := E.d_lambda_d_theta_vmec s θ φ
  lp := E.d_lambda_d_phi s θ φ
  cosphi := cos φ
  sinphi := sin φ
  g := E.sqrt_g_vmec s θ φ
  iota := E.iota s
  iota' := E.iota' s
  dphi := φ - center
  psi := -E.phiedge / (2 * π)
  B := E.modB s θ φ
  Bs := E.d_B_d_s s θ φ
  Bt := E.d_B_d_theta_vmec s θ φ
  Bp := E.d_B_d_phi s θ φ
  bs := E.B_sub_s s θ φ
  bt := E.B_sub_theta_vmec s θ φ
  bp := E.B_sub_phi s θ φ
  press' := E.pressure' s
  s := s
  aminor := E.aminor

/-! ### Specification -/

/-- The point of space with the coordinates (s, θ, φ). -/
noncomputable def Splines.pos (E : Splines) (s θ φ : ℝ) : V := (E.R s θ φ * cos φ, E.R s θ φ * sin φ, E.Z s θ φ)
/-- The label of the field lines. -/
noncomputable def Splines.alpha (E : Splines) (center s θ φ : ℝ) : ℝ := E.theta_pest s θ φ - E.iota s * (φ - center)
/-- The Jacobian determinant of the file is that of the coordinates, and is not zero. -/
structure Pt.Regular (p : Pt) : Prop where
  circle : p.cosphi ^ 2 + p.sinphi ^ 2 = 1
  jac : p.g = p.galt
  ne : p.g ≠ 0
/-- `G` is the gradient of `F` at `x`: the derivative of `F` in any direction is the inner product with `G`. -/
def IsGradient (F : V → ℝ) (x G : V) : Prop := ∃ L : V →L[ℝ] ℝ, HasFDerivAt F L x ∧ ∀ v, L v = dot G v

/-- Near the point `F` is, in the coordinates, the function `f`. -/
def Splines.Is (E : Splines) (F : V → ℝ) (f : ℝ → ℝ → ℝ → ℝ) (s θ φ : ℝ) : Prop := ∀ᶠ q : V in nhds (s, θ, φ), F (E.pos q.1 q.2.1 q.2.2) = f q.1 q.2.1 q.2.2

/-! ### Theorems -/

/-- **C185** The basis vectors are the partial derivatives of the position. -/
theorem C185_basis (E : Splines) (h : E.Smooth) (center s θ φ : ℝ) :
    HasDerivAt (fun s => E.pos s θ φ) (E.pt center s θ φ).es s ∧ HasDerivAt (fun θ => E.pos s θ φ) (E.pt center s θ φ).et θ ∧ HasDerivAt (fun φ => E.pos s θ φ) (E.pt center s θ φ).ep φ := by
  obtain ⟨r, z, _⟩ := C184_first E h s θ φ
  refine ⟨?_, ?_, ?_⟩
  · exact (r.by_s.mul_const _).prodMk ((r.by_s.mul_const _).prodMk z.by_s)
  · exact (r.by_theta.mul_const _).prodMk ((r.by_theta.mul_const _).prodMk z.by_theta)
  · refine (((r.by_phi.fun_mul (hasDerivAt_cos φ)).congr_deriv ?_).prodMk (((r.by_phi.fun_mul (hasDerivAt_sin φ)).congr_deriv rfl).prodMk z.by_phi))
    show _ = E.d_R_d_phi s θ φ * cos φ - E.R s θ φ * sin φ
    ring

/-- **C185** `sqrt_g_vmec_alt` is the Jacobian determinant. -/
theorem C185_jacobian (p : Pt) (h : p.cosphi ^ 2 + p.sinphi ^ 2 = 1) : p.galt = dot p.es (cross p.et p.ep) := by
  simp only [Pt.galt, Pt.es, Pt.et, Pt.ep, dot, cross]
  linear_combination (-p.R * (p.Zs * p.Rt - p.Rs * p.Zt)) * h

theorem dual_aux (e f k : V) (g : ℝ) (h : g = dot e (cross f k)) (hg : g ≠ 0) :
    dot (cross f k) e / g = 1 ∧ dot (cross f k) f / g = 0 ∧ dot (cross f k) k / g = 0 := by
  have h1 : dot (cross f k) e = g := by rw [h]; simp only [dot, cross]; ring
  have h2 : dot (cross f k) f = 0 := by simp only [dot, cross]; ring
  have h3 : dot (cross f k) k = 0 := by simp only [dot, cross]; ring
  rw [h1, h2, h3]
  exact ⟨div_self hg, zero_div _, zero_div _⟩

theorem dot_div (a v : V) (g : ℝ) : dot (a.1 / g, a.2.1 / g, a.2.2 / g) v = dot a v / g := by
  simp only [dot]; ring

/-- **C185** The gradients of the coordinates are dual to the basis vectors. -/
theorem C185_dual (p : Pt) (h : p.Regular) :
    dot p.gradS p.es = 1 ∧ dot p.gradS p.et = 0 ∧ dot p.gradS p.ep = 0 ∧ dot p.gradT p.es = 0 ∧ dot p.gradT p.et = 1 ∧ dot p.gradT p.ep = 0 ∧
    dot p.gradP p.es = 0 ∧ dot p.gradP p.et = 0 ∧ dot p.gradP p.ep = 1 := by
  have hg : p.g = dot p.es (cross p.et p.ep) := h.jac.trans (C185_jacobian p h.circle)
  have h2 : p.g = dot p.et (cross p.ep p.es) := by rw [hg]; simp only [dot, cross]; ring
  have h3 : p.g = dot p.ep (cross p.es p.et) := by rw [hg]; simp only [dot, cross]; ring
  have e1 : ∀ v, dot p.gradS v = dot (cross p.et p.ep) v / p.g := fun v => dot_div (cross p.et p.ep) v p.g
  have e2 : ∀ v, dot p.gradT v = dot (cross p.ep p.es) v / p.g := fun v => dot_div (cross p.ep p.es) v p.g
  have e3 : ∀ v, dot p.gradP v = dot (cross p.es p.et) v / p.g := fun v => dot_div (cross p.es p.et) v p.g
  simp only [e1, e2, e3]
  obtain ⟨a1, a2, a3⟩ := dual_aux _ _ _ _ hg h.ne
  obtain ⟨b1, b2, b3⟩ := dual_aux _ _ _ _ h2 h.ne
  obtain ⟨c1, c2, c3⟩ := dual_aux _ _ _ _ h3 h.ne
  exact ⟨a1, a2, a3, b3, b1, b2, c2, c3, c1⟩

theorem dot_combine (p : Pt) (a b c : ℝ) (v : V) : dot (p.combine a b c) v = a * dot p.gradS v + b * dot p.gradT v + c * dot p.gradP v := by
  simp only [Pt.combine, dot]; ring

/-- Every vector is a combination of the basis vectors. -/
theorem expand (p : Pt) (h : p.Regular) (v : V) :
    v = (dot p.gradS v * p.es.1 + dot p.gradT v * p.et.1 + dot p.gradP v * p.ep.1, dot p.gradS v * p.es.2.1 + dot p.gradT v * p.et.2.1 + dot p.gradP v * p.ep.2.1,
      dot p.gradS v * p.es.2.2 + dot p.gradT v * p.et.2.2 + dot p.gradP v * p.ep.2.2) := by
  have hg : p.g = dot p.es (cross p.et p.ep) := h.jac.trans (C185_jacobian p h.circle)
  have ne := h.ne
  have e1 : dot p.gradS v = dot (cross p.et p.ep) v / p.g := dot_div (cross p.et p.ep) v p.g
  have e2 : dot p.gradT v = dot (cross p.ep p.es) v / p.g := dot_div (cross p.ep p.es) v p.g
  have e3 : dot p.gradP v = dot (cross p.es p.et) v / p.g := dot_div (cross p.es p.et) v p.g
  rw [e1, e2, e3]
  generalize p.es = e at *
  generalize p.et = f at *
  generalize p.ep = k at *
  generalize p.g = g at *
  obtain ⟨x, y, z⟩ := v
  simp only [Prod.mk.injEq]
  refine ⟨?_, ?_, ?_⟩ <;> field_simp <;> rw [hg] <;> simp only [dot, cross] <;> ring

/-- **C185** If a function of space is near the point, in the coordinates, a function with the partial derivatives `fs`, `ft`, `fp`, then its gradient is the combination of the gradients of the coordinates with these. -/
theorem C185_gradient (E : Splines) (h : E.Smooth) (center s θ φ : ℝ) (hr : (E.pt center s θ φ).Regular) (F : V → ℝ) (hF : DifferentiableAt ℝ F (E.pos s θ φ))
    (f : ℝ → ℝ → ℝ → ℝ) (hf : E.Is F f s θ φ) (fs ft fp : ℝ) (hp : Partials f fs ft fp s θ φ) :
    IsGradient F (E.pos s θ φ) ((E.pt center s θ φ).combine fs ft fp) := by
  obtain ⟨b1, b2, b3⟩ := C185_basis E h center s θ φ
  have hL := hF.hasFDerivAt
  refine ⟨_, hL, fun v => ?_⟩
  have d1 := hL.comp_hasDerivAt s b1
  have d2 := hL.comp_hasDerivAt θ b2
  have d3 := hL.comp_hasDerivAt φ b3
  have l1 := d1.unique (hp.by_s.congr_of_eventuallyEq ((Continuous.tendsto (f := fun x : ℝ => ((x, θ, φ) : V)) (by fun_prop) s).eventually hf))
  have l2 := d2.unique (hp.by_theta.congr_of_eventuallyEq ((Continuous.tendsto (f := fun x : ℝ => ((s, x, φ) : V)) (by fun_prop) θ).eventually hf))
  have l3 := d3.unique (hp.by_phi.congr_of_eventuallyEq ((Continuous.tendsto (f := fun x : ℝ => ((s, θ, x) : V)) (by fun_prop) φ).eventually hf))
  rw [dot_combine, ← l1, ← l2, ← l3]
  have ev := expand _ hr v
  generalize E.pt center s θ φ = p at *
  have : v = dot p.gradS v • p.es + dot p.gradT v • p.et + dot p.gradP v • p.ep := by
    conv_lhs => rw [ev]
    rfl
  conv_lhs => rw [this]
  simp only [map_add, map_smul, smul_eq_mul]
  ring

/-- **C185** `grad_alpha`, `grad_psi`, `grad_B` and the gradients of the coordinates are the gradients of the label α (with the shift `phi_center`), of the flux over 2π, of |B| and of the coordinates, if these are differentiable functions of space. -/
theorem C185_gradients (E : Splines) (h : E.Smooth) (center s θ φ : ℝ) (hr : (E.pt center s θ φ).Regular) (hi : HasDerivAt E.iota (E.iota' s) s) (F : V → ℝ) (hF : DifferentiableAt ℝ F (E.pos s θ φ)) :
    (E.Is F (E.alpha center) s θ φ → IsGradient F (E.pos s θ φ) (E.pt center s θ φ).gradAlpha) ∧
    (E.Is F (fun s _ _ => -E.phiedge / (2 * π) * s) s θ φ → IsGradient F (E.pos s θ φ) (E.pt center s θ φ).gradPsi) ∧
    (E.Is F E.modB s θ φ → IsGradient F (E.pos s θ φ) (E.pt center s θ φ).gradB) ∧
    (E.Is F (fun s _ _ => s) s θ φ → IsGradient F (E.pos s θ φ) (E.pt center s θ φ).gradS) ∧
    (E.Is F (fun _ θ _ => θ) s θ φ → IsGradient F (E.pos s θ φ) (E.pt center s θ φ).gradT) ∧
    (E.Is F (fun _ _ φ => φ) s θ φ → IsGradient F (E.pos s θ φ) (E.pt center s θ φ).gradP) := by
  obtain ⟨_, _, l, b, _⟩ := C184_first E h s θ φ
  have co : ∀ p : Pt, p.combine 1 0 0 = p.gradS ∧ p.combine 0 1 0 = p.gradT ∧ p.combine 0 0 1 = p.gradP := fun p => by simp [Pt.combine]
  have key := C185_gradient E h center s θ φ hr F hF
  refine ⟨fun hf => ?_, fun hf => ?_, fun hf => key _ hf _ _ _ b, fun hf => ?_, fun hf => ?_, fun hf => ?_⟩
  · refine key _ hf _ _ _ ⟨?_, ?_, ?_⟩
    · exact ((l.by_s.const_add θ).fun_sub (hi.mul_const (φ - center))).congr_deriv (by simp only [Pt.as, Splines.pt]; ring)
    · exact (((hasDerivAt_id θ).fun_add l.by_theta).sub_const _).congr_deriv rfl
    · exact ((l.by_phi.const_add θ).fun_sub (((hasDerivAt_id φ).sub_const center).const_mul (E.iota s))).congr_deriv (by simp only [Splines.pt]; ring)
  · have := key _ hf (-E.phiedge / (2 * π)) 0 0 ⟨((hasDerivAt_id s).const_mul _).congr_deriv (mul_one _), hasDerivAt_const _ _, hasDerivAt_const _ _⟩
    convert this using 1
    simp only [Pt.combine, Pt.gradPsi, zero_mul, add_zero, Splines.pt, mul_comm]
  · rw [← (co _).1]
    exact key _ hf _ _ _ ⟨hasDerivAt_id s, hasDerivAt_const _ _, hasDerivAt_const _ _⟩
  · rw [← (co _).2.1]
    exact key _ hf _ _ _ ⟨hasDerivAt_const _ _, hasDerivAt_id θ, hasDerivAt_const _ _⟩
  · rw [← (co _).2.2]
    exact key _ hf _ _ _ ⟨hasDerivAt_const _ _, hasDerivAt_const _ _, hasDerivAt_id φ⟩

theorem dot_field (p : Pt) (v : V) : dot v p.field = p.psi * (1 + p.lt) / p.g * dot v p.ep + p.psi * (p.iota - p.lp) / p.g * dot v p.et := by
  simp only [Pt.field, dot]; ring

/-- **C185** The field: no component across the flux surfaces, none along the gradient of α, the contravariant components of straight field lines in θ_pest. -/
theorem C185_field (p : Pt) (h : p.Regular) :
    dot p.gradS p.field = 0 ∧ dot p.gradAlpha p.field = 0 ∧ dot p.gradT p.field = p.psi * (p.iota - p.lp) / p.g ∧ dot p.gradP p.field = p.psi * (1 + p.lt) / p.g ∧
    dot (p.combine p.ls (1 + p.lt) p.lp) p.field = p.iota * dot p.gradP p.field := by
  obtain ⟨-, a2, a3, -, b2, b3, -, c2, c3⟩ := C185_dual p h
  have hS : dot p.gradS p.field = 0 := by rw [dot_field, a2, a3]; ring
  have hT : dot p.gradT p.field = p.psi * (p.iota - p.lp) / p.g := by rw [dot_field, b2, b3]; ring
  have hP : dot p.gradP p.field = p.psi * (1 + p.lt) / p.g := by rw [dot_field, c2, c3]; ring
  refine ⟨hS, ?_, hT, hP, ?_⟩
  · unfold Pt.gradAlpha; rw [dot_combine, hS, hT, hP]; ring
  · rw [dot_combine, hS, hT, hP]; ring

/-- The vector product of two combinations of gradients, in the basis vectors. -/
theorem cross_combine (p : Pt) (h : p.Regular) (a b c a' b' c' : ℝ) (v : V) :
    dot (cross (p.combine a b c) (p.combine a' b' c')) v * p.g = (b * c' - c * b') * dot v p.es + (c * a' - a * c') * dot v p.et + (a * b' - b * a') * dot v p.ep := by
  obtain ⟨a1, a2, a3, b1, b2, b3, c1, c2, c3⟩ := C185_dual p h
  have hg : p.g = dot p.es (cross p.et p.ep) := h.jac.trans (C185_jacobian p h.circle)
  have triple : dot p.gradS (cross p.gradT p.gradP) * p.g = 1 := by
    have ne := h.ne
    have e1 : ∀ v, dot p.gradS v = dot (cross p.et p.ep) v / p.g := fun v => dot_div (cross p.et p.ep) v p.g
    rw [e1, div_mul_cancel₀ _ ne]
    have : dot (cross p.et p.ep) (cross p.gradT p.gradP) = dot p.gradT p.et * dot p.gradP p.ep - dot p.gradT p.ep * dot p.gradP p.et := by
      simp only [dot, cross]; ring
    rw [this, b2, c3, b3, c2]; ring
  have e := expand p h v
  have s1 : dot v p.es = dot p.gradS v * dot p.es p.es + dot p.gradT v * dot p.et p.es + dot p.gradP v * dot p.ep p.es := by
    conv_lhs => rw [e]
    simp only [dot]; ring
  -- both sides are linear in v; the vectors on both sides agree on the gradients
  have key : ∀ u w : V, (dot u p.gradS = dot w p.gradS ∧ dot u p.gradT = dot w p.gradT ∧ dot u p.gradP = dot w p.gradP) → ∀ v, dot u v = dot w v := by
    intro u w ⟨h1, h2, h3⟩ v
    have eu := expand p h u
    have ew := expand p h w
    have comm : ∀ x y : V, dot x y = dot y x := fun x y => by simp only [dot]; ring
    rw [comm u, comm w] at h1 h2 h3
    rw [eu, ew, h1, h2, h3]
  clear s1 e
  have ht : dot p.gradT (cross p.gradP p.gradS) = dot p.gradS (cross p.gradT p.gradP) := by simp only [dot, cross]; ring
  have hw := key (cross (p.combine a b c) (p.combine a' b' c')) (((b * c' - c * b') * p.es.1 + (c * a' - a * c') * p.et.1 + (a * b' - b * a') * p.ep.1) / p.g,
    ((b * c' - c * b') * p.es.2.1 + (c * a' - a * c') * p.et.2.1 + (a * b' - b * a') * p.ep.2.1) / p.g, ((b * c' - c * b') * p.es.2.2 + (c * a' - a * c') * p.et.2.2 + (a * b' - b * a') * p.ep.2.2) / p.g) ?_ v
  · rw [hw, dot_div ((b * c' - c * b') * p.es.1 + (c * a' - a * c') * p.et.1 + (a * b' - b * a') * p.ep.1, (b * c' - c * b') * p.es.2.1 + (c * a' - a * c') * p.et.2.1 + (a * b' - b * a') * p.ep.2.1, (b * c' - c * b') * p.es.2.2 + (c * a' - a * c') * p.et.2.2 + (a * b' - b * a') * p.ep.2.2) v p.g, div_mul_cancel₀ _ h.ne]
    simp only [dot]; ring
  · have lin : ∀ u : V, dot (((b * c' - c * b') * p.es.1 + (c * a' - a * c') * p.et.1 + (a * b' - b * a') * p.ep.1) / p.g,
        ((b * c' - c * b') * p.es.2.1 + (c * a' - a * c') * p.et.2.1 + (a * b' - b * a') * p.ep.2.1) / p.g, ((b * c' - c * b') * p.es.2.2 + (c * a' - a * c') * p.et.2.2 + (a * b' - b * a') * p.ep.2.2) / p.g) u =
        ((b * c' - c * b') * dot u p.es + (c * a' - a * c') * dot u p.et + (a * b' - b * a') * dot u p.ep) / p.g := fun u => by simp only [dot]; ring
    rw [lin, lin, lin, a1, a2, a3, b1, b2, b3, c1, c2, c3]
    have t' : dot p.gradS (cross p.gradT p.gradP) = 1 / p.g := by field_simp [h.ne]; linarith [triple]
    refine ⟨?_, ?_, ?_⟩
    · trans (b * c' - c * b') * dot p.gradS (cross p.gradT p.gradP)
      · simp only [Pt.combine, dot, cross]; ring
      · rw [t']; ring
    · trans (c * a' - a * c') * dot p.gradS (cross p.gradT p.gradP)
      · simp only [Pt.combine, dot, cross]; ring
      · rw [t']; ring
    · trans (a * b' - b * a') * dot p.gradS (cross p.gradT p.gradP)
      · simp only [Pt.combine, dot, cross]; ring
      · rw [t']; ring

theorem ext_dot (u w : V) (h : ∀ v, dot u v = dot w v) : u = w := by
  have h1 := h (1, 0, 0)
  have h2 := h (0, 1, 0)
  have h3 := h (0, 0, 1)
  simp only [dot, mul_one, mul_zero, add_zero, zero_add] at h1 h2 h3
  exact Prod.ext h1 (Prod.ext h2 h3)

/-- **C185** The field is the vector product of the gradients of ψ and α, as documented. -/
theorem C185_clebsch (p : Pt) (h : p.Regular) : p.field = cross p.gradPsi p.gradAlpha := by
  refine ext_dot _ _ fun v => ?_
  have e : p.gradPsi = p.combine p.psi 0 0 := by simp only [Pt.gradPsi, Pt.combine, zero_mul, add_zero, mul_comm]
  have k := cross_combine p h p.psi 0 0 p.as (1 + p.lt) (-p.iota + p.lp) v
  rw [e]
  unfold Pt.gradAlpha
  have c1 : dot p.field v = dot v p.field := by simp only [dot]; ring
  rw [c1, dot_field]
  have ne := h.ne
  rw [← mul_left_inj' ne, k]
  field_simp
  ring

/-- The stored covariant components are those of the field. -/
structure Pt.Covariant (p : Pt) : Prop where
  s : p.bs = dot p.field p.es
  t : p.bt = dot p.field p.et
  p : p.bp = dot p.field p.ep

theorem triple_comb (p : Pt) (h : p.Regular) (hc : p.Covariant) (a b c a' b' c' : ℝ) :
    dot (cross p.field (p.combine a b c)) (p.combine a' b' c') = ((b * c' - c * b') * p.bs + (c * a' - a * c') * p.bt + (a * b' - b * a') * p.bp) / p.g := by
  have k := cross_combine p h a b c a' b' c' p.field
  rw [← hc.s, ← hc.t, ← hc.p] at k
  rw [← k, mul_div_cancel_right₀ _ h.ne]
  simp only [dot, cross]; ring

/-- **C185** Both ways of computing the drifts give B × ∇s · ∇α and B × ∇|B| · ∇α; the first is |B|² over the edge flux; and B × ∇|B| · ∇ψ is what its name says. -/
theorem C185_two_ways (p : Pt) (h : p.Regular) (hc : p.Covariant) (hp : p.psi ≠ 0) :
    p.BxSA = dot (cross p.field p.gradS) p.gradAlpha ∧ p.alternate p.gradS = p.BxSA ∧ p.BxSA = dot p.field p.field / p.psi ∧
    p.BxBA = dot (cross p.field p.gradB) p.gradAlpha ∧ p.alternate p.gradB = p.BxBA ∧ p.BxBPsi = dot (cross p.field p.gradB) p.gradPsi := by
  have alt : ∀ v, p.alternate v = dot (cross p.field v) p.gradAlpha := fun v => by simp only [Pt.alternate, dot, cross]; ring
  have eS : p.gradS = p.combine 1 0 0 := by simp [Pt.combine]
  have eP : p.gradPsi = p.combine p.psi 0 0 := by simp only [Pt.gradPsi, Pt.combine, zero_mul, add_zero, mul_comm]
  have h1 : p.BxSA = dot (cross p.field p.gradS) p.gradAlpha := by
    unfold Pt.gradAlpha Pt.BxSA; rw [eS, triple_comb p h hc]; ring
  have h2 : p.BxBA = dot (cross p.field p.gradB) p.gradAlpha := by
    unfold Pt.gradAlpha Pt.gradB Pt.BxBA Pt.as; rw [triple_comb p h hc]; ring
  have h3 : dot (cross p.field p.gradS) p.gradAlpha = dot p.field p.field / p.psi := by
    have c := C185_clebsch p h
    rw [eq_div_iff hp]
    have : dot (cross p.field p.gradS) p.gradAlpha * p.psi = dot p.field (cross p.gradPsi p.gradAlpha) := by simp only [Pt.gradPsi, dot, cross]; ring
    rw [this, ← c]
  refine ⟨h1, by rw [alt, h1], by rw [h1, h3], h2, by rw [alt, h2], ?_⟩
  unfold Pt.gradB Pt.BxBPsi; rw [eP, triple_comb p h hc]; ring

/-- **C185** In an equilibrium, where the curvature is (∇|B| - b (b · ∇|B|)) / |B| + μ₀ ∇p / |B|², the two components of the curvature drift are B × κ · ∇α and B × κ · ∇ψ. -/
theorem C185_curvature (p : Pt) (h : p.Regular) (hc : p.Covariant) (hp : p.psi ≠ 0) (hB : p.B ^ 2 = dot p.field p.field) (hB0 : p.B ≠ 0) (κ : V) (c : ℝ)
    (hk : κ = (p.gradB.1 / p.B + c * p.field.1 + Pt.mu0 * p.press' * p.gradS.1 / p.B ^ 2, p.gradB.2.1 / p.B + c * p.field.2.1 + Pt.mu0 * p.press' * p.gradS.2.1 / p.B ^ 2,
      p.gradB.2.2 / p.B + c * p.field.2.2 + Pt.mu0 * p.press' * p.gradS.2.2 / p.B ^ 2)) :
    p.BxKA = dot (cross p.field κ) p.gradAlpha ∧ p.BxKPsi = dot (cross p.field κ) p.gradPsi := by
  obtain ⟨h1, _, h3, h4, _, h6⟩ := C185_two_ways p h hc hp
  have lin : ∀ w, dot (cross p.field κ) w = dot (cross p.field p.gradB) w / p.B + Pt.mu0 * p.press' * dot (cross p.field p.gradS) w / p.B ^ 2 := by
    intro w; rw [hk]; simp only [dot, cross]; ring
  constructor
  · rw [lin, ← h4, ← h1, h3, ← hB]
    unfold Pt.BxKA
    field_simp
  · rw [lin, ← h6]
    have : dot (cross p.field p.gradS) p.gradPsi = 0 := by simp only [Pt.gradPsi, dot, cross]; ring
    rw [this]
    unfold Pt.BxKPsi
    ring

/-- A torus of circular cross section with major radius 2 and minor radius `s`, in a field given by λ = 0. -/
def torus : Splines where
  modes := [⟨0, 0, fun _ => 2, fun _ => 0, fun _ => 0, fun _ => 0, fun _ => 0, fun _ => 0⟩, ⟨1, 0, fun s => s, fun s => s, fun _ => 0, fun _ => 1, fun _ => 1, fun _ => 0⟩]
  nyq := [⟨0, 0, fun s => -(2 * s), fun _ => 0, fun _ => 0, fun _ => 0, fun _ => 0, fun _ => 0, fun _ => 0, fun _ => 0, fun _ => 0, fun _ => 0⟩,
    ⟨1, 0, fun s => -s ^ 2, fun _ => 0, fun _ => 0, fun _ => 0, fun _ => 0, fun _ => 0, fun _ => 0, fun _ => 0, fun _ => 0, fun _ => 0⟩]
  iota := fun s => 1 + s
  iota' := fun _ => 1
  pressure' := fun _ => -1
  phiedge := 1
  aminor := 1

theorem torus_smooth : torus.Smooth := by
  constructor <;> simp only [torus, List.mem_cons, List.not_mem_nil, or_false, forall_eq_or_imp, forall_eq]
  · exact ⟨fun s => hasDerivAt_const s 2, fun s => hasDerivAt_id s⟩
  · exact ⟨fun s => hasDerivAt_const s 0, fun s => hasDerivAt_id s⟩
  · exact ⟨fun s => hasDerivAt_const s 0, fun s => hasDerivAt_const s 0⟩
  all_goals exact ⟨fun s => hasDerivAt_const s 0, fun s => hasDerivAt_const s 0⟩

theorem torus_regular (center s θ φ : ℝ) (h0 : 0 < s) (h1 : s < 2) : (torus.pt center s θ φ).Regular := by
  have hc := neg_one_le_cos θ
  have e : (torus.pt center s θ φ).g = -(s * (2 + s * cos θ)) := by
    simp only [Splines.pt, Splines.sqrt_g_vmec, Splines.NC, cosSum, torus, List.map_cons, List.map_nil, List.sum_cons, List.sum_nil, zero_mul, one_mul, sub_zero, cos_zero]
    ring
  have hs := sin_sq_add_cos_sq θ
  refine ⟨?_, ?_, ?_⟩
  · simp only [Splines.pt]; exact cos_sq_add_sin_sq φ
  · rw [e]
    simp only [Pt.galt, Splines.pt, Splines.R, Splines.d_Z_d_s, Splines.d_R_d_s, Splines.d_R_d_theta_vmec, Splines.d_Z_d_theta_vmec, Splines.C, Splines.S, cosSum, sinSum, torus,
      List.map_cons, List.map_nil, List.sum_cons, List.sum_nil, zero_mul, one_mul, sub_zero, cos_zero, sin_zero]
    linear_combination (s * (2 + s * cos θ)) * hs
  · rw [e]
    have : 0 < 2 + s * cos θ := by nlinarith
    have := mul_pos h0 this
    linarith

/-- The hypotheses of `C185_gradient` are met at every point of this torus: the gradient of the height is the unit vector. -/
example (s θ φ : ℝ) (h0 : 0 < s) (h1 : s < 2) : IsGradient (fun x => x.2.2) (torus.pos s θ φ) ((torus.pt 0 s θ φ).combine (torus.d_Z_d_s s θ φ) (torus.d_Z_d_theta_vmec s θ φ) (torus.d_Z_d_phi s θ φ)) :=
  C185_gradient torus torus_smooth 0 s θ φ (torus_regular 0 s θ φ h0 h1) _ (by fun_prop) torus.Z (Filter.Eventually.of_forall fun _ => rfl) _ _ _ (C184_first torus torus_smooth s θ φ).2.1

/-- The hypotheses of `C185_two_ways` are met: at any regular point there are covariant components. -/
example (p : Pt) (h : p.Regular) : ∃ q : Pt, q.Regular ∧ q.Covariant ∧ q.field = p.field :=
  ⟨{ p with bs := dot p.field p.es, bt := dot p.field p.et, bp := dot p.field p.ep }, ⟨h.circle, h.jac, h.ne⟩, ⟨rfl, rfl, rfl⟩, rfl⟩

end Simsopt.VmecGeo
