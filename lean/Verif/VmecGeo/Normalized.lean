import Verif.VmecGeo.Basis
/-!
# The normalized coefficients for gyrokinetic codes and the gradient of the field vector (C186, C187)

Model of `vmec_compute_geometry` (src/simsopt/mhd/vmec_diagnostics.py L1007, L1225-1363) at one point, with the definitions of `Verif.VmecGeo.Basis`.  Real numbers instead of doubles.
-/
namespace Simsopt.VmecGeo
open Real

/-! ### Specification of the coefficients -/

/-- The gradient of the radius r = a √s. -/
noncomputable def Pt.gradR (p : Pt) : V := (p.aminor / (2 * √p.s) * p.gradS.1, p.aminor / (2 * √p.s) * p.gradS.2.1, p.aminor / (2 * √p.s) * p.gradS.2.2)
/-- What a reachable point meets. -/
structure Pt.Positive (p : Pt) : Prop where
  s : 0 < p.s
  a : 0 < p.aminor
  psi : p.psi ≠ 0
  B : 0 < p.B

theorem Pt.Positive.bref {p : Pt} (h : p.Positive) : 0 < p.Bref := by
  unfold Pt.Bref
  have := h.a
  have := abs_pos.mpr h.psi
  positivity

theorem Pt.Positive.flux {p : Pt} (h : p.Positive) : p.psi = p.sgn * p.Bref * (p.aminor * p.aminor) / 2 := by
  unfold Pt.Bref Pt.sgn
  have := h.a
  field_simp
  exact (sign_mul_abs p.psi).symm

theorem Pt.Positive.sgn_sq {p : Pt} (h : p.Positive) : p.sgn * p.sgn = 1 := by
  unfold Pt.sgn
  rcases lt_or_gt_of_ne h.psi with h | h
  · rw [sign_neg h]; norm_num
  · rw [sign_pos h]; norm_num

/-- **C186** The reference field is positive and is that with the given flux through a circle of the minor radius: π a² B_ref = 2π |ψ_edge|; `bmag` is |B| in units of it. -/
theorem C186_reference (p : Pt) (h : p.Positive) : 0 < p.Bref ∧ π * p.aminor ^ 2 * p.Bref = 2 * π * |p.psi| ∧ p.bmag * p.Bref = p.B := by
  refine ⟨h.bref, ?_, ?_⟩
  · unfold Pt.Bref
    have := h.a
    field_simp
  · exact div_mul_cancel₀ _ h.bref.ne'

/-- **C186** `shat` is (r/q) dq/dr for r = a √s and q = 1/ι. -/
theorem C186_shat (E : Splines) (center s θ φ : ℝ) (hs : 0 < s) (ha : 0 < E.aminor) (hi : HasDerivAt E.iota (E.iota' s) s) (h0 : E.iota s ≠ 0) :
    ∃ d, HasDerivAt (fun r => 1 / E.iota (r ^ 2 / E.aminor ^ 2)) d (E.aminor * √s) ∧ (E.pt center s θ φ).shat = E.aminor * √s / (1 / E.iota s) * d := by
  have e : (E.aminor * √s) ^ 2 / E.aminor ^ 2 = s := by
    rw [mul_pow, sq_sqrt hs.le]; field_simp
  have hr : HasDerivAt (fun r : ℝ => r ^ 2 / E.aminor ^ 2) (2 * (E.aminor * √s) / E.aminor ^ 2) (E.aminor * √s) := (((hasDerivAt_id _).fun_pow 2).div_const _).congr_deriv (by simp)
  have hi' : HasDerivAt E.iota (E.iota' s) ((fun r : ℝ => r ^ 2 / E.aminor ^ 2) (E.aminor * √s)) := by
    show HasDerivAt E.iota _ ((E.aminor * √s) ^ 2 / E.aminor ^ 2); rw [e]; exact hi
  have hc := HasDerivAt.comp (E.aminor * √s) hi' hr
  have hd := HasDerivAt.fun_div (hasDerivAt_const (E.aminor * √s) (1 : ℝ)) hc (by show E.iota ((E.aminor * √s) ^ 2 / E.aminor ^ 2) ≠ 0; rw [e]; exact h0)
  refine ⟨_, hd, ?_⟩
  simp only [Function.comp_apply, e, Pt.shat, Splines.pt]
  have := sq_sqrt hs.le
  field_simp
  linear_combination (2 * E.iota' s) * this

/-- **C186** `gds2`, `gds21`, `gds22` are r² |∇α|², sign(ψ) ŝ r ∇α · ∇r and ŝ² |∇r|²; so `gds2` and `gds22` are not negative and `gds21 ^ 2 <= gds2 * gds22`. -/
theorem C186_gds (p : Pt) (h : p.Positive) :
    p.gds2 = (p.aminor * √p.s) ^ 2 * dot p.gradAlpha p.gradAlpha ∧ p.gds21 = p.sgn * p.shat * (p.aminor * √p.s) * dot p.gradAlpha p.gradR ∧ p.gds22 = p.shat ^ 2 * dot p.gradR p.gradR ∧
    0 ≤ p.gds2 ∧ 0 ≤ p.gds22 ∧ p.gds21 ^ 2 ≤ p.gds2 * p.gds22 := by
  have ha := h.a
  have hs := h.s
  have hb := h.bref
  have hr := sqrt_pos.mpr hs
  have hq := sq_sqrt hs.le
  have eR : ∀ w, dot w p.gradR = p.aminor / (2 * √p.s) * dot w p.gradS := fun w => by simp only [Pt.gradR, dot]; ring
  have ePsi : ∀ w, dot w p.gradPsi = dot w p.gradS * p.psi := fun w => by simp only [Pt.gradPsi, dot]; ring
  have comm : ∀ x y : V, dot x y = dot y x := fun x y => by simp only [dot]; ring
  have h1 : p.gds2 = (p.aminor * √p.s) ^ 2 * dot p.gradAlpha p.gradAlpha := by
    unfold Pt.gds2; rw [mul_pow, hq]; ring
  have h2 : p.gds21 = p.sgn * p.shat * (p.aminor * √p.s) * dot p.gradAlpha p.gradR := by
    unfold Pt.gds21
    rw [ePsi, eR]
    rw [h.flux]
    field_simp
  have h3 : p.gds22 = p.shat ^ 2 * dot p.gradR p.gradR := by
    unfold Pt.gds22
    rw [ePsi, comm p.gradPsi, ePsi, eR, comm p.gradR, eR, h.flux]
    have h2 := h.sgn_sq
    have hq4 : √p.s ^ 2 = p.s := hq
    field_simp
    rw [hq4]
    have : p.sgn ^ 2 = 1 := by rw [sq, h2]
    rw [this]; ring
  have cs : ∀ x y : V, dot x y ^ 2 ≤ dot x x * dot y y := fun x y => by
    simp only [dot]
    nlinarith [sq_nonneg (x.1 * y.2.1 - x.2.1 * y.1), sq_nonneg (x.1 * y.2.2 - x.2.2 * y.1), sq_nonneg (x.2.1 * y.2.2 - x.2.2 * y.2.1)]
  have nn : ∀ x : V, 0 ≤ dot x x := fun x => by simp only [dot]; nlinarith [sq_nonneg x.1, sq_nonneg x.2.1, sq_nonneg x.2.2]
  refine ⟨h1, h2, h3, ?_, ?_, ?_⟩
  · rw [h1]; exact mul_nonneg (sq_nonneg _) (nn _)
  · rw [h3]; exact mul_nonneg (sq_nonneg _) (nn _)
  · rw [h1, h2, h3]
    have : (p.sgn * p.shat * (p.aminor * √p.s) * dot p.gradAlpha p.gradR) ^ 2 = (p.sgn * p.sgn) * ((p.shat * (p.aminor * √p.s)) ^ 2 * dot p.gradAlpha p.gradR ^ 2) := by ring
    rw [this, h.sgn_sq, one_mul]
    have := mul_le_mul_of_nonneg_left (cs p.gradAlpha p.gradR) (sq_nonneg (p.shat * (p.aminor * √p.s)))
    calc _ ≤ _ := this
      _ = _ := by ring

/-- **C186** `cvdrift` is the curvature drift with the same factor as `gbdrift` has for the grad-B drift, and so are `cvdrift0` (= `gbdrift0`) for ψ: they are the B × κ components times -2 B_ref a² √s sign(ψ) / |B|² and 2 ŝ sign(ψ) / (|B|² √s). -/
theorem C186_drifts (p : Pt) (h : p.Positive) :
    p.gbdrift = -2 * p.Bref * p.aminor ^ 2 * √p.s * p.sgn / p.B ^ 2 * (p.BxBA / p.B) ∧ p.cvdrift = -2 * p.Bref * p.aminor ^ 2 * √p.s * p.sgn / p.B ^ 2 * p.BxKA ∧
    p.gbdrift0 = 2 * p.shat * p.sgn / (p.B ^ 2 * √p.s) * p.BxKPsi ∧ (p.press' = 0 → p.cvdrift = p.gbdrift) := by
  have hB := h.B
  have hp := h.psi
  have hr := sqrt_pos.mpr h.s
  refine ⟨?_, ?_, ?_, ?_⟩
  · unfold Pt.gbdrift; field_simp
  · unfold Pt.cvdrift Pt.gbdrift Pt.BxKA; field_simp; ring
  · unfold Pt.gbdrift0 Pt.BxKPsi; field_simp
  · intro h0; unfold Pt.cvdrift; rw [h0]; simp

/-! ## The gradient of the vector field -/

/-- The arrays needed for the gradient of the field vector (L1065-1113). -/
structure Second where
  Rpp : ℝ
  Rtt : ℝ
  Rtp : ℝ
  Rst : ℝ
  Rsp : ℝ
  Zpp : ℝ
  Ztt : ℝ
  Ztp : ℝ
  Zst : ℝ
  Zsp : ℝ
  /-- `B_sup_theta_vmec` and `B_sup_phi` -/
  u : ℝ
  v : ℝ
  us : ℝ
  ut : ℝ
  up : ℝ
  vs : ℝ
  vt : ℝ
  vp : ℝ

section
variable (p : Pt) (q : Second)
/-- `d_B_X_d_s, d_B_Y_d_s, d_B_Z_d_s` (L1258-1265, L1288-1295, L1318-1323). -/
def Bvec_s : V :=
  (q.us * p.Rt * p.cosphi + q.u * q.Rst * p.cosphi + q.vs * p.Rp * p.cosphi + q.v * q.Rsp * p.cosphi - q.vs * p.R * p.sinphi - q.v * p.Rs * p.sinphi,
   q.us * p.Rt * p.sinphi + q.u * q.Rst * p.sinphi + q.vs * p.Rp * p.sinphi + q.v * q.Rsp * p.sinphi + q.vs * p.R * p.cosphi + q.v * p.Rs * p.cosphi,
   q.us * p.Zt + q.u * q.Zst + q.vs * p.Zp + q.v * q.Zsp)
/-- `d_B_X_d_theta, d_B_Y_d_theta, d_B_Z_d_theta` (L1267-1274, L1297-1304, L1325-1330). -/
def Bvec_t : V :=
  (q.ut * p.Rt * p.cosphi + q.u * q.Rtt * p.cosphi + q.vt * p.Rp * p.cosphi + q.v * q.Rtp * p.cosphi - q.vt * p.R * p.sinphi - q.v * p.Rt * p.sinphi,
   q.ut * p.Rt * p.sinphi + q.u * q.Rtt * p.sinphi + q.vt * p.Rp * p.sinphi + q.v * q.Rtp * p.sinphi + q.vt * p.R * p.cosphi + q.v * p.Rt * p.cosphi,
   q.ut * p.Zt + q.u * q.Ztt + q.vt * p.Zp + q.v * q.Ztp)
/-- `d_B_X_d_phi, d_B_Y_d_phi, d_B_Z_d_phi` (L1276-1286, L1306-1316, L1332-1337). -/
def Bvec_p : V :=
  (q.up * p.Rt * p.cosphi + q.u * q.Rtp * p.cosphi - q.u * p.Rt * p.sinphi + q.vp * p.Rp * p.cosphi + q.v * q.Rpp * p.cosphi - q.v * p.Rp * p.sinphi - q.vp * p.R * p.sinphi - q.v * p.Rp * p.sinphi - q.v * p.R * p.cosphi,
   q.up * p.Rt * p.sinphi + q.u * q.Rtp * p.sinphi + q.u * p.Rt * p.cosphi + q.vp * p.Rp * p.sinphi + q.v * q.Rpp * p.sinphi + q.v * p.Rp * p.cosphi + q.vp * p.R * p.cosphi + q.v * p.Rp * p.cosphi - q.v * p.R * p.sinphi,
   q.up * p.Zt + q.u * q.Ztp + q.vp * p.Zp + q.v * q.Zpp)
/-- `grad_B__XX, grad_B__XY, grad_B__XZ` (L1339-1341). -/
noncomputable def gradBX : V := p.combine (Bvec_s p q).1 (Bvec_t p q).1 (Bvec_p p q).1
/-- `grad_B__YX, grad_B__YY, grad_B__YZ` (L1343-1345). -/
noncomputable def gradBY : V := p.combine (Bvec_s p q).2.1 (Bvec_t p q).2.1 (Bvec_p p q).2.1
/-- `grad_B__ZX, grad_B__ZY, grad_B__ZZ` (L1347-1349). -/
noncomputable def gradBZ : V := p.combine (Bvec_s p q).2.2 (Bvec_t p q).2.2 (Bvec_p p q).2.2
/-- `grad_B_double_dot_grad_B` (L1351-1361). -/
noncomputable def dd : ℝ := dot (gradBX p q) (gradBX p q) + dot (gradBY p q) (gradBY p q) + dot (gradBZ p q) (gradBZ p q)
/-- `L_grad_B` (L1363). -/
noncomputable def LgradB : ℝ := p.B * √(2 / dd p q)
end

/-- The second derivatives at the point (L1065-1113). -/
noncomputable def Splines.second (E : Splines) (s θ φ : ℝ) : Second where
  Rpp := E.d2_R_d_phi2 s θ φ
  Rtt := E.d2_R_d_theta_vmec2 s θ φ
  Rtp := E.d2_R_d_theta_vmec_d_phi s θ φ
  Rst := E.d2_R_d_s_d_theta_vmec s θ φ
  Rsp := E.d2_R_d_s_d_phi s θ φ
  Zpp := E.d2_Z_d_phi2 s θ φ
  Ztt := E.d2_Z_d_theta_vmec2 s θ φ
  Ztp := E.d2_Z_d_theta_vmec_d_phi s θ φ
  Zst := E.d2_Z_d_s_d_theta_vmec s θ φ
  Zsp := E.d2_Z_d_s_d_phi s θ φ
  u := E.B_sup_theta_vmec s θ φ
  v := E.B_sup_phi s θ φ
  us := E.d_B_sup_theta_vmec_d_s s θ φ
  ut := E.d_B_sup_theta_vmec_d_theta_vmec s θ φ
  up := E.d_B_sup_theta_vmec_d_phi s θ φ
  vs := E.d_B_sup_phi_d_s s θ φ
  vt := E.d_B_sup_phi_d_theta_vmec s θ φ
  vp := E.d_B_sup_phi_d_phi s θ φ

/-- Specification: the field vector with the contravariant components of the file, `B^θ e_θ + B^φ e_φ`. -/
noncomputable def Splines.Bvec (E : Splines) (s θ φ : ℝ) : V :=
  (E.B_sup_theta_vmec s θ φ * (E.d_R_d_theta_vmec s θ φ * cos φ) + E.B_sup_phi s θ φ * (E.d_R_d_phi s θ φ * cos φ - E.R s θ φ * sin φ),
   E.B_sup_theta_vmec s θ φ * (E.d_R_d_theta_vmec s θ φ * sin φ) + E.B_sup_phi s θ φ * (E.d_R_d_phi s θ φ * sin φ + E.R s θ φ * cos φ),
   E.B_sup_theta_vmec s θ φ * E.d_Z_d_theta_vmec s θ φ + E.B_sup_phi s θ φ * E.d_Z_d_phi s θ φ)

/-- **C187** The nine `d_B_...` arrays are the partial derivatives of the Cartesian components of the field vector. -/
theorem C187_partials (E : Splines) (h : E.Smooth) (center s θ φ : ℝ) :
    Partials (fun s θ φ => (E.Bvec s θ φ).1) (Bvec_s (E.pt center s θ φ) (E.second s θ φ)).1 (Bvec_t (E.pt center s θ φ) (E.second s θ φ)).1 (Bvec_p (E.pt center s θ φ) (E.second s θ φ)).1 s θ φ ∧
    Partials (fun s θ φ => (E.Bvec s θ φ).2.1) (Bvec_s (E.pt center s θ φ) (E.second s θ φ)).2.1 (Bvec_t (E.pt center s θ φ) (E.second s θ φ)).2.1 (Bvec_p (E.pt center s θ φ) (E.second s θ φ)).2.1 s θ φ ∧
    Partials (fun s θ φ => (E.Bvec s θ φ).2.2) (Bvec_s (E.pt center s θ φ) (E.second s θ φ)).2.2 (Bvec_t (E.pt center s θ φ) (E.second s θ φ)).2.2 (Bvec_p (E.pt center s θ φ) (E.second s θ φ)).2.2 s θ φ := by
  obtain ⟨r, z, -, -, u, v⟩ := C184_first E h s θ φ
  obtain ⟨rt, rp, zt, zp, -⟩ := C184_second E h s θ φ
  have hc := hasDerivAt_cos φ
  have hs := hasDerivAt_sin φ
  refine ⟨⟨?_, ?_, ?_⟩, ⟨?_, ?_, ?_⟩, ⟨?_, ?_, ?_⟩⟩
  · exact ((u.by_s.fun_mul (rt.by_s.mul_const (cos φ))).fun_add (v.by_s.fun_mul ((rp.by_s.mul_const (cos φ)).fun_sub (r.by_s.mul_const (sin φ))))).congr_deriv (by simp only [Bvec_s, Splines.pt, Splines.second]; ring)
  · exact ((u.by_theta.fun_mul (rt.by_theta.mul_const (cos φ))).fun_add (v.by_theta.fun_mul ((rp.by_theta.mul_const (cos φ)).fun_sub (r.by_theta.mul_const (sin φ))))).congr_deriv (by simp only [Bvec_t, Splines.pt, Splines.second]; ring)
  · exact ((u.by_phi.fun_mul (rt.by_phi.fun_mul hc)).fun_add (v.by_phi.fun_mul ((rp.by_phi.fun_mul hc).fun_sub (r.by_phi.fun_mul hs)))).congr_deriv (by simp only [Bvec_p, Splines.pt, Splines.second]; ring)
  · exact ((u.by_s.fun_mul (rt.by_s.mul_const (sin φ))).fun_add (v.by_s.fun_mul ((rp.by_s.mul_const (sin φ)).fun_add (r.by_s.mul_const (cos φ))))).congr_deriv (by simp only [Bvec_s, Splines.pt, Splines.second]; ring)
  · exact ((u.by_theta.fun_mul (rt.by_theta.mul_const (sin φ))).fun_add (v.by_theta.fun_mul ((rp.by_theta.mul_const (sin φ)).fun_add (r.by_theta.mul_const (cos φ))))).congr_deriv (by simp only [Bvec_t, Splines.pt, Splines.second]; ring)
  · exact ((u.by_phi.fun_mul (rt.by_phi.fun_mul hs)).fun_add (v.by_phi.fun_mul ((rp.by_phi.fun_mul hs).fun_add (r.by_phi.fun_mul hc)))).congr_deriv (by simp only [Bvec_p, Splines.pt, Splines.second]; ring)
  · exact ((u.by_s.fun_mul zt.by_s).fun_add (v.by_s.fun_mul zp.by_s)).congr_deriv (by simp only [Bvec_s, Splines.pt, Splines.second]; ring)
  · exact ((u.by_theta.fun_mul zt.by_theta).fun_add (v.by_theta.fun_mul zp.by_theta)).congr_deriv (by simp only [Bvec_t, Splines.pt, Splines.second]; ring)
  · exact ((u.by_phi.fun_mul zt.by_phi).fun_add (v.by_phi.fun_mul zp.by_phi)).congr_deriv (by simp only [Bvec_p, Splines.pt, Splines.second]; ring)

/-- **C187** `grad_B__ij` is the derivative of the component i of the field vector in the direction j, if the field is a differentiable function of space. -/
theorem C187_tensor (E : Splines) (h : E.Smooth) (center s θ φ : ℝ) (hr : (E.pt center s θ φ).Regular) (F : V → V) (hF : DifferentiableAt ℝ F (E.pos s θ φ))
    (hf : ∀ᶠ q : V in nhds (s, θ, φ), F (E.pos q.1 q.2.1 q.2.2) = E.Bvec q.1 q.2.1 q.2.2) :
    IsGradient (fun x => (F x).1) (E.pos s θ φ) (gradBX (E.pt center s θ φ) (E.second s θ φ)) ∧ IsGradient (fun x => (F x).2.1) (E.pos s θ φ) (gradBY (E.pt center s θ φ) (E.second s θ φ)) ∧
    IsGradient (fun x => (F x).2.2) (E.pos s θ φ) (gradBZ (E.pt center s θ φ) (E.second s θ φ)) := by
  obtain ⟨p1, p2, p3⟩ := C187_partials E h center s θ φ
  refine ⟨C185_gradient E h center s θ φ hr _ hF.fst _ ?_ _ _ _ p1, C185_gradient E h center s θ φ hr _ hF.snd.fst _ ?_ _ _ _ p2, C185_gradient E h center s θ φ hr _ hF.snd.snd _ ?_ _ _ _ p3⟩
  · exact hf.mono fun q hq => by simp only [hq]
  · exact hf.mono fun q hq => by simp only [hq]
  · exact hf.mono fun q hq => by simp only [hq]

/-- **C187** The field vector with the contravariant components of the file is `B_X, B_Y, B_Z`, if these are the components of the straight-field-line form. -/
theorem C187_field (E : Splines) (center s θ φ : ℝ) (hg : (E.pt center s θ φ).g ≠ 0)
    (hu : E.B_sup_theta_vmec s θ φ * (E.pt center s θ φ).g = (E.pt center s θ φ).psi * (E.iota s - E.d_lambda_d_phi s θ φ))
    (hv : E.B_sup_phi s θ φ * (E.pt center s θ φ).g = (E.pt center s θ φ).psi * (1 + E.d_lambda_d_theta_vmec s θ φ)) : E.Bvec s θ φ = (E.pt center s θ φ).field := by
  have hu' : E.B_sup_theta_vmec s θ φ = (E.pt center s θ φ).psi * (E.iota s - E.d_lambda_d_phi s θ φ) / (E.pt center s θ φ).g := by rw [← hu, mul_div_cancel_right₀ _ hg]
  have hv' : E.B_sup_phi s θ φ = (E.pt center s θ φ).psi * (1 + E.d_lambda_d_theta_vmec s θ φ) / (E.pt center s θ φ).g := by rw [← hv, mul_div_cancel_right₀ _ hg]
  simp only [Splines.Bvec, hu', hv', Pt.field, Prod.mk.injEq]
  generalize e : E.pt center s θ φ = p at *
  have e1 : p.iota = E.iota s := by rw [← e]; rfl
  have e2 : p.lp = E.d_lambda_d_phi s θ φ := by rw [← e]; rfl
  have e3 : p.lt = E.d_lambda_d_theta_vmec s θ φ := by rw [← e]; rfl
  have e4 : p.et = (E.d_R_d_theta_vmec s θ φ * cos φ, E.d_R_d_theta_vmec s θ φ * sin φ, E.d_Z_d_theta_vmec s θ φ) := by rw [← e]; rfl
  have e5 : p.ep = (E.d_R_d_phi s θ φ * cos φ - E.R s θ φ * sin φ, E.d_R_d_phi s θ φ * sin φ + E.R s θ φ * cos φ, E.d_Z_d_phi s θ φ) := by rw [← e]; rfl
  rw [e1, e2, e3, e4, e5]
  refine ⟨?_, ?_, ?_⟩ <;> ring

/-- **C187** The scale length: not negative, and `L_grad_B ** 2 * (sum of the squares of the nine entries)` is 2 |B|². -/
theorem C187_length (p : Pt) (q : Second) (hB : 0 ≤ p.B) : 0 ≤ LgradB p q ∧ (0 < dd p q → LgradB p q ^ 2 * dd p q = 2 * p.B ^ 2) ∧ 0 ≤ dd p q := by
  have nn : ∀ x : V, 0 ≤ dot x x := fun x => by simp only [dot]; nlinarith [sq_nonneg x.1, sq_nonneg x.2.1, sq_nonneg x.2.2]
  refine ⟨mul_nonneg hB (sqrt_nonneg _), fun h => ?_, add_nonneg (add_nonneg (nn _) (nn _)) (nn _)⟩
  unfold LgradB
  rw [mul_pow, sq_sqrt (by positivity)]
  field_simp

/-- The hypotheses are met by the torus: the flux is that of the file, the field 1. -/
example : ({ torus.pt 0 (1 / 2) 0 0 with B := 1 } : Pt).Positive := by
  refine ⟨by norm_num [Splines.pt], by norm_num [Splines.pt, torus], ?_, by norm_num⟩
  simp only [Splines.pt, torus]
  exact (div_neg_of_neg_of_pos (by norm_num) (by positivity)).ne

end Simsopt.VmecGeo
