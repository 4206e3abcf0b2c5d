import Verif.Frames.Dash
/-!
# C135: frame torsion and binormal curvature
-/
namespace Simsopt.Frames
open Simsopt Simsopt.Coils
open Simsopt.Geometry (norm_pos norm_sq norm_eq inner_self_pos Successive)

/-- derivative of a rotated pair -/
noncomputable def rotateDash (a ad : ℝ) (t n t' n' : V3) : Frame :=
  let b := cross t n
  let b' := cross t' n + cross t n'
  (t', (Real.cos a • n' - Real.sin a • b') - ad • (Real.sin a • n + Real.cos a • b), (Real.sin a • n' + Real.cos a • b') + ad • (Real.cos a • n - Real.sin a • b))

theorem rotate_deriv {a : ℝ → ℝ} {t n : ℝ → V3} {ad s : ℝ} {t' n' : V3} (ha : HasDerivAt a ad s) (ht : HasDerivAt t t' s) (hn : HasDerivAt n n' s) :
    HasDerivAt (fun s => rotate (a s) (t s) (n s)) (rotateDash (a s) ad (t s) (n s) t' n') s := by
  have hb := Geometry.d_cross ht hn
  have hc := ha.cos
  have hs := ha.sin
  refine (ht.prodMk (((hc.smul hn).fun_sub (hs.smul hb)).prodMk ((hs.smul hn).fun_add (hc.smul hb)))).congr_deriv ?_
  unfold rotateDash
  simp only [Prod.mk.injEq, true_and]
  constructor <;> module

/-- the derivative of a unit vector is orthogonal to it -/
theorem unit_deriv_orth {u : ℝ → V3} {w : V3} {s : ℝ} (hu : HasDerivAt (fun s => (1 / Geometry.norm (u s)) • u s) w s) (hc : ContinuousAt u s) (h0 : u s ≠ 0) :
    Geometry.inner w ((1 / Geometry.norm (u s)) • u s) = 0 := by
  have h1 := Geometry.d_inner hu hu
  have h2 : HasDerivAt (fun s => Geometry.inner ((1 / Geometry.norm (u s)) • u s) ((1 / Geometry.norm (u s)) • u s)) 0 s := by
    refine (hasDerivAt_const s (1 : ℝ)).congr_of_eventuallyEq ?_
    filter_upwards [hc.eventually_ne h0] with z hz
    exact unit_unit hz
  have h3 := h1.unique h2
  rw [inner_comm _ w] at h3
  linarith

/-- the normal component of the derivative of a rotated frame along its binormal -/
theorem rotateDash_torsion {a ad : ℝ} {t n t' n' : V3} (htt : Geometry.inner t t = 1) (hnn : Geometry.inner n n = 1) (htn : Geometry.inner t n = 0)
    (ht' : Geometry.inner t' t = 0) (hn' : Geometry.inner n' n = 0) :
    Geometry.inner (rotateDash a ad t n t' n').2.1 (rotate a t n).2.2 = Geometry.inner n' (cross t n) - ad := by
  have hcs := Real.sin_sq_add_cos_sq a
  have e1 : Geometry.inner (cross t n) (cross t n) = 1 := by
    have : Geometry.inner (cross t n) (cross t n) = Geometry.inner t t * Geometry.inner n n - Geometry.inner t n ^ 2 := by
      simp only [Geometry.inner, cross]; ring
    rw [this, htt, hnn, htn]; norm_num
  have e3 : Geometry.inner n (cross t n) = 0 := by simp only [Geometry.inner, cross]; ring
  have e3' : Geometry.inner (cross t n) n = 0 := by rw [inner_comm]; exact e3
  have f1 : Geometry.inner (cross t' n) n = 0 := by simp only [Geometry.inner, cross]; ring
  have f2 : Geometry.inner (cross t n') n = - Geometry.inner n' (cross t n) := by simp only [Geometry.inner, cross]; ring
  have f3 : Geometry.inner (cross t' n) (cross t n) = 0 := by
    have : Geometry.inner (cross t' n) (cross t n) = Geometry.inner t' t * Geometry.inner n n - Geometry.inner t' n * Geometry.inner t n := by
      simp only [Geometry.inner, cross]; ring
    rw [this, ht', htn]; ring
  have f4 : Geometry.inner (cross t n') (cross t n) = 0 := by
    have : Geometry.inner (cross t n') (cross t n) = Geometry.inner t t * Geometry.inner n' n - Geometry.inner t n * Geometry.inner n' t := by
      simp only [Geometry.inner, cross]; ring
    rw [this, hn', htn]; ring
  unfold rotateDash rotate
  simp only [inner_sub_left, inner_add_left, inner_add_right, inner_smul_left, inner_smul_right, hnn, e1, e3, e3', f1, f2, f3, f4, hn']
  linear_combination (Geometry.inner n' (cross t n) - ad) * hcs

variable {N : ℕ} {i : Fin N}

/-- the derivative of the centroid frame, with `t'` and `n'` independent of the rotation -/
theorem centroid_dash_form (g gd gdd : Fin N → V3) (h : cross (g i - mean g) (gd i) ≠ 0) :
    ∃ t n t' n' : V3, Geometry.inner t t = 1 ∧ Geometry.inner n n = 1 ∧ Geometry.inner t n = 0 ∧ Geometry.inner t' t = 0 ∧ Geometry.inner n' n = 0 ∧
      t' = Geometry.dTangent (gd i) (gdd i) ∧
      ∀ a ad : Fin N → ℝ, centroidFrame i (g, gd, a) = rotate (a i) t n ∧ centroidFrameDash i g gd gdd a ad = rotateDash (a i) (ad i) t n t' n' := by
  have hd := ne_of_cross h
  have htt := unit_unit hd
  have hs := centroidNormal_spec htt (orth_ne h _ rfl)
  -- the path
  have p1 : HasDerivAt (fun s : ℝ => gd i + s • gdd i) (gdd i) 0 := by
    simpa using ((hasDerivAt_id (0 : ℝ)).smul_const (gdd i)).const_add (gd i)
  have p0 : HasDerivAt (fun s : ℝ => (g i - mean g) + s • (gd i - mean gd)) (gd i - mean gd) 0 := by
    simpa using ((hasDerivAt_id (0 : ℝ)).smul_const (gd i - mean gd)).const_add (g i - mean g)
  have hT := Geometry.C53_tangent p1 (by simpa using hd)
  have q0 : ((g i - mean g) + (0 : ℝ) • (gd i - mean gd)) = g i - mean g := by simp
  have q1 : (gd i + (0 : ℝ) • gdd i) = gd i := by simp
  have hTd : DifferentiableAt ℝ (fun s : ℝ => Geometry.tangent (gd i + s • gdd i)) 0 := hT.differentiableAt
  have hnd : DifferentiableAt ℝ (fun s : ℝ => centroidNormal ((g i - mean g) + s • (gd i - mean gd)) (Geometry.tangent (gd i + s • gdd i))) 0 := by
    refine diff_centroidNormal p0.differentiableAt hTd ?_
    rw [q0, q1]; exact orth_ne h _ rfl
  have hn := hnd.hasDerivAt
  refine ⟨(1 / Geometry.norm (gd i)) • gd i, centroidNormal (g i - mean g) ((1 / Geometry.norm (gd i)) • gd i), _,
    deriv (fun s : ℝ => centroidNormal ((g i - mean g) + s • (gd i - mean gd)) (Geometry.tangent (gd i + s • gdd i))) 0, htt, hs.1, hs.2, ?_, ?_, rfl, ?_⟩
  · have := unit_deriv_orth (u := fun s : ℝ => gd i + s • gdd i) hT p1.continuousAt (by simpa using hd)
    simpa only [q1] using this
  · have hc : ContinuousAt (fun s : ℝ => ((g i - mean g) + s • (gd i - mean gd)) - Geometry.inner ((g i - mean g) + s • (gd i - mean gd)) (Geometry.tangent (gd i + s • gdd i)) •
        Geometry.tangent (gd i + s • gdd i)) 0 :=
      (p0.differentiableAt.fun_sub ((diff_inner p0.differentiableAt hTd).fun_smul hTd)).continuousAt
    have := unit_deriv_orth hn hc (by simp only [q0, q1]; exact orth_ne h _ rfl)
    simp only [q0, q1] at this
    exact this
  · intro a ad
    refine ⟨rfl, ?_⟩
    have p2 : HasDerivAt (fun s : ℝ => a i + s * ad i) (ad i) 0 := by
      simpa using ((hasDerivAt_id (0 : ℝ)).mul_const (ad i)).const_add (a i)
    have hr := rotate_deriv p2 hT hn
    have hf := (centroidAt_diff (p := (g i - mean g, gd i, a i)) h).hasFDerivAt
    have hf' : HasFDerivAt centroidAt (fderiv ℝ centroidAt (g i - mean g, gd i, a i)) ((g i - mean g) + (0 : ℝ) • (gd i - mean gd), gd i + (0 : ℝ) • gdd i, a i + 0 * ad i) := by
      rw [q0, q1, zero_mul, add_zero]; exact hf
    have hc := HasFDerivAt.comp_hasDerivAt (f := fun s : ℝ => ((g i - mean g) + s • (gd i - mean gd), gd i + s • gdd i, a i + s * ad i)) 0 hf' (p0.prodMk (p1.prodMk p2))
    have hu := hc.unique hr
    unfold centroidFrameDash
    rw [centroid_jvp (by exact h)]
    rw [q0, q1, zero_mul, add_zero] at hu
    exact hu

/-- **C135** Rotating a centroid frame by the angle `alpha` subtracts `dalpha/dl` from the frame torsion. -/
theorem C135_centroid_torsion (g gd gdd : Fin N → V3) (a ad : Fin N → ℝ) (h : cross (g i - mean g) (gd i) ≠ 0) :
    torsionCentroid i g gd gdd a ad = torsionCentroid i g gd gdd (fun _ => 0) (fun _ => 0) - ad i / Geometry.norm (gd i) := by
  obtain ⟨t, n, t', n', htt, hnn, htn, ht', hn', _, hf⟩ := centroid_dash_form g gd gdd h
  have hp := norm_pos _ (ne_of_cross h)
  unfold torsionCentroid
  rw [(hf a ad).1, (hf a ad).2, (hf (fun _ => 0) (fun _ => 0)).1, (hf (fun _ => 0) (fun _ => 0)).2, inner_smul_left, inner_smul_left,
    rotateDash_torsion htt hnn htn ht' hn', rotateDash_torsion htt hnn htn ht' hn']
  field_simp
  ring

theorem dTangent_sq {d e : V3} (h : d ≠ 0) : Geometry.inner (Geometry.dTangent d e) (Geometry.dTangent d e) = (Geometry.norm d * Geometry.kappa d e) ^ 2 := by
  have hp := norm_pos _ h
  have hi : Geometry.inner d d = Geometry.norm d ^ 2 := (norm_sq _).symm
  have e1 : Geometry.norm (cross d e) ^ 2 = Geometry.norm d ^ 2 * Geometry.inner e e - Geometry.inner d e ^ 2 := by
    rw [norm_sq, norm_sq]; simp only [Geometry.inner, cross]; ring
  have e2 : (Geometry.norm d * Geometry.kappa d e) ^ 2 = Geometry.norm (cross d e) ^ 2 / Geometry.norm d ^ 4 := by
    unfold Geometry.kappa; field_simp
  rw [e2, e1]
  have e3 : Geometry.dTangent d e = (-(Geometry.inner d e) / Geometry.norm d ^ 3) • d + (1 / Geometry.norm d) • e := by
    unfold Geometry.dTangent Geometry.dArclength
    simp only [show Geometry.arclength d = Geometry.norm d from rfl]
    congr 2
    unfold Geometry.inner
    field_simp
    ring
  rw [e3]
  simp only [inner_add_left, inner_add_right, inner_smul_left, inner_smul_right, hi, inner_comm e d]
  field_simp
  ring

/-- **C135** The binormal curvature of the rotated centroid frame: with `k_b` and `k_n` its values for the angles 0 and π/2, it is
    `cos(alpha) k_b + sin(alpha) k_n`, and `k_b² + k_n²` is the square of the curvature of the curve. -/
theorem C135_centroid_binormal (g gd gdd : Fin N → V3) (a ad : Fin N → ℝ) (h : cross (g i - mean g) (gd i) ≠ 0) :
    binormalCentroid i g gd gdd a ad = Real.cos (a i) * binormalCentroid i g gd gdd (fun _ => 0) (fun _ => 0) +
      Real.sin (a i) * binormalCentroid i g gd gdd (fun _ => Real.pi / 2) (fun _ => 0) ∧
    binormalCentroid i g gd gdd (fun _ => 0) (fun _ => 0) ^ 2 + binormalCentroid i g gd gdd (fun _ => Real.pi / 2) (fun _ => 0) ^ 2 =
      Geometry.kappa (gd i) (gdd i) ^ 2 := by
  obtain ⟨t, n, t', n', htt, hnn, htn, ht', hn', hte, hf⟩ := centroid_dash_form g gd gdd h
  have hd := ne_of_cross h
  have hp := norm_pos _ hd
  have hsq := dTangent_sq (e := gdd i) hd
  rw [← hte] at hsq
  have e : ∀ a ad : Fin N → ℝ, binormalCentroid i g gd gdd a ad =
      1 / Geometry.norm (gd i) * (Real.sin (a i) * Geometry.inner t' n + Real.cos (a i) * Geometry.inner t' (cross t n)) := by
    intro a ad
    unfold binormalCentroid
    rw [(hf a ad).1, (hf a ad).2, inner_smul_left]
    unfold rotateDash rotate
    simp only [inner_add_right, inner_smul_right]
  rw [e, e, e]
  simp only [Real.sin_zero, Real.cos_zero, Real.sin_pi_div_two, Real.cos_pi_div_two]
  refine ⟨by ring, ?_⟩
  have hb : Geometry.inner t' t' = Geometry.inner t' t ^ 2 + Geometry.inner t' n ^ 2 + Geometry.inner t' (cross t n) ^ 2 := by
    -- expansion in the orthonormal basis t, n, t×n
    have key : Geometry.inner t' (cross t n) ^ 2 = Geometry.inner t' t' * (Geometry.inner t t * Geometry.inner n n - Geometry.inner t n ^ 2)
        - Geometry.inner t' t * (Geometry.inner t' t * Geometry.inner n n - Geometry.inner t' n * Geometry.inner t n)
        + Geometry.inner t' n * (Geometry.inner t' t * Geometry.inner t n - Geometry.inner t' n * Geometry.inner t t) := by
      simp only [Geometry.inner, cross]; ring
    rw [key, htt, hnn, htn]; ring
  rw [ht'] at hb
  have : Geometry.inner t' n ^ 2 + Geometry.inner t' (cross t n) ^ 2 = (Geometry.norm (gd i) * Geometry.kappa (gd i) (gdd i)) ^ 2 := by
    rw [← hsq, hb]; ring
  field_simp
  linear_combination this

/-- the derivative of the Frenet frame -/
theorem frenet_dash_form (g gd gdd gddd : Fin N → V3) (a ad : Fin N → ℝ) (h : cross (gd i) (gdd i) ≠ 0) :
    frenetFrameDash i g gd gdd gddd a ad = rotateDash (a i) (ad i) (Geometry.tangent (gd i)) (Geometry.normal (gd i) (gdd i))
      ((Geometry.norm (gd i) * Geometry.kappa (gd i) (gdd i)) • Geometry.normal (gd i) (gdd i))
      ((-(Geometry.norm (gd i) * Geometry.kappa (gd i) (gdd i))) • Geometry.tangent (gd i) +
        (Geometry.norm (gd i) * Geometry.torsion (gd i) (gdd i) (gddd i)) • Geometry.binormal (gd i) (gdd i)) := by
  have p1 : HasDerivAt (fun s : ℝ => gd i + s • gdd i + (s ^ 2 / 2) • gddd i) (gdd i + (0 : ℝ) • gddd i) 0 := by
    have h1 := ((hasDerivAt_id (0 : ℝ)).smul_const (gdd i)).const_add (gd i)
    have h2 := ((((hasDerivAt_id (0 : ℝ)).pow 2).div_const 2).smul_const (gddd i))
    refine (h1.fun_add h2).congr_deriv ?_
    simp
  have p2 : HasDerivAt (fun s : ℝ => gdd i + s • gddd i) (gddd i) 0 := by
    simpa using ((hasDerivAt_id (0 : ℝ)).smul_const (gddd i)).const_add (gdd i)
  have p3 : HasDerivAt (fun s : ℝ => a i + s * ad i) (ad i) 0 := by
    simpa using ((hasDerivAt_id (0 : ℝ)).mul_const (ad i)).const_add (a i)
  have q1 : (gd i + (0 : ℝ) • gdd i + ((0 : ℝ) ^ 2 / 2) • gddd i) = gd i := by simp
  have q2 : gdd i + (0 : ℝ) • gddd i = gdd i := by simp
  have hsucc : Successive (fun s : ℝ => gd i + s • gdd i + (s ^ 2 / 2) • gddd i) (fun s => gdd i + s • gddd i) (fun _ => gddd i) 0 := ⟨p1, p2⟩
  obtain ⟨hT, hNn, _⟩ := Geometry.C53_frenet_serret hsucc (by simp only [q1, q2]; exact h)
  have hr := rotate_deriv p3 hT hNn
  simp only [q1, q2, zero_mul, add_zero] at hr
  have hf := (frenetAt_diff (p := (gd i, gdd i, a i)) h).hasFDerivAt
  have hf' : HasFDerivAt frenetAt (fderiv ℝ frenetAt (gd i, gdd i, a i)) (gd i + (0 : ℝ) • gdd i + ((0 : ℝ) ^ 2 / 2) • gddd i, gdd i + (0 : ℝ) • gddd i, a i + 0 * ad i) := by
    rw [q1, q2, zero_mul, add_zero]; exact hf
  have hc := HasFDerivAt.comp_hasDerivAt (f := fun s : ℝ => (gd i + s • gdd i + (s ^ 2 / 2) • gddd i, gdd i + s • gddd i, a i + s * ad i)) 0 hf' (p1.prodMk (p2.prodMk p3))
  have hu := hc.unique hr
  unfold frenetFrameDash
  rw [frenet_jvp (by exact h)]
  rw [q2] at hu
  exact hu

/-- **C135** For the Frenet frame rotated by `alpha`, the frame torsion is the torsion of the curve minus `dalpha/dl`, and the binormal curvature is
    the curvature of the curve times `sin(alpha)`; torsion and curvature are those reported by the curve. -/
theorem C135_frenet_torsion (g gd gdd gddd : Fin N → V3) (a ad : Fin N → ℝ) (h : cross (gd i) (gdd i) ≠ 0) :
    torsionFrenet i g gd gdd gddd a ad = Geometry.torsion (gd i) (gdd i) (gddd i) - ad i / Geometry.norm (gd i) ∧
    binormalFrenet i g gd gdd gddd a ad = Geometry.kappa (gd i) (gdd i) * Real.sin (a i) := by
  have hd := ne_of_cross' h
  have hp := norm_pos _ hd
  obtain ⟨htt, hnn, hbb, htn, htb, hnb, hcr⟩ := Geometry.C53_orthonormal _ _ h
  have e0 : frenetFrame i (g, gd, gdd, a) = rotate (a i) (Geometry.tangent (gd i)) (Geometry.normal (gd i) (gdd i)) := rfl
  have hnt : Geometry.inner (Geometry.normal (gd i) (gdd i)) (Geometry.tangent (gd i)) = 0 := by rw [inner_comm]; exact htn
  have hbn : Geometry.inner (Geometry.binormal (gd i) (gdd i)) (Geometry.normal (gd i) (gdd i)) = 0 := by rw [inner_comm]; exact hnb
  constructor
  · unfold torsionFrenet
    rw [frenet_dash_form g gd gdd gddd a ad h, e0, inner_smul_left, rotateDash_torsion htt hnn htn]
    · rw [hcr, inner_add_left, inner_smul_left, inner_smul_left, htb, hbb]
      field_simp
      ring
    · rw [inner_smul_left, hnt, mul_zero]
    · rw [inner_add_left, inner_smul_left, inner_smul_left, htn, hbn]; ring
  · unfold binormalFrenet
    rw [frenet_dash_form g gd gdd gddd a ad h, e0]
    unfold rotateDash rotate
    simp only [hcr, inner_smul_left, inner_add_right, inner_smul_right, hnn, hnb]
    field_simp
    ring

end Simsopt.Frames
