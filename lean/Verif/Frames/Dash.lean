import Verif.Frames.Ortho
import Verif.Util.Trig
import Mathlib.Analysis.SpecialFunctions.Trigonometric.Deriv
import Mathlib.Analysis.SpecialFunctions.Sqrt
/-!
# C135: derivatives of the frames along the curve, frame torsion and binormal curvature
-/
namespace Simsopt.Frames
open Simsopt Simsopt.Coils
open Simsopt.Geometry (norm_pos norm_sq norm_eq inner_self_pos Successive)

section diff
variable {E : Type*} [NormedAddCommGroup E] [NormedSpace ℝ E] {f g : E → V3} {r : E → ℝ} {p : E}

theorem diff_inner (hf : DifferentiableAt ℝ f p) (hg : DifferentiableAt ℝ g p) : DifferentiableAt ℝ (fun e => Geometry.inner (f e) (g e)) p := by
  unfold Geometry.inner; fun_prop
theorem diff_cross (hf : DifferentiableAt ℝ f p) (hg : DifferentiableAt ℝ g p) : DifferentiableAt ℝ (fun e => cross (f e) (g e)) p := by
  unfold cross; fun_prop
theorem diff_norm (hf : DifferentiableAt ℝ f p) (h0 : f p ≠ 0) : DifferentiableAt ℝ (fun e => Geometry.norm (f e)) p :=
  (diff_inner hf hf).sqrt (inner_self_pos _ h0).ne'
theorem diff_unit (hf : DifferentiableAt ℝ f p) (h0 : f p ≠ 0) : DifferentiableAt ℝ (fun e => (1 / Geometry.norm (f e)) • f e) p :=
  have h1 : DifferentiableAt ℝ (fun e => 1 / Geometry.norm (f e)) p := by
    simp only [one_div]; exact (diff_norm hf h0).fun_inv (norm_pos _ h0).ne'
  h1.fun_smul hf
theorem diff_rotate (hr : DifferentiableAt ℝ r p) (hf : DifferentiableAt ℝ f p) (hg : DifferentiableAt ℝ g p) :
    DifferentiableAt ℝ (fun e => rotate (r e) (f e) (g e)) p := by
  have hc := diff_cross hf hg
  have h1 := hr.cos
  have h2 := hr.sin
  unfold rotate
  exact hf.prodMk (((h1.fun_smul hg).fun_sub (h2.fun_smul hc)).prodMk ((h2.fun_smul hg).fun_add (h1.fun_smul hc)))
theorem diff_centroidNormal (hf : DifferentiableAt ℝ f p) (hg : DifferentiableAt ℝ g p) (h : f p - Geometry.inner (f p) (g p) • g p ≠ 0) :
    DifferentiableAt ℝ (fun e => centroidNormal (f e) (g e)) p :=
  diff_unit (hf.fun_sub ((diff_inner hf hg).fun_smul hg)) h
theorem diff_tdash (hf : DifferentiableAt ℝ f p) (hg : DifferentiableAt ℝ g p) (h : f p ≠ 0) : DifferentiableAt ℝ (fun e => tdash (f e) (g e)) p := by
  have hn := diff_norm hf h
  have h0 := (norm_pos _ h).ne'
  have h1 : DifferentiableAt ℝ (fun e => 1 / Geometry.norm (f e)) p := by
    simp only [one_div]; exact hn.fun_inv h0
  have h2 : DifferentiableAt ℝ (fun e => Geometry.inner (f e) (g e) / Geometry.norm (f e)) p := by
    simp only [div_eq_mul_inv]; exact (diff_inner hf hg).fun_mul (hn.fun_inv h0)
  exact (h1.fun_pow 2).fun_smul ((hn.fun_smul hg).fun_sub (h2.fun_smul hf))
end diff

variable {N : ℕ} {i : Fin N}

theorem diff_mean : Differentiable ℝ (mean (N := N)) := by
  unfold mean; fun_prop

/-- the centroid frame as a function of the vector from the centroid, the tangent vector and the angle -/
noncomputable def centroidAt (p : V3 × V3 × ℝ) : Frame :=
  let t := (1 / Geometry.norm p.2.1) • p.2.1
  rotate p.2.2 t (centroidNormal p.1 t)

theorem centroidFrame_at (p : (Fin N → V3) × (Fin N → V3) × (Fin N → ℝ)) : centroidFrame i p = centroidAt (p.1 i - mean p.1, p.2.1 i, p.2.2 i) := rfl

theorem centroidAt_diff {p : V3 × V3 × ℝ} (h : cross p.1 p.2.1 ≠ 0) : DifferentiableAt ℝ centroidAt p := by
  have hd := ne_of_cross h
  have h1 : DifferentiableAt ℝ (fun q : V3 × V3 × ℝ => q.2.1) p := by fun_prop
  have h2 : DifferentiableAt ℝ (fun q : V3 × V3 × ℝ => q.1) p := by fun_prop
  have h3 : DifferentiableAt ℝ (fun q : V3 × V3 × ℝ => q.2.2) p := by fun_prop
  have ht := diff_unit h1 hd
  exact diff_rotate h3 ht (diff_centroidNormal h2 ht (orth_ne h _ rfl))

/-- the Frenet frame as a function of the first two derivatives and the angle -/
noncomputable def frenetAt (p : V3 × V3 × ℝ) : Frame :=
  rotate p.2.2 ((1 / Geometry.norm p.1) • p.1) ((1 / Geometry.norm (tdash p.1 p.2.1)) • tdash p.1 p.2.1)

theorem frenetFrame_at (p : (Fin N → V3) × (Fin N → V3) × (Fin N → V3) × (Fin N → ℝ)) : frenetFrame i p = frenetAt (p.2.1 i, p.2.2.1 i, p.2.2.2 i) := rfl

theorem frenetAt_diff {p : V3 × V3 × ℝ} (h : cross p.1 p.2.1 ≠ 0) : DifferentiableAt ℝ frenetAt p := by
  have hd := ne_of_cross' h
  have h1 : DifferentiableAt ℝ (fun q : V3 × V3 × ℝ => q.1) p := by fun_prop
  have h2 : DifferentiableAt ℝ (fun q : V3 × V3 × ℝ => q.2.1) p := by fun_prop
  have h3 : DifferentiableAt ℝ (fun q : V3 × V3 × ℝ => q.2.2) p := by fun_prop
  have htd : tdash p.1 p.2.1 ≠ 0 := Geometry.tdash_ne _ _ h
  exact diff_rotate h3 (diff_unit h1 hd) (diff_unit (diff_tdash h1 h2 hd) htd)

/-- the `jvp`s as derivatives of the pointwise frames -/
theorem frenet_jvp {p : (Fin N → V3) × (Fin N → V3) × (Fin N → V3) × (Fin N → ℝ)} (h : cross (p.2.1 i) (p.2.2.1 i) ≠ 0)
    (v : (Fin N → V3) × (Fin N → V3) × (Fin N → V3) × (Fin N → ℝ)) :
    jvp (frenetFrame i) p v = fderiv ℝ frenetAt (p.2.1 i, p.2.2.1 i, p.2.2.2 i) (v.2.1 i, v.2.2.1 i, v.2.2.2 i) := by
  let L : ((Fin N → V3) × (Fin N → V3) × (Fin N → V3) × (Fin N → ℝ)) →L[ℝ] V3 × V3 × ℝ :=
      (((ContinuousLinearMap.proj i : (Fin N → V3) →L[ℝ] V3).comp ((ContinuousLinearMap.fst ℝ _ _).comp (ContinuousLinearMap.snd ℝ _ _))).prod
        (((ContinuousLinearMap.proj i : (Fin N → V3) →L[ℝ] V3).comp ((ContinuousLinearMap.fst ℝ _ _).comp ((ContinuousLinearMap.snd ℝ _ _).comp (ContinuousLinearMap.snd ℝ _ _)))).prod
        ((ContinuousLinearMap.proj i : (Fin N → ℝ) →L[ℝ] ℝ).comp ((ContinuousLinearMap.snd ℝ _ _).comp ((ContinuousLinearMap.snd ℝ _ _).comp (ContinuousLinearMap.snd ℝ _ _))))))
  have hf : HasFDerivAt frenetAt (fderiv ℝ frenetAt (p.2.1 i, p.2.2.1 i, p.2.2.2 i)) (p.2.1 i, p.2.2.1 i, p.2.2.2 i) := (frenetAt_diff (p := (p.2.1 i, p.2.2.1 i, p.2.2.2 i)) h).hasFDerivAt
  have hc : HasFDerivAt (frenetFrame i) _ p := HasFDerivAt.comp (g := frenetAt) (f := L) p hf L.hasFDerivAt
  unfold jvp
  rw [hc.fderiv]
  rfl

theorem centroid_jvp {p : (Fin N → V3) × (Fin N → V3) × (Fin N → ℝ)} (h : cross (p.1 i - mean p.1) (p.2.1 i) ≠ 0)
    (v : (Fin N → V3) × (Fin N → V3) × (Fin N → ℝ)) :
    jvp (centroidFrame i) p v = fderiv ℝ centroidAt (p.1 i - mean p.1, p.2.1 i, p.2.2 i) (v.1 i - mean v.1, v.2.1 i, v.2.2 i) := by
  let M : (Fin N → V3) →L[ℝ] V3 := ((N : ℝ)⁻¹) • ∑ j : Fin N, (ContinuousLinearMap.proj j : (Fin N → V3) →L[ℝ] V3)
  have hM : ∀ g : Fin N → V3, M g = mean g := by
    intro g
    simp only [M, mean, _root_.smul_apply, _root_.sum_apply, ContinuousLinearMap.proj_apply]
  let L : ((Fin N → V3) × (Fin N → V3) × (Fin N → ℝ)) →L[ℝ] V3 × V3 × ℝ :=
      ((((ContinuousLinearMap.proj i : (Fin N → V3) →L[ℝ] V3) - M).comp (ContinuousLinearMap.fst ℝ _ _)).prod
        (((ContinuousLinearMap.proj i : (Fin N → V3) →L[ℝ] V3).comp ((ContinuousLinearMap.fst ℝ _ _).comp (ContinuousLinearMap.snd ℝ _ _))).prod
        ((ContinuousLinearMap.proj i : (Fin N → ℝ) →L[ℝ] ℝ).comp ((ContinuousLinearMap.snd ℝ _ _).comp (ContinuousLinearMap.snd ℝ _ _)))))
  have hL : ∀ q, L q = (q.1 i - mean q.1, q.2.1 i, q.2.2 i) := fun q => by rw [← hM]; rfl
  have hf : HasFDerivAt centroidAt _ (p.1 i - mean p.1, p.2.1 i, p.2.2 i) := (centroidAt_diff (p := (p.1 i - mean p.1, p.2.1 i, p.2.2 i)) h).hasFDerivAt
  rw [← hL] at hf
  have hc := HasFDerivAt.comp (g := centroidAt) (f := L) p hf L.hasFDerivAt
  have hfun : centroidAt ∘ L = centroidFrame i := funext fun q => by rw [Function.comp, hL]; rfl
  rw [hfun] at hc
  unfold jvp
  rw [hc.fderiv, ← hL, ← hL]
  rfl

/-- **C135** The derivative of the Frenet frame is the derivative along the curve: if the arrays are samples of a curve `x`, its derivatives
    and an angle `a` at the quadrature points `q`, then row `i` of `rotated_frame_dash` is the derivative of the frame of the curve with respect to
    the curve parameter, at `q_i`. -/
theorem C135_frenet_dash (q : Fin N → ℝ) {x x1 x2 x3 : ℝ → V3} {a a1 : ℝ → ℝ} (h1 : HasDerivAt x1 (x2 (q i)) (q i)) (h2 : HasDerivAt x2 (x3 (q i)) (q i))
    (ha : HasDerivAt a (a1 (q i)) (q i)) (hne : cross (x1 (q i)) (x2 (q i)) ≠ 0) :
    HasDerivAt (fun s => frenetFrame (N := 1) 0 (fun _ => x s, fun _ => x1 s, fun _ => x2 s, fun _ => a s))
      (frenetFrameDash i (x ∘ q) (x1 ∘ q) (x2 ∘ q) (x3 ∘ q) (a ∘ q) (a1 ∘ q)) (q i) := by
  unfold frenetFrameDash
  rw [frenet_jvp (by exact hne)]
  have hf := (frenetAt_diff (p := (x1 (q i), x2 (q i), a (q i))) hne).hasFDerivAt
  exact HasFDerivAt.comp_hasDerivAt (f := fun s => (x1 s, x2 s, a s)) (q i) hf (h1.prodMk (h2.prodMk ha))

/-- **C135** The same for the centroid frame, whose centroid is the mean of the samples, provided the samples of the tangent vector have mean zero. -/
theorem C135_centroid_dash (q : Fin N → ℝ) {x x1 x2 : ℝ → V3} {a a1 : ℝ → ℝ} (h0 : HasDerivAt x (x1 (q i)) (q i)) (h1 : HasDerivAt x1 (x2 (q i)) (q i))
    (ha : HasDerivAt a (a1 (q i)) (q i)) (hmean : ∑ j, x1 (q j) = 0) (hne : cross (x (q i) - mean (x ∘ q)) (x1 (q i)) ≠ 0) :
    HasDerivAt (fun s => rotate (a s) (Geometry.tangent (x1 s)) (centroidNormal (x s - mean (x ∘ q)) (Geometry.tangent (x1 s))))
      (centroidFrameDash i (x ∘ q) (x1 ∘ q) (x2 ∘ q) (a ∘ q) (a1 ∘ q)) (q i) := by
  unfold centroidFrameDash
  rw [centroid_jvp (by exact hne)]
  have hm : mean (x1 ∘ q) = 0 := by unfold mean; simp only [Function.comp]; rw [hmean, smul_zero]
  simp only [hm, sub_zero]
  have hf := (centroidAt_diff (p := (x (q i) - mean (x ∘ q), x1 (q i), a (q i))) hne).hasFDerivAt
  exact HasFDerivAt.comp_hasDerivAt (f := fun s => (x s - mean (x ∘ q), x1 s, a s)) (q i) hf ((h0.sub_const _).prodMk (h1.prodMk ha))

/-- **C135** The samples of the tangent vector of a `CurveXYZFourier` at `N` equidistant points have mean zero if `N` exceeds the order. -/
theorem C135_fourier_mean {order N : ℕ} (hN : order < N) (d : List ℝ) {c : ℕ} (hc : c < 3) :
    ∑ j : Fin N, Curves.curve 1 order d c ((j : ℕ) / (N : ℝ)) = 0 := by
  have hN0 : 0 < N := by omega
  rw [Fin.sum_univ_eq_sum_range (fun j : ℕ => Curves.curve 1 order d c ((j : ℕ) / (N : ℝ)))]
  have key : ∀ k : ℕ, 0 < k → k ≤ order → ∀ φ : ℝ, ∑ j ∈ Finset.range N, Real.cos (2 * Real.pi * k * (j / (N : ℝ)) + φ) = 0 := by
    intro k hk0 hk φ
    have h := Trig.sum_cos_period N hN0 k φ
    rw [if_neg] at h
    · rw [← h]
      refine Finset.sum_congr rfl fun j _ => ?_
      congr 1; push_cast; ring
    · rintro ⟨m, hm⟩
      have hm1 : (0 : ℤ) < m := by
        by_contra hcon
        have : (N : ℤ) * m ≤ 0 := by nlinarith
        omega
      have : (N : ℤ) ≤ N * m := by nlinarith
      omega
  simp only [Curves.curve_sum 1 order d c hc]
  have e0 : Curves.c0 1 = 0 := rfl
  simp only [e0, zero_mul, zero_add]
  rw [Finset.sum_comm]
  refine Finset.sum_eq_zero fun k hk => ?_
  have hk' := Finset.mem_range.1 hk
  rw [Finset.sum_add_distrib, ← Finset.mul_sum, ← Finset.mul_sum]
  have s1 : ∑ j ∈ Finset.range N, Curves.sfac 1 ((j : ℕ) / (N : ℝ)) (k + 1) = 0 := by
    have := key (k + 1) (by omega) (by omega) 0
    simp only [Curves.sfac]
    rw [← Finset.mul_sum]
    simp only [add_zero] at this
    rw [this, mul_zero]
  have s2 : ∑ j ∈ Finset.range N, Curves.cfac 1 ((j : ℕ) / (N : ℝ)) (k + 1) = 0 := by
    have := key (k + 1) (by omega) (by omega) (-(Real.pi / 2))
    simp only [Curves.cfac]
    rw [Finset.sum_neg_distrib, ← Finset.mul_sum]
    simp only [← sub_eq_add_neg, Real.cos_sub_pi_div_two] at this
    rw [this, mul_zero, neg_zero]
  rw [s1, s2]; ring

end Simsopt.Frames
