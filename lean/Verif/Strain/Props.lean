import Verif.Strain.Model
/-!
# C137: strain penalties
-/
namespace Simsopt.Strain
open Simsopt Simsopt.Coils Simsopt.Frames
open Simsopt.Geometry (norm_pos)

variable {N : ℕ} {i : Fin N}

/-! ### values -/

theorem torstrain_nonneg (τ w : ℝ) : 0 ≤ torstrain τ w := by unfold torstrain; positivity
theorem binormstrain_nonneg (b : ℝ) {w : ℝ} (hw : 0 ≤ w) : 0 ≤ binormstrain b w := by unfold binormstrain; positivity

/-- the documented penalty: `(1/p)` times the mean over the quadrature points of `max(ε - ε₀, 0)^p` times the arclength factor -/
noncomputable def penalty (strain : Fin N → ℝ) (gd : Fin N → V3) (p threshold : ℝ) : ℝ :=
  (1 / p) * ((∑ i, max (strain i - threshold) 0 ^ p * Geometry.norm (gd i)) / N)

/-- **C137** The value of the torsional strain penalty, with strain `τ² w² / 12`. -/
theorem C137_torsional_value (tor : Fin N → ℝ) (gd : Fin N → V3) (width p threshold : ℝ) :
    torJ tor gd width p threshold = penalty (fun i => tor i ^ 2 * width ^ 2 / 12) gd p threshold := by
  unfold torJ Penalties.lpTorsion Penalties.mean penalty
  congr 2
  refine Finset.sum_congr rfl fun i _ => ?_
  simp only [abs_of_nonneg (torstrain_nonneg _ _)]; rfl

/-- **C137** The value of the binormal curvature strain penalty, with strain `w |b·κ| / 2`. -/
theorem C137_binormal_value (bn : Fin N → ℝ) (gd : Fin N → V3) {width : ℝ} (hw : 0 ≤ width) (p threshold : ℝ) :
    binormJ bn gd width p threshold = penalty (fun i => width * |bn i| / 2) gd p threshold := by
  unfold binormJ Penalties.lpTorsion Penalties.mean penalty
  congr 2
  refine Finset.sum_congr rfl fun i _ => ?_
  simp only [abs_of_nonneg (binormstrain_nonneg _ hw)]
  unfold binormstrain; congr 3; ring

/-- **C137** Neither penalty is ever negative, and each is zero exactly when the strain is at most the threshold at every quadrature point. -/
theorem C137_zero_iff (q : Fin N → ℝ) (gd : Fin N → V3) {width p : ℝ} (hw : 0 ≤ width) (hp : 0 < p) (threshold : ℝ) (hne : ∀ i, gd i ≠ 0) :
    (0 ≤ torJ q gd width p threshold ∧ (torJ q gd width p threshold = 0 ↔ ∀ i, q i ^ 2 * width ^ 2 / 12 ≤ threshold)) ∧
    (0 ≤ binormJ q gd width p threshold ∧ (binormJ q gd width p threshold = 0 ↔ ∀ i, width * |q i| / 2 ≤ threshold)) := by
  have key : ∀ s : Fin N → ℝ, 0 ≤ penalty s gd p threshold ∧ (penalty s gd p threshold = 0 ↔ ∀ i, s i ≤ threshold) := by
    intro s
    have hnn : ∀ i, 0 ≤ max (s i - threshold) 0 ^ p * Geometry.norm (gd i) := fun i =>
      mul_nonneg (Real.rpow_nonneg (le_max_right _ _) _) (norm_pos _ (hne i)).le
    have hs : 0 ≤ ∑ i, max (s i - threshold) 0 ^ p * Geometry.norm (gd i) := Finset.sum_nonneg fun i _ => hnn i
    refine ⟨mul_nonneg (by positivity) (div_nonneg hs (by positivity)), ?_⟩
    have e : penalty s gd p threshold = 0 ↔ ∀ i, max (s i - threshold) 0 ^ p * Geometry.norm (gd i) = 0 := by
      have := Penalties.mean_eq_zero_iff (f := fun i => max (s i - threshold) 0 ^ p * Geometry.norm (gd i)) hnn
      unfold Penalties.mean at this
      rw [penalty, mul_eq_zero, or_iff_right (by positivity), this]
    rw [e]
    refine forall_congr' fun i => ?_
    rw [mul_eq_zero, or_iff_left (norm_pos _ (hne i)).ne', Penalties.maxPow_eq_zero_iff _ _ hp, sub_nonpos]
  rw [C137_torsional_value, C137_binormal_value _ _ hw]
  exact ⟨key _, key _⟩

/-! ### differentiability of the frame quantities -/

theorem frenetTorsion_diff {p : Args N} (h : ∀ i, cross (p.2.1 i) (p.2.2.1 i) ≠ 0) :
    DifferentiableAt ℝ (fun q : Args N => frenetTorsion q.1 q.2.1 q.2.2.1 q.2.2.2.1 q.2.2.2.2.1 q.2.2.2.2.2) p ∧
    DifferentiableAt ℝ (fun q : Args N => frenetBinormal q.1 q.2.1 q.2.2.1 q.2.2.2.1 q.2.2.2.2.1 q.2.2.2.2.2) p := by
  have hd : ∀ i, p.2.1 i ≠ 0 := fun i => ne_of_cross' (h i)
  have hF : ∀ i, DifferentiableAt ℝ (fun q : Args N => frenetFrame i (q.1, q.2.1, q.2.2.1, q.2.2.2.2.1)) p := fun i => by
    have h1 : DifferentiableAt ℝ (fun q : Args N => (q.1, q.2.1, q.2.2.1, q.2.2.2.2.1)) p := by fun_prop
    exact DifferentiableAt.comp (g := frenetFrame i) p (frenetFrame_diff (p := (p.1, p.2.1, p.2.2.1, p.2.2.2.2.1)) (h i)) h1
  have hn : ∀ i, DifferentiableAt ℝ (fun q : Args N => 1 / Geometry.norm (q.2.1 i)) p := fun i => by
    have h1 : DifferentiableAt ℝ (fun q : Args N => q.2.1 i) p := by fun_prop
    simp only [one_div]; exact (diff_norm h1 (hd i)).fun_inv (norm_pos _ (hd i)).ne'
  refine ⟨differentiableAt_pi.2 fun i => ?_, differentiableAt_pi.2 fun i => ?_⟩
  · exact diff_inner ((hn i).fun_smul (frenetDash_diff (h i)).snd.fst) (hF i).snd.snd
  · exact diff_inner ((hn i).fun_smul (frenetDash_diff (h i)).fst) (hF i).snd.snd

theorem centroidTorsion_diff {p : Args N} (h : ∀ i, cross (p.1 i - Frames.mean p.1) (p.2.1 i) ≠ 0) :
    DifferentiableAt ℝ (fun q : Args N => centroidTorsion q.1 q.2.1 q.2.2.1 q.2.2.2.2.1 q.2.2.2.2.2) p ∧
    DifferentiableAt ℝ (fun q : Args N => centroidBinormal q.1 q.2.1 q.2.2.1 q.2.2.2.2.1 q.2.2.2.2.2) p := by
  have hd : ∀ i, p.2.1 i ≠ 0 := fun i => ne_of_cross (h i)
  have hF : ∀ i, DifferentiableAt ℝ (fun q : Args N => centroidFrame i (q.1, q.2.1, q.2.2.2.2.1)) p := fun i => by
    have h1 : DifferentiableAt ℝ (fun q : Args N => (q.1, q.2.1, q.2.2.2.2.1)) p := by fun_prop
    exact DifferentiableAt.comp (g := centroidFrame i) p (centroidFrame_diff (p := (p.1, p.2.1, p.2.2.2.2.1)) (h i)) h1
  have hn : ∀ i, DifferentiableAt ℝ (fun q : Args N => 1 / Geometry.norm (q.2.1 i)) p := fun i => by
    have h1 : DifferentiableAt ℝ (fun q : Args N => q.2.1 i) p := by fun_prop
    simp only [one_div]; exact (diff_norm h1 (hd i)).fun_inv (norm_pos _ (hd i)).ne'
  refine ⟨differentiableAt_pi.2 fun i => ?_, differentiableAt_pi.2 fun i => ?_⟩
  · exact diff_inner ((hn i).fun_smul (centroidDash_diff (h i)).snd.fst) (hF i).snd.snd
  · exact diff_inner ((hn i).fun_smul (centroidDash_diff (h i)).fst) (hF i).snd.snd

/-! ### pull-backs of the frame quantities -/

variable {E : Type} [NormedAddCommGroup E] [NormedSpace ℝ E] {P : Pulls N E} {D0 D1 D2 D3 : E →L[ℝ] Fin N → V3} {DA DA1 : E →L[ℝ] Fin N → ℝ}
  {G0 G1 G2 G3 : E → Fin N → V3} {A A1 : E → Fin N → ℝ} {c : E}

/-- A pull-back `back` of the array `T` of quantities: `back v` is the gradient of `Σ v_i T_i` with respect to the dofs. -/
def IsPullback (back : (Fin N → ℝ) → E → ℝ) (T : E → Fin N → ℝ) (c : E) : Prop :=
  ∃ D : E →L[ℝ] Fin N → ℝ, HasFDerivAt T D c ∧ ∀ v e, back v e = ∑ i, v i * D e i

theorem pull6 {T : Quant6 N} (hT : DifferentiableAt ℝ (fun q : Args N => T q.1 q.2.1 q.2.2.1 q.2.2.2.1 q.2.2.2.2.1 q.2.2.2.2.2)
      (G0 c, G1 c, G2 c, G3 c, A c, A1 c)) (hP : PullsOf P D0 D1 D2 D3 DA DA1) (h0 : HasFDerivAt G0 D0 c) (h1 : HasFDerivAt G1 D1 c)
    (h2 : HasFDerivAt G2 D2 c) (h3 : HasFDerivAt G3 D3 c) (hA : HasFDerivAt A DA c) (hA1 : HasFDerivAt A1 DA1 c) :
    IsPullback (vjp6 T P (G0 c) (G1 c) (G2 c) (G3 c) (A c) (A1 c)) (fun c => T (G0 c) (G1 c) (G2 c) (G3 c) (A c) (A1 c)) c := by
  have hT' := hT.hasFDerivAt
  generalize hM : fderiv ℝ (fun q : Args N => T q.1 q.2.1 q.2.2.1 q.2.2.2.1 q.2.2.2.2.1 q.2.2.2.2.2) (G0 c, G1 c, G2 c, G3 c, A c, A1 c) = M at hT'
  have hc := HasFDerivAt.comp (g := fun q : Args N => T q.1 q.2.1 q.2.2.1 q.2.2.2.1 q.2.2.2.2.1 q.2.2.2.2.2)
    (f := fun c => (G0 c, G1 c, G2 c, G3 c, A c, A1 c)) c hT' (h0.prodMk (h1.prodMk (h2.prodMk (h3.prodMk (hA.prodMk hA1)))))
  refine ⟨M.comp (D0.prod (D1.prod (D2.prod (D3.prod (DA.prod DA1))))), hc, fun v e => ?_⟩
  let W : (Fin N → ℝ) →L[ℝ] ℝ := ∑ i, (v i) • (ContinuousLinearMap.proj i : (Fin N → ℝ) →L[ℝ] ℝ)
  have hW : ∀ u, W u = pairR v u := fun u => by
    simp only [W, pairR, _root_.sum_apply, _root_.smul_apply, ContinuousLinearMap.proj_apply, smul_eq_mul]
  have hΦ : HasFDerivAt (fun q : Args N => pairR v (T q.1 q.2.1 q.2.2.1 q.2.2.2.1 q.2.2.2.2.1 q.2.2.2.2.2)) (W.comp M) (G0 c, G1 c, G2 c, G3 c, A c, A1 c) := by
    have := HasFDerivAt.comp (g := W) (f := fun q : Args N => T q.1 q.2.1 q.2.2.1 q.2.2.2.1 q.2.2.2.2.1 q.2.2.2.2.2) (G0 c, G1 c, G2 c, G3 c, A c, A1 c) W.hasFDerivAt hT'
    refine this.congr_of_eventuallyEq (Filter.Eventually.of_forall fun q => ?_)
    exact (hW _).symm
  unfold vjp6
  simp only [hP.d0, hP.d1, hP.d2, hP.d3, hP.al, hP.ald, gradV_pair, gradR_pair]
  have ee : ∑ i, v i * (M.comp (D0.prod (D1.prod (D2.prod (D3.prod (DA.prod DA1)))))) e i = W.comp M (D0 e, D1 e, D2 e, D3 e, DA e, DA1 e) := (hW _).symm
  rw [ee, parts, ← part0 hΦ, ← part1 hΦ, ← part2 hΦ, ← part3 hΦ, ← part4 hΦ, ← part5 hΦ]

theorem pull5 {T : Quant5 N} (hT : DifferentiableAt ℝ (fun q : Args N => T q.1 q.2.1 q.2.2.1 q.2.2.2.2.1 q.2.2.2.2.2)
      (G0 c, G1 c, G2 c, G2 c, A c, A1 c)) (hP : PullsOf P D0 D1 D2 D3 DA DA1) (h0 : HasFDerivAt G0 D0 c) (h1 : HasFDerivAt G1 D1 c)
    (h2 : HasFDerivAt G2 D2 c) (hA : HasFDerivAt A DA c) (hA1 : HasFDerivAt A1 DA1 c) :
    IsPullback (vjp5 T P (G0 c) (G1 c) (G2 c) (A c) (A1 c)) (fun c => T (G0 c) (G1 c) (G2 c) (A c) (A1 c)) c := by
  let P' : Pulls N E := { P with d3 := fun u e => pair u (D2 e) }
  obtain ⟨D, hD, h⟩ := pull6 (T := fun g gd gdd _ a ad => T g gd gdd a ad) (P := P') (G3 := G2) (D3 := D2) hT ⟨hP.d0, hP.d1, hP.d2, fun _ _ => rfl, hP.al, hP.ald⟩ h0 h1 h2 h2 hA hA1
  refine ⟨D, hD, fun v e => ?_⟩
  rw [← h v e]
  unfold vjp6 vjp5
  have hz : P'.d3 (gradV (fun _ : Fin N → V3 => pairR v (T (G0 c) (G1 c) (G2 c) (A c) (A1 c))) (G2 c)) e = 0 := by
    show pair _ _ = 0
    rw [gradV_pair]; simp
  simp only [hz, add_zero]
  rfl

/-- **C137** `dframe_torsion_by_dcoeff_vjp` and `dframe_binormal_curvature_by_dcoeff_vjp` of a FramedCurveFrenet are the gradients of
    `Σ v·frame_torsion()` and `Σ v·frame_binormal_curvature()` with respect to all dofs. -/
theorem C137_frenet_pullback (hP : PullsOf P D0 D1 D2 D3 DA DA1) (h0 : HasFDerivAt G0 D0 c) (h1 : HasFDerivAt G1 D1 c)
    (h2 : HasFDerivAt G2 D2 c) (h3 : HasFDerivAt G3 D3 c) (hA : HasFDerivAt A DA c) (hA1 : HasFDerivAt A1 DA1 c) (hne : ∀ i, cross (G1 c i) (G2 c i) ≠ 0) :
    IsPullback (vjp6 frenetTorsion P (G0 c) (G1 c) (G2 c) (G3 c) (A c) (A1 c)) (fun c i => torsionFrenet i (G0 c) (G1 c) (G2 c) (G3 c) (A c) (A1 c)) c ∧
    IsPullback (vjp6 frenetBinormal P (G0 c) (G1 c) (G2 c) (G3 c) (A c) (A1 c)) (fun c i => binormalFrenet i (G0 c) (G1 c) (G2 c) (G3 c) (A c) (A1 c)) c :=
  ⟨pull6 (frenetTorsion_diff (p := (G0 c, G1 c, G2 c, G3 c, A c, A1 c)) hne).1 hP h0 h1 h2 h3 hA hA1,
   pull6 (frenetTorsion_diff (p := (G0 c, G1 c, G2 c, G3 c, A c, A1 c)) hne).2 hP h0 h1 h2 h3 hA hA1⟩

/-- **C137** ... and of a FramedCurveCentroid. -/
theorem C137_centroid_pullback (hP : PullsOf P D0 D1 D2 D3 DA DA1) (h0 : HasFDerivAt G0 D0 c) (h1 : HasFDerivAt G1 D1 c)
    (h2 : HasFDerivAt G2 D2 c) (hA : HasFDerivAt A DA c) (hA1 : HasFDerivAt A1 DA1 c) (hne : ∀ i, cross (G0 c i - Frames.mean (G0 c)) (G1 c i) ≠ 0) :
    IsPullback (vjp5 centroidTorsion P (G0 c) (G1 c) (G2 c) (A c) (A1 c)) (fun c i => torsionCentroid i (G0 c) (G1 c) (G2 c) (A c) (A1 c)) c ∧
    IsPullback (vjp5 centroidBinormal P (G0 c) (G1 c) (G2 c) (A c) (A1 c)) (fun c i => binormalCentroid i (G0 c) (G1 c) (G2 c) (A c) (A1 c)) c :=
  ⟨pull5 (centroidTorsion_diff (p := (G0 c, G1 c, G2 c, G2 c, A c, A1 c)) hne).1 hP h0 h1 h2 hA hA1,
   pull5 (centroidTorsion_diff (p := (G0 c, G1 c, G2 c, G2 c, A c, A1 c)) hne).2 hP h0 h1 h2 hA hA1⟩

/-! ### gradients of the penalties -/

theorem tor_slope (w p t : ℝ) (hp : 1 < p) (ht : 0 ≤ t) (x : ℝ) : HasDerivAt (fun x => max (|torstrain x w| - t) 0 ^ p)
    (p * max (|torstrain x w| - t) 0 ^ (p - 1) * Penalties.slope (|torstrain x w| - t) * Penalties.sign (torstrain x w) * (2 * x * w ^ 2 / 12)) x := by
  have h1 : HasDerivAt (fun x => torstrain x w) (2 * x * w ^ 2 / 12) x := by
    unfold torstrain
    exact ((((hasDerivAt_id' x).fun_pow 2).mul_const (w ^ 2)).div_const 12).congr_deriv (by simp)
  exact HasDerivAt.comp (h₂ := fun y : ℝ => max (|y| - t) 0 ^ p) x (Penalties.hasDerivAt_absMaxPow p t hp ht (torstrain x w)) h1

theorem bin_slope {w : ℝ} (hw : 0 ≤ w) (p t : ℝ) (hp : 1 < p) (ht : 0 ≤ t) (x : ℝ) : HasDerivAt (fun x => max (|binormstrain x w| - t) 0 ^ p)
    (p * max (|binormstrain x w| - t) 0 ^ (p - 1) * Penalties.slope (|binormstrain x w| - t) * Penalties.sign (binormstrain x w) * ((w / 2) * Penalties.sign x)) x := by
  have e : ∀ y, |binormstrain y w| = |w / 2 * y| := fun y => by
    unfold binormstrain; rw [abs_mul, abs_mul, abs_abs]
  have h1 : HasDerivAt (fun x => w / 2 * x) (w / 2) x := by simpa using (hasDerivAt_id' x).const_mul (w / 2)
  have h := HasDerivAt.comp (h₂ := fun y : ℝ => max (|y| - t) 0 ^ p) x (Penalties.hasDerivAt_absMaxPow p t hp ht (w / 2 * x)) h1
  simp only [e]
  refine h.congr_deriv ?_
  have hs : Penalties.sign (w / 2 * x) * (w / 2) = Penalties.sign (binormstrain x w) * (w / 2 * Penalties.sign x) := by
    rcases hw.eq_or_lt with rfl | hw
    · simp
    unfold binormstrain Penalties.sign
    rcases lt_trichotomy x 0 with hx | rfl | hx
    · have h1 : w / 2 * x < 0 := mul_neg_of_pos_of_neg (by positivity) hx
      have h2 : 0 < w / 2 * |x| := mul_pos (by positivity) (abs_pos.2 hx.ne)
      rw [if_neg h1.not_gt, if_pos h1, if_pos h2, if_neg hx.not_gt, if_pos hx]; ring
    · simp
    · have h1 : 0 < w / 2 * x := by positivity
      have h2 : 0 < w / 2 * |x| := mul_pos (by positivity) (abs_pos.2 hx.ne')
      rw [if_pos h1, if_pos h2, if_pos hx]; ring
  rw [mul_assoc, mul_assoc, mul_assoc, mul_assoc, hs]; ring

theorem pen_grad {φ dφ : ℝ → ℝ} (hφ : ∀ x, HasDerivAt φ (dφ x) x) {T : E → Fin N → ℝ} {D : E →L[ℝ] Fin N → ℝ} (hT : HasFDerivAt T D c)
    (h1 : HasFDerivAt G1 D1 c) (hne : ∀ i, G1 c i ≠ 0) (p : ℝ) :
    ∃ L : E →L[ℝ] ℝ, HasFDerivAt (fun c => (1 / p) * Penalties.mean fun i => φ (T c i) * Geometry.norm (G1 c i)) L c ∧
      ∀ e, L e = ∑ i, ((1 / p) * (1 / N) * dφ (T c i) * Geometry.norm (G1 c i)) * D e i +
        ∑ i, Geometry.inner (((1 / p) * (1 / N) * φ (T c i) / Geometry.norm (G1 c i)) • G1 c i) (D1 e i) := by
  have hTi : ∀ i, HasFDerivAt (fun c => T c i) ((ContinuousLinearMap.proj i).comp D) c := fun i => (hasFDerivAt_pi'.1 hT) i
  have hGi : ∀ i, HasFDerivAt (fun c => G1 c i) ((ContinuousLinearMap.proj i).comp D1) c := fun i => (hasFDerivAt_pi'.1 h1) i
  have hdi : ∀ i, DifferentiableAt ℝ (fun c => φ (T c i) * Geometry.norm (G1 c i)) c := fun i =>
    (((hφ (T c i)).comp_hasFDerivAt c (hTi i)).differentiableAt).fun_mul (diff_norm (hGi i).differentiableAt (hne i))
  have hd : DifferentiableAt ℝ (fun c => (1 / p) * Penalties.mean fun i => φ (T c i) * Geometry.norm (G1 c i)) c := by
    unfold Penalties.mean
    simp only [div_eq_mul_inv]
    exact (DifferentiableAt.mul_const (DifferentiableAt.fun_sum fun i _ => hdi i) _).const_mul _
  refine ⟨_, hd.hasFDerivAt, fun e => ?_⟩
  -- the derivative along a line
  have hline : HasDerivAt (fun s : ℝ => c + s • e) e 0 := by
    simpa using ((hasDerivAt_id' (0 : ℝ)).smul_const e).const_add c
  have e0 : c + (0 : ℝ) • e = c := by simp
  have hL := HasFDerivAt.comp_hasDerivAt (f := fun s : ℝ => c + s • e) (0 : ℝ) (by rw [e0]; exact hd.hasFDerivAt) hline
  have hT0 : ∀ i, HasDerivAt (fun s : ℝ => T (c + s • e) i) (D e i) 0 := fun i =>
    HasFDerivAt.comp_hasDerivAt (l := fun c => T c i) (l' := (ContinuousLinearMap.proj i).comp D) (f := fun s : ℝ => c + s • e) (0 : ℝ) (by rw [e0]; exact hTi i) hline
  have hG0 : ∀ i, HasDerivAt (fun s : ℝ => G1 (c + s • e) i) (D1 e i) 0 := fun i =>
    HasFDerivAt.comp_hasDerivAt (l := fun c => G1 c i) (l' := (ContinuousLinearMap.proj i).comp D1) (f := fun s : ℝ => c + s • e) (0 : ℝ) (by rw [e0]; exact hGi i) hline
  have hφT : ∀ i, HasDerivAt (fun s : ℝ => φ (T (c + s • e) i)) (dφ (T c i) * D e i) 0 := fun i => by
    have := HasDerivAt.comp (h₂ := φ) (0 : ℝ) (by rw [e0]; exact hφ (T c i)) (hT0 i)
    exact this
  have hR := (Penalties.hasDerivAt_mean fun i => (hφT i).fun_mul (Geometry.d_norm (hG0 i) (by rw [e0]; exact hne i))).const_mul (1 / p)
  have hu := hL.unique hR
  rw [hu]
  simp only [zero_smul, add_zero, Penalties.mean]
  rw [← Finset.sum_add_distrib, Finset.sum_div, Finset.mul_sum]
  refine Finset.sum_congr rfl fun i _ => ?_
  rw [Frames.inner_smul_left]
  ring

/-- **C137** `dJ` of `LPTorsionalStrainPenalty` is the gradient of `J` with respect to all dofs, for every exponent `p > 1` and threshold `≥ 0`, given that
    the pull-back of the frame torsion is one. -/
theorem C137_torsional_gradient {back : (Fin N → ℝ) → E → ℝ} {T : E → Fin N → ℝ} (hb : IsPullback back T c) (hP : ∀ u e, P.d1 u e = pair u (D1 e))
    (h1 : HasFDerivAt G1 D1 c) (hne : ∀ i, G1 c i ≠ 0) (width : ℝ) {p threshold : ℝ} (hp : 1 < p) (ht : 0 ≤ threshold) :
    ∃ L : E →L[ℝ] ℝ, HasFDerivAt (fun c => torJ (T c) (G1 c) width p threshold) L c ∧ ∀ e, L e = torDJ back P (T c) (G1 c) width p threshold e := by
  obtain ⟨D, hD, hv⟩ := hb
  obtain ⟨L, hL, he⟩ := pen_grad (tor_slope width p threshold hp ht) hD h1 hne p
  refine ⟨L, hL, fun e => ?_⟩
  rw [he e]
  unfold torDJ
  simp only [hv, hP, pair]
  congr 1
  refine Finset.sum_congr rfl fun i _ => ?_
  simp only [torstrainVjp, Penalties.lpTorsionGrad0]
  ring

/-- **C137** The same for `LPBinormalCurvatureStrainPenalty`, also at points where the binormal curvature vanishes. -/
theorem C137_binormal_gradient {back : (Fin N → ℝ) → E → ℝ} {T : E → Fin N → ℝ} (hb : IsPullback back T c) (hP : ∀ u e, P.d1 u e = pair u (D1 e))
    (h1 : HasFDerivAt G1 D1 c) (hne : ∀ i, G1 c i ≠ 0) {width p threshold : ℝ} (hw : 0 ≤ width) (hp : 1 < p) (ht : 0 ≤ threshold) :
    ∃ L : E →L[ℝ] ℝ, HasFDerivAt (fun c => binormJ (T c) (G1 c) width p threshold) L c ∧ ∀ e, L e = binormDJ back P (T c) (G1 c) width p threshold e := by
  obtain ⟨D, hD, hv⟩ := hb
  obtain ⟨L, hL, he⟩ := pen_grad (bin_slope hw p threshold hp ht) hD h1 hne p
  refine ⟨L, hL, fun e => ?_⟩
  rw [he e]
  unfold binormDJ
  simp only [hv, hP, pair]
  congr 1
  refine Finset.sum_congr rfl fun i _ => ?_
  simp only [binormstrainVjp, Penalties.lpTorsionGrad0]
  ring

/-! ### the two kinds of tape -/

/-- **C137** In a Frenet frame turned by `alpha` the bending strain is `w |κ sin α| / 2`: winding the tape along the normal has no binormal strain, and
    the penalty then is zero for every nonnegative threshold. -/
theorem C137_frenet_no_bend (g gd gdd gddd : Fin N → V3) (ad : Fin N → ℝ) (hne : ∀ i, cross (gd i) (gdd i) ≠ 0) {width p threshold : ℝ} (hw : 0 ≤ width)
    (hp : 0 < p) (ht : 0 ≤ threshold) : binormJ (frenetBinormal g gd gdd gddd (fun _ => 0) ad) gd width p threshold = 0 := by
  rw [((C137_zero_iff _ gd hw hp threshold fun i => ne_of_cross' (hne i)).2).2]
  intro i
  have := (C135_frenet_torsion (i := i) g gd gdd gddd (fun _ => 0) ad (hne i)).2
  simp only [frenetBinormal, this, Real.sin_zero, mul_zero, abs_zero, zero_div]
  exact ht

end Simsopt.Strain
