import Verif.Frames.DashVjp
import Verif.Frames.Torsion
/-!
# Framed curves: the hypotheses are met, and the condition on the mean is needed
-/
namespace Simsopt.Frames
open Simsopt Simsopt.Coils

/-! ### A circle, sampled at two opposite points -/

/-- the unit circle and its derivatives with respect to the angle -/
noncomputable def circ (s : ℝ) : V3 := (Real.cos s, Real.sin s, 0)
noncomputable def circ1 (s : ℝ) : V3 := (-Real.sin s, Real.cos s, 0)
noncomputable def circ2 (s : ℝ) : V3 := (-Real.cos s, -Real.sin s, 0)

theorem circ_deriv (s : ℝ) : HasDerivAt circ (circ1 s) s ∧ HasDerivAt circ1 (circ2 s) s :=
  ⟨(Real.hasDerivAt_cos s).prodMk ((Real.hasDerivAt_sin s).prodMk (hasDerivAt_const _ _)),
   (Real.hasDerivAt_sin s).neg.prodMk ((Real.hasDerivAt_cos s).prodMk (hasDerivAt_const _ _))⟩

/-- the hypotheses of the theorems on the frames, their derivatives and the filaments hold at every sample -/
theorem circ_hyps : (∑ j, circ1 ((![0, Real.pi] : Fin 2 → ℝ) j) = 0) ∧
    ∀ i, cross (circ ((![0, Real.pi] : Fin 2 → ℝ) i) - mean (circ ∘ ![0, Real.pi])) (circ1 ((![0, Real.pi] : Fin 2 → ℝ) i)) ≠ 0 ∧
      cross (circ1 ((![0, Real.pi] : Fin 2 → ℝ) i)) (circ2 ((![0, Real.pi] : Fin 2 → ℝ) i)) ≠ 0 := by
  have hm : mean (circ ∘ (![0, Real.pi] : Fin 2 → ℝ)) = 0 := by
    unfold mean
    simp [Fin.sum_univ_two, circ]
  rw [hm]
  refine ⟨by simp [Fin.sum_univ_two, circ1], fun i => ?_⟩
  fin_cases i <;> simp [circ, circ1, circ2, cross]

example (dn db : ℝ) : HasDerivAt (fun s => filament dn db (circ s) (rotate s (Geometry.tangent (circ1 s)) (centroidNormal (circ s - mean (circ ∘ ![0, Real.pi]))
      (Geometry.tangent (circ1 s)))))
    (filament dn db ((circ1 ∘ ![0, Real.pi]) 0) (centroidFrameDash 0 (circ ∘ ![0, Real.pi]) (circ1 ∘ ![0, Real.pi]) (circ2 ∘ ![0, Real.pi])
      ((fun s => s) ∘ ![0, Real.pi]) ((fun _ => 1) ∘ ![0, Real.pi]))) ((![0, Real.pi] : Fin 2 → ℝ) 0) :=
  C136_centroid_gammadash dn db _ (circ_deriv _).1 (circ_deriv _).2 (hasDerivAt_id _) circ_hyps.1 (circ_hyps.2 0).1

example : torsionFrenet 0 (circ ∘ ![0, Real.pi]) (circ1 ∘ ![0, Real.pi]) (circ2 ∘ ![0, Real.pi]) (fun _ => (0, -1, 0)) (fun _ => 0) (fun _ => 1) =
    Geometry.torsion (circ1 0) (circ2 0) (0, -1, 0) - 1 / Geometry.norm (circ1 0) :=
  (C135_frenet_torsion _ _ _ _ _ _ (circ_hyps.2 0).2).1

/-- Filaments around a circle of radius `c` whose rotation angle is `c` too: the pull-backs of such a curve exist. -/
example (dn db : ℝ) (v : Fin 2 → V3) : ∃ (P : Pulls 2 ℝ) (D0 D1 D2 : ℝ →L[ℝ] Fin 2 → V3) (DA : ℝ →L[ℝ] Fin 2 → ℝ), PullsOf P D0 D1 D2 0 DA 0 ∧
    HasFDerivAt (fun c : ℝ => c • (circ ∘ (![0, Real.pi] : Fin 2 → ℝ))) D0 1 ∧ HasFDerivAt (fun c : ℝ => c • (circ1 ∘ (![0, Real.pi] : Fin 2 → ℝ))) D1 1 ∧
    HasFDerivAt (fun c : ℝ => c • (circ2 ∘ (![0, Real.pi] : Fin 2 → ℝ))) D2 1 ∧ HasFDerivAt (fun c : ℝ => fun _ : Fin 2 => c) DA 1 ∧
    ∀ i, cross (((1 : ℝ) • (circ1 ∘ (![0, Real.pi] : Fin 2 → ℝ))) i) (((1 : ℝ) • (circ2 ∘ (![0, Real.pi] : Fin 2 → ℝ))) i) ≠ 0 := by
  have hs : ∀ w : Fin 2 → V3, HasFDerivAt (fun c : ℝ => c • w) ((ContinuousLinearMap.id ℝ ℝ).smulRight w) 1 := fun w =>
    ((ContinuousLinearMap.id ℝ ℝ).smulRight w).hasFDerivAt
  refine ⟨⟨fun u e => pair u (((ContinuousLinearMap.id ℝ ℝ).smulRight (circ ∘ (![0, Real.pi] : Fin 2 → ℝ))) e),
    fun u e => pair u (((ContinuousLinearMap.id ℝ ℝ).smulRight (circ1 ∘ (![0, Real.pi] : Fin 2 → ℝ))) e),
    fun u e => pair u (((ContinuousLinearMap.id ℝ ℝ).smulRight (circ2 ∘ (![0, Real.pi] : Fin 2 → ℝ))) e), fun u e => pair u ((0 : ℝ →L[ℝ] Fin 2 → V3) e),
    fun u e => pairR u ((ContinuousLinearMap.pi fun _ => ContinuousLinearMap.id ℝ ℝ : ℝ →L[ℝ] Fin 2 → ℝ) e), fun u e => pairR u ((0 : ℝ →L[ℝ] Fin 2 → ℝ) e)⟩, _, _, _, _,
    ⟨fun _ _ => rfl, fun _ _ => rfl, fun _ _ => rfl, fun _ _ => rfl, fun _ _ => rfl, fun _ _ => rfl⟩, hs _, hs _, hs _,
    (ContinuousLinearMap.pi fun _ => ContinuousLinearMap.id ℝ ℝ : ℝ →L[ℝ] Fin 2 → ℝ).hasFDerivAt, fun i => ?_⟩
  simp only [one_smul]
  exact (circ_hyps.2 i).2

/-! ### The condition on the mean -/

/-- a space curve, and its first two derivatives -/
noncomputable def tilt (s : ℝ) : V3 := (1 - 6 * s ^ 2 + 4 * s ^ 3, s - s ^ 2, 2 * s ^ 3 - 2 * s ^ 2)
noncomputable def tilt1 (s : ℝ) : V3 := (-12 * s + 12 * s ^ 2, 1 - 2 * s, 6 * s ^ 2 - 4 * s)
noncomputable def tilt2 (s : ℝ) : V3 := (-12 + 24 * s, -2, 12 * s - 4)

theorem tilt_deriv (s : ℝ) : HasDerivAt tilt (tilt1 s) s ∧ HasDerivAt tilt1 (tilt2 s) s := by
  have h1 := hasDerivAt_id' s
  have h2 := h1.fun_pow 2
  have h3 := h1.fun_pow 3
  refine ⟨HasDerivAt.prodMk ?_ (HasDerivAt.prodMk ?_ ?_), HasDerivAt.prodMk ?_ (HasDerivAt.prodMk ?_ ?_)⟩
  · exact (((hasDerivAt_const s (1 : ℝ)).fun_sub (h2.const_mul 6)).fun_add (h3.const_mul 4)).congr_deriv (by simp; ring)
  · exact (h1.fun_sub h2).congr_deriv (by simp)
  · exact ((h3.const_mul 2).fun_sub (h2.const_mul 2)).congr_deriv (by simp; ring)
  · exact ((h1.const_mul (-12)).fun_add (h2.const_mul 12)).congr_deriv (by simp; ring)
  · exact ((hasDerivAt_const s (1 : ℝ)).fun_sub (h1.const_mul 2)).congr_deriv (by simp)
  · exact ((h2.const_mul 6).fun_sub (h1.const_mul 4)).congr_deriv (by simp; ring)

/-- **C135** The condition on the mean is needed: on a curve whose sampled tangent vectors have a nonzero mean, `rotated_centroid_frame_dash` is not
    the derivative of the frame along the curve. -/
theorem C135_mean_needed : ¬ HasDerivAt (fun s => rotate 0 (Geometry.tangent (tilt1 s)) (centroidNormal (tilt s - mean (tilt ∘ ![0, 1])) (Geometry.tangent (tilt1 s))))
    (centroidFrameDash 0 (tilt ∘ ![0, 1]) (tilt1 ∘ ![0, 1]) (tilt2 ∘ ![0, 1]) (fun _ : Fin 2 => 0) (fun _ => 0)) ((![0, 1] : Fin 2 → ℝ) 0) := by
  intro hcode
  have hm : mean (tilt ∘ (![0, 1] : Fin 2 → ℝ)) = 0 := by
    unfold mean
    simp only [Fin.sum_univ_two, Function.comp, Matrix.cons_val_zero, Matrix.cons_val_one, tilt]
    ext <;> simp <;> norm_num
  have hm1 : mean (tilt1 ∘ (![0, 1] : Fin 2 → ℝ)) = (0, 0, 1) := by
    unfold mean
    simp only [Fin.sum_univ_two, Function.comp, Matrix.cons_val_zero, Matrix.cons_val_one, tilt1]
    ext <;> simp <;> norm_num
  have hp : cross ((1, 0, 0) : V3) (0, 1, 0) ≠ 0 := by simp [cross]
  have e0 : tilt 0 = (1, 0, 0) := by simp [tilt]
  have e1 : tilt1 0 = (0, 1, 0) := by simp [tilt1]
  have hf := (centroidAt_diff (p := ((1, 0, 0), (0, 1, 0), (0 : ℝ))) hp).hasFDerivAt
  -- the true derivative
  have htrue : HasDerivAt (fun s => rotate 0 (Geometry.tangent (tilt1 s)) (centroidNormal (tilt s - mean (tilt ∘ ![0, 1])) (Geometry.tangent (tilt1 s))))
      (fderiv ℝ centroidAt ((1, 0, 0), (0, 1, 0), 0) (tilt1 0, tilt2 0, 0)) 0 := by
    rw [hm]
    simp only [sub_zero]
    refine HasFDerivAt.comp_hasDerivAt (l := centroidAt) (f := fun s : ℝ => ((tilt s, tilt1 s, (0 : ℝ)) : V3 × V3 × ℝ)) (l' := fderiv ℝ centroidAt ((1, 0, 0), (0, 1, 0), 0)) (0 : ℝ) ?_ ((tilt_deriv 0).1.prodMk ((tilt_deriv 0).2.prodMk (hasDerivAt_const _ _)))
    rw [e0, e1]; exact hf
  have hu := htrue.unique hcode
  have ec : centroidFrameDash 0 (tilt ∘ ![0, 1]) (tilt1 ∘ ![0, 1]) (tilt2 ∘ ![0, 1]) (fun _ : Fin 2 => 0) (fun _ => 0) =
      fderiv ℝ centroidAt ((1, 0, 0), (0, 1, 0), 0) (tilt1 0 - (0, 0, 1), tilt2 0, 0) := by
    unfold centroidFrameDash
    rw [centroid_jvp (by simp only [hm, Function.comp, Matrix.cons_val_zero, sub_zero, e0, e1]; exact hp)]
    simp only [hm, hm1, Function.comp, Matrix.cons_val_zero, sub_zero, e0, e1]
  rw [ec] at hu
  -- so the derivative in the direction of the mean would vanish
  have hz : fderiv ℝ centroidAt (((1, 0, 0), (0, 1, 0), 0) : V3 × V3 × ℝ) ((0, 0, 1), 0, 0) = 0 := by
    have : (((0, 0, 1), 0, 0) : V3 × V3 × ℝ) = (tilt1 0, tilt2 0, 0) - (tilt1 0 - (0, 0, 1), tilt2 0, 0) := by simp
    rw [this, map_sub, hu, sub_self]
  have hl : HasDerivAt (fun s : ℝ => centroidAt ((1, 0, s), (0, 1, 0), 0)) (fderiv ℝ centroidAt (((1, 0, 0), (0, 1, 0), 0) : V3 × V3 × ℝ) ((0, 0, 1), 0, 0)) 0 := by
    refine HasFDerivAt.comp_hasDerivAt (f := fun s : ℝ => (((1, 0, s), (0, 1, 0), 0) : V3 × V3 × ℝ)) (0 : ℝ) hf ?_
    exact ((hasDerivAt_const _ _).prodMk ((hasDerivAt_const _ _).prodMk (hasDerivAt_id _))).prodMk (hasDerivAt_const _ _)
  rw [hz] at hl
  have hn : HasDerivAt (fun s : ℝ => (centroidAt ((1, 0, s), (0, 1, 0), 0)).2.1.2.2) 0 0 := hl.snd.fst.snd.snd
  have ef : (fun s : ℝ => (centroidAt ((1, 0, s), (0, 1, 0), 0)).2.1.2.2) = fun s => (Real.sqrt (1 + s * s))⁻¹ * s := by
    funext s
    simp [centroidAt, rotate, centroidNormal, Geometry.inner, Geometry.norm]
  rw [ef] at hn
  have hs : HasDerivAt (fun s : ℝ => 1 + s * s) (0 + (1 * 0 + 0 * 1)) (0 : ℝ) := (hasDerivAt_const _ _).fun_add ((hasDerivAt_id' (0 : ℝ)).fun_mul (hasDerivAt_id' 0))
  have hr : HasDerivAt (fun s : ℝ => (Real.sqrt (1 + s * s))⁻¹ * s) 1 0 := by
    refine (((hs.sqrt (by norm_num)).fun_inv (by norm_num)).fun_mul (hasDerivAt_id' (0 : ℝ))).congr_deriv ?_
    norm_num
  have := hr.unique hn
  norm_num at this

end Simsopt.Frames
