import Verif.Frames.Filament
import Mathlib.Analysis.SpecialFunctions.Trigonometric.Deriv
import Mathlib.Analysis.SpecialFunctions.Sqrt
import Mathlib.Analysis.Calculus.ContDiff.Comp
/-!
# C136: gradients of the tangent vectors of filaments
-/
namespace Simsopt.Frames
open Simsopt Simsopt.Coils
open Simsopt.Geometry (norm_pos norm_sq norm_eq inner_self_pos)

section smooth
variable {E : Type*} [NormedAddCommGroup E] [NormedSpace ℝ E] {f g : E → V3} {r : E → ℝ} {p : E}

theorem cd_inner (hf : ContDiffAt ℝ 2 f p) (hg : ContDiffAt ℝ 2 g p) : ContDiffAt ℝ 2 (fun e => Geometry.inner (f e) (g e)) p := by
  unfold Geometry.inner; fun_prop
theorem cd_cross (hf : ContDiffAt ℝ 2 f p) (hg : ContDiffAt ℝ 2 g p) : ContDiffAt ℝ 2 (fun e => cross (f e) (g e)) p := by
  unfold cross; fun_prop
theorem cd_norm (hf : ContDiffAt ℝ 2 f p) (h0 : f p ≠ 0) : ContDiffAt ℝ 2 (fun e => Geometry.norm (f e)) p :=
  (cd_inner hf hf).sqrt (inner_self_pos _ h0).ne'
theorem cd_inv (hf : ContDiffAt ℝ 2 f p) (h0 : f p ≠ 0) : ContDiffAt ℝ 2 (fun e => 1 / Geometry.norm (f e)) p := by
  simp only [one_div]; exact (cd_norm hf h0).fun_inv (norm_pos _ h0).ne'
theorem cd_unit (hf : ContDiffAt ℝ 2 f p) (h0 : f p ≠ 0) : ContDiffAt ℝ 2 (fun e => (1 / Geometry.norm (f e)) • f e) p := (cd_inv hf h0).smul hf
theorem cd_rotate (hr : ContDiffAt ℝ 2 r p) (hf : ContDiffAt ℝ 2 f p) (hg : ContDiffAt ℝ 2 g p) : ContDiffAt ℝ 2 (fun e => rotate (r e) (f e) (g e)) p := by
  have hc := cd_cross hf hg
  have h1 := hr.cos
  have h2 := hr.sin
  unfold rotate
  exact hf.prodMk (((h1.smul hg).sub (h2.smul hc)).prodMk ((h2.smul hg).add (h1.smul hc)))
theorem cd_centroidNormal (hf : ContDiffAt ℝ 2 f p) (hg : ContDiffAt ℝ 2 g p) (h : f p - Geometry.inner (f p) (g p) • g p ≠ 0) :
    ContDiffAt ℝ 2 (fun e => centroidNormal (f e) (g e)) p :=
  cd_unit (f := fun e => f e - Geometry.inner (f e) (g e) • g e) (hf.sub ((cd_inner hf hg).smul hg)) h
theorem cd_tdash (hf : ContDiffAt ℝ 2 f p) (hg : ContDiffAt ℝ 2 g p) (h : f p ≠ 0) : ContDiffAt ℝ 2 (fun e => tdash (f e) (g e)) p := by
  have hn := cd_norm hf h
  have h0 := (norm_pos _ h).ne'
  have h1 := cd_inv hf h
  have h2 : ContDiffAt ℝ 2 (fun e => Geometry.inner (f e) (g e) / Geometry.norm (f e)) p := by
    simp only [div_eq_mul_inv]; exact (cd_inner hf hg).mul (hn.fun_inv h0)
  exact (h1.pow 2).smul ((hn.smul hg).sub (h2.smul hf))

theorem frenetAt_cd {p : V3 × V3 × ℝ} (h : cross p.1 p.2.1 ≠ 0) : ContDiffAt ℝ 2 frenetAt p := by
  have hd := ne_of_cross' h
  have h1 : ContDiffAt ℝ 2 (fun q : V3 × V3 × ℝ => q.1) p := by fun_prop
  have h2 : ContDiffAt ℝ 2 (fun q : V3 × V3 × ℝ => q.2.1) p := by fun_prop
  have h3 : ContDiffAt ℝ 2 (fun q : V3 × V3 × ℝ => q.2.2) p := by fun_prop
  have htd : tdash p.1 p.2.1 ≠ 0 := Geometry.tdash_ne _ _ h
  exact cd_rotate h3 (cd_unit h1 hd) (cd_unit (cd_tdash h1 h2 hd) htd)

theorem centroidAt_cd {p : V3 × V3 × ℝ} (h : cross p.1 p.2.1 ≠ 0) : ContDiffAt ℝ 2 centroidAt p := by
  have hd := ne_of_cross h
  have h1 : ContDiffAt ℝ 2 (fun q : V3 × V3 × ℝ => q.2.1) p := by fun_prop
  have h2 : ContDiffAt ℝ 2 (fun q : V3 × V3 × ℝ => q.1) p := by fun_prop
  have h3 : ContDiffAt ℝ 2 (fun q : V3 × V3 × ℝ => q.2.2) p := by fun_prop
  have ht := cd_unit h1 hd
  exact cd_rotate h3 ht (cd_centroidNormal h2 ht (orth_ne h _ rfl))

/-- a derivative applied to a vector, both depending on a parameter -/
theorem diff_fderiv {H : V3 × V3 × ℝ → Frame} {x w : E → V3 × V3 × ℝ} (hH : ContDiffAt ℝ 2 H (x p)) (hx : DifferentiableAt ℝ x p) (hw : DifferentiableAt ℝ w p) :
    DifferentiableAt ℝ (fun e => fderiv ℝ H (x e) (w e)) p := by
  have h1 : ContDiffAt ℝ 1 (fderiv ℝ H) (x p) := hH.fderiv_right (by norm_num)
  have h2 : DifferentiableAt ℝ (fun e => fderiv ℝ H (x e)) p := DifferentiableAt.comp p (h1.differentiableAt (by norm_num)) hx
  exact h2.clm_apply hw

theorem cont_cross {f g : E → V3} (hf : ContinuousAt f p) (hg : ContinuousAt g p) : ContinuousAt (fun e => cross (f e) (g e)) p := by
  unfold cross; fun_prop
end smooth

variable {N : ℕ} {i : Fin N}

/-- the arguments of the frame derivative -/
abbrev Args (N : ℕ) := (Fin N → V3) × (Fin N → V3) × (Fin N → V3) × (Fin N → V3) × (Fin N → ℝ) × (Fin N → ℝ)

theorem frenetDash_diff {p : Args N} (h : cross (p.2.1 i) (p.2.2.1 i) ≠ 0) :
    DifferentiableAt ℝ (fun q : Args N => frenetFrameDash i q.1 q.2.1 q.2.2.1 q.2.2.2.1 q.2.2.2.2.1 q.2.2.2.2.2) p := by
  have hx : DifferentiableAt ℝ (fun q : Args N => (q.2.1 i, q.2.2.1 i, q.2.2.2.2.1 i)) p := by fun_prop
  have hw : DifferentiableAt ℝ (fun q : Args N => (q.2.2.1 i, q.2.2.2.1 i, q.2.2.2.2.2 i)) p := by fun_prop
  refine (diff_fderiv (H := frenetAt) (x := fun q : Args N => (q.2.1 i, q.2.2.1 i, q.2.2.2.2.1 i)) (frenetAt_cd (p := (p.2.1 i, p.2.2.1 i, p.2.2.2.2.1 i)) h) hx hw).congr_of_eventuallyEq ?_
  have hc : ContinuousAt (fun q : Args N => cross (q.2.1 i) (q.2.2.1 i)) p := cont_cross (by fun_prop) (by fun_prop)
  filter_upwards [hc.eventually_ne h] with q hq
  unfold frenetFrameDash
  rw [frenet_jvp (by exact hq)]

theorem centroidDash_diff {p : Args N} (h : cross (p.1 i - mean p.1) (p.2.1 i) ≠ 0) :
    DifferentiableAt ℝ (fun q : Args N => centroidFrameDash i q.1 q.2.1 q.2.2.1 q.2.2.2.2.1 q.2.2.2.2.2) p := by
  have hm : Differentiable ℝ (fun g : Fin N → V3 => mean g) := diff_mean
  have hm0 : DifferentiableAt ℝ (fun q : Args N => mean q.1) p := by unfold mean; fun_prop
  have hm1 : DifferentiableAt ℝ (fun q : Args N => mean q.2.1) p := by unfold mean; fun_prop
  have hx : DifferentiableAt ℝ (fun q : Args N => (q.1 i - mean q.1, q.2.1 i, q.2.2.2.2.1 i)) p := by fun_prop
  have hw : DifferentiableAt ℝ (fun q : Args N => (q.2.1 i - mean q.2.1, q.2.2.1 i, q.2.2.2.2.2 i)) p := by fun_prop
  refine (diff_fderiv (H := centroidAt) (x := fun q : Args N => (q.1 i - mean q.1, q.2.1 i, q.2.2.2.2.1 i)) (centroidAt_cd (p := (p.1 i - mean p.1, p.2.1 i, p.2.2.2.2.1 i)) h) hx hw).congr_of_eventuallyEq ?_
  have hc0 : ContinuousAt (fun q : Args N => q.1 i - mean q.1) p := by
    have h1 : ContinuousAt (fun q : Args N => q.1 i) p := by fun_prop
    exact h1.sub hm0.continuousAt
  have hc : ContinuousAt (fun q : Args N => cross (q.1 i - mean q.1) (q.2.1 i)) p := cont_cross hc0 (by fun_prop)
  filter_upwards [hc.eventually_ne h] with q hq
  unfold centroidFrameDash
  rw [centroid_jvp (by exact hq)]

section partials
variable {Φ : Args N → ℝ} {M : Args N →L[ℝ] ℝ} {x0 x1 x2 x3 : Fin N → V3} {a a1 : Fin N → ℝ}

theorem part0 (h : HasFDerivAt Φ M (x0, x1, x2, x3, a, a1)) (δ : Fin N → V3) : fderiv ℝ (fun y => Φ (y, x1, x2, x3, a, a1)) x0 δ = M (δ, 0, 0, 0, 0, 0) := by
  have hp := HasFDerivAt.comp (g := Φ) (f := fun y => (y, x1, x2, x3, a, a1)) x0 h ((hasFDerivAt_id x0).prodMk (hasFDerivAt_const _ _))
  have := hp.fderiv
  rw [show (fun y => Φ (y, x1, x2, x3, a, a1)) = Φ ∘ fun y => (y, x1, x2, x3, a, a1) from rfl, this]; rfl
theorem part1 (h : HasFDerivAt Φ M (x0, x1, x2, x3, a, a1)) (δ : Fin N → V3) : fderiv ℝ (fun y => Φ (x0, y, x2, x3, a, a1)) x1 δ = M (0, δ, 0, 0, 0, 0) := by
  have hp := HasFDerivAt.comp (g := Φ) (f := fun y => (x0, y, x2, x3, a, a1)) x1 h
    ((hasFDerivAt_const _ _).prodMk ((hasFDerivAt_id x1).prodMk (hasFDerivAt_const _ _)))
  have := hp.fderiv
  rw [show (fun y => Φ (x0, y, x2, x3, a, a1)) = Φ ∘ fun y => (x0, y, x2, x3, a, a1) from rfl, this]; rfl
theorem part2 (h : HasFDerivAt Φ M (x0, x1, x2, x3, a, a1)) (δ : Fin N → V3) : fderiv ℝ (fun y => Φ (x0, x1, y, x3, a, a1)) x2 δ = M (0, 0, δ, 0, 0, 0) := by
  have hp := HasFDerivAt.comp (g := Φ) (f := fun y => (x0, x1, y, x3, a, a1)) x2 h
    ((hasFDerivAt_const _ _).prodMk ((hasFDerivAt_const _ _).prodMk ((hasFDerivAt_id x2).prodMk (hasFDerivAt_const _ _))))
  have := hp.fderiv
  rw [show (fun y => Φ (x0, x1, y, x3, a, a1)) = Φ ∘ fun y => (x0, x1, y, x3, a, a1) from rfl, this]; rfl
theorem part3 (h : HasFDerivAt Φ M (x0, x1, x2, x3, a, a1)) (δ : Fin N → V3) : fderiv ℝ (fun y => Φ (x0, x1, x2, y, a, a1)) x3 δ = M (0, 0, 0, δ, 0, 0) := by
  have hp := HasFDerivAt.comp (g := Φ) (f := fun y => (x0, x1, x2, y, a, a1)) x3 h
    ((hasFDerivAt_const _ _).prodMk ((hasFDerivAt_const _ _).prodMk ((hasFDerivAt_const _ _).prodMk ((hasFDerivAt_id x3).prodMk (hasFDerivAt_const _ _)))))
  have := hp.fderiv
  rw [show (fun y => Φ (x0, x1, x2, y, a, a1)) = Φ ∘ fun y => (x0, x1, x2, y, a, a1) from rfl, this]; rfl
theorem part4 (h : HasFDerivAt Φ M (x0, x1, x2, x3, a, a1)) (δ : Fin N → ℝ) : fderiv ℝ (fun y => Φ (x0, x1, x2, x3, y, a1)) a δ = M (0, 0, 0, 0, δ, 0) := by
  have hp := HasFDerivAt.comp (g := Φ) (f := fun y => (x0, x1, x2, x3, y, a1)) a h
    ((hasFDerivAt_const _ _).prodMk ((hasFDerivAt_const _ _).prodMk ((hasFDerivAt_const _ _).prodMk ((hasFDerivAt_const _ _).prodMk
      ((hasFDerivAt_id a).prodMk (hasFDerivAt_const _ _))))))
  have := hp.fderiv
  rw [show (fun y => Φ (x0, x1, x2, x3, y, a1)) = Φ ∘ fun y => (x0, x1, x2, x3, y, a1) from rfl, this]; rfl
theorem part5 (h : HasFDerivAt Φ M (x0, x1, x2, x3, a, a1)) (δ : Fin N → ℝ) : fderiv ℝ (fun y => Φ (x0, x1, x2, x3, a, y)) a1 δ = M (0, 0, 0, 0, 0, δ) := by
  have hp := HasFDerivAt.comp (g := Φ) (f := fun y => (x0, x1, x2, x3, a, y)) a1 h
    ((hasFDerivAt_const _ _).prodMk ((hasFDerivAt_const _ _).prodMk ((hasFDerivAt_const _ _).prodMk ((hasFDerivAt_const _ _).prodMk
      ((hasFDerivAt_const _ _).prodMk (hasFDerivAt_id a1))))))
  have := hp.fderiv
  rw [show (fun y => Φ (x0, x1, x2, x3, a, y)) = Φ ∘ fun y => (x0, x1, x2, x3, a, y) from rfl, this]; rfl
theorem parts (d0 d1 d2 d3 : Fin N → V3) (da da1 : Fin N → ℝ) : M (d0, d1, d2, d3, da, da1) =
    M (d0, 0, 0, 0, 0, 0) + M (0, d1, 0, 0, 0, 0) + M (0, 0, d2, 0, 0, 0) + M (0, 0, 0, d3, 0, 0) + M (0, 0, 0, 0, da, 0) + M (0, 0, 0, 0, 0, da1) := by
  rw [← map_add, ← map_add, ← map_add, ← map_add, ← map_add]; simp
end partials

variable {E : Type} [NormedAddCommGroup E] [NormedSpace ℝ E] {P : Pulls N E} {D0 D1 D2 D3 : E →L[ℝ] Fin N → V3} {DA DA1 : E →L[ℝ] Fin N → ℝ}
  {G0 G1 G2 G3 : E → Fin N → V3} {A A1 : E → Fin N → ℝ} {c : E}

/-- **C136** `dgammadash_by_dcoeff_vjp(v)` of a filament in a Frenet frame is the gradient of `Σ v·gammadash` with respect to all dofs. -/
theorem C136_frenet_dash_vjp (dn db : ℝ) (v : Fin N → V3) (hP : PullsOf P D0 D1 D2 D3 DA DA1) (h0 : HasFDerivAt G0 D0 c) (h1 : HasFDerivAt G1 D1 c)
    (h2 : HasFDerivAt G2 D2 c) (h3 : HasFDerivAt G3 D3 c) (hA : HasFDerivAt A DA c) (hA1 : HasFDerivAt A1 DA1 c) (hne : ∀ i, cross (G1 c i) (G2 c i) ≠ 0) :
    ∃ L : E →L[ℝ] ℝ, HasFDerivAt (fun c => pair v fun i => filament dn db (G1 c i) (frenetFrameDash i (G0 c) (G1 c) (G2 c) (G3 c) (A c) (A1 c))) L c ∧
      ∀ e, L e = filamentDashVjp P v (frenetDashVjp dn db v (G0 c) (G1 c) (G2 c) (G3 c) (A c) (A1 c) 0)
        (frenetDashVjp dn db v (G0 c) (G1 c) (G2 c) (G3 c) (A c) (A1 c) 1) (frenetDashVjp dn db v (G0 c) (G1 c) (G2 c) (G3 c) (A c) (A1 c) 2)
        (some (frenetDashVjp dn db v (G0 c) (G1 c) (G2 c) (G3 c) (A c) (A1 c) 3)) (frenetDashVjpAlpha dn db v (G0 c) (G1 c) (G2 c) (G3 c) (A c) (A1 c) 0)
        (frenetDashVjpAlpha dn db v (G0 c) (G1 c) (G2 c) (G3 c) (A c) (A1 c) 1) e := by
  obtain ⟨L0, hL0, hL0e⟩ := pair_hasFDeriv v h1
  let Φ : Args N → ℝ := fun q => cotangent dn db v fun i => frenetFrameDash i q.1 q.2.1 q.2.2.1 q.2.2.2.1 q.2.2.2.2.1 q.2.2.2.2.2
  have hΦ : HasFDerivAt Φ (fderiv ℝ Φ (G0 c, G1 c, G2 c, G3 c, A c, A1 c)) (G0 c, G1 c, G2 c, G3 c, A c, A1 c) :=
    (cotangent_diff dn db v fun i => frenetDash_diff (p := (G0 c, G1 c, G2 c, G3 c, A c, A1 c)) (hne i)).hasFDerivAt
  generalize hM : fderiv ℝ Φ (G0 c, G1 c, G2 c, G3 c, A c, A1 c) = M at hΦ
  have hc := HasFDerivAt.comp (g := Φ) (f := fun c => (G0 c, G1 c, G2 c, G3 c, A c, A1 c)) c hΦ
    (h0.prodMk (h1.prodMk (h2.prodMk (h3.prodMk (hA.prodMk hA1)))))
  refine ⟨L0 + M.comp (D0.prod (D1.prod (D2.prod (D3.prod (DA.prod DA1))))), ?_, fun e => ?_⟩
  · simp only [pair_filament]
    exact hL0.add hc
  · unfold filamentDashVjp frenetDashVjp frenetDashVjpAlpha
    simp only [hP.d0, hP.d1, hP.d2, hP.d3, hP.al, hP.ald, pair_add, gradV_pair, gradR_pair]
    have ee : (L0 + M.comp (D0.prod (D1.prod (D2.prod (D3.prod (DA.prod DA1)))))) e = pair v (D1 e) + M (D0 e, D1 e, D2 e, D3 e, DA e, DA1 e) := by rw [← hL0e]; rfl
    rw [ee, parts, ← part0 hΦ, ← part1 hΦ, ← part2 hΦ, ← part3 hΦ, ← part4 hΦ, ← part5 hΦ]
    ring

/-- **C136** ... and of a filament in a centroid frame. -/
theorem C136_centroid_dash_vjp (dn db : ℝ) (v : Fin N → V3) (hP : PullsOf P D0 D1 D2 D3 DA DA1) (h0 : HasFDerivAt G0 D0 c) (h1 : HasFDerivAt G1 D1 c)
    (h2 : HasFDerivAt G2 D2 c) (hA : HasFDerivAt A DA c) (hA1 : HasFDerivAt A1 DA1 c) (hne : ∀ i, cross (G0 c i - mean (G0 c)) (G1 c i) ≠ 0) :
    ∃ L : E →L[ℝ] ℝ, HasFDerivAt (fun c => pair v fun i => filament dn db (G1 c i) (centroidFrameDash i (G0 c) (G1 c) (G2 c) (A c) (A1 c))) L c ∧
      ∀ e, L e = filamentDashVjp P v (centroidDashVjp dn db v (G0 c) (G1 c) (G2 c) (A c) (A1 c) 0)
        (centroidDashVjp dn db v (G0 c) (G1 c) (G2 c) (A c) (A1 c) 1) (centroidDashVjp dn db v (G0 c) (G1 c) (G2 c) (A c) (A1 c) 2)
        none (centroidDashVjpAlpha dn db v (G0 c) (G1 c) (G2 c) (A c) (A1 c) 0) (centroidDashVjpAlpha dn db v (G0 c) (G1 c) (G2 c) (A c) (A1 c) 1) e := by
  obtain ⟨L0, hL0, hL0e⟩ := pair_hasFDeriv v h1
  let Φ : Args N → ℝ := fun q => cotangent dn db v fun i => centroidFrameDash i q.1 q.2.1 q.2.2.1 q.2.2.2.2.1 q.2.2.2.2.2
  have hΦ : HasFDerivAt Φ (fderiv ℝ Φ (G0 c, G1 c, G2 c, G2 c, A c, A1 c)) (G0 c, G1 c, G2 c, G2 c, A c, A1 c) :=
    (cotangent_diff dn db v fun i => centroidDash_diff (p := (G0 c, G1 c, G2 c, G2 c, A c, A1 c)) (hne i)).hasFDerivAt
  have hzero : ∀ δ, (fderiv ℝ Φ (G0 c, G1 c, G2 c, G2 c, A c, A1 c)) (0, 0, 0, δ, 0, 0) = 0 := by
    intro δ
    rw [← part3 hΦ]
    have : (fun y => Φ (G0 c, G1 c, G2 c, y, A c, A1 c)) = fun _ => Φ (G0 c, G1 c, G2 c, G2 c, A c, A1 c) := rfl
    rw [this]; simp
  generalize hM : fderiv ℝ Φ (G0 c, G1 c, G2 c, G2 c, A c, A1 c) = M at hΦ hzero
  have hc := HasFDerivAt.comp (g := Φ) (f := fun c => (G0 c, G1 c, G2 c, G2 c, A c, A1 c)) c hΦ
    (h0.prodMk (h1.prodMk (h2.prodMk (h2.prodMk (hA.prodMk hA1)))))
  refine ⟨L0 + M.comp (D0.prod (D1.prod (D2.prod (D2.prod (DA.prod DA1))))), ?_, fun e => ?_⟩
  · simp only [pair_filament]
    exact hL0.add hc
  · unfold filamentDashVjp centroidDashVjp centroidDashVjpAlpha
    simp only [hP.d0, hP.d1, hP.d2, hP.al, hP.ald, pair_add, gradV_pair, gradR_pair]
    have ee : (L0 + M.comp (D0.prod (D1.prod (D2.prod (D2.prod (DA.prod DA1)))))) e = pair v (D1 e) + M (D0 e, D1 e, D2 e, D2 e, DA e, DA1 e) := by rw [← hL0e]; rfl
    rw [ee, parts, hzero, ← part0 hΦ, ← part1 hΦ, ← part2 hΦ, ← part4 hΦ, ← part5 hΦ]
    ring

end Simsopt.Frames
