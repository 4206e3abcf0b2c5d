import Verif.Surfaces.Generic
/-!
# C70, C71: normals, areas, volumes, curvatures
-/
namespace Simsopt.Surface
open Simsopt Simsopt.Coils
open Simsopt.Geometry hiding norm normal

variable {P : Type}

/-- The arrays move along a curve of surfaces with the derivative `D`: what `dgamma_by_dcoeff`, ... are for a dof (C67). -/
def Along (S : ℝ → Shape P) (D : Shape P) (t : ℝ) : Prop := ∀ p,
  HasDerivAt (fun s => (S s).x p) (D.x p) t ∧ HasDerivAt (fun s => (S s).g1 p) (D.g1 p) t ∧ HasDerivAt (fun s => (S s).g2 p) (D.g2 p) t ∧
  HasDerivAt (fun s => (S s).g11 p) (D.g11 p) t ∧ HasDerivAt (fun s => (S s).g12 p) (D.g12 p) t ∧ HasDerivAt (fun s => (S s).g22 p) (D.g22 p) t

theorem len_norm (n : V3) : len n = Geometry.norm n := rfl

theorem normal_cross (S : Shape P) (p : P) : normal S p = cross (S.g1 p) (S.g2 p) := rfl

theorem dnormal_cross (S D : Shape P) (p : P) : dnormal S D p = cross (D.g1 p) (S.g2 p) + cross (S.g1 p) (D.g2 p) := by
  refine Prod.ext ?_ (Prod.ext ?_ ?_) <;> simp [dnormal, cross]

theorem d2normal_cross (D E : Shape P) (p : P) : d2normal D E p = cross (D.g1 p) (E.g2 p) + cross (E.g1 p) (D.g2 p) := by
  refine Prod.ext ?_ (Prod.ext ?_ ?_) <;> simp [d2normal, cross]

theorem d_normal {S : ℝ → Shape P} {D : Shape P} {t : ℝ} (h : Along S D t) (p : P) : HasDerivAt (fun s => normal (S s) p) (dnormal (S t) D p) t := by
  rw [dnormal_cross]; exact d_cross (h p).2.1 (h p).2.2.1

theorem d_dnormal {S : ℝ → Shape P} {E : Shape P} {t : ℝ} (h : Along S E t) (D : Shape P) (p : P) : HasDerivAt (fun s => dnormal (S s) D p) (d2normal D E p) t := by
  have h1 := d_cross (hasDerivAt_const t (D.g1 p)) (h p).2.2.1
  have h2 := d_cross (h p).2.1 (hasDerivAt_const t (D.g2 p))
  have h3 := h1.add h2
  have e : (fun s => dnormal (S s) D p) = (fun s => cross (D.g1 p) ((S s).g2 p)) + fun s => cross ((S s).g1 p) (D.g2 p) := by
    funext s; rw [dnormal_cross]; rfl
  rw [e]
  refine h3.congr_deriv ?_
  rw [d2normal_cross]
  refine Prod.ext ?_ (Prod.ext ?_ ?_) <;> simp [cross]

theorem d_len {n : ℝ → V3} {n' : V3} {t : ℝ} (h : HasDerivAt n n' t) (h0 : n t ≠ 0) : HasDerivAt (fun s => len (n s)) (inner (n t) n' / len (n t)) t := d_norm h h0

theorem d_sum {f : ℝ → P → ℝ} {f' : P → ℝ} {t : ℝ} (pts : List P) (h : ∀ p ∈ pts, HasDerivAt (fun s => f s p) (f' p) t) :
    HasDerivAt (fun s => (pts.map (f s)).sum) ((pts.map f').sum) t := by
  induction pts with
  | nil => simpa using hasDerivAt_const t (0 : ℝ)
  | cons p pts ih =>
    simp only [List.map_cons, List.sum_cons]
    exact (h p List.mem_cons_self).add (ih fun q hq => h q (List.mem_cons_of_mem _ hq))

theorem sum_mul (pts : List P) (f : P → ℝ) (c : ℝ) : (pts.map f).sum * c = (pts.map fun p => f p * c).sum := by
  induction pts with
  | nil => simp
  | cons p pts ih => simp [add_mul, ih]

theorem sum_add (pts : List P) (f g : P → ℝ) : (pts.map f).sum + (pts.map g).sum = (pts.map fun p => f p + g p).sum := by
  induction pts with
  | nil => simp
  | cons p pts ih => simp [← ih]; ring

theorem dnormalVjp_eq (S D : Shape P) (v : P → V3) (pts : List P) : dnormalVjp S D v pts = (pts.map fun p => inner (dnormal S D p) (v p)).sum := by
  simp only [dnormalVjp, contract, sum_add]
  congr 1
  apply List.map_congr_left
  intro p _
  simp only [inner, vjpRes1, vjpRes2, dnormal]; ring

/-! ### C70: normals, area, volume -/

/-- **C70.** `normal()` is orthogonal to both tangents, its length is the area `sqrt(EG - F²)` of the parallelogram they span, and `dnormal_by_dcoeff` is its derivative. -/
theorem C70_normal (S : ℝ → Shape P) (D : Shape P) (t : ℝ) (h : Along S D t) (p : P) :
    inner (normal (S t) p) ((S t).g1 p) = 0 ∧ inner (normal (S t) p) ((S t).g2 p) = 0 ∧
    len (normal (S t) p) = Real.sqrt ((firstForm (S t) p).1 * (firstForm (S t) p).2.2 - (firstForm (S t) p).2.1 ^ 2) ∧
    HasDerivAt (fun s => normal (S s) p) (dnormal (S t) D p) t := by
  refine ⟨?_, ?_, ?_, d_normal h p⟩
  · simp only [inner, normal]; ring
  · simp only [inner, normal]; ring
  · simp only [len, normal, firstForm]; congr 1; ring

theorem unitnormal_smul (S : Shape P) (p : P) : unitnormal S p = (1 / len (normal S p)) • normal S p := by
  refine Prod.ext ?_ (Prod.ext ?_ ?_) <;> simp [unitnormal] <;> ring

/-- **C70.** Where the two tangents are independent, `unitnormal()` has length 1 and the direction of `normal()`, and `dunitnormal_by_dcoeff` is its derivative. -/
theorem C70_unitnormal (S : ℝ → Shape P) (D : Shape P) (t : ℝ) (h : Along S D t) (p : P) (h0 : normal (S t) p ≠ 0) :
    len (unitnormal (S t) p) = 1 ∧ normal (S t) p = len (normal (S t) p) • unitnormal (S t) p ∧
    HasDerivAt (fun s => unitnormal (S s) p) (dunitnormal (S t) D p) t := by
  have hp : 0 < len (normal (S t) p) := Geometry.norm_pos _ h0
  refine ⟨?_, ?_, ?_⟩
  · rw [unitnormal_smul, len_norm, norm_smul_v _ (by positivity), ← len_norm]; field_simp
  · rw [unitnormal_smul, smul_smul, mul_one_div_cancel hp.ne', one_smul]
  · have hn := d_normal h p
    have hl := (d_len hn h0)
    have h1 := ((hasDerivAt_const t (1 : ℝ)).div hl hp.ne').smul hn
    have e : (fun s => unitnormal (S s) p) = fun s => (1 / len (normal (S s) p)) • normal (S s) p := by funext s; exact unitnormal_smul _ _
    rw [e]
    refine h1.congr_deriv ?_
    refine Prod.ext ?_ (Prod.ext ?_ ?_) <;>
    · simp only [dunitnormal, inner, Pi.div_apply, Prod.fst_add, Prod.snd_add, Prod.smul_fst, Prod.smul_snd, smul_eq_mul]
      field_simp
      ring

/-- **C70.** `area()` is the mean length of the normal over the quadrature points and, if the tangents are independent at all of them, `darea_by_dcoeff` is its derivative. -/
theorem C70_area (S : ℝ → Shape P) (D : Shape P) (t : ℝ) (h : Along S D t) (pts : List P) (h0 : ∀ p ∈ pts, normal (S t) p ≠ 0) :
    HasDerivAt (fun s => area (S s) pts) (darea (S t) D pts) t := by
  have h1 := (d_sum (f := fun s p => len (normal (S s) p)) pts fun p hp => d_len (d_normal h p) (h0 p hp)).div_const (pts.length : ℝ)
  refine h1.congr_deriv ?_
  rw [darea, dnormalVjp_eq, div_eq_mul_one_div, sum_mul]
  congr 1
  apply List.map_congr_left
  intro p _
  simp only [inner]; ring

/-- **C70.** `dvolume_by_dcoeff` is the derivative of `volume()`. -/
theorem C70_volume (S : ℝ → Shape P) (D : Shape P) (t : ℝ) (h : Along S D t) (pts : List P) :
    HasDerivAt (fun s => volume (S s) pts) (dvolume (S t) D pts) t := by
  have h1 := (d_sum (f := fun s p => (1 / 3) * (inner ((S s).x p) (normal (S s) p))) pts fun p _ => (d_inner (h p).1 (d_normal h p)).const_mul (1 / 3)).div_const (pts.length : ℝ)
  refine h1.congr_deriv ?_
  rw [dvolume, dnormalVjp_eq, contract, sum_add, div_eq_mul_one_div, sum_mul]
  congr 1
  apply List.map_congr_left
  intro p _
  simp only [inner]; ring

/-- **C70.** The second derivatives of a representation that is linear in its dofs: `d2normal_by_dcoeffdcoeff`, `d2area_by_dcoeffdcoeff` and `d2volume_by_dcoeffdcoeff`, entry `(m, n)`, are the
derivatives of entry `m` of `dnormal_by_dcoeff`, `darea_by_dcoeff` and `dvolume_by_dcoeff` with respect to dof `n`. -/
theorem C70_second (S : ℝ → Shape P) (D E : Shape P) (t : ℝ) (h : Along S E t) (pts : List P) :
    (∀ p, HasDerivAt (fun s => dnormal (S s) D p) (d2normal D E p) t) ∧
    ((∀ p ∈ pts, normal (S t) p ≠ 0) → HasDerivAt (fun s => darea (S s) D pts) (d2area (S t) D E pts) t) ∧
    HasDerivAt (fun s => dvolume (S s) D pts) (d2volume (S t) D E pts) t := by
  refine ⟨d_dnormal h D, fun h0 => ?_, ?_⟩
  · have e : (fun s => darea (S s) D pts) = fun s => (pts.map fun p => inner (dnormal (S s) D p) (normal (S s) p) / len (normal (S s) p)).sum * (1 / pts.length) := by
      funext s
      rw [darea, dnormalVjp_eq, sum_mul]
      congr 1
      apply List.map_congr_left
      intro p _
      simp only [inner]; ring
    rw [e]
    have h1 := (d_sum (f := fun s p => inner (dnormal (S s) D p) (normal (S s) p) / len (normal (S s) p)) pts fun p hp =>
      (d_inner (d_dnormal h D p) (d_normal h p)).div (d_len (d_normal h p) (h0 p hp)) (Geometry.norm_pos _ (h0 p hp)).ne').mul_const (1 / (pts.length : ℝ))
    refine h1.congr_deriv ?_
    rw [d2area]
    congr 2
    apply List.map_congr_left
    intro p hp
    have hl : 0 < len (normal (S t) p) := Geometry.norm_pos _ (h0 p hp)
    simp only [inner]
    field_simp
    ring
  · have e : (fun s => dvolume (S s) D pts) = fun s => (pts.map fun p => (1 / 3) * (inner (dnormal (S s) D p) ((S s).x p) + inner (D.x p) (normal (S s) p))).sum * (1 / pts.length) := by
      funext s
      rw [dvolume, dnormalVjp_eq, contract, sum_add, sum_mul]
      congr 1
      apply List.map_congr_left
      intro p _
      simp only [inner]; ring
    rw [e]
    have h1 := (d_sum (f := fun s p => (1 / 3) * (inner (dnormal (S s) D p) ((S s).x p) + inner (D.x p) (normal (S s) p))) pts fun p _ =>
      ((d_inner (d_dnormal h D p) (h p).1).add (d_inner (hasDerivAt_const t (D.x p)) (d_normal h p))).const_mul (1 / 3)).mul_const (1 / (pts.length : ℝ))
    refine h1.congr_deriv ?_
    rw [d2volume]
    congr 2
    apply List.map_congr_left
    intro p _
    simp only [inner, Prod.fst_zero, Prod.snd_zero]
    ring

/-- **C70.** The second derivatives are symmetric. -/
theorem C70_second_symmetric (S D E : Shape P) (pts : List P) :
    (∀ p, d2normal D E p = d2normal E D p) ∧ d2area S D E pts = d2area S E D pts ∧ d2volume S D E pts = d2volume S E D pts := by
  refine ⟨fun p => ?_, ?_, ?_⟩
  · rw [d2normal_cross, d2normal_cross, add_comm]
  · rw [d2area, d2area]
    congr 2
    apply List.map_congr_left
    intro p _
    have e : d2normal D E p = d2normal E D p := by rw [d2normal_cross, d2normal_cross, add_comm]
    simp only [e]
    by_cases hl : len (normal S p) = 0
    · simp [hl]
    · field_simp
      ring
  · rw [d2volume, d2volume]
    congr 2
    apply List.map_congr_left
    intro p _
    have e : d2normal D E p = d2normal E D p := by rw [d2normal_cross, d2normal_cross, add_comm]
    simp only [e]
    ring

/-! ### C71: curvatures -/

theorem firstForm_det (S : Shape P) (p : P) : (firstForm S p).1 * (firstForm S p).2.2 - (firstForm S p).2.1 * (firstForm S p).2.1 = inner (normal S p) (normal S p) := by
  simp only [firstForm, normal, inner]; ring

/-- **C71.** Where the tangents are independent the two principal curvatures are real (the argument of the square root is not negative), ordered, their mean is the mean curvature and
their product the Gaussian curvature. -/
theorem C71_principal (S : Shape P) (p : P) (h0 : normal S p ≠ 0) :
    gaussCurv S p ≤ meanCurv S p * meanCurv S p ∧ (principal S p).2 ≤ (principal S p).1 ∧
    ((principal S p).1 + (principal S p).2) / 2 = meanCurv S p ∧ (principal S p).1 * (principal S p).2 = gaussCurv S p := by
  have hD : 0 < (firstForm S p).1 * (firstForm S p).2.2 - (firstForm S p).2.1 * (firstForm S p).2.1 := by
    rw [firstForm_det]; exact inner_self_pos _ h0
  have hE : 0 < (firstForm S p).1 := by
    have h1 : 0 ≤ (firstForm S p).1 := by simp only [firstForm]; nlinarith [mul_self_nonneg (S.g1 p).1, mul_self_nonneg (S.g1 p).2.1, mul_self_nonneg (S.g1 p).2.2]
    rcases h1.lt_or_eq with h | h
    · exact h
    · rw [← h] at hD; nlinarith [mul_self_nonneg (firstForm S p).2.1]
  have hdisc : gaussCurv S p ≤ meanCurv S p * meanCurv S p := by
    simp only [gaussCurv, meanCurv]
    generalize firstForm S p = I at *
    generalize secondForm S p = II
    obtain ⟨E, F, G⟩ := I
    obtain ⟨e, f, g⟩ := II
    simp only at hD hE ⊢
    set Q := E * G - F * F with hQ
    rw [div_mul_div_comm, div_le_div_iff₀ hD (by positivity)]
    have key : 0 ≤ (e * G - 2 * F * f + g * E) ^ 2 - 4 * Q * (e * g - f * f) := by
      have h2 : E ^ 2 * ((e * G - 2 * F * f + g * E) ^ 2 - 4 * Q * (e * g - f * f)) = (E * (E * g - G * e) - 2 * F * (E * f - F * e)) ^ 2 + 4 * Q * (E * f - F * e) ^ 2 := by
        rw [hQ]; ring
      have h3 : 0 ≤ E ^ 2 * ((e * G - 2 * F * f + g * E) ^ 2 - 4 * Q * (e * g - f * f)) := by rw [h2]; positivity
      exact nonneg_of_mul_nonneg_right h3 (by positivity)
    nlinarith [mul_nonneg hD.le key]
  refine ⟨hdisc, ?_, ?_, ?_⟩
  · simp only [principal]; linarith [Real.sqrt_nonneg (meanCurv S p * meanCurv S p - gaussCurv S p)]
  · simp only [principal]; ring
  · simp only [principal]
    have := Real.mul_self_sqrt (sub_nonneg.mpr hdisc)
    linarith

/-- **C71.** `dfirst_fund_form_by_dcoeff` and `dsecond_fund_form_by_dcoeff` are the derivatives of the fundamental forms. -/
theorem C71_forms (S : ℝ → Shape P) (D : Shape P) (t : ℝ) (h : Along S D t) (p : P) :
    HasDerivAt (fun s => firstForm (S s) p) (dfirstForm (S t) D p) t ∧
    (normal (S t) p ≠ 0 → HasDerivAt (fun s => secondForm (S s) p) (dsecondForm (S t) D p) t) := by
  obtain ⟨hx, h1, h2, h11, h12, h22⟩ := h p
  refine ⟨?_, ?_⟩
  · refine ((d_inner h1 h1).prodMk ((d_inner h1 h2).prodMk (d_inner h2 h2))).congr_deriv ?_
    refine Prod.ext ?_ (Prod.ext ?_ ?_) <;> simp only [dfirstForm, inner] <;> ring
  · intro h0
    have hu := (C70_unitnormal S D t h p h0).2.2
    refine ((d_inner hu h11).prodMk ((d_inner hu h12).prodMk (d_inner hu h22))).congr_deriv ?_
    refine Prod.ext ?_ (Prod.ext ?_ ?_) <;> simp only [dsecondForm, inner] <;> ring

/-- **C71.** `dsurface_curvatures_by_dcoeff` is the derivative of the mean and the Gaussian curvature where the tangents are independent, and of the two principal curvatures where they differ
(no umbilic point). -/
theorem C71_curvatures (S : ℝ → Shape P) (D : Shape P) (t : ℝ) (h : Along S D t) (p : P) (h0 : normal (S t) p ≠ 0) :
    HasDerivAt (fun s => meanCurv (S s) p) (dcurvatures (S t) D p).1 t ∧
    HasDerivAt (fun s => gaussCurv (S s) p) (dcurvatures (S t) D p).2.1 t ∧
    ((principal (S t) p).1 ≠ (principal (S t) p).2 →
      HasDerivAt (fun s => (principal (S s) p).1) (dcurvatures (S t) D p).2.2.1 t ∧ HasDerivAt (fun s => (principal (S s) p).2) (dcurvatures (S t) D p).2.2.2 t) := by
  obtain ⟨hI, hII⟩ := C71_forms S D t h p
  have hII := hII h0
  have hD : 0 < (firstForm (S t) p).1 * (firstForm (S t) p).2.2 - (firstForm (S t) p).2.1 * (firstForm (S t) p).2.1 := by
    rw [firstForm_det]; exact inner_self_pos _ h0
  have dden := ((d_fst hI).mul (d_trd hI)).sub ((d_snd hI).mul (d_snd hI))
  have hH : HasDerivAt (fun s => meanCurv (S s) p) (dcurvatures (S t) D p).1 t := by
    have h1 := ((((d_fst hII).mul (d_trd hI)).sub (((d_snd hI).const_mul 2).mul (d_snd hII))).add ((d_trd hII).mul (d_fst hI))).div (dden.const_mul 2) (mul_pos two_pos hD).ne'
    refine h1.congr_deriv ?_
    simp only [dcurvatures, Pi.mul_apply, Pi.sub_apply, Pi.add_apply]
    field_simp
    ring
  have hK : HasDerivAt (fun s => gaussCurv (S s) p) (dcurvatures (S t) D p).2.1 t := by
    have h1 := (((d_fst hII).mul (d_trd hII)).sub ((d_snd hII).mul (d_snd hII))).div dden hD.ne'
    refine h1.congr_deriv ?_
    simp only [dcurvatures, Pi.mul_apply, Pi.sub_apply]
    field_simp
    ring
  refine ⟨hH, hK, fun hne => ?_⟩
  have hdisc : meanCurv (S t) p * meanCurv (S t) p - gaussCurv (S t) p ≠ 0 := by
    intro hz
    apply hne
    simp [principal, hz]
  have hpos : 0 < meanCurv (S t) p * meanCurv (S t) p - gaussCurv (S t) p :=
    lt_of_le_of_ne (sub_nonneg.mpr (C71_principal (S t) p h0).1) (Ne.symm hdisc)
  have hs := ((hH.mul hH).sub hK).sqrt hdisc
  have hsq := Real.sqrt_pos.mpr hpos
  have e : ((dcurvatures (S t) D p).1 * meanCurv (S t) p + meanCurv (S t) p * (dcurvatures (S t) D p).1 - (dcurvatures (S t) D p).2.1) /
      (2 * Real.sqrt (meanCurv (S t) p * meanCurv (S t) p - gaussCurv (S t) p)) =
      (meanCurv (S t) p * (dcurvatures (S t) D p).1 - 0.5 * (dcurvatures (S t) D p).2.1) / Real.sqrt (meanCurv (S t) p * meanCurv (S t) p - gaussCurv (S t) p) := by
    field_simp
    ring
  constructor
  · refine (hH.add hs).congr_deriv ?_
    exact congrArg (fun z => (dcurvatures (S t) D p).1 + z) e
  · refine (hH.sub hs).congr_deriv ?_
    exact congrArg (fun z => (dcurvatures (S t) D p).1 - z) e

end Simsopt.Surface
