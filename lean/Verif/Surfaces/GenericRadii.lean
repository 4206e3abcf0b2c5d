import Verif.Surfaces.GenericProps
/-!
# C72: mean cross-sectional area, minor radius, major radius, aspect ratio
-/
namespace Simsopt.Surface
open Simsopt Simsopt.Coils
open Simsopt.Geometry hiding norm normal

variable {P : Type}

/-- No quadrature point is on the `z` axis. -/
def OffAxis (S : Shape P) (pts : List P) : Prop := ∀ p ∈ pts, (S.x p).1 ^ 2 + (S.x p).2.1 ^ 2 ≠ 0

/-- At no quadrature point does the toroidal tangent lie in a poloidal plane: the cylindrical angle changes with `phi`. -/
def Toroidal (S : Shape P) (pts : List P) : Prop := ∀ p ∈ pts, (S.x p).1 * (S.g1 p).2.1 - (S.x p).2.1 * (S.g1 p).1 ≠ 0

theorem csTerm_eq (S : Shape P) (p : P) (h0 : (S.x p).1 ^ 2 + (S.x p).2.1 ^ 2 ≠ 0) (h1 : (S.x p).1 * (S.g1 p).2.1 - (S.x p).2.1 * (S.g1 p).1 ≠ 0) :
    csTerm S p = areaTerm S p := by
  have hpos : 0 < (S.x p).1 ^ 2 + (S.x p).2.1 ^ 2 := lt_of_le_of_ne (by positivity) (Ne.symm h0)
  have hr := Real.sqrt_pos.mpr hpos
  have hsq := Real.mul_self_sqrt hpos.le
  simp only [csTerm, areaTerm]
  set r := Real.sqrt ((S.x p).1 ^ 2 + (S.x p).2.1 ^ 2) with hrdef
  clear_value r
  rw [← hsq]
  have hr' := hr.ne'
  generalize hj : (S.x p).1 * (S.g1 p).2.1 - (S.x p).2.1 * (S.g1 p).1 = j at h1
  generalize (S.x p).1 * (S.g2 p).2.1 - (S.x p).2.1 * (S.g2 p).1 = k
  have hd : j / (r * r) * 1 - k / (r * r) * 0 = j / (r * r) := by ring
  rw [hd]
  field_simp
  ring

theorem d_rho {S : ℝ → Shape P} {D : Shape P} {t : ℝ} (h : Along S D t) (p : P) (h0 : ((S t).x p).1 ^ 2 + ((S t).x p).2.1 ^ 2 ≠ 0) :
    HasDerivAt (fun s => Real.sqrt (((S s).x p).1 ^ 2 + ((S s).x p).2.1 ^ 2))
      ((((S t).x p).1 * (D.x p).1 + ((S t).x p).2.1 * (D.x p).2.1) / Real.sqrt (((S t).x p).1 ^ 2 + ((S t).x p).2.1 ^ 2)) t := by
  have hx := d_fst (h p).1
  have hy := d_snd (h p).1
  have h1 := ((hx.pow 2).add (hy.pow 2)).sqrt h0
  refine h1.congr_deriv ?_
  have hpos : 0 < ((S t).x p).1 ^ 2 + ((S t).x p).2.1 ^ 2 := lt_of_le_of_ne (by positivity) (Ne.symm h0)
  have hr := (Real.sqrt_pos.mpr hpos).ne'
  simp only [Pi.add_apply, Pi.pow_apply]
  field_simp
  push_cast
  ring

theorem d_areaTerm {S : ℝ → Shape P} {D : Shape P} {t : ℝ} (h : Along S D t) (p : P) (h0 : ((S t).x p).1 ^ 2 + ((S t).x p).2.1 ^ 2 ≠ 0) :
    HasDerivAt (fun s => areaTerm (S s) p) (dareaTerm (S t) D p) t := by
  have hx := d_fst (h p).1
  have hy := d_snd (h p).1
  have hax := d_fst (h p).2.1
  have hay := d_snd (h p).2.1
  have haz := d_trd (h p).2.1
  have hbx := d_fst (h p).2.2.1
  have hby := d_snd (h p).2.2.1
  have hbz := d_trd (h p).2.2.1
  have hpos : 0 < ((S t).x p).1 ^ 2 + ((S t).x p).2.1 ^ 2 := lt_of_le_of_ne (by positivity) (Ne.symm h0)
  have hr := (Real.sqrt_pos.mpr hpos).ne'
  have h1 := ((hasDerivAt_const t (1 : ℝ)).div (d_rho h p h0) hr).mul ((hbz.mul ((hx.mul hay).sub (hy.mul hax))).sub (haz.mul ((hx.mul hby).sub (hy.mul hbx))))
  refine h1.congr_deriv ?_
  simp only [Pi.mul_apply, Pi.sub_apply, Pi.div_apply, dareaTerm]
  field_simp
  ring

theorem rpow_three_half {a : ℝ} (h : 0 ≤ a) : a ^ (3 / 2 : ℝ) = Real.sqrt a ^ 3 := by
  rw [Real.sqrt_eq_rpow, ← Real.rpow_natCast, ← Real.rpow_mul h]; norm_num

theorem d_dareaTerm {S : ℝ → Shape P} {E : Shape P} {t : ℝ} (h : Along S E t) (D : Shape P) (p : P) (h0 : ((S t).x p).1 ^ 2 + ((S t).x p).2.1 ^ 2 ≠ 0) :
    HasDerivAt (fun s => dareaTerm (S s) D p) (d2areaTerm (S t) D E p) t := by
  have hx := d_fst (h p).1
  have hy := d_snd (h p).1
  have hax := d_fst (h p).2.1
  have hay := d_snd (h p).2.1
  have haz := d_trd (h p).2.1
  have hbx := d_fst (h p).2.2.1
  have hby := d_snd (h p).2.2.1
  have hbz := d_trd (h p).2.2.1
  have hpos : 0 < ((S t).x p).1 ^ 2 + ((S t).x p).2.1 ^ 2 := lt_of_le_of_ne (by positivity) (Ne.symm h0)
  have hrp := Real.sqrt_pos.mpr hpos
  have hr := hrp.ne'
  have hrho := d_rho h p h0
  have hdr := ((hx.mul_const (D.x p).1).add (hy.mul_const (D.x p).2.1)).div hrho hr
  have hw := (((hax.mul hy).mul hbz).sub ((hbx.mul hy).mul haz)).add (hx.mul ((hay.neg.mul hbz).add (hby.mul haz)))
  have hv1 := haz.neg.mul ((((hby.mul_const (D.x p).1).sub (hy.mul_const (D.g2 p).1)).sub (hbx.mul_const (D.x p).2.1)).add (hx.mul_const (D.g2 p).2.1))
  have hv2 := hbz.mul ((((hay.mul_const (D.x p).1).sub (hy.mul_const (D.g1 p).1)).sub (hax.mul_const (D.x p).2.1)).add (hx.mul_const (D.g1 p).2.1))
  have hv3 := ((hax.neg.mul hy).add (hx.mul hay)).mul_const (D.g2 p).2.2
  have hv4 := ((hbx.mul hy).sub (hx.mul hby)).mul_const (D.g1 p).2.2
  have h1 := ((hasDerivAt_const t (1 : ℝ)).div (hrho.pow 2) (pow_ne_zero 2 hr)).mul ((hw.mul hdr).add (hrho.mul (((hv1.add hv2).add hv3).add hv4)))
  refine h1.congr_deriv ?_
  have hsq := Real.sq_sqrt hpos.le
  simp only [Pi.mul_apply, Pi.sub_apply, Pi.add_apply, Pi.neg_apply, Pi.div_apply, Pi.pow_apply, d2areaTerm, rpow_three_half hpos.le]
  set r := Real.sqrt (((S t).x p).1 ^ 2 + ((S t).x p).2.1 ^ 2) with hrdef
  clear_value r
  field_simp
  push_cast
  ring

theorem d_mean {f : ℝ → P → ℝ} {f' : P → ℝ} {t : ℝ} (pts : List P) (h : ∀ p ∈ pts, HasDerivAt (fun s => f s p) (f' p) t) :
    HasDerivAt (fun s => mean (f s) pts) (mean f' pts) t := (d_sum pts h).div_const _

theorem meanArea_eq (S : Shape P) (pts : List P) (h0 : OffAxis S pts) (h1 : Toroidal S pts) : meanArea S pts = |mean (areaTerm S) pts| / (2 * Real.pi) := by
  have : pts.map (csTerm S) = pts.map (areaTerm S) := List.map_congr_left fun p hp => csTerm_eq S p (h0 p hp) (h1 p hp)
  rw [meanArea, mean, mean, this]

theorem eventually_all {t : ℝ} (pts : List P) (Q : ℝ → P → Prop) (h : ∀ p ∈ pts, ∀ᶠ s in nhds t, Q s p) : ∀ᶠ s in nhds t, ∀ p ∈ pts, Q s p := by
  induction pts with
  | nil => exact Filter.Eventually.of_forall fun s p hp => absurd hp List.not_mem_nil
  | cons p pts ih =>
    filter_upwards [h p List.mem_cons_self, ih fun q hq => h q (List.mem_cons_of_mem _ hq)] with s a b q hq
    rcases List.mem_cons.mp hq with rfl | hq
    · exact a
    · exact b q hq

theorem eventually_ne {f : ℝ → ℝ} {f' t : ℝ} (h : HasDerivAt f f' t) (h0 : f t ≠ 0) : ∀ᶠ s in nhds t, f s ≠ 0 := h.continuousAt.eventually_ne h0

theorem eventually_good {S : ℝ → Shape P} {D : Shape P} {t : ℝ} (h : Along S D t) (pts : List P) (h0 : OffAxis (S t) pts) (h1 : Toroidal (S t) pts) :
    ∀ᶠ s in nhds t, OffAxis (S s) pts ∧ Toroidal (S s) pts := by
  have a := eventually_all pts (fun s p => ((S s).x p).1 ^ 2 + ((S s).x p).2.1 ^ 2 ≠ 0) fun p hp =>
    eventually_ne (((d_fst (h p).1).pow 2).add ((d_snd (h p).1).pow 2)) (h0 p hp)
  have b := eventually_all pts (fun s p => ((S s).x p).1 * ((S s).g1 p).2.1 - ((S s).x p).2.1 * ((S s).g1 p).1 ≠ 0) fun p hp =>
    eventually_ne (((d_fst (h p).1).mul (d_snd (h p).2.1)).sub ((d_snd (h p).1).mul (d_fst (h p).2.1))) (h1 p hp)
  filter_upwards [a, b] with s x y using ⟨x, y⟩

theorem d_abs {f : ℝ → ℝ} {f' t : ℝ} (h : HasDerivAt f f' t) (h0 : f t ≠ 0) : HasDerivAt (fun s => |f s|) (SignType.sign (f t) * f') t := by
  rcases lt_or_gt_of_ne h0 with hn | hp
  · have e : (fun s => |f s|) =ᶠ[nhds t] fun s => -f s := by
      filter_upwards [h.continuousAt.eventually_lt continuousAt_const hn] with s hs using abs_of_neg hs
    exact (h.neg.congr_of_eventuallyEq e).congr_deriv (by simp [sign_neg hn])
  · have e : (fun s => |f s|) =ᶠ[nhds t] fun s => f s := by
      filter_upwards [continuousAt_const.eventually_lt h.continuousAt hp] with s hs using abs_of_pos hs
    exact (h.congr_of_eventuallyEq e).congr_deriv (by simp [sign_pos hp])

/-- The hypotheses of the derivative formulas: all quadrature points are off the axis, the surface is toroidal there, and the signed mean cross-sectional area is not 0. -/
def Good (S : Shape P) (pts : List P) : Prop := OffAxis S pts ∧ Toroidal S pts ∧ mean (areaTerm S) pts ≠ 0

theorem Good.pos {S : Shape P} {pts : List P} (h : Good S pts) : 0 < meanArea S pts := by
  rw [meanArea_eq S pts h.1 h.2.1]; have := abs_pos.mpr h.2.2; positivity

theorem d_meanArea {S : ℝ → Shape P} {D : Shape P} {t : ℝ} (h : Along S D t) (pts : List P) (hg : Good (S t) pts) :
    HasDerivAt (fun s => meanArea (S s) pts) (dmeanArea (S t) D pts) t := by
  obtain ⟨h0, h1, h2⟩ := hg
  have hm := d_mean (f := fun s => areaTerm (S s)) pts fun p hp => d_areaTerm h p (h0 p hp)
  have ha := (d_abs hm h2).div_const (2 * Real.pi)
  have e : (fun s => meanArea (S s) pts) =ᶠ[nhds t] fun s => |mean (areaTerm (S s)) pts| / (2 * Real.pi) := by
    filter_upwards [eventually_good h pts h0 h1] with s hs using meanArea_eq _ _ hs.1 hs.2
  refine (ha.congr_of_eventuallyEq e).congr_deriv ?_
  have hpi : 0 < 2 * Real.pi := by positivity
  have hs : SignType.sign (mean (areaTerm (S t)) pts / (2 * Real.pi)) = SignType.sign (mean (areaTerm (S t)) pts) := by
    rcases lt_or_gt_of_ne h2 with hn | hp
    · rw [sign_neg hn, sign_neg (div_neg_of_neg_of_pos hn hpi)]
    · rw [sign_pos hp, sign_pos (div_pos hp hpi)]
  rw [dmeanArea, hs]

theorem sign_eventually {f : ℝ → ℝ} {f' t : ℝ} (h : HasDerivAt f f' t) (h0 : f t ≠ 0) : ∀ᶠ s in nhds t, SignType.sign (f s) = SignType.sign (f t) := by
  rcases lt_or_gt_of_ne h0 with hn | hp
  · filter_upwards [h.continuousAt.eventually_lt continuousAt_const hn] with s hs
    rw [sign_neg hn, sign_neg hs]
  · filter_upwards [continuousAt_const.eventually_lt h.continuousAt hp] with s hs
    rw [sign_pos hp, sign_pos hs]

theorem d_dmeanArea {S : ℝ → Shape P} {E : Shape P} {t : ℝ} (h : Along S E t) (D : Shape P) (pts : List P) (hg : Good (S t) pts) :
    HasDerivAt (fun s => dmeanArea (S s) D pts) (d2meanArea (S t) D E pts) t := by
  obtain ⟨h0, h1, h2⟩ := hg
  have hm := d_mean (f := fun s => areaTerm (S s)) pts fun p hp => d_areaTerm h p (h0 p hp)
  have hd := d_mean (f := fun s => dareaTerm (S s) D) pts fun p hp => d_dareaTerm h D p (h0 p hp)
  have hsg := sign_eventually (hm.div_const (2 * Real.pi)) (div_ne_zero h2 (by positivity))
  have ha := (hd.const_mul ((SignType.sign (mean (areaTerm (S t)) pts / (2 * Real.pi)) : SignType) : ℝ)).div_const (2 * Real.pi)
  refine (ha.congr_of_eventuallyEq ?_)
  filter_upwards [hsg] with s hs
  rw [dmeanArea, hs]

/-- **C72.** `mean_cross_sectional_area()` is the absolute value of the line-integral form `(1/2π)·mean( r (z_θ ∂φ/∂ϕ - z_φ ∂φ/∂θ) )`: no inverse matrix is left; and `dmean_cross_sectional_area_by_dcoeff`,
`d2mean_cross_sectional_area_by_dcoeff_dcoeff` are its derivatives. -/
theorem C72_mean_area (S : ℝ → Shape P) (D E : Shape P) (t : ℝ) (pts : List P) (hg : Good (S t) pts) :
    meanArea (S t) pts = |mean (areaTerm (S t)) pts| / (2 * Real.pi) ∧
    (Along S D t → HasDerivAt (fun s => meanArea (S s) pts) (dmeanArea (S t) D pts) t) ∧
    (Along S E t → HasDerivAt (fun s => dmeanArea (S s) D pts) (d2meanArea (S t) D E pts) t) :=
  ⟨meanArea_eq _ _ hg.1 hg.2.1, fun h => d_meanArea h pts hg, fun h => d_dmeanArea h D pts hg⟩

theorem minor_pos {S : Shape P} {pts : List P} (h : Good S pts) : 0 < minor S pts := by
  have := h.pos; rw [minor]; apply Real.sqrt_pos.mpr; positivity

theorem minor_sq {S : Shape P} {pts : List P} (h : Good S pts) : Real.pi * minor S pts ^ 2 = meanArea S pts := by
  have := h.pos
  rw [minor, Real.sq_sqrt (by positivity)]; field_simp

theorem eventually_Good {S : ℝ → Shape P} {D : Shape P} {t : ℝ} (h : Along S D t) (pts : List P) (hg : Good (S t) pts) : ∀ᶠ s in nhds t, Good (S s) pts := by
  have hm := d_mean (f := fun s => areaTerm (S s)) pts fun p hp => d_areaTerm h p (hg.1 p hp)
  filter_upwards [eventually_good h pts hg.1 hg.2.1, eventually_ne hm hg.2.2] with s a b using ⟨a.1, a.2, b⟩

theorem d_minor {S : ℝ → Shape P} {D : Shape P} {t : ℝ} (h : Along S D t) (pts : List P) (hg : Good (S t) pts) :
    HasDerivAt (fun s => minor (S s) pts) (dminor (S t) D pts) t := by
  have hp := hg.pos
  have hq : meanArea (S t) pts / Real.pi ≠ 0 := by positivity
  refine (((d_meanArea h pts hg).div_const Real.pi).sqrt hq).congr_deriv ?_
  have hr := (minor_pos hg).ne'
  rw [minor] at hr
  rw [dminor]
  field_simp
  ring

theorem d_dminor {S : ℝ → Shape P} {E : Shape P} {t : ℝ} (h : Along S E t) (D : Shape P) (pts : List P) (hg : Good (S t) pts) :
    HasDerivAt (fun s => dminor (S s) D pts) (d2minor (S t) D E pts) t := by
  have hp := hg.pos
  have hr := (minor_pos hg).ne'
  have h1 := ((d_dmeanArea h D pts hg).const_mul (0.5 / Real.pi)).div (d_minor h pts hg) hr
  refine h1.congr_deriv ?_
  have e1 : dminor (S t) E pts = (0.5 / Real.pi) * dmeanArea (S t) E pts / minor (S t) pts := rfl
  have e2 : meanArea (S t) pts ^ (3 / 2 : ℝ) = Real.sqrt Real.pi ^ 3 * minor (S t) pts ^ 3 := by
    rw [rpow_three_half hp.le, ← minor_sq hg, Real.sqrt_mul Real.pi_pos.le, Real.sqrt_sq (minor_pos hg).le, mul_pow]
  have hpi := Real.mul_self_sqrt Real.pi_pos.le
  have hs := (Real.sqrt_pos.mpr Real.pi_pos).ne'
  rw [d2minor, e1, e2, ← minor_sq hg]
  generalize minor (S t) pts = r at *
  generalize dmeanArea (S t) D pts = a
  generalize dmeanArea (S t) E pts = b
  generalize d2meanArea (S t) D E pts = c
  have hpi4 : Real.sqrt Real.pi * (Real.sqrt Real.pi ^ 3) = Real.pi ^ 2 := by
    calc Real.sqrt Real.pi * (Real.sqrt Real.pi ^ 3) = (Real.sqrt Real.pi * Real.sqrt Real.pi) ^ 2 := by ring
      _ = _ := by rw [hpi]
  have e3 : 4 * Real.sqrt Real.pi * (Real.sqrt Real.pi ^ 3 * r ^ 3) = 4 * Real.pi ^ 2 * r ^ 3 := by rw [← hpi4]; ring
  rw [e3]
  have := Real.pi_ne_zero
  field_simp
  ring

/-- **C72.** The minor radius is the radius of the circle with the mean cross-sectional area, and `dminor_radius_by_dcoeff`, `d2minor_radius_by_dcoeff_dcoeff` are its derivatives. -/
theorem C72_minor_radius (S : ℝ → Shape P) (D E : Shape P) (t : ℝ) (pts : List P) (hg : Good (S t) pts) :
    0 < minor (S t) pts ∧ Real.pi * minor (S t) pts ^ 2 = meanArea (S t) pts ∧
    (Along S D t → HasDerivAt (fun s => minor (S s) pts) (dminor (S t) D pts) t) ∧
    (Along S E t → HasDerivAt (fun s => dminor (S s) D pts) (d2minor (S t) D E pts) t) :=
  ⟨minor_pos hg, minor_sq hg, fun h => d_minor h pts hg, fun h => d_dminor h D pts hg⟩

theorem abs_sign (v : ℝ) : |v| = v * (SignType.sign v : SignType) := by
  rcases lt_trichotomy v 0 with h | h | h
  · simp [abs_of_neg h, sign_neg h]
  · simp [h]
  · simp [abs_of_pos h, sign_pos h]

theorem d_major {S : ℝ → Shape P} {D : Shape P} {t : ℝ} (h : Along S D t) (pts : List P) (hg : Good (S t) pts) (hV : volume (S t) pts ≠ 0) :
    HasDerivAt (fun s => major (S s) pts) (dmajor (S t) D pts) t := by
  have hr := (minor_pos hg).ne'
  have hA := hg.pos.ne'
  have h1 := (d_abs (C70_volume S D t h pts) hV).div (((d_minor h pts hg).pow 2).const_mul (2 * Real.pi ^ 2)) (by have := minor_pos hg; simp only [Pi.pow_apply]; positivity)
  refine h1.congr_deriv ?_
  have e1 : dminor (S t) D pts = (0.5 / Real.pi) * dmeanArea (S t) D pts / minor (S t) pts := rfl
  have hpi := Real.pi_ne_zero
  simp only [Pi.pow_apply]
  rw [e1, dmajor, ← minor_sq hg, abs_sign]
  field_simp
  push_cast
  ring

theorem d_dmajor {S : ℝ → Shape P} {E : Shape P} {t : ℝ} (h : Along S E t) (D : Shape P) (pts : List P) (hg : Good (S t) pts) (hV : volume (S t) pts ≠ 0) :
    HasDerivAt (fun s => dmajor (S s) D pts) (d2major (S t) D E pts) t := by
  have hr := (minor_pos hg).ne'
  have hA := hg.pos.ne'
  have hv := C70_volume S E t h pts
  have hdv := (C70_second S D E t h pts).2.2
  have ha := d_meanArea h pts hg
  have hda := d_dmeanArea h D pts hg
  have h1 := (((((hv.neg.mul hda).add (hdv.mul ha)).div (ha.pow 2) (pow_ne_zero 2 hA)).mul_const ((SignType.sign (volume (S t) pts) : SignType) : ℝ)).div_const (2 * Real.pi))
  have e : (fun s => dmajor (S s) D pts) =ᶠ[nhds t] fun s =>
      (-volume (S s) pts * dmeanArea (S s) D pts + dvolume (S s) D pts * meanArea (S s) pts) / meanArea (S s) pts ^ 2 * (SignType.sign (volume (S t) pts) : SignType) / (2 * Real.pi) := by
    filter_upwards [sign_eventually hv hV] with s hs
    rw [dmajor, hs]
  refine (h1.congr_of_eventuallyEq e).congr_deriv ?_
  simp only [Pi.pow_apply, Pi.neg_apply, Pi.mul_apply, Pi.add_apply, d2major]
  have hd2 := d_dminor h D pts hg
  have eD : dmeanArea (S t) D pts = 2 * Real.pi * minor (S t) pts * dminor (S t) D pts := by
    have : dminor (S t) D pts = (0.5 / Real.pi) * dmeanArea (S t) D pts / minor (S t) pts := rfl
    rw [this]; have := Real.pi_ne_zero; field_simp; ring
  have eE : dmeanArea (S t) E pts = 2 * Real.pi * minor (S t) pts * dminor (S t) E pts := by
    have : dminor (S t) E pts = (0.5 / Real.pi) * dmeanArea (S t) E pts / minor (S t) pts := rfl
    rw [this]; have := Real.pi_ne_zero; field_simp; ring
  have eDE : d2meanArea (S t) D E pts = 2 * Real.pi * (dminor (S t) E pts * dminor (S t) D pts + minor (S t) pts * d2minor (S t) D E pts) := by
    have hA2 : HasDerivAt (fun s => dmeanArea (S s) D pts) (2 * Real.pi * (dminor (S t) E pts * dminor (S t) D pts + minor (S t) pts * d2minor (S t) D E pts)) t := by
      have e' : (fun s => dmeanArea (S s) D pts) =ᶠ[nhds t] fun s => 2 * Real.pi * (minor (S s) pts * dminor (S s) D pts) := by
        filter_upwards [eventually_Good h pts hg] with s hs
        have : dminor (S s) D pts = (0.5 / Real.pi) * dmeanArea (S s) D pts / minor (S s) pts := rfl
        rw [this]; have := Real.pi_ne_zero; have := (minor_pos hs).ne'; field_simp; ring
      exact (((d_minor h pts hg).mul hd2).const_mul (2 * Real.pi)).congr_of_eventuallyEq e'
    exact hda.unique hA2
  rw [eD, eE, eDE, ← minor_sq hg]
  have hpi := Real.pi_ne_zero
  field_simp
  push_cast
  ring

/-- **C72.** The major radius is the radius `R` of the torus with circular cross section of the minor radius that has the volume of the surface, `|V| = 2π²·R·a²`; its derivatives are
`dmajor_radius_by_dcoeff` and `d2major_radius_by_dcoeff_dcoeff`. -/
theorem C72_major_radius (S : ℝ → Shape P) (D E : Shape P) (t : ℝ) (pts : List P) (hg : Good (S t) pts) (hV : volume (S t) pts ≠ 0) :
    2 * Real.pi ^ 2 * major (S t) pts * minor (S t) pts ^ 2 = |volume (S t) pts| ∧
    (Along S D t → HasDerivAt (fun s => major (S s) pts) (dmajor (S t) D pts) t) ∧
    (Along S E t → HasDerivAt (fun s => dmajor (S s) D pts) (d2major (S t) D E pts) t) := by
  refine ⟨?_, fun h => d_major h pts hg hV, fun h => d_dmajor h D pts hg hV⟩
  have := (minor_pos hg).ne'
  have := Real.pi_ne_zero
  rw [major]; field_simp

/-- **C72.** `aspect_ratio() = major_radius() / minor_radius()`, and `daspect_ratio_by_dcoeff`, `d2aspect_ratio_by_dcoeff_dcoeff` are its derivatives. -/
theorem C72_aspect_ratio (S : ℝ → Shape P) (D E : Shape P) (t : ℝ) (pts : List P) (hg : Good (S t) pts) (hV : volume (S t) pts ≠ 0) :
    aspect (S t) pts * minor (S t) pts = major (S t) pts ∧
    (Along S D t → HasDerivAt (fun s => aspect (S s) pts) (daspect (S t) D pts) t) ∧
    (Along S E t → HasDerivAt (fun s => daspect (S s) D pts) (d2aspect (S t) D E pts) t) := by
  have hr := (minor_pos hg).ne'
  refine ⟨by rw [aspect]; field_simp, fun h => ?_, fun h => ?_⟩
  · refine ((d_major h pts hg hV).div (d_minor h pts hg) hr).congr_deriv ?_
    rw [daspect]; ring
  · have h1 := (((d_dmajor h D pts hg hV).mul (d_minor h pts hg)).sub ((d_dminor h D pts hg).mul (d_major h pts hg hV))).div ((d_minor h pts hg).pow 2) (pow_ne_zero 2 hr)
    refine h1.congr_deriv ?_
    simp only [Pi.pow_apply, Pi.mul_apply, Pi.sub_apply, d2aspect]
    field_simp
    push_cast
    ring

end Simsopt.Surface
