import Verif.Coils.Kernel
import Verif.Curves.XYZ
import Mathlib.Tactic.Module
import Mathlib.Analysis.SpecialFunctions.Pow.Real
/-!
# C53: curvature, torsion, Frenet frame and their derivatives

Model of the geometric quantities of `Curve` (src/simsopt/geo/curve.py) and of the incremental arclength (src/simsoptpp/curve.cpp).
All arrays have one row per quadrature point and the code acts row by row, so the model is one row: `d1 d2 d3` are the rows
of `gammadash()`, `gammadashdash()`, `gammadashdashdash()`, and `e1 e2 e3` the rows of their `_by_dcoeff` arrays for one
coefficient.  Simplification: real numbers instead of doubles.
-/
namespace Simsopt.Geometry
open Simsopt Simsopt.Coils

/-- `inner(a, b) = np.sum(a*b, axis=1)` (curve.py L276). -/
def inner (a b : V3) : ℝ := a.1 * b.1 + a.2.1 * b.2.1 + a.2.2 * b.2.2

/-- `np.linalg.norm(a, axis=1)` (curve.py L199). -/
noncomputable def norm (a : V3) : ℝ := Real.sqrt (a.1 * a.1 + a.2.1 * a.2.1 + a.2.2 * a.2.2)

/-- `incremental_arclength_impl` (curve.cpp L37-42) and `incremental_arclength_pure` (curve.py L17-23). -/
noncomputable def arclength (d1 : V3) : ℝ := Real.sqrt (d1.1 * d1.1 + d1.2.1 * d1.2.1 + d1.2.2 * d1.2.2)

/-- `dincremental_arclength_by_dcoeff_impl` (curve.cpp L44-54). -/
noncomputable def dArclength (d1 e1 : V3) : ℝ := (1 / arclength d1) * (d1.1 * e1.1 + d1.2.1 * e1.2.1 + d1.2.2 * e1.2.2)

/-- `kappa_pure` (curve.py L29-35). -/
noncomputable def kappa (d1 d2 : V3) : ℝ := norm (cross d1 d2) / norm d1 ^ 3

/-- `dkappa_by_dcoeff_impl` (curve.py L187-209). -/
noncomputable def dKappa (d1 d2 e1 e2 : V3) : ℝ :=
  let numerator := cross d1 d2
  let denominator := arclength d1
  (1 / (denominator ^ 3 * norm numerator)) * inner numerator (cross e1 d2 + cross d1 e2)
    - (norm numerator * 3 / denominator ^ 5) * inner d1 e1

/-- `torsion_pure` (curve.py L44-50). -/
noncomputable def torsion (d1 d2 d3 : V3) : ℝ := inner (cross d1 d2) d3 / inner (cross d1 d2) (cross d1 d2)

/-- `dtorsion_by_dcoeff_impl` (curve.py L218-238). -/
noncomputable def dTorsion (d1 d2 d3 e1 e2 e3 : V3) : ℝ :=
  let a := (inner (cross d1 d2) e3 + inner (cross e1 d2 + cross d1 e2) d3) / inner (cross d1 d2) (cross d1 d2)
  a - inner (cross d1 d2) d3 * inner ((2 : ℝ) • cross d1 d2) (cross e1 d2 + cross d1 e2) / inner (cross d1 d2) (cross d1 d2) ^ 2

/-- `frenet_frame` (curve.py L267-289): the unit tangent. -/
noncomputable def tangent (d1 : V3) : V3 := (1 / arclength d1) • d1

/-- The local `tdash` of `frenet_frame` (L283-285) and of `dfrenet_frame_by_dcoeff` (L334-337). -/
noncomputable def tdash (d1 d2 : V3) : V3 :=
  ((1 / arclength d1) ^ 2) • (arclength d1 • d2 - (inner d1 d2 / arclength d1) • d1)

/-- `frenet_frame` (L286): the normal. -/
noncomputable def normal (d1 d2 : V3) : V3 := (1 / norm (tdash d1 d2)) • tdash d1 d2

/-- `frenet_frame` (L287): the binormal. -/
noncomputable def binormal (d1 d2 : V3) : V3 := cross (tangent d1) (normal d1 d2)

/-- `kappadash` (curve.py L290-305). -/
noncomputable def kappadash (d1 d2 d3 : V3) : ℝ :=
  inner (cross d1 d2) (cross d1 d3) / (norm (cross d1 d2) * norm d1 ^ 3)
    - 3 * inner d1 d2 * norm (cross d1 d2) / norm d1 ^ 5

/-- `dfrenet_frame_by_dcoeff` (L331-332): `dt_by_dcoeff`. -/
noncomputable def dTangent (d1 e1 : V3) : V3 :=
  let l := arclength d1
  let dl := dArclength d1 e1
  (0 - dl / l ^ 2) • d1 + (1 / l) • e1

/-- `dfrenet_frame_by_dcoeff` (L339-346): `dtdash_by_dcoeff`. -/
noncomputable def dTdash (d1 d2 e1 e2 : V3) : V3 :=
  let l := arclength d1
  let dl := dArclength d1 e1
  (-2 * dl / l ^ 3) • (l • d2 - (inner d1 d2 / l) • d1)
    + ((1 / l) ^ 2) • (dl • d2 + l • e2
        - (inner e1 d2 / l) • d1
        - (inner d1 e2 / l) • d1
        + (inner d1 d2 * dl / l ^ 2) • d1
        - (inner d1 d2 / l) • e1)

/-- `dfrenet_frame_by_dcoeff` (L347-348): `dn_by_dcoeff`; `x ** 1.5` is the real power. -/
noncomputable def dNormal (d1 d2 e1 e2 : V3) : V3 :=
  let td := tdash d1 d2
  let dtd := dTdash d1 d2 e1 e2
  (1 / norm td) • dtd - (inner td dtd / (inner td td) ^ (1.5 : ℝ)) • td

/-- `dfrenet_frame_by_dcoeff` (L350): `db_by_dcoeff`. -/
noncomputable def dBinormal (d1 d2 e1 e2 : V3) : V3 :=
  cross (dTangent d1 e1) (normal d1 d2) + cross (tangent d1) (dNormal d1 d2 e1 e2)

/-- `dkappadash_by_dcoeff` (curve.py L353-407). -/
noncomputable def dKappadash (d1 d2 d3 e1 e2 e3 : V3) : ℝ :=
  let d1_dot_d2 := inner d1 d2
  let d1_x_d2 := cross d1 d2
  let d1_x_d3 := cross d1 d3
  let normdgamma := norm d1
  let norm_d1_x_d2 := norm d1_x_d2
  let d1coeff_x_d2 := cross e1 d2
  let d1coeff_dot_d2 := inner e1 d2
  let d1coeff_x_d3 := cross e1 d3
  let d1_x_d2coeff := cross d1 e2
  let d1_dot_d2coeff := inner d1 e2
  let d1_dot_d1coeff := inner d1 e1
  let d1_x_d3coeff := cross d1 e3
  (inner (d1coeff_x_d2 + d1_x_d2coeff) d1_x_d3 + inner d1_x_d2 (d1coeff_x_d3 + d1_x_d3coeff)) / (norm_d1_x_d2 * normdgamma ^ 3)
    - inner d1_x_d2 d1_x_d3 *
        (inner (d1coeff_x_d2 + d1_x_d2coeff) d1_x_d2 / (norm_d1_x_d2 ^ 3 * normdgamma ^ 3)
          + 3 * inner d1 e1 / (norm_d1_x_d2 * normdgamma ^ 5))
    - 3 * ((d1coeff_dot_d2 + d1_dot_d2coeff) * norm_d1_x_d2 / normdgamma ^ 5
        + d1_dot_d2 * inner (d1coeff_x_d2 + d1_x_d2coeff) d1_x_d2 / (norm_d1_x_d2 * normdgamma ^ 5)
        - 5 * d1_dot_d2 * norm_d1_x_d2 * d1_dot_d1coeff / normdgamma ^ 7)

/-! ### Calculus of vectors -/

theorem inner_self_pos (a : V3) (h : a ≠ 0) : 0 < inner a a := normsq_pos a h

theorem norm_eq (a : V3) : norm a = Real.sqrt (inner a a) := rfl

theorem norm_pos (a : V3) (h : a ≠ 0) : 0 < norm a := Real.sqrt_pos.mpr (inner_self_pos a h)

theorem norm_sq (a : V3) : norm a ^ 2 = inner a a := by
  rw [norm_eq, Real.sq_sqrt]; unfold inner; nlinarith [mul_self_nonneg a.1, mul_self_nonneg a.2.1, mul_self_nonneg a.2.2]

variable {a b : ℝ → V3} {a' b' : V3} {t : ℝ}

theorem d_fst (h : HasDerivAt a a' t) : HasDerivAt (fun t => (a t).1) a'.1 t := h.fst
theorem d_snd (h : HasDerivAt a a' t) : HasDerivAt (fun t => (a t).2.1) a'.2.1 t := h.snd.fst
theorem d_trd (h : HasDerivAt a a' t) : HasDerivAt (fun t => (a t).2.2) a'.2.2 t := h.snd.snd

theorem d_inner (ha : HasDerivAt a a' t) (hb : HasDerivAt b b' t) :
    HasDerivAt (fun t => inner (a t) (b t)) (inner a' (b t) + inner (a t) b') t := by
  have h := (((d_fst ha).mul (d_fst hb)).add ((d_snd ha).mul (d_snd hb))).add ((d_trd ha).mul (d_trd hb))
  refine h.congr_deriv ?_
  simp only [inner]; ring

theorem d_cross (ha : HasDerivAt a a' t) (hb : HasDerivAt b b' t) :
    HasDerivAt (fun t => cross (a t) (b t)) (cross a' (b t) + cross (a t) b') t := by
  have h1 := ((d_snd ha).mul (d_trd hb)).sub ((d_trd ha).mul (d_snd hb))
  have h2 := ((d_trd ha).mul (d_fst hb)).sub ((d_fst ha).mul (d_trd hb))
  have h3 := ((d_fst ha).mul (d_snd hb)).sub ((d_snd ha).mul (d_fst hb))
  refine (h1.prodMk (h2.prodMk h3)).congr_deriv ?_
  ext <;> simp only [cross, Prod.fst_add, Prod.snd_add] <;> ring

theorem d_norm (ha : HasDerivAt a a' t) (h0 : a t ≠ 0) : HasDerivAt (fun t => norm (a t)) (inner (a t) a' / norm (a t)) t := by
  have h := (d_inner ha ha).sqrt (inner_self_pos _ h0).ne'
  refine h.congr_deriv ?_
  rw [← norm_eq]
  have := (norm_pos _ h0).ne'
  simp only [inner]
  field_simp
  ring

theorem pow_three_halves (v : V3) : (inner v v) ^ (1.5 : ℝ) = norm v ^ 3 := by
  have h0 : 0 ≤ inner v v := by unfold inner; nlinarith [mul_self_nonneg v.1, mul_self_nonneg v.2.1, mul_self_nonneg v.2.2]
  rw [norm_eq, Real.sqrt_eq_rpow, ← Real.rpow_natCast, ← Real.rpow_mul h0]
  norm_num

/-! ### The derivatives with respect to a parameter -/

variable {d1 d2 d3 : ℝ → V3} {e1 e2 e3 : V3}

/-- **C53.** `dincremental_arclength_by_dcoeff` is the derivative of `incremental_arclength`. -/
theorem C53_arclength (h1 : HasDerivAt d1 e1 t) (hne : d1 t ≠ 0) :
    HasDerivAt (fun s => arclength (d1 s)) (dArclength (d1 t) e1) t := by
  refine (d_norm h1 hne).congr_deriv ?_
  simp only [dArclength, inner, norm, arclength]; ring

/-- **C53.** `dkappa_by_dcoeff` is the derivative of `kappa`. -/
theorem C53_kappa (h1 : HasDerivAt d1 e1 t) (h2 : HasDerivAt d2 e2 t) (hne : cross (d1 t) (d2 t) ≠ 0) :
    HasDerivAt (fun s => kappa (d1 s) (d2 s)) (dKappa (d1 t) (d2 t) e1 e2) t := by
  have h0 : d1 t ≠ 0 := by rintro h; apply hne; simp [h, cross]
  have hp := norm_pos _ h0
  have hc := norm_pos _ hne
  have h := (d_norm (d_cross h1 h2) hne).div ((d_norm h1 h0).pow 3) (pow_pos hp 3).ne'
  refine h.congr_deriv ?_
  simp only [dKappa, show arclength (d1 t) = norm (d1 t) from rfl, Pi.pow_apply]
  field_simp
  ring

/-- **C53.** `dtorsion_by_dcoeff` is the derivative of `torsion`. -/
theorem C53_torsion (h1 : HasDerivAt d1 e1 t) (h2 : HasDerivAt d2 e2 t) (h3 : HasDerivAt d3 e3 t) (hne : cross (d1 t) (d2 t) ≠ 0) :
    HasDerivAt (fun s => torsion (d1 s) (d2 s) (d3 s)) (dTorsion (d1 t) (d2 t) (d3 t) e1 e2 e3) t := by
  have hp := inner_self_pos _ hne
  have hc := d_cross h1 h2
  have h := (d_inner hc h3).div (d_inner hc hc) hp.ne'
  refine h.congr_deriv ?_
  simp only [dTorsion]
  generalize cross (d1 t) (d2 t) = c at *
  generalize cross e1 (d2 t) + cross (d1 t) e2 = f at *
  have e : inner ((2 : ℝ) • c) f = inner f c + inner c f := by simp only [inner, Prod.smul_fst, Prod.smul_snd, smul_eq_mul]; ring
  rw [e]
  field_simp
  ring

/-- **C53.** `dkappadash_by_dcoeff` is the derivative of `kappadash`. -/
theorem C53_kappadash (h1 : HasDerivAt d1 e1 t) (h2 : HasDerivAt d2 e2 t) (h3 : HasDerivAt d3 e3 t) (hne : cross (d1 t) (d2 t) ≠ 0) :
    HasDerivAt (fun s => kappadash (d1 s) (d2 s) (d3 s)) (dKappadash (d1 t) (d2 t) (d3 t) e1 e2 e3) t := by
  have h0 : d1 t ≠ 0 := by rintro h; apply hne; simp [h, cross]
  have hp := norm_pos _ h0
  have hc := norm_pos _ hne
  have c12 := d_cross h1 h2
  have c13 := d_cross h1 h3
  have n12 := d_norm c12 hne
  have n1 := d_norm h1 h0
  have hA := (d_inner c12 c13).div (n12.mul (n1.pow 3)) (mul_pos hc (pow_pos hp 3)).ne'
  have hB := (((d_inner h1 h2).const_mul 3).mul n12).div (n1.pow 5) (pow_pos hp 5).ne'
  refine (hA.sub hB).congr_deriv ?_
  simp only [dKappadash, Pi.pow_apply, Pi.mul_apply]
  have e : inner (cross e1 (d2 t) + cross (d1 t) e2) (cross (d1 t) (d2 t)) = inner (cross (d1 t) (d2 t)) (cross e1 (d2 t) + cross (d1 t) e2) := by
    simp only [inner]; ring
  rw [e]
  generalize inner (cross (d1 t) (d2 t)) (cross e1 (d2 t) + cross (d1 t) e2) = x
  field_simp
  ring

/-- **C53.** The three arrays of `dfrenet_frame_by_dcoeff` are the derivatives of the three arrays of `frenet_frame`. -/
theorem C53_tangent (h1 : HasDerivAt d1 e1 t) (hne : d1 t ≠ 0) :
    HasDerivAt (fun s => tangent (d1 s)) (dTangent (d1 t) e1) t := by
  have hl := C53_arclength h1 hne
  have hp : 0 < arclength (d1 t) := norm_pos _ hne
  have h := ((hasDerivAt_const t (1 : ℝ)).div hl hp.ne').smul h1
  refine h.congr_deriv ?_
  simp only [dTangent, Pi.div_apply]
  module

theorem d_tdash (h1 : HasDerivAt d1 e1 t) (h2 : HasDerivAt d2 e2 t) (hne : d1 t ≠ 0) :
    HasDerivAt (fun s => tdash (d1 s) (d2 s)) (dTdash (d1 t) (d2 t) e1 e2) t := by
  have hl := C53_arclength h1 hne
  have hp : 0 < arclength (d1 t) := norm_pos _ hne
  have h := (((hasDerivAt_const t (1 : ℝ)).div hl hp.ne').pow 2).smul ((hl.smul h2).sub (((d_inner h1 h2).div hl hp.ne').smul h1))
  refine h.congr_deriv ?_
  simp only [dTdash, Pi.div_apply, Pi.pow_apply, Pi.sub_apply, Pi.smul_apply', show (2 - 1 : Nat) = 1 from rfl, pow_one, Nat.cast_ofNat]
  generalize arclength (d1 t) = l at *
  generalize dArclength (d1 t) e1 = dl at *
  ext <;> simp only [Prod.fst_add, Prod.snd_add, Prod.smul_fst, Prod.smul_snd, Prod.fst_sub, Prod.snd_sub, smul_eq_mul] <;>
    (field_simp; ring)

theorem tdash_eq (u v : V3) : tdash u v = (1 / norm u ^ 3) • cross (cross u v) u := by
  by_cases h0 : u = 0
  · subst h0; ext <;> simp [tdash, cross, inner, arclength]
  have hp := (norm_pos _ h0).ne'
  have hs := norm_sq u
  have hi : inner u u = norm u ^ 2 := hs.symm
  simp only [tdash, show arclength u = norm u from rfl]
  generalize norm u = l at *
  simp only [inner] at hi
  ext <;> simp only [Prod.fst_add, Prod.snd_add, Prod.smul_fst, Prod.smul_snd, Prod.fst_sub, Prod.snd_sub, smul_eq_mul, cross, inner] <;>
    field_simp <;> rw [← hi] <;> ring

theorem norm_smul_v (r : ℝ) (hr : 0 ≤ r) (v : V3) : norm (r • v) = r * norm v := by
  have : inner (r • v) (r • v) = r ^ 2 * inner v v := by simp only [inner, Prod.smul_fst, Prod.smul_snd, smul_eq_mul]; ring
  rw [norm_eq, norm_eq, this, Real.sqrt_mul (sq_nonneg r), Real.sqrt_sq hr]

theorem norm_cross_orth (u v : V3) (h : inner u v = 0) : norm (cross u v) = norm u * norm v := by
  have e : inner (cross u v) (cross u v) = inner u u * inner v v := by
    have : inner (cross u v) (cross u v) = inner u u * inner v v - inner u v ^ 2 := by simp only [inner, cross]; ring
    rw [this, h]; ring
  rw [norm_eq, e, Real.sqrt_mul (by unfold inner; nlinarith [mul_self_nonneg u.1, mul_self_nonneg u.2.1, mul_self_nonneg u.2.2])]
  rfl

theorem norm_tdash (u v : V3) : norm (tdash u v) = norm (cross u v) * norm u / norm u ^ 3 := by
  rw [tdash_eq, norm_smul_v _ (by have := Real.sqrt_nonneg (inner u u); rw [← norm_eq] at this; positivity),
    norm_cross_orth _ _ (by simp only [inner, cross]; ring)]
  ring

theorem tdash_ne (u v : V3) (h : cross u v ≠ 0) : tdash u v ≠ 0 := by
  have h0 : u ≠ 0 := by rintro rfl; apply h; simp [cross]
  have hp := norm_pos _ h0
  have hc := norm_pos _ h
  intro hz
  have := norm_tdash u v
  rw [hz] at this
  have h2 : norm (0 : V3) = 0 := by simp [norm]
  rw [h2] at this
  have : 0 < norm (cross u v) * norm u / norm u ^ 3 := by positivity
  linarith

theorem C53_normal (h1 : HasDerivAt d1 e1 t) (h2 : HasDerivAt d2 e2 t) (hne : cross (d1 t) (d2 t) ≠ 0) :
    HasDerivAt (fun s => normal (d1 s) (d2 s)) (dNormal (d1 t) (d2 t) e1 e2) t := by
  have h0 : d1 t ≠ 0 := by rintro h; apply hne; simp [h, cross]
  have hd := d_tdash h1 h2 h0
  have htd := tdash_ne _ _ hne
  have hp := norm_pos _ htd
  have h := ((hasDerivAt_const t (1 : ℝ)).div (d_norm hd htd) hp.ne').smul hd
  refine h.congr_deriv ?_
  simp only [dNormal, Pi.div_apply, pow_three_halves]
  generalize tdash (d1 t) (d2 t) = td at *
  generalize norm td = l at *
  ext <;> simp only [Prod.fst_add, Prod.snd_add, Prod.smul_fst, Prod.smul_snd, Prod.fst_sub, Prod.snd_sub, smul_eq_mul] <;>
    (field_simp; ring)

theorem C53_binormal (h1 : HasDerivAt d1 e1 t) (h2 : HasDerivAt d2 e2 t) (hne : cross (d1 t) (d2 t) ≠ 0) :
    HasDerivAt (fun s => binormal (d1 s) (d2 s)) (dBinormal (d1 t) (d2 t) e1 e2) t :=
  d_cross (C53_tangent h1 (by rintro h; apply hne; simp [h, cross])) (C53_normal h1 h2 hne)

/-! ### The frame is orthonormal and satisfies the Frenet-Serret equations -/

theorem normal_eq (u v : V3) : normal u v = (1 / (norm (cross u v) * norm u)) • cross (cross u v) u := by
  by_cases h : cross u v = 0
  · have : tdash u v = 0 := by rw [tdash_eq, h]; simp [cross]
    rw [normal, this, h]; simp [cross]; rfl
  have h0 : u ≠ 0 := by rintro rfl; apply h; simp [cross]
  have hp := norm_pos _ h0
  have hc := norm_pos _ h
  rw [normal, norm_tdash, tdash_eq, smul_smul]
  congr 1
  field_simp

theorem binormal_eq (u v : V3) : binormal u v = (1 / norm (cross u v)) • cross u v := by
  by_cases h : cross u v = 0
  · rw [binormal, normal_eq, h]; simp [cross]
  have h0 : u ≠ 0 := by rintro rfl; apply h; simp [cross]
  have hp := norm_pos _ h0
  have hc := norm_pos _ h
  have hi := norm_sq u
  rw [binormal, normal_eq, tangent, show arclength u = norm u from rfl]
  have e : cross ((1 / norm u) • u) ((1 / (norm (cross u v) * norm u)) • cross (cross u v) u) =
      (1 / (norm (cross u v) * norm u ^ 2)) • (inner u u • cross u v) := by
    generalize norm (cross u v) = q at *
    generalize norm u = l at *
    ext <;> simp only [Prod.smul_fst, Prod.smul_snd, smul_eq_mul, cross, inner] <;> (field_simp; ring)
  rw [e, ← hi, smul_smul]
  congr 1
  field_simp

/-- **C53.** The Frenet frame is orthonormal and positively oriented wherever the curvature does not vanish. -/
theorem C53_orthonormal (u v : V3) (h : cross u v ≠ 0) :
    inner (tangent u) (tangent u) = 1 ∧ inner (normal u v) (normal u v) = 1 ∧ inner (binormal u v) (binormal u v) = 1 ∧
      inner (tangent u) (normal u v) = 0 ∧ inner (tangent u) (binormal u v) = 0 ∧ inner (normal u v) (binormal u v) = 0 ∧
      cross (tangent u) (normal u v) = binormal u v := by
  have h0 : u ≠ 0 := by rintro rfl; apply h; simp [cross]
  have hp := norm_pos _ h0
  have hc := norm_pos _ h
  have is : ∀ (r q : ℝ) (a b : V3), inner (r • a) (q • b) = r * q * inner a b := by
    intro r q a b; simp only [inner, Prod.smul_fst, Prod.smul_snd, smul_eq_mul]; ring
  have c1 : inner (cross (cross u v) u) (cross (cross u v) u) = norm (cross u v) ^ 2 * norm u ^ 2 := by
    rw [norm_sq, norm_sq]; simp only [inner, cross]; ring
  rw [normal_eq, binormal_eq, tangent, show arclength u = norm u from rfl]
  refine ⟨?_, ?_, ?_, ?_, ?_, ?_, ?_⟩
  · rw [is, ← norm_sq]; field_simp
  · rw [is, c1]; field_simp
  · rw [is, ← norm_sq]; field_simp
  · rw [is]; simp only [inner, cross]; ring
  · rw [is]; simp only [inner, cross]; ring
  · rw [is]; simp only [inner, cross]; ring
  · have := binormal_eq u v
    rw [binormal, normal_eq, tangent] at this
    exact this

/-- `phi ↦ (d1, d2, d3)` are successive derivatives of one curve at `t`. -/
structure Successive (d1 d2 d3 : ℝ → V3) (t : ℝ) : Prop where
  h1 : HasDerivAt d1 (d2 t) t
  h2 : HasDerivAt d2 (d3 t) t

/-- **C53.** `kappadash` is the derivative of `kappa` along the curve. -/
theorem C53_kappadash_is_derivative (h : Successive d1 d2 d3 t) (hne : cross (d1 t) (d2 t) ≠ 0) :
    HasDerivAt (fun s => kappa (d1 s) (d2 s)) (kappadash (d1 t) (d2 t) (d3 t)) t := by
  have h0 : d1 t ≠ 0 := by rintro h; apply hne; simp [h, cross]
  have hp := norm_pos _ h0
  have hc := norm_pos _ hne
  refine (C53_kappa h.h1 h.h2 hne).congr_deriv ?_
  have e : cross (d2 t) (d2 t) = 0 := by ext <;> simp only [cross, Prod.fst_zero, Prod.snd_zero] <;> ring
  simp only [dKappa, kappadash, show arclength (d1 t) = norm (d1 t) from rfl, e, zero_add]
  ring

/-- **C53.** Frenet-Serret: with `l` the incremental arclength, `κ` the curvature and `τ` the torsion that the curve
reports, the frame that it reports satisfies `t' = l κ n`, `n' = -l κ t + l τ b`, `b' = -l τ n`. -/
theorem C53_frenet_serret (h : Successive d1 d2 d3 t) (hne : cross (d1 t) (d2 t) ≠ 0) :
    HasDerivAt (fun s => tangent (d1 s)) ((arclength (d1 t) * kappa (d1 t) (d2 t)) • normal (d1 t) (d2 t)) t ∧
    HasDerivAt (fun s => normal (d1 s) (d2 s))
      ((-(arclength (d1 t) * kappa (d1 t) (d2 t))) • tangent (d1 t) +
        (arclength (d1 t) * torsion (d1 t) (d2 t) (d3 t)) • binormal (d1 t) (d2 t)) t ∧
    HasDerivAt (fun s => binormal (d1 s) (d2 s))
      ((-(arclength (d1 t) * torsion (d1 t) (d2 t) (d3 t))) • normal (d1 t) (d2 t)) t := by
  have h0 : d1 t ≠ 0 := by rintro h; apply hne; simp [h, cross]
  have hp := norm_pos _ h0
  have hc := norm_pos _ hne
  have hT : HasDerivAt (fun s => tangent (d1 s)) ((arclength (d1 t) * kappa (d1 t) (d2 t)) • normal (d1 t) (d2 t)) t := by
    refine (C53_tangent h.h1 h0).congr_deriv ?_
    rw [normal_eq]
    simp only [dTangent, dArclength, kappa, show arclength (d1 t) = norm (d1 t) from rfl]
    have hi : inner (d1 t) (d1 t) = norm (d1 t) ^ 2 := (norm_sq _).symm
    generalize norm (cross (d1 t) (d2 t)) = q at *
    generalize norm (d1 t) = l at *
    simp only [inner] at hi
    ext <;> simp only [Prod.fst_add, Prod.snd_add, Prod.smul_fst, Prod.smul_snd, smul_eq_mul, cross] <;>
      field_simp <;> rw [← hi] <;> ring
  have hB : HasDerivAt (fun s => binormal (d1 s) (d2 s))
      ((-(arclength (d1 t) * torsion (d1 t) (d2 t) (d3 t))) • normal (d1 t) (d2 t)) t := by
    have e : (fun s => binormal (d1 s) (d2 s)) = fun s => (1 / norm (cross (d1 s) (d2 s))) • cross (d1 s) (d2 s) :=
      funext fun s => binormal_eq _ _
    rw [e, normal_eq]
    have hcd := d_cross h.h1 h.h2
    have hd := ((hasDerivAt_const t (1 : ℝ)).div (d_norm hcd hne) hc.ne').smul hcd
    refine hd.congr_deriv ?_
    have e0 : cross (d2 t) (d2 t) = 0 := by ext <;> simp only [cross, Prod.fst_zero, Prod.snd_zero] <;> ring
    simp only [Pi.div_apply, e0, zero_add, torsion, show arclength (d1 t) = norm (d1 t) from rfl]
    have hi : inner (cross (d1 t) (d2 t)) (cross (d1 t) (d2 t)) = norm (cross (d1 t) (d2 t)) ^ 2 := (norm_sq _).symm
    rw [hi]
    generalize norm (cross (d1 t) (d2 t)) = q at *
    generalize norm (d1 t) = l at *
    generalize d1 t = u at *
    generalize d2 t = v at *
    generalize d3 t = w at *
    simp only [inner, cross] at hi
    ext <;> simp only [Prod.fst_add, Prod.snd_add, Prod.smul_fst, Prod.smul_snd, smul_eq_mul, cross, inner] <;>
      field_simp <;> rw [← hi] <;> ring
  refine ⟨hT, ?_, hB⟩
  have en : (fun s => normal (d1 s) (d2 s)) = fun s => cross (binormal (d1 s) (d2 s)) (tangent (d1 s)) := by
    funext s
    by_cases hs : cross (d1 s) (d2 s) = 0
    · rw [normal_eq, binormal_eq, hs]; simp [cross]
    · have h1 : d1 s ≠ 0 := by rintro h; apply hs; simp [h, cross]
      have hp := norm_pos _ h1
      have hc := norm_pos _ hs
      rw [normal_eq, binormal_eq, tangent, show arclength (d1 s) = norm (d1 s) from rfl]
      generalize cross (d1 s) (d2 s) = c at *
      ext <;> simp only [Prod.smul_fst, Prod.smul_snd, smul_eq_mul, cross] <;> (field_simp)
  rw [en]
  refine (d_cross hB hT).congr_deriv ?_
  obtain ⟨ht, hn, hb, htn, htb, hnb, ho⟩ := C53_orthonormal (d1 t) (d2 t) hne
  rw [← ho]
  generalize tangent (d1 t) = T at *
  generalize normal (d1 t) (d2 t) = N at *
  generalize arclength (d1 t) * torsion (d1 t) (d2 t) (d3 t) = x
  generalize arclength (d1 t) * kappa (d1 t) (d2 t) = y
  have e1 : cross ((-x) • N) T = x • cross T N := by
    ext <;> simp only [Prod.smul_fst, Prod.smul_snd, smul_eq_mul, cross] <;> ring
  have e2 : cross (cross T N) (y • N) = y • (inner T N • N - inner N N • T) := by
    ext <;> simp only [Prod.smul_fst, Prod.smul_snd, Prod.fst_sub, Prod.snd_sub, smul_eq_mul, cross, inner] <;> ring
  rw [e1, e2, htn, hn]
  module

/-! ### Composition with a parametrisation: CurveXYZFourier -/

/-- The row of `gamma()`, `gammadash()`, ... (`n` = 0, 1, 2, 3) of a `CurveXYZFourier` at the parameter `t`. -/
noncomputable def xyz (n : Fin 4) (order : Nat) (d : List ℝ) (t : ℝ) : V3 :=
  (Curves.curve n order d 0 t, Curves.curve n order d 1 t, Curves.curve n order d 2 t)

/-- The row of `dgamma_by_dcoeff()[:, :, p]`, ... -/
noncomputable def dxyz (n : Fin 4) (order : Nat) (t : ℝ) (p : Nat) : V3 :=
  ((Curves.dcurve n order 0 t)[p]?.getD 0, (Curves.dcurve n order 1 t)[p]?.getD 0, (Curves.dcurve n order 2 t)[p]?.getD 0)

theorem xyz_successive (order : Nat) (d : List ℝ) (t : ℝ) : Successive (xyz 1 order d) (xyz 2 order d) (xyz 3 order d) t :=
  ⟨(Curves.C52_dash 1 order d 0 (by omega) t).prodMk ((Curves.C52_dash 1 order d 1 (by omega) t).prodMk (Curves.C52_dash 1 order d 2 (by omega) t)),
   (Curves.C52_dash 2 order d 0 (by omega) t).prodMk ((Curves.C52_dash 2 order d 1 (by omega) t).prodMk (Curves.C52_dash 2 order d 2 (by omega) t))⟩

/-- Changing dof `p`: the derivative of a row. -/
theorem xyz_dof (n : Fin 4) (order : Nat) (d : List ℝ) (hd : d.length = 3 * (2 * order + 1)) (t : ℝ) (p : Nat) (hp : p < d.length) :
    HasDerivAt (fun x => xyz n order (d.set p x) t) (dxyz n order t p) d[p] := by
  have hp' : p < 3 * (2 * order + 1) := hd ▸ hp
  have hg : d[p]?.getD 0 = d[p] := by rw [List.getElem?_eq_getElem hp]; rfl
  have e : (fun x => xyz n order (d.set p x) t) = fun x => xyz n order d t + (x - d[p]) • dxyz n order t p := by
    funext x
    have h := fun i hi => Curves.C52_dcoeff n order d hd i hi t p hp' (x - d[p])
    simp only [hg, add_sub_cancel] at h
    ext
    · simpa [xyz, dxyz] using h 0 (by omega)
    · simpa [xyz, dxyz] using h 1 (by omega)
    · simpa [xyz, dxyz] using h 2 (by omega)
  rw [e]
  have h := HasDerivAt.const_add (xyz n order d t) (((hasDerivAt_id d[p]).sub_const d[p]).smul_const (dxyz n order t p))
  rw [one_smul] at h
  exact h

/-- **C53, for a whole class of curves.**  For every order, every dof vector, every dof and every quadrature point of a
`CurveXYZFourier` where the curvature does not vanish: `dkappa_by_dcoeff`, `dtorsion_by_dcoeff`, `dkappadash_by_dcoeff`,
`dincremental_arclength_by_dcoeff` and the three arrays of `dfrenet_frame_by_dcoeff` are the derivatives in that dof of the
corresponding quantities. -/
theorem C53_xyzfourier (order : Nat) (d : List ℝ) (hd : d.length = 3 * (2 * order + 1)) (t : ℝ) (p : Nat) (hp : p < d.length)
    (hne : cross (xyz 1 order d t) (xyz 2 order d t) ≠ 0) :
    HasDerivAt (fun x => arclength (xyz 1 order (d.set p x) t)) (dArclength (xyz 1 order d t) (dxyz 1 order t p)) d[p] ∧
    HasDerivAt (fun x => kappa (xyz 1 order (d.set p x) t) (xyz 2 order (d.set p x) t))
      (dKappa (xyz 1 order d t) (xyz 2 order d t) (dxyz 1 order t p) (dxyz 2 order t p)) d[p] ∧
    HasDerivAt (fun x => torsion (xyz 1 order (d.set p x) t) (xyz 2 order (d.set p x) t) (xyz 3 order (d.set p x) t))
      (dTorsion (xyz 1 order d t) (xyz 2 order d t) (xyz 3 order d t) (dxyz 1 order t p) (dxyz 2 order t p) (dxyz 3 order t p)) d[p] ∧
    HasDerivAt (fun x => kappadash (xyz 1 order (d.set p x) t) (xyz 2 order (d.set p x) t) (xyz 3 order (d.set p x) t))
      (dKappadash (xyz 1 order d t) (xyz 2 order d t) (xyz 3 order d t) (dxyz 1 order t p) (dxyz 2 order t p) (dxyz 3 order t p)) d[p] ∧
    HasDerivAt (fun x => tangent (xyz 1 order (d.set p x) t)) (dTangent (xyz 1 order d t) (dxyz 1 order t p)) d[p] ∧
    HasDerivAt (fun x => normal (xyz 1 order (d.set p x) t) (xyz 2 order (d.set p x) t))
      (dNormal (xyz 1 order d t) (xyz 2 order d t) (dxyz 1 order t p) (dxyz 2 order t p)) d[p] ∧
    HasDerivAt (fun x => binormal (xyz 1 order (d.set p x) t) (xyz 2 order (d.set p x) t))
      (dBinormal (xyz 1 order d t) (xyz 2 order d t) (dxyz 1 order t p) (dxyz 2 order t p)) d[p] := by
  have h1 := xyz_dof 1 order d hd t p hp
  have h2 := xyz_dof 2 order d hd t p hp
  have h3 := xyz_dof 3 order d hd t p hp
  have hs : d.set p d[p] = d := List.set_getElem_self hp
  have h0 : xyz 1 order d t ≠ 0 := by rintro h; apply hne; simp [h, cross]
  have A := C53_arclength h1 (by rw [hs]; exact h0)
  have K := C53_kappa h1 h2 (by rw [hs]; exact hne)
  have T := C53_torsion h1 h2 h3 (by rw [hs]; exact hne)
  have D := C53_kappadash h1 h2 h3 (by rw [hs]; exact hne)
  have t' := C53_tangent h1 (by rw [hs]; exact h0)
  have n' := C53_normal h1 h2 (by rw [hs]; exact hne)
  have b' := C53_binormal h1 h2 (by rw [hs]; exact hne)
  simp only [hs] at A K T D t' n' b'
  exact ⟨A, K, T, D, t', n', b'⟩

/-- Non-vacuity: the unit circle `(cos 2πt, sin 2πt, 0)` as a `CurveXYZFourier` of order 1, at `t = 0`. -/
theorem circle_nondegenerate : cross (xyz 1 1 [0, 0, 1, 0, 1, 0, 0, 0, 0] 0) (xyz 2 1 [0, 0, 1, 0, 1, 0, 0, 0, 0] 0) ≠ 0 := by
  intro h
  have h3 : (cross (xyz 1 1 [0, 0, 1, 0, 1, 0, 0, 0, 0] 0) (xyz 2 1 [0, 0, 1, 0, 1, 0, 0, 0, 0] 0)).2.2 = 0 := by rw [h]; rfl
  simp [cross, xyz, Curves.curve, Curves.evalRow, Curves.setDofs, Curves.sfac, Curves.cfac, Curves.c0, List.range_succ] at h3

end Simsopt.Geometry
