import Verif.PyList
import Mathlib.Analysis.SpecialFunctions.Complex.Arg
import Mathlib.Analysis.SpecialFunctions.Sqrt
import Mathlib.Analysis.Calculus.Deriv.Add
import Mathlib.Analysis.Calculus.Deriv.Mul
import Mathlib.Analysis.Calculus.Deriv.Inv
import Mathlib.Analysis.Calculus.Deriv.Prod
import Mathlib.Analysis.Calculus.FDeriv.Comp
import Mathlib.LinearAlgebra.Matrix.NonsingularInverse
import Mathlib.LinearAlgebra.Matrix.Trace
import Mathlib.LinearAlgebra.Matrix.Notation
import Mathlib.Tactic.Ring
import Mathlib.Tactic.Linarith
import Mathlib.Tactic.FieldSimp
import Mathlib.Tactic.NormNum
/-!
# The rotational transform on the magnetic axis (C179)

Model of `compute_on_axis_iota` (src/simsopt/field/magnetic_axis_helpers.py L7-90).  Real numbers instead of doubles; the solution of the differential equation by `solve_ivp` (L86) is an argument.
-/
namespace Simsopt.Axis
open Real

/-- What the code reads of the field at a point of the axis (L26-53): the field, its array `dB_by_dX[j, k]` (the derivative of component k in direction j, the convention of `MagneticField.dB_by_dX`), cosine and sine of the toroidal angle, and the distance from the z axis. -/
structure Local where
  B : Fin 3 → ℝ
  D : Fin 3 → Fin 3 → ℝ
  c : ℝ
  s : ℝ
  R : ℝ

namespace Local
variable (l : Local)
/-- `BR` (L55). -/
def BR : ℝ := l.c * l.B 0 + l.s * l.B 1
/-- `Bphi` (L56). -/
def Bphi : ℝ := -l.s * l.B 0 + l.c * l.B 1
/-- `BZ` (L57). -/
def BZ : ℝ := l.B 2
/-- `dBk_dR` (L36-46, L59-61): the code reads `dBk_dx = D[k, 0]`, `dBk_dy = D[k, 1]`. -/
def dR (k : Fin 3) : ℝ := l.D k 0 * l.c + l.D k 1 * l.s
/-- `dBk_dz` (L38, L42, L46): read as `D[k, 2]`. -/
def dZ (k : Fin 3) : ℝ := l.D k 2
/-- `dBR_dR` (L63). -/
def BRR : ℝ := l.c * l.dR 0 + l.s * l.dR 1
/-- `dBphi_dR` (L64). -/
def BphiR : ℝ := -l.s * l.dR 0 + l.c * l.dR 1
/-- `dBZ_dR` (L65). -/
def BZR : ℝ := l.dR 2
/-- `dBR_dZ` (L67). -/
def BRZ : ℝ := l.c * l.dZ 0 + l.s * l.dZ 1
/-- `dBphi_dZ` (L68). -/
def BphiZ : ℝ := -l.s * l.dZ 0 + l.c * l.dZ 1
/-- `dBZ_dZ` (L69). -/
def BZZ : ℝ := l.dZ 2
/-- `Bphi_R` (L71). -/
noncomputable def q : ℝ := l.Bphi / l.R
/-- `d_Bphi_R_dR` (L72). -/
noncomputable def qR : ℝ := (l.BphiR * l.R - l.Bphi) / l.R ^ 2
/-- `d_Bphi_R_dZ` (L73). -/
noncomputable def qZ : ℝ := l.BphiZ / l.R
/-- `A11` (L75). -/
noncomputable def A11 : ℝ := (l.BRR - l.BR / l.q * l.qR) / l.q
/-- `A21` (L76). -/
noncomputable def A21 : ℝ := (l.BZR - l.BZ / l.q * l.qR) / l.q
/-- `A12` (L77). -/
noncomputable def A12 : ℝ := (l.BRZ - l.BR / l.q * l.qZ) / l.q
/-- `A22` (L78). -/
noncomputable def A22 : ℝ := (l.BZZ - l.BZ / l.q * l.qZ) / l.q
/-- The right-hand side (L79-80): `A` on the first and on the second pair of components, times 2π since the variable is φ / 2π. -/
noncomputable def rhs (x : Fin 4 → ℝ) : Fin 4 → ℝ
  | 0 => 2 * π * (l.A11 * x 0 + l.A12 * x 1)
  | 1 => 2 * π * (l.A21 * x 0 + l.A22 * x 1)
  | 2 => 2 * π * (l.A11 * x 2 + l.A12 * x 3)
  | 3 => 2 * π * (l.A21 * x 2 + l.A22 * x 3)
end Local

/-- `y0` and the reshaped solution (L85-87): `y[:2]` and `y[2:]` are the images of the two unit vectors under the tangent map `T`, which become the rows of the matrix. -/
def code (T : Matrix (Fin 2) (Fin 2) ℝ) : Matrix (Fin 2) (Fin 2) ℝ := !![T 0 0, T 1 0; T 0 1, T 1 1]
/-- `evals[0]` (L88): for a real matrix with complex eigenvalues LAPACK gives the one of positive imaginary part first.  For real eigenvalues of one sign only their sign matters below, and their mean is given. -/
noncomputable def eigenvalue (M : Matrix (Fin 2) (Fin 2) ℝ) : ℂ := ⟨M.trace / 2, √(M.det - (M.trace / 2) ^ 2)⟩
/-- `iota` (L89). -/
noncomputable def iotaOf (nfp : ℝ) (T : Matrix (Fin 2) (Fin 2) ℝ) : ℝ := Complex.arg (eigenvalue (code T)) * nfp / (2 * π)

/-! ### Specification -/

/-- A point of space. -/
abbrev V := ℝ × ℝ × ℝ
/-- The point at distance `R` and height `Z` in the half plane of the angle with cosine `c` and sine `s`. -/
def pt (c s R Z : ℝ) : V := (R * c, R * s, Z)
/-- The unit vectors. -/
def e : Fin 3 → V
  | 0 => (1, 0, 0)
  | 1 => (0, 1, 0)
  | 2 => (0, 0, 1)
/-- The field `B` and its derivative `L` at the point, as the code reads them. -/
def localOf (B : Fin 3 → V → ℝ) (L : Fin 3 → V →L[ℝ] ℝ) (c s R Z : ℝ) : Local where
  B k := B k (pt c s R Z)
  D j k := L k (e j)
  c := c
  s := s
  R := R
/-- dR/dφ along a field line. -/
noncomputable def slopeR (B : Fin 3 → V → ℝ) (c s R Z : ℝ) : ℝ := R * (c * B 0 (pt c s R Z) + s * B 1 (pt c s R Z)) / (-s * B 0 (pt c s R Z) + c * B 1 (pt c s R Z))
/-- dZ/dφ along a field line. -/
noncomputable def slopeZ (B : Fin 3 → V → ℝ) (c s R Z : ℝ) : ℝ := R * B 2 (pt c s R Z) / (-s * B 0 (pt c s R Z) + c * B 1 (pt c s R Z))
/-- The field has no curl at the point (there is no current there). -/
def CurlFree (L : Fin 3 → V →L[ℝ] ℝ) : Prop := ∀ j k, L k (e j) = L j (e k)
/-- Rotation by an angle. -/
noncomputable def rotation (a : ℝ) : Matrix (Fin 2) (Fin 2) ℝ := !![cos a, -sin a; sin a, cos a]

/-! ### Theorems -/

theorem alongR (f : V → ℝ) (L : V →L[ℝ] ℝ) (c s R Z : ℝ) (h : HasFDerivAt f L (pt c s R Z)) :
    HasDerivAt (fun R => f (pt c s R Z)) (L (e 0) * c + L (e 1) * s) R := by
  have hp : HasDerivAt (fun R : ℝ => pt c s R Z) (c, s, 0) R := by
    unfold pt
    exact (((hasDerivAt_id R).mul_const c).congr_deriv (one_mul c)).prodMk ((((hasDerivAt_id R).mul_const s).congr_deriv (one_mul s)).prodMk (hasDerivAt_const R Z))
  refine (h.comp_hasDerivAt R hp).congr_deriv ?_
  have : ((c, s, 0) : V) = c • e 0 + s • e 1 := by simp [e]
  rw [this, map_add, map_smul, map_smul]
  simp only [smul_eq_mul]; ring

theorem alongZ (f : V → ℝ) (L : V →L[ℝ] ℝ) (c s R Z : ℝ) (h : HasFDerivAt f L (pt c s R Z)) :
    HasDerivAt (fun Z => f (pt c s R Z)) (L (e 2)) Z := by
  have hp : HasDerivAt (fun Z : ℝ => pt c s R Z) (0, 0, 1) Z := by
    unfold pt
    exact (hasDerivAt_const Z (R * c)).prodMk ((hasDerivAt_const Z (R * s)).prodMk (hasDerivAt_id Z))
  exact (h.comp_hasDerivAt Z hp).congr_deriv rfl

/-- **C179** At a point without current, off the z axis and with a toroidal field, the code's matrix A is the derivative of the slopes of the field lines with respect to R and Z. -/
theorem C179_tangent (B : Fin 3 → V → ℝ) (L : Fin 3 → V →L[ℝ] ℝ) (c s R Z : ℝ) (hB : ∀ k, HasFDerivAt (B k) (L k) (pt c s R Z)) (hc : CurlFree L) (hR : R ≠ 0)
    (hp : -s * B 0 (pt c s R Z) + c * B 1 (pt c s R Z) ≠ 0) :
    HasDerivAt (fun R => slopeR B c s R Z) (localOf B L c s R Z).A11 R ∧ HasDerivAt (fun R => slopeZ B c s R Z) (localOf B L c s R Z).A21 R ∧
    HasDerivAt (fun Z => slopeR B c s R Z) (localOf B L c s R Z).A12 Z ∧ HasDerivAt (fun Z => slopeZ B c s R Z) (localOf B L c s R Z).A22 Z := by
  have r := fun k => alongR (B k) (L k) c s R Z (hB k)
  have z := fun k => alongZ (B k) (L k) c s R Z (hB k)
  have dphiR := HasDerivAt.fun_add ((r 0).const_mul (-s)) ((r 1).const_mul c)
  have dphiZ := HasDerivAt.fun_add ((z 0).const_mul (-s)) ((z 1).const_mul c)
  have h01 := hc 0 1
  have h02 := hc 0 2
  have h12 := hc 1 2
  refine ⟨?_, ?_, ?_, ?_⟩
  · refine (HasDerivAt.fun_div (HasDerivAt.fun_mul (hasDerivAt_id R) (HasDerivAt.fun_add ((r 0).const_mul c) ((r 1).const_mul s))) dphiR hp).congr_deriv ?_
    simp only [Local.A11, Local.BRR, Local.BR, Local.q, Local.qR, Local.Bphi, Local.BphiR, Local.dR, localOf, id]
    rw [h01]
    generalize -s * B 0 (pt c s R Z) + c * B 1 (pt c s R Z) = d at hp ⊢
    field_simp
    ring
  · refine (HasDerivAt.fun_div (HasDerivAt.fun_mul (hasDerivAt_id R) (r 2)) dphiR hp).congr_deriv ?_
    simp only [Local.A21, Local.BZR, Local.BZ, Local.q, Local.qR, Local.Bphi, Local.BphiR, Local.dR, localOf, id]
    rw [h01, h02, h12]
    generalize -s * B 0 (pt c s R Z) + c * B 1 (pt c s R Z) = d at hp ⊢
    field_simp
    ring
  · refine (HasDerivAt.fun_div (HasDerivAt.const_mul R (HasDerivAt.fun_add ((z 0).const_mul c) ((z 1).const_mul s))) dphiZ hp).congr_deriv ?_
    simp only [Local.A12, Local.BRZ, Local.BR, Local.q, Local.qZ, Local.Bphi, Local.BphiZ, Local.dZ, localOf]
    rw [← h02, ← h12]
    generalize -s * B 0 (pt c s R Z) + c * B 1 (pt c s R Z) = d at hp ⊢
    field_simp
  · refine (HasDerivAt.fun_div ((z 2).const_mul R) dphiZ hp).congr_deriv ?_
    simp only [Local.A22, Local.BZZ, Local.BZ, Local.q, Local.qZ, Local.Bphi, Local.BphiZ, Local.dZ, localOf]
    rw [← h02, ← h12]
    generalize -s * B 0 (pt c s R Z) + c * B 1 (pt c s R Z) = d at hp ⊢
    field_simp

/-- **C179** The equation that is integrated, in the variable φ / 2π, is the linearized one for two displacements (dR, dZ) of the field line at once. -/
theorem C179_equation (B : Fin 3 → V → ℝ) (L : Fin 3 → V →L[ℝ] ℝ) (c s R Z : ℝ) (hB : ∀ k, HasFDerivAt (B k) (L k) (pt c s R Z)) (hc : CurlFree L) (hR : R ≠ 0)
    (hp : -s * B 0 (pt c s R Z) + c * B 1 (pt c s R Z) ≠ 0) (a b : Fin 2 → ℝ) :
    let out := (localOf B L c s R Z).rhs ![a 0, a 1, b 0, b 1]
    (∀ d ∈ [(a, out 0), (b, out 2)], d.2 = 2 * π * (deriv (fun R => slopeR B c s R Z) R * d.1 0 + deriv (fun Z => slopeR B c s R Z) Z * d.1 1)) ∧
    (∀ d ∈ [(a, out 1), (b, out 3)], d.2 = 2 * π * (deriv (fun R => slopeZ B c s R Z) R * d.1 0 + deriv (fun Z => slopeZ B c s R Z) Z * d.1 1)) := by
  obtain ⟨h1, h2, h3, h4⟩ := C179_tangent B L c s R Z hB hc hR hp
  rw [h1.deriv, h2.deriv, h3.deriv, h4.deriv]
  simp [Local.rhs]

theorem code_trace (T : Matrix (Fin 2) (Fin 2) ℝ) : (code T).trace = T.trace := by
  simp [code, Matrix.trace_fin_two]
theorem code_det (T : Matrix (Fin 2) (Fin 2) ℝ) : (code T).det = T.det := by
  simp [code, Matrix.det_fin_two]; ring

/-- **C179** If in some coordinates the tangent map of a field period is the rotation by the angle 2π ι / nfp, of at most half a turn, the result is the absolute value of ι. -/
theorem C179_iota (T P : Matrix (Fin 2) (Fin 2) ℝ) (hP : IsUnit P.det) (iota nfp : ℝ) (hn : 0 < nfp) (hi : |iota| ≤ nfp / 2) (hT : T = P * rotation (2 * π * iota / nfp) * P⁻¹) :
    iotaOf nfp T = |iota| := by
  have hu : IsUnit P := (Matrix.isUnit_iff_isUnit_det P).mpr hP
  have ht : T.trace = 2 * cos (2 * π * |iota| / nfp) := by
    rw [hT, Matrix.trace_mul_comm, ← Matrix.mul_assoc, Matrix.nonsing_inv_mul P hP, Matrix.one_mul]
    have : cos (2 * π * |iota| / nfp) = cos (2 * π * iota / nfp) := by
      rcases abs_cases iota with ⟨h, _⟩ | ⟨h, _⟩
      · rw [h]
      · rw [h, show 2 * π * -iota / nfp = -(2 * π * iota / nfp) by ring, cos_neg]
    simp [rotation, Matrix.trace_fin_two, this]; ring
  have hd : T.det = 1 := by
    rw [hT, Matrix.det_mul, Matrix.det_mul, mul_comm, ← mul_assoc, ← Matrix.det_mul, Matrix.nonsing_inv_mul P hP, Matrix.det_one, one_mul]
    simp [rotation, Matrix.det_fin_two]
    nlinarith [sin_sq_add_cos_sq (2 * π * iota / nfp)]
  set a := 2 * π * |iota| / nfp with ha
  have ha0 : 0 ≤ a := by positivity
  have ha1 : a ≤ π := by
    rw [ha, div_le_iff₀ hn]; nlinarith [pi_pos]
  have hs : √(1 - cos a ^ 2) = sin a := by
    rw [show 1 - cos a ^ 2 = sin a ^ 2 by nlinarith [sin_sq_add_cos_sq a]]
    exact sqrt_sq (sin_nonneg_of_nonneg_of_le_pi ha0 ha1)
  have he : eigenvalue (code T) = Complex.cos a + Complex.sin a * Complex.I := by
    rw [eigenvalue, code_trace, code_det, ht, hd]
    rw [show 2 * cos a / 2 = cos a by ring, hs, ← Complex.ofReal_cos, ← Complex.ofReal_sin]
    exact Complex.mk_eq_add_mul_I _ _
  rw [iotaOf, he, Complex.arg_cos_add_sin_mul_I ⟨by linarith [pi_pos], ha1⟩, ha]
  field_simp

/-- **C179** The result is between 0 and nfp / 2, whatever the tangent map. -/
theorem C179_range (nfp : ℝ) (hn : 0 ≤ nfp) (T : Matrix (Fin 2) (Fin 2) ℝ) : 0 ≤ iotaOf nfp T ∧ iotaOf nfp T ≤ nfp / 2 := by
  have h0 : 0 ≤ (eigenvalue (code T)).arg := Complex.arg_nonneg_iff.mpr (sqrt_nonneg _)
  have h1 := Complex.arg_le_pi (eigenvalue (code T))
  unfold iotaOf
  constructor
  · positivity
  · rw [div_le_iff₀ (by positivity)]
    nlinarith [pi_pos]

/-- **C179, exception** A negative transform is returned with the wrong sign, and one of more than half a turn per field period is not returned. -/
theorem C179_sign_violated (T P : Matrix (Fin 2) (Fin 2) ℝ) (hP : IsUnit P.det) (iota nfp : ℝ) (hn : 0 < nfp) (hT : T = P * rotation (2 * π * iota / nfp) * P⁻¹) :
    (iota < 0 → -(nfp / 2) ≤ iota → iotaOf nfp T = -iota ∧ iotaOf nfp T ≠ iota) ∧ (nfp / 2 < |iota| → iotaOf nfp T ≠ iota) := by
  constructor
  · intro h1 h2
    have := C179_iota T P hP iota nfp hn (by rw [abs_of_neg h1]; linarith) hT
    rw [abs_of_neg h1] at this
    exact ⟨this, by rw [this]; linarith⟩
  · intro h h'
    obtain ⟨h0, h1⟩ := C179_range nfp hn.le T
    rw [h'] at h0 h1
    rw [abs_of_nonneg h0] at h
    linarith

/-- A field with a current: `(0, 1, x)`. -/
def bent : Fin 3 → V → ℝ
  | 0 => fun _ => 0
  | 1 => fun _ => 1
  | 2 => fun p => p.1
/-- Its derivative. -/
noncomputable def bentD : Fin 3 → V →L[ℝ] ℝ
  | 0 => 0
  | 1 => 0
  | 2 => ContinuousLinearMap.fst ℝ ℝ (ℝ × ℝ)

/-- **C179, exception** With a current at the axis the derivatives are exchanged: for the field `(0, 1, x)` at R = 1, φ = 0 the derivative of dZ/dφ with respect to R is 2, the code has 1, and the derivative of dR/dφ with respect to Z is 0, the code has 1. -/
theorem C179_current_violated : (∀ k, HasFDerivAt (bent k) (bentD k) (pt 1 0 1 0)) ∧
    HasDerivAt (fun R => slopeZ bent 1 0 R 0) 2 1 ∧ (localOf bent bentD 1 0 1 0).A21 = 1 ∧ HasDerivAt (fun Z => slopeR bent 1 0 1 Z) 0 0 ∧ (localOf bent bentD 1 0 1 0).A12 = 1 := by
  refine ⟨?_, ?_, ?_, ?_, ?_⟩
  · intro k
    match k with
    | 0 => exact hasFDerivAt_const _ _
    | 1 => exact hasFDerivAt_const _ _
    | 2 => exact hasFDerivAt_fst
  · have : (fun R => slopeZ bent 1 0 R 0) = fun R : ℝ => R * R := by
      funext R; simp [slopeZ, bent, pt]
    rw [this]
    exact ((hasDerivAt_id (1 : ℝ)).fun_mul (hasDerivAt_id (1 : ℝ))).congr_deriv (by norm_num)
  · simp [Local.A21, Local.BZR, Local.BZ, Local.q, Local.qR, Local.Bphi, Local.BphiR, Local.dR, localOf, bent, bentD, e, pt]
  · have : (fun Z => slopeR bent 1 0 1 Z) = fun _ : ℝ => 0 := by
      funext Z; simp [slopeR, bent]
    rw [this]
    exact hasDerivAt_const _ _
  · simp [Local.A12, Local.BRZ, Local.BR, Local.q, Local.qZ, Local.Bphi, Local.BphiZ, Local.dZ, localOf, bent, bentD, e, pt]

/-- The hypotheses hold in a concrete case: transform 1 with 4 field periods, a quarter turn in each. -/
example : iotaOf 4 (rotation (2 * π * 1 / 4)) = 1 := by
  have := C179_iota (rotation (2 * π * 1 / 4)) 1 (by simp) 1 4 (by norm_num) (by norm_num) (by simp)
  simpa using this
end Simsopt.Axis
