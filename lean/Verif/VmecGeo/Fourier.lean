import Verif.PyList
import Mathlib.Analysis.SpecialFunctions.Trigonometric.Deriv
import Mathlib.Analysis.Calculus.Deriv.Add
import Mathlib.Analysis.Calculus.Deriv.Mul
import Mathlib.Tactic.Ring
import Mathlib.Tactic.Linarith
import Mathlib.Tactic.FieldSimp
import Mathlib.Tactic.NormNum
/-!
# The Fourier sums of vmec_compute_geometry (C184)

Model of the evaluation of the Fourier series in `vmec_compute_geometry` (src/simsopt/mhd/vmec_diagnostics.py L994-1115).  Real numbers instead of doubles, one point (s, θ, φ) instead of arrays, factors in another order; the radial splines of `vmec_splines` (L740-828) are arbitrary functions with their derivatives.
-/
namespace Simsopt.VmecGeo
open Real

/-- A mode of the geometry (L994-996, L1016-1021): mode numbers, splines and their derivatives. -/
structure Mode where
  m : ℝ
  n : ℝ
  rmnc : ℝ → ℝ
  zmns : ℝ → ℝ
  lmns : ℝ → ℝ
  rmnc' : ℝ → ℝ
  zmns' : ℝ → ℝ
  lmns' : ℝ → ℝ
/-- A mode of the Nyquist quantities (L998-999, L1034-1043). -/
structure Nyq where
  m : ℝ
  n : ℝ
  gmnc : ℝ → ℝ
  bmnc : ℝ → ℝ
  bsupumnc : ℝ → ℝ
  bsupvmnc : ℝ → ℝ
  bsubsmns : ℝ → ℝ
  bsubumnc : ℝ → ℝ
  bsubvmnc : ℝ → ℝ
  bmnc' : ℝ → ℝ
  bsupumnc' : ℝ → ℝ
  bsupvmnc' : ℝ → ℝ
/-- The structure returned by `vmec_splines` (L825-847). -/
structure Splines where
  modes : List Mode
  nyq : List Nyq
  iota : ℝ → ℝ
  iota' : ℝ → ℝ
  pressure' : ℝ → ℝ
  phiedge : ℝ
  aminor : ℝ

/-- `np.einsum('ij,jikl->ikl', c, cosangle)` and the like (L1046-1084): the angle is `m θ - n φ`. -/
noncomputable def cosSum {K : Type} (l : List K) (m n c : K → ℝ) (θ φ : ℝ) : ℝ := (l.map fun k => c k * cos (m k * θ - n k * φ)).sum
/-- The same with `sinangle`. -/
noncomputable def sinSum {K : Type} (l : List K) (m n c : K → ℝ) (θ φ : ℝ) : ℝ := (l.map fun k => c k * sin (m k * θ - n k * φ)).sum

namespace Splines
variable (E : Splines) (s θ φ : ℝ)
/-- Sums over the modes of the geometry. -/
noncomputable abbrev C (c : Mode → ℝ) : ℝ := cosSum E.modes Mode.m Mode.n c θ φ
/-- Sums over the modes of the geometry. -/
noncomputable abbrev S (c : Mode → ℝ) : ℝ := sinSum E.modes Mode.m Mode.n c θ φ
/-- Sums over the Nyquist modes. -/
noncomputable abbrev NC (c : Nyq → ℝ) : ℝ := cosSum E.nyq Nyq.m Nyq.n c θ φ
/-- Sums over the Nyquist modes. -/
noncomputable abbrev NS (c : Nyq → ℝ) : ℝ := sinSum E.nyq Nyq.m Nyq.n c θ φ

/-- L1061. -/
noncomputable def R : ℝ := E.C θ φ fun k => k.rmnc s
/-- L1062. -/
noncomputable def d_R_d_s : ℝ := E.C θ φ fun k => k.rmnc' s
/-- L1063. -/
noncomputable def d_R_d_theta_vmec : ℝ := E.S θ φ fun k => -k.rmnc s * k.m
/-- L1064. -/
noncomputable def d_R_d_phi : ℝ := E.S θ φ fun k => k.rmnc s * k.n
/-- L1065. -/
noncomputable def d2_R_d_phi2 : ℝ := E.C θ φ fun k => -k.rmnc s * k.n ^ 2
/-- L1066. -/
noncomputable def d2_R_d_theta_vmec2 : ℝ := E.C θ φ fun k => -k.rmnc s * k.m ^ 2
/-- L1067. -/
noncomputable def d2_R_d_theta_vmec_d_phi : ℝ := E.C θ φ fun k => k.rmnc s * (k.m * k.n)
/-- L1068. -/
noncomputable def d2_R_d_s_d_theta_vmec : ℝ := E.S θ φ fun k => -k.rmnc' s * k.m
/-- L1069. -/
noncomputable def d2_R_d_s_d_phi : ℝ := E.S θ φ fun k => k.rmnc' s * k.n
/-- L1071. -/
noncomputable def Z : ℝ := E.S θ φ fun k => k.zmns s
/-- L1072. -/
noncomputable def d_Z_d_s : ℝ := E.S θ φ fun k => k.zmns' s
/-- L1073. -/
noncomputable def d_Z_d_theta_vmec : ℝ := E.C θ φ fun k => k.zmns s * k.m
/-- L1074. -/
noncomputable def d_Z_d_phi : ℝ := E.C θ φ fun k => -k.zmns s * k.n
/-- L1075. -/
noncomputable def d2_Z_d_theta_vmec2 : ℝ := E.S θ φ fun k => -k.zmns s * k.m ^ 2
/-- L1076. -/
noncomputable def d2_Z_d_phi2 : ℝ := E.S θ φ fun k => -k.zmns s * k.n ^ 2
/-- L1077. -/
noncomputable def d2_Z_d_theta_vmec_d_phi : ℝ := E.S θ φ fun k => k.zmns s * (k.m * k.n)
/-- L1078. -/
noncomputable def d2_Z_d_s_d_theta_vmec : ℝ := E.C θ φ fun k => k.zmns' s * k.m
/-- L1079. -/
noncomputable def d2_Z_d_s_d_phi : ℝ := E.C θ φ fun k => -k.zmns' s * k.n
/-- L1081. -/
noncomputable def lambd : ℝ := E.S θ φ fun k => k.lmns s
/-- L1082. -/
noncomputable def d_lambda_d_s : ℝ := E.S θ φ fun k => k.lmns' s
/-- L1083. -/
noncomputable def d_lambda_d_theta_vmec : ℝ := E.C θ φ fun k => k.lmns s * k.m
/-- L1084. -/
noncomputable def d_lambda_d_phi : ℝ := E.C θ φ fun k => -k.lmns s * k.n
/-- L1085. -/
noncomputable def theta_pest : ℝ := θ + E.lambd s θ φ
/-- L1096. -/
noncomputable def sqrt_g_vmec : ℝ := E.NC θ φ fun k => k.gmnc s
/-- L1097. -/
noncomputable def modB : ℝ := E.NC θ φ fun k => k.bmnc s
/-- L1098. -/
noncomputable def d_B_d_s : ℝ := E.NC θ φ fun k => k.bmnc' s
/-- L1099. -/
noncomputable def d_B_d_theta_vmec : ℝ := E.NS θ φ fun k => -k.bmnc s * k.m
/-- L1100. -/
noncomputable def d_B_d_phi : ℝ := E.NS θ φ fun k => k.bmnc s * k.n
/-- L1102. -/
noncomputable def B_sup_theta_vmec : ℝ := E.NC θ φ fun k => k.bsupumnc s
/-- L1103. -/
noncomputable def B_sup_phi : ℝ := E.NC θ φ fun k => k.bsupvmnc s
/-- L1104. -/
noncomputable def B_sub_s : ℝ := E.NS θ φ fun k => k.bsubsmns s
/-- L1105. -/
noncomputable def B_sub_theta_vmec : ℝ := E.NC θ φ fun k => k.bsubumnc s
/-- L1106. -/
noncomputable def B_sub_phi : ℝ := E.NC θ φ fun k => k.bsubvmnc s
/-- L1108. -/
noncomputable def d_B_sup_phi_d_theta_vmec : ℝ := E.NS θ φ fun k => -k.bsupvmnc s * k.m
/-- L1109. -/
noncomputable def d_B_sup_phi_d_phi : ℝ := E.NS θ φ fun k => k.bsupvmnc s * k.n
/-- L1110. -/
noncomputable def d_B_sup_theta_vmec_d_theta_vmec : ℝ := E.NS θ φ fun k => -k.bsupumnc s * k.m
/-- L1111. -/
noncomputable def d_B_sup_theta_vmec_d_phi : ℝ := E.NS θ φ fun k => k.bsupumnc s * k.n
/-- L1112. -/
noncomputable def d_B_sup_theta_vmec_d_s : ℝ := E.NC θ φ fun k => k.bsupumnc' s
/-- L1113. -/
noncomputable def d_B_sup_phi_d_s : ℝ := E.NC θ φ fun k => k.bsupvmnc' s
end Splines

/-! ### Specification -/

/-- The primed functions are the derivatives of the others. -/
structure Splines.Smooth (E : Splines) : Prop where
  r : ∀ k ∈ E.modes, ∀ s, HasDerivAt k.rmnc (k.rmnc' s) s
  z : ∀ k ∈ E.modes, ∀ s, HasDerivAt k.zmns (k.zmns' s) s
  l : ∀ k ∈ E.modes, ∀ s, HasDerivAt k.lmns (k.lmns' s) s
  b : ∀ k ∈ E.nyq, ∀ s, HasDerivAt k.bmnc (k.bmnc' s) s
  u : ∀ k ∈ E.nyq, ∀ s, HasDerivAt k.bsupumnc (k.bsupumnc' s) s
  v : ∀ k ∈ E.nyq, ∀ s, HasDerivAt k.bsupvmnc (k.bsupvmnc' s) s

/-- The numbers `fs`, `ft`, `fp` are the partial derivatives of `f` at a point. -/
structure Partials (f : ℝ → ℝ → ℝ → ℝ) (fs ft fp : ℝ) (s θ φ : ℝ) : Prop where
  by_s : HasDerivAt (fun s => f s θ φ) fs s
  by_theta : HasDerivAt (fun θ => f s θ φ) ft θ
  by_phi : HasDerivAt (fun φ => f s θ φ) fp φ

/-! ### Theorems -/

theorem hasDerivAt_sum {K : Type} (l : List K) (f : K → ℝ → ℝ) (f' : K → ℝ) (x : ℝ) (h : ∀ k ∈ l, HasDerivAt (f k) (f' k) x) :
    HasDerivAt (fun x => (l.map fun k => f k x).sum) (l.map f').sum x := by
  induction l with
  | nil => exact hasDerivAt_const x 0
  | cons a t ih =>
    simp only [List.map_cons, List.sum_cons]
    exact HasDerivAt.fun_add (h a (by simp)) (ih fun k hk => h k (by simp [hk]))

section
variable {K : Type} (l : List K) (m n c d : K → ℝ) (θ φ : ℝ)

theorem angle_t (a b : ℝ) : HasDerivAt (fun θ => a * θ - b * φ) a θ := (((hasDerivAt_id θ).const_mul a).sub_const _).congr_deriv (mul_one a)
theorem angle_p (a b : ℝ) : HasDerivAt (fun φ => a * θ - b * φ) (-b) φ := (((hasDerivAt_id φ).const_mul b).const_sub _).congr_deriv (by ring)

theorem cos_t (h : ∀ k, d k = -(c k * m k)) : HasDerivAt (fun θ => cosSum l m n c θ φ) (sinSum l m n d θ φ) θ :=
  hasDerivAt_sum l _ _ θ fun k _ => (((angle_t θ φ (m k) (n k)).cos).const_mul (c k)).congr_deriv (by rw [h]; ring)
theorem cos_p (h : ∀ k, d k = c k * n k) : HasDerivAt (fun φ => cosSum l m n c θ φ) (sinSum l m n d θ φ) φ :=
  hasDerivAt_sum l _ _ φ fun k _ => (((angle_p θ φ (m k) (n k)).cos).const_mul (c k)).congr_deriv (by rw [h]; ring)
theorem sin_t (h : ∀ k, d k = c k * m k) : HasDerivAt (fun θ => sinSum l m n c θ φ) (cosSum l m n d θ φ) θ :=
  hasDerivAt_sum l _ _ θ fun k _ => (((angle_t θ φ (m k) (n k)).sin).const_mul (c k)).congr_deriv (by rw [h]; ring)
theorem sin_p (h : ∀ k, d k = -(c k * n k)) : HasDerivAt (fun φ => sinSum l m n c θ φ) (cosSum l m n d θ φ) φ :=
  hasDerivAt_sum l _ _ φ fun k _ => (((angle_p θ φ (m k) (n k)).sin).const_mul (c k)).congr_deriv (by rw [h]; ring)
theorem cos_s (c c' : K → ℝ → ℝ) (s : ℝ) (h : ∀ k ∈ l, HasDerivAt (c k) (c' k s) s) : HasDerivAt (fun s => cosSum l m n (fun k => c k s) θ φ) (cosSum l m n (fun k => c' k s) θ φ) s :=
  hasDerivAt_sum l _ _ s fun k hk => (h k hk).mul_const _
theorem sin_s (c c' : K → ℝ → ℝ) (s : ℝ) (h : ∀ k ∈ l, HasDerivAt (c k) (c' k s) s) : HasDerivAt (fun s => sinSum l m n (fun k => c k s) θ φ) (sinSum l m n (fun k => c' k s) θ φ) s :=
  hasDerivAt_sum l _ _ s fun k hk => (h k hk).mul_const _
end

/-- **C184** The first derivatives of R, Z, λ, |B| and of the contravariant components of B are the partial derivatives of these sums. -/
theorem C184_first (E : Splines) (h : E.Smooth) (s θ φ : ℝ) :
    Partials E.R (E.d_R_d_s s θ φ) (E.d_R_d_theta_vmec s θ φ) (E.d_R_d_phi s θ φ) s θ φ ∧
    Partials E.Z (E.d_Z_d_s s θ φ) (E.d_Z_d_theta_vmec s θ φ) (E.d_Z_d_phi s θ φ) s θ φ ∧
    Partials E.lambd (E.d_lambda_d_s s θ φ) (E.d_lambda_d_theta_vmec s θ φ) (E.d_lambda_d_phi s θ φ) s θ φ ∧
    Partials E.modB (E.d_B_d_s s θ φ) (E.d_B_d_theta_vmec s θ φ) (E.d_B_d_phi s θ φ) s θ φ ∧
    Partials E.B_sup_theta_vmec (E.d_B_sup_theta_vmec_d_s s θ φ) (E.d_B_sup_theta_vmec_d_theta_vmec s θ φ) (E.d_B_sup_theta_vmec_d_phi s θ φ) s θ φ ∧
    Partials E.B_sup_phi (E.d_B_sup_phi_d_s s θ φ) (E.d_B_sup_phi_d_theta_vmec s θ φ) (E.d_B_sup_phi_d_phi s θ φ) s θ φ := by
  refine ⟨⟨?_, ?_, ?_⟩, ⟨?_, ?_, ?_⟩, ⟨?_, ?_, ?_⟩, ⟨?_, ?_, ?_⟩, ⟨?_, ?_, ?_⟩, ⟨?_, ?_, ?_⟩⟩
  · exact cos_s _ _ _ θ φ Mode.rmnc Mode.rmnc' s fun k hk => h.r k hk s
  · exact cos_t _ _ _ _ _ θ φ fun k => by ring
  · exact cos_p _ _ _ _ _ θ φ fun k => by ring
  · exact sin_s _ _ _ θ φ Mode.zmns Mode.zmns' s fun k hk => h.z k hk s
  · exact sin_t _ _ _ _ _ θ φ fun k => by ring
  · exact sin_p _ _ _ _ _ θ φ fun k => by ring
  · exact sin_s _ _ _ θ φ Mode.lmns Mode.lmns' s fun k hk => h.l k hk s
  · exact sin_t _ _ _ _ _ θ φ fun k => by ring
  · exact sin_p _ _ _ _ _ θ φ fun k => by ring
  · exact cos_s _ _ _ θ φ Nyq.bmnc Nyq.bmnc' s fun k hk => h.b k hk s
  · exact cos_t _ _ _ _ _ θ φ fun k => by ring
  · exact cos_p _ _ _ _ _ θ φ fun k => by ring
  · exact cos_s _ _ _ θ φ Nyq.bsupumnc Nyq.bsupumnc' s fun k hk => h.u k hk s
  · exact cos_t _ _ _ _ _ θ φ fun k => by ring
  · exact cos_p _ _ _ _ _ θ φ fun k => by ring
  · exact cos_s _ _ _ θ φ Nyq.bsupvmnc Nyq.bsupvmnc' s fun k hk => h.v k hk s
  · exact cos_t _ _ _ _ _ θ φ fun k => by ring
  · exact cos_p _ _ _ _ _ θ φ fun k => by ring

/-- **C184** The second derivatives are the partial derivatives of the first ones, in both orders. -/
theorem C184_second (E : Splines) (h : E.Smooth) (s θ φ : ℝ) :
    Partials E.d_R_d_theta_vmec (E.d2_R_d_s_d_theta_vmec s θ φ) (E.d2_R_d_theta_vmec2 s θ φ) (E.d2_R_d_theta_vmec_d_phi s θ φ) s θ φ ∧
    Partials E.d_R_d_phi (E.d2_R_d_s_d_phi s θ φ) (E.d2_R_d_theta_vmec_d_phi s θ φ) (E.d2_R_d_phi2 s θ φ) s θ φ ∧
    Partials E.d_Z_d_theta_vmec (E.d2_Z_d_s_d_theta_vmec s θ φ) (E.d2_Z_d_theta_vmec2 s θ φ) (E.d2_Z_d_theta_vmec_d_phi s θ φ) s θ φ ∧
    Partials E.d_Z_d_phi (E.d2_Z_d_s_d_phi s θ φ) (E.d2_Z_d_theta_vmec_d_phi s θ φ) (E.d2_Z_d_phi2 s θ φ) s θ φ ∧
    HasDerivAt (fun θ => E.d_R_d_s s θ φ) (E.d2_R_d_s_d_theta_vmec s θ φ) θ ∧ HasDerivAt (fun φ => E.d_R_d_s s θ φ) (E.d2_R_d_s_d_phi s θ φ) φ ∧
    HasDerivAt (fun θ => E.d_Z_d_s s θ φ) (E.d2_Z_d_s_d_theta_vmec s θ φ) θ ∧ HasDerivAt (fun φ => E.d_Z_d_s s θ φ) (E.d2_Z_d_s_d_phi s θ φ) φ := by
  refine ⟨⟨?_, ?_, ?_⟩, ⟨?_, ?_, ?_⟩, ⟨?_, ?_, ?_⟩, ⟨?_, ?_, ?_⟩, ?_, ?_, ?_, ?_⟩
  · exact sin_s _ _ _ θ φ (fun k s => -k.rmnc s * k.m) (fun k s => -k.rmnc' s * k.m) s fun k hk => (h.r k hk s).fun_neg.mul_const _
  · exact sin_t _ _ _ _ _ θ φ fun k => by ring
  · exact sin_p _ _ _ _ _ θ φ fun k => by ring
  · exact sin_s _ _ _ θ φ (fun k s => k.rmnc s * k.n) (fun k s => k.rmnc' s * k.n) s fun k hk => (h.r k hk s).mul_const _
  · exact sin_t _ _ _ _ _ θ φ fun k => by ring
  · exact sin_p _ _ _ _ _ θ φ fun k => by ring
  · exact cos_s _ _ _ θ φ (fun k s => k.zmns s * k.m) (fun k s => k.zmns' s * k.m) s fun k hk => (h.z k hk s).mul_const _
  · exact cos_t _ _ _ _ _ θ φ fun k => by ring
  · exact cos_p _ _ _ _ _ θ φ fun k => by ring
  · exact cos_s _ _ _ θ φ (fun k s => -k.zmns s * k.n) (fun k s => -k.zmns' s * k.n) s fun k hk => (h.z k hk s).fun_neg.mul_const _
  · exact cos_t _ _ _ _ _ θ φ fun k => by ring
  · exact cos_p _ _ _ _ _ θ φ fun k => by ring
  · exact cos_t _ _ _ _ _ θ φ fun k => by ring
  · exact cos_p _ _ _ _ _ θ φ fun k => by ring
  · exact sin_t _ _ _ _ _ θ φ fun k => by ring
  · exact sin_p _ _ _ _ _ θ φ fun k => by ring

theorem cos_even {K : Type} (l : List K) (m n c : K → ℝ) (θ φ : ℝ) : cosSum l m n c (-θ) (-φ) = cosSum l m n c θ φ := by
  unfold cosSum
  refine congrArg List.sum (List.map_congr_left fun k _ => ?_)
  rw [show m k * -θ - n k * -φ = -(m k * θ - n k * φ) by ring, cos_neg]
theorem sin_odd {K : Type} (l : List K) (m n c : K → ℝ) (θ φ : ℝ) : sinSum l m n c (-θ) (-φ) = -sinSum l m n c θ φ := by
  unfold sinSum
  induction l with
  | nil => simp
  | cons a t ih =>
    simp only [List.map_cons, List.sum_cons]
    rw [ih, show m a * -θ - n a * -φ = -(m a * θ - n a * φ) by ring, sin_neg]
    ring

/-- **C184** Stellarator symmetry: R, |B| and the contravariant components of B do not change under (θ, φ) → (-θ, -φ), Z and λ change the sign, and so does the difference between `theta_pest` and θ. -/
theorem C184_symmetry (E : Splines) (s θ φ : ℝ) :
    E.R s (-θ) (-φ) = E.R s θ φ ∧ E.modB s (-θ) (-φ) = E.modB s θ φ ∧ E.B_sup_theta_vmec s (-θ) (-φ) = E.B_sup_theta_vmec s θ φ ∧ E.B_sup_phi s (-θ) (-φ) = E.B_sup_phi s θ φ ∧
    E.Z s (-θ) (-φ) = -E.Z s θ φ ∧ E.lambd s (-θ) (-φ) = -E.lambd s θ φ ∧ E.theta_pest s (-θ) (-φ) = -E.theta_pest s θ φ := by
  refine ⟨cos_even _ _ _ _ _ _, cos_even _ _ _ _ _ _, cos_even _ _ _ _ _ _, cos_even _ _ _ _ _ _, sin_odd _ _ _ _ _ _, sin_odd _ _ _ _ _ _, ?_⟩
  have : E.lambd s (-θ) (-φ) = -E.lambd s θ φ := sin_odd _ _ _ _ _ _
  unfold Splines.theta_pest
  rw [this]; ring

/-- The hypotheses are met: a torus with circular cross section of radius `√s`-like spline `s`, with a shift that depends on the toroidal angle. -/
example : (⟨[⟨0, 0, fun _ => 3, fun _ => 0, fun _ => 0, fun _ => 0, fun _ => 0, fun _ => 0⟩, ⟨1, 0, fun s => s, fun s => s, fun s => s ^ 2, fun _ => 1, fun _ => 1, fun s => 2 * s⟩,
    ⟨1, 5, fun s => s, fun s => -s, fun _ => 0, fun _ => 1, fun _ => -1, fun _ => 0⟩], [], fun _ => 1, fun _ => 0, fun _ => 0, 1, 1⟩ : Splines).Smooth := by
  constructor <;> simp only [List.mem_cons, List.not_mem_nil, or_false, false_imp_iff, implies_true, forall_eq_or_imp, forall_eq]
  · exact ⟨fun s => hasDerivAt_const s 3, fun s => hasDerivAt_id s, fun s => hasDerivAt_id s⟩
  · exact ⟨fun s => hasDerivAt_const s 0, fun s => hasDerivAt_id s, fun s => (hasDerivAt_id s).neg⟩
  · exact ⟨fun s => hasDerivAt_const s 0, fun s => ((hasDerivAt_id s).pow 2).congr_deriv (by simp), fun s => hasDerivAt_const s 0⟩

end Simsopt.VmecGeo
