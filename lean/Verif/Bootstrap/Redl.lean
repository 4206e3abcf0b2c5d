import Verif.PyList
import Mathlib.Analysis.SpecialFunctions.Pow.Real
import Mathlib.Analysis.SpecialFunctions.Log.Basic
import Mathlib.Analysis.SpecialFunctions.Sqrt
import Mathlib.Analysis.Calculus.Deriv.Mul
import Mathlib.Tactic.Ring
import Mathlib.Tactic.Linarith
import Mathlib.Tactic.Positivity
import Mathlib.Tactic.FieldSimp
import Mathlib.Tactic.NormNum
/-!
# The bootstrap current of Redl's formulae (C177)

Model of `j_dot_B_Redl` (src/simsopt/mhd/bootstrap.py L173-402) on one surface.  Real numbers instead of doubles.
-/
namespace Simsopt.Bootstrap
open Real

/-- The plasma and the geometry on a surface (L261-281): density, temperatures, effective charge, derivatives with respect to s, and `G`, `R`, `iota`, `epsilon`, `f_t`, `psi_edge` and `helicity_N = nfp * helicity_n`. -/
structure Point where
  ne : ℝ
  Te : ℝ
  Ti : ℝ
  Z : ℝ
  dne : ℝ
  dTe : ℝ
  dTi : ℝ
  G : ℝ
  R : ℝ
  iota : ℝ
  eps : ℝ
  ft : ℝ
  psi : ℝ
  N : ℝ

/-- The elementary charge (util/constants.py). -/
noncomputable def charge : ℝ := 1.602176634e-19

namespace Point
variable (p : Point)

/-- `ni_s` (L274). -/
noncomputable def ni : ℝ := p.ne / p.Z
/-- `ln_Lambda_e` (L291). -/
noncomputable def lnLe : ℝ := 31.3 - log (√p.ne / p.Te)
/-- `ln_Lambda_ii` (L292). -/
noncomputable def lnLi : ℝ := 30 - log (p.Z ^ 3 * √p.ni / p.Ti ^ (1.5 : ℝ))
/-- `geometry_factor` (L297). -/
noncomputable def geometry : ℝ := |p.R / (p.iota - p.N)|
/-- `nu_e` (L298-299). -/
noncomputable def nuE : ℝ := p.geometry * 6.921e-18 * p.ne * p.Z * p.lnLe / (p.Te * p.Te * p.eps ^ (1.5 : ℝ))
/-- `nu_i` (L300-301). -/
noncomputable def nuI : ℝ := p.geometry * 4.90e-18 * p.ni * p.Z ^ 4 * p.lnLi / (p.Ti * p.Ti * p.eps ^ (1.5 : ℝ))
end Point

/-- `X31` (L312-313). -/
noncomputable def X31 (f Z nu : ℝ) : ℝ := f / (1 + (0.67 * (1 - 0.7 * f) * √nu) / (0.56 + 0.44 * Z) + (0.52 + 0.086 * √nu) * (1 + 0.87 * f) * nu / (1 + 1.13 * √(Z - 1)))
/-- `Zfac` (L316). -/
noncomputable def Zfac (Z : ℝ) : ℝ := Z ^ (1.2 : ℝ) - 0.71
/-- `L31` (L317-320) from `X31`. -/
noncomputable def L31of (X Z : ℝ) : ℝ := (1 + 0.15 / Zfac Z) * X - 0.22 / Zfac Z * X ^ 2 + 0.01 / Zfac Z * X ^ 3 + 0.06 / Zfac Z * X ^ 4
/-- `X32e` (L323-326). -/
noncomputable def X32e (f Z nu : ℝ) : ℝ := f / (1 + 0.23 * (1 - 0.96 * f) * √nu / √Z + 0.13 * (1 - 0.38 * f) * nu / (Z * Z) * (√(1 + 2 * √(Z - 1)) + f * f * √((0.075 + 0.25 * (Z - 1) ^ 2) * nu)))
/-- `F32ee` (L329-332) from `X32e`. -/
noncomputable def F32eeOf (X Z : ℝ) : ℝ := (0.1 + 0.6 * Z) * (X - X ^ 4) / (Z * (0.77 + 0.63 * (1 + (Z - 1) ^ (1.1 : ℝ)))) + 0.7 / (1 + 0.2 * Z) * (X ^ 2 - X ^ 4 - 1.2 * (X ^ 3 - X ^ 4)) + 1.3 / (1 + 0.5 * Z) * X ^ 4
/-- `X32ei` (L335-336). -/
noncomputable def X32ei (f Z nu : ℝ) : ℝ := f / (1 + 0.87 * (1 + 0.39 * f) * √nu / (1 + 2.95 * (Z - 1) ^ 2) + 1.53 * (1 - 0.37 * f) * nu * (2 + 0.375 * (Z - 1)))
/-- `F32ei` (L339-341) from `X32ei`. -/
noncomputable def F32eiOf (X Z : ℝ) : ℝ := -(0.4 + 1.93 * Z) / (Z * (0.8 + 0.6 * Z)) * (X - X ^ 4) + 5.5 / (1.5 + 2 * Z) * (X ^ 2 - X ^ 4 - 0.8 * (X ^ 3 - X ^ 4)) - 1.3 / (1 + 0.5 * Z) * X ^ 4
/-- `L31` (L317-320); also `L34` (L347). -/
noncomputable def L31 (f Z nu : ℝ) : ℝ := L31of (X31 f Z nu) Z
/-- `L32` (L344). -/
noncomputable def L32 (f Z nu : ℝ) : ℝ := F32eiOf (X32ei f Z nu) Z + F32eeOf (X32e f Z nu) Z
/-- `alpha0` (L350-351). -/
noncomputable def alpha0 (f Z : ℝ) : ℝ := -(0.62 + 0.055 * (Z - 1)) * (1 - f) / ((0.53 + 0.17 * (Z - 1)) * (1 - (0.31 - 0.065 * (Z - 1)) * f - 0.25 * f * f))
/-- `alpha` (L353-355). -/
noncomputable def alpha (f Z nu : ℝ) : ℝ := ((alpha0 f Z + 0.7 * Z * √(f * nu)) / (1 + 0.18 * √nu) - 0.002 * nu * nu * f ^ 6) / (1 + 0.004 * nu * nu * f ^ 6)

/-- `jdotB` (L358-361) with given coefficients. -/
noncomputable def currentOf (p : Point) (l31 l32 a : ℝ) : ℝ :=
  -p.G * charge * (p.ne * p.Te + p.ni * p.Ti) * l31 * (p.dne / p.ne) / (p.psi * (p.iota - p.N))
  + -p.G * charge * (p.ne * p.Te) * (l31 + l32) * (p.dTe / p.Te) / (p.psi * (p.iota - p.N))
  + -p.G * charge * (p.ni * p.Ti) * (l31 + l31 * a) * (p.dTi / p.Ti) / (p.psi * (p.iota - p.N))

/-- `jdotB` (L358-361). -/
noncomputable def current (p : Point) : ℝ := currentOf p (L31 p.ft p.Z p.nuE) (L32 p.ft p.Z p.nuE) (alpha p.ft p.Z p.nuI)

/-! ### Specification -/

/-- A plasma: positive densities and temperatures, charge at least one. -/
structure Plasma (p : Point) : Prop where
  ne : 0 < p.ne
  Te : 0 < p.Te
  Ti : 0 < p.Ti
  Z : 1 ≤ p.Z

/-- The derivative of the pressure of electrons and ions with respect to s, in pascal, at constant effective charge. -/
noncomputable def pressureGradient (p : Point) : ℝ := charge * ((p.dne * p.Te + p.ne * p.dTe) + (p.dne * p.Ti + p.ne * p.dTi) / p.Z)

/-! ### The coefficients -/

theorem Zfac_ge (Z : ℝ) (h : 1 ≤ Z) : 0.29 ≤ Zfac Z := by
  unfold Zfac
  have : (1 : ℝ) ≤ Z ^ (1.2 : ℝ) := one_le_rpow h (by norm_num)
  linarith

/-- **C177**: the first collisional fraction: between 0 and `f_t`, equal to it without collisions, and less with more of them. -/
theorem C177_X31 (f Z nu : ℝ) (h0 : 0 ≤ f) (h1 : f ≤ 1) (hZ : 1 ≤ Z) (hn : 0 ≤ nu) :
    0 ≤ X31 f Z nu ∧ X31 f Z nu ≤ f ∧ X31 f Z 0 = f ∧ ∀ nu', nu ≤ nu' → X31 f Z nu' ≤ X31 f Z nu := by
  have hZ1 : 0 ≤ √(Z - 1) := sqrt_nonneg _
  have hden : ∀ v, 0 ≤ v → 1 ≤ 1 + (0.67 * (1 - 0.7 * f) * √v) / (0.56 + 0.44 * Z) + (0.52 + 0.086 * √v) * (1 + 0.87 * f) * v / (1 + 1.13 * √(Z - 1)) := by
    intro v hv
    have a : 0 ≤ (0.67 * (1 - 0.7 * f) * √v) / (0.56 + 0.44 * Z) := by
      have : 0 ≤ 1 - 0.7 * f := by linarith
      positivity
    have b : 0 ≤ (0.52 + 0.086 * √v) * (1 + 0.87 * f) * v / (1 + 1.13 * √(Z - 1)) := by positivity
    linarith
  refine ⟨div_nonneg h0 (by linarith [hden nu hn]), div_le_self h0 (hden nu hn), ?_, fun nu' hle => ?_⟩
  · unfold X31; simp
  · refine div_le_div_of_nonneg_left h0 (by linarith [hden nu hn]) ?_
    have hs : √nu ≤ √nu' := sqrt_le_sqrt hle
    have hs0 : 0 ≤ √nu := sqrt_nonneg _
    have a : (0.67 * (1 - 0.7 * f) * √nu) / (0.56 + 0.44 * Z) ≤ (0.67 * (1 - 0.7 * f) * √nu') / (0.56 + 0.44 * Z) := by
      have : 0 ≤ 1 - 0.7 * f := by linarith
      gcongr
    have b : (0.52 + 0.086 * √nu) * (1 + 0.87 * f) * nu / (1 + 1.13 * √(Z - 1)) ≤ (0.52 + 0.086 * √nu') * (1 + 0.87 * f) * nu' / (1 + 1.13 * √(Z - 1)) := by
      gcongr
    linarith

/-- **C177**: `L31` lies between its collisional fraction and one; it is zero without and one with only trapped particles. -/
theorem C177_L31 (X Z : ℝ) (h0 : 0 ≤ X) (h1 : X ≤ 1) (hZ : 1 ≤ Z) : X ≤ L31of X Z ∧ L31of X Z ≤ 1 ∧ L31of 0 Z = 0 ∧ L31of 1 Z = 1 := by
  have hz := Zfac_ge Z hZ
  have hz0 : 0 < Zfac Z := by linarith
  have e : ∀ Y, L31of Y Z = Y + Y * (1 - Y) * (0.15 - 0.07 * Y - 0.06 * Y ^ 2) / Zfac Z := fun Y => by
    unfold L31of
    field_simp
    ring
  have hq : 0 ≤ 0.15 - 0.07 * X - 0.06 * X ^ 2 := by nlinarith
  have hX1 : 0 ≤ 1 - X := by linarith
  refine ⟨?_, ?_, ?_, ?_⟩
  · rw [e]
    have : 0 ≤ X * (1 - X) * (0.15 - 0.07 * X - 0.06 * X ^ 2) / Zfac Z := by positivity
    linarith
  · rw [e]
    have : X * (0.15 - 0.07 * X - 0.06 * X ^ 2) / Zfac Z ≤ 1 := by
      rw [div_le_one hz0]
      have : X * (0.15 - 0.07 * X - 0.06 * X ^ 2) ≤ 1 * 0.15 := mul_le_mul h1 (by nlinarith) hq (by norm_num)
      linarith
    have e2 : X * (1 - X) * (0.15 - 0.07 * X - 0.06 * X ^ 2) / Zfac Z = (1 - X) * (X * (0.15 - 0.07 * X - 0.06 * X ^ 2) / Zfac Z) := by ring
    rw [e2]
    have := mul_le_mul_of_nonneg_left this hX1
    linarith
  · rw [e]; simp
  · rw [e]; simp

/-- **C177**: without trapped particles all coefficients vanish; with only trapped particles and no collisions `L31` is one and `L32` and `alpha` are zero. -/
theorem C177_limits (Z nu : ℝ) (hZ : 1 ≤ Z) : L31 0 Z nu = 0 ∧ L32 0 Z nu = 0 ∧ L31 1 Z 0 = 1 ∧ L32 1 Z 0 = 0 ∧ alpha 1 Z 0 = 0 := by
  refine ⟨?_, ?_, ?_, ?_, ?_⟩
  · unfold L31 X31
    rw [zero_div]
    exact (C177_L31 0 Z le_rfl zero_le_one hZ).2.2.1
  · unfold L32 X32ei X32e F32eiOf F32eeOf
    simp
  · unfold L31
    rw [(C177_X31 1 Z 0 zero_le_one le_rfl hZ le_rfl).2.2.1]
    exact (C177_L31 1 Z zero_le_one le_rfl hZ).2.2.2
  · have e1 : X32ei 1 Z 0 = 1 := by unfold X32ei; simp
    have e2 : X32e 1 Z 0 = 1 := by unfold X32e; simp
    unfold L32
    rw [e1, e2]
    unfold F32eiOf F32eeOf
    norm_num
  · unfold alpha alpha0
    simp

/-- **C177**: without collisions `alpha` is not positive, and -0.62/0.53 (about -1.17) for singly charged ions and no trapped particles. -/
theorem C177_alpha (f Z : ℝ) (h0 : 0 ≤ f) (h1 : f ≤ 1) (hZ : 1 ≤ Z) : alpha f Z 0 = alpha0 f Z ∧ alpha0 f Z ≤ 0 ∧ alpha0 0 1 = -0.62 / 0.53 := by
  refine ⟨by unfold alpha; simp, ?_, by unfold alpha0; norm_num⟩
  unfold alpha0
  have hf : f * f ≤ 1 := by nlinarith
  have a : 0 ≤ (0.62 + 0.055 * (Z - 1)) * (1 - f) := mul_nonneg (by linarith) (by linarith)
  have b : 0 < 0.53 + 0.17 * (Z - 1) := by linarith
  have c : 0 < 1 - (0.31 - 0.065 * (Z - 1)) * f - 0.25 * f * f := by nlinarith [mul_nonneg (sub_nonneg.2 hZ) h0]
  have := div_nonneg a (mul_pos b c).le
  have e : -(0.62 + 0.055 * (Z - 1)) * (1 - f) = -((0.62 + 0.055 * (Z - 1)) * (1 - f)) := by ring
  rw [e, neg_div]
  linarith

/-! ### The current -/

/-- **C177**: flat profiles drive no current, and neither does a plasma without trapped particles. -/
theorem C177_zero (p : Point) (hZ : 1 ≤ p.Z) : (p.dne = 0 → p.dTe = 0 → p.dTi = 0 → current p = 0) ∧ (p.ft = 0 → current p = 0) := by
  constructor
  · intro h1 h2 h3
    unfold current currentOf
    simp [h1, h2, h3]
  · intro h
    obtain ⟨a, b, -⟩ := C177_limits p.Z p.nuE hZ
    unfold current currentOf
    rw [h, a, b]
    simp

/-- **C177**: a gradient of the density alone drives `-G L31 p'/(ψ (ι - N))`. -/
theorem C177_density (p : Point) (hp : Plasma p) (h2 : p.dTe = 0) (h3 : p.dTi = 0) : current p = -p.G * L31 p.ft p.Z p.nuE * pressureGradient p / (p.psi * (p.iota - p.N)) := by
  have := hp.ne.ne'
  have hz : p.Z ≠ 0 := by linarith [hp.Z]
  unfold current currentOf pressureGradient Point.ni
  rw [h2, h3]
  simp only [zero_div, mul_zero, add_zero]
  field_simp

/-- **C177**: with only trapped particles and no collisions the current is `-G p'/(ψ (ι - N))` for all profiles. -/
theorem C177_trapped (p : Point) (hp : Plasma p) (hf : p.ft = 1) (he : p.nuE = 0) (hi : p.nuI = 0) : current p = -p.G * pressureGradient p / (p.psi * (p.iota - p.N)) := by
  obtain ⟨-, -, a, b, c⟩ := C177_limits p.Z 0 hp.Z
  unfold current
  rw [hf, he, hi, a, b, c]
  have h1 := hp.ne.ne'
  have h2 := hp.Te.ne'
  have h3 := hp.Ti.ne'
  have hz : p.Z ≠ 0 := by linarith [hp.Z]
  unfold currentOf pressureGradient Point.ni
  by_cases hd : p.psi * (p.iota - p.N) = 0
  · rw [hd]; simp
  · have hpsi : p.psi ≠ 0 := left_ne_zero_of_mul hd
    have hio : p.iota - p.N ≠ 0 := right_ne_zero_of_mul hd
    field_simp
    ring

/-- **C177**: the current is linear in the three gradients. -/
theorem C177_linear (p : Point) (a b n1 n2 e1 e2 i1 i2 : ℝ) :
    current { p with dne := a * n1 + b * n2, dTe := a * e1 + b * e2, dTi := a * i1 + b * i2 } = a * current { p with dne := n1, dTe := e1, dTi := i1 } + b * current { p with dne := n2, dTe := e2, dTi := i2 } := by
  unfold current currentOf
  simp only [Point.nuE, Point.nuI, Point.geometry, Point.ni, Point.lnLe, Point.lnLi]
  ring

/-- **C177**: the isomorphism of quasisymmetric fields: only the difference ι - N enters, and its sign reverses the current, as do those of `G` and of the flux. -/
theorem C177_isomorphism (p : Point) (k : ℝ) :
    current { p with iota := p.iota + k, N := p.N + k } = current p ∧ current { p with iota := -p.iota, N := -p.N } = -current p ∧ current { p with G := -p.G } = -current p ∧ current { p with psi := -p.psi } = -current p := by
  have hg : |p.R / (-p.iota - -p.N)| = |p.R / (p.iota - p.N)| := by
    rw [show -p.iota - -p.N = -(p.iota - p.N) by ring, div_neg, abs_neg]
  refine ⟨?_, ?_, ?_, ?_⟩
  · unfold current currentOf
    simp only [Point.nuE, Point.nuI, Point.geometry, Point.ni, Point.lnLe, Point.lnLi]
    rw [show p.iota + k - (p.N + k) = p.iota - p.N by ring]
  · unfold current currentOf
    simp only [Point.nuE, Point.nuI, Point.geometry, Point.ni, Point.lnLe, Point.lnLi]
    rw [hg, show p.psi * (-p.iota - -p.N) = -(p.psi * (p.iota - p.N)) by ring]
    simp only [div_neg]
    ring
  · unfold current currentOf
    simp only [Point.nuE, Point.nuI, Point.geometry, Point.ni, Point.lnLe, Point.lnLi]
    ring
  · unfold current currentOf
    simp only [Point.nuE, Point.nuI, Point.geometry, Point.ni, Point.lnLe, Point.lnLi]
    rw [show -p.psi * (p.iota - p.N) = -(p.psi * (p.iota - p.N)) by ring]
    simp only [div_neg]
    ring

/-! ### The arguments -/

/-- The argument `Zeff` (L263-267): `None`, a number, or a profile. -/
inductive ZArg | none | number (z : ℝ) | profile (f : ℝ → ℝ)

/-- The profile used (L263-267).  `ProfilePolynomial(1.0)` has a 0-dimensional array as dofs, whose length numpy does not know (optimizable.py L98). -/
def zProfile : ZArg → Except Err (ℝ → ℝ)
  | .none => .error .typeError
  | .number z => .ok fun _ => z
  | .profile f => .ok f

/-- **C177**: a number stands for a constant profile, a profile for itself. -/
theorem C177_Zeff (z : ℝ) (f : ℝ → ℝ) : zProfile (.number z) = .ok (fun _ => z) ∧ zProfile (.profile f) = .ok f := ⟨rfl, rfl⟩

/-- **C177** (violated): `Zeff=None`, documented as the constant 1, raises TypeError. -/
theorem C177_Zeff_violated : zProfile .none = .error .typeError := rfl

/-- Where the geometry comes from (L244-262): the arguments `s, G, R, iota, epsilon, psi_edge, f_t, nfp` that are given, or an object with its own `helicity_n`, if it has one. -/
structure GeomArgs where
  given : List String
  geom : Option (Option Int)
  helicity : Option Int

/-- The checks (L244-262): the helicity used, or an error. -/
def geomCheck (a : GeomArgs) : Except Err Int :=
  match a.geom with
  | some own => if a.given ≠ [] then .error .valueError else match a.helicity with
    | some h => .ok h
    | none => match own with
      | some h => .ok h
      | none => .error .attributeError
  | none => match a.helicity with
    | some h => .ok h
    | none => .error .attributeError

/-- **C177**: geometry given twice is refused; an explicit helicity is used, otherwise that of the geometry object. -/
theorem C177_arguments (a : GeomArgs) :
    (a.geom.isSome → a.given ≠ [] → geomCheck a = .error .valueError) ∧ (∀ h, a.helicity = some h → (a.geom.isSome → a.given = []) → geomCheck a = .ok h) ∧ (∀ h, a.helicity = none → a.geom = some (some h) → a.given = [] → geomCheck a = .ok h) := by
  unfold geomCheck
  refine ⟨fun h1 h2 => ?_, fun h h1 h2 => ?_, fun h h1 h2 h3 => ?_⟩
  · cases hg : a.geom with
    | none => simp [hg] at h1
    | some o => simp [h2]
  · cases hg : a.geom with
    | none => simp [h1]
    | some o => simp [h1, h2 (by simp [hg])]
  · simp [h1, h2, h3]

/-- A plasma with all particles trapped and no collisions (R = 0). -/
example : ∃ p : Point, Plasma p ∧ p.ft = 1 ∧ p.nuE = 0 ∧ p.nuI = 0 ∧ p.iota - p.N ≠ 0 ∧ pressureGradient p ≠ 0 :=
  ⟨⟨1, 1, 1, 1, -1, 0, 0, 1, 0, 1, 1, 1, 1, 0⟩, ⟨by norm_num, by norm_num, by norm_num, by norm_num⟩, rfl, by simp [Point.nuE, Point.geometry], by simp [Point.nuI, Point.geometry], by norm_num,
    by unfold pressureGradient charge; norm_num⟩

end Simsopt.Bootstrap
