import Verif.Fields.PolMirror
import Mathlib.Analysis.SpecialFunctions.Trigonometric.Deriv
import Mathlib.Analysis.Calculus.Deriv.ZPow
import Mathlib.Algebra.BigOperators.Fin
import Mathlib.Analysis.SpecialFunctions.Trigonometric.Angle
/-!
# The Reiman field

Model of `Reiman` (src/simsopt/field/magneticfieldclasses.py L801-856) and of `ReimanB`, `ReimandB` (src/simsoptpp/reiman.cpp) at one evaluation point.  The mode numbers `k` are the documented integers; the two lists `k` and `epsilonk` have the same
length `n`.  The accumulation loops are sums.
-/
namespace Simsopt.Fields
open Finset

structure Reiman (n : ℕ) where
  iota0 : ℝ
  iota1 : ℝ
  k : Fin n → ℤ
  eps : Fin n → ℝ
  m0 : ℤ

namespace Reiman
variable {n : ℕ} (f : Reiman n)

/-- The local variable `combo` (reiman.cpp L25, L29, L63, L74), a function of the local variables `rmin`, `theta`, `varphi`. -/
noncomputable def combo (rmin theta varphi : ℝ) : ℝ :=
  f.iota0 + f.iota1 * rmin * rmin - ∑ i, f.k i * f.eps i * rmin ^ (f.k i - 2) * Real.cos (f.k i * theta - f.m0 * varphi)

/-- The local variable `combo1` (reiman.cpp L26, L30, L64, L75). -/
noncomputable def combo1 (rmin theta varphi : ℝ) : ℝ :=
  ∑ i, f.k i * f.eps i * rmin ^ (f.k i - 2) * Real.sin (f.k i * theta - f.m0 * varphi)

/-- `ReimanB` (reiman.cpp L8-43). -/
noncomputable def B (p : P3) : P3 :=
  let x := p 0
  let y := p 1
  let ZZ := p 2
  let RR := √(x * x + y * y)
  let cosphi := x / RR
  let sinphi := y / RR
  let varphi := arctan2 y x
  let theta := arctan2 ZZ (RR - 1)
  let rmin := √((RR - 1) ^ 2 + ZZ ^ 2)
  let c := f.combo rmin theta varphi
  let c1 := f.combo1 rmin theta varphi
  let BR := ((RR - 1) / RR) * c1 + (ZZ / RR) * c
  let BZ := -((RR - 1) / RR) * c + (ZZ / RR) * c1
  let Bphi : ℝ := -1
  ![BR * cosphi - Bphi * sinphi, BR * sinphi + Bphi * cosphi, BZ]

/-- The local variable `dcombodR` (reiman.cpp L66, L76). -/
noncomputable def dcombodR (RR ZZ rmin theta varphi : ℝ) : ℝ :=
  2 * f.iota1 * (RR - 1) - ∑ i, f.k i * rmin ^ (f.k i - 4) * f.eps i * (f.k i * ZZ * Real.sin (f.k i * theta - f.m0 * varphi) + (f.k i - 2) * (RR - 1) * Real.cos (f.k i * theta - f.m0 * varphi))

/-- The local variable `dcombodZ` (reiman.cpp L67, L77). -/
noncomputable def dcombodZ (RR ZZ rmin theta varphi : ℝ) : ℝ :=
  2 * f.iota1 * ZZ + ∑ i, rmin ^ (f.k i - 4) * f.eps i * f.k i * (f.k i * Real.sin (f.k i * theta - f.m0 * varphi) * (RR - 1) - (f.k i - 2) * ZZ * Real.cos (f.k i * theta - f.m0 * varphi))

/-- The local variable `dcombodphi` (reiman.cpp L68, L78). -/
noncomputable def dcombodphi (rmin theta varphi : ℝ) : ℝ :=
  -∑ i, f.k i * f.eps i * rmin ^ (f.k i - 2) * Real.sin (f.k i * theta - f.m0 * varphi) * f.m0

/-- The local variable `dcombo1dR` (reiman.cpp L69, L79). -/
noncomputable def dcombo1dR (RR ZZ rmin theta varphi : ℝ) : ℝ :=
  ∑ i, f.k i * rmin ^ (f.k i - 4) * f.eps i * (-f.k i * ZZ * Real.cos (f.k i * theta - f.m0 * varphi) + (f.k i - 2) * Real.sin (f.k i * theta - f.m0 * varphi) * (RR - 1))

/-- The local variable `dcombo1dZ` (reiman.cpp L70, L80). -/
noncomputable def dcombo1dZ (RR ZZ rmin theta varphi : ℝ) : ℝ :=
  ∑ i, f.k i * rmin ^ (f.k i - 4) * f.eps i * (f.k i * Real.cos (f.k i * theta - f.m0 * varphi) * (RR - 1) + (f.k i - 2) * Real.sin (f.k i * theta - f.m0 * varphi) * ZZ)

/-- The local variable `dcombo1dphi` (reiman.cpp L71, L81). -/
noncomputable def dcombo1dphi (rmin theta varphi : ℝ) : ℝ :=
  -∑ i, f.k i * f.eps i * rmin ^ (f.k i - 2) * Real.cos (f.k i * theta - f.m0 * varphi) * f.m0

/-- `ReimandB` (reiman.cpp L45-106). -/
noncomputable def dB (p : P3) : T2 :=
  let x := p 0
  let y := p 1
  let ZZ := p 2
  let RR := √(x * x + y * y)
  let cosphi := x / RR
  let sinphi := y / RR
  let varphi := arctan2 y x
  let theta := arctan2 ZZ (RR - 1)
  let rmin := √((RR - 1) ^ 2 + ZZ ^ 2)
  let c := f.combo rmin theta varphi
  let c1 := f.combo1 rmin theta varphi
  let dcombodR := f.dcombodR RR ZZ rmin theta varphi
  let dcombodZ := f.dcombodZ RR ZZ rmin theta varphi
  let dcombodphi := f.dcombodphi rmin theta varphi
  let dcombo1dR := f.dcombo1dR RR ZZ rmin theta varphi
  let dcombo1dZ := f.dcombo1dZ RR ZZ rmin theta varphi
  let dcombo1dphi := f.dcombo1dphi rmin theta varphi
  let BR := ((RR - 1) / RR) * c1 + (ZZ / RR) * c
  let Bphi : ℝ := -1
  let dRBR := (-ZZ / RR ^ 2) * c + (ZZ / RR) * dcombodR + c1 * 1 / RR ^ 2 + dcombo1dR * (RR - 1) / RR
  let dZBR := (1 / RR) * c + (ZZ / RR) * dcombodZ + dcombo1dZ * (RR - 1) / RR
  let dphiBR := ((RR - 1) / RR) * dcombo1dphi + (ZZ / RR) * dcombodphi
  let dRBZ := (-1 / RR ^ 2) * c - ((RR - 1) / RR) * dcombodR - c1 * ZZ / RR ^ 2 + dcombo1dR * ZZ / RR
  let dZBZ := -((RR - 1) / RR) * dcombodZ + c1 * (1 / RR) + dcombo1dZ * ZZ / RR
  let dphiBZ := -((RR - 1) / RR) * dcombodphi + (ZZ / RR) * dcombo1dphi
  let dRBphi : ℝ := 0
  let dZBphi : ℝ := 0
  let dphiBphi : ℝ := 0
  ![![dRBR * cosphi * cosphi - (dphiBR - Bphi + dRBphi * RR) * cosphi * sinphi / RR + sinphi * sinphi * (dphiBphi + BR) / RR,
      sinphi * cosphi * (dRBR * RR - dphiBphi - BR) / RR + sinphi * sinphi * (Bphi - dphiBR) / RR + cosphi * cosphi * dRBphi,
      dRBZ * cosphi - dphiBZ * sinphi / RR],
    ![sinphi * cosphi * (dRBR * RR - dphiBphi - BR) / RR + cosphi * cosphi * (dphiBR - Bphi) / RR - sinphi * sinphi * dRBphi,
      dRBR * sinphi * sinphi + (dphiBR - Bphi + dRBphi * RR) * cosphi * sinphi / RR + cosphi * cosphi * (dphiBphi + BR) / RR,
      dRBZ * sinphi + dphiBZ * cosphi / RR],
    ![dZBR * cosphi - dZBphi * sinphi, dZBR * sinphi + dZBphi * cosphi, dZBZ]]

end Reiman

/-! ## Integer multiples of the angle are smooth -/

theorem d_unit {a b r a' b' : ℝ} (hr : r ^ 2 = a ^ 2 + b ^ 2) (h : r ≠ 0) : (a' * r - a * ((a * a' + b * b') / r)) / r ^ 2 = -(b / r) * ((a * b' - b * a') / (a ^ 2 + b ^ 2)) := by
  rw [← hr]
  field_simp
  rw [hr]
  ring

/-- The sine and the cosine of an integer multiple of `arctan2 z x` are differentiable along a curve away from the origin, also where `arctan2` jumps. -/
theorem d_multiple {x z : ℝ → ℝ} {x' z' t : ℝ} (hx : HasDerivAt x x' t) (hz : HasDerivAt z z' t) (h : x t ^ 2 + z t ^ 2 ≠ 0) (k : ℤ) :
    HasDerivAt (fun s => Real.cos (k * arctan2 (z s) (x s))) (-Real.sin (k * arctan2 (z t) (x t)) * (k * ((x t * z' - z t * x') / (x t ^ 2 + z t ^ 2)))) t ∧
    HasDerivAt (fun s => Real.sin (k * arctan2 (z s) (x s))) (Real.cos (k * arctan2 (z t) (x t)) * (k * ((x t * z' - z t * x') / (x t ^ 2 + z t ^ 2)))) t := by
  have hq : HasDerivAt (fun s => x s ^ 2 + z s ^ 2) (2 * x t * x' + 2 * z t * z') t :=
    ((hx.fun_pow 2).fun_add (hz.fun_pow 2)).congr_deriv (by push_cast; ring)
  have hr : HasDerivAt (fun s => √(x s ^ 2 + z s ^ 2)) ((x t * x' + z t * z') / √(x t ^ 2 + z t ^ 2)) t :=
    (hq.sqrt h).congr_deriv (by field_simp)
  have hne : ∀ᶠ s in nhds t, x s ^ 2 + z s ^ 2 ≠ 0 := hq.continuousAt.eventually_ne h
  have hr2 : √(x t ^ 2 + z t ^ 2) ^ 2 = x t ^ 2 + z t ^ 2 := Real.sq_sqrt (by positivity)
  have hr0 : √(x t ^ 2 + z t ^ 2) ≠ 0 := fun hh => h (by rw [← hr2, hh]; ring)
  set τ := (x t * z' - z t * x') / (x t ^ 2 + z t ^ 2) with hτ
  have c1 : HasDerivAt (fun s => Real.cos (arctan2 (z s) (x s))) (-Real.sin (arctan2 (z t) (x t)) * τ) t := by
    refine HasDerivAt.congr_of_eventuallyEq (f := fun s => x s / √(x s ^ 2 + z s ^ 2)) ?_ (hne.mono fun s hs => cos_arctan2 hs)
    refine (hx.fun_div hr hr0).congr_deriv ?_
    rw [sin_arctan2, hτ]
    exact d_unit hr2 hr0
  have s1 : HasDerivAt (fun s => Real.sin (arctan2 (z s) (x s))) (Real.cos (arctan2 (z t) (x t)) * τ) t := by
    refine HasDerivAt.congr_of_eventuallyEq (f := fun s => z s / √(x s ^ 2 + z s ^ 2)) ?_ (hne.mono fun s hs => sin_arctan2 _ _)
    refine (hz.fun_div hr hr0).congr_deriv ?_
    rw [cos_arctan2 h, hτ]
    have := d_unit (a := z t) (b := x t) (r := √(x t ^ 2 + z t ^ 2)) (a' := z') (b' := x') (by rw [hr2]; ring) hr0
    rw [add_comm (x t * x'), this, add_comm (z t ^ 2)]
    ring
  induction k using Int.induction_on with
  | zero => simpa using ⟨hasDerivAt_const t (1 : ℝ), hasDerivAt_const t (0 : ℝ)⟩
  | succ k ih =>
    obtain ⟨hc, hs⟩ := ih
    have e : ∀ s, ((k + 1 : ℤ) : ℝ) * arctan2 (z s) (x s) = ((k : ℤ) : ℝ) * arctan2 (z s) (x s) + arctan2 (z s) (x s) := fun s => by push_cast; ring
    simp only [e, Real.cos_add, Real.sin_add]
    refine ⟨((hc.fun_mul c1).fun_sub (hs.fun_mul s1)).congr_deriv (by push_cast; ring), ((hs.fun_mul c1).fun_add (hc.fun_mul s1)).congr_deriv (by push_cast; ring)⟩
  | pred k ih =>
    obtain ⟨hc, hs⟩ := ih
    have e : ∀ s, ((-k - 1 : ℤ) : ℝ) * arctan2 (z s) (x s) = ((-k : ℤ) : ℝ) * arctan2 (z s) (x s) - arctan2 (z s) (x s) := fun s => by push_cast; ring
    simp only [e, Real.cos_sub, Real.sin_sub]
    refine ⟨((hc.fun_mul c1).fun_add (hs.fun_mul s1)).congr_deriv (by push_cast; ring), ((hs.fun_mul c1).fun_sub (hc.fun_mul s1)).congr_deriv (by push_cast; ring)⟩

/-- The derivatives of `cos (k θ - m φ)` and `sin (k θ - m φ)` along a curve. -/
theorem d_phase {x y u z : ℝ → ℝ} {x' y' u' z' t : ℝ} (hx : HasDerivAt x x' t) (hy : HasDerivAt y y' t) (hu : HasDerivAt u u' t) (hz : HasDerivAt z z' t) (h : x t ^ 2 + y t ^ 2 ≠ 0) (h' : u t ^ 2 + z t ^ 2 ≠ 0) (k m : ℤ) {θ φ τ σ : ℝ}
    (hθ : arctan2 (z t) (u t) = θ) (hφ : arctan2 (y t) (x t) = φ) (hτ : (u t * z' - z t * u') / (u t ^ 2 + z t ^ 2) = τ) (hσ : (x t * y' - y t * x') / (x t ^ 2 + y t ^ 2) = σ) :
    HasDerivAt (fun s => Real.cos (k * arctan2 (z s) (u s) - m * arctan2 (y s) (x s))) (-Real.sin (k * θ - m * φ) * (k * τ - m * σ)) t ∧
    HasDerivAt (fun s => Real.sin (k * arctan2 (z s) (u s) - m * arctan2 (y s) (x s))) (Real.cos (k * θ - m * φ) * (k * τ - m * σ)) t := by
  obtain ⟨c1, s1⟩ := d_multiple hu hz h' k
  obtain ⟨c2, s2⟩ := d_multiple hx hy h m
  rw [hθ, hτ] at c1 s1
  rw [hφ, hσ] at c2 s2
  simp only [Real.cos_sub, Real.sin_sub]
  refine ⟨((c1.fun_mul c2).fun_add (s1.fun_mul s2)).congr_deriv (by rw [hθ, hφ]; ring), ((s1.fun_mul c2).fun_sub (c1.fun_mul s2)).congr_deriv (by rw [hθ, hφ]; ring)⟩

namespace Reiman
variable {n : ℕ} (f : Reiman n)

/-- The derivatives of the two sums along a curve with the velocity `u'` in the direction of R, `z'` in the direction of Z and `σ` in the toroidal angle. -/
theorem d_combo {x y u z : ℝ → ℝ} {x' y' u' z' t : ℝ} (hx : HasDerivAt x x' t) (hy : HasDerivAt y y' t) (hu : HasDerivAt u u' t) (hz : HasDerivAt z z' t) (h : x t ^ 2 + y t ^ 2 ≠ 0) (h' : u t ^ 2 + z t ^ 2 ≠ 0) :
    let r := √(u t ^ 2 + z t ^ 2)
    let θ := arctan2 (z t) (u t)
    let φ := arctan2 (y t) (x t)
    let σ := (x t * y' - y t * x') / (x t ^ 2 + y t ^ 2)
    HasDerivAt (fun s => f.combo (√(u s ^ 2 + z s ^ 2)) (arctan2 (z s) (u s)) (arctan2 (y s) (x s)))
      (f.dcombodR (u t + 1) (z t) r θ φ * u' + f.dcombodZ (u t + 1) (z t) r θ φ * z' + f.dcombodphi r θ φ * σ) t ∧
    HasDerivAt (fun s => f.combo1 (√(u s ^ 2 + z s ^ 2)) (arctan2 (z s) (u s)) (arctan2 (y s) (x s)))
      (f.dcombo1dR (u t + 1) (z t) r θ φ * u' + f.dcombo1dZ (u t + 1) (z t) r θ φ * z' + f.dcombo1dphi r θ φ * σ) t := by
  intro r θ φ σ
  have hq : HasDerivAt (fun s => u s ^ 2 + z s ^ 2) (2 * u t * u' + 2 * z t * z') t :=
    ((hu.fun_pow 2).fun_add (hz.fun_pow 2)).congr_deriv (by push_cast; ring)
  have hr : HasDerivAt (fun s => √(u s ^ 2 + z s ^ 2)) ((u t * u' + z t * z') / r) t :=
    (hq.sqrt h').congr_deriv (by simp only [r]; field_simp)
  have hr2 : r ^ 2 = u t ^ 2 + z t ^ 2 := Real.sq_sqrt (by positivity)
  have hr0 : r ≠ 0 := fun hh => h' (by rw [← hr2, hh]; ring)
  have hpow : ∀ k : ℤ, HasDerivAt (fun s => √(u s ^ 2 + z s ^ 2) ^ (k - 2)) ((k - 2) * r ^ (k - 4) * (u t * u' + z t * z')) t := by
    intro k
    refine ((hasDerivAt_zpow (k - 2) r (Or.inl hr0)).comp t hr).congr_deriv ?_
    have e : r ^ (k - 2 - 1) = r ^ (k - 4) * r := by rw [← zpow_add_one₀ hr0]; congr 1; ring
    rw [e]
    push_cast
    field_simp
  have e2 : ∀ k : ℤ, r ^ (k - 2) = r ^ (k - 4) * r ^ 2 := by
    intro k
    rw [← zpow_natCast r 2, ← zpow_add₀ hr0]; congr 1; push_cast; ring
  have hph := fun k => d_phase hx hy hu hz h h' k f.m0 (θ := θ) (φ := φ) (τ := (u t * z' - z t * u') / r ^ 2) (σ := σ) rfl rfl (by rw [hr2]) rfl
  constructor
  · have hsum : HasDerivAt (fun s => ∑ i, f.k i * f.eps i * √(u s ^ 2 + z s ^ 2) ^ (f.k i - 2) * Real.cos (f.k i * arctan2 (z s) (u s) - f.m0 * arctan2 (y s) (x s))) _ t :=
      HasDerivAt.fun_sum fun i _ => ((hpow (f.k i)).const_mul _).fun_mul (hph (f.k i)).1
    have h0 : HasDerivAt (fun s => f.iota0 + f.iota1 * √(u s ^ 2 + z s ^ 2) * √(u s ^ 2 + z s ^ 2)) (2 * f.iota1 * (u t * u' + z t * z')) t :=
      (((hr.const_mul f.iota1).fun_mul hr).const_add f.iota0).congr_deriv (by change f.iota1 * _ * r + f.iota1 * r * _ = _; field_simp; ring)
    refine (h0.fun_sub hsum).congr_deriv ?_
    simp only [dcombodR, dcombodZ, dcombodphi, add_sub_cancel_right]
    rw [sub_mul, add_mul, neg_mul, sum_mul, sum_mul, sum_mul]
    have : ∑ i, (f.k i * f.eps i * ((f.k i - 2) * r ^ (f.k i - 4) * (u t * u' + z t * z')) * Real.cos (f.k i * θ - f.m0 * φ) +
        f.k i * f.eps i * r ^ (f.k i - 2) * (-Real.sin (f.k i * θ - f.m0 * φ) * (f.k i * ((u t * z' - z t * u') / r ^ 2) - f.m0 * σ)))
      = ∑ i, f.k i * r ^ (f.k i - 4) * f.eps i * (f.k i * z t * Real.sin (f.k i * θ - f.m0 * φ) + (f.k i - 2) * u t * Real.cos (f.k i * θ - f.m0 * φ)) * u'
        - ∑ i, r ^ (f.k i - 4) * f.eps i * f.k i * (f.k i * Real.sin (f.k i * θ - f.m0 * φ) * u t - (f.k i - 2) * z t * Real.cos (f.k i * θ - f.m0 * φ)) * z'
        + ∑ i, f.k i * f.eps i * r ^ (f.k i - 2) * Real.sin (f.k i * θ - f.m0 * φ) * f.m0 * σ := by
      rw [← sum_sub_distrib, ← sum_add_distrib]
      refine sum_congr rfl fun i _ => ?_
      rw [e2]
      field_simp
      ring
    refine (congrArg (2 * f.iota1 * (u t * u' + z t * z') - ·) this).trans ?_
    ring
  · have hsum : HasDerivAt (fun s => ∑ i, f.k i * f.eps i * √(u s ^ 2 + z s ^ 2) ^ (f.k i - 2) * Real.sin (f.k i * arctan2 (z s) (u s) - f.m0 * arctan2 (y s) (x s))) _ t :=
      HasDerivAt.fun_sum fun i _ => ((hpow (f.k i)).const_mul _).fun_mul (hph (f.k i)).2
    refine hsum.congr_deriv ?_
    simp only [dcombo1dR, dcombo1dZ, dcombo1dphi, add_sub_cancel_right]
    rw [neg_mul, sum_mul, sum_mul, sum_mul, ← sub_eq_add_neg, ← sum_add_distrib, ← sum_sub_distrib]
    refine sum_congr rfl fun i _ => ?_
    change f.k i * f.eps i * ((f.k i - 2) * r ^ (f.k i - 4) * (u t * u' + z t * z')) * Real.sin (f.k i * θ - f.m0 * φ) +
        f.k i * f.eps i * r ^ (f.k i - 2) * (Real.cos (f.k i * θ - f.m0 * φ) * (f.k i * ((u t * z' - z t * u') / r ^ 2) - f.m0 * σ)) = _
    rw [e2]
    field_simp
    ring

/-- The derivative of the field along a curve. -/
theorem d_B {x y z : ℝ → ℝ} {x' y' z' t : ℝ} (hx : HasDerivAt x x' t) (hy : HasDerivAt y y' t) (hz : HasDerivAt z z' t) (h : x t ^ 2 + y t ^ 2 ≠ 0)
    (h' : (√(x t ^ 2 + y t ^ 2) - 1) ^ 2 + z t ^ 2 ≠ 0) (l : Fin 3) :
    HasDerivAt (fun s => f.B ![x s, y s, z s] l) (x' * f.dB ![x t, y t, z t] 0 l + y' * f.dB ![x t, y t, z t] 1 l + z' * f.dB ![x t, y t, z t] 2 l) t := by
  have hsq : ∀ s, x s * x s + y s * y s = x s ^ 2 + y s ^ 2 := fun s => by ring
  have hq : HasDerivAt (fun s => x s ^ 2 + y s ^ 2) (2 * x t * x' + 2 * y t * y') t :=
    ((hx.fun_pow 2).fun_add (hy.fun_pow 2)).congr_deriv (by push_cast; ring)
  have hR : HasDerivAt (fun s => √(x s ^ 2 + y s ^ 2)) ((x t * x' + y t * y') / √(x t ^ 2 + y t ^ 2)) t :=
    (hq.sqrt h).congr_deriv (by field_simp)
  have hR2 : √(x t ^ 2 + y t ^ 2) ^ 2 = x t ^ 2 + y t ^ 2 := Real.sq_sqrt (by positivity)
  have hR0 : √(x t ^ 2 + y t ^ 2) ≠ 0 := fun hh => h (by rw [← hR2, hh]; ring)
  have hR' : HasDerivAt (fun s => √(x s ^ 2 + y s ^ 2)) (x t / √(x t ^ 2 + y t ^ 2) * x' + y t / √(x t ^ 2 + y t ^ 2) * y') t := hR.congr_deriv (by ring)
  have hσ : (x t * y' - y t * x') / (x t ^ 2 + y t ^ 2) = (x t / √(x t ^ 2 + y t ^ 2) * y' - y t / √(x t ^ 2 + y t ^ 2) * x') / √(x t ^ 2 + y t ^ 2) := by
    rw [← hR2]
    simp only [Real.sqrt_sq (Real.sqrt_nonneg _)]
    field_simp
  have hcos : HasDerivAt (fun s => x s / √(x s ^ 2 + y s ^ 2)) (-(y t / √(x t ^ 2 + y t ^ 2)) * ((x t / √(x t ^ 2 + y t ^ 2) * y' - y t / √(x t ^ 2 + y t ^ 2) * x') / √(x t ^ 2 + y t ^ 2))) t := by
    refine (hx.fun_div hR hR0).congr_deriv ?_
    rw [d_unit hR2 hR0, hσ]
  have hsin : HasDerivAt (fun s => y s / √(x s ^ 2 + y s ^ 2)) ((x t / √(x t ^ 2 + y t ^ 2)) * ((x t / √(x t ^ 2 + y t ^ 2) * y' - y t / √(x t ^ 2 + y t ^ 2) * x') / √(x t ^ 2 + y t ^ 2))) t := by
    refine (hy.fun_div hR hR0).congr_deriv ?_
    have := d_unit (a := y t) (b := x t) (a' := y') (b' := x') (by rw [hR2]; ring) hR0
    rw [add_comm (x t * x'), this, ← hσ, add_comm (y t ^ 2)]
    ring
  obtain ⟨hc, hc1⟩ := f.d_combo hx hy (hR'.sub_const 1) hz h h'
  rw [hσ] at hc hc1
  have hBR := (((hR'.sub_const 1).fun_div hR' hR0).fun_mul hc1).fun_add ((hz.fun_div hR' hR0).fun_mul hc)
  have hBZ := ((((hR'.sub_const 1).fun_div hR' hR0).fun_neg).fun_mul hc).fun_add ((hz.fun_div hR' hR0).fun_mul hc1)
  fin_cases l
  · refine ((hBR.fun_mul hcos).fun_sub (hsin.const_mul (-1))).congr_of_eventuallyEq (Filter.Eventually.of_forall fun s => ?_) |>.congr_deriv ?_
    · simp only [B, Matrix.cons_val, hsq]; rfl
    · simp only [dB, Matrix.cons_val, hsq, sub_add_cancel, Fin.zero_eta]
      clear hBR hBZ hc hc1 hσ hcos hsin hR' hR
      generalize x t / √(x t ^ 2 + y t ^ 2) = c at *
      generalize y t / √(x t ^ 2 + y t ^ 2) = σ at *
      generalize √(x t ^ 2 + y t ^ 2) = R at *
      field_simp
      ring
  · refine ((hBR.fun_mul hsin).fun_add (hcos.const_mul (-1))).congr_of_eventuallyEq (Filter.Eventually.of_forall fun s => ?_) |>.congr_deriv ?_
    · simp only [B, Matrix.cons_val, hsq]; rfl
    · simp only [dB, Matrix.cons_val, hsq, sub_add_cancel, Fin.mk_one]
      clear hBR hBZ hc hc1 hσ hcos hsin hR' hR
      generalize x t / √(x t ^ 2 + y t ^ 2) = c at *
      generalize y t / √(x t ^ 2 + y t ^ 2) = σ at *
      generalize √(x t ^ 2 + y t ^ 2) = R at *
      field_simp
      ring
  · refine hBZ.congr_of_eventuallyEq (Filter.Eventually.of_forall fun s => ?_) |>.congr_deriv ?_
    · simp only [B, Matrix.cons_val, hsq]; rfl
    · simp only [dB, Matrix.cons_val, hsq, sub_add_cancel, Fin.reduceFinMk]
      clear hBR hBZ hc hc1 hσ hcos hsin hR' hR
      generalize x t / √(x t ^ 2 + y t ^ 2) = c at *
      generalize y t / √(x t ^ 2 + y t ^ 2) = σ at *
      generalize √(x t ^ 2 + y t ^ 2) = R at *
      field_simp
      ring

end Reiman

/-- **C101.** `Reiman.dB_by_dX` is the array of first derivatives of `Reiman.B`, at every point that is neither on the z axis nor on the magnetic axis `R = 1, Z = 0`; in particular across the half-planes where the two angles jump. -/
theorem C101_dB {n : ℕ} (f : Reiman n) (p : P3) (h : p 0 ^ 2 + p 1 ^ 2 ≠ 0) (h' : ¬(p 0 ^ 2 + p 1 ^ 2 = 1 ∧ p 2 = 0)) : IsJacobian f.B p (f.dB p) := by
  have hax : (√(p 0 ^ 2 + p 1 ^ 2) - 1) ^ 2 + p 2 ^ 2 ≠ 0 := by
    intro hh
    obtain ⟨h1, h2⟩ := sq_zero_of hh
    refine h' ⟨?_, h2⟩
    have : √(p 0 ^ 2 + p 1 ^ 2) = 1 := by linarith
    rw [← Real.sq_sqrt (show 0 ≤ p 0 ^ 2 + p 1 ^ 2 by positivity), this]; norm_num
  have hp : ∀ q : P3, q = ![q 0, q 1, q 2] := fun q => by funext i; fin_cases i <;> rfl
  intro j l
  fin_cases j
  · refine (f.d_B (x := fun s => s) (y := fun _ => p 1) (z := fun _ => p 2) (hasDerivAt_id' (p 0)) (hasDerivAt_const _ _) (hasDerivAt_const _ _) h hax l).congr_of_eventuallyEq (Filter.Eventually.of_forall fun s => ?_) |>.congr_deriv ?_
    · exact congrFun (congrArg f.B (by rw [hp (Function.update _ _ _)]; simp)) l
    · rw [← hp p]; simp
  · refine (f.d_B (x := fun _ => p 0) (y := fun s => s) (z := fun _ => p 2) (hasDerivAt_const _ _) (hasDerivAt_id' (p 1)) (hasDerivAt_const _ _) h hax l).congr_of_eventuallyEq (Filter.Eventually.of_forall fun s => ?_) |>.congr_deriv ?_
    · exact congrFun (congrArg f.B (by rw [hp (Function.update _ _ _)]; simp)) l
    · rw [← hp p]; simp
  · refine (f.d_B (x := fun _ => p 0) (y := fun _ => p 1) (z := fun s => s) (hasDerivAt_const _ _) (hasDerivAt_const _ _) (hasDerivAt_id' (p 2)) h hax l).congr_of_eventuallyEq (Filter.Eventually.of_forall fun s => ?_) |>.congr_deriv ?_
    · exact congrFun (congrArg f.B (by rw [hp (Function.update _ _ _)]; simp)) l
    · rw [← hp p]; simp

/-- The hypotheses are met on the branch cut of both angles: the point `(-1/2, 0, 0)`. -/
example (f : Reiman 1) : IsJacobian f.B ![-1 / 2, 0, 0] (f.dB ![-1 / 2, 0, 0]) :=
  C101_dB f _ (by norm_num) (by norm_num)

/-- **C101.** The field has no divergence. -/
theorem C101_divergence_free {n : ℕ} (f : Reiman n) (p : P3) (h : p 0 ^ 2 + p 1 ^ 2 ≠ 0) (h' : ¬(p 0 ^ 2 + p 1 ^ 2 = 1 ∧ p 2 = 0)) : dive (f.dB p) = 0 := by
  have hR2 : √(p 0 * p 0 + p 1 * p 1) ^ 2 = p 0 ^ 2 + p 1 ^ 2 := by rw [Real.sq_sqrt (by nlinarith [sq_nonneg (p 0), sq_nonneg (p 1)])]; ring
  have hR0 : √(p 0 * p 0 + p 1 * p 1) ≠ 0 := fun hh => h (by rw [← hR2, hh]; ring)
  have hax : (√(p 0 * p 0 + p 1 * p 1) - 1) ^ 2 + p 2 ^ 2 ≠ 0 := by
    intro hh
    obtain ⟨h1, h2⟩ := sq_zero_of hh
    refine h' ⟨?_, h2⟩
    have : √(p 0 * p 0 + p 1 * p 1) = 1 := by linarith
    rw [← hR2, this]; norm_num
  have hr2 : √((√(p 0 * p 0 + p 1 * p 1) - 1) ^ 2 + p 2 ^ 2) ^ 2 = (√(p 0 * p 0 + p 1 * p 1) - 1) ^ 2 + p 2 ^ 2 := Real.sq_sqrt (by positivity)
  have hr0 : √((√(p 0 * p 0 + p 1 * p 1) - 1) ^ 2 + p 2 ^ 2) ≠ 0 := fun hh => hax (by rw [← hr2, hh]; ring)
  have hcs : (p 0 / √(p 0 * p 0 + p 1 * p 1)) ^ 2 + (p 1 / √(p 0 * p 0 + p 1 * p 1)) ^ 2 = 1 := by
    rw [div_pow, div_pow, ← add_div, ← hR2, div_self (pow_ne_zero 2 hR0)]
  simp only [dive, Reiman.dB, Matrix.cons_val]
  generalize arctan2 (p 1) (p 0) = φ
  generalize arctan2 (p 2) (√(p 0 * p 0 + p 1 * p 1) - 1) = θ
  generalize √((√(p 0 * p 0 + p 1 * p 1) - 1) ^ 2 + p 2 ^ 2) = r at *
  generalize p 0 / √(p 0 * p 0 + p 1 * p 1) = c at *
  generalize p 1 / √(p 0 * p 0 + p 1 * p 1) = s at *
  generalize √(p 0 * p 0 + p 1 * p 1) = R at *
  generalize p 2 = Z at *
  have key : 2 * f.combo1 r θ φ + ((R - 1) * f.dcombo1dR R Z r θ φ + Z * f.dcombo1dZ R Z r θ φ) = (R - 1) * f.dcombodZ R Z r θ φ - Z * f.dcombodR R Z r θ φ := by
    simp only [Reiman.combo1, Reiman.dcombo1dR, Reiman.dcombo1dZ, Reiman.dcombodZ, Reiman.dcombodR]
    have : (R - 1) * (2 * f.iota1 * Z + ∑ i, r ^ (f.k i - 4) * f.eps i * f.k i * (f.k i * Real.sin (f.k i * θ - f.m0 * φ) * (R - 1) - (f.k i - 2) * Z * Real.cos (f.k i * θ - f.m0 * φ)))
        - Z * (2 * f.iota1 * (R - 1) - ∑ i, f.k i * r ^ (f.k i - 4) * f.eps i * (f.k i * Z * Real.sin (f.k i * θ - f.m0 * φ) + (f.k i - 2) * (R - 1) * Real.cos (f.k i * θ - f.m0 * φ)))
        = (R - 1) * ∑ i, r ^ (f.k i - 4) * f.eps i * f.k i * (f.k i * Real.sin (f.k i * θ - f.m0 * φ) * (R - 1) - (f.k i - 2) * Z * Real.cos (f.k i * θ - f.m0 * φ))
        + Z * ∑ i, f.k i * r ^ (f.k i - 4) * f.eps i * (f.k i * Z * Real.sin (f.k i * θ - f.m0 * φ) + (f.k i - 2) * (R - 1) * Real.cos (f.k i * θ - f.m0 * φ)) := by ring
    rw [this]
    simp only [mul_sum]
    rw [← sum_add_distrib, ← sum_add_distrib, ← sum_add_distrib]
    refine sum_congr rfl fun i _ => ?_
    have e2 : r ^ (f.k i - 2) = r ^ (f.k i - 4) * ((R - 1) ^ 2 + Z ^ 2) := by
      rw [← hr2, ← zpow_natCast r 2, ← zpow_add₀ hr0]; congr 1; push_cast; ring
    rw [e2]
    ring
  have e : ∀ A D BR : ℝ, A * c * c - D * c * s / R + s * s * BR / R + (A * s * s + D * c * s / R + c * c * BR / R) = A + BR / R := by
    intro A D BR
    have : A * c * c - D * c * s / R + s * s * BR / R + (A * s * s + D * c * s / R + c * c * BR / R) = (c ^ 2 + s ^ 2) * (A + BR / R) := by ring
    rw [this, hcs, one_mul]
  simp only [zero_add]
  rw [e]
  generalize f.combo1 r θ φ = c1 at *
  generalize f.combo r θ φ = c0 at *
  field_simp
  linear_combination R * key

/-- The toroidal unit vector at a point. -/
noncomputable def phiHat (p : P3) : P3 := ![-(p 1) / √(p 0 ^ 2 + p 1 ^ 2), p 0 / √(p 0 ^ 2 + p 1 ^ 2), 0]

/-- **C101.** The toroidal component is -1 everywhere off the z axis, and without perturbation the field line through a point off the magnetic axis stays on its circular torus (the field is orthogonal to the gradient of `r² = (R - 1)² + Z²`) and its
poloidal angle advances by `iota0 + iota1 r²` per toroidal angle: `B·∇θ = (iota0 + iota1 r²) B·∇φ`. -/
theorem C101_unperturbed (f : Reiman 0) (p : P3) (h : p 0 ^ 2 + p 1 ^ 2 ≠ 0) :
    let R := √(p 0 ^ 2 + p 1 ^ 2)
    let r2 := (R - 1) ^ 2 + p 2 ^ 2
    let BR := f.B p 0 * (p 0 / R) + f.B p 1 * (p 1 / R)
    BR * (R - 1) + f.B p 2 * p 2 = 0 ∧
    (BR * (-(p 2) / r2) + f.B p 2 * ((R - 1) / r2)) * r2 = (f.iota0 + f.iota1 * r2) * (-1 / R) * r2 := by
  intro R r2 BR
  have hR2 : R ^ 2 = p 0 ^ 2 + p 1 ^ 2 := Real.sq_sqrt (by positivity)
  have hR0 : R ≠ 0 := fun hh => h (by rw [← hR2, hh]; ring)
  have hsq : √(p 0 * p 0 + p 1 * p 1) = R := by simp only [R]; congr 1; ring
  have hrr : √((R - 1) ^ 2 + p 2 ^ 2) * √((R - 1) ^ 2 + p 2 ^ 2) = r2 := Real.mul_self_sqrt (by positivity)
  have hcs : (p 0 / R) ^ 2 + (p 1 / R) ^ 2 = 1 := by
    rw [div_pow, div_pow, ← add_div, ← hR2, div_self (pow_ne_zero 2 hR0)]
  have hB : BR = p 2 / R * (f.iota0 + f.iota1 * r2) := by
    simp only [BR, Reiman.B, Matrix.cons_val, hsq, Reiman.combo1, Reiman.combo, univ_eq_empty, sum_empty, mul_assoc, hrr]
    linear_combination (p 2 / R * (f.iota0 + f.iota1 * r2)) * hcs
  have hZ : f.B p 2 = -((R - 1) / R) * (f.iota0 + f.iota1 * r2) := by
    simp only [Reiman.B, Matrix.cons_val, hsq, Reiman.combo1, Reiman.combo, univ_eq_empty, sum_empty, mul_assoc, hrr]
    ring
  rw [hB, hZ]
  constructor
  · field_simp; ring
  · by_cases h0 : r2 = 0
    · rw [h0]; ring
    · have e : p 2 ^ 2 = r2 - (R - 1) ^ 2 := by simp only [r2]; ring
      generalize hI : f.iota0 + f.iota1 * r2 = I
      clear_value r2
      field_simp
      linear_combination (-I) * e

theorem C101_toroidal_component {n : ℕ} (f : Reiman n) (p : P3) (h : p 0 ^ 2 + p 1 ^ 2 ≠ 0) : f.B p 0 * phiHat p 0 + f.B p 1 * phiHat p 1 + f.B p 2 * phiHat p 2 = -1 := by
  have hR2 : √(p 0 ^ 2 + p 1 ^ 2) ^ 2 = p 0 ^ 2 + p 1 ^ 2 := Real.sq_sqrt (by positivity)
  have hR0 : √(p 0 ^ 2 + p 1 ^ 2) ≠ 0 := fun hh => h (by rw [← hR2, hh]; ring)
  have hsq : √(p 0 * p 0 + p 1 * p 1) = √(p 0 ^ 2 + p 1 ^ 2) := by congr 1; ring
  have hcs : (p 0 / √(p 0 ^ 2 + p 1 ^ 2)) ^ 2 + (p 1 / √(p 0 ^ 2 + p 1 ^ 2)) ^ 2 = 1 := by
    rw [div_pow, div_pow, ← add_div, hR2, div_self h]
  simp only [phiHat, Reiman.B, Matrix.cons_val, hsq]
  linear_combination -hcs

/-- The rotation about the z axis. -/
noncomputable def rot (α : ℝ) (p : P3) : P3 := ![Real.cos α * p 0 - Real.sin α * p 1, Real.sin α * p 0 + Real.cos α * p 1, p 2]

/-- The phase only depends on the angle modulo full turns. -/
theorem same_phase {a b : ℝ} (hc : Real.cos a = Real.cos b) (hs : Real.sin a = Real.sin b) : ∃ j : ℤ, a = b + j * (2 * Real.pi) := by
  have := Real.Angle.cos_sin_inj hc hs
  rw [Real.Angle.angle_eq_iff_two_pi_dvd_sub] at this
  obtain ⟨j, hj⟩ := this
  exact ⟨j, by linarith⟩

/-- **C101.** The field is invariant under rotations about the z axis by a full turn divided by `m0` (and its multiples): it has the toroidal symmetry `m0`. -/
theorem C101_toroidal_symmetry {n : ℕ} (f : Reiman n) (p : P3) (h : p 0 ^ 2 + p 1 ^ 2 ≠ 0) (α : ℝ) (j : ℤ) (hα : f.m0 * α = j * (2 * Real.pi)) : f.B (rot α p) = rot α (f.B p) := by
  have hrad : rot α p 0 ^ 2 + rot α p 1 ^ 2 = p 0 ^ 2 + p 1 ^ 2 := by
    simp only [rot, Matrix.cons_val]
    linear_combination (p 0 ^ 2 + p 1 ^ 2) * Real.sin_sq_add_cos_sq α
  have hsq : ∀ q : P3, √(q 0 * q 0 + q 1 * q 1) = √(q 0 ^ 2 + q 1 ^ 2) := fun q => by congr 1; ring
  have hR0 : √(p 0 ^ 2 + p 1 ^ 2) ≠ 0 := by positivity
  have hc : Real.cos (arctan2 (rot α p 1) (rot α p 0)) = Real.cos (arctan2 (p 1) (p 0) + α) := by
    rw [cos_arctan2 (by rw [hrad]; exact h), Real.cos_add, cos_arctan2 h, sin_arctan2, hrad]
    simp only [rot, Matrix.cons_val]; ring
  have hs : Real.sin (arctan2 (rot α p 1) (rot α p 0)) = Real.sin (arctan2 (p 1) (p 0) + α) := by
    rw [sin_arctan2, Real.sin_add, cos_arctan2 h, sin_arctan2, hrad]
    simp only [rot, Matrix.cons_val]; ring
  obtain ⟨i, hi⟩ := same_phase hc hs
  have hph : ∀ (k : ℤ) (θ : ℝ), k * θ - f.m0 * arctan2 (rot α p 1) (rot α p 0) = (k * θ - f.m0 * arctan2 (p 1) (p 0)) - ((j + f.m0 * i : ℤ) : ℝ) * (2 * Real.pi) := by
    intro k θ
    rw [hi]
    push_cast
    linear_combination -hα
  have h0 : ∀ r θ, f.combo r θ (arctan2 (rot α p 1) (rot α p 0)) = f.combo r θ (arctan2 (p 1) (p 0)) := by
    intro r θ
    simp only [Reiman.combo, hph, Real.cos_sub_int_mul_two_pi]
  have h1 : ∀ r θ, f.combo1 r θ (arctan2 (rot α p 1) (rot α p 0)) = f.combo1 r θ (arctan2 (p 1) (p 0)) := by
    intro r θ
    simp only [Reiman.combo1, hph, Real.sin_sub_int_mul_two_pi]
  have hz : rot α p 2 = p 2 := rfl
  have hx : rot α p 0 = Real.cos α * p 0 - Real.sin α * p 1 := rfl
  have hy : rot α p 1 = Real.sin α * p 0 + Real.cos α * p 1 := rfl
  funext l
  fin_cases l
  · simp only [Reiman.B, hsq, hrad, h0, h1, hz, Fin.zero_eta, Matrix.cons_val]
    simp only [rot, Matrix.cons_val]
    ring
  · simp only [Reiman.B, hsq, hrad, h0, h1, hz, Fin.mk_one, Matrix.cons_val]
    simp only [rot, Matrix.cons_val]
    ring
  · simp only [Reiman.B, hsq, hrad, h0, h1, hz, Fin.reduceFinMk, Matrix.cons_val]
    simp only [rot, Matrix.cons_val]

/-- The hypothesis is met by the rotation by a full turn divided by `m0 = 3`. -/
example (f : Reiman 2) (h : f.m0 = 3) : f.B (rot (2 * Real.pi / 3) ![1, 1, 1]) = rot (2 * Real.pi / 3) (f.B ![1, 1, 1]) :=
  C101_toroidal_symmetry f _ (by norm_num) _ 1 (by rw [h]; push_cast; ring)

/-- **C101.** The field is stellarator symmetric: the half turn about the x axis reverses its radial part and keeps the others. -/
theorem C101_stellarator_symmetry {n : ℕ} (f : Reiman n) (p : P3) (h : p 0 ^ 2 + p 1 ^ 2 ≠ 0) (h' : ¬(p 0 ^ 2 + p 1 ^ 2 = 1 ∧ p 2 = 0)) :
    f.B ![p 0, -p 1, -p 2] = ![-f.B p 0, f.B p 1, f.B p 2] := by
  have hsq : ∀ q : P3, √(q 0 * q 0 + q 1 * q 1) = √(q 0 ^ 2 + q 1 ^ 2) := fun q => by congr 1; ring
  have hax : (√(p 0 ^ 2 + p 1 ^ 2) - 1) ^ 2 + p 2 ^ 2 ≠ 0 := by
    intro hh
    obtain ⟨h1, h2⟩ := sq_zero_of hh
    refine h' ⟨?_, h2⟩
    have : √(p 0 ^ 2 + p 1 ^ 2) = 1 := by linarith
    rw [← Real.sq_sqrt (show 0 ≤ p 0 ^ 2 + p 1 ^ 2 by positivity), this]; norm_num
  have hneg : ∀ y x : ℝ, x ^ 2 + y ^ 2 ≠ 0 → ∃ j : ℤ, arctan2 (-y) x = -arctan2 y x + j * (2 * Real.pi) := by
    intro y x hxy
    refine same_phase ?_ ?_
    · rw [cos_arctan2 (by rw [neg_sq]; exact hxy), Real.cos_neg, cos_arctan2 hxy, neg_sq]
    · rw [sin_arctan2, Real.sin_neg, sin_arctan2, neg_sq, neg_div]
  obtain ⟨a, ha⟩ := hneg (p 1) (p 0) h
  obtain ⟨b, hb⟩ := hneg (p 2) (√(p 0 ^ 2 + p 1 ^ 2) - 1) hax
  have hph : ∀ k : ℤ, k * (-arctan2 (p 2) (√(p 0 ^ 2 + p 1 ^ 2) - 1) + b * (2 * Real.pi)) - f.m0 * (-arctan2 (p 1) (p 0) + a * (2 * Real.pi)) =
      -(k * arctan2 (p 2) (√(p 0 ^ 2 + p 1 ^ 2) - 1) - f.m0 * arctan2 (p 1) (p 0)) - ((f.m0 * a - k * b : ℤ) : ℝ) * (2 * Real.pi) := by
    intro k; push_cast; ring
  have h0 : ∀ r, f.combo r (-arctan2 (p 2) (√(p 0 ^ 2 + p 1 ^ 2) - 1) + b * (2 * Real.pi)) (-arctan2 (p 1) (p 0) + a * (2 * Real.pi)) = f.combo r (arctan2 (p 2) (√(p 0 ^ 2 + p 1 ^ 2) - 1)) (arctan2 (p 1) (p 0)) := by
    intro r
    simp only [Reiman.combo, hph, Real.cos_sub_int_mul_two_pi, Real.cos_neg]
  have h1 : ∀ r, f.combo1 r (-arctan2 (p 2) (√(p 0 ^ 2 + p 1 ^ 2) - 1) + b * (2 * Real.pi)) (-arctan2 (p 1) (p 0) + a * (2 * Real.pi)) = -f.combo1 r (arctan2 (p 2) (√(p 0 ^ 2 + p 1 ^ 2) - 1)) (arctan2 (p 1) (p 0)) := by
    intro r
    simp only [Reiman.combo1, hph, Real.sin_sub_int_mul_two_pi, Real.sin_neg, mul_neg, sum_neg_distrib]
  funext l
  fin_cases l
  · simp only [Reiman.B, neg_sq, neg_mul_neg, Matrix.cons_val, hsq, ha, hb, h0, h1, Fin.zero_eta]; ring
  · simp only [Reiman.B, neg_sq, neg_mul_neg, Matrix.cons_val, hsq, ha, hb, h0, h1, Fin.mk_one]; ring
  · simp only [Reiman.B, neg_sq, neg_mul_neg, Matrix.cons_val, hsq, ha, hb, h0, h1, Fin.reduceFinMk]; ring

end Simsopt.Fields
