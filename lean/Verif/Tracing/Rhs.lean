import Mathlib.Algebra.BigOperators.Field
import Mathlib.Analysis.Calculus.Deriv.Inv
import Mathlib.Analysis.SpecialFunctions.Sqrt
import Verif.Fields.Model
import Mathlib.Analysis.Calculus.FDeriv.Pi
import Mathlib.Analysis.Calculus.FDeriv.Comp
import Mathlib.Analysis.Calculus.MeanValue
import Mathlib.Analysis.Calculus.Deriv.Prod
import Mathlib.Tactic.LinearCombination
/-!
# The equations of motion (C122): the right-hand sides of src/simsoptpp/tracing.cpp

`P3 = Fin 3 → ℝ`.  The right-hand sides evaluate the field at the cylindrical coordinates of the point; that these are coordinates of the same point is `C123_cylindrical`.
-/
namespace Simsopt.Tracing
open Fields

/-- `u · v` -/
def dot3 (u v : P3) : ℝ := u 0 * v 0 + u 1 * v 1 + u 2 * v 2

/-- `B × ∇|B|` as in tracing.cpp L67-69. -/
def cross3 (u v : P3) : P3 := ![u 1 * v 2 - u 2 * v 1, u 2 * v 0 - u 0 * v 2, u 0 * v 1 - u 1 * v 0]

/-- `GuidingCenterVacuumRHS::operator()` (tracing.cpp L50-77), as a function of the field `B`, `∇|B|` and `|B|` at the point and the parallel speed: the velocity and the
derivative of the parallel speed. -/
noncomputable def gcVacuum (m q mu : ℝ) (B g : P3) (absB v : ℝ) : P3 × ℝ :=
  let vperp2 := 2 * mu * absB
  let fak1 := v / absB
  let fak2 := (m / (q * absB ^ 3)) * (0.5 * vperp2 + v * v)
  (fun i => fak1 * B i + fak2 * cross3 B g i, -mu * (B 0 * g 0 + B 1 * g 1 + B 2 * g 2) / absB)

/-- `FullorbitRHS::operator()` (tracing.cpp L276-300): velocity and acceleration. -/
noncomputable def fullOrbit (m q : ℝ) (B v : P3) : P3 × P3 :=
  let qoverm := q / m
  (v, ![qoverm * (v 1 * B 2 - v 2 * B 1), qoverm * (v 2 * B 0 - v 0 * B 2), qoverm * (v 0 * B 1 - v 1 * B 0)])

/-- The quantities of a `BoozerMagneticField` the right-hand sides read: at the point `(s, θ, ζ)` or, for `G`, `I`, `iota`, at `s`. -/
structure BoozerField where
  psi0 : ℝ
  modB : P3 → ℝ
  /-- `modB_derivs`: derivatives in `s`, `θ`, `ζ` -/
  dmodB : P3 → P3
  G : ℝ → ℝ
  I : ℝ → ℝ
  dGds : ℝ → ℝ
  dIds : ℝ → ℝ
  iota : ℝ → ℝ
  K : P3 → ℝ
  /-- `K_derivs`: derivatives in `θ`, `ζ` -/
  dKdtheta : P3 → ℝ
  dKdzeta : P3 → ℝ

/-- `GuidingCenterVacuumBoozerRHS::operator()` (tracing.cpp L106-129). -/
noncomputable def gcVacuumBoozer (F : BoozerField) (m q mu : ℝ) (p : P3) (v : ℝ) : P3 × ℝ :=
  let modB := F.modB p
  let G := F.G (p 0)
  let iota := F.iota (p 0)
  let fak1 := m * v * v / modB + m * mu
  (![-F.dmodB p 1 * fak1 / (q * F.psi0), F.dmodB p 0 * fak1 / (q * F.psi0) + iota * v * modB / G, v * modB / G],
    -(iota * F.dmodB p 1 + F.dmodB p 2) * mu * modB / G)

/-- `GuidingCenterNoKBoozerRHS::operator()` (tracing.cpp L160-187). -/
noncomputable def gcNoKBoozer (F : BoozerField) (m q mu : ℝ) (p : P3) (v : ℝ) : P3 × ℝ :=
  let modB := F.modB p
  let G := F.G (p 0)
  let I := F.I (p 0)
  let dG := F.dGds (p 0) / F.psi0
  let dI := F.dIds (p 0) / F.psi0
  let iota := F.iota (p 0)
  let bpsi := F.dmodB p 0 / F.psi0
  let bth := F.dmodB p 1
  let bze := F.dmodB p 2
  let fak1 := m * v * v / modB + m * mu
  let D := ((q + m * v * dI / modB) * G - (-q * iota + m * v * dG / modB) * I) / iota
  let d0 := (I * bze - G * bth) * fak1 / (D * iota * F.psi0)
  let d1 := (G * bpsi * fak1 - (-q * iota + m * v * dG / modB) * v * modB) / (D * iota)
  let d2 := ((q + m * v * dI / modB) * v * modB - bpsi * fak1 * I) / (D * iota)
  (![d0, d1, d2], -(mu / v) * (bpsi * d0 * F.psi0 + bth * d1 + bze * d2))

/-- `GuidingCenterBoozerRHS::operator()` (tracing.cpp L218-253); the assertion `s > 0` is left out. -/
noncomputable def gcBoozer (F : BoozerField) (m q mu : ℝ) (p : P3) (v : ℝ) : P3 × ℝ :=
  let modB := F.modB p
  let K := F.K p
  let G := F.G (p 0)
  let I := F.I (p 0)
  let dG := F.dGds (p 0) / F.psi0
  let dI := F.dIds (p 0) / F.psi0
  let iota := F.iota (p 0)
  let bpsi := F.dmodB p 0 / F.psi0
  let bth := F.dmodB p 1
  let bze := F.dmodB p 2
  let fak1 := m * v * v / modB + m * mu
  let C := -m * v * (F.dKdzeta p - dG) / modB - q * iota
  let Fc := -m * v * (F.dKdtheta p - dI) / modB + q
  let D := (Fc * G - C * I) / iota
  let d0 := (I * bze - G * bth) * fak1 / (D * iota * F.psi0)
  let d1 := (G * bpsi * fak1 - C * v * modB - K * fak1 * bze) / (D * iota)
  let d2 := (Fc * v * modB - bpsi * fak1 * I + K * fak1 * bth) / (D * iota)
  (![d0, d1, d2], -(mu / v) * (bpsi * d0 * F.psi0 + bth * d1 + bze * d2))

/-! ## Specification -/

/-- `g` is the gradient of `f` at `p` (the vector of partial derivatives of a differentiable function). -/
def IsGrad (f : P3 → ℝ) (p g : P3) : Prop := ∃ D : P3 →L[ℝ] ℝ, HasFDerivAt f D p ∧ ∀ i, D (Pi.single i 1) = g i

/-- `x` moves with velocity `w` at time `t`. -/
def MovesWith (x : ℝ → P3) (t : ℝ) (w : P3) : Prop := ∀ i, HasDerivAt (fun s => x s i) (w i) t

theorem IsGrad.along {f : P3 → ℝ} {p g : P3} {x : ℝ → P3} {t : ℝ} {w : P3} (h : IsGrad f p g) (hp : x t = p) (hx : MovesWith x t w) :
    HasDerivAt (fun s => f (x s)) (dot3 g w) t := by
  obtain ⟨D, hD, hg⟩ := h
  have hx' : HasDerivAt x w t := hasDerivAt_pi.2 hx
  subst hp
  have := hD.comp_hasDerivAt (f := x) t hx'
  refine this.congr_deriv ?_
  have e : D w = ∑ i, w i * D (Pi.single i 1) := by
    have := LinearMap.pi_apply_eq_sum_univ (D : P3 →ₗ[ℝ] ℝ) w
    have hs : ∀ i : Fin 3, (fun j => if i = j then (1 : ℝ) else 0) = Pi.single i 1 := by
      intro i; funext j; simp [Pi.single_apply, eq_comm]
    simpa [hs] using this
  rw [e]
  simp only [Fin.sum_univ_three, hg, dot3]
  ring

/-! ## Cartesian coordinates -/

/-- **C122.** Guiding centers in Cartesian coordinates: along every solution the energy `v_par²/2 + μ |B|` does not change. -/
theorem C122_gc_energy (m q mu : ℝ) (B : P3 → P3) (absB : P3 → ℝ) (g : P3 → P3) (hg : ∀ p, IsGrad absB p (g p)) (x : ℝ → P3) (v : ℝ → ℝ)
    (hx : ∀ t, MovesWith x t (gcVacuum m q mu (B (x t)) (g (x t)) (absB (x t)) (v t)).1)
    (hv : ∀ t, HasDerivAt v (gcVacuum m q mu (B (x t)) (g (x t)) (absB (x t)) (v t)).2 t) (t : ℝ) :
    v t ^ 2 / 2 + mu * absB (x t) = v 0 ^ 2 / 2 + mu * absB (x 0) := by
  have hd : ∀ t, HasDerivAt (fun t => v t ^ 2 / 2 + mu * absB (x t)) 0 t := by
    intro t
    have h1 := (hg (x t)).along rfl (hx t)
    have h2 := (((hv t).fun_pow 2).div_const 2).fun_add (h1.const_mul mu)
    refine h2.congr_deriv ?_
    simp only [gcVacuum, dot3, cross3, Matrix.cons_val_zero, Matrix.cons_val_one, Matrix.cons_val]
    push_cast
    ring
  exact is_const_of_deriv_eq_zero (fun t => (hd t).differentiableAt) (fun t => (hd t).deriv) t 0

/-- **C122.** In particular, with the `μ` that the tracing functions compute from the speed and the parallel speed at the start (tracing.cpp L455-462), the total speed is always the
initial one. -/
theorem C122_gc_speed (m q vtotal vtang : ℝ) (B : P3 → P3) (absB : P3 → ℝ) (g : P3 → P3) (hg : ∀ p, IsGrad absB p (g p)) (x : ℝ → P3) (v : ℝ → ℝ)
    (h0 : absB (x 0) ≠ 0) (hv0 : v 0 = vtang) (mu : ℝ) (hmu : mu = (vtotal * vtotal - vtang * vtang) / (2 * absB (x 0)))
    (hx : ∀ t, MovesWith x t (gcVacuum m q mu (B (x t)) (g (x t)) (absB (x t)) (v t)).1)
    (hv : ∀ t, HasDerivAt v (gcVacuum m q mu (B (x t)) (g (x t)) (absB (x t)) (v t)).2 t) (t : ℝ) :
    v t ^ 2 + 2 * mu * absB (x t) = vtotal ^ 2 := by
  have h := C122_gc_energy m q mu B absB g hg x v hx hv t
  have h1 : v 0 ^ 2 + 2 * mu * absB (x 0) = vtotal ^ 2 := by
    rw [hv0, hmu]; field_simp; ring
  linarith

/-- **C122.** The velocity of the guiding center along the field is the parallel speed. -/
theorem C122_gc_parallel (m q mu : ℝ) (B g : P3) (v absB : ℝ) (hB : absB ^ 2 = dot3 B B) (h0 : absB ≠ 0) :
    dot3 (gcVacuum m q mu B g absB v).1 B / absB = v := by
  have e : dot3 (gcVacuum m q mu B g absB v).1 B = v / absB * absB ^ 2 := by
    rw [hB]
    simp only [gcVacuum, dot3, cross3, Matrix.cons_val_zero, Matrix.cons_val_one, Matrix.cons_val]
    ring
  rw [e]; field_simp

/-- **C122.** The guiding center moves with the documented velocity `v_par B/|B| + m/(q|B|³) (v_perp²/2 + v_par²) B × ∇|B|`, where `v_perp² = 2 μ |B|`. -/
theorem C122_gc_documented (m q mu : ℝ) (B g : P3) (absB v vperp : ℝ) (hv : vperp ^ 2 = 2 * mu * absB) :
    (gcVacuum m q mu B g absB v).1 = (v / absB) • B + (m / (q * absB ^ 3) * (vperp ^ 2 / 2 + v ^ 2)) • cross3 B g := by
  funext i
  simp only [gcVacuum, Pi.add_apply, Pi.smul_apply, smul_eq_mul, hv]
  ring

theorem dirDeriv {B : P3 → P3} {p : P3} {L : P3 →L[ℝ] P3} (hL : HasFDerivAt B L p) (w : P3) (i : Fin 3) :
    HasDerivAt (fun s : ℝ => B (p + s • w) i) (∑ j, w j * L (Pi.single j 1) i) 0 := by
  have h1 : HasDerivAt (fun s : ℝ => p + s • w) w 0 := by
    have := ((hasDerivAt_id (0 : ℝ)).smul_const w).const_add p
    simpa using this
  have h0 : HasFDerivAt B L (p + (0 : ℝ) • w) := by simpa using hL
  have h2 := (hasDerivAt_pi.1 (h0.comp_hasDerivAt (f := fun s : ℝ => p + s • w) 0 h1)) i
  refine h2.congr_deriv ?_
  have e : L w = ∑ i, w i • L (Pi.single i 1) := by
    have := LinearMap.pi_apply_eq_sum_univ (L : P3 →ₗ[ℝ] P3) w
    have hs : ∀ i : Fin 3, (fun j => if i = j then (1 : ℝ) else 0) = Pi.single i 1 := by
      intro i; funext j; simp [Pi.single_apply, eq_comm]
    simpa [hs] using this
  rw [e]
  simp [Finset.sum_apply]

theorem dirNorm {B : P3 → P3} {p : P3} {L : P3 →L[ℝ] P3} (hL : HasFDerivAt B L p) (h0 : dot3 (B p) (B p) ≠ 0) (w : P3) :
    HasDerivAt (fun s : ℝ => √(dot3 (B (p + s • w)) (B (p + s • w)))) ((∑ i, B p i * ∑ j, w j * L (Pi.single j 1) i) / √(dot3 (B p) (B p))) 0 := by
  have d := dirDeriv hL w
  have h := (((d 0).fun_mul (d 0)).fun_add ((d 1).fun_mul (d 1))).fun_add ((d 2).fun_mul (d 2))
  have e : p + (0 : ℝ) • w = p := by simp
  have := HasDerivAt.sqrt h (by simpa [dot3] using h0)
  refine this.congr_deriv ?_
  simp only [zero_smul, add_zero, Fin.sum_univ_three, dot3]
  ring

/-- **C122.** Why this is the right velocity in a vacuum field (one without curl): besides the motion along the field it consists of the drift due to the gradient of `|B|` and the drift due to the
curvature `κ` of the field lines, `m/(q|B|²) B × (μ ∇|B| + v_par² κ)`, where `κ` is the derivative of the direction of the field along the field line. -/
theorem C122_gc_drifts (m q mu v : ℝ) (B : P3 → P3) (p g κ : P3) (L : P3 →L[ℝ] P3) (hL : HasFDerivAt B L p) (hcurl : ∀ i j, L (Pi.single j 1) i = L (Pi.single i 1) j)
    (h0 : dot3 (B p) (B p) ≠ 0) (hg : IsGrad (fun x => √(dot3 (B x) (B x))) p g)
    (hκ : ∀ i, HasDerivAt (fun s : ℝ => B (p + s • ((1 / √(dot3 (B p) (B p))) • B p)) i /
      √(dot3 (B (p + s • ((1 / √(dot3 (B p) (B p))) • B p))) (B (p + s • ((1 / √(dot3 (B p) (B p))) • B p))))) (κ i) 0) :
    (gcVacuum m q mu (B p) g √(dot3 (B p) (B p)) v).1 =
      (v / √(dot3 (B p) (B p))) • B p + (m / (q * dot3 (B p) (B p))) • cross3 (B p) (mu • g + v ^ 2 • κ) := by
  have hpos : 0 < dot3 (B p) (B p) := lt_of_le_of_ne (by unfold dot3; nlinarith [sq_nonneg (B p 0), sq_nonneg (B p 1), sq_nonneg (B p 2)]) (Ne.symm h0)
  set a := √(dot3 (B p) (B p)) with ha
  have hap : 0 < a := Real.sqrt_pos.2 hpos
  have haa : a ^ 2 = dot3 (B p) (B p) := Real.sq_sqrt hpos.le
  -- the gradient of the modulus
  have eg : ∀ j, g j = (∑ i, B p i * L (Pi.single j 1) i) / a := by
    intro j
    have h1 := dirNorm hL h0 (Pi.single j 1)
    have hm : MovesWith (fun s : ℝ => p + s • (Pi.single j 1 : P3)) 0 (Pi.single j 1) := by
      intro i
      have := ((hasDerivAt_id (0 : ℝ)).mul_const ((Pi.single j 1 : P3) i)).const_add (p i)
      simpa using this
    have h2 := hg.along (x := fun s : ℝ => p + s • (Pi.single j 1 : P3)) (t := 0) (by simp) hm
    have := h2.unique h1
    have e1 : dot3 g (Pi.single j 1) = g j := by
      fin_cases j <;> simp [dot3]
    rw [e1] at this
    rw [this]
    congr 1
    refine Finset.sum_congr rfl fun i _ => ?_
    congr 1
    simp [Pi.single_apply]
  -- the curvature
  have ek : ∃ c, ∀ i, κ i = g i / a - c * B p i := by
    have hn := dirNorm hL h0 ((1 / a) • B p)
    rw [← ha] at hn
    refine ⟨((∑ i, B p i * ∑ j, ((1 / a) • B p) j * L (Pi.single j 1) i) / a) / a ^ 2, fun i => ?_⟩
    have hd := (dirDeriv hL ((1 / a) • B p) i).fun_div hn (by simpa [← ha] using hap.ne')
    rw [(hκ i).unique hd, eg i]
    simp only [zero_smul, add_zero, ← ha]
    have e2 : (∑ j, ((1 / a) • B p) j * L (Pi.single j 1) i) = (∑ j, B p j * L (Pi.single i 1) j) / a := by
      rw [Finset.sum_div]
      refine Finset.sum_congr rfl fun j _ => ?_
      rw [hcurl i j]; simp [smul_eq_mul]; ring
    rw [e2]
    field_simp
  obtain ⟨c, hc⟩ := ek
  funext i
  simp only [gcVacuum, Pi.add_apply, Pi.smul_apply, smul_eq_mul, ← haa]
  fin_cases i <;> simp [cross3, hc] <;> field_simp <;> ring

/-- The curl-free field `(1 + y, x, 0)` meets the premises of `C122_gc_drifts` at the origin, with a gradient of `|B|` that is not zero. -/
example : ∃ (B : P3 → P3) (g κ : P3) (L : P3 →L[ℝ] P3), HasFDerivAt B L 0 ∧ (∀ i j, L (Pi.single j 1) i = L (Pi.single i 1) j) ∧ dot3 (B 0) (B 0) = 1 ∧
    IsGrad (fun x => √(dot3 (B x) (B x))) 0 g ∧ g 1 = 1 ∧ ∀ i, HasDerivAt (fun s : ℝ => B (0 + s • ((1 / √(dot3 (B 0) (B 0))) • B 0)) i /
      √(dot3 (B (0 + s • ((1 / √(dot3 (B 0) (B 0))) • B 0))) (B (0 + s • ((1 / √(dot3 (B 0) (B 0))) • B 0))))) (κ i) 0 := by
  let B : P3 → P3 := fun x => ![1 + x 1, x 0, 0]
  let P := fun i : Fin 3 => (ContinuousLinearMap.proj i : P3 →L[ℝ] ℝ)
  let L : P3 →L[ℝ] P3 := ContinuousLinearMap.pi ![P 1, P 0, 0]
  have hP : ∀ (i : Fin 3) (x : P3), HasFDerivAt (fun x : P3 => x i) (P i) x := fun i x => hasFDerivAt_apply (𝕜 := ℝ) i x
  have hL : HasFDerivAt B L 0 := by
    rw [hasFDerivAt_pi']
    intro i
    fin_cases i
    · exact (hP 1 0).const_add 1
    · exact hP 0 0
    · exact hasFDerivAt_const (0 : ℝ) (0 : P3)
  have h1 : dot3 (B 0) (B 0) = 1 := by simp [dot3, B]
  have hn : HasFDerivAt (fun x => √(dot3 (B x) (B x))) (P 1) 0 := by
    have h0 := (((hP 1 0).const_add 1).mul ((hP 1 0).const_add 1)).add (((hP 0 0).mul (hP 0 0)).add_const (0 * 0))
    have h2 := h0.sqrt (by simp)
    refine (h2.congr_fderiv ?_).congr_of_eventuallyEq (Filter.Eventually.of_forall fun x => ?_)
    · ext x; simp; ring
    · simp [dot3, B]
  refine ⟨B, P 1 |> fun D => fun i => D (Pi.single i 1), fun i => _, L, hL, ?_, h1, ⟨P 1, hn, fun i => rfl⟩, by simp [P], fun i =>
    (dirDeriv hL ((1 / √(dot3 (B 0) (B 0))) • B 0) i).fun_div (dirNorm hL (by rw [h1]; exact one_ne_zero) _) (by simp [h1])⟩
  intro i j
  fin_cases i <;> fin_cases j <;> simp [L, P]

/-- **C122.** Full orbits: along every solution the speed does not change, in any magnetic field. -/
theorem C122_full_speed (m q : ℝ) (B : P3 → P3) (x v : ℝ → P3) (hv : ∀ t, MovesWith v t (fullOrbit m q (B (x t)) (v t)).2) (t : ℝ) :
    dot3 (v t) (v t) = dot3 (v 0) (v 0) := by
  have hd : ∀ t, HasDerivAt (fun t => dot3 (v t) (v t)) 0 t := by
    intro t
    have h := ((((hv t 0).fun_mul (hv t 0)).fun_add ((hv t 1).fun_mul (hv t 1)))).fun_add ((hv t 2).fun_mul (hv t 2))
    refine h.congr_deriv ?_
    simp only [fullOrbit, Matrix.cons_val_zero, Matrix.cons_val_one, Matrix.cons_val]
    ring
  exact is_const_of_deriv_eq_zero (fun t => (hd t).differentiableAt) (fun t => (hd t).deriv) t 0

/-- **C122.** Full orbits: the acceleration is `(q/m) v × B`, so it is perpendicular to the field and to the velocity. -/
theorem C122_full_force (m q : ℝ) (B v : P3) : (fullOrbit m q B v).1 = v ∧ (fullOrbit m q B v).2 = (q / m) • cross3 v B ∧ dot3 (fullOrbit m q B v).2 B = 0 := by
  refine ⟨rfl, ?_, ?_⟩
  · funext i; fin_cases i <;> simp [fullOrbit, cross3]
  · simp only [fullOrbit, dot3, Matrix.cons_val_zero, Matrix.cons_val_one, Matrix.cons_val]; ring

/-- **C122.** Field lines (`FieldlineRHS`, tracing.cpp L315-330, whose right-hand side is `B`) stay on the level sets of every function whose gradient is perpendicular to the field. -/
theorem C122_fieldline_surfaces (B : P3 → P3) (ψ : P3 → ℝ) (g : P3 → P3) (hg : ∀ p, IsGrad ψ p (g p)) (hp : ∀ p, dot3 (g p) (B p) = 0) (x : ℝ → P3)
    (hx : ∀ t, MovesWith x t (B (x t))) (t : ℝ) : ψ (x t) = ψ (x 0) := by
  have hd : ∀ t, HasDerivAt (fun t => ψ (x t)) 0 t := fun t => ((hg (x t)).along rfl (hx t)).congr_deriv (hp _)
  exact is_const_of_deriv_eq_zero (fun t => (hd t).differentiableAt) (fun t => (hd t).deriv) t 0

/-! ## Boozer coordinates -/

/-- The arrays of derivatives of a field are right at the point `p`. -/
structure BoozerField.ConsistentAt (F : BoozerField) (p : P3) : Prop where
  grad : IsGrad F.modB p (F.dmodB p)
  dG : HasDerivAt F.G (F.dGds (p 0)) (p 0)
  dI : HasDerivAt F.I (F.dIds (p 0)) (p 0)

/-- The arrays of derivatives of a field are right everywhere. -/
def BoozerField.Consistent (F : BoozerField) : Prop := ∀ p, F.ConsistentAt p

/-- The three sets of equations as documented (tracing.py L89-120). -/
noncomputable def documented (F : BoozerField) (m q mu : ℝ) (p : P3) (v : ℝ) : P3 × ℝ :=
  let B := F.modB p
  let G' := F.dGds (p 0) / F.psi0
  let I' := F.dIds (p 0) / F.psi0
  let C := -m * v * F.dKdzeta p / B - q * F.iota (p 0) + m * v * G' / B
  let Fc := -m * v * F.dKdtheta p / B + q + m * v * I' / B
  let D := (Fc * F.G (p 0) - C * F.I (p 0)) / F.iota (p 0)
  let w := m * (v ^ 2 / B + mu)
  (![(F.I (p 0) * F.dmodB p 2 - F.G (p 0) * F.dmodB p 1) * w / (F.iota (p 0) * D * F.psi0),
     ((F.G (p 0) * (F.dmodB p 0 / F.psi0) - F.K p * F.dmodB p 2) * w - C * v * B) / (F.iota (p 0) * D),
     (Fc * v * B - ((F.dmodB p 0 / F.psi0) * F.I (p 0) - F.dmodB p 1 * F.K p) * w) / (F.iota (p 0) * D)],
    (C * F.dmodB p 1 - Fc * F.dmodB p 2) * mu * B / (F.iota (p 0) * D))

/-- `F` with `K = 0`. -/
def BoozerField.noK (F : BoozerField) : BoozerField := { F with K := fun _ => 0, dKdtheta := fun _ => 0, dKdzeta := fun _ => 0 }

/-- **C122.** `mode='gc'` solves the documented equations wherever the parallel speed is not zero. -/
theorem C122_boozer_documented (F : BoozerField) (m q mu : ℝ) (p : P3) (v : ℝ) (hv : v ≠ 0) (hψ : F.psi0 ≠ 0) :
    gcBoozer F m q mu p v = documented F m q mu p v := by
  unfold gcBoozer documented
  simp only
  have eC : -m * v * (F.dKdzeta p - F.dGds (p 0) / F.psi0) / F.modB p - q * F.iota (p 0) =
      -m * v * F.dKdzeta p / F.modB p - q * F.iota (p 0) + m * v * (F.dGds (p 0) / F.psi0) / F.modB p := by ring
  have eF : -m * v * (F.dKdtheta p - F.dIds (p 0) / F.psi0) / F.modB p + q =
      -m * v * F.dKdtheta p / F.modB p + q + m * v * (F.dIds (p 0) / F.psi0) / F.modB p := by ring
  have ew : m * v * v / F.modB p + m * mu = m * (v ^ 2 / F.modB p + mu) := by ring
  rw [eC, eF, ew]
  generalize -m * v * F.dKdzeta p / F.modB p - q * F.iota (p 0) + m * v * (F.dGds (p 0) / F.psi0) / F.modB p = C
  generalize -m * v * F.dKdtheta p / F.modB p + q + m * v * (F.dIds (p 0) / F.psi0) / F.modB p = Fc
  generalize m * (v ^ 2 / F.modB p + mu) = w
  generalize (Fc * F.G (p 0) - C * F.I (p 0)) / F.iota (p 0) = D
  generalize F.G (p 0) = G
  generalize F.I (p 0) = I
  generalize F.dmodB p 0 = b0
  generalize F.dmodB p 1 = b1
  generalize F.dmodB p 2 = b2
  generalize F.K p = K
  generalize F.iota (p 0) = ι
  have e1 : (G * (b0 / F.psi0) * w - C * v * F.modB p - K * w * b2) / (D * ι) = ((G * (b0 / F.psi0) - K * b2) * w - C * v * F.modB p) / (ι * D) := by
    rw [mul_comm D ι]; congr 1; ring
  have e2 : (Fc * v * F.modB p - b0 / F.psi0 * w * I + K * w * b1) / (D * ι) = (Fc * v * F.modB p - (b0 / F.psi0 * I - b1 * K) * w) / (ι * D) := by
    rw [mul_comm D ι]; congr 1; ring
  rw [e1, e2, mul_comm D ι]
  refine Prod.ext rfl ?_
  show -(mu / v) * _ = _
  by_cases hD : ι * D = 0
  · rw [hD]; simp
  · field_simp
    ring

/-- **C122.** `mode='gc_nok'` solves the documented equations with `K = 0` wherever the parallel speed is not zero. -/
theorem C122_noK_documented (F : BoozerField) (m q mu : ℝ) (p : P3) (v : ℝ) (hv : v ≠ 0) (hψ : F.psi0 ≠ 0) :
    gcNoKBoozer F m q mu p v = documented F.noK m q mu p v := by
  rw [← C122_boozer_documented F.noK m q mu p v hv hψ]
  unfold gcNoKBoozer gcBoozer BoozerField.noK
  simp only
  have eC : -m * v * (0 - F.dGds (p 0) / F.psi0) / F.modB p - q * F.iota (p 0) = -q * F.iota (p 0) + m * v * (F.dGds (p 0) / F.psi0) / F.modB p := by ring
  have eF : -m * v * (0 - F.dIds (p 0) / F.psi0) / F.modB p + q = q + m * v * (F.dIds (p 0) / F.psi0) / F.modB p := by ring
  rw [eC, eF]
  simp only [zero_mul, sub_zero, add_zero]

/-- **C122.** `mode='gc_vac'` solves the documented equations for constant `G`, `I = 0` and `K = 0`, also where the parallel speed is zero. -/
theorem C122_vacuum_documented (F : BoozerField) (m q mu : ℝ) (p : P3) (v : ℝ) (hq : q ≠ 0) (hψ : F.psi0 ≠ 0) (hB : F.modB p ≠ 0) (hG : F.G (p 0) ≠ 0) (hι : F.iota (p 0) ≠ 0)
    (hI : F.I (p 0) = 0) (hG' : F.dGds (p 0) = 0) (hI' : F.dIds (p 0) = 0) : gcVacuumBoozer F m q mu p v = documented F.noK m q mu p v := by
  unfold gcVacuumBoozer documented BoozerField.noK
  simp only [hI, hG', hI', mul_zero, zero_div, zero_mul, sub_zero, add_zero, zero_add]
  refine Prod.ext ?_ ?_
  · funext i
    fin_cases i
    · show _ / _ = _ / _
      field_simp
      ring
    · show _ + _ = _ / _
      field_simp
      ring
    · show _ / _ = _ / _
      field_simp
  · show _ / _ = _ / _
    field_simp
    ring

/-- **C122.** The energy is conserved by the documented equations, hence by all three modes (with the conditions above). -/
theorem documented_power (F : BoozerField) (m q mu : ℝ) (p : P3) (v : ℝ) (hψ : F.psi0 ≠ 0) :
    v * (documented F m q mu p v).2 + mu * dot3 (F.dmodB p) (documented F m q mu p v).1 = 0 := by
  unfold documented dot3
  simp only [Matrix.cons_val_zero, Matrix.cons_val_one, Matrix.cons_val]
  generalize -m * v * F.dKdzeta p / F.modB p - q * F.iota (p 0) + m * v * (F.dGds (p 0) / F.psi0) / F.modB p = C
  generalize -m * v * F.dKdtheta p / F.modB p + q + m * v * (F.dIds (p 0) / F.psi0) / F.modB p = Fc
  generalize m * (v ^ 2 / F.modB p + mu) = w
  generalize (Fc * F.G (p 0) - C * F.I (p 0)) / F.iota (p 0) = D
  generalize F.iota (p 0) = ι
  by_cases hD : ι * D = 0
  · rw [hD]; simp
  · field_simp
    ring

/-- **C122.** Along every solution of the equations in Boozer coordinates the energy `v_par²/2 + μ |B|` does not change. -/
theorem C122_boozer_energy (F : BoozerField) (m q mu : ℝ) (hψ : F.psi0 ≠ 0) (x : ℝ → P3) (v : ℝ → ℝ) (hF : ∀ t, F.ConsistentAt (x t))
    (hx : ∀ t, MovesWith x t (documented F m q mu (x t) (v t)).1) (hv : ∀ t, HasDerivAt v (documented F m q mu (x t) (v t)).2 t) (t : ℝ) :
    v t ^ 2 / 2 + mu * F.modB (x t) = v 0 ^ 2 / 2 + mu * F.modB (x 0) := by
  have hd : ∀ t, HasDerivAt (fun t => v t ^ 2 / 2 + mu * F.modB (x t)) 0 t := by
    intro t
    have h2 := (((hv t).fun_pow 2).div_const 2).fun_add (((hF t).grad.along rfl (hx t)).const_mul mu)
    refine h2.congr_deriv ?_
    have := documented_power F m q mu (x t) (v t) hψ
    push_cast
    linear_combination this
  exact is_const_of_deriv_eq_zero (fun t => (hd t).differentiableAt) (fun t => (hd t).deriv) t 0

theorem exists_symm {M N b c : ℝ} (h0 : ¬(M = 0 ∧ N = 0)) (h : N * b + M * c = 0) : ∃ k, b = M * k ∧ c = -(N * k) := by
  by_cases hM : M = 0
  · have hN : N ≠ 0 := fun hN => h0 ⟨hM, hN⟩
    refine ⟨-c / N, ?_, by field_simp⟩
    rw [hM] at h ⊢
    have : b = 0 := by
      have : N * b = 0 := by linarith
      exact (mul_eq_zero.1 this).resolve_left hN
    rw [this]; ring
  · refine ⟨b / M, by field_simp, ?_⟩
    field_simp
    linarith

/-- **C122.** In a quasisymmetric field, where `|B|` and `K` depend on the angles only through `M θ - N ζ`, the momentum
`M (m v_par G/|B| - q ψ_pol) + N (m v_par I/|B| + q ψ)` does not change along any solution (`ψ = ψ₀ s`, `dψ_pol/dψ = iota`), in particular in an axisymmetric field the toroidal canonical momentum
(`M = 1, N = 0`). -/
theorem C122_boozer_momentum (F : BoozerField) (m q mu : ℝ) (hψ : F.psi0 ≠ 0) (M N : ℝ) (h0 : ¬(M = 0 ∧ N = 0)) (x : ℝ → P3) (v : ℝ → ℝ) (hF : ∀ t, F.ConsistentAt (x t))
    (hsym : ∀ t, N * F.dmodB (x t) 1 + M * F.dmodB (x t) 2 = 0) (hK : ∀ t, N * F.dKdtheta (x t) + M * F.dKdzeta (x t) = 0)
    (psip : ℝ → ℝ) (hpsip : ∀ t, HasDerivAt psip (F.iota (x t 0) * F.psi0) (x t 0)) (hB : ∀ t, F.modB (x t) ≠ 0) (hι : ∀ t, F.iota (x t 0) ≠ 0)
    (hD : ∀ t, (-m * v t * (F.dKdtheta (x t) - F.dIds (x t 0) / F.psi0) / F.modB (x t) + q) * F.G (x t 0) -
      (-m * v t * (F.dKdzeta (x t) - F.dGds (x t 0) / F.psi0) / F.modB (x t) - q * F.iota (x t 0)) * F.I (x t 0) ≠ 0)
    (hx : ∀ t, MovesWith x t (documented F m q mu (x t) (v t)).1) (hv : ∀ t, HasDerivAt v (documented F m q mu (x t) (v t)).2 t) (t : ℝ) :
    M * (m * v t * F.G (x t 0) / F.modB (x t) - q * psip (x t 0)) + N * (m * v t * F.I (x t 0) / F.modB (x t) + q * (F.psi0 * x t 0)) =
      M * (m * v 0 * F.G (x 0 0) / F.modB (x 0) - q * psip (x 0 0)) + N * (m * v 0 * F.I (x 0 0) / F.modB (x 0) + q * (F.psi0 * x 0 0)) := by
  have hd : ∀ t, HasDerivAt (fun t => M * (m * v t * F.G (x t 0) / F.modB (x t) - q * psip (x t 0)) + N * (m * v t * F.I (x t 0) / F.modB (x t) + q * (F.psi0 * x t 0))) 0 t := by
    intro t
    have hb := (hF t).grad.along rfl (hx t)
    have hG : HasDerivAt (fun t => F.G (x t 0)) _ t := (hF t).dG.comp t (hx t 0)
    have hI : HasDerivAt (fun t => F.I (x t 0)) _ t := (hF t).dI.comp t (hx t 0)
    have hP : HasDerivAt (fun t => psip (x t 0)) _ t := (hpsip t).comp t (hx t 0)
    have h1 := (((((hv t).const_mul m).fun_mul hG).fun_div hb (hB _)).fun_sub (hP.const_mul q)).const_mul M
    have h2 := (((((hv t).const_mul m).fun_mul hI).fun_div hb (hB _)).fun_add (((hx t 0).const_mul F.psi0).const_mul q)).const_mul N
    refine (h1.fun_add h2).congr_deriv ?_
    obtain ⟨b, hb1, hb2⟩ := exists_symm h0 (hsym t)
    obtain ⟨k, hk1, hk2⟩ := exists_symm h0 (hK t)
    have hDt := hD t
    have hBt := hB t
    have hιt := hι t
    unfold documented dot3
    simp only [Matrix.cons_val_zero, Matrix.cons_val_one, Matrix.cons_val]
    rw [hb1, hb2, hk1, hk2] at *
    generalize F.modB (x t) = B at *
    generalize F.G (x t 0) = G at *
    generalize F.I (x t 0) = I at *
    generalize F.dGds (x t 0) = G' at *
    generalize F.dIds (x t 0) = I' at *
    generalize F.iota (x t 0) = ι at *
    generalize F.K (x t) = K at *
    generalize F.dmodB (x t) 0 = b0 at *
    generalize F.psi0 = ψ at *
    generalize v t = v at *
    clear hx hv hD hB hι hpsip hsym hK h1 h2 hb hG hI hP
    generalize hC : -m * v * -(N * k) / B - q * ι + m * v * (G' / ψ) / B = C
    generalize hFc : -m * v * (M * k) / B + q + m * v * (I' / ψ) / B = Fc
    have hDD : Fc * G - C * I ≠ 0 := by
      rw [← hC, ← hFc]; convert hDt using 2 <;> ring
    have eD : ι * ((Fc * G - C * I) / ι) = Fc * G - C * I := by field_simp
    rw [eD]
    generalize hw : m * (v ^ 2 / B + mu) = w
    generalize hDe : Fc * G - C * I = D at *
    have hG' : m * v * G' = (C + q * ι) * B * ψ - m * v * N * k * ψ := by
      rw [← hC]; field_simp; ring
    have hI' : m * v * I' = (Fc - q) * B * ψ + m * v * M * k * ψ := by
      rw [← hFc]; field_simp; ring
    have hw' : w * B = m * v ^ 2 + m * mu * B := by rw [← hw]; field_simp
    field_simp
    linear_combination (-b * (M * G + N * I) * (M * C + N * Fc) * B * ψ) * hw' + (-b * B * (M * G + N * I) * w * M) * hG' + (-b * B * (M * G + N * I) * w * N) * hI'
  exact is_const_of_deriv_eq_zero (fun t => (hd t).differentiableAt) (fun t => (hd t).deriv) t 0

/-- **C122.** The code's own right-hand sides conserve the energy: `mode='gc_vac'` always. -/
theorem C122_vacuum_energy (F : BoozerField) (m q mu : ℝ) (x : ℝ → P3) (v : ℝ → ℝ) (hF : ∀ t, F.ConsistentAt (x t))
    (hx : ∀ t, MovesWith x t (gcVacuumBoozer F m q mu (x t) (v t)).1) (hv : ∀ t, HasDerivAt v (gcVacuumBoozer F m q mu (x t) (v t)).2 t) (t : ℝ) :
    v t ^ 2 / 2 + mu * F.modB (x t) = v 0 ^ 2 / 2 + mu * F.modB (x 0) := by
  have hd : ∀ t, HasDerivAt (fun t => v t ^ 2 / 2 + mu * F.modB (x t)) 0 t := by
    intro t
    have h2 := (((hv t).fun_pow 2).div_const 2).fun_add (((hF t).grad.along rfl (hx t)).const_mul mu)
    refine h2.congr_deriv ?_
    unfold gcVacuumBoozer dot3
    simp only [Matrix.cons_val_zero, Matrix.cons_val_one, Matrix.cons_val]
    push_cast
    ring
  exact is_const_of_deriv_eq_zero (fun t => (hd t).differentiableAt) (fun t => (hd t).deriv) t 0

/-- **C122.** The code's own right-hand sides conserve the energy: `mode='gc'` and, for a field without `K`, `mode='gc_nok'`, for particles that do not turn round. -/
theorem C122_gc_modes_energy (F : BoozerField) (m q mu : ℝ) (hψ : F.psi0 ≠ 0) (rhs : BoozerField → ℝ → ℝ → ℝ → P3 → ℝ → P3 × ℝ)
    (hr : rhs = gcBoozer ∨ rhs = gcNoKBoozer) (x : ℝ → P3) (v : ℝ → ℝ) (hF : ∀ t, F.ConsistentAt (x t)) (hv0 : ∀ t, v t ≠ 0)
    (hx : ∀ t, MovesWith x t (rhs F m q mu (x t) (v t)).1) (hv : ∀ t, HasDerivAt v (rhs F m q mu (x t) (v t)).2 t) (t : ℝ) :
    v t ^ 2 / 2 + mu * F.modB (x t) = v 0 ^ 2 / 2 + mu * F.modB (x 0) := by
  rcases hr with rfl | rfl
  · refine C122_boozer_energy F m q mu hψ x v hF (fun t => ?_) (fun t => ?_) t
    · rw [← C122_boozer_documented F m q mu _ _ (hv0 t) hψ]; exact hx t
    · rw [← C122_boozer_documented F m q mu _ _ (hv0 t) hψ]; exact hv t
  · refine C122_boozer_energy F.noK m q mu hψ x v (fun t => ⟨(hF t).grad, (hF t).dG, (hF t).dI⟩) (fun t => ?_) (fun t => ?_) t
    · rw [← C122_noK_documented F m q mu _ _ (hv0 t) hψ]; exact hx t
    · rw [← C122_noK_documented F m q mu _ _ (hv0 t) hψ]; exact hv t

/-- A field with a mirror in `ζ`. -/
def mirrorField : BoozerField where
  psi0 := 1
  modB p := 2 + p 2
  dmodB _ := ![0, 0, 1]
  G _ := 1
  I _ := 0
  dGds _ := 0
  dIds _ := 0
  iota _ := 1
  K _ := 0
  dKdtheta _ := 0
  dKdzeta _ := 0

theorem mirrorField_consistent : mirrorField.Consistent := by
  refine fun p => ⟨⟨ContinuousLinearMap.proj 2, ?_, fun i => ?_⟩, hasDerivAt_const (p 0) (1 : ℝ), hasDerivAt_const (p 0) (0 : ℝ)⟩
  · exact ((hasFDerivAt_apply (𝕜 := ℝ) (2 : Fin 3) p).const_add (2 : ℝ))
  · fin_cases i <;> simp [mirrorField]

/-- **C122, violated.** Where a particle turns round (`v_par = 0`) the right-hand sides of `mode='gc'` and `'gc_nok'` divide by zero (0/0 in floating point; the model's value is 0), while the
documented equations have the finite mirror force there: `-μ |B| ∂|B|/∂ζ / G ≠ 0`. -/
theorem C122_turning_point_violated : mirrorField.Consistent ∧ (gcBoozer mirrorField 1 1 1 0 0).2 = -(1 / 0 : ℝ) * 0 ∧ (gcNoKBoozer mirrorField 1 1 1 0 0).2 = -(1 / 0 : ℝ) * 0 ∧
    (documented mirrorField 1 1 1 0 0).2 = -2 ∧ (gcVacuumBoozer mirrorField 1 1 1 0 0).2 = -2 := by
  refine ⟨mirrorField_consistent, ?_, ?_, ?_, ?_⟩
  · simp [gcBoozer, mirrorField]
  · simp [gcNoKBoozer, mirrorField]
  · simp [documented, mirrorField]
  · simp [gcVacuumBoozer, mirrorField]

/-- **C122, violated.** The documentation of `trace_particles` gives `-μ B·∇|B|` for the derivative of the parallel speed; the code divides this by `|B|`, which is what conserves the energy. -/
theorem C122_cartesian_documentation_violated : ∃ (m q mu : ℝ) (B g : P3) (absB v : ℝ), absB ^ 2 = dot3 B B ∧ 0 < absB ∧ (gcVacuum m q mu B g absB v).2 ≠ -mu * dot3 B g ∧
    v * (-mu * dot3 B g) + mu * dot3 g (gcVacuum m q mu B g absB v).1 ≠ 0 := by
  refine ⟨1, 1, 1, ![2, 0, 0], ![1, 0, 0], 2, 1, ?_, by norm_num, ?_, ?_⟩
  · simp [dot3]; norm_num
  · simp [gcVacuum, dot3]
  · simp [gcVacuum, dot3, cross3]; norm_num

/-- Not vacuous: a particle at rest in the parallel direction in a uniform field, gyrating with energy `μ |B|`, and a moving one. -/
example : ∃ (x : ℝ → P3) (v : ℝ → ℝ), (∀ t, MovesWith x t (gcVacuum 1 1 1 ![0, 0, 2] 0 2 (v t)).1) ∧ (∀ t, HasDerivAt v (gcVacuum 1 1 1 ![0, 0, 2] 0 2 (v t)).2 t) ∧ v 0 = 3 := by
  refine ⟨fun t => ![0, 0, 3 * t], fun _ => 3, fun t i => ?_, fun t => ?_, rfl⟩
  · fin_cases i
    · simpa [gcVacuum, cross3] using hasDerivAt_const t (0 : ℝ)
    · simpa [gcVacuum, cross3] using hasDerivAt_const t (0 : ℝ)
    · simpa [gcVacuum, cross3] using (hasDerivAt_id t).const_mul (3 : ℝ)
  · simpa [gcVacuum] using hasDerivAt_const t (3 : ℝ)

/-! ## Initial conditions of full orbits (C127) -/

/-- `np.cross` -/
def npCross (u v : P3) : P3 := cross3 u v

/-- `np.linalg.norm` of a vector, also `np.sum(u**2)**0.5`. -/
noncomputable def norm3 (u : P3) : ℝ := √(dot3 u u)

/-- `compute_gc_radius` (tracing.py L31-37). -/
noncomputable def gcRadius (m vperp q absb : ℝ) : ℝ := m * vperp / (|q| * absb)

/-- The orthonormal vectors `q1, q2, q3` of `gc_to_fullorbit_initial_guesses` (tracing.py L57-66). -/
noncomputable def gcFrame (B : P3) (absB : ℝ) : P3 × P3 × P3 :=
  let p1 : P3 := (1 / absB) • B
  let p2 : P3 := ![0, 0, 1]
  let p3 : P3 := -npCross p1 p2
  let p3 : P3 := (1 / norm3 p3) • p3
  let q1 := p1
  let q2 := p2 - dot3 q1 p2 • q1
  let q2 := (1 / norm3 q2) • q2
  let q3 := p3 - dot3 q1 p3 • q1 - dot3 q2 p3 • q2
  let q3 := (1 / norm3 q3) • q3
  (q1, q2, q3)

/-- `gc_to_fullorbit_initial_guesses` for one particle (tracing.py L40-74): position, velocity and gyro radius. -/
noncomputable def gcToFull (X B : P3) (absB vpar vtotal m q η : ℝ) : P3 × P3 × ℝ :=
  let f := gcFrame B absB
  let q1 := f.1
  let q2 := f.2.1
  let q3 := f.2.2
  let vperp := √(vtotal ^ 2 - vpar ^ 2)
  let rg := gcRadius m vperp q absB
  (X + (rg * Real.sin η) • q2 + (rg * Real.cos η) • q3, vpar • q1 + ((-(vperp * Real.cos η)) • q2 + (vperp * Real.sin η) • q3), rg)

theorem gcFrame_eq (B : P3) (absB : ℝ) (hB : absB = norm3 B) (hz : B 0 ^ 2 + B 1 ^ 2 ≠ 0) :
    ∃ b : P3, ∃ σ : ℝ, b = (1 / absB) • B ∧ absB ≠ 0 ∧ 0 < σ ∧ b 0 ^ 2 + b 1 ^ 2 + b 2 ^ 2 = 1 ∧ σ ^ 2 = b 0 ^ 2 + b 1 ^ 2 ∧
      gcFrame B absB = (b, ![-(b 2 * b 0) / σ, -(b 2 * b 1) / σ, σ], ![-b 1 / σ, b 0 / σ, 0]) := by
  have hpos : 0 < B 0 ^ 2 + B 1 ^ 2 := lt_of_le_of_ne (by positivity) (Ne.symm hz)
  have hdd : 0 < dot3 B B := by unfold dot3; nlinarith [sq_nonneg (B 2)]
  have hA : 0 < absB := by rw [hB]; exact Real.sqrt_pos.2 hdd
  have hA2 : absB ^ 2 = dot3 B B := by rw [hB]; exact Real.sq_sqrt hdd.le
  set b : P3 := (1 / absB) • B with hb
  have hbi : ∀ i, b i = B i / absB := fun i => by simp [hb, div_eq_inv_mul]
  have hunit : b 0 ^ 2 + b 1 ^ 2 + b 2 ^ 2 = 1 := by
    simp only [hbi]
    rw [div_pow, div_pow, div_pow, hA2, ← add_div, ← add_div, show B 0 ^ 2 + B 1 ^ 2 + B 2 ^ 2 = dot3 B B by unfold dot3; ring]
    exact div_self hdd.ne'
  have hσpos : 0 < b 0 ^ 2 + b 1 ^ 2 := by
    simp only [hbi]
    rw [div_pow, div_pow, ← add_div]
    positivity
  set σ := √(b 0 ^ 2 + b 1 ^ 2) with hσ
  have hσ0 : 0 < σ := Real.sqrt_pos.2 hσpos
  have hσ2 : σ ^ 2 = b 0 ^ 2 + b 1 ^ 2 := Real.sq_sqrt hσpos.le
  refine ⟨b, σ, rfl, hA.ne', hσ0, hunit, hσ2, ?_⟩
  have hne := hσ0.ne'
  have e3 : -npCross b ![0, 0, 1] = ![-b 1, b 0, 0] := by
    funext i; fin_cases i <;> simp [npCross, cross3]
  have n3 : norm3 ![-b 1, b 0, 0] = σ := by
    rw [norm3, hσ]; congr 1; simp [dot3]; ring
  have p3e : (1 / σ) • (![-b 1, b 0, 0] : P3) = ![-b 1 / σ, b 0 / σ, 0] := by
    funext i; fin_cases i <;> simp [div_eq_inv_mul]
  have e2 : (![0, 0, 1] : P3) - dot3 b ![0, 0, 1] • b = ![-(b 2 * b 0), -(b 2 * b 1), σ ^ 2] := by
    funext i; fin_cases i
    · simp [dot3]
    · simp [dot3]
    · simp [dot3]; linarith
  have n2 : norm3 ![-(b 2 * b 0), -(b 2 * b 1), σ ^ 2] = σ := by
    rw [norm3]
    rw [show dot3 ![-(b 2 * b 0), -(b 2 * b 1), σ ^ 2] ![-(b 2 * b 0), -(b 2 * b 1), σ ^ 2] = σ ^ 2 by
      simp only [dot3, Matrix.cons_val_zero, Matrix.cons_val_one, Matrix.cons_val]
      have : b 2 ^ 2 = 1 - σ ^ 2 := by linarith
      linear_combination (-b 2 ^ 2) * hσ2 + σ ^ 2 * this]
    exact Real.sqrt_sq hσ0.le
  have q2e : (1 / σ) • (![-(b 2 * b 0), -(b 2 * b 1), σ ^ 2] : P3) = ![-(b 2 * b 0) / σ, -(b 2 * b 1) / σ, σ] := by
    funext i; fin_cases i
    · simp [div_eq_inv_mul]
    · simp [div_eq_inv_mul]
    · simp; field_simp
  have d13 : dot3 b ![-b 1 / σ, b 0 / σ, 0] = 0 := by
    simp only [dot3, Matrix.cons_val_zero, Matrix.cons_val_one, Matrix.cons_val]; field_simp; ring
  have d23 : dot3 ![-(b 2 * b 0) / σ, -(b 2 * b 1) / σ, σ] ![-b 1 / σ, b 0 / σ, 0] = 0 := by
    simp only [dot3, Matrix.cons_val_zero, Matrix.cons_val_one, Matrix.cons_val]; field_simp; ring
  have nq3 : norm3 ![-b 1 / σ, b 0 / σ, 0] = 1 := by
    rw [norm3, show dot3 ![-b 1 / σ, b 0 / σ, 0] ![-b 1 / σ, b 0 / σ, 0] = 1 by
      simp only [dot3, Matrix.cons_val_zero, Matrix.cons_val_one, Matrix.cons_val]; field_simp; linarith]
    exact Real.sqrt_one
  unfold gcFrame
  simp only [← hb, e3, n3, p3e, e2, n2, q2e, d13, d23, zero_smul, sub_zero, nq3, div_one, one_smul]

/-- The guiding center of a particle at `x` with velocity `v` in the field `B`: `x - m/(q|B|²) B × v`. -/
noncomputable def guidingCenter (m q : ℝ) (B x v : P3) : P3 := x - (m / (q * dot3 B B)) • cross3 B v

/-- **C127.** What `gc_to_fullorbit_initial_guesses` returns where the field is not vertical: the speed is the total speed, the component along the field the parallel speed, the particle is one
gyro radius away from the given point, perpendicularly to the field; and for a positive charge the given point is the guiding center of the particle. -/
theorem C127_initial_guess (X B : P3) (absB vpar vtotal m q η : ℝ) (hB : absB = norm3 B) (hz : B 0 ^ 2 + B 1 ^ 2 ≠ 0) (hv : |vpar| ≤ |vtotal|) :
    let r := gcToFull X B absB vpar vtotal m q η
    dot3 r.2.1 r.2.1 = vtotal ^ 2 ∧ dot3 r.2.1 B / absB = vpar ∧ dot3 (r.1 - X) B = 0 ∧ dot3 (r.1 - X) (r.1 - X) = r.2.2 ^ 2 ∧
      (0 < q → guidingCenter m q B r.1 r.2.1 = X) := by
  obtain ⟨b, σ, hb, hA, hσ0, hunit, hσ2, hf⟩ := gcFrame_eq B absB hB hz
  have hBb : ∀ i, B i = absB * b i := fun i => by rw [hb]; simp; field_simp
  have hv2 : 0 ≤ vtotal ^ 2 - vpar ^ 2 := by have := sq_le_sq.2 hv; linarith
  have hw := Real.sq_sqrt hv2
  have htrig := Real.sin_sq_add_cos_sq η
  simp only [gcToFull, hf]
  generalize √(vtotal ^ 2 - vpar ^ 2) = w at *
  generalize Real.sin η = sn at *
  generalize Real.cos η = cs at *
  have hne := hσ0.ne'
  have h2 : b 2 ^ 2 = 1 - σ ^ 2 := by linarith
  have hdBB : dot3 B B = absB ^ 2 := by
    simp only [dot3, hBb]; linear_combination absB ^ 2 * hunit
  refine ⟨?_, ?_, ?_, ?_, ?_⟩
  · simp only [dot3, Pi.add_apply, Pi.smul_apply, smul_eq_mul, Matrix.cons_val_zero, Matrix.cons_val_one, Matrix.cons_val]
    field_simp
    have hx : b 0 ^ 2 = σ ^ 2 - b 1 ^ 2 := by linarith
    grind
  · simp only [dot3, Pi.add_apply, Pi.smul_apply, smul_eq_mul, Matrix.cons_val_zero, Matrix.cons_val_one, Matrix.cons_val, hBb]
    field_simp
    have hx : b 0 ^ 2 = σ ^ 2 - b 1 ^ 2 := by linarith
    grind
  · simp only [dot3, Pi.add_apply, Pi.sub_apply, Pi.smul_apply, smul_eq_mul, Matrix.cons_val_zero, Matrix.cons_val_one, Matrix.cons_val, hBb]
    field_simp
    have hx : b 0 ^ 2 = σ ^ 2 - b 1 ^ 2 := by linarith
    grind
  · simp only [dot3, Pi.add_apply, Pi.sub_apply, Pi.smul_apply, smul_eq_mul, Matrix.cons_val_zero, Matrix.cons_val_one, Matrix.cons_val]
    generalize gcRadius m w q absB = rg
    field_simp
    have hx : b 0 ^ 2 = σ ^ 2 - b 1 ^ 2 := by linarith
    grind
  · intro hq
    have hrg : gcRadius m w q absB = m * w / (q * absB) := by rw [gcRadius, abs_of_pos hq]
    rw [guidingCenter, hdBB, hrg]
    have hx : b 0 ^ 2 = σ ^ 2 - b 1 ^ 2 := by linarith
    funext i
    fin_cases i
    · simp [cross3, hBb, Matrix.vecHead, Matrix.vecTail]
      field_simp
      grind
    · simp [cross3, hBb, Matrix.vecHead, Matrix.vecTail]
      field_simp
      grind
    · simp [cross3, hBb, Matrix.vecHead, Matrix.vecTail]
      field_simp
      grind

/-- **C127.** Why this is the guiding center: in a uniform field the guiding center of every full orbit moves along the field with the constant parallel speed. -/
theorem C127_uniform_field (m q : ℝ) (B : P3) (hm : m ≠ 0) (hq : q ≠ 0) (hB : dot3 B B ≠ 0) (x v : ℝ → P3) (hx : ∀ t, MovesWith x t (fullOrbit m q B (v t)).1)
    (hv : ∀ t, MovesWith v t (fullOrbit m q B (v t)).2) (t : ℝ) (i : Fin 3) :
    HasDerivAt (fun t => guidingCenter m q B (x t) (v t) i) (dot3 (v t) B / dot3 B B * B i) t := by
  have h0 := hv t 0
  have h1 := hv t 1
  have h2 := hv t 2
  simp only [fullOrbit, Matrix.cons_val_zero, Matrix.cons_val_one, Matrix.cons_val] at h0 h1 h2
  fin_cases i
  · refine ((hx t 0).fun_sub (((h2.const_mul (B 1)).fun_sub (h1.const_mul (B 2))).const_mul (m / (q * dot3 B B)))).congr_deriv ?_
    simp only [fullOrbit, Fin.zero_eta, Fin.isValue]
    generalize hd : dot3 B B = d at *
    field_simp
    rw [← hd]; simp only [dot3]; ring
  · refine ((hx t 1).fun_sub (((h0.const_mul (B 2)).fun_sub (h2.const_mul (B 0))).const_mul (m / (q * dot3 B B)))).congr_deriv ?_
    simp only [fullOrbit, Fin.mk_one, Fin.isValue]
    generalize hd : dot3 B B = d at *
    field_simp
    rw [← hd]; simp only [dot3]; ring
  · refine ((hx t 2).fun_sub (((h1.const_mul (B 0)).fun_sub (h0.const_mul (B 1))).const_mul (m / (q * dot3 B B)))).congr_deriv ?_
    simp only [fullOrbit, Fin.reduceFinMk, Fin.isValue]
    generalize hd : dot3 B B = d at *
    field_simp
    rw [← hd]; simp only [dot3]; ring

/-- **C127, violated.** For a negative charge the given point is not the guiding center of the particle that is returned: the guiding center is two gyro radii away from it. -/
theorem C127_negative_charge_violated (X B : P3) (absB vpar vtotal m q η : ℝ) (hB : absB = norm3 B) (hz : B 0 ^ 2 + B 1 ^ 2 ≠ 0) (hv : |vpar| < |vtotal|) (hm : 0 < m)
    (hq : q < 0) :
    let r := gcToFull X B absB vpar vtotal m q η
    guidingCenter m q B r.1 r.2.1 - X = (2 : ℝ) • (r.1 - X) ∧ guidingCenter m q B r.1 r.2.1 ≠ X := by
  have hpos := C127_initial_guess X B absB vpar vtotal m (-q) η hB hz hv.le
  have e1 : gcToFull X B absB vpar vtotal m (-q) η = gcToFull X B absB vpar vtotal m q η := by simp only [gcToFull, gcRadius, abs_neg]
  simp only [e1] at hpos
  simp only
  obtain ⟨_, _, _, h4, h5⟩ := hpos
  have h5 := h5 (by linarith)
  generalize hr : gcToFull X B absB vpar vtotal m q η = r at *
  have e2 : guidingCenter m q B r.1 r.2.1 = r.1 + (r.1 - guidingCenter m (-q) B r.1 r.2.1) := by
    unfold guidingCenter
    funext i
    simp only [Pi.sub_apply, Pi.add_apply, Pi.smul_apply, smul_eq_mul]
    rw [neg_mul, div_neg]; ring
  have key : guidingCenter m q B r.1 r.2.1 - X = (2 : ℝ) • (r.1 - X) := by
    rw [e2, h5]; funext i; simp only [Pi.sub_apply, Pi.add_apply, Pi.smul_apply, smul_eq_mul]; ring
  refine ⟨key, fun he => ?_⟩
  rw [he, sub_self] at key
  have hz0 : r.1 - X = 0 := by
    funext i
    have := congrFun key i
    simp only [Pi.zero_apply, Pi.smul_apply, smul_eq_mul] at this
    simpa using this.symm
  rw [hz0] at h4
  have hrg : 0 < r.2.2 := by
    rw [← hr]
    show 0 < gcRadius _ _ _ _
    have hA : 0 < absB := by
      rw [hB, norm3]
      refine Real.sqrt_pos.2 ?_
      have hpos : 0 < B 0 ^ 2 + B 1 ^ 2 := lt_of_le_of_ne (by positivity) (Ne.symm hz)
      unfold dot3; nlinarith [sq_nonneg (B 2)]
    have hw : 0 < √(vtotal ^ 2 - vpar ^ 2) := Real.sqrt_pos.2 (by have := sq_lt_sq.2 hv; linarith)
    unfold gcRadius
    have := abs_pos.2 hq.ne
    positivity
  have : dot3 (0 : P3) 0 = 0 := by simp [dot3]
  rw [this] at h4
  exact absurd h4.symm (pow_ne_zero 2 hrg.ne')

example : ∃ X B : P3, (2 : ℝ) = norm3 B ∧ B 0 ^ 2 + B 1 ^ 2 ≠ 0 ∧ (gcToFull X B 2 3 5 1 1 0).2.2 = 2 := by
  refine ⟨0, ![2, 0, 0], ?_, by simp, ?_⟩
  · rw [norm3, show dot3 ![2, 0, 0] ![2, 0, 0] = (2 : ℝ) ^ 2 by simp [dot3]; norm_num]; exact (Real.sqrt_sq (by norm_num)).symm
  · show gcRadius 1 √(5 ^ 2 - 3 ^ 2) 1 2 = 2
    rw [show (5 : ℝ) ^ 2 - 3 ^ 2 = 4 ^ 2 by norm_num, Real.sqrt_sq (by norm_num)]
    norm_num [gcRadius]

end Simsopt.Tracing
