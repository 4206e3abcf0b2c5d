import Verif.Fields.Cyl
import Verif.Fields.Derived
import Mathlib.Analysis.SpecialFunctions.Complex.LogDeriv
import Mathlib.Analysis.Calculus.FDeriv.Symmetric
/-!
# ScalarPotentialRZMagneticField

Model of src/simsopt/field/magneticfieldclasses.py L236-320 at one evaluation point.  The parsed expression is a function `Φ R Z phi`; sympy's `diff` of an expression is the partial derivative of the function (sympy itself is trusted), and `lambdify` evaluates it.  Numbers are real.
-/
namespace Simsopt.Fields.Potential
open Simsopt.Fields

/-- `expr.diff(R)`. -/
noncomputable def dR (f : ℝ → ℝ → ℝ → ℝ) (R Z phi : ℝ) : ℝ := deriv (fun t => f t Z phi) R
/-- `expr.diff(Z)`. -/
noncomputable def dZ (f : ℝ → ℝ → ℝ → ℝ) (R Z phi : ℝ) : ℝ := deriv (fun t => f R t phi) Z
/-- `expr.diff(Phi)`. -/
noncomputable def dP (f : ℝ → ℝ → ℝ → ℝ) (R Z phi : ℝ) : ℝ := deriv (fun t => f R Z t) phi
/-- `expr.diff(Phi)/R`. -/
noncomputable def dPR (f : ℝ → ℝ → ℝ → ℝ) (R Z phi : ℝ) : ℝ := dP f R Z phi / R

/-- `Blambdify` (L262-264). -/
noncomputable def Blambdify (f : ℝ → ℝ → ℝ → ℝ) (R Z phi : ℝ) : P3 :=
  ![dR f R Z phi + 1e-30 * phi * R * Z, dPR f R Z phi + 1e-30 * phi * R * Z, dZ f R Z phi + 1e-30 * phi * R * Z]

/-- `dBlambdify_by_dX` (L265-275). -/
noncomputable def dBlambdify (f : ℝ → ℝ → ℝ → ℝ) (R Z phi : ℝ) : T2 :=
  ![![1e-30 * phi * R * Z + Real.cos phi * dR (dR f) R Z phi - Real.sin phi / R * dP (dR f) R Z phi,
      1e-30 * phi * R * Z + Real.cos phi * dR (dPR f) R Z phi - Real.sin phi / R * dP (dPR f) R Z phi,
      1e-30 * phi * R * Z + Real.cos phi * dR (dZ f) R Z phi - Real.sin phi / R * dP (dZ f) R Z phi],
    ![1e-30 * phi * R * Z + Real.sin phi * dR (dR f) R Z phi + Real.cos phi / R * dP (dR f) R Z phi,
      1e-30 * phi * R * Z + Real.sin phi * dR (dPR f) R Z phi + Real.cos phi / R * dP (dPR f) R Z phi,
      1e-30 * phi * R * Z + Real.sin phi * dR (dZ f) R Z phi + Real.cos phi / R * dP (dZ f) R Z phi],
    ![1e-30 * phi * R * Z + dZ (dR f) R Z phi,
      1e-30 * phi * R * Z + dZ (dPR f) R Z phi,
      1e-30 * phi * R * Z + dZ (dZ f) R Z phi]]

/-- `_B_impl` (L277-287). -/
noncomputable def B (f : ℝ → ℝ → ℝ → ℝ) (p : P3) : P3 :=
  let r := √(p 0 ^ 2 + p 1 ^ 2)
  let z := p 2
  let phi := arctan2 (p 1) (p 0)
  let c := Blambdify f r z phi
  ![c 0 * Real.cos phi - c 1 * Real.sin phi, c 0 * Real.sin phi + c 1 * Real.cos phi, c 2]

/-- `_dB_by_dX_impl` (L289-322). -/
noncomputable def dB (f : ℝ → ℝ → ℝ → ℝ) (p : P3) : T2 :=
  let r := √(p 0 ^ 2 + p 1 ^ 2)
  let z := p 2
  let phi := arctan2 (p 1) (p 0)
  let D := dBlambdify f r z phi
  let dBrdx := D 0 0
  let dBrdy := D 1 0
  let dBrdz := D 2 0
  let dBphidx := D 0 1
  let dBphidy := D 1 1
  let dBphidz := D 2 1
  let dcosphidx := -p 0 ^ 2 / r ^ 3 + 1 / r
  let dsinphidx := -p 0 * p 1 / r ^ 3
  let dcosphidy := -p 0 * p 1 / r ^ 3
  let dsinphidy := -p 1 ^ 2 / r ^ 3 + 1 / r
  let c := Blambdify f r z phi
  let Br := c 0
  let Bphi := c 1
  ![![dBrdx * Real.cos phi + Br * dcosphidx - dBphidx * Real.sin phi - Bphi * dsinphidx,
      dBrdx * Real.sin phi + Br * dsinphidx + dBphidx * Real.cos phi + Bphi * dcosphidx, D 0 2],
    ![dBrdy * Real.cos phi + Br * dcosphidy - dBphidy * Real.sin phi - Bphi * dsinphidy,
      dBrdy * Real.sin phi + Br * dsinphidy + dBphidy * Real.cos phi + Bphi * dcosphidy, D 1 2],
    ![dBrdz * Real.cos phi - dBphidz * Real.sin phi, dBrdz * Real.sin phi + dBphidz * Real.cos phi, D 2 2]]

/-! ## Specification -/

/-- A function of the cylindrical coordinates as a function of the position. -/
noncomputable def atPoint (f : ℝ → ℝ → ℝ → ℝ) (q : P3) : ℝ := f (√(q 0 ^ 2 + q 1 ^ 2)) (q 2) (arctan2 (q 1) (q 0))

/-- The gradient of the potential in Cartesian coordinates, by definition: its partial derivatives. -/
noncomputable def gradient (f : ℝ → ℝ → ℝ → ℝ) (q : P3) : P3 := fun j => deriv (fun t => atPoint f (Function.update q j t)) (q j)

/-- The position is off the half plane `φ = π` where `arctan2` jumps, and off the axis. -/
def OffCut (p : P3) : Prop := 0 < p 0 ∨ p 1 ≠ 0

/-- The potential, as a function of three real variables, is twice continuously differentiable near a point's cylindrical coordinates. -/
def Smooth (f : ℝ → ℝ → ℝ → ℝ) (p : P3) : Prop :=
  ContDiffAt ℝ 2 (fun v : P3 => f (v 0) (v 1) (v 2)) ![√(p 0 ^ 2 + p 1 ^ 2), p 2, arctan2 (p 1) (p 0)]

/-! ## Proofs -/

theorem OffCut.ne {p : P3} (h : OffCut p) : p 0 ^ 2 + p 1 ^ 2 ≠ 0 := by
  intro h0
  have := sq_zero_of h0
  rcases h with h | h
  · linarith [this.1]
  · exact h this.2

theorem d_arctan2 {x y : ℝ → ℝ} {x' y' t : ℝ} (hx : HasDerivAt x x' t) (hy : HasDerivAt y y' t) (h : 0 < x t ∨ y t ≠ 0) :
    HasDerivAt (fun u => arctan2 (y u) (x u)) ((x t * y' - y t * x') / (x t ^ 2 + y t ^ 2)) t := by
  have hc : HasDerivAt (fun u => (⟨x u, y u⟩ : ℂ)) ⟨x', y'⟩ t := by
    have := hx.ofReal_comp.fun_add (hy.ofReal_comp.mul_const Complex.I)
    have e : (fun u => (⟨x u, y u⟩ : ℂ)) = fun u => (x u : ℂ) + (y u : ℂ) * Complex.I := by
      funext u; exact (Complex.mk_eq_add_mul_I _ _)
    rw [e, Complex.mk_eq_add_mul_I]
    exact this
  have hl := hc.clog_real (Complex.mem_slitPlane_iff.mpr h)
  have := Complex.imCLM.hasFDerivAt.comp_hasDerivAt t hl
  refine (this.congr_of_eventuallyEq (Filter.Eventually.of_forall fun u => ?_)).congr_deriv ?_
  · show Complex.arg _ = (Complex.log _).im
    rw [Complex.log_im]
  · show ((⟨x', y'⟩ : ℂ) / ⟨x t, y t⟩).im = _
    rw [Complex.div_im, Complex.normSq_apply]
    dsimp only
    rw [sq, sq]
    ring

/-- A function that is differentiable in its three variables is differentiable along curves. -/
theorem curveD_of {f : ℝ → ℝ → ℝ → ℝ} {p : P3} (hp : OffCut p)
    (hf : DifferentiableAt ℝ (fun v : P3 => f (v 0) (v 1) (v 2)) ![√(p 0 ^ 2 + p 1 ^ 2), p 2, arctan2 (p 1) (p 0)]) :
    CurveD f p (dR f (√(p 0 ^ 2 + p 1 ^ 2)) (p 2) (arctan2 (p 1) (p 0))) (dZ f (√(p 0 ^ 2 + p 1 ^ 2)) (p 2) (arctan2 (p 1) (p 0)))
      (dP f (√(p 0 ^ 2 + p 1 ^ 2)) (p 2) (arctan2 (p 1) (p 0))) := by
  set R := √(p 0 ^ 2 + p 1 ^ 2) with hR
  set a := arctan2 (p 1) (p 0) with ha
  obtain ⟨L, hL⟩ := hf
  have line : ∀ (c : ℝ → P3) (v : P3) (t : ℝ), c t = ![R, p 2, a] → (∀ l, HasDerivAt (fun u => c u l) (v l) t) →
      HasDerivAt (fun u => f (c u 0) (c u 1) (c u 2)) (L v) t := by
    intro c v t hc hv
    exact (hc ▸ hL : HasFDerivAt (fun v : P3 => f (v 0) (v 1) (v 2)) L (c t)).comp_hasDerivAt t (hasDerivAt_pi.mpr hv)
  have e0 : dR f R (p 2) a = L (Pi.single 0 1) := by
    refine (line (fun t => ![t, p 2, a]) (Pi.single 0 1) R rfl ?_).deriv
    intro l; fin_cases l
    · exact hasDerivAt_id' _
    · exact hasDerivAt_const _ _
    · exact hasDerivAt_const _ _
  have e1 : dZ f R (p 2) a = L (Pi.single 1 1) := by
    refine (line (fun t => ![R, t, a]) (Pi.single 1 1) (p 2) rfl ?_).deriv
    intro l; fin_cases l
    · exact hasDerivAt_const _ _
    · exact hasDerivAt_id' _
    · exact hasDerivAt_const _ _
  have e2 : dP f R (p 2) a = L (Pi.single 2 1) := by
    refine (line (fun t => ![R, p 2, t]) (Pi.single 2 1) a rfl ?_).deriv
    intro l; fin_cases l
    · exact hasDerivAt_const _ _
    · exact hasDerivAt_const _ _
    · exact hasDerivAt_id' _
  rw [e0, e1, e2]
  intro x y z x' y' z' t ex ey ez hx hy hz
  have h0 : √(x t ^ 2 + y t ^ 2) = R := by rw [ex, ey]
  obtain ⟨hr, -, -, hq, -, -⟩ := d_polar hx hy (by rw [ex, ey]; exact hp.ne) h0 (c := p 0 / R) (s := p 1 / R) (by rw [ex]) (by rw [ey])
  have hang := d_arctan2 hx hy (by rw [ex, ey]; exact hp)
  rw [hq] at hang
  refine (line (fun u => ![√(x u ^ 2 + y u ^ 2), z u, arctan2 (y u) (x u)])
    ![p 0 / R * x' + p 1 / R * y', z', (p 0 / R * y' - p 1 / R * x') / R] t ?_ ?_).congr_deriv ?_
  · show ![√(x t ^ 2 + y t ^ 2), z t, arctan2 (y t) (x t)] = _
    rw [h0, ez, ey, ex]
  · intro l; fin_cases l
    · exact hr
    · exact hz
    · exact hang
  · generalize (p 0 / R * x' + p 1 / R * y') = v0
    generalize (p 0 / R * y' - p 1 / R * x') / R = v2
    have ev : (![v0, z', v2] : P3) = v0 • Pi.single 0 1 + z' • Pi.single 1 1 + v2 • Pi.single 2 1 := by
      funext k; fin_cases k <;> simp
    rw [ev, map_add, map_add, map_smul, map_smul, map_smul]
    simp only [smul_eq_mul]
    ring

/-- The partial derivative number `i` of a function of three variables. -/
noncomputable def pd (i : Fin 3) (F : P3 → ℝ) (v : P3) : ℝ := deriv (fun t => F (Function.update v i t)) (v i)

/-- A function of the three cylindrical coordinates as a function of a vector. -/
def unc (f : ℝ → ℝ → ℝ → ℝ) (v : P3) : ℝ := f (v 0) (v 1) (v 2)

theorem unc_dR (f : ℝ → ℝ → ℝ → ℝ) : unc (dR f) = pd 0 (unc f) := by
  funext v; simp [unc, dR, pd]
theorem unc_dZ (f : ℝ → ℝ → ℝ → ℝ) : unc (dZ f) = pd 1 (unc f) := by
  funext v; simp [unc, dZ, pd]
theorem unc_dP (f : ℝ → ℝ → ℝ → ℝ) : unc (dP f) = pd 2 (unc f) := by
  funext v; simp [unc, dP, pd]

theorem d_update (v : P3) (i : Fin 3) : HasDerivAt (fun t => Function.update v i t) (Pi.single i 1) (v i) := by
  rw [hasDerivAt_pi]
  intro k
  by_cases h : k = i
  · subst h
    simpa using hasDerivAt_id' (v k)
  · simpa [h] using hasDerivAt_const (v i) (v k)

theorem pd_eq {F : P3 → ℝ} {v : P3} (h : DifferentiableAt ℝ F v) (i : Fin 3) : pd i F v = fderiv ℝ F v (Pi.single i 1) := by
  have h1 : HasFDerivAt F (fderiv ℝ F v) (Function.update v i (v i)) := by
    rw [Function.update_eq_self]; exact h.hasFDerivAt
  exact (h1.comp_hasDerivAt (v i) (d_update v i)).deriv

theorem pd_eventually {F : P3 → ℝ} {v : P3} (h : ContDiffAt ℝ 2 F v) (i : Fin 3) : pd i F =ᶠ[nhds v] fun w => fderiv ℝ F w (Pi.single i 1) := by
  filter_upwards [h.eventually (by simp)] with w hw
  exact pd_eq (hw.differentiableAt (by norm_num)) i

theorem pd_hasFDeriv {F : P3 → ℝ} {v : P3} (h : ContDiffAt ℝ 2 F v) (i : Fin 3) :
    HasFDerivAt (pd i F) ((ContinuousLinearMap.apply ℝ ℝ (Pi.single i (1 : ℝ) : P3)).comp (fderiv ℝ (fderiv ℝ F) v)) v := by
  have h1 : DifferentiableAt ℝ (fderiv ℝ F) v := (h.fderiv_right (m := 1) (by norm_num)).differentiableAt (by norm_num)
  have h2 := (ContinuousLinearMap.apply ℝ ℝ (Pi.single i (1 : ℝ) : P3)).hasFDerivAt.comp v h1.hasFDerivAt
  exact h2.congr_of_eventuallyEq (pd_eventually h i)

theorem pd_comm {F : P3 → ℝ} {v : P3} (h : ContDiffAt ℝ 2 F v) (i k : Fin 3) : pd i (pd k F) v = pd k (pd i F) v := by
  rw [pd_eq (pd_hasFDeriv h k).differentiableAt, pd_eq (pd_hasFDeriv h i).differentiableAt, (pd_hasFDeriv h k).fderiv, (pd_hasFDeriv h i).fderiv]
  exact (h.isSymmSndFDerivAt (by simp)) _ _

theorem diff_dPR {f : ℝ → ℝ → ℝ → ℝ} {v : P3} (h : DifferentiableAt ℝ (unc (dP f)) v) (h0 : v 0 ≠ 0) : DifferentiableAt ℝ (unc (dPR f)) v := by
  have h1 : DifferentiableAt ℝ (fun w : P3 => w 0) v := (differentiableAt_pi.mp differentiableAt_id) 0
  have h2 : DifferentiableAt ℝ (fun w : P3 => (w 0)⁻¹) v := h1.inv h0
  have e : unc (dPR f) = fun w => unc (dP f) w * (w 0)⁻¹ := by
    funext w; exact div_eq_mul_inv _ _
  rw [e]
  exact h.fun_mul h2

/-- The field with the cylindrical components of the gradient. -/
noncomputable def clean (f : ℝ → ℝ → ℝ → ℝ) : P3 → P3 := cylField (dR f) (dPR f) (dZ f)

/-- The cylindrical coordinates, in the order `R`, `Z`, `phi`. -/
noncomputable def coords (p : P3) : P3 := ![√(p 0 ^ 2 + p 1 ^ 2), p 2, arctan2 (p 1) (p 0)]

theorem OffCut.pos {p : P3} (h : OffCut p) : 0 < √(p 0 ^ 2 + p 1 ^ 2) :=
  Real.sqrt_pos.mpr (lt_of_le_of_ne (by positivity) h.ne.symm)

theorem coords_cont {p : P3} (h : OffCut p) : ContinuousAt coords p := by
  rw [continuousAt_pi]
  have c : ∀ i : Fin 3, ContinuousAt (fun q : P3 => q i) p := fun i => (continuous_apply i).continuousAt
  intro l
  fin_cases l
  · exact (((c 0).pow 2).add ((c 1).pow 2)).sqrt
  · exact c 2
  · have h1 : ContinuousAt (fun q : P3 => (⟨q 0, q 1⟩ : ℂ)) p := by
      have e : (fun q : P3 => (⟨q 0, q 1⟩ : ℂ)) = fun q => (q 0 : ℂ) + (q 1 : ℂ) * Complex.I := by
        funext u; exact (Complex.mk_eq_add_mul_I _ _)
      rw [e]
      exact (Complex.continuous_ofReal.continuousAt.comp (c 0)).add ((Complex.continuous_ofReal.continuousAt.comp (c 1)).mul continuousAt_const)
    exact ContinuousAt.comp (f := fun q : P3 => (⟨q 0, q 1⟩ : ℂ)) (g := Complex.arg) (Complex.continuousAt_arg (Complex.mem_slitPlane_iff.mpr h)) h1

theorem near {f : ℝ → ℝ → ℝ → ℝ} {p : P3} (h : OffCut p) (hs : Smooth f p) : ∀ᶠ q in nhds p, OffCut q ∧ Smooth f q := by
  have ho : IsOpen {q : P3 | OffCut q} := (isOpen_lt continuous_const (continuous_apply 0)).union (isOpen_ne_fun (continuous_apply 1) continuous_const)
  have h1 : ∀ᶠ q in nhds p, OffCut q := ho.mem_nhds h
  have h2 : ∀ᶠ q in nhds p, Smooth f q := (coords_cont h).eventually (ContDiffAt.eventually hs (by simp))
  exact h1.and h2

theorem clean_gradient {f : ℝ → ℝ → ℝ → ℝ} {p : P3} (h : OffCut p) (hs : Smooth f p) (j : Fin 3) :
    HasDerivAt (fun t => atPoint f (Function.update p j t)) (clean f p j) (p j) := by
  refine partials_of_curves (F := atPoint f) (D := clean f p) ?_ j
  intro x y z x' y' z' t ex ey ez hx hy hz
  have := curveD_of h (ContDiffAt.differentiableAt hs (by norm_num)) x y z x' y' z' t ex ey ez hx hy hz
  refine this.congr_deriv ?_
  have hR := h.pos
  simp only [clean, cylField, dPR, Matrix.cons_val]
  generalize √(p 0 ^ 2 + p 1 ^ 2) = R at *
  field_simp
  ring

theorem gradient_near {f : ℝ → ℝ → ℝ → ℝ} {p : P3} (h : OffCut p) (hs : Smooth f p) : gradient f =ᶠ[nhds p] clean f := by
  filter_upwards [near h hs] with q hq
  funext j
  exact (clean_gradient hq.1 hq.2 j).deriv

/-- The partial derivatives of the cylindrical components. -/
noncomputable def parts (f : ℝ → ℝ → ℝ → ℝ) (R Z phi : ℝ) : CylD where
  rR := dR (dR f) R Z phi
  zR := dZ (dR f) R Z phi
  pR := dP (dR f) R Z phi
  rP := dR (dPR f) R Z phi
  zP := dZ (dPR f) R Z phi
  pP := dP (dPR f) R Z phi
  rZ := dR (dZ f) R Z phi
  zZ := dZ (dZ f) R Z phi
  pZ := dP (dZ f) R Z phi

theorem clean_jacobian {f : ℝ → ℝ → ℝ → ℝ} {p : P3} (h : OffCut p) (hs : Smooth f p) :
    IsJacobian (clean f) p (cylJac (dR f (√(p 0 ^ 2 + p 1 ^ 2)) (p 2) (arctan2 (p 1) (p 0))) (dPR f (√(p 0 ^ 2 + p 1 ^ 2)) (p 2) (arctan2 (p 1) (p 0))) (√(p 0 ^ 2 + p 1 ^ 2)) (p 0 / √(p 0 ^ 2 + p 1 ^ 2)) (p 1 / √(p 0 ^ 2 + p 1 ^ 2))
      (parts f (√(p 0 ^ 2 + p 1 ^ 2)) (p 2) (arctan2 (p 1) (p 0)))) := by
  have hs' : ContDiffAt ℝ 2 (unc f) (coords p) := hs
  have a0 : DifferentiableAt ℝ (unc (dR f)) (coords p) := by rw [unc_dR]; exact (pd_hasFDeriv hs' 0).differentiableAt
  have a1 : DifferentiableAt ℝ (unc (dZ f)) (coords p) := by rw [unc_dZ]; exact (pd_hasFDeriv hs' 1).differentiableAt
  have a2 : DifferentiableAt ℝ (unc (dP f)) (coords p) := by rw [unc_dP]; exact (pd_hasFDeriv hs' 2).differentiableAt
  have a3 := diff_dPR a2 (show coords p 0 ≠ 0 from h.pos.ne')
  exact cyl_jacobian h.ne (curveD_of h a0) (curveD_of h a3) (curveD_of h a1)

theorem gradient_jacobian {f : ℝ → ℝ → ℝ → ℝ} {p : P3} (h : OffCut p) (hs : Smooth f p) {D : T2} (hD : IsJacobian (clean f) p D) : IsJacobian (gradient f) p D := by
  intro j l
  refine (hD j l).congr_of_eventuallyEq ?_
  have hc : ContinuousAt (fun t => Function.update p j t) (p j) := (d_update p j).continuousAt
  have : Filter.Tendsto (fun t => Function.update p j t) (nhds (p j)) (nhds p) := by
    have := hc.tendsto
    rwa [Function.update_eq_self] at this
  filter_upwards [this.eventually (gradient_near h hs)] with t ht
  rw [ht]

/-- The size of the term the class adds to every entry. -/
noncomputable def eps (p : P3) : ℝ := 1e-30 * |arctan2 (p 1) (p 0)| * √(p 0 ^ 2 + p 1 ^ 2) * |p 2|

theorem eps_abs (p : P3) : |1e-30 * arctan2 (p 1) (p 0) * √(p 0 ^ 2 + p 1 ^ 2) * p 2| = eps p := by
  unfold eps
  rw [abs_mul, abs_mul, abs_mul, abs_of_nonneg (Real.sqrt_nonneg _), abs_of_nonneg (by norm_num : (0 : ℝ) ≤ 1e-30)]

/-- **C108.** At every point off the half plane where the angle jumps, where the potential is smooth, `B()` is the gradient of the potential up to the documented term: each component differs by at most `2e-30 |φ| R |Z|`. -/
theorem C108_gradient (f : ℝ → ℝ → ℝ → ℝ) (p : P3) (h : OffCut p) (hs : Smooth f p) :
    (∀ j, HasDerivAt (fun t => atPoint f (Function.update p j t)) (gradient f p j) (p j)) ∧
    ∀ j, |B f p j - gradient f p j| ≤ 2 * (1e-30 * |arctan2 (p 1) (p 0)| * √(p 0 ^ 2 + p 1 ^ 2) * |p 2|) := by
  have hg : gradient f p = clean f p := (gradient_near h hs).self_of_nhds
  refine ⟨fun j => ?_, fun j => ?_⟩
  · rw [hg]; exact clean_gradient h hs j
  · rw [hg]
    have he := eps_abs p
    show _ ≤ 2 * eps p
    have hc := Real.abs_cos_le_one (arctan2 (p 1) (p 0))
    have hsn := Real.abs_sin_le_one (arctan2 (p 1) (p 0))
    have hcc := cos_arctan2 h.ne
    have hss := sin_arctan2 (p 1) (p 0)
    have key : ∀ a b : ℝ, |a| ≤ 1 → |b| ≤ 1 → |a + b| ≤ 2 := fun a b ha hb => (abs_add_le a b).trans (by linarith)
    have e0 : 0 ≤ eps p := by rw [← he]; exact abs_nonneg _
    fin_cases j
    · have : B f p 0 - clean f p 0 = (1e-30 * arctan2 (p 1) (p 0) * √(p 0 ^ 2 + p 1 ^ 2) * p 2) * (Real.cos (arctan2 (p 1) (p 0)) + -Real.sin (arctan2 (p 1) (p 0))) := by
        simp only [B, Blambdify, clean, cylField, Matrix.cons_val]
        rw [← hcc, ← hss]
        ring
      show |B f p 0 - clean f p 0| ≤ _
      rw [this, abs_mul, he, mul_comm]
      exact mul_le_mul_of_nonneg_right (key _ _ hc (by rwa [abs_neg])) e0
    · have : B f p 1 - clean f p 1 = (1e-30 * arctan2 (p 1) (p 0) * √(p 0 ^ 2 + p 1 ^ 2) * p 2) * (Real.cos (arctan2 (p 1) (p 0)) + Real.sin (arctan2 (p 1) (p 0))) := by
        simp only [B, Blambdify, clean, cylField, Matrix.cons_val]
        rw [← hcc, ← hss]
        ring
      show |B f p 1 - clean f p 1| ≤ _
      rw [this, abs_mul, he, mul_comm]
      exact mul_le_mul_of_nonneg_right (key _ _ hc hsn) e0
    · have : B f p 2 - clean f p 2 = 1e-30 * arctan2 (p 1) (p 0) * √(p 0 ^ 2 + p 1 ^ 2) * p 2 := by
        simp only [B, Blambdify, clean, cylField, Matrix.cons_val]
        ring
      show |B f p 2 - clean f p 2| ≤ _
      rw [this, he]
      linarith

theorem dB_error (f : ℝ → ℝ → ℝ → ℝ) (p : P3) (h : OffCut p) (j l : Fin 3) :
    let c := p 0 / √(p 0 ^ 2 + p 1 ^ 2)
    let s := p 1 / √(p 0 ^ 2 + p 1 ^ 2)
    let R := √(p 0 ^ 2 + p 1 ^ 2)
    let E : T2 := ![![c - s + s * s / R + c * s / R, s + c - c * s / R + s * s / R, 1], ![c - s - c * s / R - c * c / R, s + c + c * c / R - c * s / R, 1], ![c - s, s + c, 1]]
    dB f p j l = cylJac (dR f R (p 2) (arctan2 (p 1) (p 0))) (dPR f R (p 2) (arctan2 (p 1) (p 0))) R c s (parts f R (p 2) (arctan2 (p 1) (p 0))) j l
      + (1e-30 * arctan2 (p 1) (p 0) * R * p 2) * E j l := by
  intro c s R E
  have hR : R ≠ 0 := h.pos.ne'
  have hcc : Real.cos (arctan2 (p 1) (p 0)) = c := cos_arctan2 h.ne
  have hss : Real.sin (arctan2 (p 1) (p 0)) = s := sin_arctan2 (p 1) (p 0)
  have hx : p 0 = c * R := by show _ = _ / _ * _; exact (div_mul_cancel₀ _ hR).symm
  have hy : p 1 = s * R := by show _ = _ / _ * _; exact (div_mul_cancel₀ _ hR).symm
  have hcs : c ^ 2 + s ^ 2 = 1 := by rw [← hcc, ← hss, add_comm]; exact Real.sin_sq_add_cos_sq _
  have e1 : -p 0 ^ 2 / R ^ 3 + 1 / R = s * s / R := by
    rw [hx]; field_simp; linear_combination -hcs
  have e2 : -p 0 * p 1 / R ^ 3 = -(c * s / R) := by
    rw [hx, hy]; field_simp
  have e3 : -p 1 ^ 2 / R ^ 3 + 1 / R = c * c / R := by
    rw [hy]; field_simp; linear_combination -hcs
  have hd : dB f p = ![![dBlambdify f R (p 2) (arctan2 (p 1) (p 0)) 0 0 * c + Blambdify f R (p 2) (arctan2 (p 1) (p 0)) 0 * (s * s / R) - dBlambdify f R (p 2) (arctan2 (p 1) (p 0)) 0 1 * s - Blambdify f R (p 2) (arctan2 (p 1) (p 0)) 1 * -(c * s / R),
      dBlambdify f R (p 2) (arctan2 (p 1) (p 0)) 0 0 * s + Blambdify f R (p 2) (arctan2 (p 1) (p 0)) 0 * -(c * s / R) + dBlambdify f R (p 2) (arctan2 (p 1) (p 0)) 0 1 * c + Blambdify f R (p 2) (arctan2 (p 1) (p 0)) 1 * (s * s / R), dBlambdify f R (p 2) (arctan2 (p 1) (p 0)) 0 2],
    ![dBlambdify f R (p 2) (arctan2 (p 1) (p 0)) 1 0 * c + Blambdify f R (p 2) (arctan2 (p 1) (p 0)) 0 * -(c * s / R) - dBlambdify f R (p 2) (arctan2 (p 1) (p 0)) 1 1 * s - Blambdify f R (p 2) (arctan2 (p 1) (p 0)) 1 * (c * c / R),
      dBlambdify f R (p 2) (arctan2 (p 1) (p 0)) 1 0 * s + Blambdify f R (p 2) (arctan2 (p 1) (p 0)) 0 * (c * c / R) + dBlambdify f R (p 2) (arctan2 (p 1) (p 0)) 1 1 * c + Blambdify f R (p 2) (arctan2 (p 1) (p 0)) 1 * -(c * s / R), dBlambdify f R (p 2) (arctan2 (p 1) (p 0)) 1 2],
    ![dBlambdify f R (p 2) (arctan2 (p 1) (p 0)) 2 0 * c - dBlambdify f R (p 2) (arctan2 (p 1) (p 0)) 2 1 * s, dBlambdify f R (p 2) (arctan2 (p 1) (p 0)) 2 0 * s + dBlambdify f R (p 2) (arctan2 (p 1) (p 0)) 2 1 * c, dBlambdify f R (p 2) (arctan2 (p 1) (p 0)) 2 2]] := by
    rw [← e1, ← e2, ← e3, ← hcc, ← hss]
    rfl
  rw [hd]
  simp only [dBlambdify, Blambdify, parts, E]
  rw [hcc, hss]
  generalize arctan2 (p 1) (p 0) = a
  clear_value c s R
  clear hd e1 e2 e3
  generalize dR (dR f) R (p 2) a = t1
  generalize dP (dR f) R (p 2) a = t2
  generalize dZ (dR f) R (p 2) a = t3
  generalize dR (dPR f) R (p 2) a = t4
  generalize dP (dPR f) R (p 2) a = t5
  generalize dZ (dPR f) R (p 2) a = t6
  generalize dR (dZ f) R (p 2) a = t7
  generalize dP (dZ f) R (p 2) a = t8
  generalize dZ (dZ f) R (p 2) a = t9
  generalize dR f R (p 2) a = b1
  generalize dPR f R (p 2) a = b2
  generalize 1e-30 * a * R * p 2 = e
  fin_cases j <;> fin_cases l <;> simp only [cylJac, Matrix.cons_val, Fin.zero_eta, Fin.mk_one, Fin.reduceFinMk] <;> field_simp <;> ring

/-- **C108.** At every point off the half plane where the angle jumps, where the potential is smooth, `dB_by_dX()` is the array of derivatives of the gradient of the potential, in the documented order, up to the added term: each entry differs by at most `(2 + 2/R) 1e-30 |φ| R |Z|`. -/
theorem C108_jacobian (f : ℝ → ℝ → ℝ → ℝ) (p : P3) (h : OffCut p) (hs : Smooth f p) :
    ∃ D : T2, IsJacobian (gradient f) p D ∧
      ∀ j l, |dB f p j l - D j l| ≤ (2 + 2 / √(p 0 ^ 2 + p 1 ^ 2)) * (1e-30 * |arctan2 (p 1) (p 0)| * √(p 0 ^ 2 + p 1 ^ 2) * |p 2|) := by
  refine ⟨_, gradient_jacobian h hs (clean_jacobian h hs), fun j l => ?_⟩
  rw [dB_error f p h j l, add_sub_cancel_left, abs_mul, eps_abs p, mul_comm]
  have he := eps_abs p
  have e0 : 0 ≤ eps p := by rw [← he]; exact abs_nonneg _
  refine mul_le_mul_of_nonneg_right ?_ e0
  have hR := h.pos
  have hcc := cos_arctan2 h.ne
  have hss := sin_arctan2 (p 1) (p 0)
  have hc := Real.abs_cos_le_one (arctan2 (p 1) (p 0))
  have hs' := Real.abs_sin_le_one (arctan2 (p 1) (p 0))
  rw [hcc] at hc
  rw [hss] at hs'
  generalize p 0 / √(p 0 ^ 2 + p 1 ^ 2) = c at *
  generalize p 1 / √(p 0 ^ 2 + p 1 ^ 2) = s at *
  generalize √(p 0 ^ 2 + p 1 ^ 2) = R at *
  have hm : ∀ a b : ℝ, |a| ≤ 1 → |b| ≤ 1 → |a * b / R| ≤ 1 / R := by
    intro a b ha hb
    rw [abs_div, abs_of_pos hR, abs_mul]
    gcongr
    nlinarith [abs_nonneg a, abs_nonneg b]
  have hcs := abs_le.mp (hm c s hc hs')
  have hcc' := abs_le.mp (hm c c hc hc)
  have hss' := abs_le.mp (hm s s hs' hs')
  have hc2 := abs_le.mp hc
  have hs2 := abs_le.mp hs'
  have ht : 2 / R = 2 * (1 / R) := by ring
  have hRi : 0 < 1 / R := by positivity
  rw [ht, abs_le]
  fin_cases j <;> fin_cases l <;> simp only [Matrix.cons_val, Fin.zero_eta, Fin.mk_one, Fin.reduceFinMk] <;> constructor <;> linarith

/-- **C108.** The gradient the field stands for is curl-free, and divergence-free exactly where the potential satisfies Laplace's equation `∂_R ∂_R Φ + ∂_R Φ/R + ∂_φ ∂_φ Φ/R² + ∂_Z ∂_Z Φ = 0`: the class accepts any expression and does not check that it is a vacuum potential. -/
theorem C108_vacuum (f : ℝ → ℝ → ℝ → ℝ) (p : P3) (h : OffCut p) (hs : Smooth f p) (D : T2) (hD : IsJacobian (gradient f) p D) :
    let R := √(p 0 ^ 2 + p 1 ^ 2)
    let a := arctan2 (p 1) (p 0)
    curl D = 0 ∧ dive D = dR (dR f) R (p 2) a + dR f R (p 2) a / R + dP (dP f) R (p 2) a / R ^ 2 + dZ (dZ f) R (p 2) a := by
  intro R a
  have hJ := gradient_jacobian h hs (clean_jacobian h hs)
  have hDe : D = _ := Jacobian_unique hD hJ
  have hR : R ≠ 0 := h.pos.ne'
  have hcs : (p 0 / R) ^ 2 + (p 1 / R) ^ 2 = 1 := by
    rw [← cos_arctan2 h.ne, ← sin_arctan2, add_comm]; exact Real.sin_sq_add_cos_sq _
  have hs' : ContDiffAt ℝ 2 (unc f) (coords p) := hs
  have sZR : dZ (dR f) R (p 2) a = dR (dZ f) R (p 2) a := by
    have := pd_comm hs' 1 0
    rw [← unc_dR, ← unc_dZ f, ← unc_dR, ← unc_dZ] at this
    exact this
  have sPR : dR (dP f) R (p 2) a = dP (dR f) R (p 2) a := by
    have := pd_comm hs' 0 2
    rw [← unc_dR f, ← unc_dP f, ← unc_dR, ← unc_dP] at this
    exact this
  have sPZ : dZ (dP f) R (p 2) a = dP (dZ f) R (p 2) a := by
    have := pd_comm hs' 1 2
    rw [← unc_dZ f, ← unc_dP f, ← unc_dZ, ← unc_dP] at this
    exact this
  have qP : dP (dPR f) R (p 2) a = dP (dP f) R (p 2) a / R := by
    show deriv (fun t => dP f R (p 2) t / R) a = _
    rw [deriv_div_const]; rfl
  have qZ : dZ (dPR f) R (p 2) a = dZ (dP f) R (p 2) a / R := by
    show deriv (fun t => dP f R t a / R) (p 2) = _
    rw [deriv_div_const]; rfl
  have a2 : DifferentiableAt ℝ (unc (dP f)) (coords p) := by rw [unc_dP]; exact (pd_hasFDeriv hs' 2).differentiableAt
  have qR : dR (dPR f) R (p 2) a = dR (dP f) R (p 2) a / R - dP f R (p 2) a / R ^ 2 := by
    have hu := (d_update (coords p) 0)
    have h1 : HasFDerivAt (unc (dP f)) (fderiv ℝ (unc (dP f)) (coords p)) (Function.update (coords p) 0 (coords p 0)) := by
      rw [Function.update_eq_self]; exact a2.hasFDerivAt
    have h2 := h1.comp_hasDerivAt _ hu
    have h3 : DifferentiableAt ℝ (fun t => dP f t (p 2) a) R := by
      have := h2.differentiableAt
      have e : (unc (dP f) ∘ fun t => Function.update (coords p) 0 t) = fun t => dP f t (p 2) a := by
        funext t; simp [unc, coords, a]
      rw [e] at this
      exact this
    show deriv (fun t => dP f t (p 2) a / t) R = _
    have h4 : HasDerivAt (fun t => dP f t (p 2) a) (dR (dP f) R (p 2) a) R := h3.hasDerivAt
    rw [(h4.fun_div (hasDerivAt_id' R) hR).deriv]
    field_simp
  rw [hDe]
  refine ⟨curl_cylJac hR hcs _ ?_ ?_ ?_, ?_⟩
  · show dP (dZ f) R (p 2) a / R = dZ (dPR f) R (p 2) a
    rw [qZ, sPZ]
  · exact sZR
  · show dR (dPR f) R (p 2) a + dPR f R (p 2) a / R = dP (dR f) R (p 2) a / R
    rw [qR, sPR]
    show _ + dP f R (p 2) a / R / R = _
    field_simp
    ring
  · rw [dive_cylJac hR hcs]
    show dR (dR f) R (p 2) a + dR f R (p 2) a / R + dP (dPR f) R (p 2) a / R + dZ (dZ f) R (p 2) a = _
    rw [qP]
    field_simp

/-- The hypotheses hold of the documented example `2*phi` at every point off the cut. -/
example (p : P3) (h : OffCut p) : Smooth (fun _ _ phi => 2 * phi) p := by
  unfold Smooth
  exact ContDiffAt.mul contDiffAt_const (contDiffAt_pi.mp contDiffAt_id 2)

/-- **C108.** The documented example: the potential `2*phi` gives the field of modulus `2/R` in the toroidal direction, up to the added term; at height 0 the term vanishes. -/
theorem C108_example (p : P3) (h : OffCut p) (hz : p 2 = 0) :
    B (fun _ _ phi => 2 * phi) p = ![-2 * p 1 / (p 0 ^ 2 + p 1 ^ 2), 2 * p 0 / (p 0 ^ 2 + p 1 ^ 2), 0] := by
  have e : ∀ a : ℝ, deriv (fun t : ℝ => 2 * t) a = 2 := fun a => ((hasDerivAt_id' a).const_mul 2).deriv.trans (mul_one 2)
  have hR := Real.sq_sqrt (show 0 ≤ p 0 ^ 2 + p 1 ^ 2 by positivity)
  have hp := h.pos
  simp only [B, Blambdify, dR, dPR, dP, dZ, hz, Matrix.cons_val, e, deriv_const, mul_zero, add_zero, zero_mul]
  rw [cos_arctan2 h.ne, sin_arctan2]
  generalize √(p 0 ^ 2 + p 1 ^ 2) = R at *
  rw [← hR]
  funext i
  fin_cases i <;> simp only [Matrix.cons_val, Fin.zero_eta, Fin.mk_one, Fin.reduceFinMk] <;> field_simp <;> ring

end Simsopt.Fields.Potential
