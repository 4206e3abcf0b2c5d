import Verif.Fields.Reiman
/-!
# Fields given by cylindrical components
-/
namespace Simsopt.Fields

/-- The derivatives of the radius and of the two direction cosines along a curve. -/
theorem d_polar {x y : ℝ → ℝ} {x' y' t : ℝ} (hx : HasDerivAt x x' t) (hy : HasDerivAt y y' t) (h : x t ^ 2 + y t ^ 2 ≠ 0) {R c s : ℝ} (eR : √(x t ^ 2 + y t ^ 2) = R) (ec : x t / R = c) (es : y t / R = s) :
    HasDerivAt (fun u => √(x u ^ 2 + y u ^ 2)) (c * x' + s * y') t ∧
    HasDerivAt (fun u => x u / √(x u ^ 2 + y u ^ 2)) (-s * ((c * y' - s * x') / R)) t ∧
    HasDerivAt (fun u => y u / √(x u ^ 2 + y u ^ 2)) (c * ((c * y' - s * x') / R)) t ∧
    (x t * y' - y t * x') / (x t ^ 2 + y t ^ 2) = (c * y' - s * x') / R ∧ R ≠ 0 ∧ c ^ 2 + s ^ 2 = 1 := by
  subst eR ec es
  have hq : HasDerivAt (fun s => x s ^ 2 + y s ^ 2) (2 * x t * x' + 2 * y t * y') t :=
    ((hx.fun_pow 2).fun_add (hy.fun_pow 2)).congr_deriv (by push_cast; ring)
  have hR : HasDerivAt (fun s => √(x s ^ 2 + y s ^ 2)) ((x t * x' + y t * y') / √(x t ^ 2 + y t ^ 2)) t :=
    (hq.sqrt h).congr_deriv (by field_simp)
  have hR2 : √(x t ^ 2 + y t ^ 2) ^ 2 = x t ^ 2 + y t ^ 2 := Real.sq_sqrt (by positivity)
  have hR0 : √(x t ^ 2 + y t ^ 2) ≠ 0 := fun hh => h (by rw [← hR2, hh]; ring)
  have hσ : (x t * y' - y t * x') / (x t ^ 2 + y t ^ 2) = (x t / √(x t ^ 2 + y t ^ 2) * y' - y t / √(x t ^ 2 + y t ^ 2) * x') / √(x t ^ 2 + y t ^ 2) := by
    rw [← hR2]
    simp only [Real.sqrt_sq (Real.sqrt_nonneg _)]
    field_simp
  refine ⟨hR.congr_deriv (by ring), ?_, ?_, hσ, hR0, ?_⟩
  · refine (hx.fun_div hR hR0).congr_deriv ?_
    rw [d_unit hR2 hR0, hσ]
  · refine (hy.fun_div hR hR0).congr_deriv ?_
    have := d_unit (a := y t) (b := x t) (a' := y') (b' := x') (by rw [hR2]; ring) hR0
    rw [add_comm (x t * x'), this, ← hσ, add_comm (y t ^ 2)]
    ring
  · rw [div_pow, div_pow, ← add_div, hR2, div_self h]

/-- A field with cylindrical components `BR`, `Bp`, `BZ`, in Cartesian coordinates. -/
noncomputable def cylField (BR Bp BZ : ℝ → ℝ → ℝ → ℝ) (q : P3) : P3 :=
  let R := √(q 0 ^ 2 + q 1 ^ 2)
  let phi := arctan2 (q 1) (q 0)
  ![BR R (q 2) phi * (q 0 / R) - Bp R (q 2) phi * (q 1 / R), BR R (q 2) phi * (q 1 / R) + Bp R (q 2) phi * (q 0 / R), BZ R (q 2) phi]

/-- The partial derivatives of the cylindrical components at a point (`R`, `Z`, `phi`). -/
structure CylD where
  rR : ℝ
  zR : ℝ
  pR : ℝ
  rP : ℝ
  zP : ℝ
  pP : ℝ
  rZ : ℝ
  zZ : ℝ
  pZ : ℝ

/-- The Cartesian array of first derivatives. -/
noncomputable def cylJac (BR Bp R c s : ℝ) (d : CylD) : T2 :=
  ![![d.rR * c * c - (d.pR - Bp + d.rP * R) * c * s / R + s * s * (d.pP + BR) / R, s * c * (d.rR * R - d.pP - BR) / R + s * s * (Bp - d.pR) / R + c * c * d.rP, d.rZ * c - d.pZ * s / R],
    ![s * c * (d.rR * R - d.pP - BR) / R + c * c * (d.pR - Bp) / R - s * s * d.rP, d.rR * s * s + (d.pR - Bp + d.rP * R) * c * s / R + c * c * (d.pP + BR) / R, d.rZ * s + d.pZ * c / R],
    ![d.zR * c - d.zP * s, d.zR * s + d.zP * c, d.zZ]]

theorem eta3 (q : P3) : q = ![q 0, q 1, q 2] := by funext i; fin_cases i <;> rfl

/-- A function whose derivative along every smooth curve through a point is linear in the velocity has these partial derivatives. -/
theorem partials_of_curves {F : P3 → ℝ} {p : P3} {D : Fin 3 → ℝ}
    (h : ∀ (x y z : ℝ → ℝ) (x' y' z' t : ℝ), x t = p 0 → y t = p 1 → z t = p 2 → HasDerivAt x x' t → HasDerivAt y y' t → HasDerivAt z z' t → HasDerivAt (fun u => F ![x u, y u, z u]) (x' * D 0 + y' * D 1 + z' * D 2) t) (j : Fin 3) :
    HasDerivAt (fun t => F (Function.update p j t)) (D j) (p j) := by
  fin_cases j
  · refine (h (fun s => s) (fun _ => p 1) (fun _ => p 2) 1 0 0 (p 0) rfl rfl rfl (hasDerivAt_id' _) (hasDerivAt_const _ _) (hasDerivAt_const _ _)).congr_of_eventuallyEq (Filter.Eventually.of_forall fun s => ?_) |>.congr_deriv (by simp)
    exact congrArg F (by rw [eta3 (Function.update _ _ _)]; simp)
  · refine (h (fun _ => p 0) (fun s => s) (fun _ => p 2) 0 1 0 (p 1) rfl rfl rfl (hasDerivAt_const _ _) (hasDerivAt_id' _) (hasDerivAt_const _ _)).congr_of_eventuallyEq (Filter.Eventually.of_forall fun s => ?_) |>.congr_deriv (by simp)
    exact congrArg F (by rw [eta3 (Function.update _ _ _)]; simp)
  · refine (h (fun _ => p 0) (fun _ => p 1) (fun s => s) 0 0 1 (p 2) rfl rfl rfl (hasDerivAt_const _ _) (hasDerivAt_const _ _) (hasDerivAt_id' _)).congr_of_eventuallyEq (Filter.Eventually.of_forall fun s => ?_) |>.congr_deriv (by simp)
    exact congrArg F (by rw [eta3 (Function.update _ _ _)]; simp)

/-- `f` has, along every smooth curve through `p`, the derivative given by the partial derivatives `r`, `z`, `a` with respect to `R`, `Z` and the angle. -/
def CurveD (f : ℝ → ℝ → ℝ → ℝ) (p : P3) (r zz a : ℝ) : Prop :=
  ∀ (x y z : ℝ → ℝ) (x' y' z' t : ℝ), x t = p 0 → y t = p 1 → z t = p 2 → HasDerivAt x x' t → HasDerivAt y y' t → HasDerivAt z z' t →
    HasDerivAt (fun u => f (√(x u ^ 2 + y u ^ 2)) (z u) (arctan2 (y u) (x u)))
      (r * ((p 0 / √(p 0 ^ 2 + p 1 ^ 2)) * x' + (p 1 / √(p 0 ^ 2 + p 1 ^ 2)) * y') + zz * z' + a * (((p 0 / √(p 0 ^ 2 + p 1 ^ 2)) * y' - (p 1 / √(p 0 ^ 2 + p 1 ^ 2)) * x') / √(p 0 ^ 2 + p 1 ^ 2))) t

theorem cyl_jacobian {BR Bp BZ : ℝ → ℝ → ℝ → ℝ} {p : P3} (h : p 0 ^ 2 + p 1 ^ 2 ≠ 0) {d : CylD} (hR : CurveD BR p d.rR d.zR d.pR) (hP : CurveD Bp p d.rP d.zP d.pP) (hZ : CurveD BZ p d.rZ d.zZ d.pZ) :
    IsJacobian (cylField BR Bp BZ) p
      (cylJac (BR (√(p 0 ^ 2 + p 1 ^ 2)) (p 2) (arctan2 (p 1) (p 0))) (Bp (√(p 0 ^ 2 + p 1 ^ 2)) (p 2) (arctan2 (p 1) (p 0))) (√(p 0 ^ 2 + p 1 ^ 2)) (p 0 / √(p 0 ^ 2 + p 1 ^ 2)) (p 1 / √(p 0 ^ 2 + p 1 ^ 2)) d) := by
  intro j l
  refine partials_of_curves (F := fun q => cylField BR Bp BZ q l) (D := fun j => cylJac _ _ _ _ _ d j l) ?_ j
  intro x y z x' y' z' t ex ey ez hx hy hz
  have e0 : √(x t ^ 2 + y t ^ 2) = √(p 0 ^ 2 + p 1 ^ 2) := by rw [ex, ey]
  obtain ⟨_, hc, hs, _, hR0, _⟩ := d_polar hx hy (by rw [ex, ey]; exact h) e0 (c := p 0 / √(p 0 ^ 2 + p 1 ^ 2)) (s := p 1 / √(p 0 ^ 2 + p 1 ^ 2)) (by rw [ex]) (by rw [ey])
  have h1 := hR x y z x' y' z' t ex ey ez hx hy hz
  have h2 := hP x y z x' y' z' t ex ey ez hx hy hz
  have h3 := hZ x y z x' y' z' t ex ey ez hx hy hz
  fin_cases l
  · refine ((h1.fun_mul hc).fun_sub (h2.fun_mul hs)).congr_of_eventuallyEq (Filter.Eventually.of_forall fun s => ?_) |>.congr_deriv ?_
    · simp only [cylField, Matrix.cons_val, Fin.zero_eta]
    · simp only [cylJac, Matrix.cons_val, Fin.zero_eta]
      rw [ex, ey, ez]
      clear h1 h2 h3 hc hs
      generalize BR (√(p 0 ^ 2 + p 1 ^ 2)) (p 2) (arctan2 (p 1) (p 0)) = br
      generalize Bp (√(p 0 ^ 2 + p 1 ^ 2)) (p 2) (arctan2 (p 1) (p 0)) = bp
      generalize p 0 / √(p 0 ^ 2 + p 1 ^ 2) = c at *
      generalize p 1 / √(p 0 ^ 2 + p 1 ^ 2) = s at *
      generalize √(p 0 ^ 2 + p 1 ^ 2) = R at *
      field_simp
      ring
  · refine ((h1.fun_mul hs).fun_add (h2.fun_mul hc)).congr_of_eventuallyEq (Filter.Eventually.of_forall fun s => ?_) |>.congr_deriv ?_
    · simp only [cylField, Matrix.cons_val, Fin.mk_one]
    · simp only [cylJac, Matrix.cons_val, Fin.mk_one]
      rw [ex, ey, ez]
      clear h1 h2 h3 hc hs
      generalize BR (√(p 0 ^ 2 + p 1 ^ 2)) (p 2) (arctan2 (p 1) (p 0)) = br
      generalize Bp (√(p 0 ^ 2 + p 1 ^ 2)) (p 2) (arctan2 (p 1) (p 0)) = bp
      generalize p 0 / √(p 0 ^ 2 + p 1 ^ 2) = c at *
      generalize p 1 / √(p 0 ^ 2 + p 1 ^ 2) = s at *
      generalize √(p 0 ^ 2 + p 1 ^ 2) = R at *
      field_simp
      ring
  · refine h3.congr_of_eventuallyEq (Filter.Eventually.of_forall fun s => ?_) |>.congr_deriv ?_
    · simp only [cylField, Matrix.cons_val, Fin.reduceFinMk]
    · simp only [cylJac, Matrix.cons_val, Fin.reduceFinMk]
      ring

/-- The divergence in cylindrical components. -/
theorem dive_cylJac {BR Bp R c s : ℝ} (hR : R ≠ 0) (hcs : c ^ 2 + s ^ 2 = 1) (d : CylD) : dive (cylJac BR Bp R c s d) = d.rR + BR / R + d.pP / R + d.zZ := by
  simp only [dive, cylJac, Matrix.cons_val]
  have : ∀ A D E : ℝ, A * c * c - D * c * s / R + s * s * E / R + (A * s * s + D * c * s / R + c * c * E / R) = A + E / R := by
    intro A D E
    have : A * c * c - D * c * s / R + s * s * E / R + (A * s * s + D * c * s / R + c * c * E / R) = (c ^ 2 + s ^ 2) * (A + E / R) := by ring
    rw [this, hcs, one_mul]
  rw [this]
  ring

/-- The curl vanishes when its three cylindrical components do. -/
theorem curl_cylJac {BR Bp R c s : ℝ} (hR : R ≠ 0) (hcs : c ^ 2 + s ^ 2 = 1) (d : CylD) (h1 : d.pZ / R = d.zP) (h2 : d.zR = d.rZ) (h3 : d.rP + Bp / R = d.pR / R) : curl (cylJac BR Bp R c s d) = 0 := by
  have hp : d.pR = d.rP * R + Bp := by field_simp at h3; linarith
  funext i
  fin_cases i
  · simp only [curl, cylJac, Matrix.cons_val, Fin.zero_eta, Pi.zero_apply]
    rw [h2, ← h1]; ring
  · simp only [curl, cylJac, Matrix.cons_val, Fin.mk_one, Pi.zero_apply]
    rw [h2, ← h1]; ring
  · simp only [curl, cylJac, Matrix.cons_val, Fin.reduceFinMk, Pi.zero_apply]
    rw [hp]
    field_simp
    ring

end Simsopt.Fields
