import Verif.Fields.Toroidal
import Mathlib.Tactic.LinearCombination
/-!
# PoloidalField and MirrorModel
-/
namespace Simsopt.Fields

theorem Poloidal.B0_eq (f : Poloidal) (p : P3) : f.B p 0 = f.B0 / f.R0 / f.q * (-(p 2) * Real.cos (arctan2 (p 1) (p 0))) := by
  show f.B0 / f.R0 / f.q * (-(Real.sin (arctan2 (p 2) (√(p 0 ^ 2 + p 1 ^ 2) - f.R0)) * √((√(p 0 ^ 2 + p 1 ^ 2) - f.R0) ^ 2 + p 2 ^ 2)) * _) = _
  rw [mul_comm (Real.sin _), r_mul_sin]

theorem Poloidal.B1_eq (f : Poloidal) (p : P3) : f.B p 1 = f.B0 / f.R0 / f.q * (-(p 2) * Real.sin (arctan2 (p 1) (p 0))) := by
  show f.B0 / f.R0 / f.q * (-(Real.sin (arctan2 (p 2) (√(p 0 ^ 2 + p 1 ^ 2) - f.R0)) * √((√(p 0 ^ 2 + p 1 ^ 2) - f.R0) ^ 2 + p 2 ^ 2)) * _) = _
  rw [mul_comm (Real.sin _), r_mul_sin]

theorem Poloidal.B2_eq (f : Poloidal) (p : P3) : f.B p 2 = f.B0 / f.R0 / f.q * (√(p 0 ^ 2 + p 1 ^ 2) - f.R0) := by
  show f.B0 / f.R0 / f.q * (Real.cos (arctan2 (p 2) (√(p 0 ^ 2 + p 1 ^ 2) - f.R0)) * √((√(p 0 ^ 2 + p 1 ^ 2) - f.R0) ^ 2 + p 2 ^ 2)) = _
  rw [mul_comm (Real.cos _), r_mul_cos]

/-- **C99.** The poloidal field has the modulus `|B0 r / (R0 q)|` with `r` the distance from the magnetic axis, and is perpendicular to the toroidal direction and to the radius from the axis: it is `B0 r / (R0 q)` times the poloidal unit vector. -/
theorem C99_poloidal_field (f : Poloidal) (p : P3) (h : p 0 ^ 2 + p 1 ^ 2 ≠ 0) :
    let R := √(p 0 ^ 2 + p 1 ^ 2)
    let r := √((R - f.R0) ^ 2 + p 2 ^ 2)
    f.B p 0 ^ 2 + f.B p 1 ^ 2 + f.B p 2 ^ 2 = (f.B0 * r / (f.R0 * f.q)) ^ 2 ∧
    f.B p 0 * -p 1 + f.B p 1 * p 0 = 0 ∧
    f.B p 0 * ((R - f.R0) * (p 0 / R)) + f.B p 1 * ((R - f.R0) * (p 1 / R)) + f.B p 2 * p 2 = 0 ∧
    f.B p 2 * (R - f.R0) = f.B0 / (f.R0 * f.q) * (R - f.R0) ^ 2 := by
  intro R r
  have hR : R ^ 2 = p 0 ^ 2 + p 1 ^ 2 := Real.sq_sqrt (by positivity)
  have hR0 : R ≠ 0 := fun hh => h (by rw [← hR, hh]; ring)
  have hr : r ^ 2 = (R - f.R0) ^ 2 + p 2 ^ 2 := Real.sq_sqrt (by positivity)
  have hc : Real.cos (arctan2 (p 1) (p 0)) = p 0 / R := cos_arctan2 h
  have hs : Real.sin (arctan2 (p 1) (p 0)) = p 1 / R := sin_arctan2 _ _
  have hk : f.B0 / f.R0 / f.q = f.B0 / (f.R0 * f.q) := div_div _ _ _
  rw [f.B0_eq, f.B1_eq, f.B2_eq, hc, hs, hk]
  change (f.B0 / (f.R0 * f.q) * (-p 2 * (p 0 / R))) ^ 2 + (f.B0 / (f.R0 * f.q) * (-p 2 * (p 1 / R))) ^ 2 + (f.B0 / (f.R0 * f.q) * (R - f.R0)) ^ 2 = _ ∧ _ ∧ _ + (f.B0 / (f.R0 * f.q) * (R - f.R0)) * p 2 = 0 ∧ (f.B0 / (f.R0 * f.q) * (R - f.R0)) * (R - f.R0) = _
  set k := f.B0 / (f.R0 * f.q)
  have hk' : f.B0 * r / (f.R0 * f.q) = k * r := by simp only [k]; ring
  rw [hk']
  refine ⟨?_, ?_, ?_, by ring⟩
  · have e1 : (k * (-p 2 * (p 0 / R))) ^ 2 + (k * (-p 2 * (p 1 / R))) ^ 2 = k ^ 2 * p 2 ^ 2 * ((p 0 ^ 2 + p 1 ^ 2) / R ^ 2) := by field_simp
    rw [e1, ← hR, div_self (pow_ne_zero 2 hR0), mul_pow k r, hr]
    ring
  · ring
  · have e1 : k * (-p 2 * (p 0 / R)) * ((R - f.R0) * (p 0 / R)) + k * (-p 2 * (p 1 / R)) * ((R - f.R0) * (p 1 / R)) = -(k * p 2 * (R - f.R0)) * ((p 0 ^ 2 + p 1 ^ 2) / R ^ 2) := by
      field_simp; ring
    rw [e1, ← hR, div_self (pow_ne_zero 2 hR0)]
    ring

/-- The first derivatives of the poloidal field, in the documented order. -/
noncomputable def Poloidal.jacB (f : Poloidal) (p : P3) : T2 :=
  let x := p 0
  let y := p 1
  let z := p 2
  let R := √(x ^ 2 + y ^ 2)
  fun j l => f.B0 / f.R0 / f.q * (![
    ![-z * y ^ 2 / R ^ 3, z * x * y / R ^ 3, x / R],
    ![z * x * y / R ^ 3, -z * x ^ 2 / R ^ 3, y / R],
    ![-x / R, -y / R, 0]] : T2) j l

theorem cos_mul_eq (x y c : ℝ) (h : x ^ 2 + y ^ 2 ≠ 0) : c * Real.cos (arctan2 y x) = c * (x / √(x ^ 2 + y ^ 2)) := by rw [cos_arctan2 h]

/-- Near a point off the axis everything is off the axis. -/
theorem off_axis_x {x y : ℝ} (h : x ^ 2 + y ^ 2 ≠ 0) : ∀ᶠ t in nhds x, t ^ 2 + y ^ 2 ≠ 0 :=
  (d_x x y).continuousAt.eventually_ne h
theorem off_axis_y {x y : ℝ} (h : x ^ 2 + y ^ 2 ≠ 0) : ∀ᶠ t in nhds y, x ^ 2 + t ^ 2 ≠ 0 :=
  (d_y x y).continuousAt.eventually_ne h

theorem d_cos_x {x y : ℝ} (h : x ^ 2 + y ^ 2 ≠ 0) : HasDerivAt (fun t => Real.cos (arctan2 y t)) (y ^ 2 / √(x ^ 2 + y ^ 2) ^ 3) x := by
  have hR : √(x ^ 2 + y ^ 2) ^ 2 = x ^ 2 + y ^ 2 := Real.sq_sqrt (by positivity)
  have hR0 : √(x ^ 2 + y ^ 2) ≠ 0 := fun hh => h (by rw [← hR, hh]; ring)
  refine HasDerivAt.congr_of_eventuallyEq (f := fun t => t / √(t ^ 2 + y ^ 2)) ?_ ((off_axis_x h).mono fun t ht => cos_arctan2 ht)
  refine ((hasDerivAt_id x).div (d_Rx h) hR0).congr_deriv ?_
  simp only [id]
  have : y ^ 2 = √(x ^ 2 + y ^ 2) ^ 2 - x ^ 2 := by rw [hR]; ring
  rw [this]
  rw [← this]
  field_simp
  rw [hR]; ring

theorem d_cos_y {x y : ℝ} (h : x ^ 2 + y ^ 2 ≠ 0) : HasDerivAt (fun t => Real.cos (arctan2 t x)) (-(x * y) / √(x ^ 2 + y ^ 2) ^ 3) y := by
  have hR : √(x ^ 2 + y ^ 2) ^ 2 = x ^ 2 + y ^ 2 := Real.sq_sqrt (by positivity)
  have hR0 : √(x ^ 2 + y ^ 2) ≠ 0 := fun hh => h (by rw [← hR, hh]; ring)
  refine HasDerivAt.congr_of_eventuallyEq (f := fun t => x / √(x ^ 2 + t ^ 2)) ?_ ((off_axis_y h).mono fun t ht => cos_arctan2 ht)
  refine ((hasDerivAt_const y x).div (d_Ry h) hR0).congr_deriv ?_
  field_simp
  ring

theorem d_sin_x {x y : ℝ} (h : x ^ 2 + y ^ 2 ≠ 0) : HasDerivAt (fun t => Real.sin (arctan2 y t)) (-(x * y) / √(x ^ 2 + y ^ 2) ^ 3) x := by
  have hR : √(x ^ 2 + y ^ 2) ^ 2 = x ^ 2 + y ^ 2 := Real.sq_sqrt (by positivity)
  have hR0 : √(x ^ 2 + y ^ 2) ≠ 0 := fun hh => h (by rw [← hR, hh]; ring)
  refine HasDerivAt.congr_of_eventuallyEq (f := fun t => y / √(t ^ 2 + y ^ 2)) ?_ ((off_axis_x h).mono fun t ht => sin_arctan2 _ _)
  refine ((hasDerivAt_const x y).div (d_Rx h) hR0).congr_deriv ?_
  field_simp
  ring

theorem d_sin_y {x y : ℝ} (h : x ^ 2 + y ^ 2 ≠ 0) : HasDerivAt (fun t => Real.sin (arctan2 t x)) (x ^ 2 / √(x ^ 2 + y ^ 2) ^ 3) y := by
  have hR : √(x ^ 2 + y ^ 2) ^ 2 = x ^ 2 + y ^ 2 := Real.sq_sqrt (by positivity)
  have hR0 : √(x ^ 2 + y ^ 2) ≠ 0 := fun hh => h (by rw [← hR, hh]; ring)
  refine HasDerivAt.congr_of_eventuallyEq (f := fun t => t / √(x ^ 2 + t ^ 2)) ?_ ((off_axis_y h).mono fun t ht => sin_arctan2 _ _)
  refine ((hasDerivAt_id y).div (d_Ry h) hR0).congr_deriv ?_
  simp only [id]
  field_simp
  rw [hR]; ring

theorem Poloidal.jacB_spec (f : Poloidal) (p : P3) (h : p 0 ^ 2 + p 1 ^ 2 ≠ 0) : IsJacobian f.B p (f.jacB p) := by
  set k := f.B0 / f.R0 / f.q with hk
  have hc : Real.cos (arctan2 (p 1) (p 0)) = p 0 / √(p 0 ^ 2 + p 1 ^ 2) := cos_arctan2 h
  have hs : Real.sin (arctan2 (p 1) (p 0)) = p 1 / √(p 0 ^ 2 + p 1 ^ 2) := sin_arctan2 _ _
  refine isJacobian_of (F0 := fun x y z => k * (-z * Real.cos (arctan2 y x))) (F1 := fun x y z => k * (-z * Real.sin (arctan2 y x))) (F2 := fun x y _ => k * (√(x ^ 2 + y ^ 2) - f.R0))
    f.B0_eq f.B1_eq f.B2_eq ?_ ?_ ?_ ?_ ?_ ?_ ?_ ?_ ?_
  · exact (((d_cos_x h).const_mul _).const_mul _).congr_deriv (by simp only [Poloidal.jacB, Matrix.cons_val, ← hk]; ring)
  · exact (((d_cos_y h).const_mul _).const_mul _).congr_deriv (by simp only [Poloidal.jacB, Matrix.cons_val, ← hk]; ring)
  · exact (((hasDerivAt_id (p 2)).fun_neg.mul_const _).const_mul _).congr_deriv (by simp only [Poloidal.jacB, Matrix.cons_val, ← hk, hc]; ring)
  · exact (((d_sin_x h).const_mul _).const_mul _).congr_deriv (by simp only [Poloidal.jacB, Matrix.cons_val, ← hk]; ring)
  · exact (((d_sin_y h).const_mul _).const_mul _).congr_deriv (by simp only [Poloidal.jacB, Matrix.cons_val, ← hk]; ring)
  · exact (((hasDerivAt_id (p 2)).fun_neg.mul_const _).const_mul _).congr_deriv (by simp only [Poloidal.jacB, Matrix.cons_val, ← hk, hs]; ring)
  · exact (((d_Rx h).sub_const _).const_mul _).congr_deriv (by simp only [Poloidal.jacB, Matrix.cons_val, ← hk])
  · exact (((d_Ry h).sub_const _).const_mul _).congr_deriv (by simp only [Poloidal.jacB, Matrix.cons_val, ← hk])
  · exact (hasDerivAt_const _ _).congr_deriv (by simp only [Poloidal.jacB, Matrix.cons_val]; ring)

theorem Poloidal.dB_eq (f : Poloidal) (p : P3) (h : p 0 ^ 2 + p 1 ^ 2 ≠ 0) (hR : √(p 0 ^ 2 + p 1 ^ 2) ≠ f.R0) : f.dB p = fun i j => f.jacB p j i := by
  set x := p 0 with hx
  set y := p 1 with hy
  set z := p 2 with hz
  set R := √(x ^ 2 + y ^ 2) with hRd
  have hR2 : x ^ 2 + y ^ 2 = R ^ 2 := (Real.sq_sqrt (by positivity)).symm
  have hR0 : R ≠ 0 := fun hh => h (by rw [hR2, hh]; ring)
  set u := R - f.R0 with hu
  have hu0 : u ≠ 0 := sub_ne_zero.mpr hR
  set r := √(u ^ 2 + z ^ 2) with hr
  have hr2 : r ^ 2 = u ^ 2 + z ^ 2 := Real.sq_sqrt (by positivity)
  have hq : u ^ 2 + z ^ 2 ≠ 0 := by positivity
  have hr0 : r ≠ 0 := fun hh => hq (by rw [← hr2, hh]; ring)
  have hc : Real.cos (arctan2 y x) = x / R := cos_arctan2 h
  have hs : Real.sin (arctan2 y x) = y / R := sin_arctan2 _ _
  have hct : Real.cos (arctan2 z u) = u / r := cos_arctan2 hq
  have hst : Real.sin (arctan2 z u) = z / r := sin_arctan2 _ _
  have e1 : x ^ 2 + y ^ 2 + z ^ 2 - 2 * R * f.R0 + f.R0 ^ 2 = r ^ 2 := by rw [hr2, hR2, hu]; ring
  have e2 : -f.R0 + R = u := by rw [hu]; ring
  have e3 : (f.R0 - R) ^ 2 = u ^ 2 := by rw [hu]; ring
  have e4 : 1 + z ^ 2 / u ^ 2 = r ^ 2 / u ^ 2 := by rw [hr2]; field_simp
  have hb : y ^ 2 = R ^ 2 - x ^ 2 := by rw [← hR2]; ring
  have hc' : z ^ 2 = r ^ 2 - u ^ 2 := by rw [hr2]; ring
  funext i j
  simp only [Poloidal.dB, Poloidal.jacB, transp2, ← hx, ← hy, ← hz, ← hRd, ← hu, ← hr, hc, hs, hct, hst, e1, e2, e3, e4]
  clear_value r u R
  congr 1
  fin_cases i <;> fin_cases j <;> simp only [Fin.zero_eta, Fin.mk_one, Fin.reduceFinMk, Matrix.cons_val, hR2] <;> field_simp
  all_goals (rw [hr2]; ring)

/-- **C99.** What `PoloidalField.dB_by_dX` is, off the axis and the cylinder R = R0 (where the program divides by zero): the array of first derivatives of `B` with the two indices exchanged. -/
theorem C99_poloidal_dB_partial (f : Poloidal) (p : P3) (h : p 0 ^ 2 + p 1 ^ 2 ≠ 0) (hR : √(p 0 ^ 2 + p 1 ^ 2) ≠ f.R0) : IsJacobian f.B p (fun j l => f.dB p l j) := by
  rw [f.dB_eq p h hR]
  exact f.jacB_spec p h

/-- **C99.** `PoloidalField.dB_by_dX` does not follow the documented order of the indices: wherever it is finite and the field is not zero it is not the array of first derivatives of `B`. -/
theorem C99_poloidal_dB_violated (f : Poloidal) (p : P3) (h : p 0 ^ 2 + p 1 ^ 2 ≠ 0) (hR : √(p 0 ^ 2 + p 1 ^ 2) ≠ f.R0) (hf : f.B0 / f.R0 / f.q ≠ 0) : ¬IsJacobian f.B p (f.dB p) := by
  intro hj
  have e := Jacobian_unique hj (f.jacB_spec p h)
  rw [f.dB_eq p h hR] at e
  have e0 := congrFun (congrFun e 2) 0
  have e1 := congrFun (congrFun e 2) 1
  replace e0 : f.B0 / f.R0 / f.q * (p 0 / √(p 0 ^ 2 + p 1 ^ 2)) = f.B0 / f.R0 / f.q * (-(p 0) / √(p 0 ^ 2 + p 1 ^ 2)) := e0
  replace e1 : f.B0 / f.R0 / f.q * (p 1 / √(p 0 ^ 2 + p 1 ^ 2)) = f.B0 / f.R0 / f.q * (-(p 1) / √(p 0 ^ 2 + p 1 ^ 2)) := e1
  have hR2 : √(p 0 ^ 2 + p 1 ^ 2) ^ 2 = p 0 ^ 2 + p 1 ^ 2 := Real.sq_sqrt (by positivity)
  have hR0 : √(p 0 ^ 2 + p 1 ^ 2) ≠ 0 := fun hh => h (by rw [← hR2, hh]; ring)
  have a0 := (div_left_inj' hR0).mp (mul_left_cancel₀ hf e0)
  have a1 := (div_left_inj' hR0).mp (mul_left_cancel₀ hf e1)
  have b0 : p 0 = 0 := by linarith
  have b1 : p 1 = 0 := by linarith
  exact h (by rw [b0, b1]; simp)

example : ¬IsJacobian (Poloidal.B ⟨1, 1, 1⟩) ![2, 0, 1] (Poloidal.dB ⟨1, 1, 1⟩ ![2, 0, 1]) :=
  C99_poloidal_dB_violated _ _ (by simp) (by
    show √((2 : ℝ) ^ 2 + 0 ^ 2) ≠ 1
    rw [show ((2 : ℝ) ^ 2 + 0 ^ 2) = 2 ^ 2 by ring, Real.sqrt_sq (by norm_num)]; norm_num) (by simp)

/-! ## MirrorModel -/

theorem Mirror.B0_eq (f : Mirror) (p : P3) : f.B p 0 = f.Br (p 0) (p 2) := by
  show f.Br (√(p 0 ^ 2 + p 1 ^ 2)) (p 2) * Real.cos (arctan2 (p 1) (p 0)) = _
  have := r_mul_cos (p 1) (p 0)
  unfold Mirror.Br
  linear_combination (f.B0 / (Real.pi * f.gamma ^ 3) * ((p 2 - f.Zm) / (1 + ((p 2 - f.Zm) / f.gamma) ^ 2) ^ 2 + (p 2 + f.Zm) / (1 + ((p 2 + f.Zm) / f.gamma) ^ 2) ^ 2)) * this

theorem Mirror.B1_eq (f : Mirror) (p : P3) : f.B p 1 = f.Br (p 1) (p 2) := by
  show f.Br (√(p 0 ^ 2 + p 1 ^ 2)) (p 2) * Real.sin (arctan2 (p 1) (p 0)) = _
  have := r_mul_sin (p 1) (p 0)
  unfold Mirror.Br
  linear_combination (f.B0 / (Real.pi * f.gamma ^ 3) * ((p 2 - f.Zm) / (1 + ((p 2 - f.Zm) / f.gamma) ^ 2) ^ 2 + (p 2 + f.Zm) / (1 + ((p 2 + f.Zm) / f.gamma) ^ 2) ^ 2)) * this

/-- The derivative of a Lorentzian. -/
theorem d_lor {g : ℝ} (hg : g ≠ 0) (m z : ℝ) : HasDerivAt (fun t => 1 / (1 + ((t + m) / g) ^ 2)) (-2 * (z + m) / g ^ 2 / (1 + ((z + m) / g) ^ 2) ^ 2) z := by
  have h0 : (1 + ((z + m) / g) ^ 2) ≠ 0 := by positivity
  have h1 : HasDerivAt (fun t => 1 + ((t + m) / g) ^ 2) (2 * ((z + m) / g) * (1 / g)) z := by
    refine (((((hasDerivAt_id z).add_const m).div_const g).fun_pow 2).const_add 1).congr_deriv ?_
    simp
  refine ((hasDerivAt_const z (1 : ℝ)).fun_div h1 h0).congr_deriv ?_
  rw [div_left_inj' (pow_ne_zero 2 h0)]
  field_simp
  ring

/-- The derivative of the factor of the radial field. -/
theorem d_fac {g : ℝ} (hg : g ≠ 0) (m z : ℝ) : HasDerivAt (fun t => (t + m) / (1 + ((t + m) / g) ^ 2) ^ 2)
    (1 / (1 + ((z + m) / g) ^ 2) ^ 2 - 4 * g ^ 4 * ((z + m) ^ 2 / ((z + m) ^ 2 + g ^ 2) ^ 3)) z := by
  have h0 : (1 + ((z + m) / g) ^ 2) ≠ 0 := by positivity
  have h1 : HasDerivAt (fun t => 1 + ((t + m) / g) ^ 2) (2 * ((z + m) / g) * (1 / g)) z := by
    refine (((((hasDerivAt_id z).add_const m).div_const g).fun_pow 2).const_add 1).congr_deriv ?_
    simp
  refine (((hasDerivAt_id z).add_const m).fun_div (h1.fun_pow 2) (pow_ne_zero 2 h0)).congr_deriv ?_
  have hg2 : g ^ 2 + (z + m) ^ 2 ≠ 0 := by positivity
  have e : 1 + ((z + m) / g) ^ 2 = (g ^ 2 + (z + m) ^ 2) / g ^ 2 := by field_simp
  simp only [id, Nat.cast_ofNat, Nat.add_one_sub_one, pow_one, one_mul]
  rw [e, add_comm ((z + m) ^ 2), show 2 * ((z + m) / g) * (1 / g) = 2 * (z + m) / g ^ 2 by field_simp]
  field_simp
  ring

theorem Mirror.d_psi_Z (f : Mirror) (hg : f.gamma ≠ 0) (R Z : ℝ) : HasDerivAt (fun t => f.psi R t) (-R * f.Br R Z) Z := by
  have e1 := d_lor hg (-f.Zm) Z
  have e2 := d_lor hg f.Zm Z
  refine ((e1.fun_add e2).const_mul (R * R * f.B0 / (2 * Real.pi * f.gamma))).congr_deriv ?_
  have h1 : (1 + ((Z + -f.Zm) / f.gamma) ^ 2) ≠ 0 := by positivity
  have h2 : (1 + ((Z + f.Zm) / f.gamma) ^ 2) ≠ 0 := by positivity
  have hp := Real.pi_ne_zero
  simp only [Mirror.Br, sub_eq_add_neg]
  generalize (1 + ((Z + -f.Zm) / f.gamma) ^ 2) = a at *
  generalize (1 + ((Z + f.Zm) / f.gamma) ^ 2) = b at *
  field_simp
  ring

theorem Mirror.d_psi_R (f : Mirror) (R Z : ℝ) (hR : R ≠ 0) : HasDerivAt (fun t => f.psi t Z) (R * (f.psi R Z * 2 / R / R)) R := by
  have : HasDerivAt (fun t : ℝ => t * t) (1 * R + R * 1) R := (hasDerivAt_id R).mul (hasDerivAt_id R)
  refine (((this.mul_const f.B0).div_const _).mul_const _).congr_deriv ?_
  simp only [Mirror.psi]
  field_simp
  ring

/-- **C99.** Off the axis the mirror field has no toroidal component, and the components `B_R = -(1/R) ∂ψ/∂Z`, `B_Z = (1/R) ∂ψ/∂R`. -/
theorem C99_mirror_field (f : Mirror) (hg : f.gamma ≠ 0) (p : P3) (h : p 0 ^ 2 + p 1 ^ 2 ≠ 0) :
    let R := √(p 0 ^ 2 + p 1 ^ 2)
    f.B p 0 * -p 1 + f.B p 1 * p 0 = 0 ∧
    HasDerivAt (fun Z => f.psi R Z) (-R * (f.B p 0 * (p 0 / R) + f.B p 1 * (p 1 / R))) (p 2) ∧
    HasDerivAt (fun R' => f.psi R' (p 2)) (R * f.B p 2) R ∧
    ∀ R' Z, f.psi R' Z = R' ^ 2 * f.B0 / (2 * Real.pi * f.gamma) * ((1 + ((Z - f.Zm) / f.gamma) ^ 2)⁻¹ + (1 + ((Z + f.Zm) / f.gamma) ^ 2)⁻¹) := by
  intro R
  have hR2 : R ^ 2 = p 0 ^ 2 + p 1 ^ 2 := Real.sq_sqrt (by positivity)
  have hR0 : R ≠ 0 := fun hh => h (by rw [← hR2, hh]; ring)
  refine ⟨?_, (f.d_psi_Z hg R (p 2)).congr_deriv ?_, f.d_psi_R R (p 2) hR0, fun R' Z => ?_⟩
  · rw [f.B0_eq, f.B1_eq]; unfold Mirror.Br; ring
  · rw [f.B0_eq, f.B1_eq]
    have : f.Br (p 0) (p 2) * (p 0 / R) + f.Br (p 1) (p 2) * (p 1 / R) = f.Br ((p 0 ^ 2 + p 1 ^ 2) / R) (p 2) := by unfold Mirror.Br; ring
    rw [this, ← hR2, pow_two, mul_div_assoc, div_self hR0, mul_one]
  · unfold Mirror.psi
    simp only [one_div, pow_two]

/-- **C99.** `MirrorModel.dB_by_dX` is the array of first derivatives of `B`, at every point off the axis; the field has no divergence. -/
theorem C99_mirror_dB (f : Mirror) (hg : f.gamma ≠ 0) (p : P3) (h : p 0 ^ 2 + p 1 ^ 2 ≠ 0) : IsJacobian f.B p (f.dB p) ∧ dive (f.dB p) = 0 := by
  have hR2 : √(p 0 ^ 2 + p 1 ^ 2) ^ 2 = p 0 ^ 2 + p 1 ^ 2 := Real.sq_sqrt (by positivity)
  have hR0 : √(p 0 ^ 2 + p 1 ^ 2) ≠ 0 := fun hh => h (by rw [← hR2, hh]; ring)
  have hc : Real.cos (arctan2 (p 1) (p 0)) = p 0 / √(p 0 ^ 2 + p 1 ^ 2) := cos_arctan2 h
  have hs : Real.sin (arctan2 (p 1) (p 0)) = p 1 / √(p 0 ^ 2 + p 1 ^ 2) := sin_arctan2 _ _
  have dz : ∀ c : ℝ, HasDerivAt (fun t => f.Br c t) (c * f.B0 / (Real.pi * f.gamma ^ 3) * (1 / (1 + ((p 2 - f.Zm) / f.gamma) ^ 2) ^ 2 + 1 / (1 + ((p 2 + f.Zm) / f.gamma) ^ 2) ^ 2
      - 4 * f.gamma ^ 4 * ((p 2 - f.Zm) ^ 2 / ((p 2 - f.Zm) ^ 2 + f.gamma ^ 2) ^ 3 + (p 2 + f.Zm) ^ 2 / ((p 2 + f.Zm) ^ 2 + f.gamma ^ 2) ^ 3))) (p 2) := fun c => by
    have e1 := d_fac hg (-f.Zm) (p 2)
    have e2 := d_fac hg f.Zm (p 2)
    simp only [← sub_eq_add_neg] at e1
    refine ((e1.fun_add e2).const_mul (c * f.B0 / (Real.pi * f.gamma ^ 3))).congr_deriv ?_
    ring
  have dr : ∀ x, HasDerivAt (fun t => f.Br t (p 2)) (f.Br 1 (p 2)) x := fun x => by
    refine ((((hasDerivAt_id x).mul_const f.B0).div_const _).mul_const _).congr_deriv ?_
    rfl
  have hlin : ∀ c, f.Br c (p 2) = c * f.Br 1 (p 2) := fun c => by unfold Mirror.Br; ring
  have hBr1 : (f.B0 / (Real.pi * f.gamma ^ 3)) * ((p 2 - f.Zm) / (1 + ((p 2 - f.Zm) / f.gamma) ^ 2) ^ 2 + (p 2 + f.Zm) / (1 + ((p 2 + f.Zm) / f.gamma) ^ 2) ^ 2) = f.Br 1 (p 2) := by unfold Mirror.Br; ring
  have psiz : ∀ (R Z : ℝ), R ≠ 0 → f.psi R Z * 2 / R / R = f.psi 1 Z * 2 := fun R Z hR => by unfold Mirror.psi; field_simp
  constructor
  · refine isJacobian_of (F0 := fun x _ z => f.Br x z) (F1 := fun _ y z => f.Br y z) (F2 := fun x y z => f.psi (√(x ^ 2 + y ^ 2)) z * 2 / √(x ^ 2 + y ^ 2) / √(x ^ 2 + y ^ 2))
      f.B0_eq f.B1_eq (fun _ => rfl) ?_ ?_ ?_ ?_ ?_ ?_ ?_ ?_ ?_
    · refine (dr _).congr_deriv ?_
      simp only [Mirror.dB, Matrix.cons_val, hc, hBr1, hlin (√(p 0 ^ 2 + p 1 ^ 2))]
      field_simp
      ring
    · refine (hasDerivAt_const _ _).congr_deriv ?_
      simp only [Mirror.dB, Matrix.cons_val, hc, hBr1, hlin (√(p 0 ^ 2 + p 1 ^ 2))]
      field_simp
      ring
    · refine (dz _).congr_deriv ?_
      simp only [Mirror.dB, Matrix.cons_val, hc]
      field_simp
    · refine (hasDerivAt_const _ _).congr_deriv ?_
      simp only [Mirror.dB, Matrix.cons_val, hs, hBr1, hlin (√(p 0 ^ 2 + p 1 ^ 2))]
      field_simp
      ring
    · refine (dr _).congr_deriv ?_
      simp only [Mirror.dB, Matrix.cons_val, hs, hBr1, hlin (√(p 0 ^ 2 + p 1 ^ 2))]
      field_simp
      ring
    · refine (dz _).congr_deriv ?_
      simp only [Mirror.dB, Matrix.cons_val, hs]
      field_simp
    · refine HasDerivAt.congr_of_eventuallyEq (f := fun _ => f.psi 1 (p 2) * 2) (hasDerivAt_const _ _) ((off_axis_x h).mono fun t ht => ?_)
      exact psiz _ _ (Real.sqrt_ne_zero'.mpr (by positivity))
    · refine HasDerivAt.congr_of_eventuallyEq (f := fun _ => f.psi 1 (p 2) * 2) (hasDerivAt_const _ _) ((off_axis_y h).mono fun t ht => ?_)
      exact psiz _ _ (Real.sqrt_ne_zero'.mpr (by positivity))
    · simp only [psiz _ _ hR0]
      refine ((f.d_psi_Z hg 1 (p 2)).mul_const 2).congr_deriv ?_
      simp only [Mirror.dB, Matrix.cons_val, hBr1]
      ring
  · simp only [dive, Mirror.dB, Matrix.cons_val, hc, hs, hBr1, hlin (√(p 0 ^ 2 + p 1 ^ 2))]
    have : ∀ R : ℝ, R ≠ 0 → R ^ 2 = p 0 ^ 2 + p 1 ^ 2 → f.Br 1 (p 2) * (p 0 / R) * (p 0 / R) + R * f.Br 1 (p 2) * (-p 0 ^ 2 / R ^ 3 + 1 / R) + (f.Br 1 (p 2) * (p 1 / R) * (p 1 / R) + R * f.Br 1 (p 2) * (-p 1 ^ 2 / R ^ 3 + 1 / R)) + -2 * f.Br 1 (p 2) = 0 := by
      intro R h0 _
      field_simp
      ring
    exact this _ hR0 hR2

example : (1 : ℝ) ≠ 0 ∧ (![1, 2, 3] : P3) 0 ^ 2 + (![1, 2, 3] : P3) 1 ^ 2 ≠ 0 := by norm_num

end Simsopt.Fields
