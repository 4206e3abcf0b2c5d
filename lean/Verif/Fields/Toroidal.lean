import Verif.Fields.Lemmas
/-!
# ToroidalField
-/
namespace Simsopt.Fields

theorem Toroidal.B0_eq (f : Toroidal) (p : P3) : f.B p 0 = f.B0 * f.R0 * (-(p 1) / (p 0 ^ 2 + p 1 ^ 2)) := by
  show f.B0 * f.R0 * (-Real.sin (arctan2 (p 1) (p 0)) / √(p 0 ^ 2 + p 1 ^ 2)) = _
  rw [neg_div, sin_div, neg_div]

theorem Toroidal.B1_eq (f : Toroidal) (p : P3) : f.B p 1 = f.B0 * f.R0 * (p 0 / (p 0 ^ 2 + p 1 ^ 2)) := by
  show f.B0 * f.R0 * (Real.cos (arctan2 (p 1) (p 0)) / √(p 0 ^ 2 + p 1 ^ 2)) = _
  rw [cos_div]

theorem Toroidal.B2_eq (f : Toroidal) (p : P3) : f.B p 2 = 0 := by
  show f.B0 * f.R0 * 0 = _
  rw [mul_zero]

/-- **C99.** Off the axis the field is `B0 R0 / R` times the unit vector in the direction of increasing toroidal angle. -/
theorem C99_toroidal_field (f : Toroidal) (p : P3) (h : p 0 ^ 2 + p 1 ^ 2 ≠ 0) :
    let R := √(p 0 ^ 2 + p 1 ^ 2)
    f.B p = fun l => (f.B0 * f.R0 / R) * ![-(p 1 / R), p 0 / R, 0] l := by
  intro R
  have hR : R * R = p 0 ^ 2 + p 1 ^ 2 := Real.mul_self_sqrt (by positivity)
  have hR0 : R ≠ 0 := fun hh => h (by rw [← hR, hh, mul_zero])
  funext l
  fin_cases l
  · show f.B p 0 = _ * -(p 1 / R)
    rw [f.B0_eq, ← hR]; field_simp
  · show f.B p 1 = _ * (p 0 / R)
    rw [f.B1_eq, ← hR]; field_simp
  · show f.B p 2 = _ * 0
    rw [f.B2_eq, mul_zero]

theorem R4 (x y : ℝ) : √(x ^ 2 + y ^ 2) ^ 4 = (x ^ 2 + y ^ 2) ^ 2 := by
  have : √(x ^ 2 + y ^ 2) ^ 4 = (√(x ^ 2 + y ^ 2) * √(x ^ 2 + y ^ 2)) ^ 2 := by ring
  rw [this, Real.mul_self_sqrt (by positivity)]

/-- **C99.** `ToroidalField.dB_by_dX` is the array of first derivatives of `B`, at every point off the axis. -/
theorem C99_toroidal_dB (f : Toroidal) (p : P3) (h : p 0 ^ 2 + p 1 ^ 2 ≠ 0) : IsJacobian f.B p (f.dB p) := by
  refine isJacobian_of (F0 := fun x y _ => f.B0 * f.R0 * (-1 * y / (x ^ 2 + y ^ 2))) (F1 := fun x y _ => f.B0 * f.R0 * (x / (x ^ 2 + y ^ 2))) (F2 := fun _ _ _ => 0)
    (fun q => by rw [f.B0_eq, neg_one_mul]) f.B1_eq f.B2_eq ?_ ?_ ?_ ?_ ?_ ?_ ?_ ?_ ?_
  · refine (((hasDerivAt_const (p 0) (-1 * (p 1))).div (d_x _ _) h).const_mul (f.B0 * f.R0)).congr_deriv ?_
    show _ = f.B0 * f.R0 / √(p 0 ^ 2 + p 1 ^ 2) ^ 4 * (2 * (p 0 * p 1))
    rw [R4]; field_simp; ring
  · refine ((((hasDerivAt_id (p 1)).const_mul (-1)).div (d_y _ _) h).const_mul (f.B0 * f.R0)).congr_deriv ?_
    show _ = f.B0 * f.R0 / √(p 0 ^ 2 + p 1 ^ 2) ^ 4 * (p 1 ^ 2 - p 0 ^ 2)
    rw [R4]; simp only [id]; field_simp; ring
  · refine (hasDerivAt_const _ _).congr_deriv ?_
    show 0 = 0 * √(p 0 ^ 2 + p 1 ^ 2)
    ring
  · refine (((hasDerivAt_id (p 0)).div (d_x _ _) h).const_mul (f.B0 * f.R0)).congr_deriv ?_
    show _ = f.B0 * f.R0 / √(p 0 ^ 2 + p 1 ^ 2) ^ 4 * (p 1 ^ 2 - p 0 ^ 2)
    rw [R4]; simp only [id]; field_simp; ring
  · refine (((hasDerivAt_const (p 1) (p 0)).div (d_y _ _) h).const_mul (f.B0 * f.R0)).congr_deriv ?_
    show _ = f.B0 * f.R0 / √(p 0 ^ 2 + p 1 ^ 2) ^ 4 * (-2 * (p 0 * p 1))
    rw [R4]; field_simp; ring
  · refine (hasDerivAt_const _ _).congr_deriv ?_
    show 0 = 0 * √(p 0 ^ 2 + p 1 ^ 2)
    ring
  all_goals
    refine (hasDerivAt_const _ _).congr_deriv ?_
    show 0 = 0 * √(p 0 ^ 2 + p 1 ^ 2)
    ring

/-- **C99.** The toroidal field has no divergence and no curl. -/
theorem C99_toroidal_vacuum (f : Toroidal) (p : P3) : dive (f.dB p) = 0 ∧ curl (f.dB p) = 0 := by
  constructor
  · simp only [dive, Toroidal.dB, transp2, Matrix.cons_val]
    ring
  · funext l
    fin_cases l <;> simp [curl, Toroidal.dB, transp2]

/-- The first derivatives of the vector potential, in the documented order. -/
noncomputable def Toroidal.jacA (f : Toroidal) (p : P3) : T2 :=
  let x := p 0
  let y := p 1
  let z := p 2
  let q := x ^ 2 + y ^ 2
  fun j l => f.B0 * f.R0 * (![
    ![z * (y ^ 2 - x ^ 2) / q ^ 2, -2 * z * x * y / q ^ 2, 0],
    ![-2 * z * x * y / q ^ 2, z * (x ^ 2 - y ^ 2) / q ^ 2, 0],
    ![x / q, y / q, 0]] : T2) j l

theorem Toroidal.jacA_spec (f : Toroidal) (p : P3) (h : p 0 ^ 2 + p 1 ^ 2 ≠ 0) : IsJacobian f.A p (f.jacA p) := by
  refine isJacobian_of (F0 := fun x y z => f.B0 * f.R0 * (z * x / (x ^ 2 + y ^ 2))) (F1 := fun x y z => f.B0 * f.R0 * (z * y / (x ^ 2 + y ^ 2))) (F2 := fun _ _ z => f.B0 * f.R0 * (0 * z))
    (fun _ => rfl) (fun _ => rfl) (fun _ => rfl) ?_ ?_ ?_ ?_ ?_ ?_ ?_ ?_ ?_
  · refine ((((hasDerivAt_id (p 0)).const_mul (p 2)).div (d_x _ _) h).const_mul (f.B0 * f.R0)).congr_deriv ?_
    show _ = f.B0 * f.R0 * (p 2 * (p 1 ^ 2 - p 0 ^ 2) / (p 0 ^ 2 + p 1 ^ 2) ^ 2)
    simp only [id]; field_simp; ring
  · refine (((hasDerivAt_const (p 1) (p 2 * p 0)).div (d_y _ _) h).const_mul (f.B0 * f.R0)).congr_deriv ?_
    show _ = f.B0 * f.R0 * (-2 * p 2 * p 0 * p 1 / (p 0 ^ 2 + p 1 ^ 2) ^ 2)
    field_simp; ring
  · refine ((((hasDerivAt_id (p 2)).mul_const (p 0)).div_const _).const_mul (f.B0 * f.R0)).congr_deriv ?_
    show _ = f.B0 * f.R0 * (p 0 / (p 0 ^ 2 + p 1 ^ 2))
    ring
  · refine (((hasDerivAt_const (p 0) (p 2 * p 1)).div (d_x _ _) h).const_mul (f.B0 * f.R0)).congr_deriv ?_
    show _ = f.B0 * f.R0 * (-2 * p 2 * p 0 * p 1 / (p 0 ^ 2 + p 1 ^ 2) ^ 2)
    field_simp; ring
  · refine ((((hasDerivAt_id (p 1)).const_mul (p 2)).div (d_y _ _) h).const_mul (f.B0 * f.R0)).congr_deriv ?_
    show _ = f.B0 * f.R0 * (p 2 * (p 0 ^ 2 - p 1 ^ 2) / (p 0 ^ 2 + p 1 ^ 2) ^ 2)
    simp only [id]; field_simp; ring
  · refine ((((hasDerivAt_id (p 2)).mul_const (p 1)).div_const _).const_mul (f.B0 * f.R0)).congr_deriv ?_
    show _ = f.B0 * f.R0 * (p 1 / (p 0 ^ 2 + p 1 ^ 2))
    ring
  · refine (hasDerivAt_const (p 0) _).congr_deriv ?_
    show 0 = f.B0 * f.R0 * 0
    ring
  · refine (hasDerivAt_const (p 1) _).congr_deriv ?_
    show 0 = f.B0 * f.R0 * 0
    ring
  · refine (((hasDerivAt_id (p 2)).const_mul 0).const_mul (f.B0 * f.R0)).congr_deriv ?_
    show f.B0 * f.R0 * (0 * 1) = f.B0 * f.R0 * 0
    ring

/-- **C99.** `ToroidalField.A` is a vector potential of `B`: off the axis it has first derivatives, and their curl is `B`. -/
theorem C99_toroidal_A (f : Toroidal) (p : P3) (h : p 0 ^ 2 + p 1 ^ 2 ≠ 0) : ∃ D, IsJacobian f.A p D ∧ curl D = f.B p := by
  refine ⟨f.jacA p, f.jacA_spec p h, ?_⟩
  funext l
  fin_cases l
  · show f.B0 * f.R0 * 0 - f.B0 * f.R0 * (p 1 / (p 0 ^ 2 + p 1 ^ 2)) = f.B p 0
    rw [f.B0_eq]; ring
  · show f.B0 * f.R0 * (p 0 / (p 0 ^ 2 + p 1 ^ 2)) - f.B0 * f.R0 * 0 = f.B p 1
    rw [f.B1_eq]; ring
  · show f.B0 * f.R0 * (-2 * p 2 * p 0 * p 1 / (p 0 ^ 2 + p 1 ^ 2) ^ 2) - f.B0 * f.R0 * (-2 * p 2 * p 0 * p 1 / (p 0 ^ 2 + p 1 ^ 2) ^ 2) = f.B p 2
    rw [f.B2_eq]; ring

/-- **C99.** What `ToroidalField.dA_by_dX` is off the plane z = 0: the first derivatives of `A` with the two indices exchanged, `dA[p, i, j]` = ∂_i A_j only if i, j < 2. -/
theorem C99_toroidal_dA_partial (f : Toroidal) (p : P3) (h : p 0 ^ 2 + p 1 ^ 2 ≠ 0) (hz : p 2 ≠ 0) : IsJacobian f.A p (fun j l => f.dA p l j) := by
  have e : (fun j l => f.dA p l j) = f.jacA p := by
    funext j l
    fin_cases j <;> fin_cases l <;> simp only [Toroidal.dA, Toroidal.jacA, transp2, Fin.zero_eta, Fin.mk_one, Fin.reduceFinMk, Matrix.cons_val] <;> field_simp <;> ring
  rw [e]
  exact f.jacA_spec p h

theorem Jacobian_unique {F : P3 → P3} {p : P3} {D D' : T2} (h : IsJacobian F p D) (h' : IsJacobian F p D') : D = D' := by
  funext j l
  exact (h j l).unique (h' j l)

/-- **C99.** `ToroidalField.dA_by_dX` does not follow the documented order of the indices: wherever the field is not zero and x or y and z are not, it is not the array of first derivatives of `A`. -/
theorem C99_toroidal_dA_violated (f : Toroidal) (p : P3) (h : p 0 ^ 2 + p 1 ^ 2 ≠ 0) (hz : p 2 ≠ 0) (hf : f.B0 * f.R0 ≠ 0) : ¬IsJacobian f.A p (f.dA p) := by
  intro hj
  have e := Jacobian_unique hj (C99_toroidal_dA_partial f p h hz)
  have j0 := Jacobian_unique (f.jacA_spec p h) hj
  have e0 : f.jacA p 2 0 = f.jacA p 0 2 := by
    rw [j0]; exact congrFun (congrFun e 2) 0
  have e1 : f.jacA p 2 1 = f.jacA p 1 2 := by
    rw [j0]; exact congrFun (congrFun e 2) 1
  replace e0 : f.B0 * f.R0 * (p 0 / (p 0 ^ 2 + p 1 ^ 2)) = f.B0 * f.R0 * 0 := e0
  replace e1 : f.B0 * f.R0 * (p 1 / (p 0 ^ 2 + p 1 ^ 2)) = f.B0 * f.R0 * 0 := e1
  have hx := (div_eq_zero_iff.mp (mul_left_cancel₀ hf e0)).resolve_right h
  have hy := (div_eq_zero_iff.mp (mul_left_cancel₀ hf e1)).resolve_right h
  exact h (by rw [hx, hy]; simp)

example : ¬IsJacobian (Toroidal.A ⟨1, 1⟩) ![1, 0, 1] (Toroidal.dA ⟨1, 1⟩ ![1, 0, 1]) :=
  C99_toroidal_dA_violated _ _ (by simp) (by simp) (by simp)

/-- The second derivatives of the field. -/
noncomputable def Toroidal.hessB (f : Toroidal) (p : P3) : T3 :=
  let x := p 0
  let y := p 1
  fun j k l => 2 * f.B0 * f.R0 / (x ^ 2 + y ^ 2) ^ 3 * (![
    ![![y ^ 3 - 3 * x ^ 2 * y, x ^ 3 - 3 * x * y ^ 2, 0], ![x ^ 3 - 3 * x * y ^ 2, 3 * x ^ 2 * y - y ^ 3, 0], ![0, 0, 0]],
    ![![x ^ 3 - 3 * x * y ^ 2, 3 * x ^ 2 * y - y ^ 3, 0], ![3 * x ^ 2 * y - y ^ 3, -x ^ 3 + 3 * x * y ^ 2, 0], ![0, 0, 0]],
    ![![0, 0, 0], ![0, 0, 0], ![0, 0, 0]]] : T3) j k l

theorem isHessian_of {F : P3 → P3} (dF : P3 → T2) (hF : ∀ q : P3, q 0 ^ 2 + q 1 ^ 2 ≠ 0 → IsJacobian F q (dF q)) {p : P3} {H : T3} (h : ∀ j, IsJacobian (fun q => dF q j) p (fun k l => H j k l)) : IsHessian F p H :=
  ⟨dF, hF, fun j k l => h j k l⟩

theorem Toroidal.hessB_spec (f : Toroidal) (p : P3) (h : p 0 ^ 2 + p 1 ^ 2 ≠ 0) : IsHessian f.B p (f.hessB p) := by
  refine isHessian_of f.dB (fun q hq => C99_toroidal_dB f q hq) fun j => ?_
  set c := f.B0 * f.R0 with hc
  have hq2 : (p 0 ^ 2 + p 1 ^ 2) ^ 2 ≠ 0 := pow_ne_zero _ h
  have gx : HasDerivAt (fun t => c / (t ^ 2 + p 1 ^ 2) ^ 2) (-4 * c * p 0 / (p 0 ^ 2 + p 1 ^ 2) ^ 3) (p 0) := by
    refine ((hasDerivAt_const (p 0) c).div ((d_x (p 0) (p 1)).pow 2) hq2).congr_deriv ?_
    simp only [Pi.pow_apply, Nat.cast_ofNat, Nat.add_one_sub_one, pow_one]
    field_simp; ring
  have gy : HasDerivAt (fun t => c / (p 0 ^ 2 + t ^ 2) ^ 2) (-4 * c * p 1 / (p 0 ^ 2 + p 1 ^ 2) ^ 3) (p 1) := by
    refine ((hasDerivAt_const (p 1) c).div ((d_y (p 0) (p 1)).pow 2) hq2).congr_deriv ?_
    simp only [Pi.pow_apply, Nat.cast_ofNat, Nat.add_one_sub_one, pow_one]
    field_simp; ring
  have ax : HasDerivAt (fun t => 2 * (t * p 1)) (2 * (1 * p 1)) (p 0) := ((hasDerivAt_id (p 0)).mul_const _).const_mul 2
  have ay : HasDerivAt (fun t => 2 * (p 0 * t)) (2 * (p 0 * 1)) (p 1) := ((hasDerivAt_id (p 1)).const_mul _).const_mul 2
  have bx : HasDerivAt (fun t => p 1 ^ 2 - t ^ 2) (-(2 * p 0)) (p 0) := ((d_sq (p 0)).fun_neg.const_add (p 1 ^ 2)).congr_deriv rfl
  have by' : HasDerivAt (fun t => t ^ 2 - p 0 ^ 2) (2 * p 1) (p 1) := (d_sq (p 1)).sub_const _
  fin_cases j
  · refine isJacobian_of (F0 := fun x y _ => c / (x ^ 2 + y ^ 2) ^ 2 * (2 * (x * y))) (F1 := fun x y _ => c / (x ^ 2 + y ^ 2) ^ 2 * (y ^ 2 - x ^ 2)) (F2 := fun _ _ _ => 0)
      (fun q => by simp [Toroidal.dB, transp2, R4, hc]) (fun q => by simp [Toroidal.dB, transp2, R4, hc]) (fun q => by simp [Toroidal.dB, transp2]) ?_ ?_ ?_ ?_ ?_ ?_ ?_ ?_ ?_
    · exact (gx.mul ax).congr_deriv (by simp only [Toroidal.hessB, hc, Fin.zero_eta, Matrix.cons_val]; field_simp; ring)
    · exact (gy.mul ay).congr_deriv (by simp only [Toroidal.hessB, hc, Fin.zero_eta, Matrix.cons_val]; field_simp; ring)
    · exact (hasDerivAt_const _ _).congr_deriv (by simp [Toroidal.hessB])
    · exact (gx.mul bx).congr_deriv (by simp only [Toroidal.hessB, hc, Fin.zero_eta, Matrix.cons_val]; field_simp; ring)
    · exact (gy.mul by').congr_deriv (by simp only [Toroidal.hessB, hc, Fin.zero_eta, Matrix.cons_val]; field_simp; ring)
    · exact (hasDerivAt_const _ _).congr_deriv (by simp [Toroidal.hessB])
    all_goals exact (hasDerivAt_const _ _).congr_deriv (by simp [Toroidal.hessB])
  · refine isJacobian_of (F0 := fun x y _ => c / (x ^ 2 + y ^ 2) ^ 2 * (y ^ 2 - x ^ 2)) (F1 := fun x y _ => c / (x ^ 2 + y ^ 2) ^ 2 * (2 * (x * y)) * (-1)) (F2 := fun _ _ _ => 0)
      (fun q => by simp [Toroidal.dB, transp2, R4, hc]) (fun q => by simp [Toroidal.dB, transp2, R4, hc]) (fun q => by simp [Toroidal.dB, transp2]) ?_ ?_ ?_ ?_ ?_ ?_ ?_ ?_ ?_
    · exact (gx.mul bx).congr_deriv (by simp only [Toroidal.hessB, hc, Fin.mk_one, Matrix.cons_val]; field_simp; ring)
    · exact (gy.mul by').congr_deriv (by simp only [Toroidal.hessB, hc, Fin.mk_one, Matrix.cons_val]; field_simp; ring)
    · exact (hasDerivAt_const _ _).congr_deriv (by simp [Toroidal.hessB])
    · exact ((gx.mul ax).mul_const (-1)).congr_deriv (by simp only [Toroidal.hessB, hc, Fin.mk_one, Matrix.cons_val]; field_simp; ring)
    · exact ((gy.mul ay).mul_const (-1)).congr_deriv (by simp only [Toroidal.hessB, hc, Fin.mk_one, Matrix.cons_val]; field_simp; ring)
    · exact (hasDerivAt_const _ _).congr_deriv (by simp [Toroidal.hessB])
    all_goals exact (hasDerivAt_const _ _).congr_deriv (by simp [Toroidal.hessB])
  · refine isJacobian_of (F0 := fun _ _ _ => 0) (F1 := fun _ _ _ => 0) (F2 := fun _ _ _ => 0)
      (fun q => by simp [Toroidal.dB, transp2]) (fun q => by simp [Toroidal.dB, transp2]) (fun q => by simp [Toroidal.dB, transp2]) ?_ ?_ ?_ ?_ ?_ ?_ ?_ ?_ ?_
    all_goals exact (hasDerivAt_const _ _).congr_deriv (by simp [Toroidal.hessB])

/-- Second derivatives are unique off the axis. -/
theorem Hessian_unique {F : P3 → P3} {p : P3} (hp : p 0 ^ 2 + p 1 ^ 2 ≠ 0) {H H' : T3} (h : IsHessian F p H) (h' : IsHessian F p H') : H = H' := by
  obtain ⟨d, hd, hh⟩ := h
  obtain ⟨d', hd', hh'⟩ := h'
  funext j k l
  refine (hh j k l).unique ((hh' j k l).congr_of_eventuallyEq ?_)
  have hc : ContinuousAt (fun t => (Function.update p k t) 0 ^ 2 + (Function.update p k t) 1 ^ 2) (p k) := by
    have hcu : ∀ i, Continuous fun t => Function.update p k t i := fun i => by fun_prop
    exact (((hcu 0).pow 2).add ((hcu 1).pow 2)).continuousAt
  have hne : (fun t => (Function.update p k t) 0 ^ 2 + (Function.update p k t) 1 ^ 2) (p k) ≠ 0 := by
    simp only [Function.update_eq_self]; exact hp
  filter_upwards [hc.eventually_ne hne] with t ht
  exact congrFun (congrFun (Jacobian_unique (hd _ ht) (hd' _ ht)) j) l

/-- **C99.** All the entries of `ToroidalField.d2B_by_dXdX` but the first one are the second derivatives of `B`. -/
theorem C99_toroidal_d2B_partial (f : Toroidal) (p : P3) (h : p 0 ^ 2 + p 1 ^ 2 ≠ 0) :
    ∃ H, IsHessian f.B p H ∧ ∀ j k l, ¬(j = 0 ∧ k = 0 ∧ l = 0) → f.ddB p j k l = H j k l := by
  refine ⟨f.hessB p, f.hessB_spec p h, fun j k l hn => ?_⟩
  fin_cases j <;> fin_cases k <;> fin_cases l <;>
    first
    | (exfalso; exact hn ⟨rfl, rfl, rfl⟩)
    | (simp only [Toroidal.ddB, Toroidal.hessB, transp3, Fin.zero_eta, Fin.mk_one, Fin.reduceFinMk, Matrix.cons_val]; ring)

/-- **C99.** The first entry of `ToroidalField.d2B_by_dXdX` is not the second derivative of `B_x` in x: at (1, 0, z) it should be 0 and is 6 B0 R0. -/
theorem C99_toroidal_d2B_violated (f : Toroidal) (hf : f.B0 * f.R0 ≠ 0) (z : ℝ) : ¬IsHessian f.B ![1, 0, z] (f.ddB ![1, 0, z]) := by
  intro hh
  have hp : (![1, 0, z] : P3) 0 ^ 2 + (![1, 0, z] : P3) 1 ^ 2 ≠ 0 := by simp
  have e := congrFun (congrFun (congrFun (Hessian_unique hp hh (f.hessB_spec _ hp)) 0) 0) 0
  simp [Toroidal.ddB, Toroidal.hessB, transp3] at e
  rcases e with e | e
  · exact hf (by rw [e]; simp)
  · exact hf (by rw [e]; simp)

/-- **C99.** `ToroidalField.d2A_by_dXdX` puts the component first: its entry [0, 1, 2], which should be ∂_y ∂_x A_z = 0, is ∂_z ∂_y A_x. -/
theorem C99_toroidal_d2A_violated (f : Toroidal) (p : P3) (h : p 0 ^ 2 + p 1 ^ 2 ≠ 0) (hz : p 2 ≠ 0) (hxy : p 0 * p 1 ≠ 0) (hf : f.B0 * f.R0 ≠ 0) : ¬IsHessian f.A p (f.ddA p) := by
  rintro ⟨d, hd, hh⟩
  have h2 : ∀ q : P3, q 0 ^ 2 + q 1 ^ 2 ≠ 0 → d q 0 2 = 0 := fun q hq => by
    rw [Jacobian_unique (hd q hq) (f.jacA_spec q hq)]
    simp [Toroidal.jacA]
  have h1 := hh 0 1 2
  have hc : ContinuousAt (fun t => (Function.update p 1 t) 0 ^ 2 + (Function.update p 1 t) 1 ^ 2) (p 1) := by
    have hcu : ∀ i, Continuous fun t => Function.update p 1 t i := fun i => by fun_prop
    exact (((hcu 0).pow 2).add ((hcu 1).pow 2)).continuousAt
  have hne : (fun t => (Function.update p 1 t) 0 ^ 2 + (Function.update p 1 t) 1 ^ 2) (p 1) ≠ 0 := by
    simp only [Function.update_eq_self]; exact h
  have h0 : HasDerivAt (fun t => d (Function.update p 1 t) 0 2) 0 (p 1) := by
    refine (hasDerivAt_const (p 1) (0 : ℝ)).congr_of_eventuallyEq ?_
    filter_upwards [hc.eventually_ne hne] with t ht
    exact h2 _ ht
  have e := h1.unique h0
  replace e : 2 * f.B0 * f.R0 * (p 2 / (p 0 ^ 2 + p 1 ^ 2) ^ 3 * (-p 0 * p 1 * (p 0 ^ 2 + p 1 ^ 2) / p 2)) = 0 := e
  have e' : 2 * f.B0 * f.R0 * (p 2 / (p 0 ^ 2 + p 1 ^ 2) ^ 3 * (-p 0 * p 1 * (p 0 ^ 2 + p 1 ^ 2) / p 2)) = -(2 * (f.B0 * f.R0) * (p 0 * p 1)) / (p 0 ^ 2 + p 1 ^ 2) ^ 2 := by
    field_simp
  rw [e', div_eq_zero_iff, neg_eq_zero] at e
  rcases e with e | e
  · exact (mul_ne_zero (mul_ne_zero two_ne_zero hf) hxy) e
  · exact pow_ne_zero 2 h e

example : ¬IsHessian (Toroidal.A ⟨1, 1⟩) ![1, 1, 1] (Toroidal.ddA ⟨1, 1⟩ ![1, 1, 1]) :=
  C99_toroidal_d2A_violated _ _ (by norm_num) (by simp) (by simp) (by simp)

end Simsopt.Fields
