import Verif.Fields.CoilDeriv
/-!
# Circular coil: properties
-/
namespace Simsopt.Fields
open Elliptic

/-! ## The rotation -/

theorem sin_half_sq (x : ℝ) : Real.sin (x / 2) ^ 2 = (1 - Real.cos x) / 2 := by
  have h := Real.cos_sq (x / 2)
  have h2 := Real.sin_sq_add_cos_sq (x / 2)
  rw [show 2 * (x / 2) = x by ring] at h
  linarith

/-- The unit normal. -/
noncomputable def Coil.n (c : Coil) : P3 := ![Real.sin c.phi * Real.cos c.theta, Real.sin c.phi * Real.sin c.theta, Real.cos c.phi]

/-- **C100.** `_rotmat` is a rotation: its transpose is its inverse, and its determinant is 1. -/
theorem C100_rotation (c : Coil) :
    (∀ i j, c.rotmat i 0 * c.rotmat j 0 + c.rotmat i 1 * c.rotmat j 1 + c.rotmat i 2 * c.rotmat j 2 = if i = j then 1 else 0) ∧
    (∀ i j, c.rotmat 0 i * c.rotmat 0 j + c.rotmat 1 i * c.rotmat 1 j + c.rotmat 2 i * c.rotmat 2 j = if i = j then 1 else 0) ∧
    c.rotmat 0 0 * (c.rotmat 1 1 * c.rotmat 2 2 - c.rotmat 1 2 * c.rotmat 2 1) - c.rotmat 0 1 * (c.rotmat 1 0 * c.rotmat 2 2 - c.rotmat 1 2 * c.rotmat 2 0)
      + c.rotmat 0 2 * (c.rotmat 1 0 * c.rotmat 2 1 - c.rotmat 1 1 * c.rotmat 2 0) = 1 := by
  have h1 := Real.sin_sq_add_cos_sq c.theta
  have h2 := Real.sin_sq_add_cos_sq c.phi
  have e2 : Real.sin (2 * c.theta) = 2 * Real.sin c.theta * Real.cos c.theta := Real.sin_two_mul _
  have e1 := sin_half_sq c.phi
  refine ⟨fun i j => ?_, fun i j => ?_, ?_⟩
  · fin_cases i <;> fin_cases j <;> simp only [Coil.rotmat, e1, e2, Fin.zero_eta, Fin.mk_one, Fin.reduceFinMk, Matrix.cons_val, Fin.isValue, if_true, Fin.reduceEq, zero_ne_one, one_ne_zero, if_false] <;> grind
  · fin_cases i <;> fin_cases j <;> simp only [Coil.rotmat, e1, e2, Fin.zero_eta, Fin.mk_one, Fin.reduceFinMk, Matrix.cons_val, Fin.isValue, if_true, Fin.reduceEq, zero_ne_one, one_ne_zero, if_false] <;> grind
  · simp only [Coil.rotmat, e1, e2, Matrix.cons_val]
    grind

/-- **C100.** The rotation takes the z direction to the normal: with spherical angles it is (cos θ sin φ, sin θ sin φ, cos φ), with a vector its direction, whatever its length. -/
theorem C100_normal (c : Coil) :
    (∀ i, c.rotmat i 2 = c.n i) ∧
    (∀ th ph, c.normal = .angles th ph → c.n = ![Real.cos th * Real.sin ph, Real.sin th * Real.sin ph, Real.cos ph]) ∧
    (∀ x y z, c.normal = .vec x y z → (x, y, z) ≠ (0, 0, 0) → ∀ i, √(x ^ 2 + y ^ 2 + z ^ 2) * c.n i = (![x, y, z] : P3) i) := by
  refine ⟨fun i => ?_, fun th ph h => ?_, fun x y z h hne i => ?_⟩
  · fin_cases i <;> simp [Coil.rotmat, Coil.n, mul_comm]
  · simp [Coil.n, Coil.theta, Coil.phi, h, mul_comm]
  · have hth : c.theta = arctan2 y x := by simp [Coil.theta, h]
    have hph : c.phi = arctan2 (√(x ^ 2 + y ^ 2)) z := by simp [Coil.phi, h]
    have hs : √(x ^ 2 + y ^ 2 + z ^ 2) = √(z ^ 2 + √(x ^ 2 + y ^ 2) ^ 2) := by
      rw [Real.sq_sqrt (by positivity)]; congr 1; ring
    have h1 := r_mul_sin (√(x ^ 2 + y ^ 2)) z
    have h2 := r_mul_cos (√(x ^ 2 + y ^ 2)) z
    have h3 := r_mul_sin y x
    have h4 := r_mul_cos y x
    rw [← hs, ← hph] at h1 h2
    rw [← hth] at h3 h4
    fin_cases i
    · show √(x ^ 2 + y ^ 2 + z ^ 2) * (Real.sin c.phi * Real.cos c.theta) = x
      rw [← mul_assoc, h1, h4]
    · show √(x ^ 2 + y ^ 2 + z ^ 2) * (Real.sin c.phi * Real.sin c.theta) = y
      rw [← mul_assoc, h1, h3]
    · exact h2

/-- **C100.** The property `I` is the current given to the constructor. -/
theorem C100_current (r0 : ℝ) (center : P3) (I : ℝ) (normal : Normal) : (Coil.new r0 center I normal).I = I := by
  simp only [Coil.new, Coil.I]
  norm_num
  ring

/-! ## The field on the axis -/

theorem loc_axis (r0 s : ℝ) (h0 : 0 < r0) : (loc r0 ![0, 0, s]).alpha ^ 2 = r0 ^ 2 + s ^ 2 ∧ (loc r0 ![0, 0, s]).beta = √(r0 ^ 2 + s ^ 2) ∧ (loc r0 ![0, 0, s]).r ^ 2 = s ^ 2 ∧
    (loc r0 ![0, 0, s]).e = Real.pi / 2 ∧ (loc r0 ![0, 0, s]).k = Real.pi / 2 := by
  have hrho : (loc r0 ![0, 0, s]).rho = 0 := by simp [loc]
  have hb : cb r0 0 s = r0 ^ 2 + s ^ 2 := by unfold cb; ring
  have ha : ca r0 0 s = r0 ^ 2 + s ^ 2 := by unfold ca; ring
  have hz : (![0, 0, s] : P3) 2 = s := rfl
  refine ⟨?_, ?_, ?_, ?_, ?_⟩
  · rw [loc_alpha2, hrho, hz, ha]
  · rw [loc_beta, hrho, hz, hb]
  · rw [loc_r2, hrho, hz]; ring
  · rw [loc_e h0, hrho, hz, ha, hb, div_self (by positivity), sub_self, E_zero]
  · rw [loc_k h0, hrho, hz, ha, hb, div_self (by positivity), sub_self, K_zero]

theorem localB_axis (ε inorm r0 s : ℝ) (h0 : 0 < r0) : localB ε inorm r0 ![0, 0, s] = ![0, 0, inorm * Real.pi * r0 ^ 2 / (2 * √(r0 ^ 2 + s ^ 2) ^ 3 + ε)] := by
  obtain ⟨h1, h2, h3, h4, h5⟩ := loc_axis r0 s h0
  have hq : √(r0 ^ 2 + s ^ 2) ^ 2 = r0 ^ 2 + s ^ 2 := Real.sq_sqrt (by positivity)
  simp only [localB, h1, h2, h3, h4, h5, Matrix.cons_val]
  congr 1
  · ring
  · congr 1
    · ring
    · congr 1
      rw [show 2 * √(r0 ^ 2 + s ^ 2) ^ 3 = 2 * (r0 ^ 2 + s ^ 2) * √(r0 ^ 2 + s ^ 2) by rw [← hq]; ring_nf; rw [hq]; ring_nf; rw [show √(r0 ^ 2 + s ^ 2) ^ 3 = √(r0 ^ 2 + s ^ 2) ^ 2 * √(r0 ^ 2 + s ^ 2) by ring, hq]; ring]
      ring

theorem Coil.toLocal_axis (c : Coil) (s : ℝ) : c.toLocal (fun i => c.center i + s * c.n i) = ![0, 0, s] := by
  obtain ⟨-, horth, -⟩ := C100_rotation c
  have hn := (C100_normal c).1
  funext i
  have e : c.toLocal (fun i => c.center i + s * c.n i) i = s * (c.rotmat 0 i * c.rotmat 0 2 + c.rotmat 1 i * c.rotmat 1 2 + c.rotmat 2 i * c.rotmat 2 2) := by
    simp only [Coil.toLocal, dotv, Coil.rotmatinv, hn]; ring
  rw [e, horth]
  fin_cases i <;> simp

/-- **C100.** On its axis the coil has the field `μ0 I r0² / (2 (r0² + s²)^{3/2})` in the direction of the normal, up to the constant `1e-31` in the denominator; `μ0 = 4π 10⁻⁷`.  So a positive current produces a field in the direction of the normal. -/
theorem C100_axis (ε r0 : ℝ) (center : P3) (I : ℝ) (normal : Normal) (h0 : 0 < r0) (s : ℝ) :
    let c := Coil.new r0 center I normal
    c.B ε (fun i => center i + s * c.n i) = fun i => (4 * Real.pi * 1e-7) * I * r0 ^ 2 / (2 * √(r0 ^ 2 + s ^ 2) ^ 3 + ε) * c.n i := by
  intro c
  have hn := (C100_normal c).1
  have e1 : c.toLocal (fun i => center i + s * c.n i) = ![0, 0, s] := c.toLocal_axis s
  funext i
  unfold Coil.B
  rw [e1, show c.r0 = r0 from rfl, localB_axis ε c.inorm r0 s h0]
  simp only [dotv, Matrix.cons_val, hn, show c.inorm = I * 4e-7 from rfl]
  ring

/-! ## First derivatives -/

theorem trueDB_eq {r0 : ℝ} (inorm : ℝ) (q : P3) (hx : q 0 ≠ 0) : localDB 0 inorm r0 q = trueDB inorm r0 q := by
  have hp : 0 < (loc r0 q).rho := Real.sqrt_pos.mpr (by positivity)
  have ha4 : (loc r0 q).alpha ^ 4 = ca r0 (loc r0 q).rho (q 2) ^ 2 := by rw [← loc_alpha2]; ring
  have hg : localDB 0 inorm r0 q 0 2 = inorm * (cgρ r0 (loc r0 q).rho (q 2) (loc r0 q).e (loc r0 q).k (loc r0 q).beta / (loc r0 q).rho) * q 0 := by
    simp only [localDB, Matrix.cons_val, add_zero, ha4, loc_alpha2, cgρ]
    have := hp.ne'
    field_simp
  have hg2 : localDB 0 inorm r0 q 1 2 = localDB 0 inorm r0 q 0 2 * q 1 / q 0 := by
    simp only [localDB, Matrix.cons_val, add_zero]
  have h20 : localDB 0 inorm r0 q 2 0 = localDB 0 inorm r0 q 0 2 := rfl
  have h21 : localDB 0 inorm r0 q 2 1 = localDB 0 inorm r0 q 1 2 := rfl
  funext i j
  fin_cases i <;> fin_cases j
  · rfl
  · rfl
  · exact hg
  · rfl
  · rfl
  · show localDB 0 inorm r0 q 1 2 = _ * q 1
    rw [hg2, hg]; field_simp
  · exact h20.trans hg
  · show localDB 0 inorm r0 q 2 1 = _ * q 1
    rw [h21, hg2, hg]; field_simp
  · rfl

theorem Coil.true_jacobian (c : Coil) (p : P3) (h0 : 0 < c.r0) (hax : c.toLocal p 0 ^ 2 + c.toLocal p 1 ^ 2 ≠ 0)
    (hco : ¬(c.toLocal p 0 ^ 2 + c.toLocal p 1 ^ 2 = c.r0 ^ 2 ∧ c.toLocal p 2 = 0)) : IsJacobian (c.B 0) p (transp2 (c.entry (trueDB c.inorm c.r0 (c.toLocal p)))) := by
  intro j l
  have hq : ∀ i, HasDerivAt (fun s => c.toLocal (Function.update p j s) i) (c.rotmatinv i j) (p j) := fun i => by
    have hu : ∀ k, HasDerivAt (fun s => Function.update p j s k - c.center k) (if k = j then 1 else 0) (p j) := fun k => by
      by_cases h : k = j
      · subst h
        simp only [Function.update_self, if_true]
        exact (hasDerivAt_id _).sub_const _
      · simp only [Function.update_of_ne h, if_neg h]
        exact hasDerivAt_const _ _
    refine ((((hu 0).const_mul (c.rotmatinv i 0)).fun_add ((hu 1).const_mul (c.rotmatinv i 1))).fun_add ((hu 2).const_mul (c.rotmatinv i 2))).congr_deriv ?_
    fin_cases j <;> simp
  have hup : Function.update p j (p j) = p := Function.update_eq_self j p
  have hB := fun k => d_localB h0 c.inorm (fun s => c.toLocal (Function.update p j s)) (fun i => c.rotmatinv i j) (p j) hq (by rw [hup]; exact hax) (by rw [hup]; exact hco) k
  simp only [hup] at hB
  refine ((((hB 0).const_mul (c.rotmat l 0)).fun_add ((hB 1).const_mul (c.rotmat l 1))).fun_add ((hB 2).const_mul (c.rotmat l 2))).congr_deriv ?_
  simp only [transp2, Coil.entry]
  ring

/-- **C100.** Without the constants `1e-31` in the denominators `CircularCoil.dB_by_dX` is the array of first derivatives of `B`, at every point off the coil whose x coordinate in the frame of the coil is not 0; the field has no divergence and no curl there. -/
theorem C100_dB_partial (c : Coil) (p : P3) (h0 : 0 < c.r0) (hx : c.toLocal p 0 ≠ 0) (hco : ¬(c.toLocal p 0 ^ 2 + c.toLocal p 1 ^ 2 = c.r0 ^ 2 ∧ c.toLocal p 2 = 0)) :
    IsJacobian (c.B 0) p (c.dB 0 p) ∧ dive (c.dB 0 p) = 0 ∧ curl (c.dB 0 p) = 0 := by
  have hax : c.toLocal p 0 ^ 2 + c.toLocal p 1 ^ 2 ≠ 0 := by positivity
  obtain ⟨horth, horth', -⟩ := C100_rotation c
  have e : c.dB 0 p = transp2 (c.entry (trueDB c.inorm c.r0 (c.toLocal p))) := by unfold Coil.dB; rw [trueDB_eq _ _ hx]
  rw [e]
  refine ⟨c.true_jacobian p h0 hax hco, ?_, ?_⟩
  · have htr : dive (transp2 (c.entry (trueDB c.inorm c.r0 (c.toLocal p)))) = dive (trueDB c.inorm c.r0 (c.toLocal p)) := by
      generalize trueDB c.inorm c.r0 (c.toLocal p) = D
      have h00 := horth' 0 0; have h01 := horth' 0 1; have h02 := horth' 0 2; have h11 := horth' 1 1; have h12 := horth' 1 2; have h22 := horth' 2 2
      simp only [Fin.isValue, if_true, Fin.reduceEq, zero_ne_one, if_false] at h00 h01 h02 h11 h12 h22
      simp only [dive, transp2, Coil.entry, Coil.rotmatinv]
      linear_combination D 0 0 * h00 + D 1 1 * h11 + D 2 2 * h22 + (D 0 1 + D 1 0) * h01 + (D 0 2 + D 2 0) * h02 + (D 1 2 + D 2 1) * h12
    rw [htr]
    have hρ2 : (loc c.r0 (c.toLocal p)).rho ^ 2 = c.toLocal p 0 ^ 2 + c.toLocal p 1 ^ 2 := Real.sq_sqrt (by positivity)
    have hp : 0 < (loc c.r0 (c.toLocal p)).rho := Real.sqrt_pos.mpr (by positivity)
    have hn : ¬((loc c.r0 (c.toLocal p)).rho = c.r0 ∧ c.toLocal p 2 = 0) := fun hh => hco ⟨by rw [← hρ2, hh.1], hh.2⟩
    have ha := ca_pos hn
    have hb : 0 < cb c.r0 (loc c.r0 (c.toLocal p)).rho (c.toLocal p 2) := cb_pos h0 hp.le
    have hβ : 0 < (loc c.r0 (c.toLocal p)).beta := by rw [loc_beta]; exact Real.sqrt_pos.mpr hb
    have had : ca c.r0 (loc c.r0 (c.toLocal p)).rho (c.toLocal p 2) = c.r0 ^ 2 + ((loc c.r0 (c.toLocal p)).rho ^ 2 + c.toLocal p 2 ^ 2) - 2 * c.r0 * (loc c.r0 (c.toLocal p)).rho := rfl
    have ha4 : (loc c.r0 (c.toLocal p)).alpha ^ 4 = ca c.r0 (loc c.r0 (c.toLocal p)).rho (c.toLocal p 2) ^ 2 := by rw [← loc_alpha2]; ring
    have hr4 : (loc c.r0 (c.toLocal p)).r ^ 4 = ((loc c.r0 (c.toLocal p)).rho ^ 2 + c.toLocal p 2 ^ 2) ^ 2 := by rw [← loc_r2]; ring
    have hy : c.toLocal p 1 ^ 2 = (loc c.r0 (c.toLocal p)).rho ^ 2 - c.toLocal p 0 ^ 2 := by rw [hρ2]; ring
    have hy4 : c.toLocal p 1 ^ 4 = ((loc c.r0 (c.toLocal p)).rho ^ 2 - c.toLocal p 0 ^ 2) ^ 2 := by rw [← hy]; ring
    simp only [dive, trueDB, localDB, Matrix.cons_val, add_zero, loc_alpha2, loc_r2, ha4, hr4, hy4, hy]
    generalize (loc c.r0 (c.toLocal p)).e = e
    generalize (loc c.r0 (c.toLocal p)).k = k
    generalize (loc c.r0 (c.toLocal p)).beta = β at *
    generalize (loc c.r0 (c.toLocal p)).rho = w at *
    generalize ca c.r0 w (c.toLocal p 2) = a at *
    have := ha.ne'
    have := hβ.ne'
    have := hp.ne'
    field_simp
    ring
  · have hsym : ∀ i j, trueDB c.inorm c.r0 (c.toLocal p) i j = trueDB c.inorm c.r0 (c.toLocal p) j i := fun i j => by
      fin_cases i <;> fin_cases j <;> rfl
    have hs2 : ∀ i j, c.entry (trueDB c.inorm c.r0 (c.toLocal p)) i j = c.entry (trueDB c.inorm c.r0 (c.toLocal p)) j i := fun i j => by
      simp only [Coil.entry, Coil.rotmatinv]
      rw [hsym 1 0, hsym 2 0, hsym 2 1]
      ring
    funext l
    fin_cases l
    · exact sub_eq_zero.mpr (hs2 _ _)
    · exact sub_eq_zero.mpr (hs2 _ _)
    · exact sub_eq_zero.mpr (hs2 _ _)

/-- **C100.** What the constants `1e-31` do: they multiply the components of the field in the frame of the coil with `d / (d + 1e-31)`, `d` the denominator. -/
theorem C100_regularization (ε inorm r0 : ℝ) (q : P3) (h0 : 0 < r0) (hax : q 0 ^ 2 + q 1 ^ 2 ≠ 0) (hco : ¬(q 0 ^ 2 + q 1 ^ 2 = r0 ^ 2 ∧ q 2 = 0)) :
    ∃ d d' : ℝ, 0 < d ∧ 0 < d' ∧ localB ε inorm r0 q = ![localB 0 inorm r0 q 0 * (d / (d + ε)), localB 0 inorm r0 q 1 * (d / (d + ε)), localB 0 inorm r0 q 2 * (d' / (d' + ε))] := by
  have hρ2 : (loc r0 q).rho ^ 2 = q 0 ^ 2 + q 1 ^ 2 := Real.sq_sqrt (by positivity)
  have hp : 0 < (loc r0 q).rho := Real.sqrt_pos.mpr (by positivity)
  have hn : ¬((loc r0 q).rho = r0 ∧ q 2 = 0) := fun hh => hco ⟨by rw [← hρ2, hh.1], hh.2⟩
  have ha : 0 < (loc r0 q).alpha ^ 2 := by rw [loc_alpha2]; exact ca_pos hn
  have hβ : 0 < (loc r0 q).beta := by rw [loc_beta]; exact Real.sqrt_pos.mpr (cb_pos h0 hp.le)
  have hd : 0 < 2 * (loc r0 q).alpha ^ 2 * (loc r0 q).beta * (loc r0 q).rho ^ 2 := by positivity
  have hd' : 0 < 2 * (loc r0 q).alpha ^ 2 * (loc r0 q).beta := by positivity
  refine ⟨_, _, hd, hd', ?_⟩
  generalize hde : 2 * (loc r0 q).alpha ^ 2 * (loc r0 q).beta * (loc r0 q).rho ^ 2 = d at *
  generalize hde' : 2 * (loc r0 q).alpha ^ 2 * (loc r0 q).beta = d' at *
  have := hd.ne'
  have := hd'.ne'
  simp only [localB, Matrix.cons_val, hde, hde', add_zero]
  congr 1
  · field_simp
  · congr 1
    · field_simp
    · congr 1
      field_simp

end Simsopt.Fields
