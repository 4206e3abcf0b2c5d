import Verif.Boozer.Props
import Mathlib.Algebra.BigOperators.Field
import Mathlib.Algebra.Order.BigOperators.Group.Finset

/-!
# The non-quasisymmetric ratio (C121)

Model of `NonQuasiSymmetricRatio.compute` (the value), `dJ_by_dB` and `dJ_by_dsurfacecoefficients`, src/simsopt/geo/surfaceobjectives.py L737-845, on a grid of `a` times `b` quadrature points of the auxiliary surface.  Floating-point numbers are real numbers.
-/
namespace Simsopt.BSurf.QS
variable {a b n : ℕ}

/-- A quantity on the grid. -/
abbrev Grid (a b : ℕ) := Fin a → Fin b → ℝ

/-- `np.mean(f, axis=axis)`, then `[None, :]` or `[:, None]`: for `axis = 0` (`false`: quasi-axisymmetry) the mean over `phi`, for `axis = 1` (`true`: quasi-poloidal symmetry) over `theta`, as an array on the grid (surfaceobjectives.py L757-762). -/
noncomputable def axMean (axis : Bool) (f : Grid a b) : Grid a b := fun i j => if axis then (∑ j', f i j') / b else (∑ i', f i' j) / a
/-- `np.mean(f)` over the grid. -/
noncomputable def mean (f : Grid a b) : ℝ := (∑ i, ∑ j, f i j) / (a * b)

/-- `B_QS`, surfaceobjectives.py L757-762, from the field strength and the area element. -/
noncomputable def bqs (axis : Bool) (modB dS : Grid a b) : Grid a b := fun i j => axMean axis (fun i j => modB i j * dS i j) i j / axMean axis dS i j
/-- `J`, surfaceobjectives.py L764-765. -/
noncomputable def value (axis : Bool) (modB dS : Grid a b) : ℝ :=
  let q := bqs axis modB dS
  mean (fun i j => dS i j * (modB i j - q i j) ^ 2) / mean (fun i j => dS i j * q i j ^ 2)

/-- `modB` and `dS`: the norm of a vector, L753, L756. -/
noncomputable def nrm (v : Fin 3 → ℝ) : ℝ := √(v 0 ^ 2 + v 1 ^ 2 + v 2 ^ 2)

/-- `dJ_by_dB`, surfaceobjectives.py L782-811. -/
noncomputable def dJ_by_dB (axis : Bool) (B : Fin a → Fin b → Fin 3 → ℝ) (nor : Fin a → Fin b → Fin 3 → ℝ) (i : Fin a) (j : Fin b) (k : Fin 3) : ℝ :=
  let modB : Grid a b := fun i j => nrm (B i j)
  let dS : Grid a b := fun i j => nrm (nor i j)
  let q := bqs axis modB dS
  let dmodB_dB := B i j k / modB i j
  let dnum_by_dB := (modB i j - q i j) * dmodB_dB * dS i j / (a * b)
  let ddenom_by_dB := q i j * dmodB_dB * dS i j / (a * b)
  let num := 0.5 * mean fun i j => dS i j * (modB i j - q i j) ^ 2
  let denom := 0.5 * mean fun i j => dS i j * q i j ^ 2
  (denom * dnum_by_dB - num * ddenom_by_dB) / denom ^ 2

/-- `dJ_by_dsurfacecoefficients`, surfaceobjectives.py L813-861, the entry of one dof: `dB` and `dnor` are the derivatives `dB_dc` and `dnor_dc` of the field at the points of the surface and of the normal with respect to that dof. -/
noncomputable def dJ_by_dc (axis : Bool) (B dB nor dnor : Fin a → Fin b → Fin 3 → ℝ) : ℝ :=
  let modB : Grid a b := fun i j => nrm (B i j)
  let dS : Grid a b := fun i j => nrm (nor i j)
  let dS_dc : Grid a b := fun i j => (nor i j 0 * dnor i j 0 + nor i j 1 * dnor i j 1 + nor i j 2 * dnor i j 2) / dS i j
  let q := bqs axis modB dS
  let nq : Grid a b := fun i j => modB i j - q i j
  let dmodB_dc : Grid a b := fun i j => (B i j 0 * dB i j 0 + B i j 1 * dB i j 1 + B i j 2 * dB i j 2) / modB i j
  let num := axMean axis fun i j => modB i j * dS i j
  let denom := axMean axis dS
  let dnum_dc := axMean axis fun i j => dmodB_dc i j * dS i j + modB i j * dS_dc i j
  let ddenom_dc := axMean axis dS_dc
  let B_QS_dc : Grid a b := fun i j => (dnum_dc i j * denom i j - ddenom_dc i j * num i j) / denom i j ^ 2
  let B_nonQS_dc : Grid a b := fun i j => dmodB_dc i j - B_QS_dc i j
  let num' := 0.5 * mean fun i j => dS i j * nq i j ^ 2
  let denom' := 0.5 * mean fun i j => dS i j * q i j ^ 2
  let dnum_by_dc := mean fun i j => 0.5 * dS_dc i j * nq i j ^ 2 + dS i j * nq i j * B_nonQS_dc i j
  let ddenom_by_dc := mean fun i j => 0.5 * dS_dc i j * q i j ^ 2 + dS i j * q i j * B_QS_dc i j
  (denom' * dnum_by_dc - num' * ddenom_by_dc) / denom' ^ 2

/-! ## Specification -/

/-- The documented objective on the grid, for quasi-axisymmetry: `B_QS` is the mean over `phi`, weighted with the area element, and the objective the ratio of the integrals of the squares of `B - B_QS` and of `B_QS`. -/
noncomputable def ratioQA (B nor : Fin a → Fin b → Fin 3 → ℝ) : ℝ :=
  let q : Fin b → ℝ := fun j => (∑ i, nrm (B i j) * nrm (nor i j)) / ∑ i, nrm (nor i j)
  (∑ i, ∑ j, nrm (nor i j) * (nrm (B i j) - q j) ^ 2) / ∑ i, ∑ j, nrm (nor i j) * q j ^ 2
/-- For quasi-poloidal symmetry. -/
noncomputable def ratioQP (B nor : Fin a → Fin b → Fin 3 → ℝ) : ℝ :=
  let q : Fin a → ℝ := fun i => (∑ j, nrm (B i j) * nrm (nor i j)) / ∑ j, nrm (nor i j)
  (∑ i, ∑ j, nrm (nor i j) * (nrm (B i j) - q i) ^ 2) / ∑ i, ∑ j, nrm (nor i j) * q i ^ 2
/-- The objective for the chosen symmetry. -/
noncomputable def ratio (axis : Bool) (B nor : Fin a → Fin b → Fin 3 → ℝ) : ℝ := if axis then ratioQP B nor else ratioQA B nor

/-! ## Proofs -/

theorem mean_ratio (ha : 0 < a) (hb : 0 < b) (f g : Grid a b) : mean f / mean g = (∑ i, ∑ j, f i j) / ∑ i, ∑ j, g i j := by
  unfold mean
  have : (a : ℝ) * b ≠ 0 := mul_ne_zero (Nat.cast_ne_zero.mpr ha.ne') (Nat.cast_ne_zero.mpr hb.ne')
  rw [div_div_div_cancel_right₀ this]

theorem bqs_false (ha : 0 < a) (modB dS : Grid a b) (i : Fin a) (j : Fin b) : bqs false modB dS i j = (∑ i, modB i j * dS i j) / ∑ i, dS i j := by
  unfold bqs axMean
  simp only [Bool.false_eq_true, if_false]
  rw [div_div_div_cancel_right₀ (Nat.cast_ne_zero.mpr ha.ne')]

theorem bqs_true (hb : 0 < b) (modB dS : Grid a b) (i : Fin a) (j : Fin b) : bqs true modB dS i j = (∑ j, modB i j * dS i j) / ∑ j, dS i j := by
  unfold bqs axMean
  simp only [if_true]
  rw [div_div_div_cancel_right₀ (Nat.cast_ne_zero.mpr hb.ne')]

theorem value_ratio (ha : 0 < a) (hb : 0 < b) (axis : Bool) (B nor : Fin a → Fin b → Fin 3 → ℝ) : value axis (fun i j => nrm (B i j)) (fun i j => nrm (nor i j)) = ratio axis B nor := by
  unfold value
  dsimp only
  rw [mean_ratio ha hb]
  cases axis
  · simp only [bqs_false ha]; rfl
  · simp only [bqs_true hb]; rfl

/-- **C121.** The value of the objective is the documented ratio. -/
theorem C121_value (ha : 0 < a) (hb : 0 < b) (axis : Bool) (B nor : Fin a → Fin b → Fin 3 → ℝ) : value axis (fun i j => nrm (B i j)) (fun i j => nrm (nor i j)) = ratio axis B nor :=
  value_ratio ha hb axis B nor

section
variable {f g : ℝ → Grid a b} {f' g' : Grid a b} {t : ℝ}

theorem d_axMean (axis : Bool) (h : ∀ i j, HasDerivAt (fun τ => f τ i j) (f' i j) t) (i : Fin a) (j : Fin b) : HasDerivAt (fun τ => axMean axis (f τ) i j) (axMean axis f' i j) t := by
  unfold axMean
  cases axis
  · exact (HasDerivAt.fun_sum fun i' _ => h i' j).div_const _
  · exact (HasDerivAt.fun_sum fun j' _ => h i j').div_const _

theorem d_mean (h : ∀ i j, HasDerivAt (fun τ => f τ i j) (f' i j) t) : HasDerivAt (fun τ => mean (f τ)) (mean f') t :=
  (HasDerivAt.fun_sum fun i _ => HasDerivAt.fun_sum fun j _ => h i j).div_const _
end

/-- The derivative of `B_QS` along a curve. -/
noncomputable def dbqs (axis : Bool) (m s m' s' : Grid a b) : Grid a b := fun i j =>
  (axMean axis (fun i j => m' i j * s i j + m i j * s' i j) i j * axMean axis s i j - axMean axis s' i j * axMean axis (fun i j => m i j * s i j) i j) / axMean axis s i j ^ 2

/-- The derivative of the value along a curve. -/
noncomputable def dvalue (axis : Bool) (m s m' s' : Grid a b) : ℝ :=
  let q := bqs axis m s
  let q' := dbqs axis m s m' s'
  let num' := 0.5 * mean fun i j => s i j * (m i j - q i j) ^ 2
  let denom' := 0.5 * mean fun i j => s i j * q i j ^ 2
  let dnum := mean fun i j => 0.5 * s' i j * (m i j - q i j) ^ 2 + s i j * (m i j - q i j) * (m' i j - q' i j)
  let ddenom := mean fun i j => 0.5 * s' i j * q i j ^ 2 + s i j * q i j * q' i j
  (denom' * dnum - num' * ddenom) / denom' ^ 2

theorem axMean_pos (axis : Bool) {s : Grid a b} (hs : ∀ i j, 0 < s i j) (i : Fin a) (j : Fin b) : 0 < axMean axis s i j := by
  have ha : (0 : ℝ) < a := Nat.cast_pos.mpr (Fin.pos i)
  have hb : (0 : ℝ) < b := Nat.cast_pos.mpr (Fin.pos j)
  unfold axMean
  cases axis
  · exact div_pos (Finset.sum_pos (fun i' _ => hs i' j) ⟨i, Finset.mem_univ _⟩) ha
  · exact div_pos (Finset.sum_pos (fun j' _ => hs i j') ⟨j, Finset.mem_univ _⟩) hb

theorem mean_pos (ha : 0 < a) (hb : 0 < b) {s : Grid a b} (hs : ∀ i j, 0 < s i j) : 0 < mean s := by
  have ha' : (0 : ℝ) < a := Nat.cast_pos.mpr ha
  have hb' : (0 : ℝ) < b := Nat.cast_pos.mpr hb
  exact div_pos (Finset.sum_pos (fun i _ => Finset.sum_pos (fun j _ => hs i j) ⟨⟨0, hb⟩, Finset.mem_univ _⟩) ⟨⟨0, ha⟩, Finset.mem_univ _⟩) (mul_pos ha' hb')

theorem d_value (ha : 0 < a) (hb : 0 < b) (axis : Bool) {m s : ℝ → Grid a b} {m' s' : Grid a b} {t : ℝ} (hm : ∀ i j, HasDerivAt (fun τ => m τ i j) (m' i j) t) (hs : ∀ i j, HasDerivAt (fun τ => s τ i j) (s' i j) t)
    (hmp : ∀ i j, 0 < m t i j) (hsp : ∀ i j, 0 < s t i j) : HasDerivAt (fun τ => value axis (m τ) (s τ)) (dvalue axis (m t) (s t) m' s') t := by
  have hq : ∀ i j, HasDerivAt (fun τ => bqs axis (m τ) (s τ) i j) (dbqs axis (m t) (s t) m' s' i j) t := by
    intro i j
    have h1 := d_axMean axis (f := fun τ i j => m τ i j * s τ i j) (fun i j => (hm i j).fun_mul (hs i j)) i j
    have h2 := d_axMean axis hs i j
    refine (h1.fun_div h2 (axMean_pos axis hsp i j).ne').congr_deriv ?_
    unfold dbqs
    ring
  have hqp : ∀ i j, 0 < bqs axis (m t) (s t) i j := fun i j => div_pos (axMean_pos axis (fun i j => mul_pos (hmp i j) (hsp i j)) i j) (axMean_pos axis hsp i j)
  have hd : 0 < mean (fun i j => s t i j * bqs axis (m t) (s t) i j ^ 2) := mean_pos ha hb fun i j => mul_pos (hsp i j) (pow_pos (hqp i j) 2)
  have hnum := d_mean (f := fun τ i j => s τ i j * (m τ i j - bqs axis (m τ) (s τ) i j) ^ 2) fun i j => (hs i j).fun_mul (((hm i j).fun_sub (hq i j)).fun_pow 2)
  have hden := d_mean (f := fun τ i j => s τ i j * bqs axis (m τ) (s τ) i j ^ 2) fun i j => (hs i j).fun_mul ((hq i j).fun_pow 2)
  refine (hnum.fun_div hden hd.ne').congr_deriv ?_
  unfold dvalue
  dsimp only
  have e1 : mean (fun i j => s' i j * (m t i j - bqs axis (m t) (s t) i j) ^ 2 + s t i j * ((2 : ℕ) * (m t i j - bqs axis (m t) (s t) i j) ^ (2 - 1) * (m' i j - dbqs axis (m t) (s t) m' s' i j))) =
      2 * mean (fun i j => 0.5 * s' i j * (m t i j - bqs axis (m t) (s t) i j) ^ 2 + s t i j * (m t i j - bqs axis (m t) (s t) i j) * (m' i j - dbqs axis (m t) (s t) m' s' i j)) := by
    unfold mean
    rw [← mul_div_assoc, Finset.mul_sum]
    congr 1
    refine Finset.sum_congr rfl fun i _ => ?_
    rw [Finset.mul_sum]
    refine Finset.sum_congr rfl fun j _ => ?_
    push_cast; ring
  have e2 : mean (fun i j => s' i j * bqs axis (m t) (s t) i j ^ 2 + s t i j * ((2 : ℕ) * bqs axis (m t) (s t) i j ^ (2 - 1) * dbqs axis (m t) (s t) m' s' i j)) =
      2 * mean (fun i j => 0.5 * s' i j * bqs axis (m t) (s t) i j ^ 2 + s t i j * bqs axis (m t) (s t) i j * dbqs axis (m t) (s t) m' s' i j) := by
    unfold mean
    rw [← mul_div_assoc, Finset.mul_sum]
    congr 1
    refine Finset.sum_congr rfl fun i _ => ?_
    rw [Finset.mul_sum]
    refine Finset.sum_congr rfl fun j _ => ?_
    push_cast; ring
  rw [e1, e2]
  have hd' := hd.ne'
  field_simp
  ring

theorem d_nrm {v : ℝ → Fin 3 → ℝ} {v' : Fin 3 → ℝ} {t : ℝ} (h : ∀ k, HasDerivAt (fun τ => v τ k) (v' k) t) (h0 : 0 < nrm (v t)) :
    HasDerivAt (fun τ => nrm (v τ)) ((v t 0 * v' 0 + v t 1 * v' 1 + v t 2 * v' 2) / nrm (v t)) t := by
  have hp : v t 0 ^ 2 + v t 1 ^ 2 + v t 2 ^ 2 ≠ 0 := by
    intro h1; unfold nrm at h0; rw [h1, Real.sqrt_zero] at h0; exact lt_irrefl _ h0
  refine (((((h 0).fun_pow 2).fun_add ((h 1).fun_pow 2)).fun_add ((h 2).fun_pow 2)).sqrt hp).congr_deriv ?_
  show _ / (2 * nrm (v t)) = _
  have := h0.ne'
  field_simp
  push_cast
  ring

/-- **C121.** `dJ_by_dsurfacecoefficients` holds the derivative of the documented ratio with respect to a dof of the surface, along which the field at the points of the surface and the normal move with the velocities `dB_dc` and `dnor_dc`; where neither vanishes. -/
theorem C121_surface (ha : 0 < a) (hb : 0 < b) (axis : Bool) (B nor : ℝ → Fin a → Fin b → Fin 3 → ℝ) (dB dnor : Fin a → Fin b → Fin 3 → ℝ) (t : ℝ)
    (hB : ∀ i j k, HasDerivAt (fun τ => B τ i j k) (dB i j k) t) (hn : ∀ i j k, HasDerivAt (fun τ => nor τ i j k) (dnor i j k) t) (hB0 : ∀ i j, B t i j ≠ 0) (hn0 : ∀ i j, nor t i j ≠ 0) :
    HasDerivAt (fun τ => ratio axis (B τ) (nor τ)) (dJ_by_dc axis (B t) dB (nor t) dnor) t := by
  have pos : ∀ v : Fin 3 → ℝ, v ≠ 0 → 0 < nrm v := by
    intro v hv
    refine Real.sqrt_pos.mpr (lt_of_le_of_ne (by positivity) fun h => hv ?_)
    have h0 := sq_nonneg (v 0); have h1 := sq_nonneg (v 1); have h2 := sq_nonneg (v 2)
    funext k
    fin_cases k
    · exact pow_eq_zero_iff two_ne_zero |>.mp (show v 0 ^ 2 = 0 by linarith)
    · exact pow_eq_zero_iff two_ne_zero |>.mp (show v 1 ^ 2 = 0 by linarith)
    · exact pow_eq_zero_iff two_ne_zero |>.mp (show v 2 ^ 2 = 0 by linarith)
  simp only [← value_ratio ha hb]
  exact d_value ha hb axis (m := fun τ i j => nrm (B τ i j)) (s := fun τ i j => nrm (nor τ i j)) (fun i j => d_nrm (hB i j) (pos _ (hB0 i j))) (fun i j => d_nrm (hn i j) (pos _ (hn0 i j)))
    (fun i j => pos _ (hB0 i j)) (fun i j => pos _ (hn0 i j))

/-! ### The derivative with respect to the field -/

/-- `axMean` is symmetric. -/
theorem axMean_symm (axis : Bool) (f g : Grid a b) : ∑ i, ∑ j, axMean axis f i j * g i j = ∑ i, ∑ j, f i j * axMean axis g i j := by
  unfold axMean
  cases axis
  · simp only [Bool.false_eq_true, if_false]
    rw [Finset.sum_comm, Finset.sum_comm (f := fun i j => f i j * _)]
    refine Finset.sum_congr rfl fun j _ => ?_
    rw [← Finset.mul_sum, ← Finset.sum_mul]
    ring
  · simp only [if_true]
    refine Finset.sum_congr rfl fun i _ => ?_
    rw [← Finset.mul_sum, ← Finset.sum_mul]
    ring

/-- A factor that is constant along the axis comes out of the mean. -/
theorem axMean_mul (axis : Bool) (f g : Grid a b) (i : Fin a) (j : Fin b) : axMean axis (fun i j => f i j * axMean axis g i j) i j = axMean axis f i j * axMean axis g i j := by
  unfold axMean
  cases axis
  · simp only [Bool.false_eq_true, if_false]
    rw [← Finset.sum_mul]; ring
  · simp only [if_true]
    rw [← Finset.sum_mul]; ring

theorem axMean_const (axis : Bool) (f : Grid a b) (i i' : Fin a) (j j' : Fin b) (h : if axis then i = i' else j = j') : axMean axis f i j = axMean axis f i' j' := by
  unfold axMean
  cases axis
  · simp at h; simp [h]
  · simp at h; simp [h]

/-- A factor that is a function of means along the axis comes out of the mean. -/
theorem axMean_mul' (axis : Bool) (f c : Grid a b) (hc : ∀ i i' j j', (if axis then i = i' else j = j') → c i j = c i' j') (i : Fin a) (j : Fin b) : axMean axis (fun i j => f i j * c i j) i j = axMean axis f i j * c i j := by
  unfold axMean
  cases axis
  · simp only [Bool.false_eq_true, if_false]
    have : ∀ i', f i' j * c i' j = f i' j * c i j := fun i' => by rw [hc i' i j j (by simp)]
    simp only [this, ← Finset.sum_mul]; ring
  · simp only [if_true]
    have : ∀ j', f i j' * c i j' = f i j' * c i j := fun j' => by rw [hc i i j' j (by simp)]
    simp only [this, ← Finset.sum_mul]; ring

/-- The sums with `B_QS'` when only the field strength moves. -/
theorem sum_dbqs (axis : Bool) (m s m' : Grid a b) (hs : ∀ i j, 0 < s i j) (c : Grid a b) (hc : ∀ i i' j j', (if axis then i = i' else j = j') → c i j = c i' j') :
    ∑ i, ∑ j, s i j * c i j * dbqs axis m s m' (fun _ _ => 0) i j = ∑ i, ∑ j, c i j * (m' i j * s i j) := by
  have e : ∀ i j, s i j * c i j * dbqs axis m s m' (fun _ _ => 0) i j = axMean axis (fun i j => m' i j * s i j) i j * (s i j * (c i j / axMean axis s i j)) := by
    intro i j
    have h0 := (axMean_pos axis hs i j).ne'
    have hz : axMean axis (fun _ _ : _ => (0 : ℝ)) i j = 0 := by unfold axMean; cases axis <;> simp
    have hm : (fun i j => m' i j * s i j + m i j * 0) = fun i j => m' i j * s i j := by funext i j; ring
    unfold dbqs
    simp only [hm, hz]
    field_simp
    ring
  simp only [e]
  rw [axMean_symm]
  refine Finset.sum_congr rfl fun i _ => Finset.sum_congr rfl fun j _ => ?_
  have h0 := (axMean_pos axis hs i j).ne'
  rw [axMean_mul' axis s (fun i j => c i j / axMean axis s i j) (fun i i' j j' h => by rw [hc i i' j j' h, axMean_const axis s i i' j j' h])]
  field_simp

theorem bqs_const (axis : Bool) (m s : Grid a b) (i i' : Fin a) (j j' : Fin b) (h : if axis then i = i' else j = j') : bqs axis m s i j = bqs axis m s i' j' := by
  unfold bqs
  rw [axMean_const axis _ i i' j j' h, axMean_const axis s i i' j j' h]

/-- The non-quasisymmetric part has no component in the quantities that are constant along the axis. -/
theorem nonqs_orth (axis : Bool) (m s c : Grid a b) (hs : ∀ i j, 0 < s i j) (hc : ∀ i i' j j', (if axis then i = i' else j = j') → c i j = c i' j') : ∑ i, ∑ j, s i j * (m i j - bqs axis m s i j) * c i j = 0 := by
  have h1 : ∑ i, ∑ j, s i j * c i j * bqs axis m s i j = ∑ i, ∑ j, c i j * (m i j * s i j) := by
    have e : ∀ i j, s i j * c i j * bqs axis m s i j = axMean axis (fun i j => m i j * s i j) i j * (s i j * (c i j / axMean axis s i j)) := by
      intro i j
      unfold bqs
      ring
    simp only [e]
    rw [axMean_symm]
    refine Finset.sum_congr rfl fun i _ => Finset.sum_congr rfl fun j _ => ?_
    have h0 := (axMean_pos axis hs i j).ne'
    rw [axMean_mul' axis s (fun i j => c i j / axMean axis s i j) (fun i i' j j' h => by rw [hc i i' j j' h, axMean_const axis s i i' j j' h])]
    field_simp
  have e2 : ∀ i j, s i j * (m i j - bqs axis m s i j) * c i j = c i j * (m i j * s i j) - s i j * c i j * bqs axis m s i j := fun i j => by ring
  simp only [e2, Finset.sum_sub_distrib, h1, sub_self]

theorem dbqs_const (axis : Bool) (m s m' s' : Grid a b) (i i' : Fin a) (j j' : Fin b) (h : if axis then i = i' else j = j') : dbqs axis m s m' s' i j = dbqs axis m s m' s' i' j' := by
  unfold dbqs
  rw [axMean_const axis (fun i j => m' i j * s i j + m i j * s' i j) i i' j j' h, axMean_const axis s i i' j j' h, axMean_const axis s' i i' j j' h, axMean_const axis (fun i j => m i j * s i j) i i' j j' h]

/-- The derivative of the value when only the field strength moves. -/
theorem dvalue_B (axis : Bool) (m s m' : Grid a b) (hs : ∀ i j, 0 < s i j) : dvalue axis m s m' (fun _ _ => 0) =
    (0.5 * mean (fun i j => s i j * bqs axis m s i j ^ 2) * ((∑ i, ∑ j, (m i j - bqs axis m s i j) * m' i j * s i j) / (a * b))
      - 0.5 * mean (fun i j => s i j * (m i j - bqs axis m s i j) ^ 2) * ((∑ i, ∑ j, bqs axis m s i j * m' i j * s i j) / (a * b))) / (0.5 * mean (fun i j => s i j * bqs axis m s i j ^ 2)) ^ 2 := by
  unfold dvalue
  dsimp only
  have e1 : mean (fun i j => 0.5 * 0 * (m i j - bqs axis m s i j) ^ 2 + s i j * (m i j - bqs axis m s i j) * (m' i j - dbqs axis m s m' (fun _ _ => 0) i j)) = (∑ i, ∑ j, (m i j - bqs axis m s i j) * m' i j * s i j) / (a * b) := by
    unfold mean
    congr 1
    have := nonqs_orth axis m s (dbqs axis m s m' fun _ _ => 0) hs (dbqs_const axis m s m' _)
    have e : ∀ i j, 0.5 * 0 * (m i j - bqs axis m s i j) ^ 2 + s i j * (m i j - bqs axis m s i j) * (m' i j - dbqs axis m s m' (fun _ _ => 0) i j) = (m i j - bqs axis m s i j) * m' i j * s i j - s i j * (m i j - bqs axis m s i j) * dbqs axis m s m' (fun _ _ => 0) i j := fun i j => by ring
    simp only [e, Finset.sum_sub_distrib, this, sub_zero]
  have e2 : mean (fun i j => 0.5 * 0 * bqs axis m s i j ^ 2 + s i j * bqs axis m s i j * dbqs axis m s m' (fun _ _ => 0) i j) = (∑ i, ∑ j, bqs axis m s i j * m' i j * s i j) / (a * b) := by
    unfold mean
    congr 1
    have := sum_dbqs axis m s m' hs (bqs axis m s) (bqs_const axis m s)
    simp only [mul_zero, zero_mul, zero_add, this]
    exact Finset.sum_congr rfl fun i _ => Finset.sum_congr rfl fun j _ => by ring
  rw [e1, e2]

/-- **C121.** `dJ_by_dB` holds the partial derivatives of the documented ratio with respect to the components of the field at the points of the surface, where neither the field nor the normal vanishes. -/
theorem C121_field (ha : 0 < a) (hb : 0 < b) (axis : Bool) (B nor : Fin a → Fin b → Fin 3 → ℝ) (hB0 : ∀ i j, B i j ≠ 0) (hn0 : ∀ i j, nor i j ≠ 0) (i0 : Fin a) (j0 : Fin b) (k0 : Fin 3) :
    HasDerivAt (fun t => ratio axis (Function.update B i0 (Function.update (B i0) j0 (Function.update (B i0 j0) k0 t))) nor) (dJ_by_dB axis B nor i0 j0 k0) (B i0 j0 k0) := by
  have pos : ∀ v : Fin 3 → ℝ, v ≠ 0 → 0 < nrm v := by
    intro v hv
    refine Real.sqrt_pos.mpr (lt_of_le_of_ne (by positivity) fun h => hv ?_)
    have h0 := sq_nonneg (v 0); have h1 := sq_nonneg (v 1); have h2 := sq_nonneg (v 2)
    funext k
    fin_cases k
    · exact pow_eq_zero_iff two_ne_zero |>.mp (show v 0 ^ 2 = 0 by linarith)
    · exact pow_eq_zero_iff two_ne_zero |>.mp (show v 1 ^ 2 = 0 by linarith)
    · exact pow_eq_zero_iff two_ne_zero |>.mp (show v 2 ^ 2 = 0 by linarith)
  set B' := fun t => Function.update B i0 (Function.update (B i0) j0 (Function.update (B i0 j0) k0 t)) with hB'
  have hself : B' (B i0 j0 k0) = B := by
    simp only [hB', Function.update_eq_self]
  have hd : ∀ i j k, HasDerivAt (fun t => B' t i j k) (if i = i0 ∧ j = j0 ∧ k = k0 then 1 else 0) (B i0 j0 k0) := by
    intro i j k
    by_cases hi : i = i0
    · subst hi
      by_cases hj : j = j0
      · subst hj
        by_cases hk : k = k0
        · subst hk
          simp only [hB', Function.update_self, and_self, if_true]
          exact hasDerivAt_id' _
        · simp only [hB', Function.update_self, Function.update_of_ne hk, hk, and_false, if_false]
          exact hasDerivAt_const _ _
      · simp only [hB', Function.update_self, Function.update_of_ne hj, hj, false_and, and_false, if_false]
        exact hasDerivAt_const _ _
    · simp only [hB', Function.update_of_ne hi, hi, false_and, if_false]
      exact hasDerivAt_const _ _
  simp only [← value_ratio ha hb]
  have hsp : ∀ i j, 0 < nrm (nor i j) := fun i j => pos _ (hn0 i j)
  have h := d_value ha hb axis (m := fun τ i j => nrm (B' τ i j)) (s := fun _ i j => nrm (nor i j)) (s' := fun _ _ => 0) (t := B i0 j0 k0)
    (fun i j => d_nrm (hd i j) (by rw [hself]; exact pos _ (hB0 i j))) (fun i j => hasDerivAt_const _ _) (fun i j => by rw [hself]; exact pos _ (hB0 i j)) hsp
  rw [hself, dvalue_B axis _ _ _ hsp] at h
  refine h.congr_deriv ?_
  have hm' : ∀ i j, (B i j 0 * (if i = i0 ∧ j = j0 ∧ 0 = k0 then 1 else 0) + B i j 1 * (if i = i0 ∧ j = j0 ∧ 1 = k0 then 1 else 0) + B i j 2 * (if i = i0 ∧ j = j0 ∧ 2 = k0 then 1 else 0)) / nrm (B i j) =
      if i = i0 then if j = j0 then B i0 j0 k0 / nrm (B i0 j0) else 0 else 0 := by
    intro i j
    by_cases hi : i = i0
    · subst hi
      by_cases hj : j = j0
      · subst hj
        fin_cases k0 <;> simp
      · simp [hj]
    · simp [hi]
  have hsum : ∀ c : Grid a b, ∑ i, ∑ j, c i j * (if i = i0 then if j = j0 then B i0 j0 k0 / nrm (B i0 j0) else 0 else 0) * nrm (nor i j) = c i0 j0 * (B i0 j0 k0 / nrm (B i0 j0)) * nrm (nor i0 j0) := by
    intro c
    rw [Finset.sum_eq_single i0]
    · rw [Finset.sum_eq_single j0]
      · simp
      · intro j _ hj; simp [hj]
      · intro hj; exact absurd (Finset.mem_univ _) hj
    · intro i _ hi; simp [hi]
    · intro hi; exact absurd (Finset.mem_univ _) hi
  simp only [hm', hsum]
  rfl

end Simsopt.BSurf.QS
