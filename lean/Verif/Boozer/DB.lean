import Verif.Boozer.Props

/-!
# Derivatives of the Boozer residual with respect to the field (C114)

Model of `boozer_surface_residual_dB` (src/simsopt/geo/surfaceobjectives.py L1121-1252), at one quadrature point.
-/
namespace Simsopt.BSurf
variable {n : ℕ}

namespace Data
variable (d : Data n)

/-- surfaceobjectives.py L1154-1155: `GI - 2 tang B`. -/
def dresidual_dB (l k : Fin 3) : ℝ := (if l = k then d.G else 0) - 2 * d.tang l * d.B k
/-- surfaceobjectives.py L1161. -/
noncomputable def dw_dB (k : Fin 3) : ℝ := -d.B k / d.B2 ^ (1.5 : ℝ)
/-- surfaceobjectives.py L1163, L1166. -/
noncomputable def drtil_dB (wt : Bool) (l k : Fin 3) : ℝ := if wt then d.residual l * d.dw_dB k + d.dresidual_dB l k * d.w else d.dresidual_dB l k

/-- surfaceobjectives.py L1181. -/
def dtang_dc (l : Fin 3) (m : Fin n) : ℝ := d.dxphi l m + d.iota * d.dxtheta l m
/-- surfaceobjectives.py L1182-1184: the Jacobian of the residual, as this function computes it. -/
def dresidual_dc' (l : Fin 3) (m : Fin n) : ℝ := d.G * d.dB_dc l m - 2 * (∑ k, d.B k * d.dB_dc k m) * d.tang l - d.B2 * d.dtang_dc l m
/-- surfaceobjectives.py L1187. -/
def d2residual_dcdB (l k : Fin 3) (m : Fin n) : ℝ := -2 * d.dB_dc k m * d.tang l - 2 * d.B k * d.dtang_dc l m
/-- surfaceobjectives.py L1188. -/
def d2residual_diotadB (l k : Fin 3) : ℝ := -2 * d.B k * d.xtheta l
/-- surfaceobjectives.py L1189-1191: the entry `[l, k, p, m]`, for the derivative with respect to `gradB[k, p]`; the in-place addition with `[:, :, idx, :, idx, :]` adds `dx_dc[k, m] * G` where `l = p`. -/
def d2residual_dcdgradB (l k p : Fin 3) (m : Fin n) : ℝ := -2 * d.B p * d.dx k m * d.tang l + (if l = p then d.dx k m * d.G else 0)

/-- surfaceobjectives.py L1195-1196. -/
noncomputable def dw_dc' (m : Fin n) : ℝ := -(0.5 * d.dB2_dc m / d.modB) / d.B2
/-- surfaceobjectives.py L1198. -/
noncomputable def d2w_dcdB (k : Fin 3) (m : Fin n) : ℝ := -(d.dB_dc k m * d.B2 ^ (1.5 : ℝ) - 1.5 * d.dB2_dc m * d.modB * d.B k) / d.B2 ^ 3
/-- surfaceobjectives.py L1199. -/
noncomputable def d2w_dcdgradB (k p : Fin 3) (m : Fin n) : ℝ := d.dw_dB p * d.dx k m

/-- surfaceobjectives.py L1201-1202, L1210-1211, L1232, L1237, L1244: the Jacobian this function returns. -/
noncomputable def J' (wt : Bool) (l : Fin 3) : Col n → ℝ
  | .c m => if wt then d.dresidual_dc' l m * d.w + d.dw_dc' m * d.residual l else d.dresidual_dc' l m
  | .iota => if wt then d.w * d.dresidual_diota l else d.dresidual_diota l
  | .G => if wt then d.B l * d.w else d.B l

/-- surfaceobjectives.py L1203-1207, L1212-1213, L1226-1228, L1233, L1238, L1245-1247: `d2rtil_dsurfacedB[l, k, column]`. -/
noncomputable def d2rtil_dsurfacedB (wt : Bool) (l k : Fin 3) : Col n → ℝ
  | .c m => if wt then d.dresidual_dc' l m * d.dw_dB k + d.dresidual_dB l k * d.dw_dc' m + d.d2residual_dcdB l k m * d.w + d.residual l * d.d2w_dcdB k m else d.d2residual_dcdB l k m
  | .iota => if wt then d.dw_dB k * d.dresidual_diota l + d.w * d.d2residual_diotadB l k else d.d2residual_diotadB l k
  | .G => if wt then (if l = k then 1 else 0) * d.w + d.dw_dB k * d.B l else if l = k then 1 else 0

/-- surfaceobjectives.py L1208, L1214, L1221, L1229, L1248-1250: `d2rtil_dsurfacedgradB[l, k, p, column]`. -/
noncomputable def d2rtil_dsurfacedgradB (wt : Bool) (l k p : Fin 3) : Col n → ℝ
  | .c m => if wt then d.d2w_dcdgradB k p m * d.residual l + d.d2residual_dcdgradB l k p m * d.w else d.d2residual_dcdgradB l k p m
  | .iota => 0
  | .G => 0

/-- The data with another value of the component `k` of the field: the field and its gradient are independent variables here. -/
def setB (k : Fin 3) (t : ℝ) : Data n := { d with B := Function.update d.B k t }
/-- The data with another value of the entry `[k, p]` of the gradient of the field. -/
def setGradB (k p : Fin 3) (t : ℝ) : Data n := { d with dB := Function.update d.dB k (Function.update (d.dB k) p t) }

end Data

theorem dw_dc'_eq (d : Data n) (m : Fin n) : d.dw_dc' m = d.dw_dc m := by
  unfold Data.dw_dc' Data.dw_dc Data.dmodB_dc
  rw [modB_sq]; rfl

theorem dresidual_dc'_eq (d : Data n) (l : Fin 3) (m : Fin n) : d.dresidual_dc' l m = d.dresidual_dc l m := by
  unfold Data.dresidual_dc' Data.dresidual_dc
  rw [Fin.sum_univ_three]; rfl

/-- **C114.** The Jacobian that `boozer_surface_residual_dB` returns is the one that `boozer_surface_residual` returns. -/
theorem C114_same_jacobian (d : Data n) (wt : Bool) (l : Fin 3) (a : Col n) : d.J' wt l a = d.J wt l a := by
  cases a with
  | c m =>
    simp only [Data.J', Data.J, dw_dc'_eq, dresidual_dc'_eq]
    split <;> ring
  | iota => rfl
  | G =>
    simp only [Data.J', Data.J]
    split <;> ring

theorem d_entry (f : Fin 3 → ℝ) (k l : Fin 3) : HasDerivAt (fun t => Function.update f k t l) (if l = k then 1 else 0) (f k) := by
  by_cases h : l = k
  · subst h
    simp only [Function.update_self, if_true]
    exact hasDerivAt_id' _
  · simp only [Function.update_of_ne h, if_neg h]
    exact hasDerivAt_const _ _

theorem setB_self (d : Data n) (k : Fin 3) : d.setB k (d.B k) = d := by
  unfold Data.setB; rw [Function.update_eq_self]

theorem setGradB_self (d : Data n) (k p : Fin 3) : d.setGradB k p (d.dB k p) = d := by
  unfold Data.setGradB; rw [Function.update_eq_self, Function.update_eq_self]

theorem moves_B (d : Data n) (k : Fin 3) : Moves2 (fun t => d.setB k t) ⟨0, 0, 0, 0, fun l => if l = k then 1 else 0, 0⟩ (d.B k) :=
  ⟨⟨hasDerivAt_const _ _, hasDerivAt_const _ _, fun _ => hasDerivAt_const _ _, fun _ => hasDerivAt_const _ _, fun l => d_entry d.B k l, fun _ => rfl, fun _ => rfl⟩, fun l m => hasDerivAt_const (d.B k) (d.dB_dc l m)⟩

theorem moves_gradB (d : Data n) (k p : Fin 3) : Moves2 (fun t => d.setGradB k p t) ⟨0, 0, 0, 0, 0, fun l m => if l = p then d.dx k m else 0⟩ (d.dB k p) := by
  refine ⟨⟨hasDerivAt_const _ _, hasDerivAt_const _ _, fun _ => hasDerivAt_const _ _, fun _ => hasDerivAt_const _ _, fun l => hasDerivAt_const _ _, fun _ => rfl, fun _ => rfl⟩, fun l m => ?_⟩
  have h : ∀ j, HasDerivAt (fun t => (d.setGradB k p t).dB j l * d.dx j m) (if j = k then (if l = p then 1 else 0) * d.dx j m else 0) (d.dB k p) := by
    intro j
    by_cases hj : j = k
    · subst hj
      simp only [Data.setGradB, Function.update_self, if_true]
      exact (d_entry (d.dB j) p l).mul_const _
    · simp only [Data.setGradB, Function.update_of_ne hj, if_neg hj]
      exact hasDerivAt_const _ _
  refine (HasDerivAt.fun_sum fun j _ => h j).congr_deriv ?_
  rw [Finset.sum_ite_eq' Finset.univ k, if_pos (Finset.mem_univ _)]
  dsimp only
  split <;> simp

/-- **C114.** The second array holds the derivatives of the residual with respect to the field. -/
theorem C114_field (d : Data n) (wt : Bool) (l k : Fin 3) (hB : wt = true → d.B2 ≠ 0) : HasDerivAt (fun t => (d.setB k t).rtil wt l) (d.drtil_dB wt l k) (d.B k) := by
  have hm := (moves_B d k).toMoves
  have h := hm.d_rtil wt (by rw [setB_self]; exact hB) l
  simp only [setB_self] at h
  refine h.congr_deriv ?_
  have e : ∑ j, d.B j * (if j = k then (1 : ℝ) else 0) = d.B k := by simp
  rw [e]
  cases wt
  · simp only [Data.drtil_dB, Data.dresidual_dB, Bool.false_eq_true, if_false]
    simp only [Pi.zero_apply]
    split <;> ring
  · have hB1 := hB rfl
    simp only [Data.drtil_dB, Data.dresidual_dB, Data.dw_dB, if_true, B2_rpow hB1]
    simp only [Pi.zero_apply]
    split <;> ring

/-- **C114.** The fourth array holds the derivatives of the Jacobian with respect to the field, with the gradient of the field held fixed. -/
theorem C114_jacobian_field (d : Data n) (wt : Bool) (l k : Fin 3) (a : Col n) (hB : wt = true → d.B2 ≠ 0) : HasDerivAt (fun t => (d.setB k t).J wt l a) (d.d2rtil_dsurfacedB wt l k a) (d.B k) := by
  have hm := moves_B d k
  have hBt : wt = true → (d.setB k (d.B k)).B2 ≠ 0 := by rw [setB_self]; exact hB
  have e : ∑ j, d.B j * (if j = k then (1 : ℝ) else 0) = d.B k := by simp
  have e2 : ∀ m, ∑ j, ((if j = k then (1 : ℝ) else 0) * d.dB_dc j m + d.B j * 0) = d.dB_dc k m := by intro m; simp
  cases a with
  | c m =>
    cases wt
    · have h := hm.d_dresidual l m
      simp only [setB_self, Pi.zero_apply, e, e2] at h
      refine h.congr_deriv ?_
      simp only [Data.d2rtil_dsurfacedB, Data.d2residual_dcdB, Data.dtang_dc, Bool.false_eq_true, if_false]
      ring
    · have h := ((hm.d_residual l).fun_mul (hm.d_dw (hBt rfl) m)).fun_add ((hm.d_w (hBt rfl)).fun_mul (hm.d_dresidual l m))
      simp only [setB_self, Pi.zero_apply, e, e2] at h
      refine h.congr_deriv ?_
      have hB1 := hB rfl
      have hp := (modB_pos hB1).ne'
      simp only [Data.d2rtil_dsurfacedB, Data.d2residual_dcdB, Data.d2w_dcdB, Data.dw_dB, Data.dresidual_dB, dw_dc'_eq, dw_dc_eq, dresidual_dc'_eq, Data.dtang_dc, Data.dB2_dc, if_true, B2_rpow hB1]
      have q6 : d.B2 ^ 3 = d.modB ^ 6 := by rw [← modB_sq]; ring
      rw [q6]
      generalize d.dresidual_dc l m = r0
      generalize d.residual l = r1
      generalize ∑ k, d.B k * d.dB_dc k m = S
      have hw : d.w = 1 / d.modB := rfl
      rw [hw]
      split
      · field_simp
        ring
      · field_simp
        ring
  | iota =>
    cases wt
    · have h := hm.d_B2.fun_neg.fun_mul (hm.xtheta l)
      simp only [setB_self, Pi.zero_apply, e] at h
      refine h.congr_deriv ?_
      simp only [Data.d2rtil_dsurfacedB, Data.d2residual_diotadB, Bool.false_eq_true, if_false]
      ring
    · have h := (hm.d_w (hBt rfl)).fun_mul (hm.d_B2.fun_neg.fun_mul (hm.xtheta l))
      simp only [setB_self, Pi.zero_apply, e] at h
      refine h.congr_deriv ?_
      simp only [Data.d2rtil_dsurfacedB, Data.d2residual_diotadB, Data.dw_dB, Data.dresidual_diota, if_true, B2_rpow (hB rfl)]
      ring
  | G =>
    cases wt
    · exact hm.B l
    · have h := (hm.d_w (hBt rfl)).fun_mul (hm.B l)
      simp only [setB_self, e] at h
      refine h.congr_deriv ?_
      simp only [Data.d2rtil_dsurfacedB, Data.dw_dB, if_true, B2_rpow (hB rfl)]
      ring

/-- **C114.** The fifth array holds the derivatives of the Jacobian with respect to the gradient of the field, with the field held fixed. -/
theorem C114_jacobian_gradient (d : Data n) (wt : Bool) (l k p : Fin 3) (a : Col n) (hB : wt = true → d.B2 ≠ 0) :
    HasDerivAt (fun t => (d.setGradB k p t).J wt l a) (d.d2rtil_dsurfacedgradB wt l k p a) (d.dB k p) := by
  have hm := moves_gradB d k p
  have hBt : wt = true → (d.setGradB k p (d.dB k p)).B2 ≠ 0 := by rw [setGradB_self]; exact hB
  have e : ∑ j, d.B j * (0 : ℝ) = 0 := by simp
  have e2 : ∀ m, ∑ j, ((0 : ℝ) * d.dB_dc j m + d.B j * (if j = p then d.dx k m else 0)) = d.B p * d.dx k m := by intro m; simp
  cases a with
  | c m =>
    cases wt
    · have h := hm.d_dresidual l m
      simp only [setGradB_self, Pi.zero_apply, e, e2] at h
      refine h.congr_deriv ?_
      simp only [Data.d2rtil_dsurfacedgradB, Data.d2residual_dcdgradB, Bool.false_eq_true, if_false]
      split <;> ring
    · have h := ((hm.d_residual l).fun_mul (hm.d_dw (hBt rfl) m)).fun_add ((hm.d_w (hBt rfl)).fun_mul (hm.d_dresidual l m))
      simp only [setGradB_self, Pi.zero_apply, e, e2] at h
      refine h.congr_deriv ?_
      simp only [Data.d2rtil_dsurfacedgradB, Data.d2residual_dcdgradB, Data.d2w_dcdgradB, Data.dw_dB, if_true, B2_rpow (hB rfl)]
      split <;> ring
  | iota => exact hasDerivAt_const (d.dB k p) (d.J wt l .iota)
  | G => exact hasDerivAt_const (d.dB k p) (d.J wt l .G)

end Simsopt.BSurf
