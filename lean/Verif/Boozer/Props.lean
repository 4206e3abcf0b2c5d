import Verif.Boozer.Model
import Mathlib.Analysis.Calculus.Deriv.Add
import Mathlib.Analysis.Calculus.Deriv.Mul
import Mathlib.Analysis.Calculus.Deriv.Inv
import Mathlib.Analysis.Calculus.Deriv.Pow
import Mathlib.Analysis.Calculus.Deriv.Prod
import Mathlib.Tactic.FieldSimp
import Mathlib.Tactic.LinearCombination
import Mathlib.Tactic.Positivity
import Mathlib.Tactic.NormNum

/-!
# The Jacobian and the second derivatives of the Boozer residual (C113)
-/
namespace Simsopt.BSurf
variable {N n : ℕ}

/-- The velocity of a surface quantity when one unknown moves. -/
def vel (g : Fin n → ℝ) : Col n → ℝ
  | .c m => g m
  | .iota => 0
  | .G => 0

theorem d_coord (u : Col n → ℝ) (a b : Col n) : HasDerivAt (fun t => Function.update u a t b) (if b = a then 1 else 0) (u a) := by
  by_cases h : b = a
  · subst h
    simp only [Function.update_self, if_true]
    exact hasDerivAt_id' _
  · simp only [Function.update_of_ne h, if_neg h]
    exact hasDerivAt_const _ _

theorem d_lin (g : Fin n → ℝ) (u : Col n → ℝ) (a : Col n) : HasDerivAt (fun t => ∑ m, g m * Function.update u a t (.c m)) (vel g a) (u a) := by
  refine (HasDerivAt.fun_sum fun m _ => (d_coord u a (.c m)).const_mul (g m)).congr_deriv ?_
  cases a with
  | c m' =>
    simp only [vel, Col.c.injEq, mul_ite, mul_one, mul_zero]
    rw [Finset.sum_ite_eq' Finset.univ m' g, if_pos (Finset.mem_univ _)]
  | iota => simp [vel]
  | G => simp [vel]

theorem d_comp {f : V → ℝ} {a : V} {p : V} (h : HasFDerivAt f (∑ k, a k • ContinuousLinearMap.proj (R := ℝ) (φ := fun _ : Fin 3 => ℝ) k) p)
    {γ : ℝ → V} {v : V} {t : ℝ} (hp : γ t = p) (hγ : ∀ k, HasDerivAt (fun τ => γ τ k) (v k) t) : HasDerivAt (fun τ => f (γ τ)) (∑ k, a k * v k) t := by
  subst hp
  have := h.comp_hasDerivAt t (hasDerivAt_pi.mpr hγ)
  refine this.congr_deriv ?_
  simp [ContinuousLinearMap.sum_apply]

/-- The velocities of what is read at a point, when the unknown `a` moves. -/
structure Vel (n : ℕ) where
  G : ℝ
  iota : ℝ
  xphi : V
  xtheta : V
  B : V
  dBdc : Fin 3 → Fin n → ℝ

def velOf (d : Data n) : Col n → Vel n
  | .c m => ⟨0, 0, fun l => d.dxphi l m, fun l => d.dxtheta l m, fun l => d.dB_dc l m, fun l m' => d.d2B_dcdc l m' m⟩
  | .iota => ⟨0, 1, 0, 0, 0, 0⟩
  | .G => ⟨1, 0, 0, 0, 0, 0⟩

/-- A curve of data. -/
structure Moves (D : ℝ → Data n) (v : Vel n) (t : ℝ) : Prop where
  G : HasDerivAt (fun τ => (D τ).G) v.G t
  iota : HasDerivAt (fun τ => (D τ).iota) v.iota t
  xphi : ∀ l, HasDerivAt (fun τ => (D τ).xphi l) (v.xphi l) t
  xtheta : ∀ l, HasDerivAt (fun τ => (D τ).xtheta l) (v.xtheta l) t
  B : ∀ l, HasDerivAt (fun τ => (D τ).B l) (v.B l) t
  dxphi : ∀ τ, (D τ).dxphi = (D t).dxphi
  dxtheta : ∀ τ, (D τ).dxtheta = (D t).dxtheta

structure Moves2 (D : ℝ → Data n) (v : Vel n) (t : ℝ) : Prop extends Moves D v t where
  dB : ∀ l m, HasDerivAt (fun τ => (D τ).dB_dc l m) (v.dBdc l m) t

theorem moves (s : Setting N n) (u : Col n → ℝ) (q : Fin N) (a : Col n) (h : s.Diff1 (s.x u q)) :
    Moves (fun t => s.data (Function.update u a t) q) (velOf (s.data u q) a) (u a) := by
  have hx : ∀ k, HasDerivAt (fun t => s.x (Function.update u a t) q k) (vel (s.gx q k) a) (u a) := fun k => d_lin _ _ _
  have hu : s.x (Function.update u a (u a)) q = s.x u q := by rw [Function.update_eq_self]
  have hB : ∀ l, HasDerivAt (fun t => s.F (s.x (Function.update u a t) q) l) (∑ k, s.dF (s.x u q) k l * vel (s.gx q k) a) (u a) :=
    fun l => d_comp (h l) hu hx
  constructor
  · refine (d_coord u a .G).congr_deriv ?_
    cases a <;> simp [velOf]
  · refine (d_coord u a .iota).congr_deriv ?_
    cases a <;> simp [velOf]
  · intro l
    refine (d_lin (s.gphi q l) u a).congr_deriv ?_
    cases a <;> rfl
  · intro l
    refine (d_lin (s.gtheta q l) u a).congr_deriv ?_
    cases a <;> rfl
  · intro l
    refine (hB l).congr_deriv ?_
    cases a <;> simp [velOf, vel, Data.dB_dc, Setting.data]
  · intro τ; rfl
  · intro τ; rfl

theorem moves2 (s : Setting N n) (u : Col n → ℝ) (q : Fin N) (a : Col n) (h : s.Diff1 (s.x u q)) (h2 : s.Diff2 (s.x u q)) :
    Moves2 (fun t => s.data (Function.update u a t) q) (velOf (s.data u q) a) (u a) := by
  have hx : ∀ k, HasDerivAt (fun t => s.x (Function.update u a t) q k) (vel (s.gx q k) a) (u a) := fun k => d_lin _ _ _
  have hu : s.x (Function.update u a (u a)) q = s.x u q := by rw [Function.update_eq_self]
  refine ⟨moves s u q a h, fun l m => ?_⟩
  have hB : ∀ k, HasDerivAt (fun t => s.dF (s.x (Function.update u a t) q) k l) (∑ j, s.d2F (s.x u q) k j l * vel (s.gx q j) a) (u a) :=
    fun k => d_comp (h2 k l) hu hx
  refine (HasDerivAt.fun_sum fun k _ => (hB k).mul_const (s.gx q k m)).congr_deriv ?_
  cases a with
  | c m' =>
    simp only [velOf, vel, Data.d2B_dcdc, Setting.data]
    refine Finset.sum_congr rfl fun k _ => ?_
    rw [Finset.sum_mul]
  | iota => simp [velOf, vel]
  | G => simp [velOf, vel]

section
variable {D : ℝ → Data n} {v : Vel n} {t : ℝ}

theorem Moves.d_B2 (h : Moves D v t) : HasDerivAt (fun τ => (D τ).B2) (2 * ∑ k, (D t).B k * v.B k) t := by
  refine (HasDerivAt.fun_sum fun l _ => (h.B l).fun_pow 2).congr_deriv ?_
  rw [Finset.mul_sum]
  refine Finset.sum_congr rfl fun k _ => ?_
  push_cast; ring

theorem Moves.d_tang (h : Moves D v t) (l : Fin 3) : HasDerivAt (fun τ => (D τ).tang l) (v.xphi l + (v.iota * (D t).xtheta l + (D t).iota * v.xtheta l)) t :=
  (h.xphi l).fun_add (h.iota.fun_mul (h.xtheta l))

theorem Moves.d_residual (h : Moves D v t) (l : Fin 3) : HasDerivAt (fun τ => (D τ).residual l)
    (v.G * (D t).B l + (D t).G * v.B l - ((2 * ∑ k, (D t).B k * v.B k) * (D t).tang l + (D t).B2 * (v.xphi l + (v.iota * (D t).xtheta l + (D t).iota * v.xtheta l)))) t :=
  (h.G.fun_mul (h.B l)).fun_sub (h.d_B2.fun_mul (h.d_tang l))

theorem Moves.d_modB (h : Moves D v t) (hB : (D t).B2 ≠ 0) : HasDerivAt (fun τ => (D τ).modB) ((∑ k, (D t).B k * v.B k) / (D t).modB) t := by
  refine (h.d_B2.sqrt hB).congr_deriv ?_
  unfold Data.modB
  rw [mul_div_mul_left _ _ two_ne_zero]

theorem B2_nonneg (d : Data n) : 0 ≤ d.B2 := Finset.sum_nonneg fun _ _ => sq_nonneg _

theorem modB_pos {d : Data n} (h : d.B2 ≠ 0) : 0 < d.modB := Real.sqrt_pos.mpr (lt_of_le_of_ne (B2_nonneg d) h.symm)

theorem modB_sq (d : Data n) : d.modB ^ 2 = d.B2 := Real.sq_sqrt (B2_nonneg d)

theorem Moves.d_w (h : Moves D v t) (hB : (D t).B2 ≠ 0) : HasDerivAt (fun τ => (D τ).w) (-(∑ k, (D t).B k * v.B k) / (D t).modB ^ 3) t := by
  have hm := (modB_pos hB).ne'
  refine ((hasDerivAt_const t (1 : ℝ)).fun_div (h.d_modB hB) hm).congr_deriv ?_
  field_simp
  ring

theorem B2_rpow {d : Data n} (h : d.B2 ≠ 0) : d.B2 ^ (1.5 : ℝ) = d.modB ^ 3 := by
  have hp : 0 < d.B2 := lt_of_le_of_ne (B2_nonneg d) h.symm
  rw [show (1.5 : ℝ) = 1 + 1 / 2 by norm_num, Real.rpow_add hp, Real.rpow_one, ← Real.sqrt_eq_rpow]
  show d.B2 * d.modB = _
  rw [← modB_sq]; ring

theorem dw_dc_eq {d : Data n} (m : Fin n) : d.dw_dc m = -(∑ k, d.B k * d.dB_dc k m) / d.modB ^ 3 := by
  unfold Data.dw_dc Data.dmodB_dc Data.dB2_dc
  show -(0.5 * (2 * _) / d.modB) / _ = _
  rw [← mul_assoc, show (0.5 : ℝ) * 2 = 1 by norm_num, one_mul, ← neg_div, div_div]
  congr 1
  ring

/-- The derivative of the weighted or unweighted residual along a curve. -/
theorem Moves.d_rtil (h : Moves D v t) (wt : Bool) (hB : wt = true → (D t).B2 ≠ 0) (l : Fin 3) : HasDerivAt (fun τ => (D τ).rtil wt l)
    (let dr := v.G * (D t).B l + (D t).G * v.B l - ((2 * ∑ k, (D t).B k * v.B k) * (D t).tang l + (D t).B2 * (v.xphi l + (v.iota * (D t).xtheta l + (D t).iota * v.xtheta l)))
     if wt then -(∑ k, (D t).B k * v.B k) / (D t).modB ^ 3 * (D t).residual l + (D t).w * dr else dr) t := by
  cases wt with
  | false => exact h.d_residual l
  | true => exact (h.d_w (hB rfl)).fun_mul (h.d_residual l)

theorem Moves2.d_dot (h : Moves2 D v t) (m : Fin n) : HasDerivAt (fun τ => ∑ k, (D τ).B k * (D τ).dB_dc k m) (∑ k, (v.B k * (D t).dB_dc k m + (D t).B k * v.dBdc k m)) t :=
  HasDerivAt.fun_sum fun k _ => (h.B k).fun_mul (h.dB k m)


theorem Moves2.d_dresidual (h : Moves2 D v t) (l : Fin 3) (m : Fin n) : HasDerivAt (fun τ => (D τ).dresidual_dc l m)
    (v.G * (D t).dB_dc l m + (D t).G * v.dBdc l m
      - (2 * (∑ k, (v.B k * (D t).dB_dc k m + (D t).B k * v.dBdc k m)) * (D t).tang l + 2 * (∑ k, (D t).B k * (D t).dB_dc k m) * (v.xphi l + (v.iota * (D t).xtheta l + (D t).iota * v.xtheta l)))
      - (2 * (∑ k, (D t).B k * v.B k) * ((D t).dxphi l m + (D t).iota * (D t).dxtheta l m) + (D t).B2 * (v.iota * (D t).dxtheta l m))) t := by
  have e : (fun τ => (D τ).dresidual_dc l m) = fun τ => (D τ).G * (D τ).dB_dc l m - 2 * (∑ k, (D τ).B k * (D τ).dB_dc k m) * (D τ).tang l - (D τ).B2 * ((D t).dxphi l m + (D τ).iota * (D t).dxtheta l m) := by
    funext τ
    rw [← h.dxphi τ, ← h.dxtheta τ, Fin.sum_univ_three]
    rfl
  rw [e]
  exact (((h.G.fun_mul (h.dB l m)).fun_sub (((h.d_dot m).const_mul 2).fun_mul (h.d_tang l))).fun_sub (h.d_B2.fun_mul ((h.iota.mul_const _).const_add _)))

theorem Moves2.d_dw (h : Moves2 D v t) (hB : (D t).B2 ≠ 0) (m : Fin n) : HasDerivAt (fun τ => (D τ).dw_dc m)
    (3 * (∑ k, (D t).B k * v.B k) * (∑ k, (D t).B k * (D t).dB_dc k m) / (D t).modB ^ 5 - (∑ k, (v.B k * (D t).dB_dc k m + (D t).B k * v.dBdc k m)) / (D t).modB ^ 3) t := by
  have hm := (modB_pos hB).ne'
  simp only [dw_dc_eq]
  refine ((h.d_dot m).fun_neg.fun_div ((h.d_modB hB).fun_pow 3) (pow_ne_zero 3 hm)).congr_deriv ?_
  push_cast
  field_simp
  ring

end

theorem d2w_eq {d : Data n} (h : d.B2 ≠ 0) (m m' : Fin n) : d.d2w_dc2 m m' =
    3 * (∑ k, d.B k * d.dB_dc k m') * (∑ k, d.B k * d.dB_dc k m) / d.modB ^ 5 - (∑ k, (d.dB_dc k m' * d.dB_dc k m + d.B k * d.d2B_dcdc k m m')) / d.modB ^ 3 := by
  have hm := (modB_pos h).ne'
  unfold Data.d2w_dc2 Data.d2modB_dc2 Data.dmodB_dc Data.d2B2_dcdc Data.dB2_dc
  rw [B2_rpow h, ← modB_sq, Real.sqrt_sq (modB_pos h).le]
  have e1 : ∑ k, (d.dB_dc k m' * d.dB_dc k m + d.B k * d.d2B_dcdc k m m') = (∑ l, d.dB_dc l m * d.dB_dc l m') + ∑ l, d.d2B_dcdc l m m' * d.B l := by
    rw [← Finset.sum_add_distrib]
    exact Finset.sum_congr rfl fun k _ => by ring
  rw [e1]
  generalize (∑ k, d.B k * d.dB_dc k m') = a at *
  generalize (∑ k, d.B k * d.dB_dc k m) = b at *
  dsimp only
  generalize (∑ l, d.dB_dc l m * d.dB_dc l m') = c at *
  generalize (∑ l, d.d2B_dcdc l m m' * d.B l) = e at *
  field_simp
  ring

theorem rtil_eq_boozer (s : Setting N n) (wt : Bool) (u : Col n → ℝ) (q : Fin N) (l : Fin 3) : (s.data u q).rtil wt l = s.boozer wt u q l := by
  have h : (s.data u q).B2 = s.F (s.x u q) 0 ^ 2 + s.F (s.x u q) 1 ^ 2 + s.F (s.x u q) 2 ^ 2 := by
    unfold Data.B2
    rw [Fin.sum_univ_three]; rfl
  have hm : √(s.F (s.x u q) 0 ^ 2 + s.F (s.x u q) 1 ^ 2 + s.F (s.x u q) 2 ^ 2) = (s.data u q).modB := by
    unfold Data.modB; rw [h]
  unfold Setting.boozer Data.rtil Data.w
  dsimp only
  rw [hm, modB_sq]
  cases wt
  · rfl
  · show 1 / _ * _ = _ / _
    rw [one_div, mul_comm, ← div_eq_mul_inv]
    rfl

theorem B2_ne (s : Setting N n) (u : Col n → ℝ) (q : Fin N) (h : s.F (s.x u q) ≠ 0) : (s.data u q).B2 ≠ 0 := by
  intro h0
  apply h
  funext l
  have := (Finset.sum_eq_zero_iff_of_nonneg (fun i _ => sq_nonneg ((s.data u q).B i))).mp h0 l (Finset.mem_univ _)
  exact pow_eq_zero_iff two_ne_zero |>.mp this

/-- **C113.** Value: `boozer_surface_residual` returns the Boozer residual. -/
theorem C113_value (s : Setting N n) (wt : Bool) (u : Col n → ℝ) (q : Fin N) (l : Fin 3) : (s.data u q).rtil wt l = s.boozer wt u q l :=
  rtil_eq_boozer s wt u q l

/-- **C113.** Jacobian: each column holds the partial derivatives of the residual, with respect to each dof of the surface, to `iota` and to `G`, wherever the field is differentiable with the derivative that `dB_by_dX` returns and, for the weighted residual, does not vanish. -/
theorem C113_jacobian (s : Setting N n) (wt : Bool) (u : Col n → ℝ) (q : Fin N) (l : Fin 3) (a : Col n) (hd : s.Diff1 (s.x u q)) (hB : wt = true → s.F (s.x u q) ≠ 0) :
    HasDerivAt (fun t => s.boozer wt (Function.update u a t) q l) ((s.data u q).J wt l a) (u a) := by
  have hm := moves s u q a hd
  have hu : s.data (Function.update u a (u a)) q = s.data u q := by rw [Function.update_eq_self]
  have h := hm.d_rtil wt (by rw [hu]; exact fun h => B2_ne s u q (hB h)) l
  simp only [rtil_eq_boozer, hu] at h
  refine h.congr_deriv ?_
  generalize s.data u q = d
  cases a with
  | c m =>
    cases wt
    · simp only [velOf, Data.J, Data.dresidual_dc, Data.tang, Fin.sum_univ_three]
      simp only [Bool.false_eq_true, if_false]
      ring
    · simp only [velOf, Data.J, dw_dc_eq, Data.dresidual_dc, Data.tang, Fin.sum_univ_three]
      simp only [if_true]
      ring
  | iota =>
    cases wt <;> simp [velOf, Data.J, Data.dresidual_diota]
  | G =>
    cases wt <;> simp [velOf, Data.J]

/-- **C113.** Second derivatives: the array `H` holds the partial derivatives of the Jacobian, wherever the field is twice differentiable with the derivatives that `dB_by_dX` and `d2B_by_dXdX` return and, for the weighted residual, does not vanish. -/
theorem C113_second_derivatives (s : Setting N n) (wt : Bool) (u : Col n → ℝ) (q : Fin N) (l : Fin 3) (a b : Col n) (hd : s.Diff1 (s.x u q)) (hd2 : s.Diff2 (s.x u q)) (hB : wt = true → s.F (s.x u q) ≠ 0) :
    HasDerivAt (fun t => (s.data (Function.update u b t) q).J wt l a) ((s.data u q).H wt l a b) (u b) := by
  have hm := moves2 s u q b hd hd2
  have hu : s.data (Function.update u b (u b)) q = s.data u q := by rw [Function.update_eq_self]
  have hBt : wt = true → (s.data (Function.update u b (u b)) q).B2 ≠ 0 := by rw [hu]; exact fun h => B2_ne s u q (hB h)
  have hB0 : wt = true → (s.data u q).B2 ≠ 0 := fun h => B2_ne s u q (hB h)
  cases a with
  | c m =>
    cases wt
    · have h := hm.d_dresidual l m
      simp only [hu] at h
      refine h.congr_deriv ?_
      generalize s.data u q = d
      cases b with
      | c m' =>
        simp only [velOf, Data.H, Data.d2rtil_dcdc, Data.d2residual_by_dcdc, Data.d2B2_dcdc, Data.dB2_dc, Data.tang, Fin.sum_univ_three]
        simp only [Bool.false_eq_true, if_false]
        ring
      | iota =>
        simp only [velOf, Data.H, Data.d2rtil_dcdiota, Data.d2residual_by_dcdiota, Data.dB2_dc, Data.tang, Fin.sum_univ_three]
        simp
        ring
      | G => simp [velOf, Data.H, Data.d2rtil_dcdG]
    · have h := ((hm.d_residual l).fun_mul (hm.d_dw (hBt rfl) m)).fun_add ((hm.d_w (hBt rfl)).fun_mul (hm.d_dresidual l m))
      simp only [hu] at h
      have e : (fun t => (s.data (Function.update u b t) q).J true l (.c m)) = fun t => (s.data (Function.update u b t) q).residual l * (s.data (Function.update u b t) q).dw_dc m + (s.data (Function.update u b t) q).w * (s.data (Function.update u b t) q).dresidual_dc l m := rfl
      rw [e]
      refine h.congr_deriv ?_
      have hB1 := hB0 rfl
      generalize s.data u q = d at hB1 ⊢
      cases b with
      | c m' =>
        simp only [velOf, Data.H, Data.d2rtil_dcdc, d2w_eq hB1, if_true, dw_dc_eq, Data.d2residual_by_dcdc, Data.d2B2_dcdc, Data.dB2_dc, Data.dresidual_dc, Data.tang, Fin.sum_univ_three]
        ring
      | iota =>
        simp only [velOf, Data.H, Data.d2rtil_dcdiota, if_true, dw_dc_eq, Data.d2residual_by_dcdiota, Data.dB2_dc, Data.dresidual_diota, Data.tang, Fin.sum_univ_three]
        simp
        ring
      | G =>
        simp only [velOf, Data.H, Data.d2rtil_dcdG, if_true, dw_dc_eq, Fin.sum_univ_three]
        simp
        ring
  | iota =>
    cases wt
    · have h := hm.d_B2.fun_neg.fun_mul (hm.xtheta l)
      simp only [hu] at h
      refine h.congr_deriv ?_
      generalize s.data u q = d
      cases b with
      | c m' =>
        simp only [velOf, Data.H, Data.d2rtil_dcdiota, Data.d2residual_by_dcdiota, Data.dB2_dc, Fin.sum_univ_three]
        simp
        ring
      | iota => simp [velOf, Data.H]
      | G => simp [velOf, Data.H]
    · have h := (hm.d_w (hBt rfl)).fun_mul (hm.d_B2.fun_neg.fun_mul (hm.xtheta l))
      simp only [hu] at h
      have e : (fun t => (s.data (Function.update u b t) q).J true l .iota) = fun t => (s.data (Function.update u b t) q).w * (-(s.data (Function.update u b t) q).B2 * (s.data (Function.update u b t) q).xtheta l) := rfl
      rw [e]
      refine h.congr_deriv ?_
      generalize s.data u q = d
      cases b with
      | c m' =>
        simp only [velOf, Data.H, Data.d2rtil_dcdiota, if_true, dw_dc_eq, Data.d2residual_by_dcdiota, Data.dB2_dc, Data.dresidual_diota, Fin.sum_univ_three]
        ring
      | iota => simp [velOf, Data.H]
      | G => simp [velOf, Data.H]
  | G =>
    cases wt
    · have h := hm.B l
      refine h.congr_deriv ?_
      cases b with
      | c m' => simp [velOf, Data.H, Data.d2rtil_dcdG]
      | iota => simp [velOf, Data.H]
      | G => simp [velOf, Data.H]
    · have h := (hm.d_w (hBt rfl)).fun_mul (hm.B l)
      simp only [hu] at h
      have e : (fun t => (s.data (Function.update u b t) q).J true l .G) = fun t => (s.data (Function.update u b t) q).w * (s.data (Function.update u b t) q).B l := rfl
      rw [e]
      refine h.congr_deriv ?_
      generalize s.data u q = d
      cases b with
      | c m' =>
        simp only [velOf, Data.H, Data.d2rtil_dcdG, if_true, dw_dc_eq, Fin.sum_univ_three]
      | iota => simp [velOf, Data.H]
      | G => simp [velOf, Data.H]

end Simsopt.BSurf
