import Verif.Boozer.DB
import Verif.Boozer.Penalty
import Mathlib.Data.Matrix.Mul
import Mathlib.Analysis.Normed.Module.FiniteDimension
import Mathlib.Analysis.Calculus.FDeriv.Prod

/-!
# Derivatives with respect to the coils of objectives on a Boozer surface (C119, C120)

Model of `forward_backward` (src/simsopt/objectives/utilities.py L11-33), of the vector-Jacobian products `boozer_surface_dexactresidual_dcoils_dcurrents_vjp` and `boozer_surface_dlsqgrad_dcoils_vjp` (src/simsopt/geo/surfaceobjectives.py L1041-1119), and of the way `MajorRadius`, `NonQuasiSymmetricRatio`,
`Iotas` and `BoozerResidual` use them (L659-681, L745-775, L880-905, L973-1013).
-/
namespace Simsopt.BSurf
open Matrix

/-! ## Triangular solves -/

/-- `scipy.linalg.solve_triangular(A, b, lower=True)`: forward substitution, which reads the entries on and below the diagonal only. -/
noncomputable def solveLower {n : ℕ} (A : Matrix (Fin n) (Fin n) ℝ) (b : Fin n → ℝ) (i : Fin n) : ℝ :=
  (b i - ∑ j : Fin i, A i ⟨j, j.2.trans i.2⟩ * solveLower A b ⟨j, j.2.trans i.2⟩) / A i i
termination_by i.1
decreasing_by exact j.2

/-- `scipy.linalg.solve_triangular(A, b, lower=False)`: backward substitution, which is forward substitution with the rows and the columns in the opposite order. -/
noncomputable def solveUpper {n : ℕ} (A : Matrix (Fin n) (Fin n) ℝ) (b : Fin n → ℝ) : Fin n → ℝ :=
  fun i => solveLower (fun r c => A r.rev c.rev) (fun r => b r.rev) i.rev

/-- `forward_backward`, utilities.py L11-33. -/
noncomputable def forwardBackward {n : ℕ} (P L U : Matrix (Fin n) (Fin n) ℝ) (rhs : Fin n → ℝ) (refine : Bool) : Fin n → ℝ :=
  let y := solveLower Uᵀ rhs
  let z := solveUpper Lᵀ y
  let adj := P *ᵥ z
  if refine then
    let yp := solveLower Uᵀ (rhs - (P * L * U)ᵀ *ᵥ adj)
    let zp := solveUpper Lᵀ yp
    adj + P *ᵥ zp
  else adj

theorem solveLower_spec {n : ℕ} (A : Matrix (Fin n) (Fin n) ℝ) (b : Fin n → ℝ) (hA : ∀ i j, i < j → A i j = 0) (hd : ∀ i, A i i ≠ 0) : A *ᵥ solveLower A b = b := by
  funext i
  have e : (A *ᵥ solveLower A b) i = ∑ j : Fin n, if j < i then A i j * solveLower A b j else if j = i then A i i * solveLower A b i else 0 := by
    show ∑ j : Fin n, A i j * solveLower A b j = _
    refine Finset.sum_congr rfl fun j _ => ?_
    by_cases h : j < i
    · rw [if_pos h]
    · rw [if_neg h]
      by_cases h2 : j = i
      · rw [if_pos h2, h2]
      · rw [if_neg h2, hA i j (lt_of_le_of_ne (not_lt.mp h) (Ne.symm h2)), zero_mul]
  have e2 : ∀ f : Fin n → ℝ, (∑ j : Fin n, if j < i then f j else 0) = ∑ j : Fin i, f ⟨j, j.2.trans i.2⟩ := by
    intro f
    rw [← Finset.sum_filter]
    symm
    refine Finset.sum_bij (fun (j : Fin i) _ => (⟨j, j.2.trans i.2⟩ : Fin n)) ?_ ?_ ?_ ?_
    · intro j _; simp only [Finset.mem_filter, Finset.mem_univ, true_and]; exact j.2
    · intro a _ c _ hac; exact Fin.ext (by simpa using hac)
    · intro j hj
      simp only [Finset.mem_filter, Finset.mem_univ, true_and] at hj
      exact ⟨⟨j, hj⟩, Finset.mem_univ _, rfl⟩
    · intro j _; rfl
  have e3 : ∀ j : Fin n, (if j < i then A i j * solveLower A b j else if j = i then A i i * solveLower A b i else 0) = (if j < i then A i j * solveLower A b j else 0) + if j = i then A i i * solveLower A b i else 0 := by
    intro j
    by_cases h : j < i
    · rw [if_pos h, if_pos h, if_neg (ne_of_lt h), add_zero]
    · rw [if_neg h, if_neg h, zero_add]
  rw [e]
  simp only [e3]
  rw [Finset.sum_add_distrib, e2 (fun j => A i j * solveLower A b j), Finset.sum_ite_eq' Finset.univ i, if_pos (Finset.mem_univ _)]
  conv_lhs => rw [solveLower.eq_1 A b i]
  rw [mul_div_cancel₀ _ (hd i)]
  ring

theorem solveUpper_spec {n : ℕ} (A : Matrix (Fin n) (Fin n) ℝ) (b : Fin n → ℝ) (hA : ∀ i j, j < i → A i j = 0) (hd : ∀ i, A i i ≠ 0) : A *ᵥ solveUpper A b = b := by
  have h := solveLower_spec (fun r c => A r.rev c.rev) (fun r => b r.rev) (fun i j hij => hA _ _ (Fin.rev_lt_rev.mpr hij)) (fun i => hd _)
  funext i
  have hi := congrFun h i.rev
  simp only [Fin.rev_rev] at hi
  rw [← hi]
  show ∑ j : Fin n, A i j * solveUpper A b j = ∑ j : Fin n, A i.rev.rev j.rev * solveLower (fun r c => A r.rev c.rev) (fun r => b r.rev) j
  rw [Fin.rev_rev]
  refine Fintype.sum_equiv (Fin.revPerm) _ _ fun j => ?_
  simp only [Fin.revPerm_apply, Fin.rev_rev]
  rfl

/-- **C119.** `forward_backward` solves `(P L U)ᵀ adj = rhs`, with or without the refinement, if `P` is a permutation matrix (`Pᵀ P = 1`), `L` is lower and `U` upper triangular, and no diagonal entry vanishes. -/
theorem C119_forward_backward {n : ℕ} (P L U : Matrix (Fin n) (Fin n) ℝ) (rhs : Fin n → ℝ) (rf : Bool) (hP : Pᵀ * P = 1) (hL : ∀ i j, i < j → L i j = 0) (hU : ∀ i j, j < i → U i j = 0)
    (hLd : ∀ i, L i i ≠ 0) (hUd : ∀ i, U i i ≠ 0) : (P * L * U)ᵀ *ᵥ forwardBackward P L U rhs rf = rhs := by
  have key : ∀ b : Fin n → ℝ, (P * L * U)ᵀ *ᵥ (P *ᵥ solveUpper Lᵀ (solveLower Uᵀ b)) = b := by
    intro b
    rw [Matrix.transpose_mul, Matrix.transpose_mul, Matrix.mulVec_mulVec, Matrix.mul_assoc, Matrix.mul_assoc, hP, Matrix.mul_one, ← Matrix.mulVec_mulVec,
      solveUpper_spec Lᵀ _ (fun i j h => hL _ _ h) (fun i => hLd i), solveLower_spec Uᵀ _ (fun i j h => hU _ _ h) (fun i => hUd i)]
  unfold forwardBackward
  cases rf
  · exact key rhs
  · simp only [if_true]
    rw [Matrix.mulVec_add, key, key]
    simp

/-- The hypotheses of `C119_forward_backward` are met by a matrix with a real permutation. -/
example : let P : Matrix (Fin 2) (Fin 2) ℝ := !![0, 1; 1, 0]
    let L : Matrix (Fin 2) (Fin 2) ℝ := !![1, 0; 3, 1]
    let U : Matrix (Fin 2) (Fin 2) ℝ := !![2, 5; 0, 7]
    Pᵀ * P = 1 ∧ (∀ i j, i < j → L i j = 0) ∧ (∀ i j, j < i → U i j = 0) ∧ (∀ i, L i i ≠ 0) ∧ ∀ i, U i i ≠ 0 := by
  refine ⟨?_, ?_, ?_, ?_, ?_⟩
  · ext i j; fin_cases i <;> fin_cases j <;> simp [Matrix.mul_apply, Fin.sum_univ_two]
  · intro i j h; fin_cases i <;> fin_cases j <;> simp_all
  · intro i j h; fin_cases i <;> fin_cases j <;> simp_all
  · intro i; fin_cases i <;> simp
  · intro i; fin_cases i <;> simp

/-! ## The adjoint method -/

/-- The linear map with a given matrix for the unknowns and a given vector for the parameter. -/
noncomputable def jac {n m : ℕ} (A : Matrix (Fin m) (Fin n) ℝ) (gp : Fin m → ℝ) : (Fin n → ℝ) × ℝ →L[ℝ] (Fin m → ℝ) :=
  LinearMap.toContinuousLinearMap
    { toFun := fun v => A *ᵥ v.1 + v.2 • gp
      map_add' := by intro v w; simp only [Prod.fst_add, Prod.snd_add, Matrix.mulVec_add, add_smul]; abel
      map_smul' := by intro c v; simp only [Prod.smul_fst, Prod.smul_snd, Matrix.mulVec_smul, smul_eq_mul, mul_smul, RingHom.id_apply, smul_add] }

/-- The same for a number. -/
noncomputable def jac1 {n : ℕ} (fx : Fin n → ℝ) (fp : ℝ) : (Fin n → ℝ) × ℝ →L[ℝ] ℝ :=
  LinearMap.toContinuousLinearMap
    { toFun := fun v => fx ⬝ᵥ v.1 + v.2 * fp
      map_add' := by intro v w; simp only [Prod.fst_add, Prod.snd_add, dotProduct_add, add_mul]; ring
      map_smul' := by intro c v; simp only [Prod.smul_fst, Prod.smul_snd, dotProduct_smul, smul_eq_mul, RingHom.id_apply]; ring }

/-- The gradient that the objectives compute for one coil dof: `adj = forward_backward(P, L, U, dJ_ds)`, and `dJ_by_dcoils - vjp(adj)` (surfaceobjectives.py L675-681, L765-775, L895-905, L1009-1013); `fx` is `dJ_ds`, `fp` the entry of `dJ_by_dcoils` and `gp` what the vector-Jacobian product multiplies `adj` with. -/
noncomputable def adjointGradient {n : ℕ} (P L U : Matrix (Fin n) (Fin n) ℝ) (fx : Fin n → ℝ) (fp : ℝ) (gp : Fin n → ℝ) : ℝ := fp - forwardBackward P L U fx false ⬝ᵥ gp

/-- **C119.** The gradient with the adjoint is the total derivative of the objective along the solutions: if `x t` solves the equations `g (x, t) = 0` for the coil dof `t`, and the matrix that was factored is the Jacobian of `g` in the unknowns, the value of the objective on the solution has that derivative. -/
theorem C119_total_derivative {n : ℕ} (g : (Fin n → ℝ) × ℝ → Fin n → ℝ) (f : (Fin n → ℝ) × ℝ → ℝ) (P L U : Matrix (Fin n) (Fin n) ℝ) (gp fx : Fin n → ℝ) (fp : ℝ) (x : ℝ → Fin n → ℝ) (x' : Fin n → ℝ) (p : ℝ)
    (hP : Pᵀ * P = 1) (hL : ∀ i j, i < j → L i j = 0) (hU : ∀ i j, j < i → U i j = 0) (hLd : ∀ i, L i i ≠ 0) (hUd : ∀ i, U i i ≠ 0)
    (hg : HasFDerivAt g (jac (P * L * U) gp) (x p, p)) (hf : HasFDerivAt f (jac1 fx fp) (x p, p)) (hx : HasDerivAt x x' p) (hsol : ∀ t, g (x t, t) = 0) :
    HasDerivAt (fun t => f (x t, t)) (adjointGradient P L U fx fp gp) p := by
  have hxp : HasDerivAt (fun t => (x t, t)) (x', (1 : ℝ)) p := hx.prodMk (hasDerivAt_id' p)
  have h1 := HasFDerivAt.comp_hasDerivAt (f := fun t => (x t, t)) p hg hxp
  have h0 : HasDerivAt (g ∘ fun t => (x t, t)) 0 p := by
    have : (g ∘ fun t => (x t, t)) = fun _ => 0 := by funext t; exact hsol t
    rw [this]; exact hasDerivAt_const _ _
  have hlin : (P * L * U) *ᵥ x' + gp = 0 := by
    have := h1.unique h0
    simpa [jac] using this
  have h2 := HasFDerivAt.comp_hasDerivAt (f := fun t => (x t, t)) p hf hxp
  refine h2.congr_deriv ?_
  have hadj := C119_forward_backward P L U fx false hP hL hU hLd hUd
  unfold adjointGradient
  show fx ⬝ᵥ x' + 1 * fp = _
  have e : fx ⬝ᵥ x' = forwardBackward P L U fx false ⬝ᵥ ((P * L * U) *ᵥ x') := by
    rw [dotProduct_mulVec, ← mulVec_transpose, hadj]
  have e2 : (P * L * U) *ᵥ x' = -gp := by
    rw [← sub_eq_zero, sub_neg_eq_add]; exact hlin
  rw [e, e2, dotProduct_neg]
  ring

/-- The hypotheses are met: one unknown, `g (x, p) = 2 x - p`, the solution `x = p / 2`. -/
example : ∃ (g : (Fin 1 → ℝ) × ℝ → Fin 1 → ℝ) (x : ℝ → Fin 1 → ℝ), HasFDerivAt g (jac ((1 : Matrix (Fin 1) (Fin 1) ℝ) * 1 * !![2]) ![-1]) (x 3, 3) ∧ (∀ t, g (x t, t) = 0) ∧ HasDerivAt x ![1 / 2] 3 := by
  refine ⟨fun v => jac ((1 : Matrix (Fin 1) (Fin 1) ℝ) * 1 * !![2]) ![-1] v, fun t => ![t / 2], ContinuousLinearMap.hasFDerivAt _, ?_, ?_⟩
  · intro t
    funext i
    fin_cases i
    simp [jac, Matrix.mulVec, dotProduct]
    ring
  · refine hasDerivAt_pi.mpr fun i => ?_
    fin_cases i
    simpa using (hasDerivAt_id' (3 : ℝ)).div_const 2

/-! ## The vector-Jacobian products -/
variable {N n : ℕ}

/-- How the field and its gradient at the quadrature points move with one coil dof: `Bd q k` and `Gd q k p` are the derivatives of `B[k]` and of `dB_by_dX[k, p]`. -/
structure CoilDir (N : ℕ) where
  Bd : Fin N → Fin 3 → ℝ
  Gd : Fin N → Fin 3 → Fin 3 → ℝ

/-- `biotsavart.B_vjp(v)`, the entry of one coil dof: what `v` multiplies the derivative of the field with (C31, C32 prove this of the Biot-Savart field). -/
def bVjp (cd : CoilDir N) (v : Fin N → Fin 3 → ℝ) : ℝ := ∑ q, ∑ k, v q k * cd.Bd q k
/-- `biotsavart.B_and_dB_vjp(v, vgrad)`, the sum of the two results. -/
def bdbVjp (cd : CoilDir N) (v : Fin N → Fin 3 → ℝ) (vg : Fin N → Fin 3 → Fin 3 → ℝ) : ℝ := (∑ q, ∑ k, v q k * cd.Bd q k) + ∑ q, ∑ k, ∑ p, vg q k p * cd.Gd q k p

/-- The sum over the columns of a row vector times a column vector. -/
def colSum (f : Col n → ℝ) : ℝ := (∑ m, f (.c m)) + (f .iota + f .G)

/-- `boozer_surface_dlsqgrad_dcoils_vjp`, surfaceobjectives.py L1086-1119, the entry of one coil dof: `v1`, `v2` and `v3` of L1113-1115, with all the arrays divided by the root of the number of residuals. -/
noncomputable def lsqVjp (wt : Bool) (d : Fin N → Data n) (cd : CoilDir N) (lm : Col n → ℝ) : ℝ :=
  let rt := √((3 * N : ℕ) : ℝ)
  let r := fun q l => (d q).rtil wt l / rt
  let dr_dB := fun q l k => (d q).drtil_dB wt l k / rt
  let dr_ds := fun q l a => (d q).J' wt l a / rt
  let d2r_dsdB := fun q l k a => (d q).d2rtil_dsurfacedB wt l k a / rt
  let d2r_dsdgradB := fun q l k p a => (d q).d2rtil_dsurfacedgradB wt l k p a / rt
  let v1 := fun q k => ∑ l, colSum (fun a => lm a * dr_ds q l a) * dr_dB q l k
  let v2 := fun q k => ∑ l, r q l * colSum fun a => lm a * d2r_dsdB q l k a
  let v3 := fun q k p => ∑ l, r q l * colSum fun a => lm a * d2r_dsdgradB q l k p a
  bdbVjp cd (fun q k => v1 q k + v2 q k) v3

/-- A curve of data along which only the field and its gradient move. -/
structure FieldMoves (D : ℝ → Data n) (Bd : Fin 3 → ℝ) (Gd : Fin 3 → Fin 3 → ℝ) (t : ℝ) : Prop where
  G : ∀ τ, (D τ).G = (D t).G
  iota : ∀ τ, (D τ).iota = (D t).iota
  xphi : ∀ τ, (D τ).xphi = (D t).xphi
  xtheta : ∀ τ, (D τ).xtheta = (D t).xtheta
  dx : ∀ τ, (D τ).dx = (D t).dx
  dxphi : ∀ τ, (D τ).dxphi = (D t).dxphi
  dxtheta : ∀ τ, (D τ).dxtheta = (D t).dxtheta
  B : ∀ k, HasDerivAt (fun τ => (D τ).B k) (Bd k) t
  dB : ∀ k p, HasDerivAt (fun τ => (D τ).dB k p) (Gd k p) t

theorem FieldMoves.moves2 {D : ℝ → Data n} {Bd : Fin 3 → ℝ} {Gd : Fin 3 → Fin 3 → ℝ} {t : ℝ} (h : FieldMoves D Bd Gd t) :
    Moves2 D ⟨0, 0, 0, 0, Bd, fun l m => ∑ k, Gd k l * (D t).dx k m⟩ t := by
  refine ⟨⟨?_, ?_, ?_, ?_, h.B, h.dxphi, h.dxtheta⟩, ?_⟩
  · simp only [h.G]; exact hasDerivAt_const _ _
  · simp only [h.iota]; exact hasDerivAt_const _ _
  · intro l; simp only [h.xphi]; exact hasDerivAt_const _ _
  · intro l; simp only [h.xtheta]; exact hasDerivAt_const _ _
  · intro l m
    simp only [Data.dB_dc, h.dx]
    exact HasDerivAt.fun_sum fun k _ => (h.dB k l).mul_const _

theorem FieldMoves.rtil {D : ℝ → Data n} {Bd : Fin 3 → ℝ} {Gd : Fin 3 → Fin 3 → ℝ} {t : ℝ} (h : FieldMoves D Bd Gd t) (wt : Bool) (hB : wt = true → (D t).B2 ≠ 0) (l : Fin 3) :
    HasDerivAt (fun τ => (D τ).rtil wt l) (∑ k, (D t).drtil_dB wt l k * Bd k) t := by
  refine (h.moves2.toMoves.d_rtil wt hB l).congr_deriv ?_
  have ek : ∀ X : ℝ, ∑ k, (if l = k then X else 0) * Bd k = X * Bd l := by intro X; simp
  cases wt
  · simp only [Data.drtil_dB, Data.dresidual_dB, Bool.false_eq_true, if_false, Pi.zero_apply, sub_mul, Finset.sum_sub_distrib, ek]
    simp only [Fin.sum_univ_three]
    ring
  · have hB1 := hB rfl
    simp only [Data.drtil_dB, Data.dresidual_dB, Data.dw_dB, if_true, B2_rpow hB1, Pi.zero_apply, sub_mul, add_mul, mul_assoc, mul_comm ((D t).w), Finset.sum_add_distrib, Finset.sum_sub_distrib]
    have ek2 : ∑ k, (if l = k then (D t).G else 0) * (Bd k * (D t).w) = (D t).G * (Bd l * (D t).w) := by simp
    rw [ek2]
    simp only [Fin.sum_univ_three]
    ring

theorem FieldMoves.J {D : ℝ → Data n} {Bd : Fin 3 → ℝ} {Gd : Fin 3 → Fin 3 → ℝ} {t : ℝ} (h : FieldMoves D Bd Gd t) (wt : Bool) (hB : wt = true → (D t).B2 ≠ 0) (l : Fin 3) (a : Col n) :
    HasDerivAt (fun τ => (D τ).J wt l a) ((∑ k, (D t).d2rtil_dsurfacedB wt l k a * Bd k) + ∑ k, ∑ p, (D t).d2rtil_dsurfacedgradB wt l k p a * Gd k p) t := by
  have hm := h.moves2
  cases a with
  | c m =>
    cases wt
    · refine (hm.d_dresidual l m).congr_deriv ?_
      simp only [Data.d2rtil_dsurfacedB, Data.d2residual_dcdB, Data.d2rtil_dsurfacedgradB, Data.d2residual_dcdgradB, Data.dtang_dc, Bool.false_eq_true, if_false, Pi.zero_apply, Fin.sum_univ_three]
      fin_cases l <;> simp <;> ring
    · have hd := ((hm.d_residual l).fun_mul (hm.d_dw (hB rfl) m)).fun_add ((hm.d_w (hB rfl)).fun_mul (hm.d_dresidual l m))
      refine HasDerivAt.congr_deriv (f := fun τ => (D τ).J true l (.c m)) hd ?_
      have hB1 := hB rfl
      have hp := (modB_pos hB1).ne'
      have q6 : (D t).B2 ^ 3 = (D t).modB ^ 6 := by rw [← modB_sq]; ring
      simp only [Data.d2rtil_dsurfacedB, Data.d2residual_dcdB, Data.d2w_dcdB, Data.d2w_dcdgradB, Data.d2rtil_dsurfacedgradB, Data.d2residual_dcdgradB, Data.dw_dB, Data.dresidual_dB, dw_dc'_eq, dw_dc_eq, dresidual_dc'_eq, Data.dtang_dc, Data.dB2_dc, if_true, B2_rpow hB1, q6, Pi.zero_apply, Fin.sum_univ_three]
      have hw : (D t).w = 1 / (D t).modB := rfl
      rw [hw]
      generalize (D t).dresidual_dc l m = r0
      generalize (D t).residual l = r1
      fin_cases l
      all_goals
        simp only [Fin.zero_eta, Fin.mk_one, Fin.reduceFinMk, Fin.isValue, Fin.reduceEq, if_true, if_false]
        field_simp
        ring
  | iota =>
    cases wt
    · refine (hm.d_B2.fun_neg.fun_mul (hm.xtheta l)).congr_deriv ?_
      simp only [Data.d2rtil_dsurfacedB, Data.d2residual_diotadB, Data.d2rtil_dsurfacedgradB, Bool.false_eq_true, if_false, Pi.zero_apply, Fin.sum_univ_three]
      ring
    · refine HasDerivAt.congr_deriv (f := fun τ => (D τ).J true l .iota) ((hm.d_w (hB rfl)).fun_mul (hm.d_B2.fun_neg.fun_mul (hm.xtheta l))) ?_
      simp only [Data.d2rtil_dsurfacedB, Data.d2residual_diotadB, Data.d2rtil_dsurfacedgradB, Data.dw_dB, Data.dresidual_diota, if_true, B2_rpow (hB rfl), Pi.zero_apply, Fin.sum_univ_three]
      ring
  | G =>
    cases wt
    · refine (hm.B l).congr_deriv ?_
      simp only [Data.d2rtil_dsurfacedB, Data.d2rtil_dsurfacedgradB, Bool.false_eq_true, if_false]
      simp
    · refine HasDerivAt.congr_deriv (f := fun τ => (D τ).J true l .G) ((hm.d_w (hB rfl)).fun_mul (hm.B l)) ?_
      simp only [Data.d2rtil_dsurfacedB, Data.d2rtil_dsurfacedgradB, Data.dw_dB, if_true, B2_rpow (hB rfl), Fin.sum_univ_three]
      fin_cases l <;> simp <;> ring

/-- The part of the gradient of the penalised objective that comes from the Boozer residuals (the rows `bz` of `BS.dval`). -/
noncomputable def lsqGrad (wt : Bool) (d : Fin N → Data n) (a : Col n) : ℝ := ∑ q, ∑ l, (d q).rtil wt l / √((3 * N : ℕ) : ℝ) * ((d q).J wt l a / √((3 * N : ℕ) : ℝ))

/-- Its derivative with respect to a coil dof, as the product rule gives it. -/
noncomputable def lsqGradDot (wt : Bool) (d : Fin N → Data n) (cd : CoilDir N) (a : Col n) : ℝ :=
  ∑ q, ∑ l, ((∑ k, (d q).drtil_dB wt l k * cd.Bd q k) / √((3 * N : ℕ) : ℝ) * ((d q).J wt l a / √((3 * N : ℕ) : ℝ))
        + (d q).rtil wt l / √((3 * N : ℕ) : ℝ) * (((∑ k, (d q).d2rtil_dsurfacedB wt l k a * cd.Bd q k) + ∑ k, ∑ p, (d q).d2rtil_dsurfacedgradB wt l k p a * cd.Gd q k p) / √((3 * N : ℕ) : ℝ)))

/-- **C120.** The vector-Jacobian product of a least-squares Boozer surface is the derivative, with respect to the coil dof, of `lmᵀ` times the gradient of the Boozer residuals, at a fixed surface, `iota` and `G`. -/
theorem C120_least_squares (wt : Bool) (D : ℝ → Fin N → Data n) (cd : CoilDir N) (t : ℝ) (h : ∀ q, FieldMoves (fun τ => D τ q) (cd.Bd q) (cd.Gd q) t) (hB : wt = true → ∀ q, (D t q).B2 ≠ 0) (lm : Col n → ℝ) :
    HasDerivAt (fun τ => colSum fun a => lm a * lsqGrad wt (D τ) a) (lsqVjp wt (D t) cd lm) t := by
  have hg : ∀ a, HasDerivAt (fun τ => lsqGrad wt (D τ) a)
      (lsqGradDot wt (D t) cd a) t :=
    fun a => HasDerivAt.fun_sum fun q _ => HasDerivAt.fun_sum fun l _ => (((h q).rtil wt (fun w => hB w q) l).div_const _).fun_mul (((h q).J wt (fun w => hB w q) l a).div_const _)
  refine ((HasDerivAt.fun_sum fun m _ => (hg (.c m)).const_mul _).fun_add (((hg .iota).const_mul _).fun_add ((hg .G).const_mul _))).congr_deriv ?_
  show colSum (fun a => lm a * lsqGradDot wt (D t) cd a) = _
  unfold lsqGradDot
  have lin : ∀ (f : Fin N → Col n → ℝ), (colSum fun a => lm a * ∑ q, f q a) = ∑ q, colSum fun a => lm a * f q a := by
    intro f
    unfold colSum
    simp only [Finset.mul_sum, Finset.sum_add_distrib]
    rw [Finset.sum_comm]
  rw [lin]
  unfold lsqVjp bdbVjp
  simp only [C114_same_jacobian]
  rw [← Finset.sum_add_distrib]
  refine Finset.sum_congr rfl fun q _ => ?_
  generalize √((3 * N : ℕ) : ℝ) = rt
  generalize D t q = d
  unfold colSum
  have mv : ∀ (f g : Fin n → ℝ) (c : ℝ), ∑ m, f m * (c * g m) = c * ∑ m, f m * g m := by
    intro f g c; rw [Finset.mul_sum]; exact Finset.sum_congr rfl fun m _ => by ring
  have dv : ∀ (f g : Fin n → ℝ), ∑ m, f m * (g m / rt) = (∑ m, f m * g m) / rt := by
    intro f g; rw [Finset.sum_div]; exact Finset.sum_congr rfl fun m _ => by ring
  simp only [Fin.sum_univ_three, dv, add_div, mul_add, add_mul, Finset.sum_add_distrib]
  have m1 : ∀ (f g : Fin n → ℝ) (c e : ℝ), ∑ m, f m * (c * e / rt * (g m / rt)) = c * e / rt * ((∑ m, f m * g m) / rt) := by
    intro f g c e; rw [Finset.sum_div, Finset.mul_sum]; exact Finset.sum_congr rfl fun m _ => by ring
  have m2 : ∀ (f g : Fin n → ℝ) (c e : ℝ), ∑ m, f m * (c / rt * (g m * e / rt)) = c / rt * ((∑ m, f m * g m) / rt) * e := by
    intro f g c e; rw [Finset.sum_div, Finset.mul_sum, Finset.sum_mul]; exact Finset.sum_congr rfl fun m _ => by ring
  simp only [m1, m2]
  ring

end Simsopt.BSurf
