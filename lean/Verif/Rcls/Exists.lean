import Verif.Rcls.Solve
import Mathlib.Analysis.InnerProductSpace.PiL2
import Mathlib.Analysis.InnerProductSpace.Projection.FiniteDimensional
import Mathlib.LinearAlgebra.Matrix.ToLin
/-! # C91: with independent constraints the solver has an answer -/
namespace Simsopt.Rcls
open Matrix

variable {μ κ π : Type} [Fintype μ] [Fintype κ] [Fintype π] [DecidableEq κ] [DecidableEq π] {C : Matrix π κ ℝ}

omit [DecidableEq κ] in
theorem inner_eq (x y : EuclideanSpace ℝ κ) : inner ℝ x y = ∑ k, x k * y k := by
  rw [PiLp.inner_apply]
  exact Finset.sum_congr rfl fun k _ => by simp [mul_comm]

/-- A row of the constraint matrix as a vector. -/
noncomputable def rowVec (C : Matrix π κ ℝ) (i : π) : EuclideanSpace ℝ κ := WithLp.toLp 2 (C i)

theorem exists_qr (hC : FullRank C) : Nonempty (Qr C) := by
  have hli : LinearIndependent ℝ (rowVec C) := by
    rw [Fintype.linearIndependent_iff]
    intro z hz
    have := hC z (fun k => by
      have h := congrArg (fun (t : EuclideanSpace ℝ κ) => t k) hz
      simpa [rowVec] using h)
    intro i; exact congrFun this i
  set V := Submodule.span ℝ (Set.range (rowVec C)) with hV
  have hcard : Module.finrank ℝ V = Fintype.card π := finrank_span_eq_card hli
  let b1 : OrthonormalBasis π ℝ V := (stdOrthonormalBasis ℝ V).reindex ((finCongr hcard).trans (Fintype.equivFin π).symm)
  let b2 := stdOrthonormalBasis ℝ Vᗮ
  let Q1 : Matrix κ π ℝ := fun k i => (b1 i : EuclideanSpace ℝ κ) k
  let Q2 : Matrix κ (Fin (Module.finrank ℝ Vᗮ)) ℝ := fun k j => (b2 j : EuclideanSpace ℝ κ) k
  have o11 : Q1ᵀ * Q1 = 1 := by
    ext i j
    have := (orthonormal_iff_ite.mp b1.orthonormal) i j
    rw [Submodule.coe_inner, inner_eq] at this
    rw [Matrix.mul_apply, one_apply]
    exact this
  have o22 : Q2ᵀ * Q2 = 1 := by
    ext i j
    have := (orthonormal_iff_ite.mp b2.orthonormal) i j
    rw [Submodule.coe_inner, inner_eq] at this
    rw [Matrix.mul_apply, one_apply]
    exact this
  have o12 : Q1ᵀ * Q2 = 0 := by
    ext i j
    have := (Submodule.mem_orthogonal V _).mp (b2 j).2 (b1 i) (b1 i).2
    rw [inner_eq] at this
    rw [Matrix.mul_apply, Matrix.zero_apply]
    exact this
  have o21 : Q2ᵀ * Q1 = 0 := by
    have := congrArg transpose o12
    rwa [transpose_mul, transpose_transpose, transpose_zero] at this
  have q2c : Q2ᵀ * Cᵀ = 0 := by
    ext j i
    have := (Submodule.mem_orthogonal V _).mp (b2 j).2 (rowVec C i) (Submodule.subset_span ⟨i, rfl⟩)
    rw [inner_eq] at this
    rw [Matrix.mul_apply, Matrix.zero_apply, ← this]
    exact Finset.sum_congr rfl fun k _ => mul_comm _ _
  have full : Q1 * Q1ᵀ + Q2 * Q2ᵀ = 1 := by
    let Q : Matrix κ (π ⊕ Fin (Module.finrank ℝ Vᗮ)) ℝ := fun k s => Sum.elim (Q1 k) (Q2 k) s
    have hq : Qᵀ * Q = 1 := by
      ext s t
      rw [Matrix.mul_apply]
      rcases s with i | i <;> rcases t with j | j
      · have := congrFun (congrFun o11 i) j
        rw [Matrix.mul_apply, one_apply] at this
        rw [one_apply]
        simp only [Sum.inl.injEq]
        exact this
      · have := congrFun (congrFun o12 i) j
        rw [Matrix.mul_apply] at this
        rw [one_apply, if_neg (by simp)]
        exact this
      · have := congrFun (congrFun o21 i) j
        rw [Matrix.mul_apply] at this
        rw [one_apply, if_neg (by simp)]
        exact this
      · have := congrFun (congrFun o22 i) j
        rw [Matrix.mul_apply, one_apply] at this
        rw [one_apply]
        simp only [Sum.inr.injEq]
        exact this
    have hc : Fintype.card κ = Fintype.card (π ⊕ Fin (Module.finrank ℝ Vᗮ)) := by
      rw [Fintype.card_sum, Fintype.card_fin, ← hcard, Submodule.finrank_add_finrank_orthogonal, finrank_euclideanSpace]
    have hq' : Q * Qᵀ = 1 := (mul_eq_one_comm_of_equiv (Fintype.card_eq.mp hc).some).mpr hq
    rw [← hq']
    ext k l
    rw [Matrix.add_apply, Matrix.mul_apply, Matrix.mul_apply, Matrix.mul_apply, Fintype.sum_sum_type]
    rfl
  refine ⟨⟨Fin (Module.finrank ℝ Vᗮ), inferInstance, inferInstance, Q1, Q2, Q1ᵀ * Cᵀ, ?_, o11, o12, o22, full⟩⟩
  have : (Q1 * Q1ᵀ + Q2 * Q2ᵀ) * Cᵀ = Cᵀ := by rw [full, Matrix.one_mul]
  rw [Matrix.add_mul, Matrix.mul_assoc, Matrix.mul_assoc, q2c, Matrix.mul_zero, add_zero] at this
  exact this.symm

theorem exists_lstsq {ι τ : Type} [Fintype ι] [Fintype τ] [DecidableEq τ] (G : Matrix ι τ ℝ) (r : ι → ℝ) : ∃ v, ∀ v', sq (G *ᵥ v - r) ≤ sq (G *ᵥ v' - r) := by
  let f : (τ → ℝ) →ₗ[ℝ] EuclideanSpace ℝ ι := (WithLp.linearEquiv 2 ℝ (ι → ℝ)).symm.toLinearMap ∘ₗ G.mulVecLin
  let U := LinearMap.range f
  let y : EuclideanSpace ℝ ι := WithLp.toLp 2 r
  have hn : ∀ v, ‖y - f v‖ ^ 2 = sq (G *ᵥ v - r) := by
    intro v
    rw [EuclideanSpace.real_norm_sq_eq, sq, dotProduct]
    refine Finset.sum_congr rfl fun i _ => ?_
    have : (y - f v) i = r i - (G *ᵥ v) i := rfl
    rw [this, Pi.sub_apply]; ring
  obtain ⟨v, hv⟩ : U.starProjection y ∈ LinearMap.range f := Submodule.starProjection_apply_mem U y
  refine ⟨v, fun v' => ?_⟩
  rw [← hn, ← hn, hv, Submodule.starProjection_minimal]
  have hb : BddBelow (Set.range fun x : U => ‖y - x‖) := ⟨0, by rintro _ ⟨x, rfl⟩; exact norm_nonneg _⟩
  have h1 : (⨅ x : U, ‖y - x‖) ≤ ‖y - f v'‖ := ciInf_le hb ⟨f v', v', rfl⟩
  have h0 : 0 ≤ ⨅ x : U, ‖y - x‖ := Real.iInf_nonneg fun x => norm_nonneg _
  exact pow_le_pow_left₀ h0 h1 2

/-- **C91** Whenever the rows of the constraint matrix are independent, the calls of scipy can keep their promises: there is a factorization and there are solutions of the two systems. -/
theorem C91_exists (A : Matrix μ κ ℝ) (b : μ → ℝ) (W : Reg κ) (C : Matrix π κ ℝ) (d : π → ℝ) (hC : FullRank C) : ∃ (q : Qr C) (u : π → ℝ) (v : q.σ → ℝ), Solved A b W d q u v := by
  obtain ⟨q⟩ := exists_qr hC
  have hd : IsUnit q.R.det := (C91_full_rank q).mpr hC
  have hd' : IsUnit q.Rᵀ.det := by rwa [det_transpose]
  obtain ⟨v, hv⟩ := exists_lstsq (lhs A W q) (rhs A b W q ((q.Rᵀ)⁻¹ *ᵥ d))
  exact ⟨q, _, v, hd, by rw [mulVec_mulVec, mul_nonsing_inv _ hd', one_mulVec], hv⟩

/-- The case `C = [3 4]` with its factorization. -/
noncomputable def demo : Qr (!![3, 4] : Matrix (Fin 1) (Fin 2) ℝ) where
  σ := Fin 1
  fin := inferInstance
  dec := inferInstance
  Q1 := !![3 / 5; 4 / 5]
  Q2 := !![-4 / 5; 3 / 5]
  R := !![5]
  fac := by ext i j; fin_cases i <;> fin_cases j <;> simp [Matrix.mul_apply] <;> norm_num
  o11 := by ext i j; fin_cases i; fin_cases j; simp [Matrix.mul_apply, Fin.sum_univ_two]; norm_num
  o12 := by ext i j; fin_cases i; fin_cases j; simp [Matrix.mul_apply, Fin.sum_univ_two]; norm_num
  o22 := by ext i j; fin_cases i; fin_cases j; simp [Matrix.mul_apply, Fin.sum_univ_two]; norm_num
  full := by
    ext i j
    rw [Matrix.add_apply, Matrix.mul_apply, Matrix.mul_apply, Fin.sum_univ_one]
    fin_cases i <;> fin_cases j <;> simp <;> norm_num

example : FullRank (!![3, 4] : Matrix (Fin 1) (Fin 2) ℝ) := (C91_full_rank demo).mp (by simp [demo])

end Simsopt.Rcls
