import Verif.Rcls.Model
import Mathlib.Algebra.Order.BigOperators.Group.Finset
import Mathlib.Tactic.FieldSimp
import Mathlib.Tactic.Positivity
/-! # C91: the solution is the constrained minimum -/
namespace Simsopt.Rcls
open Matrix

variable {μ κ π : Type} [Fintype μ] [Fintype κ] [Fintype π] [DecidableEq κ] [DecidableEq π] {C : Matrix π κ ℝ}

theorem sq_nonneg' {ι : Type} [Fintype ι] (v : ι → ℝ) : 0 ≤ sq v := Finset.sum_nonneg fun i _ => mul_self_nonneg (v i)

theorem sq_zero {ι : Type} [Fintype ι] {v : ι → ℝ} (h : sq v = 0) : v = 0 := by
  funext i
  have := (Finset.sum_eq_zero_iff_of_nonneg (s := Finset.univ) (f := fun i => v i * v i) fun i _ => mul_self_nonneg (v i)).mp h i (Finset.mem_univ i)
  exact mul_self_eq_zero.mp this

theorem sq_add {ι : Type} [Fintype ι] (v w : ι → ℝ) : sq (v + w) = sq v + 2 * (v ⬝ᵥ w) + sq w := by
  simp only [sq, add_dotProduct, dotProduct_add]
  rw [dotProduct_comm w v]; ring

/-- A least-squares solution: the residual is orthogonal to the range. -/
theorem normal_eq {ι τ : Type} [Fintype ι] [Fintype τ] (G : Matrix ι τ ℝ) (r : ι → ℝ) (v : τ → ℝ) (h : ∀ v', sq (G *ᵥ v - r) ≤ sq (G *ᵥ v' - r)) : Gᵀ *ᵥ (G *ᵥ v - r) = 0 := by
  set e := G *ᵥ v - r with he
  have key : ∀ (t : ℝ) (w : τ → ℝ), 0 ≤ 2 * t * (e ⬝ᵥ (G *ᵥ w)) + t ^ 2 * sq (G *ᵥ w) := by
    intro t w
    have h1 := h (v + t • w)
    have e1 : G *ᵥ (v + t • w) - r = e + t • (G *ᵥ w) := by
      rw [mulVec_add, mulVec_smul, he]; abel
    rw [e1, sq_add] at h1
    have e2 : sq (t • (G *ᵥ w)) = t ^ 2 * sq (G *ᵥ w) := by simp only [sq, smul_dotProduct, dotProduct_smul, smul_eq_mul]; ring
    rw [e2, dotProduct_smul, smul_eq_mul] at h1
    linarith
  have hz : ∀ w, e ⬝ᵥ (G *ᵥ w) = 0 := by
    intro w
    have hs := sq_nonneg' (G *ᵥ w)
    by_contra hne
    rcases eq_or_lt_of_le hs with h0 | h0
    · have h1 := key (-(e ⬝ᵥ (G *ᵥ w))) w
      rw [← h0] at h1
      have : 0 < (e ⬝ᵥ (G *ᵥ w)) ^ 2 := by positivity
      nlinarith
    · have h1 := key (-(e ⬝ᵥ (G *ᵥ w)) / sq (G *ᵥ w)) w
      have h2 : 2 * (-(e ⬝ᵥ (G *ᵥ w)) / sq (G *ᵥ w)) * (e ⬝ᵥ (G *ᵥ w)) + (-(e ⬝ᵥ (G *ᵥ w)) / sq (G *ᵥ w)) ^ 2 * sq (G *ᵥ w) = -((e ⬝ᵥ (G *ᵥ w)) ^ 2 / sq (G *ᵥ w)) := by
        field_simp; ring
      rw [h2] at h1
      have : 0 < (e ⬝ᵥ (G *ᵥ w)) ^ 2 / sq (G *ᵥ w) := by positivity
      linarith
  apply sq_zero
  have := hz (Gᵀ *ᵥ e)
  rw [dotProduct_mulVec, ← mulVec_transpose] at this
  exact this

theorem normal_eq' {ι τ : Type} [Fintype ι] [Fintype τ] (M : Matrix ι τ ℝ) (z : ι → ℝ) (h : (Mᵀ * M)ᵀ *ᵥ (Mᵀ *ᵥ z) = 0) : Mᵀ *ᵥ z = 0 := by
  rw [transpose_mul, transpose_transpose] at h
  have h1 : M *ᵥ (Mᵀ *ᵥ z) = 0 := by
    apply sq_zero
    have : (Mᵀ *ᵥ z) ⬝ᵥ ((Mᵀ * M) *ᵥ (Mᵀ *ᵥ z)) = 0 := by rw [h]; simp
    rw [← mulVec_mulVec, dotProduct_mulVec, ← mulVec_transpose, transpose_transpose] at this
    exact this
  apply sq_zero
  have : z ⬝ᵥ (M *ᵥ (Mᵀ *ᵥ z)) = 0 := by rw [h1]; simp
  rw [dotProduct_mulVec, ← mulVec_transpose] at this
  exact this

theorem objective_eq (A : Matrix μ κ ℝ) (b : μ → ℝ) (W : Reg κ) (x : κ → ℝ) : objective A b W x = 1 / 2 * (sq (A *ᵥ x - b) + sq (W.toMat *ᵥ x)) := by
  simp only [objective, sq, dotProduct, Pi.sub_apply, pow_two]

/-- The stacked matrix `[P; Q]`. -/
def stack {σ : Type} (P : Matrix μ σ ℝ) (Q : Matrix κ σ ℝ) : Matrix (μ ⊕ κ) σ ℝ := Matrix.of fun s j => Sum.elim (fun i => P i j) (fun k => Q k j) s

omit [DecidableEq κ] in
theorem stack_gram {σ : Type} [Fintype σ] (P : Matrix μ σ ℝ) (Q : Matrix κ σ ℝ) : (stack P Q)ᵀ * stack P Q = Pᵀ * P + Qᵀ * Q := by
  ext i j
  simp [Matrix.mul_apply, stack, Fintype.sum_sum_type]

omit [DecidableEq κ] in
theorem stack_t {σ : Type} [Fintype σ] (P : Matrix μ σ ℝ) (Q : Matrix κ σ ℝ) (p : μ → ℝ) (r : κ → ℝ) : (stack P Q)ᵀ *ᵥ (Sum.elim p r) = Pᵀ *ᵥ p + Qᵀ *ᵥ r := by
  ext i
  simp [Matrix.mulVec, dotProduct, stack, Fintype.sum_sum_type]

/-- The residuals of the answer are orthogonal to the feasible directions. -/
theorem Solved.orth {A : Matrix μ κ ℝ} {b : μ → ℝ} {W : Reg κ} {d : π → ℝ} {q : Qr C} {u : π → ℝ} {v : q.σ → ℝ} (h : Solved A b W d q u v) :
    (A * q.Q2)ᵀ *ᵥ (A *ᵥ answer q u v - b) + (W.toMat * q.Q2)ᵀ *ᵥ (W.toMat *ᵥ answer q u v) = 0 := by
  have h1 := normal_eq _ _ _ h.lstsq
  have e1 : lhs A W q = (stack (A * q.Q2) (W.toMat * q.Q2))ᵀ * stack (A * q.Q2) (W.toMat * q.Q2) := (stack_gram _ _).symm
  have e2 : lhs A W q *ᵥ v - rhs A b W q u = (stack (A * q.Q2) (W.toMat * q.Q2))ᵀ *ᵥ Sum.elim (A *ᵥ answer q u v - b) (W.toMat *ᵥ answer q u v) := by
    rw [stack_t]
    simp only [lhs, rhs, answer, add_mulVec, mulVec_add, mulVec_sub, mulVec_mulVec, Matrix.mul_assoc]
    abel
  rw [e2, e1] at h1
  have h2 := normal_eq' _ _ h1
  rw [stack_t] at h2
  exact h2

theorem Qr.split (q : Qr C) (y : κ → ℝ) : y = q.Q1 *ᵥ (q.Q1ᵀ *ᵥ y) + q.Q2 *ᵥ (q.Q2ᵀ *ᵥ y) := by
  rw [mulVec_mulVec, mulVec_mulVec, ← add_mulVec, q.full, one_mulVec]

theorem Qr.C_eq (q : Qr C) : C = q.Rᵀ * q.Q1ᵀ := by
  rw [← transpose_mul, ← q.fac, transpose_transpose]

theorem Qr.C_mul (q : Qr C) (y : κ → ℝ) : C *ᵥ y = q.Rᵀ *ᵥ (q.Q1ᵀ *ᵥ y) := by
  rw [mulVec_mulVec, ← q.C_eq]

theorem Qr.C_answer (q : Qr C) (u : π → ℝ) (v : q.σ → ℝ) : C *ᵥ answer q u v = q.Rᵀ *ᵥ u := by
  rw [q.C_mul, answer, mulVec_add, mulVec_mulVec, mulVec_mulVec, q.o11, q.o12, one_mulVec, zero_mulVec, add_zero]

/-- **C91** The solver gets past the triangular system exactly when the rows of the constraint matrix are independent. -/
theorem C91_full_rank (q : Qr C) : IsUnit q.R.det ↔ FullRank C := by
  rw [← isUnit_iff_isUnit_det, ← mulVec_injective_iff_isUnit]
  have e : ∀ z : π → ℝ, (∀ k, ∑ i, z i * C i k = 0) ↔ q.R *ᵥ z = 0 := by
    intro z
    have e1 : (∀ k, ∑ i, z i * C i k = 0) ↔ Cᵀ *ᵥ z = 0 := by
      constructor
      · intro h
        funext k
        rw [Pi.zero_apply, ← h k]
        simp only [mulVec, dotProduct, transpose_apply]
        exact Finset.sum_congr rfl fun i _ => mul_comm _ _
      · intro h k
        rw [← show (Cᵀ *ᵥ z) k = 0 from congrFun h k]
        simp only [mulVec, dotProduct, transpose_apply]
        exact Finset.sum_congr rfl fun i _ => mul_comm _ _
    rw [e1, q.fac, ← mulVec_mulVec]
    constructor
    · intro h
      have := congrArg (fun t => q.Q1ᵀ *ᵥ t) h
      simpa only [mulVec_mulVec, ← Matrix.mul_assoc, q.o11, Matrix.one_mul, mulVec_zero] using this
    · intro h; rw [h, mulVec_zero]
  constructor
  · intro h z hz
    exact h ((e z).mp hz |>.trans (mulVec_zero _).symm)
  · intro h z z' hz
    exact sub_eq_zero.mp (h (z - z') ((e _).mpr (by rw [mulVec_sub]; exact sub_eq_zero.mpr hz)))

theorem Qr.R_inj (q : Qr C) (hC : IsUnit q.R.det) {u u' : π → ℝ} (h : q.Rᵀ *ᵥ u = q.Rᵀ *ᵥ u') : u = u' := by
  have hu' : IsUnit q.Rᵀ := (isUnit_transpose q.R).mpr ((isUnit_iff_isUnit_det _).mpr hC)
  exact mulVec_injective_iff_isUnit.mpr hu' h

/-- **C91** The answer of the regularized constrained least-squares solver satisfies the constraints, no vector that satisfies them has a smaller objective, and one with the same objective has the same image under `A` and `W`. -/
theorem C91_rcls (A : Matrix μ κ ℝ) (b : μ → ℝ) (W : Reg κ) (C : Matrix π κ ℝ) (d : π → ℝ) (q : Qr C) (u : π → ℝ) (v : q.σ → ℝ) (h : Solved A b W d q u v) :
    C *ᵥ answer q u v = d ∧ ∀ y, C *ᵥ y = d → objective A b W (answer q u v) ≤ objective A b W y ∧
      (objective A b W y = objective A b W (answer q u v) → A *ᵥ y = A *ᵥ answer q u v ∧ W.toMat *ᵥ y = W.toMat *ᵥ answer q u v) := by
  have hx : C *ᵥ answer q u v = d := by rw [q.C_answer, h.tri]
  refine ⟨hx, fun y hy => ?_⟩
  have hu : q.Q1ᵀ *ᵥ y = u := by
    apply q.R_inj h.regular
    rw [h.tri, ← q.C_mul, hy]
  obtain ⟨w, hw⟩ : ∃ w, y = answer q u v + q.Q2 *ᵥ w := by
    refine ⟨q.Q2ᵀ *ᵥ y - v, ?_⟩
    conv_lhs => rw [q.split y, hu]
    rw [answer, mulVec_sub]; abel
  have ho := h.orth
  set x := answer q u v with hxd
  have hcross : (A *ᵥ x - b) ⬝ᵥ ((A * q.Q2) *ᵥ w) + (W.toMat *ᵥ x) ⬝ᵥ ((W.toMat * q.Q2) *ᵥ w) = 0 := by
    have h0 := congrArg (fun t => t ⬝ᵥ w) ho
    simp only [add_dotProduct, zero_dotProduct] at h0
    rw [dotProduct_mulVec, dotProduct_mulVec, ← mulVec_transpose, ← mulVec_transpose]
    exact h0
  have eA : A *ᵥ y = A *ᵥ x + (A * q.Q2) *ᵥ w := by rw [hw, mulVec_add, mulVec_mulVec]
  have eW : W.toMat *ᵥ y = W.toMat *ᵥ x + (W.toMat * q.Q2) *ᵥ w := by rw [hw, mulVec_add, mulVec_mulVec]
  have e : objective A b W y = objective A b W x + 1 / 2 * (sq ((A * q.Q2) *ᵥ w) + sq ((W.toMat * q.Q2) *ᵥ w)) := by
    rw [objective_eq, objective_eq, eA, eW, add_sub_right_comm, sq_add, sq_add]
    linarith
  have n1 := sq_nonneg' ((A * q.Q2) *ᵥ w)
  have n2 := sq_nonneg' ((W.toMat * q.Q2) *ᵥ w)
  refine ⟨by rw [e]; linarith, fun he => ?_⟩
  have z1 := sq_zero (v := (A * q.Q2) *ᵥ w) (by linarith)
  have z2 := sq_zero (v := (W.toMat * q.Q2) *ᵥ w) (by linarith)
  rw [eA, eW, z1, z2, add_zero, add_zero]
  exact ⟨rfl, rfl⟩

/-- **C91** With a nonzero scalar, or a vector without zeros, the minimum is unique. -/
theorem C91_unique (A : Matrix μ κ ℝ) (b : μ → ℝ) (W : Reg κ) (hW : ∀ z, W.toMat *ᵥ z = 0 → z = 0) (C : Matrix π κ ℝ) (d : π → ℝ) (q : Qr C) (u : π → ℝ) (v : q.σ → ℝ)
    (h : Solved A b W d q u v) (y : κ → ℝ) (hy : C *ᵥ y = d) (hmin : objective A b W y ≤ objective A b W (answer q u v)) : y = answer q u v := by
  obtain ⟨_, h2⟩ := C91_rcls A b W C d q u v h
  obtain ⟨hle, heq⟩ := h2 y hy
  have := (heq (le_antisymm hmin hle)).2
  have h0 := hW (y - answer q u v) (by rw [mulVec_sub, this, sub_self])
  exact sub_eq_zero.mp h0

omit [DecidableEq π] [Fintype π] [Fintype μ] in
theorem scalar_inj (w : ℝ) (hw : w ≠ 0) (z : κ → ℝ) (h : (Reg.scalar w : Reg κ).toMat *ᵥ z = 0) : z = 0 := by
  simp only [Reg.toMat, smul_mulVec, one_mulVec] at h
  exact (smul_eq_zero.mp h).resolve_left hw

omit [DecidableEq π] [Fintype π] [Fintype μ] in
theorem vec_inj (w : κ → ℝ) (hw : ∀ k, w k ≠ 0) (z : κ → ℝ) (h : (Reg.vec w : Reg κ).toMat *ᵥ z = 0) : z = 0 := by
  funext k
  have := congrFun h k
  simp only [Reg.toMat, mulVec_diagonal, Pi.zero_apply, mul_eq_zero] at this
  exact this.resolve_left (hw k)

end Simsopt.Rcls
