import Mathlib.Data.Matrix.Mul
import Mathlib.Data.Matrix.Diagonal
import Mathlib.LinearAlgebra.Matrix.NonsingularInverse
import Mathlib.Data.Real.Basic
import Mathlib.Tactic.Linarith
import Mathlib.Tactic.Ring
/-!
# Regularized constrained least squares

Model of `regularized_constrained_least_squares` (src/simsopt/solve/wireframe_optimization.py L709-803).  The linear algebra of scipy enters through what it promises: a QR factorization with an orthogonal matrix, a solution of a triangular
system, a least-squares solution.  The checks of the shapes (L762-784) are the types of the matrices.
-/
namespace Simsopt.Rcls
open Matrix

variable {μ κ π : Type} [Fintype μ] [Fintype κ] [Fintype π] [DecidableEq κ] [DecidableEq π]

/-- The argument `W`: a scalar, a vector or a matrix. -/
inductive Reg (κ : Type) where
  | scalar (w : ℝ)
  | vec (w : κ → ℝ)
  | mat (W : Matrix κ κ ℝ)

/-- `Wmat` (L773-788). -/
def Reg.toMat : Reg κ → Matrix κ κ ℝ
  | .scalar w => w • 1
  | .vec w => Matrix.diagonal w
  | .mat W => W

/-- What `_qr_factorization_wrapper(Ctra)` returns: `Cᵀ = [Q1 Q2] [R; 0]` with an orthogonal matrix `[Q1 Q2]` (L790-794). -/
structure Qr (C : Matrix π κ ℝ) where
  σ : Type
  fin : Fintype σ
  dec : DecidableEq σ
  Q1 : Matrix κ π ℝ
  Q2 : Matrix κ σ ℝ
  R : Matrix π π ℝ
  fac : Cᵀ = Q1 * R
  o11 : Q1ᵀ * Q1 = 1
  o12 : Q1ᵀ * Q2 = 0
  o22 : Q2ᵀ * Q2 = 1
  full : Q1 * Q1ᵀ + Q2 * Q2ᵀ = 1

attribute [instance] Qr.fin Qr.dec

variable {C : Matrix π κ ℝ}

/-- `LHS` (L801-803). -/
def lhs (A : Matrix μ κ ℝ) (W : Reg κ) (q : Qr C) : Matrix q.σ q.σ ℝ := (A * q.Q2)ᵀ * (A * q.Q2) + (W.toMat * q.Q2)ᵀ * (W.toMat * q.Q2)

/-- `RHS` (L805-811). -/
def rhs (A : Matrix μ κ ℝ) (b : μ → ℝ) (W : Reg κ) (q : Qr C) (u : π → ℝ) : q.σ → ℝ :=
  (A * q.Q2)ᵀ *ᵥ b - (A * q.Q2)ᵀ *ᵥ ((A * q.Q1) *ᵥ u) - (W.toMat * q.Q2)ᵀ *ᵥ ((W.toMat * q.Q1) *ᵥ u)

/-- `Qfull @ np.concatenate((uvec, vvec))` (L818). -/
def answer (q : Qr C) (u : π → ℝ) (v : q.σ → ℝ) : κ → ℝ := q.Q1 *ᵥ u + q.Q2 *ᵥ v

/-- The sum of the squares of the elements. -/
def sq {ι : Type} [Fintype ι] (v : ι → ℝ) : ℝ := v ⬝ᵥ v

/-- The calls of scipy succeeded: `solve_triangular` did not find a singular matrix (it raises then), `uvec` solves the triangular system (L798) and `vvec` is a least-squares solution (L815). -/
structure Solved (A : Matrix μ κ ℝ) (b : μ → ℝ) (W : Reg κ) (d : π → ℝ) (q : Qr C) (u : π → ℝ) (v : q.σ → ℝ) : Prop where
  regular : IsUnit q.R.det
  tri : q.Rᵀ *ᵥ u = d
  lstsq : ∀ v', sq (lhs A W q *ᵥ v - rhs A b W q u) ≤ sq (lhs A W q *ᵥ v' - rhs A b W q u)

/-! ### Specification -/

/-- `0.5 * ((A * x - b)**2 + (W * x)**2)`. -/
noncomputable def objective (A : Matrix μ κ ℝ) (b : μ → ℝ) (W : Reg κ) (x : κ → ℝ) : ℝ := 1 / 2 * (∑ i, ((A *ᵥ x) i - b i) ^ 2 + ∑ k, (W.toMat *ᵥ x) k ^ 2)

/-- The rows of the constraint matrix are independent ("must be full rank"). -/
def FullRank (C : Matrix π κ ℝ) : Prop := ∀ z : π → ℝ, (∀ k, ∑ i, z i * C i k = 0) → z = 0

end Simsopt.Rcls
