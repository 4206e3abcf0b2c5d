import Verif.Penalties.Grad
import Verif.Coils.Sym
/-!
# C61: rotated curves

Model of the Jacobians and vector-Jacobian products of `RotatedCurve` (src/simsopt/geo/curve.py L614-813).  The position arrays
(`gamma`, `gammadash`, ... of L657-696) are `Curve.points` of Verif.Coils.Model; here the rows are indexed by the quadrature point `k : Fin n`.
The four functions for `gamma`, `gammadash`, `gammadashdash` and `gammadashdashdash` have the same text, so one model stands for all four.
Simplification: real numbers instead of doubles.
-/
namespace Simsopt.Rotated
open Simsopt.Coils Simsopt.Penalties
open Simsopt.Geometry hiding norm

variable {n m : Nat}

/-- `gamma()`, `gammadash()`, ... (L657-696). -/
noncomputable def rows (g : Nat → Fin n → V3) : Curve → Fin n → V3
  | .base i => g i
  | .rotated c phi flip => fun k => rowMul (rows g c k) (rotmat phi flip)

/-- `m @ e` for a 3x3 array and a column. -/
def colMul (m : M3) (e : V3) : V3 := (inner m.1 e, inner m.2.1 e, inner m.2.2 e)

/-- `dgamma_by_dcoeff()`, ... (L698-757): `self.rotmatT @ self.curve.dgamma_by_dcoeff()`. -/
noncomputable def jac (E : Nat → Fin n → Fin m → V3) : Curve → Fin n → Fin m → V3
  | .base i => E i
  | .rotated c phi flip => fun k j => colMul (rotmat phi flip).transpose (jac E c k j)

/-- `dgamma_by_dcoeff_vjp(v)`, ... (L759-806): the curve that owns the dofs and the vector passed to it. -/
noncomputable def vjp : Curve → (Fin n → V3) → Nat × (Fin n → V3)
  | .base i, v => (i, v)
  | .rotated c phi flip, v => vjp c fun k => rowMul (v k) (rotmat phi flip).transpose

/-- The curve at the end of the chain `self.curve.curve...`, which has the dofs. -/
def owner : Curve → Nat
  | .base i => i
  | .rotated c _ _ => owner c

/-! ### Rotations preserve lengths and orientation -/

theorem rot_eq (phi : ℝ) (flip : Bool) (p : V3) :
    rowMul p (rotmat phi flip) = if flip then mirror (rotZ phi p) else rotZ phi p := rowMul_rotmat phi flip p

theorem inner_rot (phi : ℝ) (flip : Bool) (a b : V3) : inner (rowMul a (rotmat phi flip)) (rowMul b (rotmat phi flip)) = inner a b := by
  have h := Real.sin_sq_add_cos_sq phi
  cases flip <;> simp only [rot_eq, mirror, rotZ, inner] <;> simp only [Bool.false_eq_true, if_false, if_true] <;>
    linear_combination (a.1 * b.1 + a.2.1 * b.2.1) * h

theorem cross_rot (phi : ℝ) (flip : Bool) (a b : V3) :
    cross (rowMul a (rotmat phi flip)) (rowMul b (rotmat phi flip)) = rowMul (cross a b) (rotmat phi flip) := by
  have h := Real.sin_sq_add_cos_sq phi
  cases flip <;> simp only [rot_eq, mirror, rotZ, cross] <;> simp only [Bool.false_eq_true, if_false, if_true] <;>
    refine Prod.ext ?_ (Prod.ext ?_ ?_) <;> dsimp only
  · ring
  · ring
  · linear_combination (a.1 * b.2.1 - a.2.1 * b.1) * h
  · ring
  · ring
  · linear_combination (-(a.1 * b.2.1) + a.2.1 * b.1) * h

theorem rowMul_add (a b : V3) (m : M3) : rowMul (a + b) m = rowMul a m + rowMul b m := by
  refine Prod.ext ?_ (Prod.ext ?_ ?_) <;> simp only [rowMul, Prod.fst_add, Prod.snd_add] <;> ring

theorem rowMul_smul (r : ℝ) (a : V3) (m : M3) : rowMul (r • a) m = r • rowMul a m := by
  refine Prod.ext ?_ (Prod.ext ?_ ?_) <;> simp only [rowMul, Prod.smul_fst, Prod.smul_snd, smul_eq_mul] <;> ring

theorem colMul_transpose (m : M3) (e : V3) : colMul m.transpose e = rowMul e m := by
  simp only [colMul, M3.transpose, rowMul, inner]
  refine Prod.ext ?_ (Prod.ext ?_ ?_) <;> dsimp only <;> ring

theorem inner_transpose (m : M3) (v e : V3) : inner (rowMul v m.transpose) e = inner v (rowMul e m) := by
  simp only [M3.transpose, rowMul, inner]; ring

/-- **C61.** A rotated (and possibly flipped, and possibly rotated several times) curve has the same incremental arclength, curvature and
torsion as its base curve, and therefore the same length, curvature and torsion penalties, arclength variation and mean squared
curvature. -/
theorem C61_invariants (c : Curve) (g1 g2 g3 : Nat → Fin n → V3) (k : Fin n) :
    arclength (rows g1 c k) = arclength (g1 (owner c) k) ∧
    kappa (rows g1 c k) (rows g2 c k) = kappa (g1 (owner c) k) (g2 (owner c) k) ∧
    torsion (rows g1 c k) (rows g2 c k) (rows g3 c k) = torsion (g1 (owner c) k) (g2 (owner c) k) (g3 (owner c) k) := by
  induction c with
  | base i => exact ⟨rfl, rfl, rfl⟩
  | rotated c phi flip ih =>
    obtain ⟨h1, h2, h3⟩ := ih
    simp only [rows, owner]
    refine ⟨?_, ?_, ?_⟩
    · rw [← h1]; exact congrArg Real.sqrt (inner_rot phi flip _ _)
    · rw [← h2]
      simp only [kappa, cross_rot, Geometry.norm_eq, inner_rot]
    · rw [← h3]
      simp only [torsion, cross_rot, inner_rot]

/-- **C61.** The objectives of a rotated curve are those of its base curve. -/
theorem C61_objectives (c : Curve) (g1 g2 g3 : Nat → Fin n → V3) (p threshold : ℝ) (ni : Nat) :
    length (rows g1 c) = length (g1 (owner c)) ∧
    LpCurvature (rows g1 c) (rows g2 c) p threshold = LpCurvature (g1 (owner c)) (g2 (owner c)) p threshold ∧
    LpTorsion (rows g1 c) (rows g2 c) (rows g3 c) p threshold = LpTorsion (g1 (owner c)) (g2 (owner c)) (g3 (owner c)) p threshold ∧
    variation ni (rows g1 c) = variation ni (g1 (owner c)) ∧
    msc (rows g1 c) (rows g2 c) = msc (g1 (owner c)) (g2 (owner c)) := by
  have h1 : ∀ k, arclength (rows g1 c k) = arclength (g1 (owner c) k) := fun k => (C61_invariants c g1 g2 g3 k).1
  have h1' : ∀ k, Geometry.norm (rows g1 c k) = Geometry.norm (g1 (owner c) k) := h1
  have h2 := fun k => (C61_invariants c g1 g2 g3 k).2.1
  have h3 := fun k => (C61_invariants c g1 g2 g3 k).2.2
  refine ⟨?_, ?_, ?_, ?_, ?_⟩
  · simp only [length, h1]
  · simp only [LpCurvature, lpCurvature, h2, h1']
  · simp only [LpTorsion, lpTorsion, h3, h1']
  · simp only [variation, h1]
  · simp only [msc, mscPure, h2, h1']

/-! ### Derivatives -/

theorem hasDerivAt_rowMul {a : ℝ → V3} {a' : V3} {u : ℝ} (h : HasDerivAt a a' u) (M : M3) : HasDerivAt (fun x => rowMul (a x) M) (rowMul a' M) u := by
  have h1 := d_fst h
  have h2 := d_snd h
  have h3 := d_trd h
  exact (((h1.mul_const _).add (h2.mul_const _)).add (h3.mul_const _)).prodMk
    ((((h1.mul_const _).add (h2.mul_const _)).add (h3.mul_const _)).prodMk
      (((h1.mul_const _).add (h2.mul_const _)).add (h3.mul_const _)))

/-- **C61.** The Jacobian of a rotated curve is the derivative of its rows in the dofs of the base curve, if that is so for the base curve;
for `gamma` and its three derivatives alike. -/
theorem C61_jacobian (c : Curve) (g : ℝ → Nat → Fin n → V3) (E : Nat → Fin n → Fin m → V3) (j : Fin m) (u : ℝ) (k : Fin n)
    (h : HasDerivAt (fun x => g x (owner c) k) (E (owner c) k j) u) : HasDerivAt (fun x => rows (g x) c k) (jac E c k j) u := by
  induction c with
  | base i => exact h
  | rotated c phi flip ih =>
    have := hasDerivAt_rowMul (ih h) (rotmat phi flip)
    simp only [jac, colMul_transpose]
    exact this

/-- **C61.** The vector-Jacobian product of a rotated curve is attributed to the base curve, and its value is `v^T` times the Jacobian of the
rotated curve. -/
theorem C61_vjp (c : Curve) (E : Nat → Fin n → Fin m → V3) (v : Fin n → V3) (j : Fin m) :
    (vjp c v).1 = owner c ∧ contract (E (owner c)) (vjp c v).2 j = ∑ k, inner (v k) (jac E c k j) := by
  induction c generalizing v with
  | base i => exact ⟨rfl, contract_eq _ _ _⟩
  | rotated c phi flip ih =>
    obtain ⟨h1, h2⟩ := ih fun k => rowMul (v k) (rotmat phi flip).transpose
    refine ⟨h1, h2.trans ?_⟩
    refine Finset.sum_congr rfl fun k _ => ?_
    simp only [inner_transpose, jac, colMul_transpose]

/-- **C61.** Chain rule: if an objective of the rows has the gradient `v`, `dgamma_by_dcoeff_vjp(v)` of the rotated curve is its
derivative in the dofs of the base curve. -/
theorem C61_chain (c : Curve) (g : ℝ → Nat → Fin n → V3) (E : Nat → Fin n → Fin m → V3) (j : Fin m) (u : ℝ)
    (h : ∀ k, HasDerivAt (fun x => g x (owner c) k) (E (owner c) k j) u) (F : (Fin n → V3) → ℝ) (v : Fin n → V3)
    (hF : ∀ (r : ℝ → Fin n → V3) (r' : Fin n → V3), r u = rows (g u) c → (∀ k, HasDerivAt (fun x => r x k) (r' k) u) →
      HasDerivAt (fun x => F (r x)) (∑ k, inner (v k) (r' k)) u) :
    HasDerivAt (fun x => F (rows (g x) c)) (contract (E (vjp c v).1) (vjp c v).2 j) u := by
  obtain ⟨h1, h2⟩ := C61_vjp c E v j
  rw [h1, h2]
  exact hF _ _ rfl fun k => C61_jacobian c g E j u k (h k)

/-- A curve rotated by a quarter turn and flipped: the point `(1, 2, 3)` goes to `(-2, -1, -3)`, and the vector `(1, 0, 0)` is pulled back to `(0, -1, 0)`. -/
example : rows (n := 1) (fun _ _ => (1, 2, 3)) (.rotated (.base 0) (Real.pi / 2) true) 0 = (-2, -1, -3) ∧
    (vjp (n := 1) (.rotated (.base 0) (Real.pi / 2) true) fun _ => (1, 0, 0)).2 0 = (0, -1, 0) := by
  constructor <;> simp [rows, vjp, rotmat, rowMul, M3.mul, M3.transpose]

end Simsopt.Rotated
