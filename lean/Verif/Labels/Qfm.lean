import Verif.Labels.Points
import Mathlib.Analysis.Calculus.Deriv.Pow
import Mathlib.Algebra.Order.BigOperators.Ring.Finset
/-!
# C153: QfmSurface

Model of src/simsopt/geo/qfmsurface.py L32-205.  The dofs of the surface are a vector; `f`, `df` are `J` and `dJ_by_dsurfacecoefficients` of the QFM residual as functions of them (C152, C154), `l`, `dl` those of the
label.  `scipy.optimize.minimize` is any program that asks for values and finally returns a point.  Real numbers instead of doubles.
-/
namespace Simsopt.Labels.Qfm
open Simsopt

variable {n : Nat}

/-- The free dofs of the surface. -/
abbrev X (n : Nat) := Fin n → ℝ

/-- What the object holds: the two functions with their gradients, and the target. -/
structure Prob (n : Nat) where
  f : X n → ℝ
  df : X n → X n
  l : X n → ℝ
  dl : X n → X n
  target : ℝ

/-- `qfm_label_constraint(x, derivatives=1)` (L41-62): the new dofs of the surface, the value, the gradient. -/
noncomputable def labelConstraint (q : Prob n) (x : X n) : X n × ℝ × X n :=
  let s := x
  let rl := q.l s - q.target
  (s, 0.5 * rl ^ 2, fun i => rl * q.dl s i)

/-- `qfm_objective(x, derivatives=1)` (L64-86). -/
def objective (q : Prob n) (x : X n) : X n × ℝ × X n := (x, q.f x, q.df x)

/-- `qfm_penalty_constraints(x, derivatives=1, constraint_weight)` (L88-121). -/
noncomputable def penalty (q : Prob n) (w : ℝ) (x : X n) : X n × ℝ × X n :=
  let s := x
  let rl := q.l s - q.target
  (s, q.f s + 0.5 * w * rl ^ 2, fun i => q.df s i + w * rl * q.dl s i)

/-- What an optimizer can ask for. -/
inductive Query (n : Nat) where
  | fn (x : X n)
  | con (x : X n)
  | dcon (x : X n)

/-- `scipy.optimize.minimize`: a program that asks and, from the answers, goes on or returns `res.x`. -/
inductive Opt (n : Nat) where
  | done (x : X n)
  | ask (q : Query n) (k : ℝ × X n → Opt n)

/-- The answers of `minimize_qfm_penalty_constraints_LBFGS` (L136-142): `fn` is the penalty function; there are no constraints. -/
noncomputable def ansLBFGS (q : Prob n) (w : ℝ) : Query n → X n × ℝ × X n
  | .fn x => penalty q w x
  | .con x => penalty q w x
  | .dcon x => penalty q w x

/-- The answers of `minimize_qfm_exact_constraints_SLSQP` (L168-177): `fun`, and `con`, `dcon` the two parts of `qfm_label_constraint(x, derivatives=1)`. -/
noncomputable def ansSLSQP (q : Prob n) : Query n → X n × ℝ × X n
  | .fn x => objective q x
  | .con x => labelConstraint q x
  | .dcon x => labelConstraint q x

/-- `minimize(...)` with these answers: the dofs of the surface afterwards, and `res.x`.  Every answer leaves the surface at the point asked for. -/
def run (ans : Query n → X n × ℝ × X n) : X n → Opt n → X n × X n
  | s, .done x => (s, x)
  | _, .ask qq k => run ans (ans qq).1 (k (ans qq).2)

/-- The two drivers (L123-152, L154-188): run, then `s.x = res.x`; returned is the surface's dofs.  `start` is `s.x`, given to the optimizer. -/
def driver (ans : Query n → X n × ℝ × X n) (opt : X n → Opt n) (start : X n) : X n :=
  let r := run ans start (opt start)
  r.2

/-- `minimize_qfm` (L190-217): `none` is the `ValueError`. -/
noncomputable def minimizeQfm (q : Prob n) (method : String) (w : ℝ) (slsqp lbfgs : X n → Opt n) (start : X n) : Option (X n) :=
  if method = "SLSQP" then some (driver (ansSLSQP q) slsqp start)
  else if method = "LBFGS" then some (driver (ansLBFGS q w) lbfgs start)
  else none

/-- The derivative of a function of the dofs along every path. -/
def Grad (f : X n → ℝ) (g : X n) (x : X n) : Prop := ∀ (γ : ℝ → X n) (d : X n) (t : ℝ), γ t = x → (∀ i, HasDerivAt (fun s => γ s i) (d i) t) → HasDerivAt (fun s => f (γ s)) (∑ i, g i * d i) t

/-- **C153.** Value and gradient of the penalty function: `f + w/2 (label - target)²` and its derivative. -/
theorem C153_penalty (q : Prob n) (w : ℝ) (x : X n) (hf : Grad q.f (q.df x) x) (hl : Grad q.l (q.dl x) x) :
    (penalty q w x).2.1 = q.f x + w / 2 * (q.l x - q.target) ^ 2 ∧ Grad (fun y => (penalty q w y).2.1) (penalty q w x).2.2 x := by
  refine ⟨by simp only [penalty]; ring, fun γ d t h0 hd => ?_⟩
  have h1 := hf γ d t h0 hd
  have h2 := (((hl γ d t h0 hd).sub_const q.target).fun_pow 2).const_mul (0.5 * w)
  refine (h1.fun_add h2).congr_deriv ?_
  simp only [penalty, h0]
  have e : ∑ i, (q.df x i + w * (q.l x - q.target) * q.dl x i) * d i = ∑ i, q.df x i * d i + w * (q.l x - q.target) * ∑ i, q.dl x i * d i := by
    rw [Finset.mul_sum, ← Finset.sum_add_distrib]; exact Finset.sum_congr rfl fun i _ => by ring
  rw [e]; push_cast; ring

/-- **C153.** Value and gradient of the constraint function: half the squared distance of the label from the target, and its derivative; it is never negative and zero exactly at the surfaces with the target label. -/
theorem C153_constraint (q : Prob n) (x : X n) (hl : Grad q.l (q.dl x) x) :
    (labelConstraint q x).2.1 = 1 / 2 * (q.l x - q.target) ^ 2 ∧ Grad (fun y => (labelConstraint q y).2.1) (labelConstraint q x).2.2 x ∧
    0 ≤ (labelConstraint q x).2.1 ∧ ((labelConstraint q x).2.1 = 0 ↔ q.l x = q.target) := by
  have e : (labelConstraint q x).2.1 = 1 / 2 * (q.l x - q.target) ^ 2 := by simp only [labelConstraint]; ring
  refine ⟨e, fun γ d t h0 hd => ?_, by rw [e]; positivity, ?_⟩
  · have h2 := (((hl γ d t h0 hd).sub_const q.target).fun_pow 2).const_mul (0.5 : ℝ)
    refine h2.congr_deriv ?_
    simp only [labelConstraint, h0]
    have e : ∑ i, (q.l x - q.target) * q.dl x i * d i = (q.l x - q.target) * ∑ i, q.dl x i * d i := by
      rw [Finset.mul_sum]; exact Finset.sum_congr rfl fun i _ => by ring
    rw [e]; push_cast; ring
  · rw [e]
    constructor
    · intro h
      have : (q.l x - q.target) ^ 2 = 0 := by linarith
      have := pow_eq_zero_iff (two_ne_zero) |>.mp this
      linarith
    · intro h; rw [h]; ring

/-- The points an optimizer asks for, with the answers it gets. -/
def trace (ans : Query n → X n × ℝ × X n) : Opt n → List (Query n × ℝ × X n)
  | .done _ => []
  | .ask qq k => (qq, (ans qq).2) :: trace ans (k (ans qq).2)

/-- `res.x` of an optimizer given these answers. -/
def answer (ans : Query n → X n × ℝ × X n) : Opt n → X n
  | .done x => x
  | .ask qq k => answer ans (k (ans qq).2)

theorem run_snd (ans : Query n → X n × ℝ × X n) (s : X n) (o : Opt n) : (run ans s o).2 = answer ans o := by
  induction o generalizing s with
  | done x => rfl
  | ask qq k ih => exact ih _ _

/-- **C153.** Whatever the optimizer does, the surface ends at `res.x` (not at the last point tried), the objective values and gradients it saw are those of the documented functions, and an unknown method raises;
the weight plays no role for SLSQP. -/
theorem C153_drivers (q : Prob n) (w : ℝ) (slsqp lbfgs : X n → Opt n) (start : X n) :
    minimizeQfm q "SLSQP" w slsqp lbfgs start = some (answer (ansSLSQP q) (slsqp start)) ∧
    minimizeQfm q "LBFGS" w slsqp lbfgs start = some (answer (ansLBFGS q w) (lbfgs start)) ∧
    (∀ m, m ≠ "SLSQP" → m ≠ "LBFGS" → minimizeQfm q m w slsqp lbfgs start = none) ∧
    (∀ x v, (Query.fn x, v) ∈ trace (ansSLSQP q) (slsqp start) → v = (q.f x, q.df x)) ∧
    (∀ x v, (Query.con x, v) ∈ trace (ansSLSQP q) (slsqp start) → v.1 = 1 / 2 * (q.l x - q.target) ^ 2) ∧
    (∀ x v, (Query.dcon x, v) ∈ trace (ansSLSQP q) (slsqp start) → ∀ i, v.2 i = (q.l x - q.target) * q.dl x i) ∧
    (∀ x v, (Query.fn x, v) ∈ trace (ansLBFGS q w) (lbfgs start) → v.1 = q.f x + w / 2 * (q.l x - q.target) ^ 2 ∧ ∀ i, v.2 i = q.df x i + w * (q.l x - q.target) * q.dl x i) := by
  have ht : ∀ (ans : Query n → X n × ℝ × X n) (o : Opt n) qq v, (qq, v) ∈ trace ans o → v = (ans qq).2 := by
    intro ans o qq v
    induction o with
    | done x => simp [trace]
    | ask q1 k ih =>
      intro h
      rcases List.mem_cons.mp h with h | h
      · cases h; rfl
      · exact ih _ h
  refine ⟨?_, ?_, ?_, ?_, ?_, ?_, ?_⟩
  · simp [minimizeQfm, driver, run_snd]
  · simp [minimizeQfm, driver, run_snd]
  · intro m h1 h2; simp [minimizeQfm, h1, h2]
  · intro x v h; rw [ht _ _ _ _ h]; rfl
  · intro x v h; rw [ht _ _ _ _ h]; simp only [ansSLSQP, labelConstraint]; ring
  · intro x v h i; rw [ht _ _ _ _ h]; simp only [ansSLSQP, labelConstraint]
  · intro x v h; rw [ht _ _ _ _ h]
    refine ⟨by simp only [ansLBFGS, penalty]; ring, fun i => rfl⟩

/-- **C153, violated.** SLSQP gets the square of the label's distance as its equality constraint: at every surface with the target label its gradient vanishes, so that the conditions `∇f + λ ∇c = 0` that SLSQP solves
hold only where the unconstrained `∇f` vanishes; the constrained minimum, where `∇f = -λ ∇label` with `∇label ≠ 0`, satisfies them for no multiplier unless `∇f = 0`. -/
theorem C153_multiplier_violated (q : Prob n) (x : X n) (hx : q.l x = q.target) :
    (∀ i, (labelConstraint q x).2.2 i = 0) ∧ ∀ lam : ℝ, (∀ i, q.df x i + lam * (labelConstraint q x).2.2 i = 0) ↔ ∀ i, q.df x i = 0 := by
  have h0 : ∀ i, (labelConstraint q x).2.2 i = 0 := by intro i; simp only [labelConstraint, hx, sub_self, zero_mul]
  exact ⟨h0, fun lam => by simp only [h0, mul_zero, add_zero]⟩

/-- **C153, violated.** Away from the target, a step that satisfies the linearised constraint goes only half the way: for a label that is affine the distance to the target is halved, never closed. -/
theorem C153_halving_violated (q : Prob n) (x d : X n) (haff : ∀ y, q.l y = q.l x + ∑ i, q.dl x i * (y i - x i)) (hne : q.l x ≠ q.target)
    (hstep : (labelConstraint q x).2.1 + ∑ i, (labelConstraint q x).2.2 i * d i = 0) :
    q.l (fun i => x i + d i) - q.target = (q.l x - q.target) / 2 ∧ q.l (fun i => x i + d i) ≠ q.target := by
  have hr : q.l x - q.target ≠ 0 := sub_ne_zero.mpr hne
  simp only [labelConstraint] at hstep
  have e : ∑ i, (q.l x - q.target) * q.dl x i * d i = (q.l x - q.target) * ∑ i, q.dl x i * d i := by
    rw [Finset.mul_sum]; exact Finset.sum_congr rfl fun i _ => by ring
  rw [e] at hstep
  have hs : ∑ i, q.dl x i * d i = -(q.l x - q.target) / 2 := by
    have : (q.l x - q.target) * (∑ i, q.dl x i * d i + (q.l x - q.target) / 2) = 0 := by linear_combination hstep
    rcases mul_eq_zero.mp this with h | h
    · exact absurd h hr
    · linarith
  have h1 : q.l (fun i => x i + d i) - q.target = (q.l x - q.target) / 2 := by
    rw [haff]; simp only [add_sub_cancel_left, hs]; ring
  refine ⟨h1, fun h => hr ?_⟩
  rw [h, sub_self] at h1; linarith

/-- A problem in the plane: `f = x₀² + x₁²`, label `x₀`, target 1; the constrained minimum is `(1, 0)`. -/
def plane : Prob 2 where
  f := fun x => x 0 ^ 2 + x 1 ^ 2
  df := fun x => ![2 * x 0, 2 * x 1]
  l := fun x => x 0
  dl := fun _ => ![1, 0]
  target := 1

/-- **C153, violated, a case.** At the constrained minimum of this problem no multiplier satisfies the optimality conditions that the code gives to SLSQP. -/
theorem C153_minimum_violated : (∀ y : X 2, plane.l y = plane.target → plane.f ![1, 0] ≤ plane.f y) ∧ plane.l ![1, 0] = plane.target ∧
    ¬ ∃ lam : ℝ, ∀ i, plane.df ![1, 0] i + lam * (labelConstraint plane ![1, 0]).2.2 i = 0 := by
  refine ⟨?_, rfl, ?_⟩
  · intro y hy
    simp only [plane] at hy ⊢
    rw [hy]; simp; positivity
  · rintro ⟨lam, h⟩
    have := (C153_multiplier_violated plane ![1, 0] rfl).2 lam |>.mp h 0
    simp [plane] at this

/-- The hypotheses of `C153_penalty` and `C153_constraint` are met by this problem at every point. -/
example (x : X 2) : Grad plane.f (plane.df x) x ∧ Grad plane.l (plane.dl x) x := by
  constructor
  · intro γ d t h0 hd
    refine (((hd 0).fun_pow 2).fun_add ((hd 1).fun_pow 2)).congr_deriv ?_
    simp [plane, Fin.sum_univ_two, h0]
  · intro γ d t h0 hd
    refine (hd 0).congr_deriv ?_
    simp [plane, Fin.sum_univ_two]

/-- The hypotheses of `C153_halving_violated` are met: from the origin the step goes to 1/2. -/
example : (labelConstraint plane ![0, 0]).2.1 + ∑ i, (labelConstraint plane ![0, 0]).2.2 i * ![1 / 2, 0] i = 0 ∧ plane.l ![0, 0] ≠ plane.target := by
  constructor
  · simp [labelConstraint, plane, Fin.sum_univ_two]; norm_num
  · simp [plane]

end Simsopt.Labels.Qfm
