import Mathlib.Analysis.SpecialFunctions.Pow.Real
import Mathlib.Algebra.BigOperators.Field
import Mathlib.Algebra.Order.BigOperators.Group.Finset
import Mathlib.Algebra.BigOperators.Fin
import Mathlib.Tactic.Module
import Mathlib.Tactic.Linarith
/-!
# C76: the convex step of the permanent-magnet optimization (MwPGP)

Model of `MwPGP_algorithm` and its helpers (src/simsoptpp/permanent_magnet_optimization.cpp L11-322), and of the step size of `relax_and_split` (src/simsopt/solve/permanent_magnet_optimization.py L188-190) and
`rescale_for_opt` (src/simsopt/geo/permanent_magnet_grid.py L545-592).

Simplifications: real numbers instead of doubles; a quotient by zero (`alpha_cg` when `p` is zero) is NaN or infinite in C++ and then fails the test `alpha_cg < alpha_f`, which is how it is modelled; the two criteria that end the
loop early (`min_fb` and the sum `x_sum`, which is accumulated by several threads without a reduction) are not modelled: the theorems hold after every number of iterations, whichever of them is the last one.
-/
namespace Simsopt.Magnets

/-- `N` dipoles with three components. -/
abbrev X (N : Nat) := Fin N → Fin 3 → ℝ

/-- Inner product of two 3-vectors. -/
def dot3 (u v : Fin 3 → ℝ) : ℝ := u 0 * v 0 + u 1 * v 1 + u 2 * v 2

/-- `projection_L2_balls` (permanent_magnet_optimization.cpp L12-15). -/
noncomputable def proj (x : Fin 3 → ℝ) (m : ℝ) : Fin 3 → ℝ := fun c => x c / max 1 (Real.sqrt (dot3 x x) / m)

open Classical in
/-- `phi_MwPGP` (permanent_magnet_optimization.cpp L18-32). -/
noncomputable def phi (x g : Fin 3 → ℝ) (m : ℝ) : Fin 3 → ℝ :=
  if |dot3 x x - m * m| > 1e-8 + 1e-5 * m * m then g else 0

/-- `g_reduced_gradient` (permanent_magnet_optimization.cpp L60-65). -/
noncomputable def gReduced (x g : Fin 3 → ℝ) (alpha m : ℝ) : Fin 3 → ℝ := fun c => (x c - proj (x - alpha • g) m c) / alpha

open Classical in
/-- `beta_tilde` (permanent_magnet_optimization.cpp L35-56). -/
noncomputable def betaTilde (x g : Fin 3 → ℝ) (alpha m : ℝ) : Fin 3 → ℝ :=
  if |dot3 x x - m * m| < 1e-8 + 1e-5 * (m * m) then
    if dot3 x g / Real.sqrt (dot3 x x) > 0 then g else gReduced x g alpha m
  else 0

/-- `g_reduced_projected_gradient` (permanent_magnet_optimization.cpp L68-73). -/
noncomputable def gReducedProj (x g : Fin 3 → ℝ) (alpha m : ℝ) : Fin 3 → ℝ := phi x g m + betaTilde x g alpha m

open Classical in
/-- `find_max_alphaf` (permanent_magnet_optimization.cpp L78-94). -/
noncomputable def maxAlpha (x p : Fin 3 → ℝ) (m : ℝ) : ℝ :=
  let a := dot3 p p
  let c := dot3 x x - m * m
  let b := -2 * dot3 x p
  if a > 1e-20 then (-b + Real.sqrt (b * b - 4 * a * c)) / (2 * a) else 1e100

/-- The arguments of `MwPGP_algorithm` (permanent_magnet_optimization.cpp L153) that matter here. -/
structure Prob (N G : Nat) where
  A : Fin G → Fin N → Fin 3 → ℝ
  b : Fin G → ℝ
  ATb : X N
  proxy : X N
  mmax : Fin N → ℝ
  alpha : ℝ
  nu : ℝ
  regL2 : ℝ

variable {N G : Nat}

/-- `A @ v`. -/
def Prob.app (P : Prob N G) (v : X N) (i : Fin G) : ℝ := ∑ j, dot3 (P.A i j) (v j)

/-- `v*A^T*A + 2*v*(reg_l2 + 1/(2*nu))` (permanent_magnet_optimization.cpp L188, L224, L274, L294). -/
noncomputable def Prob.hess (P : Prob N G) (v : X N) : X N := fun j c => (∑ i, P.app v i * P.A i j c) + 2 * v j c * (P.regL2 + 1 / (2 * P.nu))

/-- `ATb_rs` (permanent_magnet_optimization.cpp L179). -/
noncomputable def Prob.rhs (P : Prob N G) : X N := fun j c => P.ATb j c + P.proxy j c / P.nu

/-- The gradient as it is computed from scratch (permanent_magnet_optimization.cpp L188-191, L274-279, L294-299). -/
noncomputable def Prob.grad (P : Prob N G) (x : X N) : X N := P.hess x - P.rhs

/-- Sum over all the components (the reductions of permanent_magnet_optimization.cpp L225-234). -/
def dot (x y : X N) : ℝ := ∑ j, dot3 (x j) (y j)

/-- The loop state: `x_k1`, `g`, `p`. -/
structure St (N : Nat) where
  x : X N
  g : X N
  p : X N

/-- Before the loop (permanent_magnet_optimization.cpp L182-197). -/
noncomputable def Prob.start (P : Prob N G) (m0 : X N) : St N := ⟨m0, P.grad m0, fun j => phi (m0 j) (P.grad m0 j) (P.mmax j)⟩

/-- `*std::min_element(alpha_fs)` (permanent_magnet_optimization.cpp L237-238). -/
noncomputable def Prob.alphaF [NeZero N] (P : Prob N G) (s : St N) : ℝ :=
  Finset.univ.inf' ⟨(0 : Fin N), Finset.mem_univ _⟩ fun j => maxAlpha (s.x j) (s.p j) (P.mmax j)

/-- The conjugate gradient step (permanent_magnet_optimization.cpp L245-269). -/
noncomputable def Prob.cgStep (P : Prob N G) (s : St N) : St N :=
  let ATAp := P.hess s.p
  let alphaCg := dot s.g s.p / dot s.p ATAp
  let x : X N := fun j c => s.x j c + -alphaCg * s.p j c
  let g : X N := fun j c => s.g j c + -alphaCg * ATAp j c
  let ph : X N := fun j => phi (x j) (g j) (P.mmax j)
  let gamma := dot ph ATAp / dot s.p ATAp
  ⟨x, g, fun j c => ph j c - gamma * s.p j c⟩

/-- The gradient and the direction from scratch at a new point (permanent_magnet_optimization.cpp L271-283, L291-303). -/
noncomputable def Prob.restart (P : Prob N G) (x : X N) : St N := ⟨x, P.grad x, fun j => phi (x j) (P.grad x j) (P.mmax j)⟩

/-- The mixed projected gradient step (permanent_magnet_optimization.cpp L271-284). -/
noncomputable def Prob.mixedStep [NeZero N] (P : Prob N G) (s : St N) : St N :=
  P.restart fun j => proj (fun c => (s.x j c - P.alphaF s * s.p j c) - P.alpha * (s.g j c - P.alphaF s * P.hess s.p j c)) (P.mmax j)

/-- The projected gradient step (permanent_magnet_optimization.cpp L287-303). -/
noncomputable def Prob.projStep (P : Prob N G) (s : St N) : St N :=
  P.restart fun j => proj (fun c => s.x j c - P.alpha * s.g j c) (P.mmax j)

open Classical in
/-- One iteration of the loop (permanent_magnet_optimization.cpp L204-303). -/
noncomputable def Prob.step [NeZero N] (P : Prob N G) (s : St N) : St N :=
  let gap : X N := fun j => gReducedProj (s.x j) (s.g j) P.alpha (P.mmax j)
  let ph : X N := fun j => phi (s.x j) (s.g j) (P.mmax j)
  if dot gap gap ≤ dot ph ph then
    if dot s.p (P.hess s.p) ≠ 0 ∧ dot s.g s.p / dot s.p (P.hess s.p) < P.alphaF s then P.cgStep s else P.mixedStep s
  else P.projStep s

/-- The state after `k` iterations from the initial guess `m0`. -/
noncomputable def Prob.after [NeZero N] (P : Prob N G) (m0 : X N) (k : Nat) : St N := P.step^[k] (P.start m0)

/-! ### Specification -/

/-- The objective (printed as "Total Error", permanent_magnet_optimization.cpp L98-146): `|Ax-b|^2/2 + |x-m_proxy|^2/(2 nu) + reg_l2 |x|^2`. -/
noncomputable def Prob.cost (P : Prob N G) (x : X N) : ℝ :=
  (∑ i, (P.app x i - P.b i) ^ 2) / 2 + (∑ j, ∑ c, (x j c - P.proxy j c) ^ 2) / (2 * P.nu) + P.regL2 * ∑ j, ∑ c, x j c ^ 2

/-- Every dipole moment is at most its maximum. -/
def Prob.Feasible (P : Prob N G) (x : X N) : Prop := ∀ j, Real.sqrt (x j 0 ^ 2 + x j 1 ^ 2 + x j 2 ^ 2) ≤ P.mmax j

/-- What a caller of `MwPGP_algorithm` provides: positive maxima, `nu > 0`, `reg_l2 ≥ 0`, and `ATb` is `A^T b`. -/
structure Prob.Sane (P : Prob N G) : Prop where
  mmax : ∀ j, 0 < P.mmax j
  nu : 0 < P.nu
  reg : 0 ≤ P.regL2
  atb : ∀ j c, P.ATb j c = ∑ i, P.A i j c * P.b i

/-- No component of the search direction is nonzero but so small that `find_max_alphaf` ignores it. -/
def NoTiny (s : St N) : Prop := ∀ j, s.p j = 0 ∨ dot3 (s.p j) (s.p j) > 1e-20

/-! ### Linear algebra -/

theorem dot3_add (u v w : Fin 3 → ℝ) : dot3 u (v + w) = dot3 u v + dot3 u w := by simp only [dot3, Pi.add_apply]; ring
theorem dot3_sub (u v w : Fin 3 → ℝ) : dot3 u (v - w) = dot3 u v - dot3 u w := by simp only [dot3, Pi.sub_apply]; ring
theorem dot3_smul (u v : Fin 3 → ℝ) (t : ℝ) : dot3 u (t • v) = t * dot3 u v := by simp only [dot3, Pi.smul_apply, smul_eq_mul]; ring
theorem dot3_comm (u v : Fin 3 → ℝ) : dot3 u v = dot3 v u := by simp only [dot3]; ring
theorem dot3_self_nonneg (u : Fin 3 → ℝ) : 0 ≤ dot3 u u := by simp only [dot3]; nlinarith [sq_nonneg (u 0), sq_nonneg (u 1), sq_nonneg (u 2)]

theorem dot3_self_zero (u : Fin 3 → ℝ) (h : dot3 u u = 0) : u = 0 := by
  simp only [dot3] at h
  have h0 := mul_self_nonneg (u 0); have h1 := mul_self_nonneg (u 1); have h2 := mul_self_nonneg (u 2)
  have z0 : u 0 = 0 := mul_self_eq_zero.mp (by linarith)
  have z1 : u 1 = 0 := mul_self_eq_zero.mp (by linarith)
  have z2 : u 2 = 0 := mul_self_eq_zero.mp (by linarith)
  funext c
  fin_cases c
  · exact z0
  · exact z1
  · exact z2

theorem cauchy3 (u v : Fin 3 → ℝ) : dot3 u v ^ 2 ≤ dot3 u u * dot3 v v := by
  simp only [dot3]
  nlinarith [sq_nonneg (u 0 * v 1 - u 1 * v 0), sq_nonneg (u 0 * v 2 - u 2 * v 0), sq_nonneg (u 1 * v 2 - u 2 * v 1)]

theorem sqrt_form (u : Fin 3 → ℝ) : Real.sqrt (u 0 ^ 2 + u 1 ^ 2 + u 2 ^ 2) = Real.sqrt (dot3 u u) := by simp only [dot3]; congr 1; ring

theorem feas_iff (u : Fin 3 → ℝ) (m : ℝ) (hm : 0 < m) : Real.sqrt (u 0 ^ 2 + u 1 ^ 2 + u 2 ^ 2) ≤ m ↔ dot3 u u ≤ m * m := by
  rw [sqrt_form, Real.sqrt_le_left hm.le, sq]

theorem dot_add (u v w : X N) : dot u (v + w) = dot u v + dot u w := by simp only [dot, Pi.add_apply, dot3_add, Finset.sum_add_distrib]
theorem dot_sub (u v w : X N) : dot u (v - w) = dot u v - dot u w := by simp only [dot, Pi.sub_apply, dot3_sub, Finset.sum_sub_distrib]
theorem dot_smul (u v : X N) (t : ℝ) : dot u (t • v) = t * dot u v := by simp only [dot, Pi.smul_apply, dot3_smul, Finset.mul_sum]
theorem dot_comm (u v : X N) : dot u v = dot v u := by simp only [dot, dot3_comm]
theorem dot_add_left (u v w : X N) : dot (u + v) w = dot u w + dot v w := by rw [dot_comm, dot_add, dot_comm w, dot_comm w]
theorem dot_sub_left (u v w : X N) : dot (u - v) w = dot u w - dot v w := by rw [dot_comm, dot_sub, dot_comm w, dot_comm w]
theorem dot_smul_left (u v : X N) (t : ℝ) : dot (t • u) v = t * dot u v := by rw [dot_comm, dot_smul, dot_comm v]
theorem dot_self_nonneg (u : X N) : 0 ≤ dot u u := Finset.sum_nonneg fun j _ => dot3_self_nonneg (u j)
theorem dot_self_zero (u : X N) (h : dot u u = 0) : u = 0 := by
  funext j
  exact dot3_self_zero _ ((Finset.sum_eq_zero_iff_of_nonneg fun j _ => dot3_self_nonneg (u j)).mp h j (Finset.mem_univ j))

theorem app_add (P : Prob N G) (u v : X N) : P.app (u + v) = P.app u + P.app v := by
  funext i; simp only [Prob.app, Pi.add_apply, dot3_add, Finset.sum_add_distrib]
theorem app_smul (P : Prob N G) (u : X N) (t : ℝ) : P.app (t • u) = t • P.app u := by
  funext i; simp only [Prob.app, Pi.smul_apply, dot3_smul, Finset.mul_sum, smul_eq_mul]

/-- The matrix is symmetric and `v^T M w = (Av)·(Aw) + (2 reg_l2 + 1/nu) v·w`. -/
theorem dot_hess (P : Prob N G) (hnu : 0 < P.nu) (v w : X N) : dot (P.hess v) w = (∑ i, P.app v i * P.app w i) + (2 * P.regL2 + 1 / P.nu) * dot v w := by
  have h1 : ∀ j, dot3 (P.hess v j) (w j) = (∑ i, P.app v i * dot3 (P.A i j) (w j)) + (2 * P.regL2 + 1 / P.nu) * dot3 (v j) (w j) := by
    intro j
    simp only [dot3, Prob.hess]
    have e : ∀ c, (∑ i, P.app v i * P.A i j c) * w j c = ∑ i, P.app v i * (P.A i j c * w j c) := by
      intro c; rw [Finset.sum_mul]; exact Finset.sum_congr rfl fun i _ => by ring
    simp only [add_mul, e, mul_add, Finset.sum_add_distrib]
    have e2 : 1 / (2 * P.nu) = (1 / P.nu) / 2 := by field_simp
    rw [e2]
    ring
  simp only [dot, h1, Finset.sum_add_distrib, ← Finset.mul_sum]
  congr 1
  rw [Finset.sum_comm]
  refine Finset.sum_congr rfl fun i _ => ?_
  rw [← Finset.mul_sum]; rfl

theorem hess_sub (P : Prob N G) (u v : X N) (t : ℝ) : P.hess (u + t • v) = P.hess u + t • P.hess v := by
  funext j c
  simp only [Prob.hess, app_add, app_smul, Pi.add_apply, Pi.smul_apply, smul_eq_mul, add_mul, mul_add, Finset.sum_add_distrib, Finset.mul_sum]
  have : ∀ i, t * P.app v i * P.A i j c = t * (P.app v i * P.A i j c) := fun i => by ring
  simp only [this]
  ring

theorem hess_symm (P : Prob N G) (hnu : 0 < P.nu) (v w : X N) : dot (P.hess v) w = dot v (P.hess w) := by
  rw [dot_comm v, dot_hess P hnu, dot_hess P hnu, dot_comm v w]
  congr 1
  exact Finset.sum_congr rfl fun i _ => mul_comm _ _

theorem sum_sq (x y : X N) : ∑ j, ∑ c, (x j c - y j c) ^ 2 = dot (x - y) (x - y) := by
  simp only [dot, dot3, Pi.sub_apply, Fin.sum_univ_three]
  exact Finset.sum_congr rfl fun j _ => by ring

theorem sum_sq0 (x : X N) : ∑ j, ∑ c, x j c ^ 2 = dot x x := by
  have := sum_sq x 0
  simpa using this

theorem cost_eq (P : Prob N G) (x : X N) : P.cost x = (∑ i, (P.app x i - P.b i) ^ 2) / 2 + dot (x - P.proxy) (x - P.proxy) / (2 * P.nu) + P.regL2 * dot x x := by
  rw [Prob.cost, sum_sq, sum_sq0]

theorem dot_rhs (P : Prob N G) (hs : P.Sane) (d : X N) : dot P.rhs d = (∑ i, P.b i * P.app d i) + dot P.proxy d / P.nu := by
  have h1 : ∀ j, dot3 (P.rhs j) (d j) = (∑ i, P.b i * dot3 (P.A i j) (d j)) + dot3 (P.proxy j) (d j) / P.nu := by
    intro j
    simp only [dot3, Prob.rhs, hs.atb]
    have e : ∀ c, (∑ i, P.A i j c * P.b i) * d j c = ∑ i, P.b i * (P.A i j c * d j c) := by
      intro c; rw [Finset.sum_mul]; exact Finset.sum_congr rfl fun i _ => by ring
    simp only [add_mul, e, mul_add, Finset.sum_add_distrib]
    ring
  simp only [dot, h1, Finset.sum_add_distrib, Finset.sum_div]
  congr 1
  rw [Finset.sum_comm]
  refine Finset.sum_congr rfl fun i _ => ?_
  rw [Prob.app, Finset.mul_sum]

/-- The second-order expansion of the objective is exact. -/
theorem cost_expand (P : Prob N G) (hs : P.Sane) (x d : X N) : P.cost (x + d) = P.cost x + dot (P.grad x) d + dot d (P.hess d) / 2 := by
  have hnu := hs.nu
  have hg : dot (P.grad x) d = (∑ i, P.app x i * P.app d i) + (2 * P.regL2 + 1 / P.nu) * dot x d - ((∑ i, P.b i * P.app d i) + dot P.proxy d / P.nu) := by
    rw [Prob.grad, dot_sub_left, dot_hess P hnu, dot_rhs P hs]
  have hd : dot d (P.hess d) = (∑ i, P.app d i * P.app d i) + (2 * P.regL2 + 1 / P.nu) * dot d d := by rw [dot_comm, dot_hess P hnu]
  have e1 : ∑ i, (P.app (x + d) i - P.b i) ^ 2 = (∑ i, (P.app x i - P.b i) ^ 2) + 2 * ((∑ i, P.app x i * P.app d i) - ∑ i, P.b i * P.app d i) + ∑ i, P.app d i * P.app d i := by
    rw [app_add, ← Finset.sum_sub_distrib, Finset.mul_sum, ← Finset.sum_add_distrib, ← Finset.sum_add_distrib]
    refine Finset.sum_congr rfl fun i _ => ?_
    simp only [Pi.add_apply]; ring
  have e2 : dot (x + d - P.proxy) (x + d - P.proxy) = dot (x - P.proxy) (x - P.proxy) + 2 * (dot x d - dot P.proxy d) + dot d d := by
    have : x + d - P.proxy = (x - P.proxy) + d := by abel
    rw [this, dot_add, dot_add_left, dot_add_left, dot_comm d (x - P.proxy), dot_sub_left x P.proxy d]
    ring
  have e3 : dot (x + d) (x + d) = dot x x + 2 * dot x d + dot d d := by
    rw [dot_add, dot_add_left, dot_add_left, dot_comm d x]; ring
  rw [cost_eq, cost_eq, e1, e2, e3, hg, hd]
  field_simp
  ring

theorem hess_pos (P : Prob N G) (hs : P.Sane) (d : X N) : (1 / P.nu) * dot d d ≤ dot d (P.hess d) := by
  rw [dot_comm d (P.hess d), dot_hess P hs.nu]
  have h1 : 0 ≤ ∑ i, P.app d i * P.app d i := Finset.sum_nonneg fun i _ => mul_self_nonneg _
  have h2 := mul_nonneg hs.reg (dot_self_nonneg d)
  nlinarith

/-! ### The projection -/

theorem proj_feasible (y : Fin 3 → ℝ) (m : ℝ) (hm : 0 < m) : dot3 (proj y m) (proj y m) ≤ m * m := by
  set n := Real.sqrt (dot3 y y) with hn
  have hnn : n * n = dot3 y y := Real.mul_self_sqrt (dot3_self_nonneg y)
  have hn0 : 0 ≤ n := Real.sqrt_nonneg _
  have hd : 0 < max 1 (n / m) := lt_of_lt_of_le one_pos (le_max_left _ _)
  have e : dot3 (proj y m) (proj y m) = n * n / (max 1 (n / m) * max 1 (n / m)) := by
    rw [hnn]
    have hp : proj y m = fun c => y c / max 1 (n / m) := rfl
    rw [hp]
    generalize max 1 (n / m) = M at hd
    simp only [dot3]; field_simp
  rw [e, div_le_iff₀ (by positivity)]
  have h1 : n ≤ m * max 1 (n / m) := by
    have := le_max_right 1 (n / m)
    rw [div_le_iff₀ hm] at this
    linarith
  calc n * n ≤ (m * max 1 (n / m)) * (m * max 1 (n / m)) := mul_self_le_mul_self hn0 h1
    _ = m * m * (max 1 (n / m) * max 1 (n / m)) := by ring

/-- The obtuse angle property: for `v` in the ball, `(y - P y)·(v - P y) ≤ 0`. -/
theorem proj_obtuse (y v : Fin 3 → ℝ) (m : ℝ) (hm : 0 < m) (hv : dot3 v v ≤ m * m) : dot3 (y - proj y m) (v - proj y m) ≤ 0 := by
  set n := Real.sqrt (dot3 y y) with hn
  have hnn : n * n = dot3 y y := Real.mul_self_sqrt (dot3_self_nonneg y)
  have hn0 : 0 ≤ n := Real.sqrt_nonneg _
  by_cases h : n / m ≤ 1
  · have e : proj y m = y := by funext c; simp only [proj, ← hn, max_eq_left h, div_one]
    rw [e]; simp [dot3]
  · push Not at h
    have hnm : m < n := by rwa [lt_div_iff₀ hm, one_mul] at h
    have hnpos : 0 < n := lt_trans hm hnm
    have e : proj y m = (m / n) • y := by
      funext c
      simp only [proj, ← hn, max_eq_right h.le, Pi.smul_apply, smul_eq_mul]
      field_simp
    rw [e]
    have hyv : dot3 y v ≤ n * m := by
      have := cauchy3 y v
      have h2 : dot3 y y * dot3 v v ≤ (n * n) * (m * m) := by rw [hnn]; exact mul_le_mul_of_nonneg_left hv (dot3_self_nonneg y)
      have h3 : dot3 y v ^ 2 ≤ (n * m) ^ 2 := by nlinarith
      exact (abs_le_of_sq_le_sq' h3 (by positivity)).2
    have e2 : dot3 (y - (m / n) • y) (v - (m / n) • y) = (1 - m / n) * (dot3 y v - (m / n) * dot3 y y) := by
      simp only [dot3, Pi.sub_apply, Pi.smul_apply, smul_eq_mul]; ring
    rw [e2, ← hnn]
    have h4 : m / n * (n * n) = m * n := by field_simp
    rw [h4]
    have h5 : 0 ≤ 1 - m / n := by rw [sub_nonneg, div_le_one hnpos]; exact hnm.le
    exact mul_nonpos_of_nonneg_of_nonpos h5 (by linarith)

/-! ### The step to the boundary -/

/-- For `0 ≤ t ≤ maxAlpha` the point `x - t p` stays in the ball. -/
theorem maxAlpha_inside (x p : Fin 3 → ℝ) (m t : ℝ) (hx : dot3 x x ≤ m * m) (hp : p = 0 ∨ dot3 p p > 1e-20) (h0 : 0 ≤ t) (h1 : t ≤ maxAlpha x p m) :
    dot3 (x - t • p) (x - t • p) ≤ m * m := by
  have e : dot3 (x - t • p) (x - t • p) = dot3 x x - 2 * t * dot3 x p + t * t * dot3 p p := by simp only [dot3, Pi.sub_apply, Pi.smul_apply, smul_eq_mul]; ring
  rcases hp with rfl | hp
  · simpa [dot3] using hx
  · rw [e]
    have ha : 0 < dot3 p p := lt_trans (by norm_num) hp
    simp only [maxAlpha, if_pos hp] at h1
    set a := dot3 p p
    set xp := dot3 x p
    set D := Real.sqrt (-2 * xp * (-2 * xp) - 4 * a * (dot3 x x - m * m)) with hD
    have hDD : D * D = -2 * xp * (-2 * xp) - 4 * a * (dot3 x x - m * m) := Real.mul_self_sqrt (by nlinarith)
    have hD0 : 0 ≤ D := Real.sqrt_nonneg _
    rw [le_div_iff₀ (by positivity)] at h1
    -- 2 a t ≤ 2 xp + D, and 2xp - D ≤ 0 ≤ 2at
    have h2 : 2 * xp - D ≤ 0 := by
      by_contra hc
      push Not at hc
      nlinarith
    have h3 : 0 ≤ (2 * xp + D - t * (2 * a)) * (t * (2 * a) - (2 * xp - D)) := mul_nonneg (by linarith) (by nlinarith)
    nlinarith

theorem maxAlpha_nonneg (x p : Fin 3 → ℝ) (m : ℝ) (hx : dot3 x x ≤ m * m) : 0 ≤ maxAlpha x p m := by
  simp only [maxAlpha]
  split
  · rename_i h
    have ha : 0 < dot3 p p := lt_trans (by norm_num) h
    set a := dot3 p p
    set xp := dot3 x p
    set D := Real.sqrt (-2 * xp * (-2 * xp) - 4 * a * (dot3 x x - m * m)) with hD
    have hDD : D * D = -2 * xp * (-2 * xp) - 4 * a * (dot3 x x - m * m) := Real.mul_self_sqrt (by nlinarith)
    have hD0 : 0 ≤ D := Real.sqrt_nonneg _
    apply div_nonneg _ (by positivity)
    by_contra hc
    push Not at hc
    nlinarith
  · norm_num

/-! ### The invariant -/

/-- Invariant of the loop. -/
structure Prob.Inv (P : Prob N G) (s : St N) : Prop where
  feas : ∀ j, dot3 (s.x j) (s.x j) ≤ P.mmax j * P.mmax j
  grad : s.g = P.grad s.x
  gp : dot s.g s.p = dot (fun j => phi (s.x j) (s.g j) (P.mmax j)) (fun j => phi (s.x j) (s.g j) (P.mmax j))

theorem phi_dot (x g : Fin 3 → ℝ) (m : ℝ) : dot3 g (phi x g m) = dot3 (phi x g m) (phi x g m) := by
  simp only [phi]; split
  · rfl
  · simp [dot3]

theorem Prob.Inv.gp0 {P : Prob N G} {s : St N} (h : P.Inv s) : 0 ≤ dot s.g s.p := by rw [h.gp]; exact dot_self_nonneg _

theorem restart_inv (P : Prob N G) (x : X N) (hx : ∀ j, dot3 (x j) (x j) ≤ P.mmax j * P.mmax j) : P.Inv (P.restart x) :=
  ⟨hx, rfl, Finset.sum_congr rfl fun j _ => phi_dot _ _ _⟩

theorem alphaF_le [NeZero N] (P : Prob N G) (s : St N) (j : Fin N) : P.alphaF s ≤ maxAlpha (s.x j) (s.p j) (P.mmax j) :=
  Finset.inf'_le _ (Finset.mem_univ j)

theorem alphaF_nonneg [NeZero N] (P : Prob N G) (s : St N) (h : P.Inv s) : 0 ≤ P.alphaF s := by
  apply Finset.le_inf'
  intro j _
  exact maxAlpha_nonneg _ _ _ (h.feas j)

/-- What one iteration guarantees. -/
theorem step_inv [NeZero N] (P : Prob N G) (hs : P.Sane) (s : St N) (h : P.Inv s) (hp : NoTiny s) : P.Inv (P.step s) := by
  simp only [Prob.step]
  split
  · split
    · rename_i hc
      obtain ⟨hne, hlt⟩ := hc
      set ATAp := P.hess s.p
      set D := dot s.p ATAp with hD
      have hDpos : 0 < D := lt_of_le_of_ne ((mul_nonneg (by have := hs.nu; positivity) (dot_self_nonneg s.p)).trans (hess_pos P hs s.p)) (Ne.symm hne)
      set al := dot s.g s.p / D with hal
      have hal0 : 0 ≤ al := div_nonneg h.gp0 hDpos.le
      have ex : (P.cgStep s).x = s.x + (-al) • s.p := by funext j c; rfl
      have eg : (P.cgStep s).g = s.g + (-al) • ATAp := by funext j c; rfl
      refine ⟨fun j => ?_, ?_, ?_⟩
      · have := maxAlpha_inside (s.x j) (s.p j) (P.mmax j) al (h.feas j) (hp j) hal0 (hlt.le.trans (alphaF_le P s j))
        rw [ex]
        have e2 : (s.x + (-al) • s.p) j = s.x j - al • s.p j := by funext c; simp [sub_eq_add_neg]
        rw [e2]; exact this
      · rw [eg, ex, Prob.grad, hess_sub, h.grad, Prob.grad]
        abel
      · -- the new gradient is orthogonal to the old direction
        have horth : dot (P.cgStep s).g s.p = 0 := by
          rw [eg, dot_add_left, dot_smul_left, dot_comm ATAp, ← hD, hal]
          field_simp
          ring
        set ph : X N := fun j => phi ((P.cgStep s).x j) ((P.cgStep s).g j) (P.mmax j) with hph
        obtain ⟨gamma, hgam⟩ : ∃ gamma : ℝ, (P.cgStep s).p = ph + (-gamma) • s.p := by
          refine ⟨dot ph ATAp / D, ?_⟩
          funext j c
          simp only [Pi.add_apply, Pi.smul_apply, smul_eq_mul]
          rw [neg_mul, ← sub_eq_add_neg]; rfl
        rw [hgam, dot_add, dot_smul, horth, mul_zero, add_zero]
        exact Finset.sum_congr rfl fun j _ => phi_dot _ _ _
    · exact restart_inv P _ fun j => proj_feasible _ _ (hs.mmax j)
  · exact restart_inv P _ fun j => proj_feasible _ _ (hs.mmax j)

/-- A projected gradient step of length `alpha` with `alpha * L ≤ 2` from a feasible point does not increase the objective. -/
theorem proj_descent (P : Prob N G) (hs : P.Sane) (y : X N) (hy : ∀ j, dot3 (y j) (y j) ≤ P.mmax j * P.mmax j) (ha : 0 < P.alpha)
    (hL : ∀ d : X N, P.alpha * dot d (P.hess d) ≤ 2 * dot d d) :
    P.cost (fun j => proj (fun c => y j c - P.alpha * P.grad y j c) (P.mmax j)) ≤ P.cost y := by
  set z : X N := fun j => proj (fun c => y j c - P.alpha * P.grad y j c) (P.mmax j) with hz
  have e : z = y + (z - y) := by abel
  rw [e, cost_expand P hs]
  have hob : dot ((y - P.alpha • P.grad y) - z) (y - z) ≤ 0 := by
    apply Finset.sum_nonpos
    intro j _
    exact proj_obtuse (fun c => y j c - P.alpha * P.grad y j c) (y j) (P.mmax j) (hs.mmax j) (hy j)
  have e2 : dot ((y - P.alpha • P.grad y) - z) (y - z) = dot (z - y) (z - y) + P.alpha * dot (P.grad y) (z - y) := by
    have a1 : (y - P.alpha • P.grad y) - z = (-1 : ℝ) • (z - y) + (-P.alpha) • P.grad y := by module
    have a2 : y - z = (-1 : ℝ) • (z - y) := by module
    rw [a1, a2, dot_smul, dot_add_left, dot_smul_left, dot_smul_left]
    ring
  rw [e2] at hob
  have h3 := hL (z - y)
  have h4 : P.alpha * (dot (P.grad y) (z - y) + dot (z - y) (P.hess (z - y)) / 2) ≤ 0 := by nlinarith
  by_contra hc
  push Not at hc
  have : 0 < dot (P.grad y) (z - y) + dot (z - y) (P.hess (z - y)) / 2 := by linarith
  nlinarith [mul_pos ha this]

theorem along [NeZero N] (P : Prob N G) (hs : P.Sane) (s : St N) (h : P.Inv s) (t : ℝ) :
    P.cost (s.x + (-t) • s.p) = P.cost s.x - t * dot s.g s.p + t * t * dot s.p (P.hess s.p) / 2 := by
  have e : P.hess ((-t) • s.p) = (-t) • P.hess s.p := by
    have h1 := hess_sub P 0 s.p (-t)
    have h0 : P.hess (0 : X N) = 0 := by funext j c; simp [Prob.hess, Prob.app, dot3]
    rw [h0, zero_add, zero_add] at h1; exact h1
  rw [cost_expand P hs, e, dot_smul, dot_smul_left, dot_smul, h.grad]
  ring

theorem step_descent [NeZero N] (P : Prob N G) (hs : P.Sane) (s : St N) (h : P.Inv s) (hp : NoTiny s) (ha : 0 < P.alpha)
    (hL : ∀ d : X N, P.alpha * dot d (P.hess d) ≤ 2 * dot d d) : P.cost (P.step s).x ≤ P.cost s.x := by
  have along := along P hs s h
  have hDn : 0 ≤ dot s.p (P.hess s.p) := (mul_nonneg (by have := hs.nu; positivity) (dot_self_nonneg s.p)).trans (hess_pos P hs s.p)
  simp only [Prob.step]
  split
  · split
    · rename_i hc
      obtain ⟨hne, hlt⟩ := hc
      set D := dot s.p (P.hess s.p) with hD
      have hDpos : 0 < D := lt_of_le_of_ne hDn (Ne.symm hne)
      have ex : (P.cgStep s).x = s.x + (-(dot s.g s.p / D)) • s.p := by funext j c; rfl
      rw [ex, along]
      have : dot s.g s.p / D * dot s.g s.p = dot s.g s.p / D * (dot s.g s.p / D) * D := by field_simp
      have h2 : 0 ≤ dot s.g s.p / D * (dot s.g s.p / D) * D := mul_nonneg (mul_self_nonneg _) hDpos.le
      linarith
    · rename_i hc
      have haf := alphaF_nonneg P s h
      set af := P.alphaF s with haf'
      have hfeas : ∀ j, dot3 ((s.x + (-af) • s.p) j) ((s.x + (-af) • s.p) j) ≤ P.mmax j * P.mmax j := by
        intro j
        have e2 : (s.x + (-af) • s.p) j = s.x j - af • s.p j := by funext c; simp [sub_eq_add_neg]
        rw [e2]
        exact maxAlpha_inside _ _ _ _ (h.feas j) (hp j) haf (alphaF_le P s j)
      have h1 := proj_descent P hs (s.x + (-af) • s.p) hfeas ha hL
      have e : (P.mixedStep s).x = fun j => proj (fun c => (s.x + (-af) • s.p) j c - P.alpha * P.grad (s.x + (-af) • s.p) j c) (P.mmax j) := by
        funext j
        simp only [Prob.mixedStep, Prob.restart]
        congr 1
        funext c
        have eg : P.grad (s.x + (-af) • s.p) j c = s.g j c - af * P.hess s.p j c := by
          rw [h.grad]; simp only [Prob.grad, hess_sub, Pi.sub_apply, Pi.add_apply, Pi.smul_apply, smul_eq_mul]; ring
        rw [eg]; simp only [Pi.add_apply, Pi.smul_apply, smul_eq_mul]; ring
      rw [e]
      refine h1.trans ?_
      rw [along]
      -- `af ≤ alpha_cg`, or there is no curvature
      by_cases hD0 : dot s.p (P.hess s.p) = 0
      · have hp0 : s.p = 0 := by
          apply dot_self_zero
          have h5 := hess_pos P hs s.p
          rw [hD0] at h5
          have h6 : 0 < 1 / P.nu := by have := hs.nu; positivity
          have h7 := dot_self_nonneg s.p
          by_contra hne
          have : 0 < dot s.p s.p := lt_of_le_of_ne h7 (Ne.symm hne)
          nlinarith [mul_pos h6 this]
        rw [hD0, hp0]; simp [dot, dot3]
      · have hDpos : 0 < dot s.p (P.hess s.p) := lt_of_le_of_ne hDn (Ne.symm hD0)
        have h8 : af ≤ dot s.g s.p / dot s.p (P.hess s.p) := by
          by_contra hcc
          push Not at hcc
          exact hc ⟨hD0, hcc⟩
        rw [le_div_iff₀ hDpos] at h8
        nlinarith [mul_nonneg haf hDn, mul_le_mul_of_nonneg_left h8 haf]
  · have h1 := proj_descent P hs s.x h.feas ha hL
    have e : (P.projStep s).x = fun j => proj (fun c => s.x j c - P.alpha * P.grad s.x j c) (P.mmax j) := by
      simp only [Prob.projStep, Prob.restart, h.grad]
    rw [e]; exact h1

theorem after_inv [NeZero N] (P : Prob N G) (hs : P.Sane) (m0 : X N) (h0 : P.Feasible m0) (k : Nat) (hp : ∀ j < k, NoTiny (P.after m0 j)) : P.Inv (P.after m0 k) := by
  induction k with
  | zero => exact restart_inv P m0 fun j => (feas_iff _ _ (hs.mmax j)).mp (h0 j)
  | succ k ih =>
    rw [Prob.after, Function.iterate_succ_apply']
    exact step_inv P hs _ (ih fun j hj => hp j (by omega)) (hp k (by omega))

/-- A point that the projected gradient step does not move minimizes the objective. -/
theorem stationary_optimal (P : Prob N G) (hs : P.Sane) (x : X N) (ha : 0 < P.alpha) (h : ∀ j, proj (x j - P.alpha • P.grad x j) (P.mmax j) = x j) (v : X N)
    (hv : ∀ j, dot3 (v j) (v j) ≤ P.mmax j * P.mmax j) : P.cost x ≤ P.cost v := by
  have e : v = x + (v - x) := by abel
  rw [e, cost_expand P hs]
  have h1 : dot (-(P.alpha • P.grad x)) (v - x) ≤ 0 := by
    apply Finset.sum_nonpos
    intro j _
    have := proj_obtuse (x j - P.alpha • P.grad x j) (v j) (P.mmax j) (hs.mmax j) (hv j)
    rw [h j] at this
    have e2 : x j - P.alpha • P.grad x j - x j = (-(P.alpha • P.grad x)) j := by
      funext c; simp
    rw [e2] at this
    exact this
  have e3 : -(P.alpha • P.grad x) = (-P.alpha) • P.grad x := by rw [neg_smul]
  rw [e3, dot_smul_left] at h1
  have h2 : 0 ≤ dot (P.grad x) (v - x) := by
    by_contra hc
    push Not at hc
    nlinarith [mul_pos_of_neg_of_neg (neg_lt_zero.mpr ha) hc]
  have h3 : 0 ≤ dot (v - x) (P.hess (v - x)) := (mul_nonneg (by have := hs.nu; positivity) (dot_self_nonneg _)).trans (hess_pos P hs _)
  linarith

/-- If `phi + beta_tilde` vanishes for a dipole that is not exactly at the tolerance, the projected gradient step does not move it. -/
theorem gReducedProj_zero (x g : Fin 3 → ℝ) (alpha m : ℝ) (hm : 0 < m) (ha : 0 < alpha) (hx : dot3 x x ≤ m * m) (hb : |dot3 x x - m * m| ≠ 1e-8 + 1e-5 * (m * m)) (h : gReducedProj x g alpha m = 0) :
    proj (x - alpha • g) m = x := by
  have hin : proj x m = x := by
    have : Real.sqrt (dot3 x x) / m ≤ 1 := by
      rw [div_le_one hm, Real.sqrt_le_left hm.le, sq]; exact hx
    funext c; simp only [proj, max_eq_left this, div_one]
  have hg0 : g = 0 → proj (x - alpha • g) m = x := by rintro rfl; simpa using hin
  simp only [gReducedProj, phi, betaTilde] at h
  have hass : (1e-8 + 1e-5 * m * m : ℝ) = 1e-8 + 1e-5 * (m * m) := by ring
  rw [hass] at h
  rcases lt_or_gt_of_ne hb with hlt | hgt
  · rw [if_neg (not_lt.mpr hlt.le), if_pos hlt, zero_add] at h
    split at h
    · exact hg0 h
    · funext c
      have := congrFun h c
      simp only [gReduced, Pi.zero_apply, div_eq_zero_iff, ha.ne', or_false] at this
      linarith
  · rw [if_pos hgt, if_neg (not_lt.mpr hgt.le), add_zero] at h
    exact hg0 h

/-! ### The theorems -/

/-- **C76.** The dipole moments never exceed their maxima: from a feasible initial guess, after every number of iterations of MwPGP (so whichever criterion ends the loop), provided no search direction had a component with
`0 < |p_i| ≤ 1e-10`. -/
theorem C76_feasible [NeZero N] (P : Prob N G) (hs : P.Sane) (m0 : X N) (h0 : P.Feasible m0) (k : Nat) (hp : ∀ j < k, NoTiny (P.after m0 j)) : P.Feasible (P.after m0 k).x :=
  fun j => (feas_iff _ _ (hs.mmax j)).mpr ((after_inv P hs m0 h0 k hp).feas j)

/-- **C76.** MwPGP is a descent method: no iteration increases the objective `|Ax-b|²/2 + |x-m_proxy|²/(2nu) + reg_l2|x|²`, if the step size `alpha` is at most 2 divided by `|A|² + 2 reg_l2 + 1/nu`
(`S` bounds the singular values of `A`). -/
theorem C76_descent [NeZero N] (P : Prob N G) (hs : P.Sane) (m0 : X N) (h0 : P.Feasible m0) (S : ℝ) (hS : ∀ d : X N, ∑ i, P.app d i ^ 2 ≤ S ^ 2 * ∑ j, ∑ c, d j c ^ 2)
    (ha : 0 < P.alpha) (hal : P.alpha ≤ 2 / (S ^ 2 + 2 * P.regL2 + 1 / P.nu)) (k : Nat) (hp : ∀ j ≤ k, NoTiny (P.after m0 j)) :
    P.cost (P.after m0 (k + 1)).x ≤ P.cost (P.after m0 k).x := by
  have hinv := after_inv P hs m0 h0 k (fun j hj => hp j hj.le)
  have hnu := hs.nu
  have hreg := hs.reg
  have hLpos : 0 < S ^ 2 + 2 * P.regL2 + 1 / P.nu := by positivity
  rw [Prob.after, Function.iterate_succ_apply']
  refine step_descent P hs _ hinv (hp k le_rfl) ha fun d => ?_
  rw [le_div_iff₀ hLpos] at hal
  have h1 : dot d (P.hess d) ≤ (S ^ 2 + 2 * P.regL2 + 1 / P.nu) * dot d d := by
    rw [dot_comm d (P.hess d), dot_hess P hs.nu]
    have := hS d
    rw [sum_sq0] at this
    have e : ∑ i, P.app d i * P.app d i = ∑ i, P.app d i ^ 2 := Finset.sum_congr rfl fun i _ => by ring
    rw [e]; nlinarith
  have h2 := mul_le_mul_of_nonneg_left h1 ha.le
  have h3 := mul_le_mul_of_nonneg_right hal (dot_self_nonneg d)
  nlinarith

/-- **C76.** So the result is at least as good as the initial guess. -/
theorem C76_improves [NeZero N] (P : Prob N G) (hs : P.Sane) (m0 : X N) (h0 : P.Feasible m0) (S : ℝ) (hS : ∀ d : X N, ∑ i, P.app d i ^ 2 ≤ S ^ 2 * ∑ j, ∑ c, d j c ^ 2)
    (ha : 0 < P.alpha) (hal : P.alpha ≤ 2 / (S ^ 2 + 2 * P.regL2 + 1 / P.nu)) (k : Nat) (hp : ∀ j < k, NoTiny (P.after m0 j)) : P.cost (P.after m0 k).x ≤ P.cost m0 := by
  induction k with
  | zero => exact le_rfl
  | succ k ih => exact (C76_descent P hs m0 h0 S hS ha hal k (fun j hj => hp j (by omega))).trans (ih fun j hj => hp j (by omega))

/-- **C76.** If an iteration leaves the dipole moments unchanged (the convergence criterion with `epsilon → 0`), they are a global minimum of the objective over all feasible dipole moments.  (Excluded: dipoles exactly
at the tolerance distance from the sphere, for which both `phi` and `beta_tilde` vanish.) -/
theorem C76_fixed_optimal [NeZero N] (P : Prob N G) (hs : P.Sane) (m0 : X N) (h0 : P.Feasible m0) (ha : 0 < P.alpha) (k : Nat) (hp : ∀ j ≤ k, NoTiny (P.after m0 j))
    (hb : ∀ j, |dot3 ((P.after m0 k).x j) ((P.after m0 k).x j) - P.mmax j * P.mmax j| ≠ 1e-8 + 1e-5 * (P.mmax j * P.mmax j))
    (hL : ∀ d : X N, P.alpha * dot d (P.hess d) ≤ 2 * dot d d)
    (hfix : (P.after m0 (k + 1)).x = (P.after m0 k).x) (v : X N) (hv : P.Feasible v) : P.cost (P.after m0 k).x ≤ P.cost v := by
  have hinv := after_inv P hs m0 h0 k (fun j hj => hp j hj.le)
  have hpk := hp k le_rfl
  rw [Prob.after, Function.iterate_succ_apply', ← Prob.after] at hfix
  generalize P.after m0 k = s at *
  have hv' := fun j => (feas_iff _ _ (hs.mmax j)).mp (hv j)
  have hDn : 0 ≤ dot s.p (P.hess s.p) := (mul_nonneg (by have := hs.nu; positivity) (dot_self_nonneg s.p)).trans (hess_pos P hs s.p)
  -- everything vanishes: optimal
  have case0 : ∀ (hgap : dot (fun j => gReducedProj (s.x j) (s.g j) P.alpha (P.mmax j)) (fun j => gReducedProj (s.x j) (s.g j) P.alpha (P.mmax j)) ≤
      dot (fun j => phi (s.x j) (s.g j) (P.mmax j)) (fun j => phi (s.x j) (s.g j) (P.mmax j))), dot s.g s.p = 0 → P.cost s.x ≤ P.cost v := by
    intro hgap hgp
    rw [← hinv.gp, hgp] at hgap
    have h1 := dot_self_zero _ (le_antisymm hgap (dot_self_nonneg _))
    refine stationary_optimal P hs s.x ha (fun j => ?_) v hv'
    rw [← hinv.grad]
    exact gReducedProj_zero _ _ _ _ (hs.mmax j) ha (hinv.feas j) (hb j) (congrFun h1 j)
  simp only [Prob.step] at hfix
  split at hfix
  · rename_i hgap
    split at hfix
    · rename_i hc
      apply case0 hgap
      have ex : (P.cgStep s).x = s.x + (-(dot s.g s.p / dot s.p (P.hess s.p))) • s.p := by funext j c; rfl
      rw [ex] at hfix
      have h2 : (-(dot s.g s.p / dot s.p (P.hess s.p))) • s.p = 0 := by simpa using hfix
      rcases smul_eq_zero.mp h2 with h3 | h3
      · rw [neg_eq_zero, div_eq_zero_iff] at h3
        exact h3.resolve_right hc.1
      · rw [h3]; simp [dot, dot3]
    · rename_i hc
      by_cases hgp : dot s.g s.p = 0
      · exact case0 hgap hgp
      · have hgpos : 0 < dot s.g s.p := lt_of_le_of_ne hinv.gp0 (Ne.symm hgp)
        have hp0 : s.p ≠ 0 := by intro h; rw [h] at hgp; simp [dot, dot3] at hgp
        have hD0 : dot s.p (P.hess s.p) ≠ 0 := by
          intro h
          have h5 := hess_pos P hs s.p
          rw [h] at h5
          have h6 : 0 < 1 / P.nu := by have := hs.nu; positivity
          have h7 : 0 < dot s.p s.p := lt_of_le_of_ne (dot_self_nonneg _) (fun h => hp0 (dot_self_zero _ h.symm))
          nlinarith [mul_pos h6 h7]
        have hDpos : 0 < dot s.p (P.hess s.p) := lt_of_le_of_ne hDn (Ne.symm hD0)
        have haf := alphaF_nonneg P s hinv
        have h8 : P.alphaF s ≤ dot s.g s.p / dot s.p (P.hess s.p) := by
          by_contra hcc
          push Not at hcc
          exact hc ⟨hD0, hcc⟩
        rw [le_div_iff₀ hDpos] at h8
        rcases haf.eq_or_lt with hz | hpos
        · -- no move towards the boundary: a plain projected gradient step
          refine stationary_optimal P hs s.x ha (fun j => ?_) v hv'
          have := congrFun hfix j
          simp only [Prob.mixedStep, Prob.restart, ← hz, zero_mul, sub_zero] at this
          rw [← hinv.grad]
          exact this
        · exfalso
          have hfeas : ∀ j, dot3 ((s.x + (-P.alphaF s) • s.p) j) ((s.x + (-P.alphaF s) • s.p) j) ≤ P.mmax j * P.mmax j := by
            intro j
            have e2 : (s.x + (-P.alphaF s) • s.p) j = s.x j - P.alphaF s • s.p j := by funext c; simp [sub_eq_add_neg]
            rw [e2]
            exact maxAlpha_inside _ _ _ _ (hinv.feas j) (hpk j) haf (alphaF_le P s j)
          have h1 := proj_descent P hs (s.x + (-P.alphaF s) • s.p) hfeas ha hL
          have e : (P.mixedStep s).x = fun j => proj (fun c => (s.x + (-P.alphaF s) • s.p) j c - P.alpha * P.grad (s.x + (-P.alphaF s) • s.p) j c) (P.mmax j) := by
            funext j
            simp only [Prob.mixedStep, Prob.restart]
            congr 1
            funext c
            have eg : P.grad (s.x + (-P.alphaF s) • s.p) j c = s.g j c - P.alphaF s * P.hess s.p j c := by
              rw [hinv.grad]; simp only [Prob.grad, hess_sub, Pi.sub_apply, Pi.add_apply, Pi.smul_apply, smul_eq_mul]; ring
            rw [eg]; simp only [Pi.add_apply, Pi.smul_apply, smul_eq_mul]; ring
          rw [← e, hfix, along P hs s hinv] at h1
          nlinarith [mul_pos hpos hgpos, mul_le_mul_of_nonneg_left h8 hpos.le]
  · refine stationary_optimal P hs s.x ha (fun j => ?_) v hv'
    have := congrFun hfix j
    simp only [Prob.projStep, Prob.restart] at this
    rw [← hinv.grad]
    exact this

/-- The step size of `relax_and_split` (src/simsopt/solve/permanent_magnet_optimization.py L188-190). -/
noncomputable def alphaMax (scale : ℝ) : ℝ := 2.0 / scale * (1 - 1e-5)

/-- `ATA_scale` after `rescale_for_opt` (src/simsopt/geo/permanent_magnet_grid.py L590); without it, it is `S**2` (L450-451). -/
noncomputable def rescaled (scale regL2 nu : ℝ) : ℝ := scale + (2 * regL2 + 1.0 / nu)

/-- **C76.** With `rescale_for_opt` the step size of `relax_and_split` satisfies the hypothesis of `C76_descent`. -/
theorem C76_step_size (S regL2 nu : ℝ) (hnu : 0 < nu) (hr : 0 ≤ regL2) :
    0 < alphaMax (rescaled (S ^ 2) regL2 nu) ∧ alphaMax (rescaled (S ^ 2) regL2 nu) ≤ 2 / (S ^ 2 + 2 * regL2 + 1 / nu) := by
  have e : rescaled (S ^ 2) regL2 nu = S ^ 2 + 2 * regL2 + 1 / nu := by simp only [rescaled]; norm_num; ring
  rw [e]
  have hp : 0 < S ^ 2 + 2 * regL2 + 1 / nu := by positivity
  have h2 : 0 < 2 / (S ^ 2 + 2 * regL2 + 1 / nu) := by positivity
  have e2 : alphaMax (S ^ 2 + 2 * regL2 + 1 / nu) = 2 / (S ^ 2 + 2 * regL2 + 1 / nu) * (1 - 1e-5) := by simp only [alphaMax]; norm_num
  rw [e2]
  constructor
  · exact mul_pos h2 (by norm_num)
  · nlinarith

/-! ### Violations -/

/-- One dipole, one quadrature point, `A = (a, 0, 0)`, default `nu = 1e100`. -/
noncomputable def one (a b reg alpha : ℝ) (m0 : X 1) : Prob 1 1 :=
  ⟨fun _ _ c => if c = 0 then a else 0, fun _ => b, fun _ c => if c = 0 then a * b else 0, m0, fun _ => 1, alpha, 1e100, reg⟩

theorem one_sane (a b reg alpha : ℝ) (m0 : X 1) (hr : 0 ≤ reg) : (one a b reg alpha m0).Sane := by
  refine ⟨fun _ => one_pos, by simp only [one]; norm_num, hr, fun j c => ?_⟩
  simp only [one, Fin.sum_univ_one]
  split <;> simp

theorem f2 : ¬ ((2 : Fin 3) = 0) := by decide

/-- The moment `(t, 0, 0)`. -/
def ex (t : ℝ) : X 1 := fun _ c => if c = 0 then t else 0

theorem proj_ex (t : ℝ) (ht : 1 ≤ t) (j : Fin 1) : proj (ex (-t) j) 1 = ex (-1) j := by
  have e : Real.sqrt (dot3 (ex (-t) j) (ex (-t) j)) = t := by
    have : dot3 (ex (-t) j) (ex (-t) j) = t * t := by simp only [dot3, ex]; norm_num [f2]
    rw [this, Real.sqrt_mul_self (by linarith)]
  funext c
  simp only [proj, e, div_one, max_eq_right ht, ex]
  split
  · field_simp
  · simp

/-- **C76, violated.** A search direction below `1e-10` is ignored when the step length to the boundary is computed: with a weak dipole field (`A = 1e-12`) and all the defaults, the very first iteration from `m0 = 0` returns
a dipole moment far above its maximum 1. -/
theorem C76_feasible_violated : ∃ P : Prob 1 1, P.Sane ∧ P.Feasible 0 ∧ ¬ P.Feasible (P.after 0 1).x := by
  refine ⟨one 1e-12 50 0 1 0, one_sane _ _ _ _ _ le_rfl, ?_, ?_⟩
  · intro j; simp [one]
  set P := one 1e-12 50 0 1 0 with hP
  have hg : P.grad 0 = ex (-(5e-11)) := by
    funext j c
    simp only [hP, one, Prob.grad, Prob.hess, Prob.rhs, Prob.app, ex, dot3, Pi.sub_apply, Pi.zero_apply]
    by_cases hc : c = 0 <;> simp only [hc, if_true, if_false] <;> norm_num
  have hphi : ∀ j, phi (0 : Fin 3 → ℝ) (ex (-(5e-11)) j) (P.mmax j) = ex (-(5e-11)) j := by
    intro j
    simp only [phi, hP, one, dot3, Pi.zero_apply]
    rw [if_pos]
    norm_num [f2]
  have hbeta : ∀ j, betaTilde (0 : Fin 3 → ℝ) (ex (-(5e-11)) j) P.alpha (P.mmax j) = 0 := by
    intro j
    simp only [betaTilde, hP, one, dot3, Pi.zero_apply]
    rw [if_neg]
    norm_num [f2]
  have hst : P.start 0 = ⟨0, ex (-(5e-11)), ex (-(5e-11))⟩ := by
    simp only [Prob.start, hg]
    congr 1
    funext j
    exact hphi j
  have hH : dot (ex (-(5e-11))) (P.hess (ex (-(5e-11)))) = 25e-22 * (1e-24 + 1e-100) := by
    simp only [dot, dot3, Prob.hess, Prob.app, ex, hP, one, Fin.sum_univ_one, Fin.isValue]
    norm_num [f2]
  have hgg : dot (ex (-(5e-11))) (ex (-(5e-11))) = 25e-22 := by
    simp only [dot, dot3, ex, Fin.sum_univ_one]; norm_num [f2]
  have haf : P.alphaF ⟨0, ex (-(5e-11)), ex (-(5e-11))⟩ = 1e100 := by
    simp only [Prob.alphaF, Finset.univ_unique, Finset.inf'_singleton, maxAlpha]
    rw [if_neg]
    simp only [dot3, ex]; norm_num [f2]
  have hstep : P.after 0 1 = P.cgStep ⟨0, ex (-(5e-11)), ex (-(5e-11))⟩ := by
    rw [Prob.after, Function.iterate_one, hst, Prob.step]
    simp only
    rw [if_pos, if_pos]
    · rw [hH, hgg, haf]; norm_num [f2]
    · simp only [gReducedProj, Pi.zero_apply, hphi, hbeta, add_zero, le_refl]
  intro hf
  have h1 := hf 0
  rw [hstep] at h1
  simp only [Prob.cgStep, hH, hgg] at h1
  rw [Real.sqrt_le_left (by simp only [hP, one]; norm_num)] at h1
  simp only [hP, one, ex] at h1
  norm_num [f2] at h1

/-- The hypotheses of the theorems are met with a nonzero search direction: `A = (1,0,0)`, `b = 1/2`, `m0 = 0`, and the objective does change in the first iteration. -/
example : ∃ P : Prob 1 1, P.Sane ∧ P.Feasible 0 ∧ (∀ j ≤ 0, NoTiny (P.after 0 j)) ∧ (P.after 0 0).p ≠ 0 ∧ 0 < P.alpha ∧ P.alpha ≤ 2 / (1 ^ 2 + 2 * P.regL2 + 1 / P.nu) ∧
    ∀ d : X 1, ∑ i, P.app d i ^ 2 ≤ 1 ^ 2 * ∑ j, ∑ c, d j c ^ 2 := by
  have hp : ((one 1 (1 / 2) 0 1 0).after 0 0).p = ex (-(1 / 2)) := by
    funext j c
    simp only [Prob.after, Function.iterate_zero, id_eq, Prob.start, phi]
    rw [if_pos]
    · simp only [one, Prob.grad, Prob.hess, Prob.rhs, Prob.app, ex, dot3, Pi.sub_apply, Pi.zero_apply]
      by_cases hc : c = 0 <;> simp only [hc, if_true, if_false] <;> norm_num
    · simp only [dot3, one, Pi.zero_apply]; norm_num
  refine ⟨one 1 (1 / 2) 0 1 0, one_sane _ _ _ _ _ le_rfl, fun j => by simp [one], ?_, ?_, one_pos, ?_, ?_⟩
  · intro j hj
    obtain rfl : j = 0 := by omega
    intro i
    right
    rw [hp]
    simp only [dot3, ex]; norm_num [f2]
  · rw [hp]
    intro h
    have := congrFun (congrFun h 0) 0
    simp [ex] at this
  · simp only [one]; norm_num
  · intro d
    simp only [Prob.app, one, dot3, Fin.sum_univ_one, Fin.sum_univ_three]
    simp
    nlinarith [sq_nonneg (d 0 1), sq_nonneg (d 0 2)]

/-- **C76, violated.** Without a call of `rescale_for_opt` (nothing enforces it) the step size ignores `reg_l2`: an iteration of MwPGP with the step size of `relax_and_split` can increase the objective. -/
theorem C76_step_size_violated : ∃ (P : Prob 1 1) (m0 : X 1), P.Sane ∧ P.Feasible m0 ∧ (∀ d : X 1, ∑ i, P.app d i ^ 2 ≤ 1 ^ 2 * ∑ j, ∑ c, d j c ^ 2) ∧ P.alpha = alphaMax (1 ^ 2) ∧ NoTiny (P.after m0 0) ∧
    P.cost (P.after m0 0).x < P.cost (P.after m0 1).x := by
  refine ⟨one 1 (1 / 2) 100 (alphaMax (1 ^ 2)) (ex 1), ex 1, one_sane _ _ _ _ _ (by norm_num), ?_, ?_, rfl, ?_, ?_⟩
  · intro j; simp [one, ex]
  · intro d
    simp only [Prob.app, one, dot3, Fin.sum_univ_one, Fin.sum_univ_three]
    simp
    nlinarith [sq_nonneg (d 0 1), sq_nonneg (d 0 2)]
  · intro j
    left
    simp only [Prob.after, Function.iterate_zero, id_eq, Prob.start, phi, ex, one, dot3]
    rw [if_neg]
    norm_num [f2]
  set P := one 1 (1 / 2) 100 (alphaMax (1 ^ 2)) (ex 1) with hP
  have hg : P.grad (ex 1) = ex 200.5 := by
    funext j c
    simp only [hP, one, Prob.grad, Prob.hess, Prob.rhs, Prob.app, ex, dot3, Pi.sub_apply, Fin.sum_univ_one]
    by_cases hc : c = 0 <;> simp only [hc, if_true, if_false] <;> norm_num [f2]
  have hphi : ∀ j g, phi (ex 1 j) g (P.mmax j) = 0 := by
    intro j g
    simp only [phi, ex, hP, one, dot3]
    rw [if_neg]
    norm_num [f2]
  have hbeta : ∀ j, betaTilde (ex 1 j) (ex 200.5 j) P.alpha (P.mmax j) = ex 200.5 j := by
    intro j
    simp only [betaTilde]
    rw [if_pos, if_pos]
    · simp only [dot3, ex]; norm_num [f2]
    · simp only [dot3, ex, hP, one]; norm_num [f2]
  have hst : P.start (ex 1) = ⟨ex 1, ex 200.5, 0⟩ := by
    simp only [Prob.start, hg]
    congr 1
    funext j
    exact hphi j _
  have hgg : dot (ex 200.5) (ex 200.5) = 200.5 ^ 2 := by simp only [dot, dot3, ex, Fin.sum_univ_one]; norm_num [f2]
  have hx : (P.after (ex 1) 1).x = ex (-1) := by
    rw [Prob.after, Function.iterate_one, hst, Prob.step]
    simp only
    rw [if_neg]
    · funext j
      have e : (fun c => ex 1 j c - P.alpha * ex 200.5 j c) = ex (-(alphaMax (1 ^ 2) * 200.5 - 1)) j := by
        funext c
        simp only [ex, hP, one]
        split <;> ring
      simp only [Prob.projStep, Prob.restart]
      rw [e]
      exact proj_ex _ (by simp only [alphaMax]; norm_num) j
    · simp only [gReducedProj, hphi, hbeta, zero_add]
      have : dot (fun j => ex 200.5 j) (fun j => ex 200.5 j) = 200.5 ^ 2 := hgg
      rw [this]
      simp [dot, dot3]; norm_num [f2]
  rw [hx]
  have hx0 : (P.after (ex 1) 0).x = ex 1 := rfl
  rw [hx0]
  simp only [Prob.cost, Prob.app, hP, one, dot3, ex, Fin.sum_univ_one, Fin.sum_univ_three]
  norm_num [f2]

end Simsopt.Magnets
