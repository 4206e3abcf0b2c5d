import Verif.Labels.Props
/-!
# C151: PrincipalCurvature
-/
namespace Simsopt.Labels
open Simsopt Simsopt.Coils Simsopt.Surface
open Simsopt.Geometry hiding norm normal

variable {P : Type}

/-- **C151.** `dJ` is the derivative of `J` in each dof of the surface, at a surface whose tangents are independent and whose two principal curvatures differ at every quadrature point. -/
theorem C151_gradient (km1 km2 w1 w2 : ℝ) (S : ℝ → Shape P) (D : Shape P) (t : ℝ) (h : Along S D t) (pts : List P)
    (h0 : ∀ p ∈ pts, normal (S t) p ≠ 0) (hk : ∀ p ∈ pts, (principal (S t) p).1 ≠ (principal (S t) p).2) :
    HasDerivAt (fun s => pcJ km1 km2 w1 w2 (S s) pts) (pcGrad km1 km2 w1 w2 (S t) D pts) t := by
  have hlen : ∀ p ∈ pts, HasDerivAt (fun s => len (normal (S s) p)) (inner (normal (S t) p) (dnormal (S t) D p) / len (normal (S t) p)) t :=
    fun p hp => d_len (d_normal h p) (h0 p hp)
  have hc := fun p hp => (C71_curvatures S D t h p (h0 p hp)).2.2 (hk p hp)
  have h1 := d_sum pts (f := fun s p => len (normal (S s) p) * Real.exp (-((principal (S s) p).1 - km1) / w1)) (fun p hp =>
    (hlen p hp).fun_mul ((((hc p hp).1.sub_const km1).fun_neg.div_const w1).exp))
  have h2 := d_sum pts (f := fun s p => len (normal (S s) p) * Real.exp (-(-(principal (S s) p).2 - km2) / w2)) (fun p hp =>
    (hlen p hp).fun_mul ((((hc p hp).2.fun_neg.sub_const km2).fun_neg.div_const w2).exp))
  refine (h1.fun_add h2).congr_deriv ?_
  simp only [pcGrad, ← sum_add]
  rw [add_assoc (_ + _)]
  congr 1
  · congr 2
    · congr 1; funext p; simp only [inner]; ring
    · apply List.map_congr_left; intro p _; ring
  · congr 2
    · congr 1; funext p; simp only [inner]; ring
    · apply List.map_congr_left; intro p _; ring

/-- **C151.** What the sums are: the area element times the documented integrand, with `κ1 ≥ κ2`. -/
theorem C151_value (km1 km2 w1 w2 : ℝ) (S : Shape P) (pts : List P) :
    pcJ km1 km2 w1 w2 S pts = (pts.map fun p => Geometry.norm (cross (S.g1 p) (S.g2 p)) *
      (Real.exp (-((principal S p).1 - km1) / w1) + Real.exp (-(-(principal S p).2 - km2) / w2))).sum ∧
    ∀ p, (principal S p).2 ≤ (principal S p).1 := by
  constructor
  · rw [pcJ, sum_add]; congr 1; apply List.map_congr_left; intro p _; rw [len_norm, normal_cross]; ring
  · intro p; simp only [principal]; linarith [Real.sqrt_nonneg (meanCurv S p * meanCurv S p - gaussCurv S p)]

/-- One point with the principal curvatures `a ≥ b` and area element 1. -/
def onePoint (a b : ℝ) : Shape Unit where
  x := fun _ => 0
  g1 := fun _ => (1, 0, 0)
  g2 := fun _ => (0, 1, 0)
  g11 := fun _ => (0, 0, a)
  g12 := fun _ => 0
  g22 := fun _ => (0, 0, b)

theorem onePoint_normal (a b : ℝ) : normal (onePoint a b) () = (0, 0, 1) := by simp [normal, onePoint]

theorem onePoint_len (a b : ℝ) : len (normal (onePoint a b) ()) = 1 := by rw [onePoint_normal]; simp [len]

theorem onePoint_principal (a b : ℝ) (h : b ≤ a) : principal (onePoint a b) () = (a, b) := by
  have hn := onePoint_normal a b
  have hm : meanCurv (onePoint a b) () = (a + b) / 2 := by
    simp only [meanCurv, firstForm, secondForm, unitnormal, hn]; simp [onePoint, inner, len]
  have hg : gaussCurv (onePoint a b) () = a * b := by
    simp only [gaussCurv, firstForm, secondForm, unitnormal, hn]; simp [onePoint, inner, len]
  have hs : Real.sqrt ((a + b) / 2 * ((a + b) / 2) - a * b) = (a - b) / 2 := by
    rw [show (a + b) / 2 * ((a + b) / 2) - a * b = ((a - b) / 2) ^ 2 by ring]
    exact Real.sqrt_sq (by linarith)
  simp only [principal, hm, hg, hs]
  ext <;> simp <;> ring

/-- **C151, violated.** The documentation says that the metric penalizes `κ1 > κ_max,1`.  At equal area elements and equal `κ2`, a larger `κ1` always gives a smaller value. -/
theorem C151_direction_violated (km1 km2 w1 w2 : ℝ) (hw : 0 < w1) (S S' : Shape P) (pts : List P) (hne : pts ≠ [])
    (hN : ∀ p ∈ pts, len (normal S' p) = len (normal S p) ∧ 0 < len (normal S p)) (h2 : ∀ p ∈ pts, (principal S' p).2 = (principal S p).2)
    (h1 : ∀ p ∈ pts, (principal S p).1 < (principal S' p).1) : pcJ km1 km2 w1 w2 S' pts < pcJ km1 km2 w1 w2 S pts := by
  simp only [pcJ]
  have e2 : (pts.map fun p => len (normal S' p) * Real.exp (-(-(principal S' p).2 - km2) / w2)) = pts.map fun p => len (normal S p) * Real.exp (-(-(principal S p).2 - km2) / w2) := by
    apply List.map_congr_left; intro p hp; rw [(hN p hp).1, h2 p hp]
  rw [e2]
  have hlt : ∀ p ∈ pts, len (normal S' p) * Real.exp (-((principal S' p).1 - km1) / w1) < len (normal S p) * Real.exp (-((principal S p).1 - km1) / w1) := by
    intro p hp
    rw [(hN p hp).1]
    have hd : -((principal S' p).1 - km1) / w1 < -((principal S p).1 - km1) / w1 := by
      have := h1 p hp
      exact div_lt_div_of_pos_right (by linarith) hw
    have := Real.exp_lt_exp.mpr hd
    exact mul_lt_mul_of_pos_left this (hN p hp).2
  exact (add_lt_add_iff_right _).mpr (List.sum_lt_sum_of_ne_nil hne _ _ hlt)

/-- **C151, violated, a case.** Whatever the thresholds and the (positive) weights, a point that respects `κ1 ≤ κ_max,1` costs more than one that exceeds it. -/
theorem C151_threshold_violated (km1 km2 w1 w2 : ℝ) (hw : 0 < w1) : ∃ S S' : Shape Unit, (principal S ()).1 ≤ km1 ∧ km1 < (principal S' ()).1 ∧ (principal S' ()).2 = (principal S ()).2 ∧
    len (normal S' ()) = len (normal S ()) ∧ pcJ km1 km2 w1 w2 S' [()] < pcJ km1 km2 w1 w2 S [()] := by
  have p1 := onePoint_principal km1 (km1 - 1) (by linarith)
  have p2 := onePoint_principal (km1 + 1) (km1 - 1) (by linarith)
  refine ⟨onePoint km1 (km1 - 1), onePoint (km1 + 1) (km1 - 1), by rw [p1], by rw [p2]; simp, by rw [p1, p2], by rw [onePoint_len, onePoint_len], ?_⟩
  refine C151_direction_violated _ _ _ _ hw _ _ _ (by simp) ?_ ?_ ?_
  · intro p _; rw [onePoint_len, onePoint_len]; simp
  · intro p _; rw [p1, p2]
  · intro p _; rw [p1, p2]; simp

/-- **C151, violated.** The documented value is an integral; the code's sum is not divided by the number of quadrature points: on a grid with every point `n` times it is `n` times as large. -/
theorem C151_quadrature_violated (km1 km2 w1 w2 : ℝ) (S : Shape P) (pts : List P) (n : ℕ) :
    pcJ km1 km2 w1 w2 S (List.replicate n pts).flatten = n * pcJ km1 km2 w1 w2 S pts := by
  induction n with
  | zero => simp [pcJ]
  | succ n ih =>
    simp only [List.replicate_succ, List.flatten_cons]
    have : pcJ km1 km2 w1 w2 S (pts ++ (List.replicate n pts).flatten) = pcJ km1 km2 w1 w2 S pts + pcJ km1 km2 w1 w2 S (List.replicate n pts).flatten := by
      simp only [pcJ, List.map_append, List.sum_append]; ring
    rw [this, ih]; push_cast; ring

/-- The hypotheses of `C151_gradient` are met by a moving surface with curvatures 2 and 1. -/
example : ∃ (S : ℝ → Shape Unit) (D : Shape Unit), Along S D 0 ∧ (∀ p ∈ [()], normal (S 0) p ≠ 0) ∧ (∀ p ∈ [()], (principal (S 0) p).1 ≠ (principal (S 0) p).2) ∧ D.g11 () ≠ 0 := by
  refine ⟨fun s => onePoint (2 + s) 1, { x := fun _ => 0, g1 := fun _ => 0, g2 := fun _ => 0, g11 := fun _ => (0, 0, 1), g12 := fun _ => 0, g22 := fun _ => 0 }, ?_, ?_, ?_, ?_⟩
  · intro p
    refine ⟨hasDerivAt_const _ _, hasDerivAt_const _ _, hasDerivAt_const _ _, ?_, hasDerivAt_const _ _, hasDerivAt_const _ _⟩
    exact (hasDerivAt_const (0 : ℝ) (0 : ℝ)).prodMk ((hasDerivAt_const (0 : ℝ) (0 : ℝ)).prodMk ((hasDerivAt_id (0 : ℝ)).const_add 2))
  · intro p _; rw [onePoint_normal]; simp
  · intro p _; rw [onePoint_principal _ _ (by norm_num)]; norm_num
  · simp

end Simsopt.Labels
