import Verif.Frames.Model
/-!
# C134: the frames are orthonormal, contain the tangent, and are rotated by the angle
-/
namespace Simsopt.Frames
open Simsopt Simsopt.Coils
open Simsopt.Geometry (norm_pos norm_sq norm_eq inner_self_pos)

/-! ### specification -/

/-- `f = (t, n, b)` is orthonormal and positively oriented. -/
structure Orthonormal (f : Frame) : Prop where
  tt : Geometry.inner f.1 f.1 = 1
  nn : Geometry.inner f.2.1 f.2.1 = 1
  bb : Geometry.inner f.2.2 f.2.2 = 1
  tn : Geometry.inner f.1 f.2.1 = 0
  tb : Geometry.inner f.1 f.2.2 = 0
  nb : Geometry.inner f.2.1 f.2.2 = 0
  right : cross f.1 f.2.1 = f.2.2

/-! ### proofs -/

theorem inner_comm (a b : V3) : Geometry.inner a b = Geometry.inner b a := by simp only [Geometry.inner]; ring
theorem inner_smul (r q : ℝ) (a b : V3) : Geometry.inner (r • a) (q • b) = r * q * Geometry.inner a b := by
  simp only [Geometry.inner, Prod.smul_fst, Prod.smul_snd, smul_eq_mul]; ring
theorem inner_smul_left (r : ℝ) (a b : V3) : Geometry.inner (r • a) b = r * Geometry.inner a b := by
  simp only [Geometry.inner, Prod.smul_fst, Prod.smul_snd, smul_eq_mul]; ring
theorem inner_smul_right (r : ℝ) (a b : V3) : Geometry.inner a (r • b) = r * Geometry.inner a b := by
  simp only [Geometry.inner, Prod.smul_fst, Prod.smul_snd, smul_eq_mul]; ring
theorem inner_sub_left (a b c : V3) : Geometry.inner (a - b) c = Geometry.inner a c - Geometry.inner b c := by
  simp only [Geometry.inner, Prod.fst_sub, Prod.snd_sub]; ring
theorem inner_sub_right (a b c : V3) : Geometry.inner c (a - b) = Geometry.inner c a - Geometry.inner c b := by
  simp only [Geometry.inner, Prod.fst_sub, Prod.snd_sub]; ring
theorem inner_add_left (a b c : V3) : Geometry.inner (a + b) c = Geometry.inner a c + Geometry.inner b c := by
  simp only [Geometry.inner, Prod.fst_add, Prod.snd_add]; ring
theorem inner_add_right (a b c : V3) : Geometry.inner c (a + b) = Geometry.inner c a + Geometry.inner c b := by
  simp only [Geometry.inner, Prod.fst_add, Prod.snd_add]; ring

theorem unit_unit {v : V3} (h : v ≠ 0) : Geometry.inner ((1 / Geometry.norm v) • v) ((1 / Geometry.norm v) • v) = 1 := by
  have := norm_pos v h
  rw [inner_smul, ← norm_sq]; field_simp

/-- rotating an orthonormal pair gives an orthonormal frame -/
theorem rotate_ortho {t n : V3} (htt : Geometry.inner t t = 1) (hnn : Geometry.inner n n = 1) (htn : Geometry.inner t n = 0) (a : ℝ) :
    Orthonormal (rotate a t n) := by
  have hcs := Real.sin_sq_add_cos_sq a
  have e1 : Geometry.inner (cross t n) (cross t n) = 1 := by
    have : Geometry.inner (cross t n) (cross t n) = Geometry.inner t t * Geometry.inner n n - Geometry.inner t n ^ 2 := by
      simp only [Geometry.inner, cross]; ring
    rw [this, htt, hnn, htn]; norm_num
  have e2 : Geometry.inner t (cross t n) = 0 := by simp only [Geometry.inner, cross]; ring
  have e3 : Geometry.inner n (cross t n) = 0 := by simp only [Geometry.inner, cross]; ring
  have e3' : Geometry.inner (cross t n) n = 0 := by rw [inner_comm]; exact e3
  have e4 : cross t (cross t n) = -n := by
    have h : cross t (cross t n) = Geometry.inner t n • t - Geometry.inner t t • n := by
      ext <;> simp only [Geometry.inner, cross, Prod.fst_sub, Prod.snd_sub, Prod.smul_fst, Prod.smul_snd, smul_eq_mul] <;> ring
    rw [h, htt, htn]; simp
  unfold rotate
  constructor
  · exact htt
  · simp only [inner_sub_left, inner_sub_right, inner_smul_left, inner_smul_right, hnn, e1, e3, e3']
    linear_combination hcs
  · simp only [inner_add_left, inner_add_right, inner_smul_left, inner_smul_right, hnn, e1, e3, e3']
    linear_combination hcs
  · simp only [inner_sub_right, inner_smul_right, htn, e2]; ring
  · simp only [inner_add_right, inner_smul_right, htn, e2]; ring
  · simp only [inner_sub_left, inner_add_right, inner_smul_left, inner_smul_right, hnn, e1, e3, e3']; ring
  · have h : ∀ (p q : ℝ) (u v w : V3), cross u (p • v - q • w) = p • cross u v - q • cross u w := by
      intro p q u v w
      ext <;> simp only [cross, Prod.fst_sub, Prod.snd_sub, Prod.smul_fst, Prod.smul_snd, smul_eq_mul] <;> ring
    simp only [h, e4]
    module

/-- the normalised orthogonal part -/
theorem centroidNormal_spec {delta t : V3} (htt : Geometry.inner t t = 1) (h : delta - Geometry.inner delta t • t ≠ 0) :
    Geometry.inner (centroidNormal delta t) (centroidNormal delta t) = 1 ∧ Geometry.inner t (centroidNormal delta t) = 0 := by
  unfold centroidNormal
  refine ⟨unit_unit h, ?_⟩
  rw [inner_smul_right, inner_sub_right, inner_smul_right, htt, inner_comm t delta]; ring

/-- if `delta` and `d` are not parallel, `delta` has a part orthogonal to the unit vector of `d` -/
theorem orth_ne {delta d : V3} (h : cross delta d ≠ 0) (t : V3) (ht : t = (1 / Geometry.norm d) • d) :
    delta - Geometry.inner delta t • t ≠ 0 := by
  intro h0
  apply h
  have hd : delta = (Geometry.inner delta t * (1 / Geometry.norm d)) • d := by
    have := sub_eq_zero.1 h0
    rw [ht] at this ⊢
    rw [mul_smul]; exact this
  rw [hd]
  ext <;> simp only [cross, Prod.smul_fst, Prod.smul_snd, smul_eq_mul, Prod.fst_zero, Prod.snd_zero] <;> ring

theorem ne_of_cross {delta d : V3} (h : cross delta d ≠ 0) : d ≠ 0 := by rintro rfl; apply h; simp [cross]
theorem ne_of_cross' {delta d : V3} (h : cross d delta ≠ 0) : d ≠ 0 := by rintro rfl; apply h; simp [cross]

variable {N : ℕ} {i : Fin N}

/-- **C134** Where the tangent and the vector from the centroid are not parallel, the rotated centroid frame is orthonormal and right-handed. -/
theorem C134_centroid_orthonormal (gamma gammadash : Fin N → V3) (alpha : Fin N → ℝ) (h : cross (gamma i - mean gamma) (gammadash i) ≠ 0) :
    Orthonormal (centroidFrame i (gamma, gammadash, alpha)) := by
  have hd := ne_of_cross h
  have ht := unit_unit hd
  have hs := centroidNormal_spec ht (orth_ne h _ rfl)
  exact rotate_ortho ht hs.1 hs.2 _

/-- **C134** Where the curvature does not vanish, the rotated Frenet frame is orthonormal and right-handed. -/
theorem C134_frenet_orthonormal (gamma gammadash gammadashdash : Fin N → V3) (alpha : Fin N → ℝ) (h : cross (gammadash i) (gammadashdash i) ≠ 0) :
    Orthonormal (frenetFrame i (gamma, gammadash, gammadashdash, alpha)) := by
  obtain ⟨h1, h2, _, h4, _⟩ := Geometry.C53_orthonormal _ _ h
  exact rotate_ortho h1 h2 h4 _

/-- **C134** The first vector is the unit tangent: a positive multiple of `gammadash`. -/
theorem C134_tangent (gamma gammadash gammadashdash : Fin N → V3) (alpha : Fin N → ℝ) (h : gammadash i ≠ 0) :
    (∃ r : ℝ, 0 < r ∧ (centroidFrame i (gamma, gammadash, alpha)).1 = r • gammadash i) ∧
    ∃ r : ℝ, 0 < r ∧ (frenetFrame i (gamma, gammadash, gammadashdash, alpha)).1 = r • gammadash i := by
  have := norm_pos _ h
  exact ⟨⟨_, by positivity, rfl⟩, ⟨_, by positivity, rfl⟩⟩

/-- **C134** Without rotation, the normal of the centroid frame lies in the plane of the tangent and of the vector from the centroid, and points
    away from the centroid. -/
theorem C134_centroid_normal (gamma gammadash : Fin N → V3) (h : cross (gamma i - mean gamma) (gammadash i) ≠ 0) :
    (∃ r q : ℝ, 0 < r ∧ (centroidFrame i (gamma, gammadash, fun _ => 0)).2.1 = r • (gamma i - mean gamma) + q • gammadash i) ∧
    0 < Geometry.inner (centroidFrame i (gamma, gammadash, fun _ => 0)).2.1 (gamma i - mean gamma) := by
  have hd := ne_of_cross h
  have ht := unit_unit hd
  have hne := orth_ne h _ rfl
  have hp := norm_pos _ hne
  have e : (centroidFrame i (gamma, gammadash, fun _ => 0)).2.1 =
      centroidNormal (gamma i - mean gamma) ((1 / Geometry.norm (gammadash i)) • gammadash i) := by
    simp only [centroidFrame, rotate, Real.cos_zero, Real.sin_zero, one_smul, zero_smul, sub_zero]
  rw [e]
  unfold centroidNormal
  simp only
  generalize gamma i - mean gamma = delta at *
  generalize htt : (1 / Geometry.norm (gammadash i)) • gammadash i = t at *
  constructor
  · refine ⟨1 / Geometry.norm (delta - Geometry.inner delta t • t), -(1 / Geometry.norm (delta - Geometry.inner delta t • t)) * Geometry.inner delta t *
      (1 / Geometry.norm (gammadash i)), by positivity, ?_⟩
    rw [mul_smul, htt]; module
  · have e2 : Geometry.inner (delta - Geometry.inner delta t • t) delta =
        Geometry.inner (delta - Geometry.inner delta t • t) (delta - Geometry.inner delta t • t) := by
      simp only [inner_sub_left, inner_sub_right, inner_smul_left, inner_smul_right, ht, inner_comm t delta]; ring
    rw [inner_smul_left, e2, ← norm_sq]
    positivity

/-- **C134** Without rotation, the Frenet frame is the frame reported by the curve itself. -/
theorem C134_frenet_unrotated (gamma gammadash gammadashdash : Fin N → V3) :
    frenetFrame i (gamma, gammadash, gammadashdash, fun _ => 0) =
      (Geometry.tangent (gammadash i), Geometry.normal (gammadash i) (gammadashdash i), Geometry.binormal (gammadash i) (gammadashdash i)) := by
  simp only [frenetFrame, rotate, Real.cos_zero, Real.sin_zero, one_smul, zero_smul, sub_zero, zero_add]
  rfl

/-- `g` is `f` turned by the angle `a` around the tangent: the tangent stays, the coordinates of the new normal and binormal are those of a rotation. -/
def Turned (a : ℝ) (f g : Frame) : Prop :=
  g.1 = f.1 ∧ g.2.1 = Real.cos a • f.2.1 - Real.sin a • f.2.2 ∧ g.2.2 = Real.sin a • f.2.1 + Real.cos a • f.2.2

/-- **C134** The rotation angle turns the frame around the tangent; successive angles add up. -/
theorem C134_turned (gamma gammadash gammadashdash : Fin N → V3) (alpha beta : Fin N → ℝ) :
    Turned (beta i) (centroidFrame i (gamma, gammadash, alpha)) (centroidFrame i (gamma, gammadash, fun j => alpha j + beta j)) ∧
    Turned (beta i) (frenetFrame i (gamma, gammadash, gammadashdash, alpha)) (frenetFrame i (gamma, gammadash, gammadashdash, fun j => alpha j + beta j)) := by
  have key : ∀ (a b : ℝ) (t n : V3), Turned b (rotate a t n) (rotate (a + b) t n) := by
    intro a b t n
    refine ⟨rfl, ?_, ?_⟩
    · simp only [rotate, Real.cos_add, Real.sin_add]; module
    · simp only [rotate, Real.cos_add, Real.sin_add]; module
  exact ⟨key _ _ _ _, key _ _ _ _⟩

/-! ### `FrameRotation` -/

theorem rotation_sum (order : ℕ) (dofs : ℕ → ℝ) (x : ℝ) : rotation order dofs x = dofs 0 + ∑ k ∈ Finset.range order,
    (dofs (2 * (k + 1) - 1) * Real.sin (2 * Real.pi * (k + 1 : ℕ) * x) + dofs (2 * (k + 1)) * Real.cos (2 * Real.pi * (k + 1 : ℕ) * x)) := by
  unfold rotation
  induction order with
  | zero => simp
  | succ o ih => rw [List.range_succ, List.foldl_append, ih, Finset.sum_range_succ]; simp only [List.foldl_cons, List.foldl_nil]; ring

theorem rotationdash_sum (order : ℕ) (dofs : ℕ → ℝ) (x : ℝ) : rotationdash order dofs x = ∑ k ∈ Finset.range order,
    (dofs (2 * (k + 1) - 1) * (2 * Real.pi * (k + 1 : ℕ) * Real.cos (2 * Real.pi * (k + 1 : ℕ) * x)) -
      dofs (2 * (k + 1)) * (2 * Real.pi * (k + 1 : ℕ) * Real.sin (2 * Real.pi * (k + 1 : ℕ) * x))) := by
  unfold rotationdash
  induction order with
  | zero => simp
  | succ o ih => rw [List.range_succ, List.foldl_append, ih, Finset.sum_range_succ]; simp only [List.foldl_cons, List.foldl_nil]; ring

/-- **C134** The angle of `FrameRotation` is the Fourier series `scale (x_0 + Σ x_{2k-1} sin(2πkφ) + x_{2k} cos(2πkφ))` of the dofs; ... -/
theorem C134_alpha (order : ℕ) (scale : ℝ) (dofs : ℕ → ℝ) (x : ℝ) : alpha order scale dofs x = scale * (dofs 0 + ∑ k ∈ Finset.range order,
    (dofs (2 * (k + 1) - 1) * Real.sin (2 * Real.pi * ((k + 1 : ℕ) : ℝ) * x) + dofs (2 * (k + 1)) * Real.cos (2 * Real.pi * ((k + 1 : ℕ) : ℝ) * x))) := by
  rw [alpha, rotation_sum]

/-- **C134** ... it has period 1; ... -/
theorem C134_alpha_periodic (order : ℕ) (scale : ℝ) (dofs : ℕ → ℝ) (x : ℝ) : alpha order scale dofs (x + 1) = alpha order scale dofs x := by
  rw [C134_alpha, C134_alpha]
  congr 2
  refine Finset.sum_congr rfl fun k _ => ?_
  have e : 2 * Real.pi * ((k + 1 : ℕ) : ℝ) * (x + 1) = 2 * Real.pi * ((k + 1 : ℕ) : ℝ) * x + (k + 1 : ℕ) * (2 * Real.pi) := by ring
  rw [e, Real.sin_add_nat_mul_two_pi, Real.cos_add_nat_mul_two_pi]

/-- **C134** ... `alphadash` is its derivative along the curve; ... -/
theorem C134_alphadash (order : ℕ) (scale : ℝ) (dofs : ℕ → ℝ) (x : ℝ) :
    HasDerivAt (alpha order scale dofs) (alphadash order scale dofs x) x := by
  have hl : ∀ k : ℕ, HasDerivAt (fun y : ℝ => 2 * Real.pi * ((k + 1 : ℕ) : ℝ) * y) (2 * Real.pi * ((k + 1 : ℕ) : ℝ)) x := fun k => by
    simpa using (hasDerivAt_id x).const_mul (2 * Real.pi * ((k + 1 : ℕ) : ℝ))
  have hs : HasDerivAt (fun y => ∑ k ∈ Finset.range order, (dofs (2 * (k + 1) - 1) * Real.sin (2 * Real.pi * ((k + 1 : ℕ) : ℝ) * y) +
      dofs (2 * (k + 1)) * Real.cos (2 * Real.pi * ((k + 1 : ℕ) : ℝ) * y))) (rotationdash order dofs x) x := by
    rw [rotationdash_sum]
    refine HasDerivAt.fun_sum fun k _ => ?_
    refine (((hl k).sin.const_mul _).fun_add ((hl k).cos.const_mul _)).congr_deriv ?_
    ring
  have h := (hs.const_add (dofs 0)).const_mul scale
  have e : alpha order scale dofs = fun y => scale * (dofs 0 + ∑ k ∈ Finset.range order, (dofs (2 * (k + 1) - 1) * Real.sin (2 * Real.pi * ((k + 1 : ℕ) : ℝ) * y) +
      dofs (2 * (k + 1)) * Real.cos (2 * Real.pi * ((k + 1 : ℕ) : ℝ) * y))) := funext fun y => C134_alpha _ _ _ _
  rw [e]
  exact h

theorem sum_pairs (order : ℕ) (F : ℕ → ℝ) : ∑ p ∈ Finset.range (2 * order + 1), F p = F 0 + ∑ k ∈ Finset.range order, (F (2 * (k + 1) - 1) + F (2 * (k + 1))) := by
  induction order with
  | zero => simp
  | succ o ih =>
    rw [Finset.sum_range_succ _ o, show 2 * (o + 1) + 1 = (2 * o + 1) + 1 + 1 by ring, Finset.sum_range_succ, Finset.sum_range_succ, ih,
      show 2 * (o + 1) - 1 = 2 * o + 1 by omega, show 2 * (o + 1) = 2 * o + 1 + 1 by ring]
    ring

/-- **C134** ... and the two pull-backs are the gradients: for every direction `e` of the `2 order + 1` dofs, pairing the result of
    `dalpha_by_dcoeff_vjp(v)` with `e` gives the change of `Σ_i v_i alpha(q_i)`, which is linear in the dofs (and the same for `alphadash`). -/
theorem C134_alpha_vjp (order : ℕ) (scale : ℝ) (q v : Fin N → ℝ) (dofs e : ℕ → ℝ) :
    (∑ i, v i * alpha order scale (fun p => dofs p + e p) (q i) - ∑ i, v i * alpha order scale dofs (q i) =
      ∑ p ∈ Finset.range (2 * order + 1), alphaVjp scale q v p * e p) ∧
    (∑ i, v i * alphadash order scale (fun p => dofs p + e p) (q i) - ∑ i, v i * alphadash order scale dofs (q i) =
      ∑ p ∈ Finset.range (2 * order + 1), alphadashVjp scale q v p * e p) := by
  have j1 : ∀ (x : ℝ) (k : ℕ), rotationJac x (2 * (k + 1) - 1) = Real.sin (2 * Real.pi * ((k + 1 : ℕ) : ℝ) * x) ∧
      rotationJac x (2 * (k + 1)) = Real.cos (2 * Real.pi * ((k + 1 : ℕ) : ℝ) * x) ∧
      rotationdashJac x (2 * (k + 1) - 1) = 2 * Real.pi * ((k + 1 : ℕ) : ℝ) * Real.cos (2 * Real.pi * ((k + 1 : ℕ) : ℝ) * x) ∧
      rotationdashJac x (2 * (k + 1)) = -(2 * Real.pi * ((k + 1 : ℕ) : ℝ) * Real.sin (2 * Real.pi * ((k + 1 : ℕ) : ℝ) * x)) := by
    intro x k
    have a1 : ¬ (2 * (k + 1) - 1 = 0) := by omega
    have a2 : (2 * (k + 1) - 1) % 2 = 1 := by omega
    have a3 : (2 * (k + 1) - 1 + 1) / 2 = k + 1 := by omega
    have a4 : ¬ (2 * (k + 1) = 0) := by omega
    have a5 : ¬ ((2 * (k + 1)) % 2 = 1) := by omega
    have a6 : 2 * (k + 1) / 2 = k + 1 := by omega
    unfold rotationJac rotationdashJac
    rw [if_neg a1, if_pos a2, if_neg a4, if_neg a5, if_neg a1, if_pos a2, if_neg a4, if_neg a5, a3, a6]
    exact ⟨rfl, rfl, rfl, rfl⟩
  have l1 : ∀ x, rotation order (fun p => dofs p + e p) x - rotation order dofs x = ∑ p ∈ Finset.range (2 * order + 1), rotationJac x p * e p := by
    intro x
    rw [rotation_sum, rotation_sum, sum_pairs, add_sub_add_comm, ← Finset.sum_sub_distrib]
    congr 1
    · unfold rotationJac; simp
    · refine Finset.sum_congr rfl fun k _ => ?_
      rw [(j1 x k).1, (j1 x k).2.1]; ring
  have l2 : ∀ x, rotationdash order (fun p => dofs p + e p) x - rotationdash order dofs x = ∑ p ∈ Finset.range (2 * order + 1), rotationdashJac x p * e p := by
    intro x
    rw [rotationdash_sum, rotationdash_sum, sum_pairs, ← Finset.sum_sub_distrib]
    have z : rotationdashJac x 0 * e 0 = 0 := by unfold rotationdashJac; simp
    rw [z, zero_add]
    refine Finset.sum_congr rfl fun k _ => ?_
    rw [(j1 x k).2.2.1, (j1 x k).2.2.2]; ring
  constructor
  · rw [← Finset.sum_sub_distrib]
    have e1 : ∀ i : Fin N, v i * alpha order scale (fun p => dofs p + e p) (q i) - v i * alpha order scale dofs (q i) =
        ∑ p ∈ Finset.range (2 * order + 1), scale * (v i * rotationJac (q i) p) * e p := by
      intro i
      rw [alpha, alpha, show ∀ a b c d : ℝ, a * (b * c) - a * (b * d) = (a * b) * (c - d) from fun a b c d => by ring, l1, Finset.mul_sum]
      exact Finset.sum_congr rfl fun p _ => by ring
    rw [Finset.sum_congr rfl fun i _ => e1 i, Finset.sum_comm]
    refine Finset.sum_congr rfl fun p _ => ?_
    rw [alphaVjp, Finset.mul_sum, Finset.sum_mul]
  · rw [← Finset.sum_sub_distrib]
    have e1 : ∀ i : Fin N, v i * alphadash order scale (fun p => dofs p + e p) (q i) - v i * alphadash order scale dofs (q i) =
        ∑ p ∈ Finset.range (2 * order + 1), scale * (v i * rotationdashJac (q i) p) * e p := by
      intro i
      rw [alphadash, alphadash, show ∀ a b c d : ℝ, a * (b * c) - a * (b * d) = (a * b) * (c - d) from fun a b c d => by ring, l2, Finset.mul_sum]
      exact Finset.sum_congr rfl fun p _ => by ring
    rw [Finset.sum_congr rfl fun i _ => e1 i, Finset.sum_comm]
    refine Finset.sum_congr rfl fun p _ => ?_
    rw [alphadashVjp, Finset.mul_sum, Finset.sum_mul]

end Simsopt.Frames
