import Verif.Penalties.Grad
import Mathlib.Algebra.Order.BigOperators.Ring.Finset
/-!
# C60: values of the single-curve objectives
-/
namespace Simsopt.Penalties
open Simsopt.Coils
open Simsopt.Geometry hiding norm

variable {n : Nat}

theorem mean_nonneg {f : Fin n → ℝ} (h : ∀ k, 0 ≤ f k) : 0 ≤ mean f := div_nonneg (Finset.sum_nonneg fun k _ => h k) (Nat.cast_nonneg _)

theorem mean_eq_zero_iff {f : Fin n → ℝ} (h : ∀ k, 0 ≤ f k) : mean f = 0 ↔ ∀ k, f k = 0 := by
  rw [mean]
  constructor
  · intro h0 k
    have hn : (n : ℝ) ≠ 0 := by have := k.pos; positivity
    have := (div_eq_zero_iff.mp h0).resolve_right hn
    exact (Finset.sum_eq_zero_iff_of_nonneg fun k _ => h k).mp this k (Finset.mem_univ k)
  · intro h0
    rw [Finset.sum_eq_zero fun k _ => h0 k, zero_div]

theorem maxPow_eq_zero_iff (x p : ℝ) (hp : 0 < p) : max x 0 ^ p = 0 ↔ x ≤ 0 := by
  rw [Real.rpow_eq_zero (le_max_right _ _) hp.ne', max_eq_right_iff]

/-- **C60.** LpCurveCurvature is never negative, and it is zero exactly when the curvature is at most the threshold at every quadrature
point. -/
theorem C60_curvature_zero_iff (d1 d2 : Fin n → V3) (p threshold : ℝ) (hp : 0 < p) (hne : ∀ k, d1 k ≠ 0) :
    0 ≤ LpCurvature d1 d2 p threshold ∧ (LpCurvature d1 d2 p threshold = 0 ↔ ∀ k, kappa (d1 k) (d2 k) ≤ threshold) := by
  have hnn : ∀ k, 0 ≤ max (kappa (d1 k) (d2 k) - threshold) 0 ^ p * Geometry.norm (d1 k) := fun k =>
    mul_nonneg (Real.rpow_nonneg (le_max_right _ _) _) (norm_pos _ (hne k)).le
  constructor
  · exact mul_nonneg (by positivity) (mean_nonneg hnn)
  · rw [LpCurvature, lpCurvature, mul_eq_zero, or_iff_right (by positivity), mean_eq_zero_iff hnn]
    refine forall_congr' fun k => ?_
    rw [mul_eq_zero, or_iff_left (norm_pos _ (hne k)).ne', maxPow_eq_zero_iff _ _ hp, sub_nonpos]

/-- **C60.** LpCurveTorsion is never negative, and it is zero exactly when the absolute torsion is at most the threshold at every quadrature
point. -/
theorem C60_torsion_zero_iff (d1 d2 d3 : Fin n → V3) (p threshold : ℝ) (hp : 0 < p) (hne : ∀ k, d1 k ≠ 0) :
    0 ≤ LpTorsion d1 d2 d3 p threshold ∧ (LpTorsion d1 d2 d3 p threshold = 0 ↔ ∀ k, |torsion (d1 k) (d2 k) (d3 k)| ≤ threshold) := by
  have hnn : ∀ k, 0 ≤ max (|torsion (d1 k) (d2 k) (d3 k)| - threshold) 0 ^ p * Geometry.norm (d1 k) := fun k =>
    mul_nonneg (Real.rpow_nonneg (le_max_right _ _) _) (norm_pos _ (hne k)).le
  constructor
  · exact mul_nonneg (by positivity) (mean_nonneg hnn)
  · rw [LpTorsion, lpTorsion, mul_eq_zero, or_iff_right (by positivity), mean_eq_zero_iff hnn]
    refine forall_congr' fun k => ?_
    rw [mul_eq_zero, or_iff_left (norm_pos _ (hne k)).ne', maxPow_eq_zero_iff _ _ hp, sub_nonpos]

/-! ### Mean squared curvature -/

/-- **C60.** MeanSquaredCurvature is an average of the squared curvature: every bound for `kappa**2` at the quadrature points is a bound
for `J()`; and `J()` times the length is twice the `p = 2` curvature penalty with threshold 0. -/
theorem C60_msc_average (d1 d2 : Fin n → V3) (hn : 0 < n) (hne : ∀ k, d1 k ≠ 0) :
    (∀ lo, (∀ k, lo ≤ kappa (d1 k) (d2 k) ^ 2) → lo ≤ msc d1 d2) ∧ (∀ hi, (∀ k, kappa (d1 k) (d2 k) ^ 2 ≤ hi) → msc d1 d2 ≤ hi) ∧
      msc d1 d2 * length d1 = 2 * LpCurvature d1 d2 2 0 := by
  have : Nonempty (Fin n) := ⟨⟨0, hn⟩⟩
  have hn' : (0 : ℝ) < n := by exact_mod_cast hn
  have hpos : 0 < mean fun k => Geometry.norm (d1 k) :=
    div_pos (Finset.sum_pos (fun k _ => norm_pos _ (hne k)) Finset.univ_nonempty) hn'
  refine ⟨?_, ?_, ?_⟩
  · intro lo h
    rw [msc, mscPure, le_div_iff₀ hpos, mean, mean, mul_div_assoc', div_le_div_iff_of_pos_right hn', Finset.mul_sum]
    exact Finset.sum_le_sum fun k _ => mul_le_mul_of_nonneg_right (h k) (norm_pos _ (hne k)).le
  · intro hi h
    rw [msc, mscPure, div_le_iff₀ hpos, mean, mean, mul_div_assoc', div_le_div_iff_of_pos_right hn', Finset.mul_sum]
    exact Finset.sum_le_sum fun k _ => mul_le_mul_of_nonneg_right (h k) (norm_pos _ (hne k)).le
  · have hl : length d1 = mean fun k => Geometry.norm (d1 k) := rfl
    have hk : ∀ k, 0 ≤ kappa (d1 k) (d2 k) := fun k => div_nonneg (Real.sqrt_nonneg _) (pow_nonneg (Real.sqrt_nonneg _) _)
    rw [hl, msc, mscPure, div_mul_cancel₀ _ hpos.ne', LpCurvature, lpCurvature]
    have : ∀ k, max (kappa (d1 k) (d2 k) - 0) 0 ^ (2 : ℝ) = kappa (d1 k) (d2 k) ^ 2 := by
      intro k
      rw [sub_zero, max_eq_left (hk k)]
      exact Real.rpow_two _
    simp only [this]
    ring

/-! ### Arclength variation -/

theorem index_zero (nq ni : Nat) : index nq ni 0 = 0 := by simp [index]

theorem index_last (nq ni : Nat) (h : 0 < ni) : index nq ni ni = nq := by rw [index, Nat.mul_div_cancel_left _ h]

theorem index_lt (nq ni i : Nat) (h : 0 < ni) (hle : ni ≤ nq) : index nq ni i < index nq ni (i + 1) := by
  rw [index, index, Nat.lt_iff_add_one_le, Nat.le_div_iff_mul_le h]
  have := Nat.div_mul_le_self (i * nq) ni
  nlinarith

/-- **C60.** For every accepted integer `nintervals`, and for "full", the intervals of ArclengthVariation are a partition of the quadrature
points into non-empty runs of consecutive points: every point is in exactly one interval. -/
theorem C60_intervals (nq : Nat) (order : Option Nat) (arg : NIntervals) (harg : arg = .full ∨ ∃ k, arg = .int k) (ni : Nat)
    (h : nIntervals nq order arg = some ni) (hnq : 0 < nq) :
    0 < ni ∧ ni ≤ nq ∧ index nq ni 0 = 0 ∧ index nq ni ni = nq ∧ (∀ i < ni, index nq ni i < index nq ni (i + 1)) ∧
      ∀ k < nq, ∃! i, i < ni ∧ index nq ni i ≤ k ∧ k < index nq ni (i + 1) := by
  have hni : 0 < ni ∧ ni ≤ nq := by
    rcases harg with rfl | ⟨k, rfl⟩
    · simp only [nIntervals, Option.some.injEq] at h; omega
    · simp only [nIntervals] at h
      split at h
      · simp only [Option.some.injEq] at h; omega
      · cases h
  refine ⟨hni.1, hni.2, index_zero _ _, index_last _ _ hni.1, fun i _ => index_lt _ _ _ hni.1 hni.2, ?_⟩
  have hmono : ∀ a b, a ≤ b → index nq ni a ≤ index nq ni b := fun a b hab => Nat.div_le_div_right (Nat.mul_le_mul_right _ hab)
  intro k hk
  have hex : ∃ i, k < index nq ni (i + 1) := ⟨ni - 1, by rw [Nat.sub_add_cancel hni.1, index_last _ _ hni.1]; exact hk⟩
  classical
  refine ⟨Nat.find hex, ⟨?_, ?_, Nat.find_spec hex⟩, ?_⟩
  · have := Nat.find_min' hex (m := ni - 1) (by rw [Nat.sub_add_cancel hni.1, index_last _ _ hni.1]; exact hk)
    omega
  · rcases Nat.eq_zero_or_pos (Nat.find hex) with h0 | h0
    · rw [h0, index_zero]; exact Nat.zero_le _
    · have := Nat.find_min hex (m := Nat.find hex - 1) (by omega)
      rw [Nat.sub_add_cancel h0] at this
      omega
  · rintro j ⟨hj, h1, h2⟩
    have hle := Nat.find_min' hex h2
    by_contra hne
    have : Nat.find hex + 1 ≤ j := by omega
    have := hmono _ _ this
    have := Nat.find_spec hex
    omega

/-- The average of `l` over the points `a ≤ k < b`. -/
noncomputable def average (l : Fin n → ℝ) (a b : Nat) : ℝ :=
  (∑ k ∈ Finset.univ.filter (fun k : Fin n => a ≤ k ∧ (k : Nat) < b), l k) / ((b : ℝ) - a)

theorem matMul_eq (ni : Nat) (l : Fin n → ℝ) (i : Fin ni) :
    matMul (mat n ni) l i = average l (index n ni i) (index n ni (i + 1)) := by
  rw [matMul, average, Finset.sum_filter, Finset.sum_div]
  refine Finset.sum_congr rfl fun k _ => ?_
  unfold mat
  split <;> ring

theorem var_eq_zero_iff {m : Nat} (y : Fin m → ℝ) : 0 ≤ var y ∧ (var y = 0 ↔ ∀ i j, y i = y j) := by
  refine ⟨mean_nonneg fun i => sq_nonneg _, ?_⟩
  rw [var, mean_eq_zero_iff fun i => sq_nonneg _]
  constructor
  · intro h i j
    have hi := pow_eq_zero_iff (two_ne_zero) |>.mp (h i)
    have hj := pow_eq_zero_iff (two_ne_zero) |>.mp (h j)
    linarith
  · intro h i
    have : mean y = y i := by
      rw [mean, Finset.sum_congr rfl fun j _ => h j i, Finset.sum_const, Finset.card_univ, Fintype.card_fin, nsmul_eq_mul]
      have : (m : ℝ) ≠ 0 := by have := i.pos; positivity
      field_simp
    rw [this]; ring

/-- **C60.** ArclengthVariation is never negative, and it is zero exactly when the averages of the incremental arclength over the intervals
are all the same; it is the variance of these averages. -/
theorem C60_variation_zero_iff (ni : Nat) (d1 : Fin n → V3) :
    let avg : Fin ni → ℝ := fun i => average (fun k => arclength (d1 k)) (index n ni i) (index n ni (i + 1))
    variation ni d1 = (∑ i, (avg i - (∑ j, avg j) / ni) ^ 2) / ni ∧ 0 ≤ variation ni d1 ∧ (variation ni d1 = 0 ↔ ∀ i j, avg i = avg j) := by
  intro avg
  have e : variation ni d1 = var avg := by rw [variation]; congr 1; funext i; exact matMul_eq ni _ i
  rw [e]
  exact ⟨rfl, var_eq_zero_iff avg⟩

/-- **C60.** With "full", ArclengthVariation is zero exactly for curves with constant incremental arclength. -/
theorem C60_variation_full (d1 : Fin n → V3) : variation n d1 = 0 ↔ ∀ k l, arclength (d1 k) = arclength (d1 l) := by
  rw [(C60_variation_zero_iff n d1).2.2]
  have : ∀ i : Fin n, average (fun k => arclength (d1 k)) (index n n i) (index n n (i + 1)) = arclength (d1 i) := by
    intro i
    have hn : 0 < n := i.pos
    rw [index, index, Nat.mul_div_cancel _ hn, Nat.mul_div_cancel _ hn, average]
    have : (Finset.univ.filter fun k : Fin n => (i : Nat) ≤ k ∧ (k : Nat) < i + 1) = {i} := by
      ext k
      simp only [Finset.mem_filter, Finset.mem_univ, true_and, Finset.mem_singleton, Fin.ext_iff]
      omega
    rw [this, Finset.sum_singleton]
    push_cast
    simp
  simp only [this]

/-- **C60.** For every accepted integer `nintervals` and for "full", a curve with constant incremental arclength has no penalty. -/
theorem C60_constant_arclength (order : Option Nat) (arg : NIntervals) (harg : arg = .full ∨ ∃ k, arg = .int k) (ni : Nat) (hn : 0 < n)
    (h : nIntervals n order arg = some ni) (d1 : Fin n → V3) (c : ℝ) (hc : ∀ k, arclength (d1 k) = c) : variation ni d1 = 0 := by
  obtain ⟨h1, h2, _, h4, h5, _⟩ := C60_intervals n order arg harg ni h hn
  rw [(C60_variation_zero_iff ni d1).2.2]
  have hle : ∀ i ≤ ni, index n ni i ≤ n := by
    intro i hi
    have := Nat.div_le_div_right (c := ni) (Nat.mul_le_mul_right n hi)
    exact this.trans_eq h4
  have : ∀ i : Fin ni, average (fun k => arclength (d1 k)) (index n ni i) (index n ni (i + 1)) = c := by
    intro i
    have hlt := h5 i i.2
    have hb := hle (i + 1) i.2
    rw [average, Finset.sum_congr rfl fun k _ => hc k, Finset.sum_const]
    have hcard : (Finset.univ.filter fun k : Fin n => index n ni i ≤ k ∧ (k : Nat) < index n ni (i + 1)).card = index n ni (i + 1) - index n ni i := by
      rw [← Finset.card_map Fin.valEmbedding]
      have : (Finset.univ.filter fun k : Fin n => index n ni i ≤ k ∧ (k : Nat) < index n ni (i + 1)).map Fin.valEmbedding =
          Finset.Ico (index n ni i) (index n ni (i + 1)) := by
        ext x
        simp only [Finset.mem_map, Finset.mem_filter, Finset.mem_univ, true_and, Fin.valEmbedding_apply, Finset.mem_Ico]
        constructor
        · rintro ⟨k, hk, rfl⟩; exact hk
        · rintro hx; exact ⟨⟨x, by omega⟩, hx, rfl⟩
      rw [this, Nat.card_Ico]
    rw [hcard, nsmul_eq_mul, Nat.cast_sub hlt.le]
    have : ((index n ni (i + 1) : ℝ) - index n ni i) ≠ 0 := by
      have : (index n ni i : ℝ) < index n ni (i + 1) := by exact_mod_cast hlt
      linarith
    field_simp
  simp only [this, implies_true]

/-- **C60 (violated).** With "partial" the number of intervals is not checked: a curve of order 2 with 3 quadrature points gets 4 intervals,
one of them empty, and a curve with constant incremental arclength has a positive penalty. -/
theorem C60_partial_violated : nIntervals 3 (some 2) .partially = some 4 ∧ index 3 4 0 = index 3 4 1 ∧
    ∃ d1 : Fin 3 → V3, (∀ k, arclength (d1 k) = 1) ∧ 0 < variation 4 d1 := by
  refine ⟨rfl, rfl, fun _ => (1, 0, 0), fun _ => by simp [arclength], ?_⟩
  obtain ⟨_, h2, h3⟩ := C60_variation_zero_iff 4 (fun _ : Fin 3 => ((1, 0, 0) : V3))
  refine lt_of_le_of_ne h2 fun h => ?_
  have := h3.mp h.symm 0 1
  have e0 : index 3 4 ((0 : Fin 4) : Nat) = 0 := rfl
  have e1 : index 3 4 (((0 : Fin 4) : Nat) + 1) = 0 := rfl
  have e2 : index 3 4 ((1 : Fin 4) : Nat) = 0 := rfl
  have e3 : index 3 4 (((1 : Fin 4) : Nat) + 1) = 1 := rfl
  have f : (Finset.univ.filter fun k : Fin 3 => 0 ≤ (k : Nat) ∧ (k : Nat) < 1) = {0} := rfl
  replace this : average (fun _ : Fin 3 => arclength (1, 0, 0)) (index 3 4 ((0 : Fin 4) : Nat)) (index 3 4 (((0 : Fin 4) : Nat) + 1)) =
      average (fun _ : Fin 3 => arclength (1, 0, 0)) (index 3 4 ((1 : Fin 4) : Nat)) (index 3 4 (((1 : Fin 4) : Nat) + 1)) := this
  rw [e0, e1, e2, e3, average, average, f] at this
  simp [arclength] at this

/-! ### CurveXYZFourier -/

theorem set_self (d : List ℝ) (p : Nat) (hp : p < d.length) : d.set p d[p] = d := List.set_getElem_self hp

/-- **C60.** The gradients for a CurveXYZFourier with arbitrary quadrature points `t`, dofs `d`: `dJ()[p]` is the derivative of `J()` when dof
`p` is changed. -/
theorem C60_xyzfourier (order : Nat) (d : List ℝ) (hd : d.length = 3 * (2 * order + 1)) (t : Fin n → ℝ) (hn : 0 < n) (pw threshold : ℝ)
    (hpw : 1 < pw) (ht : 0 ≤ threshold) (ni : Nat) (p : Fin d.length)
    (hne : ∀ k, cross (xyz 1 order d (t k)) (xyz 2 order d (t k)) ≠ 0) :
    let g (i : Fin 4) (d : List ℝ) : Fin n → V3 := fun k => xyz i order d (t k)
    let E (i : Fin 4) : Fin n → Fin d.length → V3 := fun k j => dxyz i order (t k) j
    HasDerivAt (fun x => length (g 1 (d.set p x))) (dLength (g 1 d) (E 1) p) d[p] ∧
    HasDerivAt (fun x => LpCurvature (g 1 (d.set p x)) (g 2 (d.set p x)) pw threshold) (dLpCurvature (g 1 d) (g 2 d) (E 1) (E 2) pw threshold p) d[p] ∧
    HasDerivAt (fun x => LpTorsion (g 1 (d.set p x)) (g 2 (d.set p x)) (g 3 (d.set p x)) pw threshold)
      (dLpTorsion (g 1 d) (g 2 d) (g 3 d) (E 1) (E 2) (E 3) pw threshold p) d[p] ∧
    HasDerivAt (fun x => variation ni (g 1 (d.set p x))) (dVariation ni (g 1 d) (E 1) p) d[p] ∧
    HasDerivAt (fun x => msc (g 1 (d.set p x)) (g 2 (d.set p x))) (dMsc (g 1 d) (g 2 d) (E 1) (E 2) p) d[p] := by
  intro g E
  have hg : ∀ (i : Fin 4) (k : Fin n), HasDerivAt (fun x => g i (d.set p x) k) (E i k p) d[p] := fun i k =>
    xyz_dof i order d hd (t k) p p.2
  have hs : d.set p d[p] = d := List.set_getElem_self p.2
  have hne1 : ∀ k, cross (g 1 (d.set p d[p]) k) (g 2 (d.set p d[p]) k) ≠ 0 := by rw [hs]; exact hne
  have h0 : ∀ k, g 1 (d.set p d[p]) k ≠ 0 := fun k h => hne1 k (by rw [h]; simp [cross])
  have a1 := C60_length_gradient (hg 1) h0
  have a2 := C60_curvature_gradient pw threshold hpw (hg 1) (hg 2) hne1
  have a3 := C60_torsion_gradient pw threshold hpw ht (hg 1) (hg 2) (hg 3) hne1
  have a4 := C60_variation_gradient ni (hg 1) h0
  have a5 := C60_msc_gradient hn (hg 1) (hg 2) hne1
  rw [hs] at a1 a2 a3 a4 a5
  exact ⟨a1, a2, a3, a4, a5⟩

/-- The hypotheses of `C60_xyzfourier` hold for the unit circle, at one quadrature point. -/
example : ∃ d : List ℝ, d.length = 3 * (2 * 1 + 1) ∧ ∀ k : Fin 1, cross (xyz 1 1 d ((fun _ => (0 : ℝ)) k)) (xyz 2 1 d ((fun _ => (0 : ℝ)) k)) ≠ 0 :=
  ⟨_, rfl, fun _ => circle_nondegenerate⟩

end Simsopt.Penalties
