import Verif.Henneberg.More
import Mathlib.Algebra.BigOperators.Field
/-! # C142: SurfaceHenneberg.from_RZFourier and disagreements with the documentation -/
namespace Simsopt.Henne
open Simsopt Simsopt.Coils Simsopt.RZSurf

/-! ### Sums over the grids -/

theorem cc (x y : ℝ) : Real.cos x * Real.cos y = (Real.cos (x - y) + Real.cos (x + y)) / 2 := by rw [Real.cos_sub, Real.cos_add]; ring
theorem ss (x y : ℝ) : Real.sin x * Real.sin y = (Real.cos (x - y) - Real.cos (x + y)) / 2 := by rw [Real.cos_sub, Real.cos_add]; ring

theorem dvd_small (K : Nat) (a : ℤ) (h1 : -(K : ℤ) < a) (h2 : a < K) : (K : ℤ) ∣ a ↔ a = 0 := by
  constructor
  · rintro ⟨c, rfl⟩
    have : c = 0 := by
      by_contra hc
      have hK : (0 : ℤ) < K ∨ (K : ℤ) = 0 := by omega
      rcases hK with hK | hK
      · rcases lt_or_gt_of_ne hc with h | h
        · nlinarith
        · nlinarith
      · rw [hK] at h1 h2; simp at h1
    rw [this]; ring
  · rintro rfl; exact dvd_zero _

/-- `Σ_j cos(a v_j + φ)` for `|a|` below the number of grid points. -/
theorem sum_cos_small (K : Nat) (hK : 0 < K) (a : ℤ) (h1 : -(K : ℤ) < a) (h2 : a < K) (φ : ℝ) :
    ∑ j ∈ Finset.range K, Real.cos (a * (2 * Real.pi * (j / K)) + φ) = if a = 0 then K * Real.cos φ else 0 := by
  rw [Trig.sum_cos_period K hK]; simp only [dvd_small K a h1 h2]

/-- The cosine coefficients of a cosine series are recovered from its values on the grid. -/
theorem cos_series (K N : Nat) (hK : 2 * N < K) (c : Nat → ℝ) (k : Nat) (hk : k ≤ N) :
    ∑ j ∈ Finset.range K, (∑ n ∈ Finset.range (N + 1), c n * Real.cos (n * (2 * Real.pi * (j / K)))) * Real.cos (k * (2 * Real.pi * (j / K))) = (if k = 0 then (K : ℝ) else K / 2) * c k := by
  have hK0 : 0 < K := by omega
  simp only [Finset.sum_mul]
  rw [Finset.sum_comm]
  rw [Finset.sum_eq_single k]
  · have e : ∀ j : Nat, c k * Real.cos (k * (2 * Real.pi * (j / K))) * Real.cos (k * (2 * Real.pi * (j / K))) =
        c k / 2 * Real.cos (((0 : ℤ) : ℝ) * (2 * Real.pi * (j / K)) + 0) + c k / 2 * Real.cos (((2 * k : ℤ) : ℝ) * (2 * Real.pi * (j / K)) + 0) := by
      intro j
      rw [mul_assoc, cc]
      push_cast
      rw [show (k : ℝ) * (2 * Real.pi * (j / K)) - k * (2 * Real.pi * (j / K)) = 0 * (2 * Real.pi * (j / K)) + 0 by ring,
        show (k : ℝ) * (2 * Real.pi * (j / K)) + k * (2 * Real.pi * (j / K)) = 2 * k * (2 * Real.pi * (j / K)) + 0 by ring]
      ring
    simp only [e, Finset.sum_add_distrib, ← Finset.mul_sum]
    rw [sum_cos_small K hK0 0 (by omega) (by omega), sum_cos_small K hK0 (2 * k) (by omega) (by omega)]
    by_cases h0 : k = 0
    · simp [h0]; ring
    · have : ¬ (2 * (k : ℤ) = 0) := by omega
      simp [h0]; ring
  · intro n hn hne
    have hn := Finset.mem_range.mp hn
    have e : ∀ j : Nat, c n * Real.cos (n * (2 * Real.pi * (j / K))) * Real.cos (k * (2 * Real.pi * (j / K))) =
        c n / 2 * Real.cos (((n - k : ℤ) : ℝ) * (2 * Real.pi * (j / K)) + 0) + c n / 2 * Real.cos (((n + k : ℤ) : ℝ) * (2 * Real.pi * (j / K)) + 0) := by
      intro j
      rw [mul_assoc, cc]
      push_cast
      rw [show (n : ℝ) * (2 * Real.pi * (j / K)) - k * (2 * Real.pi * (j / K)) = (n - k) * (2 * Real.pi * (j / K)) + 0 by ring,
        show (n : ℝ) * (2 * Real.pi * (j / K)) + k * (2 * Real.pi * (j / K)) = (n + k) * (2 * Real.pi * (j / K)) + 0 by ring]
      ring
    simp only [e, Finset.sum_add_distrib, ← Finset.mul_sum]
    rw [sum_cos_small K hK0 _ (by omega) (by omega), sum_cos_small K hK0 _ (by omega) (by omega), if_neg (by omega), if_neg (by omega)]
    ring
  · intro hk'; exact absurd (Finset.mem_range.mpr (by omega)) hk'

/-- The sine coefficients of a sine series are recovered from its values on the grid. -/
theorem sin_series (K N : Nat) (hK : 2 * N < K) (c : Nat → ℝ) (k : Nat) (hk : 1 ≤ k ∧ k ≤ N) :
    ∑ j ∈ Finset.range K, (∑ n ∈ Finset.Icc 1 N, c n * Real.sin (n * (2 * Real.pi * (j / K)))) * Real.sin (k * (2 * Real.pi * (j / K))) = K / 2 * c k := by
  have hK0 : 0 < K := by omega
  simp only [Finset.sum_mul]
  rw [Finset.sum_comm]
  have gen : ∀ n, 1 ≤ n → n ≤ N → ∑ j ∈ Finset.range K, c n * Real.sin (n * (2 * Real.pi * (j / K))) * Real.sin (k * (2 * Real.pi * (j / K))) = if n = k then K / 2 * c k else 0 := by
    intro n h1 hn
    have e : ∀ j : Nat, c n * Real.sin (n * (2 * Real.pi * (j / K))) * Real.sin (k * (2 * Real.pi * (j / K))) =
        c n / 2 * Real.cos (((n - k : ℤ) : ℝ) * (2 * Real.pi * (j / K)) + 0) - c n / 2 * Real.cos (((n + k : ℤ) : ℝ) * (2 * Real.pi * (j / K)) + 0) := by
      intro j
      rw [mul_assoc, ss]
      push_cast
      rw [show (n : ℝ) * (2 * Real.pi * (j / K)) - k * (2 * Real.pi * (j / K)) = (n - k) * (2 * Real.pi * (j / K)) + 0 by ring,
        show (n : ℝ) * (2 * Real.pi * (j / K)) + k * (2 * Real.pi * (j / K)) = (n + k) * (2 * Real.pi * (j / K)) + 0 by ring]
      ring
    simp only [e, Finset.sum_sub_distrib, ← Finset.mul_sum]
    rw [sum_cos_small K hK0 _ (by omega) (by omega), sum_cos_small K hK0 _ (by omega) (by omega)]
    by_cases h : n = k
    · subst h
      have : ¬ ((n : ℤ) + n = 0) := by omega
      simp only [sub_self, if_true, this, if_false, Real.cos_zero]; ring
    · rw [if_neg (by omega), if_neg (by omega), if_neg h]; ring
  rw [Finset.sum_congr rfl fun n hn => gen n (Finset.mem_Icc.mp hn).1 (Finset.mem_Icc.mp hn).2]
  rw [Finset.sum_ite_eq' (Finset.Icc 1 N) k, if_pos (Finset.mem_Icc.mpr hk)]

theorem sin_mean (K N : Nat) (hK : 2 * N < K) (c : Nat → ℝ) : ∑ j ∈ Finset.range K, ∑ n ∈ Finset.Icc 1 N, c n * Real.sin (n * (2 * Real.pi * (j / K))) = 0 := by
  rw [Finset.sum_comm]
  apply Finset.sum_eq_zero
  intro n hn
  have hn := Finset.mem_Icc.mp hn
  rw [← Finset.mul_sum]
  have e : ∀ j : Nat, Real.sin (n * (2 * Real.pi * (j / K))) = Real.cos (((n : ℤ) : ℝ) * (2 * Real.pi * (j / K)) + (-(Real.pi / 2))) := by
    intro j; rw [← sub_eq_add_neg, Real.cos_sub_pi_div_two]; push_cast; rfl
  simp only [e]
  rw [sum_cos_small K (by omega) n (by omega) (by omega), if_neg (by omega), mul_zero]

/-! ### The samples -/

theorem Z0H_Icc (h : Hen) (phi : ℝ) : Z0H h phi = ∑ n ∈ Finset.Icc 1 h.nmax, h.Z0 n * Real.sin (h.nfp * n * phi) := by
  rw [Z0H, loop_sum, ← List.sum_toFinset _ (List.nodup_range')]
  apply Finset.sum_congr _ fun _ _ => rfl
  ext k; rw [List.mem_toFinset, List.mem_range'_1, Finset.mem_Icc]; omega

theorem rhoSum_eq (h : Hen) (phi theta : ℝ) :
    rhoSum h phi theta = ∑ m ∈ Finset.range (h.mmax + 1), ∑ n ∈ Finset.Icc (if m = 0 then 1 else -(h.nmax : Int)) h.nmax, coefRho h m n * Real.cos (m * theta + h.nfp * n * phi - alpha h * phi) := by
  rw [rhoSum, loop_sum, sum_rhoModes]
  refine Finset.sum_congr rfl fun m _ => Finset.sum_congr rfl fun n _ => ?_
  simp only [rhoAt, coefRho, rhoAngle]; push_cast; rfl

/-- The mean of a function of `θ` over the grid, for the two functions needed. -/
theorem rho_theta_sum (h : Hen) (h0 : ∀ n, coefRho h 0 n = 0) (K : Nat) (hK : h.mmax < K) (phi : ℝ) : ∑ i ∈ Finset.range K, rhoSum h phi (thetaGrid K i) = 0 := by
  simp only [rhoSum_eq, thetaGrid]
  rw [Finset.sum_comm]
  apply Finset.sum_eq_zero
  intro m hm
  have hm := Finset.mem_range.mp hm
  rw [Finset.sum_comm]
  apply Finset.sum_eq_zero
  intro n _
  rw [← Finset.mul_sum]
  by_cases hz : m = 0
  · subst hz; rw [Nat.cast_zero, h0, zero_mul]
  · have e : ∀ i : Nat, Real.cos (m * (2 * Real.pi * (i / K)) + h.nfp * n * phi - alpha h * phi) = Real.cos (((m : ℤ) : ℝ) * (2 * Real.pi * (i / K)) + (h.nfp * n * phi - alpha h * phi)) := by
      intro i; push_cast; congr 1; ring
    simp only [e]
    rw [sum_cos_small K (by omega) m (by omega) (by omega), if_neg (by omega), mul_zero]

theorem zeta_theta_sum (h : Hen) (K : Nat) (hK : 1 < K) (phi : ℝ) : ∑ i ∈ Finset.range K, zeta h phi (thetaGrid K i) = 0 := by
  simp only [zeta, thetaGrid]
  rw [← Finset.mul_sum]
  have e : ∀ i : Nat, Real.sin (2 * Real.pi * (i / K) - alpha h * phi) = Real.cos (((1 : ℤ) : ℝ) * (2 * Real.pi * (i / K)) + (-(alpha h * phi) - Real.pi / 2)) := by
    intro i; rw [show ((1 : ℤ) : ℝ) * (2 * Real.pi * (i / K)) + (-(alpha h * phi) - Real.pi / 2) = (2 * Real.pi * (i / K) - alpha h * phi) - Real.pi / 2 by push_cast; ring, Real.cos_sub_pi_div_two]
  simp only [e]
  rw [sum_cos_small K (by omega) 1 (by omega) (by omega), if_neg (by omega), mul_zero]

/-- The rotated height whose extrema are sought at each toroidal angle (L415-442). -/
noncomputable def height (h : Hen) (phi theta : ℝ) : ℝ := Zcyl h phi theta * Real.cos (alpha h * phi) - Rcyl h phi theta * Real.sin (alpha h * phi)

theorem height_eq (h : Hen) (phi theta : ℝ) : height h phi theta = Z0H h phi * Real.cos (alpha h * phi) - R0H h phi * Real.sin (alpha h * phi) + bAt h phi * Real.sin (theta - alpha h * phi) := by
  have := Real.sin_sq_add_cos_sq (alpha h * phi)
  simp only [height, Zcyl, Rcyl, zeta]
  linear_combination (bAt h phi * Real.sin (theta - alpha h * phi)) * this

theorem extrema (h : Hen) (phi : ℝ) (hb : 0 ≤ bAt h phi) (lo hi : ℝ) (h1 : IsLeast (Set.range (height h phi)) lo) (h2 : IsGreatest (Set.range (height h phi)) hi) :
    lo = Z0H h phi * Real.cos (alpha h * phi) - R0H h phi * Real.sin (alpha h * phi) - bAt h phi ∧
    hi = Z0H h phi * Real.cos (alpha h * phi) - R0H h phi * Real.sin (alpha h * phi) + bAt h phi := by
  constructor
  · apply h1.unique
    refine ⟨⟨alpha h * phi - Real.pi / 2, ?_⟩, ?_⟩
    · rw [height_eq, show alpha h * phi - Real.pi / 2 - alpha h * phi = -(Real.pi / 2) by ring, Real.sin_neg, Real.sin_pi_div_two]; ring
    · rintro _ ⟨t, rfl⟩
      rw [height_eq]
      nlinarith [Real.neg_one_le_sin (t - alpha h * phi)]
  · apply h2.unique
    refine ⟨⟨alpha h * phi + Real.pi / 2, ?_⟩, ?_⟩
    · rw [height_eq, show alpha h * phi + Real.pi / 2 - alpha h * phi = Real.pi / 2 by ring, Real.sin_pi_div_two]; ring
    · rintro _ ⟨t, rfl⟩
      rw [height_eq]
      nlinarith [Real.sin_le_one (t - alpha h * phi)]

theorem samples_eq (h : Hen) (h0 : ∀ n, coefRho h 0 n = 0) (ntheta nphi : Nat) (ht : h.mmax < ntheta) (ht1 : 1 < ntheta)
    (RH ZH : Nat → Nat → ℝ) (lo hi : Nat → ℝ) (hR : ∀ i j, RH i j = Rcyl h (phiGrid h.nfp nphi j) (thetaGrid ntheta i)) (hZ : ∀ i j, ZH i j = Zcyl h (phiGrid h.nfp nphi j) (thetaGrid ntheta i))
    (hb : ∀ j, 0 ≤ bAt h (phiGrid h.nfp nphi j))
    (hlo : ∀ j, IsLeast (Set.range (height h (phiGrid h.nfp nphi j))) (lo j)) (hhi : ∀ j, IsGreatest (Set.range (height h (phiGrid h.nfp nphi j))) (hi j)) :
    samples h.nfp h.alphaFac ntheta nphi RH ZH lo hi =
      ⟨fun j => R0H h (phiGrid h.nfp nphi j), fun j => Z0H h (phiGrid h.nfp nphi j), fun j => bAt h (phiGrid h.nfp nphi j), fun i j => rhoSum h (phiGrid h.nfp nphi j) (thetaGrid ntheta i)⟩ := by
  have hK : (ntheta : ℝ) ≠ 0 := by have : ntheta ≠ 0 := by omega
                                   exact_mod_cast this
  have aR : ∀ j, mean ntheta (fun i => RH i j) = R0H h (phiGrid h.nfp nphi j) := by
    intro j
    simp only [mean, hR, Rcyl, Finset.sum_add_distrib, Finset.sum_sub_distrib, ← Finset.sum_mul, rho_theta_sum h h0 ntheta ht, zeta_theta_sum h ntheta ht1, Finset.sum_const, Finset.card_range, nsmul_eq_mul]
    field_simp; ring
  have aZ : ∀ j, mean ntheta (fun i => ZH i j) = Z0H h (phiGrid h.nfp nphi j) := by
    intro j
    simp only [mean, hZ, Zcyl, Finset.sum_add_distrib, ← Finset.sum_mul, rho_theta_sum h h0 ntheta ht, zeta_theta_sum h ntheta ht1, Finset.sum_const, Finset.card_range, nsmul_eq_mul]
    field_simp; ring
  have ex := fun j => extrema h _ (hb j) _ _ (hlo j) (hhi j)
  have eα : ∀ j, (0.5 : ℝ) * h.nfp * h.alphaFac * phiGrid h.nfp nphi j = alpha h * phiGrid h.nfp nphi j := fun j => rfl
  have key : ∀ j, mean ntheta (fun i => RH i j) * Real.cos (alpha h * phiGrid h.nfp nphi j) * Real.cos (alpha h * phiGrid h.nfp nphi j) +
      mean ntheta (fun i => ZH i j) * Real.sin (alpha h * phiGrid h.nfp nphi j) * Real.cos (alpha h * phiGrid h.nfp nphi j) -
      0.5 * (hi j + lo j) * Real.sin (alpha h * phiGrid h.nfp nphi j) = R0H h (phiGrid h.nfp nphi j) := by
    intro j
    rw [aR, aZ, (ex j).1, (ex j).2]
    have := Real.sin_sq_add_cos_sq (alpha h * phiGrid h.nfp nphi j)
    linear_combination (R0H h (phiGrid h.nfp nphi j)) * this
  have key2 : ∀ j, mean ntheta (fun i => RH i j) * Real.cos (alpha h * phiGrid h.nfp nphi j) * Real.sin (alpha h * phiGrid h.nfp nphi j) +
      mean ntheta (fun i => ZH i j) * Real.sin (alpha h * phiGrid h.nfp nphi j) * Real.sin (alpha h * phiGrid h.nfp nphi j) +
      0.5 * (hi j + lo j) * Real.cos (alpha h * phiGrid h.nfp nphi j) = Z0H h (phiGrid h.nfp nphi j) := by
    intro j
    rw [aR, aZ, (ex j).1, (ex j).2]
    have := Real.sin_sq_add_cos_sq (alpha h * phiGrid h.nfp nphi j)
    linear_combination (Z0H h (phiGrid h.nfp nphi j)) * this
  simp only [samples, eα, key, key2]
  congr 1
  · funext j
    rw [(ex j).1, (ex j).2]; ring
  · funext i j
    rw [hR, hZ, Rcyl, Zcyl]
    have := Real.sin_sq_add_cos_sq (alpha h * phiGrid h.nfp nphi j)
    linear_combination (rhoSum h (phiGrid h.nfp nphi j) (thetaGrid ntheta i)) * this

/-! ### The transform -/

theorem nfp_phi (h : Hen) (hn : 1 ≤ h.nfp) (nphi j : Nat) : (h.nfp : ℝ) * phiGrid h.nfp nphi j = 2 * Real.pi * (j / nphi) := by
  have : (h.nfp : ℝ) ≠ 0 := by have : h.nfp ≠ 0 := by omega
                               exact_mod_cast this
  rw [phiGrid]; field_simp

theorem cosCoef_eq (h : Hen) (hn : 1 ≤ h.nfp) (nphi : Nat) (f : Nat → ℝ) (n : Nat) :
    cosCoef h.nfp nphi f n = 2 * (∑ j ∈ Finset.range nphi, f j * Real.cos (n * (2 * Real.pi * (j / nphi)))) / nphi := by
  rw [cosCoef, mul_div_assoc, Finset.sum_div]
  congr 1
  refine Finset.sum_congr rfl fun j _ => ?_
  rw [mul_div_assoc, ← nfp_phi h hn, mul_assoc]

theorem sinCoef_eq (h : Hen) (hn : 1 ≤ h.nfp) (nphi : Nat) (f : Nat → ℝ) (n : Nat) :
    sinCoef h.nfp nphi f n = 2 * (∑ j ∈ Finset.range nphi, f j * Real.sin (n * (2 * Real.pi * (j / nphi)))) / nphi := by
  rw [sinCoef, mul_div_assoc, Finset.sum_div]
  congr 1
  refine Finset.sum_congr rfl fun j _ => ?_
  rw [mul_div_assoc, ← nfp_phi h hn, mul_assoc]

theorem rho_transform (h : Hen) (hn : 1 ≤ h.nfp) (h0 : ∀ n, coefRho h 0 n = 0) (ntheta nphi : Nat) (ht : 2 * h.mmax < ntheta) (hp : 2 * h.nmax < nphi) (m n : Int) (hv : validMn h m n = true) :
    rhoCoef h.nfp ntheta nphi (alpha h) (fun i j => rhoSum h (phiGrid h.nfp nphi j) (thetaGrid ntheta i)) m n = coefRho h m n := by
  have hv' := hv
  simp only [validMn, Bool.and_eq_true, Bool.not_eq_true', decide_eq_false_iff_not, Bool.and_eq_false_iff] at hv'
  have hT : 0 < ntheta := by omega
  have hP : 0 < nphi := by omega
  have hα : ∀ j, alpha h * phiGrid h.nfp nphi j * 2 = h.alphaFac * (2 * Real.pi * (j / nphi)) := by
    intro j; rw [← nfp_phi h hn, alpha]; norm_num; ring
  have key : ∀ (a : Nat) (b : Int), a ≤ h.mmax → 1 ≤ a → -(h.nmax : Int) ≤ b → b ≤ h.nmax →
      ∑ i ∈ Finset.range ntheta, ∑ j ∈ Finset.range nphi, Real.cos (a * thetaGrid ntheta i + h.nfp * b * phiGrid h.nfp nphi j - alpha h * phiGrid h.nfp nphi j) *
        Real.cos (m * thetaGrid ntheta i + (n * h.nfp - alpha h) * phiGrid h.nfp nphi j) = if (a : Int) = m ∧ b = n then (ntheta : ℝ) * nphi / 2 else 0 := by
    intro a b ha ha1 hb1 hb2
    have e : ∀ i j : Nat, Real.cos (a * thetaGrid ntheta i + h.nfp * b * phiGrid h.nfp nphi j - alpha h * phiGrid h.nfp nphi j) *
        Real.cos (m * thetaGrid ntheta i + (n * h.nfp - alpha h) * phiGrid h.nfp nphi j) =
        Real.cos (((a - m : ℤ) : ℝ) * (2 * Real.pi * (i / ntheta)) + ((b - n : ℤ) : ℝ) * (2 * Real.pi * (j / nphi)) + 0) / 2 +
        Real.cos (((a + m : ℤ) : ℝ) * (2 * Real.pi * (i / ntheta)) + ((b + n - h.alphaFac : ℤ) : ℝ) * (2 * Real.pi * (j / nphi)) + 0) / 2 := by
      intro i j
      rw [cc, add_div]
      congr 3
      · rw [thetaGrid, ← nfp_phi h hn nphi j]; push_cast; ring
      · push_cast
        rw [thetaGrid, add_zero, sub_mul (_ : ℝ) (h.alphaFac : ℝ), ← hα, ← nfp_phi h hn nphi j]; ring
    simp only [e, Finset.sum_add_distrib, ← Finset.sum_div]
    rw [Trig.sum_cos_grid _ _ hT hP, Trig.sum_cos_grid _ _ hT hP]
    have d1 : (ntheta : ℤ) ∣ (a - m) ↔ (a : ℤ) - m = 0 := dvd_small _ _ (by omega) (by omega)
    have d2 : (nphi : ℤ) ∣ (b - n) ↔ b - n = 0 := dvd_small _ _ (by omega) (by omega)
    have d3 : ¬ (ntheta : ℤ) ∣ (a + m) := by rw [dvd_small _ _ (by omega) (by omega)]; omega
    rw [if_neg (show ¬((ntheta : ℤ) ∣ (a + m) ∧ _) from fun hh => d3 hh.1), zero_div, add_zero]
    by_cases hc : (a : Int) = m ∧ b = n
    · rw [if_pos hc, if_pos ⟨d1.mpr (by omega), d2.mpr (by omega)⟩, Real.cos_zero, mul_one]
    · rw [if_neg hc, if_neg (fun hh => hc ⟨by have := d1.mp hh.1; omega, by have := d2.mp hh.2; omega⟩), zero_div]
  have hs : ∑ i ∈ Finset.range ntheta, ∑ j ∈ Finset.range nphi, rhoSum h (phiGrid h.nfp nphi j) (thetaGrid ntheta i) * Real.cos (m * thetaGrid ntheta i + (n * h.nfp - alpha h) * phiGrid h.nfp nphi j) =
      ∑ a ∈ Finset.range (h.mmax + 1), ∑ b ∈ Finset.Icc (if a = 0 then 1 else -(h.nmax : Int)) h.nmax, coefRho h a b * if (a : Int) = m ∧ b = n then (ntheta : ℝ) * nphi / 2 else 0 := by
    simp only [rhoSum_eq, Finset.sum_mul]
    have c1 : ∀ i : Nat, (∑ j ∈ Finset.range nphi, ∑ a ∈ Finset.range (h.mmax + 1), ∑ b ∈ Finset.Icc (if a = 0 then 1 else -(h.nmax : Int)) h.nmax,
        coefRho h a b * Real.cos (a * thetaGrid ntheta i + h.nfp * b * phiGrid h.nfp nphi j - alpha h * phiGrid h.nfp nphi j) * Real.cos (m * thetaGrid ntheta i + (n * h.nfp - alpha h) * phiGrid h.nfp nphi j)) =
        ∑ a ∈ Finset.range (h.mmax + 1), ∑ b ∈ Finset.Icc (if a = 0 then 1 else -(h.nmax : Int)) h.nmax, ∑ j ∈ Finset.range nphi,
        coefRho h a b * Real.cos (a * thetaGrid ntheta i + h.nfp * b * phiGrid h.nfp nphi j - alpha h * phiGrid h.nfp nphi j) * Real.cos (m * thetaGrid ntheta i + (n * h.nfp - alpha h) * phiGrid h.nfp nphi j) := by
      intro i
      rw [Finset.sum_comm]
      exact Finset.sum_congr rfl fun a _ => Finset.sum_comm
    simp only [c1]
    rw [Finset.sum_comm]
    refine Finset.sum_congr rfl fun a ha => ?_
    rw [Finset.sum_comm]
    refine Finset.sum_congr rfl fun b hb => ?_
    have ha := Finset.mem_range.mp ha
    have hb := Finset.mem_Icc.mp hb
    by_cases hz : a = 0
    · subst hz
      simp only [Nat.cast_zero, h0, zero_mul, Finset.sum_const_zero]
    · rw [if_neg hz] at hb
      rw [← key a b (by omega) (by omega) hb.1 hb.2, Finset.mul_sum]
      refine Finset.sum_congr rfl fun i _ => ?_
      rw [Finset.mul_sum]
      exact Finset.sum_congr rfl fun j _ => by ring
  rw [rhoCoef, hs]
  have hTR : (ntheta : ℝ) ≠ 0 := by exact_mod_cast hT.ne'
  have hPR : (nphi : ℝ) ≠ 0 := by exact_mod_cast hP.ne'
  obtain ⟨M, rfl⟩ := Int.eq_ofNat_of_zero_le (show 0 ≤ m by omega)
  rw [Finset.sum_eq_single M, Finset.sum_eq_single n]
  · simp only [and_self, if_true]; field_simp
  · intro b _ hb; rw [if_neg (fun hh => hb hh.2), mul_zero]
  · intro hh
    exfalso; apply hh
    rw [Finset.mem_Icc]
    split <;> omega
  · intro a _ ha
    apply Finset.sum_eq_zero
    intro b _
    rw [if_neg (fun hh => ha (by omega)), mul_zero]
  · intro hh; exact absurd (Finset.mem_range.mpr (by omega)) hh

/-- The same surface coefficients: parameters, `R0nH`, `Z0nH`, `bn`, `rhomn`. -/
def SameCoefs (h h' : Hen) : Prop :=
  h'.nfp = h.nfp ∧ h'.alphaFac = h.alphaFac ∧ h'.mmax = h.mmax ∧ h'.nmax = h.nmax ∧ (∀ n ≤ h.nmax, h'.R0 n = h.R0 n ∧ h'.b n = h.b n) ∧ (∀ n, 1 ≤ n → n ≤ h.nmax → h'.Z0 n = h.Z0 n) ∧
    ∀ m n, getRho h' m n = getRho h m n

/-- **C142.** `from_RZFourier` of (the exact samples of) a surface that is a Henneberg surface `h` without `ρ(0,n)` recovers all coefficients of `h`, if the grid resolves products
of two modes.  The minimiser and the interpolation are assumed to be exact: `RH`, `ZH` are the coordinates at the grid points in Henneberg's poloidal angle and `lo`, `hi` the extrema of
the rotated height.  Missing from the full property: the accuracy of these two numerical steps. -/
theorem C142_from_RZFourier (h : Hen) (hk : Ok h) (h0 : ∀ n, coefRho h 0 n = 0) (ntheta nphi : Nat) (ht : 2 * h.mmax < ntheta) (hp : 2 * h.nmax < nphi)
    (RH ZH : Nat → Nat → ℝ) (lo hi : Nat → ℝ) (hR : ∀ i j, RH i j = Rcyl h (phiGrid h.nfp nphi j) (thetaGrid ntheta i)) (hZ : ∀ i j, ZH i j = Zcyl h (phiGrid h.nfp nphi j) (thetaGrid ntheta i))
    (hb : ∀ j, 0 ≤ bAt h (phiGrid h.nfp nphi j))
    (hlo : ∀ j, IsLeast (Set.range (height h (phiGrid h.nfp nphi j))) (lo j)) (hhi : ∀ j, IsGreatest (Set.range (height h (phiGrid h.nfp nphi j))) (hi j)) :
    ∃ h', fromSamples h.nfp h.alphaFac h.mmax h.nmax ntheta nphi RH ZH lo hi = some h' ∧ SameCoefs h h' := by
  obtain ⟨hn, _, hm⟩ := hk
  have hd := samples_eq h h0 ntheta nphi (by omega) (by omega) RH ZH lo hi hR hZ hb hlo hhi
  have hPR : (nphi : ℝ) ≠ 0 := by have : nphi ≠ 0 := by omega
                                  exact_mod_cast this
  have eR : ∀ j, R0H h (phiGrid h.nfp nphi j) = ∑ n ∈ Finset.range (h.nmax + 1), h.R0 n * Real.cos (n * (2 * Real.pi * (j / nphi))) := by
    intro j; rw [R0H, loop_range]
    refine Finset.sum_congr rfl fun n _ => ?_
    rw [← nfp_phi h hn, show (h.nfp : ℝ) * n * phiGrid h.nfp nphi j = n * (h.nfp * phiGrid h.nfp nphi j) by ring]
  have eb : ∀ j, bAt h (phiGrid h.nfp nphi j) = ∑ n ∈ Finset.range (h.nmax + 1), h.b n * Real.cos (n * (2 * Real.pi * (j / nphi))) := by
    intro j; rw [bAt, loop_range]
    refine Finset.sum_congr rfl fun n _ => ?_
    rw [← nfp_phi h hn, show (h.nfp : ℝ) * n * phiGrid h.nfp nphi j = n * (h.nfp * phiGrid h.nfp nphi j) by ring]
  have eZ : ∀ j, Z0H h (phiGrid h.nfp nphi j) = ∑ n ∈ Finset.Icc 1 h.nmax, h.Z0 n * Real.sin (n * (2 * Real.pi * (j / nphi))) := by
    intro j; rw [Z0H_Icc]
    refine Finset.sum_congr rfl fun n _ => ?_
    rw [← nfp_phi h hn, show (h.nfp : ℝ) * n * phiGrid h.nfp nphi j = n * (h.nfp * phiGrid h.nfp nphi j) by ring]
  have cosC : ∀ (c : Nat → ℝ) (k : Nat), k ≤ h.nmax → (if k = 0 then mean nphi (fun (j : Nat) => ∑ n ∈ Finset.range (h.nmax + 1), c n * Real.cos (n * (2 * Real.pi * (j / nphi))))
      else cosCoef h.nfp nphi (fun (j : Nat) => ∑ n ∈ Finset.range (h.nmax + 1), c n * Real.cos (n * (2 * Real.pi * (j / nphi)))) k) = c k := by
    intro c k hk
    have hs := cos_series nphi h.nmax hp c k hk
    by_cases hk0 : k = 0
    · subst hk0
      simp only [if_true, Nat.cast_zero, zero_mul, Real.cos_zero, mul_one] at hs ⊢
      rw [mean, hs]; field_simp
    · rw [if_neg hk0] at hs ⊢
      rw [cosCoef_eq h hn]
      rw [hs]; field_simp
  have mZ : mean nphi (fun j => Z0H h (phiGrid h.nfp nphi j)) = 0 := by simp only [eZ, mean]; rw [sin_mean nphi h.nmax hp]; simp
  have mr : ∑ i ∈ Finset.range ntheta, ∑ j ∈ Finset.range nphi, rhoSum h (phiGrid h.nfp nphi j) (thetaGrid ntheta i) = 0 := by
    rw [Finset.sum_comm]
    exact Finset.sum_eq_zero fun j _ => rho_theta_sum h h0 ntheta (by omega) _
  refine ⟨_, if_pos ⟨by omega, by omega, by rw [hd, mZ]; norm_num, by rw [hd, mr]; norm_num⟩, rfl, rfl, rfl, rfl, fun n hnn => ⟨?_, ?_⟩, fun n h1 h2 => ?_, fun m n => ?_⟩
  · simp only [transform, hd, eR]; exact cosC h.R0 n hnn
  · simp only [transform, hd, eb]; exact cosC h.b n hnn
  · simp only [transform, hd, eZ]
    rw [if_neg (by omega)]
    rw [sinCoef_eq h hn]
    rw [sin_series nphi h.nmax hp h.Z0 n ⟨h1, h2⟩]; field_simp
  · by_cases hv : validMn h m n = true
    · have hv2 : ∀ d, validMn (transform h.nfp h.alphaFac h.mmax h.nmax ntheta nphi d) m n = true := fun d => hv
      rw [getRho, getRho, if_pos hv, if_pos (hv2 _), Option.some.injEq, ← coefRho_eq h m n hv, ← rho_transform h hn h0 ntheta nphi ht hp m n hv]
      have hv' := hv
      simp only [validMn, Bool.and_eq_true, Bool.not_eq_true', decide_eq_false_iff_not, Bool.and_eq_false_iff] at hv'
      simp only [transform, hd]
      have c : ¬(m.toNat = 0 ∧ (n + (h.nmax : Int)).toNat < h.nmax + 1) := by omega
      rw [if_neg c]
      have a1 : ((m.toNat : Nat) : Int) = m := by omega
      have a2 : (((n + (h.nmax : Int)).toNat : Nat) : Int) - h.nmax = n := by omega
      rw [a1, a2]; rfl
    · have hv2 : ∀ d, ¬ validMn (transform h.nfp h.alphaFac h.mmax h.nmax ntheta nphi d) m n = true := fun d => hv
      rw [getRho, getRho, if_neg hv, if_neg (hv2 _)]

/-- Surfaces with the same coefficients have the same position at every quadrature point. -/
theorem C142_coefficients (h h' : Hen) (hs : SameCoefs h h') (p q : ℝ) : gamma h' p q = gamma h p q := by
  obtain ⟨h1, h2, h3, h4, h5, h6, h7⟩ := hs
  rw [C142_gamma, C142_gamma]
  have e : docRZ h' (coefRho h') (fun m n => m * (2 * Real.pi * q) + h'.nfp * n * (2 * Real.pi * p) - h'.alphaFac * h'.nfp / 2 * (2 * Real.pi * p)) (h'.alphaFac * h'.nfp / 2) (2 * Real.pi * p) (2 * Real.pi * q) =
      docRZ h (coefRho h) (fun m n => m * (2 * Real.pi * q) + h.nfp * n * (2 * Real.pi * p) - h.alphaFac * h.nfp / 2 * (2 * Real.pi * p)) (h.alphaFac * h.nfp / 2) (2 * Real.pi * p) (2 * Real.pi * q) := by
    have c : coefRho h' = coefRho h := by funext m n; rw [coefRho, coefRho, h7]
    have a1 : ∑ n ∈ Finset.range (h.nmax + 1), h'.R0 n * Real.cos (h.nfp * n * (2 * Real.pi * p)) = ∑ n ∈ Finset.range (h.nmax + 1), h.R0 n * Real.cos (h.nfp * n * (2 * Real.pi * p)) :=
      Finset.sum_congr rfl fun n hn => by rw [(h5 n (by have := Finset.mem_range.mp hn; omega)).1]
    have a2 : ∀ α, ∑ n ∈ Finset.range (h.nmax + 1), h'.b n * Real.cos (h.nfp * n * (2 * Real.pi * p)) * Real.sin (2 * Real.pi * q - α * (2 * Real.pi * p)) =
        ∑ n ∈ Finset.range (h.nmax + 1), h.b n * Real.cos (h.nfp * n * (2 * Real.pi * p)) * Real.sin (2 * Real.pi * q - α * (2 * Real.pi * p)) :=
      fun α => Finset.sum_congr rfl fun n hn => by rw [(h5 n (by have := Finset.mem_range.mp hn; omega)).2]
    have a3 : ∑ n ∈ Finset.Icc 1 h.nmax, h'.Z0 n * Real.sin (h.nfp * n * (2 * Real.pi * p)) = ∑ n ∈ Finset.Icc 1 h.nmax, h.Z0 n * Real.sin (h.nfp * n * (2 * Real.pi * p)) :=
      Finset.sum_congr rfl fun n hn => by rw [h6 n (Finset.mem_Icc.mp hn).1 (Finset.mem_Icc.mp hn).2]
    simp only [docRZ, rhoSeries, h1, h2, h3, h4, c, a1, a2, a3]
  simp only [e]

/-- **C142.** The default grid resolves products of two modes if `nmax ≥ 1`. -/
theorem C142_default_grid (mmax nmax : Nat) (hm : 1 ≤ mmax) (hn : 1 ≤ nmax) : 2 * mmax < (defaultGrid mmax nmax).1 ∧ 2 * nmax < (defaultGrid mmax nmax).2 := by
  simp only [defaultGrid]; omega

/-- **C142, violated.** With the default grid and `nmax = 0` (an axisymmetric surface), `from_RZFourier` raises for every surface: the toroidal grid is empty. -/
theorem C142_axisymmetric_violated (nfp : Nat) (alphaFac : Int) (mmax : Nat) (RH ZH : Nat → Nat → ℝ) (lo hi : Nat → ℝ) :
    fromSamples nfp alphaFac mmax 0 (defaultGrid mmax 0).1 (defaultGrid mmax 0).2 RH ZH lo hi = none := by
  simp [fromSamples, defaultGrid]

/-- The hypotheses of `C142_from_RZFourier` hold for the surface of a new object, at every resolution. -/
example (nmax : Nat) (hn : 1 ≤ nmax) : ∃ (h : Hen) (RH ZH : Nat → Nat → ℝ) (lo hi : Nat → ℝ), construct 3 1 2 nmax = some h ∧ Ok h ∧ (∀ n, coefRho h 0 n = 0) ∧ getRho h 1 0 = some 0.1 ∧
    (∀ i j, RH i j = Rcyl h (phiGrid h.nfp (nmax * 3) j) (thetaGrid 6 i)) ∧ (∀ i j, ZH i j = Zcyl h (phiGrid h.nfp (nmax * 3) j) (thetaGrid 6 i)) ∧ (∀ j, 0 ≤ bAt h (phiGrid h.nfp (nmax * 3) j)) ∧
    (∀ j, IsLeast (Set.range (height h (phiGrid h.nfp (nmax * 3) j))) (lo j)) ∧ (∀ j, IsGreatest (Set.range (height h (phiGrid h.nfp (nmax * 3) j))) (hi j)) := by
  let h : Hen := ⟨3, 1, 2, nmax, fun n => if n = 0 then 1 else 0, fun _ => 0, fun n => if n = 0 then 0.1 else 0, fun a i => if a = (1 : Int).toNat ∧ i = ((0 : Int) + nmax).toNat then 0.1 else 0⟩
  have hb : ∀ phi, bAt h phi = 0.1 := by
    intro phi
    rw [bAt, loop_range, Finset.sum_eq_single 0]
    · simp [h]
    · intro n _ hne; simp [h, hne]
    · intro hh; exact absurd (Finset.mem_range.mpr (by omega)) hh
  refine ⟨h, _, _, fun j => Z0H h (phiGrid h.nfp (nmax * 3) j) * Real.cos (alpha h * phiGrid h.nfp (nmax * 3) j) - R0H h (phiGrid h.nfp (nmax * 3) j) * Real.sin (alpha h * phiGrid h.nfp (nmax * 3) j) - 0.1,
    fun j => Z0H h (phiGrid h.nfp (nmax * 3) j) * Real.cos (alpha h * phiGrid h.nfp (nmax * 3) j) - R0H h (phiGrid h.nfp (nmax * 3) j) * Real.sin (alpha h * phiGrid h.nfp (nmax * 3) j) + 0.1,
    ?_, ⟨by simp [h], by simp [h], by simp [h]⟩, ?_, ?_, fun i j => rfl, fun i j => rfl, fun j => by rw [hb]; norm_num, fun j => ⟨⟨alpha h * phiGrid h.nfp (nmax * 3) j - Real.pi / 2, ?_⟩, ?_⟩,
    fun j => ⟨⟨alpha h * phiGrid h.nfp (nmax * 3) j + Real.pi / 2, ?_⟩, ?_⟩⟩
  · rw [construct, if_pos (by simp), setRho, if_pos (by simp [validMn])]
  · intro n
    simp only [coefRho, getRho]
    split <;> simp [h]
  · rw [getRho, if_pos (by simp [validMn, h])]; simp [h]
  · rw [height_eq, hb, show ∀ x : ℝ, x - Real.pi / 2 - x = -(Real.pi / 2) by intro x; ring, Real.sin_neg, Real.sin_pi_div_two]; ring
  · rintro _ ⟨t, rfl⟩
    rw [height_eq, hb]
    nlinarith [Real.neg_one_le_sin (t - alpha h * phiGrid h.nfp (nmax * 3) j)]
  · rw [height_eq, hb, show ∀ x : ℝ, x + Real.pi / 2 - x = Real.pi / 2 by intro x; ring, Real.sin_pi_div_two]; ring
  · rintro _ ⟨t, rfl⟩
    rw [height_eq, hb]
    nlinarith [Real.sin_le_one (t - alpha h * phiGrid h.nfp (nmax * 3) j)]

/-! ### Disagreements -/

/-- A surface with `nfp = 1`, `alpha_fac = 0`, `mmax = nmax = 1` and one non-zero coefficient `ρ(m,n) = 1`. -/
noncomputable def single (a b : Nat) : Hen := ⟨1, 0, 1, 1, fun _ => 0, fun _ => 0, fun _ => 0, fun m i => if m = a ∧ i = b then 1 else 0⟩

/-- **C142, violated.** The documentation has the angle `m θ - nfp n φ - α φ` in `ρ`; the position computed by the code differs from it. -/
theorem C142_documentation_violated : ∃ (h : Hen) (p q : ℝ), Ok h ∧
    let RZ := docRZ h (coefRho h) (fun m n => m * (2 * Real.pi * q) - h.nfp * n * (2 * Real.pi * p) - h.alphaFac * h.nfp / 2 * (2 * Real.pi * p)) (h.alphaFac * h.nfp / 2) (2 * Real.pi * p) (2 * Real.pi * q)
    gamma h p q ≠ (RZ.1 * Real.cos (2 * Real.pi * p), RZ.1 * Real.sin (2 * Real.pi * p), RZ.2) := by
  refine ⟨single 1 2, 1 / 4, 1 / 4, ⟨by simp [single], by simp [single], by simp [single]⟩, ?_⟩
  rw [C142_gamma]
  have e : 2 * Real.pi * (1 / 4 : ℝ) = Real.pi / 2 := by ring
  have hI1 : (Finset.Icc (1 : ℤ) 1) = {1} := rfl
  have hI2 : (Finset.Icc (-1 : ℤ) 1) = {-1, 0, 1} := rfl
  intro RZ hh
  have := (Prod.mk.inj (Prod.mk.inj hh).2).1
  simp only [RZ, docRZ, rhoSeries, e] at this
  simp [single, coefRho, getRho, validMn, Finset.sum_range_succ, hI1, hI2, e] at this
  norm_num at this
theorem add_coef (h : Hen) (r : Surf) (hr : Has h r) (k : Kind) (hk : k = .rc ∨ k = .zs) (m n : Int) (x : ℝ) (h0 : 0 ≤ m) (hm : m ≤ h.mmax) (h1 : -((h.nmax : Int) + 1) ≤ n) (h2 : n ≤ h.nmax + 1) :
    ∃ r', add k r m n x = some r' ∧ Has h r' ∧ ∀ k' (m' : Nat) (n' : Int), coef r' k' m' n' = if k' = k ∧ (m' : Int) = m ∧ n' = n then coef r k m.toNat n + x else coef r k' m' n' := by
  obtain ⟨M, rfl⟩ := Int.eq_ofNat_of_zero_le h0
  obtain ⟨p1, p2, p3, p4⟩ := hr
  have hn : (r.ntor : Int) = h.nmax + 1 := by rw [p2]; push_cast; rfl
  have hav : available r k = true := by rcases hk with rfl | rfl <;> rfl
  have hg := Garab.getCoef_some r k M n hav h0 (by rw [p1]; exact hm) (by rw [hn]; exact h1) (by rw [hn]; exact h2)
  rw [Int.toNat_natCast] at hg
  obtain ⟨t, et, ⟨q1, q2, q3, q4⟩, ct⟩ := Garab.setCoef_some r k M n (coef r k M n + x) hav (by rw [p1]; exact_mod_cast hm) (by rw [hn]; exact h1) (by rw [hn]; exact h2)
  refine ⟨t, by simp only [add, hg, bind, Option.bind]; exact et, ⟨by rw [q1, p1], by rw [q2, p2], by rw [q3, p3], by rw [q4, p4]⟩, fun k' m' n' => ?_⟩
  rw [ct]
  simp [and_assoc]

/-- All coefficients but those of the mode `(0,-1)` vanish. -/
def OnlyHidden (h : Hen) (r : Surf) : Prop := Has h r ∧ ∀ k (m : Nat) (n : Int), ¬(m = 0 ∧ n = -1) → coef r k m n = 0

theorem hidden_add (h : Hen) (r : Surf) (hr : OnlyHidden h r) (k : Kind) (hk : k = .rc ∨ k = .zs) (m n : Int) (x : ℝ) (h0 : 0 ≤ m) (hm : m ≤ h.mmax) (h1 : -((h.nmax : Int) + 1) ≤ n) (h2 : n ≤ h.nmax + 1)
    (hx : x = 0 ∨ (m = 0 ∧ n = -1)) : ∃ r', add k r m n x = some r' ∧ OnlyHidden h r' := by
  obtain ⟨r', e, hh, hc⟩ := add_coef h r hr.1 k hk m n x h0 hm h1 h2
  refine ⟨r', e, hh, fun k' m' n' hne => ?_⟩
  rw [hc]
  split
  · rename_i h'
    rcases hx with rfl | hx
    · rw [hr.2 _ _ _ (by omega)]; ring
    · exact absurd ⟨by omega, by omega⟩ hne
  · exact hr.2 _ _ _ hne

theorem hidden_fold {ι : Type} (h : Hen) (l : List ι) (st : Surf → ι → Option Surf) (hst : ∀ r i, i ∈ l → OnlyHidden h r → ∃ r', st r i = some r' ∧ OnlyHidden h r') (r : Surf) (hr : OnlyHidden h r) :
    ∃ r', l.foldlM st r = some r' ∧ OnlyHidden h r' := by
  induction l generalizing r with
  | nil => exact ⟨r, rfl, hr⟩
  | cons i l ih =>
    obtain ⟨r1, e1, h1⟩ := hst r i (List.mem_cons_self ..) hr
    obtain ⟨r2, e2, h2⟩ := ih (fun r j hj => hst r j (List.mem_cons_of_mem _ hj)) r1 h1
    exact ⟨r2, by rw [List.foldlM_cons, e1]; exact e2, h2⟩

theorem hidden_toRZ (h : Hen) (ha : h.alphaFac = 0) (hm : 1 ≤ h.mmax) (hz : ∀ n, h.R0 n = 0 ∧ h.Z0 n = 0 ∧ h.b n = 0)
    (hr : ∀ m n, validMn h m n = true → coefRho h m n = 0 ∨ (m = 0 ∧ n = 1)) : ∃ r, toRZ h = some r ∧ OnlyHidden h r := by
  have hc : RZSurf.construct h.mmax (h.nmax + 1) h.nfp true = some (create h.mmax (h.nmax + 1) h.nfp true) := by simp [RZSurf.construct, hm]
  let r0 : Surf := { create h.mmax (h.nmax + 1) h.nfp true with rc := fun _ => 0, zs := fun _ => 0 }
  have g0 : OnlyHidden h r0 := by
    refine ⟨⟨rfl, rfl, rfl, rfl⟩, fun k m n _ => ?_⟩
    have av : available r0 .rs = false ∧ available r0 .zc = false := ⟨rfl, rfl⟩
    cases k <;> simp only [coef, getCoef, av.1, av.2, Bool.false_and, Bool.false_eq_true, if_false, Option.getD_none] <;> split <;> simp [Surf.at, Surf.buf, r0]
  obtain ⟨r1, e1, g1⟩ := hidden_fold h (List.range (h.nmax + 1)) (stepR1 h) (by
    intro r n hn hr
    have hn := List.mem_range.mp hn
    obtain ⟨a1, b1, hr⟩ := hidden_add h r hr .rc (.inl rfl) 0 n (h.R0 n) (by omega) (by omega) (by omega) (by omega) (.inl (hz n).1)
    obtain ⟨a2, b2, hr⟩ := hidden_add h a1 hr .rc (.inl rfl) 1 n (0.25 * h.b n) (by omega) (by omega) (by omega) (by omega) (.inl (by rw [(hz n).2.2]; ring))
    obtain ⟨a3, b3, hr⟩ := hidden_add h a2 hr .rc (.inl rfl) 1 (-n) (0.25 * h.b n) (by omega) (by omega) (by omega) (by omega) (.inl (by rw [(hz n).2.2]; ring))
    obtain ⟨a4, b4, hr⟩ := hidden_add h a3 hr .rc (.inl rfl) 1 (n + h.alphaFac) (-(0.25 * h.b n)) (by omega) (by omega) (by omega) (by omega) (.inl (by rw [(hz n).2.2]; ring))
    obtain ⟨a5, b5, hr⟩ := hidden_add h a4 hr .rc (.inl rfl) 1 (-n + h.alphaFac) (-(0.25 * h.b n)) (by omega) (by omega) (by omega) (by omega) (.inl (by rw [(hz n).2.2]; ring))
    exact ⟨a5, by simp only [stepR1, b1, b2, b3, b4, b5, bind, Option.bind], hr⟩) r0 g0
  have hmode : ∀ mn ∈ rhoModes h, validMn h mn.1 mn.2 = true ∧ 0 ≤ mn.1 ∧ mn.1 ≤ h.mmax ∧ -(h.nmax : Int) ≤ mn.2 ∧ mn.2 ≤ h.nmax := fun mn hm => ⟨(mem_rhoModes h mn.1 mn.2).mp hm, rhoModes_nonneg h mn hm⟩
  have hget : ∀ mn ∈ rhoModes h, getRho h mn.1 mn.2 = some (coefRho h mn.1 mn.2) := by
    intro mn hmn; have := (hmode mn hmn).1; simp [coefRho, getRho, this]
  obtain ⟨r2, e2, g2⟩ := hidden_fold h (rhoModes h) (stepR2 h) (by
    intro r mn hmn hr'
    obtain ⟨v, i1, i2, i3, i4⟩ := hmode mn hmn
    have hx := hr _ _ v
    obtain ⟨a1, b1, hr'⟩ := hidden_add h r hr' .rc (.inl rfl) mn.1 (-mn.2) (0.5 * coefRho h mn.1 mn.2) i1 i2 (by omega) (by omega) (hx.imp (fun e => by rw [e]; ring) (fun e => ⟨e.1, by omega⟩))
    obtain ⟨a2, b2, hr'⟩ := hidden_add h a1 hr' .rc (.inl rfl) mn.1 (-mn.2 + h.alphaFac) (0.5 * coefRho h mn.1 mn.2) i1 i2 (by omega) (by omega) (hx.imp (fun e => by rw [e]; ring) (fun e => ⟨e.1, by omega⟩))
    exact ⟨a2, by simp only [stepR2, hget mn hmn, b1, b2, bind, Option.bind], hr'⟩) r1 g1
  obtain ⟨r3, e3, g3⟩ := hidden_fold h (List.range (h.nmax + 1)) (stepZ1 h) (by
    intro r n hn hr
    have hn := List.mem_range.mp hn
    obtain ⟨a1, b1, hr⟩ := hidden_add h r hr .zs (.inr rfl) 0 n (-h.Z0 n) (by omega) (by omega) (by omega) (by omega) (.inl (by rw [(hz n).2.1]; ring))
    obtain ⟨a2, b2, hr⟩ := hidden_add h a1 hr .zs (.inr rfl) 1 n (0.25 * h.b n) (by omega) (by omega) (by omega) (by omega) (.inl (by rw [(hz n).2.2]; ring))
    obtain ⟨a3, b3, hr⟩ := hidden_add h a2 hr .zs (.inr rfl) 1 (-n) (0.25 * h.b n) (by omega) (by omega) (by omega) (by omega) (.inl (by rw [(hz n).2.2]; ring))
    obtain ⟨a4, b4, hr⟩ := hidden_add h a3 hr .zs (.inr rfl) 1 (n + h.alphaFac) (0.25 * h.b n) (by omega) (by omega) (by omega) (by omega) (.inl (by rw [(hz n).2.2]; ring))
    obtain ⟨a5, b5, hr⟩ := hidden_add h a4 hr .zs (.inr rfl) 1 (-n + h.alphaFac) (0.25 * h.b n) (by omega) (by omega) (by omega) (by omega) (.inl (by rw [(hz n).2.2]; ring))
    exact ⟨a5, by simp only [stepZ1, b1, b2, b3, b4, b5, bind, Option.bind], hr⟩) r2 g2
  obtain ⟨r4, e4, g4⟩ := hidden_fold h (rhoModes h) (stepZ2 h) (by
    intro r mn hmn hr'
    obtain ⟨v, i1, i2, i3, i4⟩ := hmode mn hmn
    have hx := hr _ _ v
    obtain ⟨a1, b1, hr'⟩ := hidden_add h r hr' .zs (.inr rfl) mn.1 (-mn.2) (0.5 * coefRho h mn.1 mn.2) i1 i2 (by omega) (by omega) (hx.imp (fun e => by rw [e]; ring) (fun e => ⟨e.1, by omega⟩))
    obtain ⟨a2, b2, hr'⟩ := hidden_add h a1 hr' .zs (.inr rfl) mn.1 (-mn.2 + h.alphaFac) (-(0.5 * coefRho h mn.1 mn.2)) i1 i2 (by omega) (by omega) (hx.imp (fun e => by rw [e]; ring) (fun e => ⟨e.1, by omega⟩))
    exact ⟨a2, by simp only [stepZ2, hget mn hmn, b1, b2, bind, Option.bind], hr'⟩) r3 g3
  exact ⟨r4, by simp only [toRZ, hc, bind, Option.bind]; rw [show (List.range (h.nmax + 1)).foldlM (stepR1 h) _ = some r1 from e1]; simp only [e2, e3]; exact e4, g4⟩

theorem hidden_dofs (h : Hen) (r : Surf) (hr : OnlyHidden h r) : RZSurf.getDofs r = List.replicate (RZSurf.getDofs r).length 0 := by
  rw [List.eq_replicate_iff]
  refine ⟨rfl, fun x hx => ?_⟩
  rw [getDofs_layout] at hx
  obtain ⟨⟨k, j⟩, hm, rfl⟩ := List.mem_map.mp hx
  obtain ⟨hav, hlo, hsz⟩ := (mem_layout r k j).mp hm
  have hsz' : j / r.width < r.mpol + 1 := Nat.div_lt_of_lt_mul (by rw [Nat.mul_comm]; exact hsz)
  have hw : j % r.width < r.width := Nat.mod_lt _ r.width_pos
  have hc := coef_at r k (j / r.width) (j % r.width) hsz' hw
  rw [hav, if_pos rfl] at hc
  have hb : r.buf k j = r.at k (j / r.width) (j % r.width) := by
    simp only [Surf.at]; congr 1; rw [Nat.mul_comm]; exact (Nat.div_add_mod j r.width).symm
  simp only [hb, ← hc]
  apply hr.2
  rintro ⟨a1, a2⟩
  have hj : j < r.width := by
    by_contra hge
    have : 1 ≤ j / r.width := Nat.div_pos (by omega) r.width_pos
    omega
  rw [Nat.mod_eq_of_lt hj] at a2
  have : r.ntor ≤ r.lo (decide (k = .rc ∨ k = .zc)) := by unfold Surf.lo; split <;> omega
  omega

/-- **C142, violated.** `to_RZFourier()` stores `ρ(0,n)` in coefficients `rc(0,-n)`, `zs(0,-n)` that are not dofs of `SurfaceRZFourier`: two Henneberg surfaces of different shape
are converted to surfaces with the same parameters and the same dof vector (all zero), of different shape. -/
theorem C142_hidden_modes_violated : ∃ (h1 h2 : Hen) (r1 r2 : Surf), Ok h1 ∧ Ok h2 ∧ toRZ h1 = some r1 ∧ toRZ h2 = some r2 ∧
    (r1.mpol, r1.ntor, r1.nfp, r1.stellsym) = (r2.mpol, r2.ntor, r2.nfp, r2.stellsym) ∧ RZSurf.getDofs r1 = RZSurf.getDofs r2 ∧
    ∀ junk, RZSurf.gamma r1 junk 0 0 = (1, 0, 0) ∧ RZSurf.gamma r2 junk 0 0 = (0, 0, 0) := by
  have hI1 : (Finset.Icc (1 : ℤ) 1) = {1} := rfl
  have hI2 : (Finset.Icc (-1 : ℤ) 1) = {-1, 0, 1} := rfl
  have ok : ∀ a b, Ok (single a b) := fun a b => ⟨by simp [single], by simp [single], by simp [single]⟩
  obtain ⟨r1, e1, g1⟩ := hidden_toRZ (single 0 2) rfl (by simp [single]) (fun n => ⟨rfl, rfl, rfl⟩) (by
    intro m n hv
    rw [coefRho_eq _ _ _ hv]
    simp only [validMn, Bool.and_eq_true, Bool.not_eq_true', decide_eq_false_iff_not, Bool.and_eq_false_iff, single] at hv
    by_cases hc : m.toNat = 0 ∧ (n + 1).toNat = 2
    · right; omega
    · left; simp only [single]; rw [if_neg]; simpa using hc)
  obtain ⟨r2, e2, g2⟩ := hidden_toRZ (single 5 5) rfl (by simp [single]) (fun n => ⟨rfl, rfl, rfl⟩) (by
    intro m n hv
    rw [coefRho_eq _ _ _ hv]
    simp [validMn, single] at hv
    have c : ¬(m.toNat = 5 ∧ (n + ((1 : ℕ) : ℤ)).toNat = 5) := by omega
    left; simp only [single]; exact if_neg c)
  obtain ⟨r1', e1', _, _, c1⟩ := C142_to_RZFourier (single 0 2) (ok _ _) rfl
  obtain ⟨r2', e2', _, _, c2⟩ := C142_to_RZFourier (single 5 5) (ok _ _) rfl
  rw [e1, Option.some.injEq] at e1'
  rw [e2, Option.some.injEq] at e2'
  subst e1'; subst e2'
  have hp : (r1.mpol, r1.ntor, r1.nfp, r1.stellsym) = (r2.mpol, r2.ntor, r2.nfp, r2.stellsym) := by
    obtain ⟨⟨a1, a2, a3, a4⟩, _⟩ := g1
    obtain ⟨⟨b1, b2, b3, b4⟩, _⟩ := g2
    rw [a1, a2, a3, a4, b1, b2, b3, b4]; rfl
  have hl : (RZSurf.getDofs r1).length = (RZSurf.getDofs r2).length := by
    have h1 := (C65_lengths r1).1
    have h2 := (C65_lengths r2).1
    simp only [Prod.mk.injEq] at hp
    have : r1.numDofs = r2.numDofs := by simp only [Surf.numDofs, hp.1, hp.2.1, hp.2.2.2]
    omega
  refine ⟨_, _, r1, r2, ok 0 2, ok 5 5, e1, e2, hp, by rw [hidden_dofs _ _ g1, hidden_dofs _ _ g2, hl], fun junk => ⟨?_, ?_⟩⟩
  · rw [c1, C142_gamma]
    simp [docRZ, rhoSeries, single, coefRho, getRho, validMn, Finset.sum_range_succ, hI1, hI2]
  · rw [c2, C142_gamma]
    simp [docRZ, rhoSeries, single, coefRho, getRho, validMn, Finset.sum_range_succ, hI1, hI2]
end Simsopt.Henne
