import Verif.PyList
import Mathlib.Analysis.Calculus.IteratedDeriv.Lemmas
import Mathlib.Analysis.SpecialFunctions.ExpDeriv
import Mathlib.MeasureTheory.Integral.Bochner.Basic
import Mathlib.MeasureTheory.Integral.Bochner.SumMeasure
import Mathlib.Data.Matrix.Mul
/-!
# C155: GaussianSampler

Model of `GaussianSampler` (src/simsopt/geo/curveperturbed.py L47-92).  Real numbers instead of doubles; sympy's `diff` is the iterated derivative; `scipy.linalg.ldl` is an oracle that returns `(lu, d)` with
`lu d luᵀ = cov_mat`; the standard normal numbers are random variables of which only the second moments are used.
-/
namespace Simsopt.Perturb
open MeasureTheory

/-- `kernel(x, y)` (L55-56): `range(-5, 6)` is `k - 5` for `k` in `range(11)`. -/
noncomputable def kernel (sigma ls x y : ℝ) : ℝ := ∑ k ∈ Finset.range 11, sigma ^ 2 * Real.exp (-(x - y + ((k : ℝ) - 5)) ^ 2 / ls ^ 2)

/-- The entry of the block `(ii, jj)` (L62-68): `f.diff(*(ii*[x] + jj*[y]))`, the `x` derivatives first, at `(x, y)`. -/
noncomputable def entry (sigma ls : ℝ) (ii jj : ℕ) (x y : ℝ) : ℝ := iteratedDeriv jj (fun y' => iteratedDeriv ii (fun x' => kernel sigma ls x' y') x) y

/-- `cov_mat` (L52-68): block row `r / n`, point `r % n`. -/
noncomputable def covMat (sigma ls : ℝ) (xs : ℕ → ℝ) (n N : ℕ) : Matrix (Fin N) (Fin N) ℝ := fun r c => entry sigma ls (r / n) (c / n) (xs (r % n)) (xs (c % n))

/-- `self.L = lu @ np.sqrt(np.maximum(d, 0))` (L76), the functions entry by entry. -/
noncomputable def factor {N : ℕ} (lu d : Matrix (Fin N) (Fin N) ℝ) : Matrix (Fin N) (Fin N) ℝ := lu * Matrix.of fun i j => Real.sqrt (max (d i j) 0)

/-- `draw_sample` (L78-90): row `a` of the array `i` of the list, component `c`, from the array `z` of standard normal numbers. -/
noncomputable def drawSample {N : ℕ} (L : Matrix (Fin N) (Fin N) ℝ) (z : Fin N → Fin 3 → ℝ) (n : ℕ) (i a : ℕ) (c : Fin 3) (h : i * n + a < N) : ℝ := ∑ r, L ⟨i * n + a, h⟩ r * z r c

/-- The kernel of the documentation, truncated: a function of the distance. -/
noncomputable def kappa (sigma ls s : ℝ) : ℝ := ∑ k ∈ Finset.range 11, sigma ^ 2 * Real.exp (-(s + ((k : ℝ) - 5)) ^ 2 / ls ^ 2)

theorem kernel_kappa (sigma ls x y : ℝ) : kernel sigma ls x y = kappa sigma ls (x - y) := rfl

theorem kappa_even (sigma ls s : ℝ) : kappa sigma ls (-s) = kappa sigma ls s := by
  simp only [kappa]
  rw [← Finset.sum_range_reflect]
  refine Finset.sum_congr rfl fun k hk => ?_
  have hk := Finset.mem_range.mp hk
  have : ((11 - 1 - k : ℕ) : ℝ) = 10 - k := by rw [Nat.cast_sub (by omega)]; norm_num
  rw [this]
  congr 3; ring

/-- **C155.** The blocks: entry `(ii, jj)` is the covariance of the derivative `ii` at `x` with the derivative `jj` at `y` of a process with covariance `κ(x - y)`. -/
theorem entry_eq (sigma ls : ℝ) (ii jj : ℕ) (x y : ℝ) : entry sigma ls ii jj x y = (-1) ^ jj * iteratedDeriv (ii + jj) (kappa sigma ls) (x - y) := by
  have h1 : (fun y' => iteratedDeriv ii (fun x' => kernel sigma ls x' y') x) = fun y' => iteratedDeriv ii (kappa sigma ls) (x - y') := by
    funext y'
    simp only [kernel_kappa]
    rw [iteratedDeriv_comp_sub_const]
  rw [entry, h1, iteratedDeriv_comp_const_sub]
  simp only [smul_eq_mul]
  congr 1
  rw [iteratedDeriv_eq_iterate, iteratedDeriv_eq_iterate, iteratedDeriv_eq_iterate, ← Function.iterate_add_apply, Nat.add_comm]

/-- **C155.** The covariance matrix is symmetric. -/
theorem C155_symmetric (sigma ls : ℝ) (xs : ℕ → ℝ) (n N : ℕ) (r c : Fin N) : covMat sigma ls xs n N r c = covMat sigma ls xs n N c r := by
  simp only [covMat, entry_eq]
  generalize xs (r % n) = x; generalize xs (c % n) = y
  generalize (r : ℕ) / n = i; generalize (c : ℕ) / n = j
  have h := iteratedDeriv_comp_neg (i + j) (kappa sigma ls) (x - y)
  have he : (fun s => kappa sigma ls (-s)) = kappa sigma ls := funext (kappa_even sigma ls)
  rw [he, neg_sub] at h
  rw [Nat.add_comm j i, h, smul_eq_mul, ← mul_assoc]
  congr 1
  rw [← pow_add, show j + (i + j) = i + 2 * j by ring, pow_add, pow_mul]; norm_num

/-- **C155.** The diagonal of the first block, the variance of the perturbation, and the deviation from periodicity of the truncated sum. -/
theorem C155_kernel (sigma ls x y : ℝ) :
    entry sigma ls 0 0 x y = ∑ k ∈ Finset.range 11, sigma ^ 2 * Real.exp (-(x - y + ((k : ℝ) - 5)) ^ 2 / ls ^ 2) ∧
    kernel sigma ls (x + 1) y - kernel sigma ls x y = sigma ^ 2 * Real.exp (-(x - y + 6) ^ 2 / ls ^ 2) - sigma ^ 2 * Real.exp (-(x - y - 5) ^ 2 / ls ^ 2) := by
  refine ⟨by simp [entry, kernel], ?_⟩
  have e : ∀ k : ℕ, sigma ^ 2 * Real.exp (-(x + 1 - y + ((k : ℝ) - 5)) ^ 2 / ls ^ 2) = sigma ^ 2 * Real.exp (-(x - y + (((k + 1 : ℕ) : ℝ) - 5)) ^ 2 / ls ^ 2) := by
    intro k; congr 3; push_cast; ring
  simp only [kernel, e]
  rw [Finset.sum_range_succ, Finset.sum_range_succ' (n := 10)]
  have a1 : (x - y + (((10 + 1 : ℕ) : ℝ) - 5)) = x - y + 6 := by push_cast; ring
  have a2 : (x - y + (((0 : ℕ) : ℝ) - 5)) = x - y - 5 := by push_cast; ring
  rw [a1, a2]; ring

/-- **C155, violated.** The documentation says that the process has the standard deviation `sigma`; its variance is larger than `sigma²` for every `sigma ≠ 0` and length scale. -/
theorem C155_sigma_violated (sigma ls x : ℝ) (hs : sigma ≠ 0) : sigma ^ 2 < entry sigma ls 0 0 x x := by
  rw [(C155_kernel sigma ls x x).1]
  have hs2 : 0 < sigma ^ 2 := by positivity
  have hterm : ∀ k ∈ Finset.range 11, 0 ≤ sigma ^ 2 * Real.exp (-(x - x + ((k : ℝ) - 5)) ^ 2 / ls ^ 2) := fun k _ => by positivity
  have h5 : sigma ^ 2 * Real.exp (-(x - x + (((5 : ℕ) : ℝ) - 5)) ^ 2 / ls ^ 2) = sigma ^ 2 := by
    norm_num
  refine lt_of_eq_of_lt h5.symm ?_
  refine Finset.single_lt_sum (i := 5) (j := 6) (by norm_num) (by simp) (by simp) (by positivity) fun k hk _ => hterm k hk

theorem factor_mul {N : ℕ} (lu d : Matrix (Fin N) (Fin N) ℝ) (hdiag : ∀ i j, i ≠ j → d i j = 0) (hpos : ∀ i, 0 ≤ d i i) : factor lu d * (factor lu d).transpose = lu * d * lu.transpose := by
  have hsq : (Matrix.of fun i j => Real.sqrt (max (d i j) 0)) * (Matrix.of fun i j => Real.sqrt (max (d i j) 0)).transpose = d := by
    ext i j
    simp only [Matrix.mul_apply, Matrix.transpose_apply, Matrix.of_apply]
    by_cases hij : i = j
    · subst hij
      rw [Finset.sum_eq_single i]
      · rw [max_eq_left (hpos i), Real.mul_self_sqrt (hpos i)]
      · intro k _ hk; rw [hdiag i k (Ne.symm hk)]; simp
      · simp
    · rw [hdiag i j hij]
      refine Finset.sum_eq_zero fun k _ => ?_
      by_cases hik : i = k
      · subst hik; rw [hdiag j i (Ne.symm hij)]; simp
      · rw [hdiag i k hik]; simp
  rw [factor, Matrix.transpose_mul, Matrix.mul_assoc, ← Matrix.mul_assoc (Matrix.of _), hsq, Matrix.mul_assoc]

/-- **C155.** The samples have the covariance of the documentation: if the factorization returned a diagonal `d ≥ 0` (as it does for a positive semidefinite matrix) and `z` are uncorrelated numbers of variance 1, then
the arrays `i`, `j` of a sample have at the points `a`, `b` the covariance `∂ₓⁱ ∂ᵧʲ κ(x_a - x_b)` in equal components, and 0 in different components. -/
theorem C155_covariance {Ω : Type} [MeasurableSpace Ω] (μ : Measure Ω) (sigma ls : ℝ) (xs : ℕ → ℝ) (n nd : ℕ) (lu d : Matrix (Fin (n * (nd + 1))) (Fin (n * (nd + 1))) ℝ)
    (hldl : lu * d * lu.transpose = covMat sigma ls xs n (n * (nd + 1))) (hdiag : ∀ i j, i ≠ j → d i j = 0) (hpos : ∀ i, 0 ≤ d i i)
    (z : Ω → Fin (n * (nd + 1)) → Fin 3 → ℝ) (hint : ∀ r s c e, Integrable (fun ω => z ω r c * z ω s e) μ)
    (hz : ∀ r s c e, ∫ ω, z ω r c * z ω s e ∂μ = if r = s ∧ c = e then 1 else 0)
    (i j a b : ℕ) (ha : a < n) (hb : b < n) (hi : i * n + a < n * (nd + 1)) (hj : j * n + b < n * (nd + 1)) (c e : Fin 3) :
    ∫ ω, drawSample (factor lu d) (z ω) n i a c hi * drawSample (factor lu d) (z ω) n j b e hj ∂μ =
      if c = e then iteratedDeriv j (fun y => iteratedDeriv i (fun x => ∑ k ∈ Finset.range 11, sigma ^ 2 * Real.exp (-(x - y + ((k : ℝ) - 5)) ^ 2 / ls ^ 2)) (xs a)) (xs b) else 0 := by
  have hL := factor_mul lu d hdiag hpos
  rw [hldl] at hL
  set L := factor lu d
  have e1 : ∀ ω, drawSample L (z ω) n i a c hi * drawSample L (z ω) n j b e hj = ∑ r, ∑ s, L ⟨i * n + a, hi⟩ r * L ⟨j * n + b, hj⟩ s * (z ω r c * z ω s e) := by
    intro ω
    simp only [drawSample, Finset.sum_mul_sum]
    exact Finset.sum_congr rfl fun r _ => Finset.sum_congr rfl fun s _ => by ring
  simp only [e1]
  rw [integral_finsetSum _ fun r _ => integrable_finsetSum _ fun s _ => (hint r s c e).const_mul _]
  have e2 : ∀ r, ∫ ω, ∑ s, L ⟨i * n + a, hi⟩ r * L ⟨j * n + b, hj⟩ s * (z ω r c * z ω s e) ∂μ = if c = e then L ⟨i * n + a, hi⟩ r * L ⟨j * n + b, hj⟩ r else 0 := by
    intro r
    rw [integral_finsetSum _ fun s _ => (hint r s c e).const_mul _]
    simp only [integral_const_mul, hz]
    by_cases hc : c = e
    · simp [hc]
    · simp [hc]
  simp only [e2]
  by_cases hc : c = e
  · simp only [hc, if_true]
    have := congrFun (congrFun hL ⟨i * n + a, hi⟩) ⟨j * n + b, hj⟩
    simp only [Matrix.mul_apply, Matrix.transpose_apply] at this
    rw [this]
    have d1 : (i * n + a) / n = i := by rw [Nat.mul_comm, Nat.mul_add_div (by omega), Nat.div_eq_of_lt ha, Nat.add_zero]
    have d2 : (j * n + b) / n = j := by rw [Nat.mul_comm, Nat.mul_add_div (by omega), Nat.div_eq_of_lt hb, Nat.add_zero]
    have m1 : (i * n + a) % n = a := by rw [Nat.mul_comm, Nat.mul_add_mod, Nat.mod_eq_of_lt ha]
    have m2 : (j * n + b) % n = b := by rw [Nat.mul_comm, Nat.mul_add_mod, Nat.mod_eq_of_lt hb]
    simp only [covMat, d1, d2, m1, m2, entry, kernel]
  · simp [hc]

/-- The hypotheses of `C155_covariance` are met: one point, no derivative, and three random numbers on a space of three points. -/
example (sigma ls x : ℝ) : ∃ (lu d : Matrix (Fin (1 * (0 + 1))) (Fin (1 * (0 + 1))) ℝ) (z : Fin 3 → Fin (1 * (0 + 1)) → Fin 3 → ℝ),
    lu * d * lu.transpose = covMat sigma ls (fun _ => x) 1 (1 * (0 + 1)) ∧ (∀ i j, i ≠ j → d i j = 0) ∧ (∀ i, 0 ≤ d i i) ∧
    (∀ r s c e, Integrable (fun ω => z ω r c * z ω s e) (Measure.count : Measure (Fin 3))) ∧
    ∀ r s c e, ∫ ω, z ω r c * z ω s e ∂(Measure.count : Measure (Fin 3)) = if r = s ∧ c = e then 1 else 0 := by
  refine ⟨1, covMat sigma ls (fun _ => x) 1 (1 * (0 + 1)), fun ω _ c => if ω = c then 1 else 0, by simp, ?_, ?_, fun _ _ _ _ => Integrable.of_finite, ?_⟩
  · intro i j h; exact absurd (Subsingleton.elim (α := Fin 1) i j) h
  · intro i
    have : covMat sigma ls (fun _ => x) 1 (1 * (0 + 1)) i i = entry sigma ls 0 0 x x := by
      have : (i : ℕ) = 0 := by omega
      simp [covMat, this]
    rw [this, (C155_kernel sigma ls x x).1]
    positivity
  · intro r s c e
    have hrs : r = s := Subsingleton.elim (α := Fin 1) r s
    rw [integral_count]
    simp [hrs, eq_comm]

end Simsopt.Perturb
