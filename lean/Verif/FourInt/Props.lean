import Verif.FourInt.Model
import Mathlib.RingTheory.RootsOfUnity.Complex
import Mathlib.Tactic.LinearCombination
import Mathlib.Analysis.SpecialFunctions.Trigonometric.Bounds
import Mathlib.Analysis.Real.Pi.Bounds
import Mathlib.Algebra.BigOperators.Field
/-!
# C133: Fourier interpolation
-/
namespace Simsopt.FourInt
open Finset

/-- the `k`-th root of unity `exp(i x_k)` -/
noncomputable def zeta (N k : ℕ) : ℂ := Complex.exp (node N k * Complex.I)

theorem zeta_pow (N k : ℕ) : zeta N k = zeta N 1 ^ k := by
  unfold zeta node
  rw [← Complex.exp_nat_mul]
  congr 1; push_cast; ring

theorem zeta_prim {N : ℕ} (hN : N ≠ 0) : IsPrimitiveRoot (zeta N 1) N := by
  have := Complex.isPrimitiveRoot_exp N hN
  unfold zeta node
  convert this using 2
  push_cast; ring

theorem zeta_N {N : ℕ} (hN : N ≠ 0) (k : ℕ) : zeta N k ^ N = 1 := by
  rw [zeta_pow, ← pow_mul, mul_comm, pow_mul, (zeta_prim hN).pow_eq_one, one_pow]

/-- sums of powers of all `N`-th roots of unity -/
theorem sum_zeta {N : ℕ} (hN : N ≠ 0) (q : ℕ) : ∑ k ∈ range N, zeta N k ^ q = if N ∣ q then (N : ℂ) else 0 := by
  have hp := zeta_prim hN
  have e : ∀ k, zeta N k ^ q = (zeta N 1 ^ q) ^ k := fun k => by rw [zeta_pow N k, ← pow_mul, ← pow_mul, mul_comm]
  rw [Finset.sum_congr rfl fun k _ => e k]
  split
  · rename_i h
    rw [(hp.pow_eq_one_iff_dvd q).2 h]; simp
  · rename_i h
    have h1 : zeta N 1 ^ q ≠ 1 := fun h2 => h ((hp.pow_eq_one_iff_dvd q).1 h2)
    rw [geom_sum_eq h1, ← pow_mul, mul_comm, pow_mul, hp.pow_eq_one]
    simp

/-- `Σ_k ζ_k^p / (z - ζ_k) = N z^(p-1) / (z^N - 1)` for `1 ≤ p ≤ N` -/
theorem sum_kernel {N : ℕ} (hN : N ≠ 0) {z : ℂ} (hz : ∀ k < N, z ≠ zeta N k) (hzN : z ^ N ≠ 1) {p : ℕ} (h1 : p < N) :
    ∑ k ∈ range N, zeta N k ^ (p + 1) / (z - zeta N k) = N * z ^ p / (z ^ N - 1) := by
  have hd : z ^ N - 1 ≠ 0 := sub_ne_zero.2 hzN
  rw [eq_div_iff hd, Finset.sum_mul]
  have e : ∀ k ∈ range N, zeta N k ^ (p + 1) / (z - zeta N k) * (z ^ N - 1) = ∑ l ∈ range N, z ^ l * zeta N k ^ (N - 1 - l + (p + 1)) := by
    intro k hk
    have hk' : z - zeta N k ≠ 0 := sub_ne_zero.2 (hz k (mem_range.1 hk))
    have hg := (Commute.all z (zeta N k)).geom_sum₂_mul N
    rw [zeta_N hN] at hg
    rw [← hg]
    field_simp
    rw [Finset.mul_sum]
    refine Finset.sum_congr rfl fun l _ => ?_
    rw [pow_add]; ring
  rw [Finset.sum_congr rfl e, Finset.sum_comm]
  simp only [← Finset.mul_sum, sum_zeta hN]
  rw [Finset.sum_eq_single p]
  · rw [if_pos ⟨1, by omega⟩]; ring
  · intro l hl hne
    have hl' := mem_range.1 hl
    rw [if_neg, mul_zero]
    rintro ⟨c, hc⟩
    have h2 : N - 1 - l + (p + 1) < 2 * N := by omega
    have h3 : 0 < N - 1 - l + (p + 1) := by omega
    have hc1 : c < 2 := by
      by_contra hcon
      have : N * 2 ≤ N * c := Nat.mul_le_mul_left N (by omega)
      omega
    have hc0 : c ≠ 0 := by rintro rfl; omega
    have : c = 1 := by omega
    subst this
    omega
  · intro h; exact absurd (mem_range.2 h1) h

/-! ### away from the grid -/

/-- `x` is not congruent to a grid point modulo `2π` -/
def OffGrid (N : ℕ) (x : ℝ) : Prop := ∀ k < N, ∀ l : ℤ, x ≠ node N k + 2 * Real.pi * l

theorem offGrid_pow {N : ℕ} (hN : N ≠ 0) {x : ℝ} (hx : OffGrid N x) : Complex.exp (x * Complex.I) ^ N ≠ 1 := by
  intro h
  rw [← Complex.exp_nat_mul, Complex.exp_eq_one_iff] at h
  obtain ⟨n, hn⟩ := h
  have hN' : (N : ℝ) ≠ 0 := Nat.cast_ne_zero.2 hN
  have h2 : (N : ℝ) * x = n * (2 * Real.pi) := by
    have h3 : ((N : ℂ) * x - n * (2 * Real.pi)) * Complex.I = 0 := by linear_combination hn
    have h4 := (mul_eq_zero.1 h3).resolve_right Complex.I_ne_zero
    have h5 : (((N : ℝ) * x - n * (2 * Real.pi) : ℝ) : ℂ) = 0 := by push_cast; exact h4
    have := Complex.ofReal_eq_zero.1 h5
    linarith
  have hNp : (0 : ℤ) < N := by exact_mod_cast Nat.pos_of_ne_zero hN
  have hm0 := Int.emod_nonneg n hNp.ne'
  have hm1 := Int.emod_lt_of_pos n hNp
  refine hx (n % N).toNat (by omega) (n / N) ?_
  unfold node
  have e1 : (((n % N).toNat : ℕ) : ℝ) = ((n % N : ℤ) : ℝ) := by
    have : (((n % N).toNat : ℕ) : ℤ) = n % N := Int.toNat_of_nonneg hm0
    exact_mod_cast congrArg (Int.cast : ℤ → ℝ) this
  have e2 : ((n : ℤ) : ℝ) = ((n % N : ℤ) : ℝ) + N * ((n / N : ℤ) : ℝ) := by
    exact_mod_cast congrArg (Int.cast : ℤ → ℝ) (Int.emod_add_mul_ediv n N).symm
  rw [e1]
  field_simp
  rw [e2] at h2
  linear_combination h2

theorem offGrid_ne {N : ℕ} (hN : N ≠ 0) {x : ℝ} (hx : OffGrid N x) (k : ℕ) : Complex.exp (x * Complex.I) ≠ zeta N k := by
  intro h
  apply offGrid_pow hN hx
  rw [h, zeta_N hN]

/-- the half-angle exponentials -/
noncomputable def hexp (x : ℝ) : ℂ := Complex.exp ((x / 2 : ℝ) * Complex.I)

theorem hexp_ne (x : ℝ) : hexp x ≠ 0 := Complex.exp_ne_zero _
theorem hexp_sq (x : ℝ) : hexp x ^ 2 = Complex.exp (x * Complex.I) := by
  unfold hexp; rw [← Complex.exp_nat_mul]; congr 1; push_cast; ring
theorem hexp_node {N : ℕ} (k : ℕ) : hexp (node N k) ^ 2 = zeta N k := hexp_sq _
theorem hexp_weight {N : ℕ} (hN : N ≠ 0) (k : ℕ) : hexp (node N k) ^ N = (weight k : ℂ) := by
  have hN' : (N : ℂ) ≠ 0 := Nat.cast_ne_zero.2 hN
  unfold hexp weight node
  rw [← Complex.exp_nat_mul]
  have : (N : ℂ) * (((k * 2 * Real.pi / N / 2 : ℝ) : ℂ) * Complex.I) = k * (Real.pi * Complex.I) := by
    push_cast; field_simp
  rw [this, Complex.exp_nat_mul, Complex.exp_pi_mul_I]; push_cast; rfl
theorem hexp_sin (x y : ℝ) : ((Real.sin (0.5 * (x - y)) : ℝ) : ℂ) = (hexp x ^ 2 - hexp y ^ 2) / (2 * Complex.I * hexp x * hexp y) := by
  have hx := hexp_ne x
  have hy := hexp_ne y
  rw [Complex.ofReal_sin, Complex.sin]
  have e1 : Complex.exp (-((0.5 * (x - y) : ℝ) : ℂ) * Complex.I) = hexp y / hexp x := by
    unfold hexp; rw [← Complex.exp_sub]; congr 1; push_cast; ring
  have e2 : Complex.exp (((0.5 * (x - y) : ℝ) : ℂ) * Complex.I) = hexp x / hexp y := by
    unfold hexp; rw [← Complex.exp_sub]; congr 1; push_cast; ring
  rw [e1, e2]
  have hI := Complex.I_ne_zero
  have hI2 := Complex.I_sq
  field_simp
  rw [hI2]; ring
theorem hexp_cos (x y : ℝ) : ((Real.cos (0.5 * (x - y)) : ℝ) : ℂ) = (hexp x ^ 2 + hexp y ^ 2) / (2 * hexp x * hexp y) := by
  have hx := hexp_ne x
  have hy := hexp_ne y
  rw [Complex.ofReal_cos, Complex.cos]
  have e1 : Complex.exp (-((0.5 * (x - y) : ℝ) : ℂ) * Complex.I) = hexp y / hexp x := by
    unfold hexp; rw [← Complex.exp_sub]; congr 1; push_cast; ring
  have e2 : Complex.exp (((0.5 * (x - y) : ℝ) : ℂ) * Complex.I) = hexp x / hexp y := by
    unfold hexp; rw [← Complex.exp_sub]; congr 1; push_cast; ring
  rw [e1, e2]
  field_simp

theorem arg_off {eps : ℝ} {N : ℕ} {x : ℝ} (hx : OffGrid N x) {k : ℕ} (hk : k < N) : arg eps N x k = 0.5 * (x - node N k) := by
  unfold arg
  have h := hx k hk 0
  have : ¬ (0.5 * (x - node N k) = 0) := by
    intro h2; apply h; push_cast; linarith
  simp only [this, if_false, mul_zero, add_zero]

/-- the common factor `N / sin(N x / 2)` -/
noncomputable def fac (N : ℕ) (x : ℝ) : ℂ := 2 * Complex.I * N * hexp x ^ N / (hexp x ^ (2 * N) - 1)

theorem entry_odd {eps : ℝ} {h : ℕ} {x : ℝ} (hx : OffGrid (2 * h + 1) x) {k : ℕ} (hk : k < 2 * h + 1) :
    ((entry eps (2 * h + 1) x k * weight k : ℝ) : ℂ) =
      2 * Complex.I * hexp x * (zeta (2 * h + 1) k ^ (h + 1) / (Complex.exp (x * Complex.I) - zeta (2 * h + 1) k)) := by
  have hne := sub_ne_zero.2 (offGrid_ne (N := 2 * h + 1) (by omega) hx k)
  unfold entry
  rw [if_neg (by omega), arg_off hx hk]
  rw [Complex.ofReal_mul, Complex.ofReal_div, Complex.ofReal_one, hexp_sin, ← hexp_weight (N := 2 * h + 1) (by omega) k]
  rw [← hexp_sq, ← hexp_node] at hne ⊢
  have hxx := hexp_ne x
  have hy := hexp_ne (node (2 * h + 1) k)
  have hI := Complex.I_ne_zero
  field_simp
  ring

theorem entry_even {eps : ℝ} {h : ℕ} (hh : h ≠ 0) {x : ℝ} (hx : OffGrid (2 * h) x) {k : ℕ} (hk : k < 2 * h) :
    ((entry eps (2 * h) x k * weight k : ℝ) : ℂ) =
      Complex.I * (Complex.exp (x * Complex.I) * (zeta (2 * h) k ^ h / (Complex.exp (x * Complex.I) - zeta (2 * h) k)) +
        zeta (2 * h) k ^ (h + 1) / (Complex.exp (x * Complex.I) - zeta (2 * h) k)) := by
  have hne := sub_ne_zero.2 (offGrid_ne (N := 2 * h) (by omega) hx k)
  unfold entry
  rw [if_pos (by omega), arg_off hx hk, Real.tan_eq_sin_div_cos, one_div_div]
  rw [Complex.ofReal_mul, Complex.ofReal_div, hexp_sin, hexp_cos, ← hexp_weight (N := 2 * h) (by omega) k]
  rw [← hexp_sq, ← hexp_node] at hne ⊢
  have hxx := hexp_ne x
  have hy := hexp_ne (node (2 * h) k)
  have hI := Complex.I_ne_zero
  field_simp
  ring

/-- the sums behind the interpolation formula -/
theorem sum_entry {eps : ℝ} {N : ℕ} (hN : N ≠ 0) {x : ℝ} (hx : OffGrid N x) {m : ℕ} (hm : 2 * m < N) :
    ∑ k ∈ range N, ((entry eps N x k * weight k : ℝ) : ℂ) * zeta N k ^ m = Complex.exp (x * Complex.I) ^ m * fac N x := by
  have hzN := offGrid_pow hN hx
  have hz := fun k (_ : k < N) => offGrid_ne hN hx k
  have hd : hexp x ^ (2 * N) - 1 ≠ 0 := by rw [pow_mul, hexp_sq]; exact sub_ne_zero.2 hzN
  rcases Nat.even_or_odd' N with ⟨h, rfl | rfl⟩
  · have e : ∀ k ∈ range (2 * h), ((entry eps (2 * h) x k * weight k : ℝ) : ℂ) * zeta (2 * h) k ^ m =
        Complex.I * Complex.exp (x * Complex.I) * (zeta (2 * h) k ^ ((m + h - 1) + 1) / (Complex.exp (x * Complex.I) - zeta (2 * h) k)) +
        Complex.I * (zeta (2 * h) k ^ ((m + h) + 1) / (Complex.exp (x * Complex.I) - zeta (2 * h) k)) := by
      intro k hk
      rw [entry_even (by omega) hx (mem_range.1 hk), show m + h - 1 + 1 = m + h by omega]
      ring
    rw [Finset.sum_congr rfl e, Finset.sum_add_distrib, ← Finset.mul_sum, ← Finset.mul_sum, sum_kernel hN hz hzN (by omega),
      sum_kernel hN hz hzN (by omega)]
    unfold fac
    rw [← hexp_sq] at hzN ⊢
    obtain ⟨q, hq⟩ : ∃ q, m + h = q + 1 := ⟨m + h - 1, by omega⟩
    rw [show m + h - 1 = q by omega, hq]
    have hd2 : (hexp x ^ 2) ^ (2 * h) - 1 ≠ 0 := by rw [← pow_mul]; exact hd
    have e3 : (hexp x ^ 2) ^ (2 * h) = hexp x ^ (2 * (2 * h)) := (pow_mul _ _ _).symm
    rw [e3]
    have e4 : (hexp x ^ 2) ^ m * hexp x ^ (2 * h) = hexp x ^ (2 * q + 2) := by rw [← pow_mul, ← pow_add]; congr 1; omega
    field_simp
    have e5 : (hexp x ^ 2) ^ q = hexp x ^ (2 * q) := (pow_mul _ _ _).symm
    linear_combination (-2 : ℂ) * e4
  · have e : ∀ k ∈ range (2 * h + 1), ((entry eps (2 * h + 1) x k * weight k : ℝ) : ℂ) * zeta (2 * h + 1) k ^ m =
        2 * Complex.I * hexp x * (zeta (2 * h + 1) k ^ ((m + h) + 1) / (Complex.exp (x * Complex.I) - zeta (2 * h + 1) k)) := by
      intro k hk
      rw [entry_odd hx (mem_range.1 hk)]
      ring
    rw [Finset.sum_congr rfl e, ← Finset.mul_sum, sum_kernel hN hz hzN (by omega)]
    unfold fac
    rw [← hexp_sq]
    have e3 : (hexp x ^ 2) ^ (2 * h + 1) = hexp x ^ (2 * (2 * h + 1)) := (pow_mul _ _ _).symm
    rw [e3]
    field_simp
    ring

theorem fac_ne {N : ℕ} (hN : N ≠ 0) {x : ℝ} (hx : OffGrid N x) : fac N x ≠ 0 := by
  have hzN := offGrid_pow hN hx
  have hd : hexp x ^ (2 * N) - 1 ≠ 0 := by rw [pow_mul, hexp_sq]; exact sub_ne_zero.2 hzN
  unfold fac
  have h1 := hexp_ne x
  have hI := Complex.I_ne_zero
  have h2 : (N : ℂ) ≠ 0 := Nat.cast_ne_zero.2 hN
  exact div_ne_zero (mul_ne_zero (mul_ne_zero (mul_ne_zero two_ne_zero hI) h2) (pow_ne_zero _ h1)) hd

theorem zeta_re (N k m : ℕ) : (zeta N k ^ m).re = Real.cos (m * node N k) ∧ (zeta N k ^ m).im = Real.sin (m * node N k) := by
  unfold zeta
  rw [← Complex.exp_nat_mul, show (m : ℂ) * (node N k * Complex.I) = ((m * node N k : ℝ) : ℂ) * Complex.I by push_cast; ring]
  exact ⟨Complex.exp_ofReal_mul_I_re _, Complex.exp_ofReal_mul_I_im _⟩
theorem exp_re (x : ℝ) (m : ℕ) : (Complex.exp (x * Complex.I) ^ m).re = Real.cos (m * x) ∧ (Complex.exp (x * Complex.I) ^ m).im = Real.sin (m * x) := by
  rw [← Complex.exp_nat_mul, show (m : ℂ) * (x * Complex.I) = ((m * x : ℝ) : ℂ) * Complex.I by push_cast; ring]
  exact ⟨Complex.exp_ofReal_mul_I_re _, Complex.exp_ofReal_mul_I_im _⟩

theorem fac_eq {eps : ℝ} {N : ℕ} (hN : N ≠ 0) {x : ℝ} (hx : OffGrid N x) : fac N x = ((∑ k ∈ range N, entry eps N x k * weight k : ℝ) : ℂ) := by
  have h := sum_entry (eps := eps) hN hx (m := 0) (by omega)
  simp only [pow_zero, mul_one, one_mul] at h
  rw [← h, Complex.ofReal_sum]

theorem sum_cos_sin {eps : ℝ} {N : ℕ} (hN : N ≠ 0) {x : ℝ} (hx : OffGrid N x) {m : ℕ} (hm : 2 * m < N) :
    ∑ k ∈ range N, entry eps N x k * weight k * Real.cos (m * node N k) = Real.cos (m * x) * ∑ k ∈ range N, entry eps N x k * weight k ∧
    ∑ k ∈ range N, entry eps N x k * weight k * Real.sin (m * node N k) = Real.sin (m * x) * ∑ k ∈ range N, entry eps N x k * weight k := by
  have h := sum_entry (eps := eps) hN hx hm
  rw [fac_eq (eps := eps) hN hx] at h
  have hr := congrArg Complex.re h
  have hi := congrArg Complex.im h
  rw [Complex.re_mul_ofReal, Complex.re_sum] at hr
  rw [Complex.im_mul_ofReal, Complex.im_sum] at hi
  simp only [Complex.re_ofReal_mul, Complex.im_ofReal_mul, (zeta_re _ _ _).1, (zeta_re _ _ _).2, (exp_re _ _).1, (exp_re _ _).2] at hr hi
  exact ⟨hr, hi⟩

theorem sum_ne {eps : ℝ} {N : ℕ} (hN : N ≠ 0) {x : ℝ} (hx : OffGrid N x) : ∑ k ∈ range N, entry eps N x k * weight k ≠ 0 := by
  intro h
  have := fac_eq (eps := eps) hN hx
  rw [h] at this
  exact fac_ne hN hx (by rw [this]; simp)

/-! ### specification -/

/-- The trigonometric polynomial `Σ_{m<M} a_m cos(m x) + b_m sin(m x)`. -/
noncomputable def trigPoly (M : ℕ) (a b : ℕ → ℝ) (x : ℝ) : ℝ := ∑ m ∈ range M, (a m * Real.cos (m * x) + b m * Real.sin (m * x))

/-- **C133** Away from the grid the interpolant of the values of a trigonometric polynomial with all frequencies below `N/2` is that polynomial. -/
theorem C133_reproduces (eps : ℝ) {N : ℕ} (hN : N ≠ 0) {M : ℕ} (hM : ∀ m < M, 2 * m < N) (a b : ℕ → ℝ) {fk : ℕ → ℝ}
    (hf : ∀ k < N, fk k = trigPoly M a b (2 * Real.pi * k / N)) {x : ℝ} (hx : OffGrid N x) :
    fourierInterpolation eps N fk x = trigPoly M a b x := by
  unfold fourierInterpolation
  rw [div_eq_iff (sum_ne hN hx)]
  have e : ∀ k ∈ range N, entry eps N x k * (weight k * fk k) =
      ∑ m ∈ range M, (a m * (entry eps N x k * weight k * Real.cos (m * node N k)) + b m * (entry eps N x k * weight k * Real.sin (m * node N k))) := by
    intro k hk
    rw [hf k (mem_range.1 hk), ← mul_assoc, trigPoly, Finset.mul_sum]
    refine Finset.sum_congr rfl fun m _ => ?_
    have : 2 * Real.pi * k / N = node N k := by unfold node; ring
    rw [this]; ring
  rw [Finset.sum_congr rfl e, Finset.sum_comm, trigPoly, Finset.sum_mul]
  refine Finset.sum_congr rfl fun m hm => ?_
  obtain ⟨h1, h2⟩ := sum_cos_sin (eps := eps) hN hx (hM m (mem_range.1 hm))
  rw [Finset.sum_add_distrib, ← Finset.mul_sum, ← Finset.mul_sum, h1, h2]
  ring

/-- **C133** ... and for an even number of points `cos(N x / 2)` is reproduced too. -/
theorem C133_nyquist (eps : ℝ) {h : ℕ} (hh : h ≠ 0) {fk : ℕ → ℝ} (hf : ∀ k < 2 * h, fk k = Real.cos (h * (2 * Real.pi * k / (2 * h : ℕ)))) {x : ℝ}
    (hx : OffGrid (2 * h) x) : fourierInterpolation eps (2 * h) fk x = Real.cos (h * x) := by
  have hN : 2 * h ≠ 0 := by omega
  have hzN := offGrid_pow hN hx
  have hz := fun k (_ : k < 2 * h) => offGrid_ne hN hx k
  unfold fourierInterpolation
  rw [div_eq_iff (sum_ne hN hx)]
  apply Complex.ofReal_injective
  rw [Complex.ofReal_sum, Complex.ofReal_mul, ← fac_eq hN hx]
  have e : ∀ k ∈ range (2 * h), ((entry eps (2 * h) x k * (weight k * fk k) : ℝ) : ℂ) =
      Complex.I * Complex.exp (x * Complex.I) * (zeta (2 * h) k ^ ((2 * h - 1) + 1) / (Complex.exp (x * Complex.I) - zeta (2 * h) k)) +
        Complex.I * (zeta (2 * h) k ^ (0 + 1) / (Complex.exp (x * Complex.I) - zeta (2 * h) k)) := by
    intro k hk
    have hw : fk k = weight k := by
      rw [hf k (mem_range.1 hk)]
      have : (h : ℝ) * (2 * Real.pi * k / (2 * h : ℕ)) = k * Real.pi := by
        have : (h : ℝ) ≠ 0 := Nat.cast_ne_zero.2 hh
        push_cast; field_simp
      rw [this, Real.cos_nat_mul_pi]; rfl
    have hw2 : (weight k : ℂ) = zeta (2 * h) k ^ h := by rw [← hexp_weight hN k, ← hexp_node, pow_mul]
    rw [← mul_assoc, Complex.ofReal_mul, entry_even hh hx (mem_range.1 hk), hw, hw2, show 2 * h - 1 + 1 = 2 * h by omega]
    have h1 : zeta (2 * h) k ^ h * zeta (2 * h) k ^ h = 1 := by rw [← pow_add, ← two_mul, zeta_N hN]
    rw [zeta_N hN]
    linear_combination (Complex.I * (Complex.exp (x * Complex.I) + zeta (2 * h) k) / (Complex.exp (x * Complex.I) - zeta (2 * h) k)) * h1
  rw [Finset.sum_congr rfl e, Finset.sum_add_distrib, ← Finset.mul_sum, ← Finset.mul_sum, sum_kernel hN hz hzN (by omega),
    sum_kernel hN hz hzN (by omega)]
  have hc : ((Real.cos (h * x) : ℝ) : ℂ) = (hexp x ^ (2 * h) + (hexp x ^ (2 * h))⁻¹) / 2 := by
    rw [Complex.ofReal_cos, Complex.cos]
    have e1 : Complex.exp (((h * x : ℝ) : ℂ) * Complex.I) = hexp x ^ (2 * h) := by
      unfold hexp; rw [← Complex.exp_nat_mul]; congr 1; push_cast; ring
    have e2 : Complex.exp (-((h * x : ℝ) : ℂ) * Complex.I) = (hexp x ^ (2 * h))⁻¹ := by
      rw [← e1, ← Complex.exp_neg]; congr 1; ring
    rw [e1, e2]
  rw [hc]
  unfold fac
  rw [← hexp_sq] at hzN ⊢
  have e3 : (hexp x ^ 2) ^ (2 * h) = (hexp x ^ (2 * h)) ^ 2 := by rw [← pow_mul, ← pow_mul, mul_comm]
  have e4 : hexp x ^ 2 * (hexp x ^ 2) ^ (2 * h - 1) = (hexp x ^ (2 * h)) ^ 2 := by rw [← pow_succ', ← pow_mul, ← pow_mul]; congr 1; omega
  have e5 : hexp x ^ (2 * (2 * h)) = (hexp x ^ (2 * h)) ^ 2 := by rw [← pow_mul, mul_comm]
  have hne : hexp x ^ (2 * h) ≠ 0 := pow_ne_zero _ (hexp_ne x)
  rw [e3] at hzN ⊢
  rw [e5]
  have hd := sub_ne_zero.2 hzN
  generalize hexp x ^ (2 * h) = U at *
  rw [mul_div_assoc', mul_assoc, mul_left_comm (hexp x ^ 2), e4]
  field_simp

/-! ### on the grid -/

/-- the entries of a row of the matrix at a grid point -/
noncomputable def gk (N : ℕ) (d : ℤ) : ℝ :=
  (-1 : ℝ) ^ d.natAbs * (if N % 2 = 0 then 1 / Real.tan (Real.pi * d / N) else 1 / Real.sin (Real.pi * d / N))

theorem gk_neg (N : ℕ) (d : ℤ) : gk N (-d) = - gk N d := by
  unfold gk
  have e : Real.pi * ((-d : ℤ) : ℝ) / N = -(Real.pi * d / N) := by push_cast; ring
  rw [Int.natAbs_neg, e, Real.tan_neg, Real.sin_neg]
  split <;> ring

theorem neg_one_natAbs (d : ℤ) : (-1 : ℝ) ^ d.natAbs = (-1 : ℝ) ^ d := by
  rcases Int.natAbs_eq d with h | h
  · conv_rhs => rw [h]
    rw [zpow_natCast]
  · conv_rhs => rw [h]
    rw [zpow_neg, zpow_natCast]
    rcases neg_one_pow_eq_or ℝ d.natAbs with h2 | h2 <;> rw [h2] <;> norm_num

theorem gk_period {N : ℕ} (hN : N ≠ 0) (d : ℤ) : gk N (d + N) = gk N d := by
  have hN' : (N : ℝ) ≠ 0 := Nat.cast_ne_zero.2 hN
  unfold gk
  have e : Real.pi * ((d + N : ℤ) : ℝ) / N = Real.pi * d / N + Real.pi := by push_cast; field_simp
  rw [e, Real.tan_add_pi, Real.sin_add_pi, neg_one_natAbs, neg_one_natAbs, zpow_add₀ (by norm_num), zpow_natCast]
  split
  · rename_i h
    rw [(Nat.even_iff.2 h).neg_one_pow]; ring
  · rename_i h
    rw [(Nat.odd_iff.2 (by omega)).neg_one_pow]; ring

theorem gk_sum {N : ℕ} (hN : N ≠ 0) (j : ℕ) : ∑ k ∈ range N, gk N ((j : ℤ) - k) = 0 := by
  obtain ⟨M, rfl⟩ : ∃ M, N = M + 1 := ⟨N - 1, by omega⟩
  have hT : ∀ j : ℕ, ∑ k ∈ range (M + 1), gk (M + 1) ((j : ℤ) - k) = ∑ k ∈ range (M + 1), gk (M + 1) (((0 : ℕ) : ℤ) - k) := by
    intro j
    induction j with
    | zero => rfl
    | succ j ih =>
      rw [← ih, Finset.sum_range_succ', Finset.sum_range_succ]
      congr 1
      · refine Finset.sum_congr rfl fun k _ => ?_
        congr 1; push_cast; ring
      · rw [← gk_period (N := M + 1) (by omega) ((j : ℤ) - M)]
        congr 1; push_cast; ring
  have h1 := hT M
  have h2 : ∑ k ∈ range (M + 1), gk (M + 1) ((M : ℤ) - k) = ∑ k ∈ range (M + 1), gk (M + 1) (k : ℤ) := by
    rw [← Finset.sum_range_reflect]
    refine Finset.sum_congr rfl fun k hk => ?_
    have := mem_range.1 hk
    congr 1
    have : ((M + 1 - 1 - k : ℕ) : ℤ) = (M : ℤ) - k := by omega
    rw [this]; ring
  have h3 : ∑ k ∈ range (M + 1), gk (M + 1) (((0 : ℕ) : ℤ) - k) = - ∑ k ∈ range (M + 1), gk (M + 1) (k : ℤ) := by
    rw [← Finset.sum_neg_distrib]
    refine Finset.sum_congr rfl fun k _ => ?_
    rw [← gk_neg]; congr 1; push_cast; ring
  rw [hT j]
  linarith

theorem gk_bound {N : ℕ} {d : ℤ} (h1 : d ≠ 0) (h2 : d.natAbs < N) : |gk N d| ≤ N / 2 := by
  have key : ∀ n : ℕ, 0 < n → n < N → 2 / (N : ℝ) ≤ Real.sin (Real.pi * n / N) := by
    intro n hn0 hnN
    have hN' : (0 : ℝ) < N := by exact_mod_cast (by omega : 0 < N)
    have hn1 : (1 : ℝ) ≤ n := by exact_mod_cast hn0
    have hn2 : (n : ℝ) + 1 ≤ N := by exact_mod_cast hnN
    have hpi := Real.pi_pos
    rcases le_total (2 * (n : ℝ)) N with h | h
    · have := Real.mul_le_sin (x := Real.pi * n / N) (by positivity) (by rw [div_le_div_iff₀ hN' two_pos]; nlinarith)
      refine le_trans ?_ this
      rw [show 2 / Real.pi * (Real.pi * n / N) = 2 * n / N by field_simp]
      gcongr; linarith
    · have := Real.mul_le_sin (x := Real.pi - Real.pi * n / N)
        (by rw [sub_nonneg, div_le_iff₀ hN']; nlinarith) (by rw [sub_le_iff_le_add, ← sub_le_iff_le_add', le_div_iff₀ hN']; nlinarith)
      rw [Real.sin_pi_sub] at this
      refine le_trans ?_ this
      rw [show 2 / Real.pi * (Real.pi - Real.pi * n / N) = 2 * (N - n) / N by field_simp]
      gcongr; linarith
  have hN' : (0 : ℝ) < N := by exact_mod_cast (by omega : 0 < N)
  have hs : 2 / (N : ℝ) ≤ |Real.sin (Real.pi * d / N)| := by
    have hk := key d.natAbs (by omega) h2
    rcases Int.natAbs_eq d with h | h
    · have hd : (d : ℝ) = (d.natAbs : ℝ) := by rw [← Int.cast_natCast (R := ℝ), ← h]
      rw [hd]; exact le_trans hk (le_abs_self _)
    · have hd : (d : ℝ) = -(d.natAbs : ℝ) := by rw [← Int.cast_natCast (R := ℝ), ← Int.cast_neg, ← h]
      rw [hd, show Real.pi * -((d.natAbs : ℕ) : ℝ) / N = -(Real.pi * (d.natAbs : ℕ) / N) by ring, Real.sin_neg, abs_neg]
      exact le_trans hk (le_abs_self _)
  have hsp : 0 < |Real.sin (Real.pi * d / N)| := lt_of_lt_of_le (by positivity) hs
  unfold gk
  rw [abs_mul, abs_pow, abs_neg, abs_one, one_pow, one_mul]
  split
  · rw [Real.tan_eq_sin_div_cos, one_div_div, abs_div, div_le_iff₀ hsp]
    have hc := Real.abs_cos_le_one (Real.pi * d / N)
    rw [div_le_iff₀ hN'] at hs
    nlinarith
  · rw [abs_div, abs_one, div_le_iff₀ hsp]
    rw [div_le_iff₀ hN'] at hs
    nlinarith

theorem arg_node {eps : ℝ} {N : ℕ} (hN : N ≠ 0) (j k : ℕ) : arg eps N (node N j) k = if k = j then eps else Real.pi * ((j : ℤ) - k : ℤ) / N := by
  have hN' : (N : ℝ) ≠ 0 := Nat.cast_ne_zero.2 hN
  have hpi := Real.pi_pos
  have e : 0.5 * (node N j - node N k) = Real.pi * ((j : ℤ) - k : ℤ) / N := by unfold node; push_cast; ring
  unfold arg
  simp only [e]
  by_cases h : k = j
  · subst h; simp
  · have : ¬ (Real.pi * ((j : ℤ) - k : ℤ) / N = 0) := by
      intro h0
      rw [div_eq_zero_iff] at h0
      rcases h0 with h0 | h0
      · rw [mul_eq_zero] at h0
        rcases h0 with h0 | h0
        · exact hpi.ne' h0
        · have := Int.cast_eq_zero.1 h0
          omega
      · exact hN' h0
    rw [if_neg h, if_neg this]; simp

/-- the row of the matrix at a grid point -/
theorem entry_node {eps : ℝ} {N : ℕ} (hN : N ≠ 0) (j k : ℕ) (h : k ≠ j) : entry eps N (node N j) k * weight k = weight j * gk N ((j : ℤ) - k) := by
  unfold entry gk weight
  rw [arg_node hN, if_neg h, neg_one_natAbs, zpow_sub₀ (by norm_num), zpow_natCast, zpow_natCast]
  rcases neg_one_pow_eq_or ℝ j with hj | hj <;> rcases neg_one_pow_eq_or ℝ k with hk | hk <;> rw [hj, hk] <;> split <;> ring

/-- **C133** At a grid point the result is the given value up to a multiple of the machine precision. -/
theorem C133_at_nodes {eps : ℝ} (h0 : 0 < eps) (h1 : eps ≤ 1) {N : ℕ} (fk : ℕ → ℝ) {j : ℕ} (hj : j < N) :
    |fourierInterpolation eps N fk (node N j) - fk j| ≤ eps * N * ∑ k ∈ range N, |fk k| := by
  have hN : N ≠ 0 := by omega
  have hNp : (0 : ℝ) < N := by exact_mod_cast Nat.pos_of_ne_zero hN
  have hsin : 0 < Real.sin eps := Real.sin_pos_of_pos_of_lt_pi h0 (by linarith [Real.pi_gt_three])
  have hsle : Real.sin eps ≤ eps := Real.sin_le h0.le
  have hcos : 1 / 2 ≤ Real.cos eps := by nlinarith [Real.one_sub_sq_div_two_le_cos (x := eps)]
  obtain ⟨t, ht0, ht1, hte⟩ : ∃ t : ℝ, 0 < t ∧ t ≤ 2 * eps ∧ entry eps N (node N j) j = 1 / t := by
    unfold entry
    rw [arg_node hN, if_pos rfl]
    split
    · refine ⟨Real.tan eps, ?_, ?_, rfl⟩
      · rw [Real.tan_eq_sin_div_cos]; positivity
      · rw [Real.tan_eq_sin_div_cos, div_le_iff₀ (by linarith)]; nlinarith
    · exact ⟨Real.sin eps, hsin, by linarith, rfl⟩
  have hw : weight j * weight j = 1 := by
    unfold weight
    rcases neg_one_pow_eq_or ℝ j with h | h <;> rw [h] <;> norm_num
  have hg0 : gk N ((j : ℤ) - j) = 0 := by unfold gk; simp
  have hsplit : ∀ F : ℕ → ℝ, ∑ k ∈ range N, entry eps N (node N j) k * weight k * F k =
      weight j / t * F j + weight j * ∑ k ∈ range N, gk N ((j : ℤ) - k) * F k := by
    intro F
    rw [← Finset.add_sum_erase _ _ (mem_range.2 hj), ← Finset.add_sum_erase (range N) (fun k : ℕ => gk N ((j : ℤ) - k) * F k) (mem_range.2 hj), hg0, hte]
    rw [zero_mul, zero_add, Finset.mul_sum]
    congr 1
    · ring
    · refine Finset.sum_congr rfl fun k hk => ?_
      rw [entry_node hN j k (Finset.mem_erase.1 hk).1]; ring
  have hden : ∑ k ∈ range N, entry eps N (node N j) k * weight k = weight j / t := by
    have := hsplit (fun _ => 1)
    simp only [mul_one] at this
    rw [this, gk_sum hN]; ring
  have hnum : ∑ k ∈ range N, entry eps N (node N j) k * (weight k * fk k) = weight j / t * fk j + weight j * ∑ k ∈ range N, gk N ((j : ℤ) - k) * fk k := by
    rw [← hsplit]
    exact Finset.sum_congr rfl fun k _ => by ring
  have hw0 : weight j ≠ 0 := by intro h; rw [h] at hw; norm_num at hw
  have hres : fourierInterpolation eps N fk (node N j) - fk j = t * ∑ k ∈ range N, gk N ((j : ℤ) - k) * fk k := by
    unfold fourierInterpolation
    rw [hden, hnum]
    field_simp
    ring
  rw [hres, abs_mul, abs_of_pos ht0]
  have hb : |∑ k ∈ range N, gk N ((j : ℤ) - k) * fk k| ≤ N / 2 * ∑ k ∈ range N, |fk k| := by
    rw [Finset.mul_sum]
    refine le_trans (Finset.abs_sum_le_sum_abs _ _) (Finset.sum_le_sum fun k hk => ?_)
    rw [abs_mul]
    refine mul_le_mul_of_nonneg_right ?_ (abs_nonneg _)
    by_cases h : k = j
    · subst h; rw [hg0, abs_zero]; positivity
    · have := mem_range.1 hk
      exact gk_bound (by omega) (by omega)
  have hs0 : 0 ≤ ∑ k ∈ range N, |fk k| := Finset.sum_nonneg fun _ _ => abs_nonneg _
  calc t * |∑ k ∈ range N, gk N ((j : ℤ) - k) * fk k| ≤ (2 * eps) * (N / 2 * ∑ k ∈ range N, |fk k|) :=
        mul_le_mul ht1 hb (abs_nonneg _) (by positivity)
    _ = eps * N * ∑ k ∈ range N, |fk k| := by ring

/-! ### non-vacuity -/

/-- points halfway between grid points are off the grid -/
theorem offGrid_mid {N : ℕ} (hN : N ≠ 0) (j : ℤ) : OffGrid N (Real.pi * (2 * j + 1) / N) := by
  intro k _ l h
  have hN' : (N : ℝ) ≠ 0 := Nat.cast_ne_zero.2 hN
  have hpi := Real.pi_pos.ne'
  unfold node at h
  field_simp at h
  have h2 : (2 * j + 1 : ℤ) = 2 * (k + N * l) := by
    have : ((2 * j + 1 : ℤ) : ℝ) = ((2 * (k + N * l) : ℤ) : ℝ) := by push_cast; linear_combination h
    exact_mod_cast this
  omega

/-- odd number of points, a polynomial of the highest allowed degree -/
example : fourierInterpolation (1 / 2 ^ 52) 5 (fun k => trigPoly 3 (fun m => m + 1) (fun m => 7 - m) (2 * Real.pi * k / (5 : ℕ))) (Real.pi * (2 * (3 : ℤ) + 1) / (5 : ℕ)) =
    trigPoly 3 (fun m => m + 1) (fun m => 7 - m) (Real.pi * (2 * (3 : ℤ) + 1) / (5 : ℕ)) :=
  C133_reproduces _ (by norm_num) (by omega) _ _ (fun _ _ => rfl) (offGrid_mid (by norm_num) 3)
/-- even number of points -/
example : fourierInterpolation (1 / 2 ^ 52) (2 * 2) (fun k => Real.cos ((2 : ℕ) * (2 * Real.pi * k / (2 * 2 : ℕ)))) (Real.pi * (2 * (1 : ℤ) + 1) / (2 * 2 : ℕ)) =
    Real.cos ((2 : ℕ) * (Real.pi * (2 * (1 : ℤ) + 1) / (2 * 2 : ℕ))) :=
  C133_nyquist _ (by norm_num) (fun _ _ => rfl) (offGrid_mid (by norm_num) 1)
/-- the degree bound is sharp: with two points `sin x` looks like zero -/
theorem C133_degree_sharp (eps x : ℝ) : fourierInterpolation eps 2 (fun k => Real.sin (2 * Real.pi * k / (2 : ℕ))) x = 0 := by
  unfold fourierInterpolation
  rw [Finset.sum_range_succ, Finset.sum_range_one]
  simp
example : |fourierInterpolation (1 / 2 ^ 52) 3 (fun k => (k : ℝ) ^ 2) (node 3 2) - 4| ≤ 1 / 2 ^ 52 * (3 : ℕ) * ∑ k ∈ range 3, |(k : ℝ) ^ 2| := by
  have := C133_at_nodes (eps := 1 / 2 ^ 52) (by norm_num) (by norm_num) (N := 3) (fun k => (k : ℝ) ^ 2) (j := 2) (by norm_num)
  norm_num at this ⊢
  exact this

/-- **C133** The result depends linearly on the data: a linear combination of data gives the same combination of results. -/
theorem C133_linear (eps : ℝ) (N : ℕ) (c d : ℝ) (f g : ℕ → ℝ) (x : ℝ) :
    fourierInterpolation eps N (fun k => c * f k + d * g k) x = c * fourierInterpolation eps N f x + d * fourierInterpolation eps N g x := by
  unfold fourierInterpolation
  rw [← mul_div_assoc, ← mul_div_assoc, ← add_div, Finset.mul_sum, Finset.mul_sum, ← Finset.sum_add_distrib]
  congr 1
  exact Finset.sum_congr rfl fun k _ => by ring

end Simsopt.FourInt
