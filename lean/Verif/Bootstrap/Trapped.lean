import Mathlib.Analysis.SpecialFunctions.Integrals.Basic
import Mathlib.MeasureTheory.Integral.IntervalIntegral.IntegrationByParts
import Mathlib.Analysis.SpecialFunctions.Sqrt
import Mathlib.Tactic.Ring
import Mathlib.Tactic.Linarith
import Mathlib.Tactic.Positivity
import Mathlib.Tactic.FieldSimp
/-!
# The effective fraction of trapped particles (C176)

Model of `compute_trapped_fraction` (src/simsopt/mhd/bootstrap.py L27-170) on one surface.  Real numbers instead of doubles.  The points of the grid (of one or two angles) are numbered by `Fin n`.  `quad` is the exact integral.  The extrema found by minimising a spline through the data, started from the least (greatest) value on the grid (L99-112, L139-153), are arguments `Bmin`, `Bmax`; of them only `Bmin ≤ B ≤ Bmax` on the grid is used.
-/
namespace Simsopt.Bootstrap
open Real

variable {n : ℕ}

/-- `np.mean` over the angles. -/
noncomputable def mean (f : Fin n → ℝ) : ℝ := (∑ i, f i) / n

/-- `dVds` (L86, L128); `c` is 4π² or 2π. -/
noncomputable def dVds (c : ℝ) (g : Fin n → ℝ) : ℝ := mean g / c

/-- `fsa_B2` (L87, L129). -/
noncomputable def fsaB2 (c : ℝ) (B g : Fin n → ℝ) : ℝ := mean (fun i => B i * B i * g i) / (c * dVds c g)

/-- `fsa_1overB` (L88, L130). -/
noncomputable def fsaInvB (c : ℝ) (B g : Fin n → ℝ) : ℝ := mean (fun i => g i / B i) / (c * dVds c g)

/-- `epsilon` (L113-114, L154-155). -/
noncomputable def epsilon (Bmin Bmax : ℝ) : ℝ := (Bmax / Bmin - 1) / (Bmax / Bmin + 1)

/-- `integrand` (L116-119, L157-160). -/
noncomputable def integrand (c : ℝ) (B g : Fin n → ℝ) (lam : ℝ) : ℝ := lam / (mean (fun i => √(1 - lam * B i) * g i) / (c * dVds c g))

/-- `f_t` (L121-122, L162-163). -/
noncomputable def trapped (c : ℝ) (B g : Fin n → ℝ) (Bmax : ℝ) : ℝ := 1 - 0.75 * fsaB2 c B g * ∫ lam in (0 : ℝ)..1 / Bmax, integrand c B g lam

/-! ### Specification -/

/-- The flux surface average: the average with the Jacobian as weight. -/
noncomputable def average (g f : Fin n → ℝ) : ℝ := (∑ i, f i * g i) / ∑ i, g i

/-- The Jacobian has one sign. -/
def OneSign (g : Fin n → ℝ) : Prop := (∀ i, 0 < g i) ∨ ∀ i, g i < 0

/-! ### Theorems -/

theorem sum_ne_zero (g : Fin n → ℝ) (hn : 0 < n) (h : OneSign g) : ∑ i, g i ≠ 0 := by
  have : (Finset.univ : Finset (Fin n)).Nonempty := ⟨⟨0, hn⟩, Finset.mem_univ _⟩
  rcases h with h | h
  · exact (Finset.sum_pos (fun i _ => h i) this).ne'
  · exact (Finset.sum_neg (fun i _ => h i) this).ne

theorem ratio_eq (c : ℝ) (hc : c ≠ 0) (g f : Fin n → ℝ) (hn : 0 < n) : mean (fun i => f i * g i) / (c * dVds c g) = average g f := by
  have hn' : (n : ℝ) ≠ 0 := by exact_mod_cast hn.ne'
  unfold average dVds mean
  rw [mul_div_cancel₀ _ hc, div_div_div_cancel_right₀ hn']

/-- The weights of the average. -/
theorem average_weights (g f : Fin n → ℝ) : average g f = ∑ i, (g i / ∑ j, g j) * f i := by
  unfold average
  rw [Finset.sum_div]
  exact Finset.sum_congr rfl fun i _ => by ring

theorem weights (g : Fin n → ℝ) (hn : 0 < n) (h : OneSign g) : (∀ i, 0 < g i / ∑ j, g j) ∧ ∑ i, g i / ∑ j, g j = 1 := by
  have hne : (Finset.univ : Finset (Fin n)).Nonempty := ⟨⟨0, hn⟩, Finset.mem_univ _⟩
  refine ⟨fun i => ?_, by rw [← Finset.sum_div, div_self (sum_ne_zero g hn h)]⟩
  rcases h with h | h
  · exact div_pos (h i) (Finset.sum_pos (fun i _ => h i) hne)
  · exact div_pos_of_neg_of_neg (h i) (Finset.sum_neg (fun i _ => h i) hne)

/-- **C176**: the averages returned are flux surface averages of B² and 1/B, whatever the normalisation. -/
theorem C176_averages (c : ℝ) (hc : c ≠ 0) (B g : Fin n → ℝ) (hn : 0 < n) : fsaB2 c B g = average g (fun i => B i ^ 2) ∧ fsaInvB c B g = average g (fun i => 1 / B i) := by
  constructor
  · rw [← ratio_eq c hc g _ hn]
    unfold fsaB2
    congr 2
    funext i; ring
  · rw [← ratio_eq c hc g _ hn]
    unfold fsaInvB
    congr 2
    funext i; ring

theorem average_mono (g f f' : Fin n → ℝ) (hn : 0 < n) (h : OneSign g) (hf : ∀ i, f i ≤ f' i) : average g f ≤ average g f' := by
  rw [average_weights, average_weights]
  exact Finset.sum_le_sum fun i _ => mul_le_mul_of_nonneg_left (hf i) ((weights g hn h).1 i).le

theorem average_const (g : Fin n → ℝ) (hn : 0 < n) (h : OneSign g) (a : ℝ) : average g (fun _ => a) = a := by
  rw [average_weights, ← Finset.sum_mul, (weights g hn h).2, one_mul]

/-- **C176**: the averages lie between the extrema. -/
theorem C176_bounds (c : ℝ) (hc : c ≠ 0) (B g : Fin n → ℝ) (hn : 0 < n) (h : OneSign g) (Bmin Bmax : ℝ) (h0 : 0 < Bmin) (h1 : ∀ i, Bmin ≤ B i) (h2 : ∀ i, B i ≤ Bmax) :
    Bmin ^ 2 ≤ fsaB2 c B g ∧ fsaB2 c B g ≤ Bmax ^ 2 ∧ 1 / Bmax ≤ fsaInvB c B g ∧ fsaInvB c B g ≤ 1 / Bmin := by
  rw [(C176_averages c hc B g hn).1, (C176_averages c hc B g hn).2]
  refine ⟨?_, ?_, ?_, ?_⟩
  · rw [← average_const g hn h (Bmin ^ 2)]
    exact average_mono g _ _ hn h fun i => pow_le_pow_left₀ h0.le (h1 i) 2
  · conv_rhs => rw [← average_const g hn h (Bmax ^ 2)]
    exact average_mono g _ _ hn h fun i => pow_le_pow_left₀ (h0.le.trans (h1 i)) (h2 i) 2
  · rw [← average_const g hn h (1 / Bmax)]
    exact average_mono g _ _ hn h fun i => one_div_le_one_div_of_le (h0.trans_le (h1 i)) (h2 i)
  · conv_rhs => rw [← average_const g hn h (1 / Bmin)]
    exact average_mono g _ _ hn h fun i => one_div_le_one_div_of_le h0 (h1 i)

/-- **C176**: the effective inverse aspect ratio is the number in [0, 1) with Bmax / Bmin = (1 + ε) / (1 - ε). -/
theorem C176_epsilon (Bmin Bmax : ℝ) (h0 : 0 < Bmin) (h : Bmin ≤ Bmax) :
    0 ≤ epsilon Bmin Bmax ∧ epsilon Bmin Bmax < 1 ∧ Bmax / Bmin = (1 + epsilon Bmin Bmax) / (1 - epsilon Bmin Bmax) ∧ ∀ e, e < 1 → Bmax / Bmin = (1 + e) / (1 - e) → e = epsilon Bmin Bmax := by
  have hw : 1 ≤ Bmax / Bmin := (one_le_div h0).2 h
  have hp : 0 < Bmax / Bmin + 1 := by linarith
  unfold epsilon
  generalize Bmax / Bmin = w at hw hp
  refine ⟨div_nonneg (by linarith) hp.le, (div_lt_one hp).2 (by linarith), ?_, fun e he hw' => ?_⟩
  · rw [show 1 + (w - 1) / (w + 1) = 2 * w / (w + 1) by field_simp; ring, show 1 - (w - 1) / (w + 1) = 2 / (w + 1) by field_simp; ring]
    field_simp
  · have : 1 - e ≠ 0 := by linarith
    rw [eq_div_iff this] at hw'
    rw [eq_div_iff hp.ne']
    linarith

theorem integrand_eq (c : ℝ) (hc : c ≠ 0) (B g : Fin n → ℝ) (hn : 0 < n) (lam : ℝ) : integrand c B g lam = lam / average g (fun i => √(1 - lam * B i)) := by
  unfold integrand
  rw [ratio_eq c hc g _ hn]

/-- The antiderivative. -/
noncomputable def anti (b lam : ℝ) : ℝ := -(2 / 3) * ((2 + lam * b) * √(1 - lam * b))

theorem anti_deriv (b lam : ℝ) (h : lam * b < 1) : HasDerivAt (anti b) (b ^ 2 * (lam / √(1 - lam * b))) lam := by
  have hp : 0 < 1 - lam * b := by linarith
  have h1 : HasDerivAt (fun x : ℝ => 1 - x * b) (-b) lam := by
    have := ((hasDerivAt_id lam).mul_const b).const_sub 1
    simpa using this
  have h2 : HasDerivAt (fun x : ℝ => 2 + x * b) b lam := by
    have := ((hasDerivAt_id lam).mul_const b).const_add 2
    simpa using this
  have h3 := (h2.fun_mul (h1.sqrt hp.ne')).const_mul (-(2 / 3))
  refine h3.congr_deriv ?_
  have hs : √(1 - lam * b) ≠ 0 := (sqrt_pos.2 hp).ne'
  have hsq : √(1 - lam * b) ^ 2 = 1 - lam * b := sq_sqrt hp.le
  generalize √(1 - lam * b) = r at hs hsq
  field_simp
  rw [hsq]
  ring

theorem anti_cont (b : ℝ) : Continuous (anti b) := by
  unfold anti
  fun_prop

theorem le_one_of (b M lam : ℝ) (h2 : b ≤ M) (hM : 0 < M) (h : lam < 1 / M) (h0 : 0 ≤ lam) : lam * b < 1 := by
  calc lam * b ≤ lam * M := mul_le_mul_of_nonneg_left h2 h0
    _ < 1 := by rwa [lt_div_iff₀ hM] at h

theorem piece_integrable (b M : ℝ) (h2 : b ≤ M) (hM : 0 < M) : IntervalIntegrable (fun lam => b ^ 2 * (lam / √(1 - lam * b))) MeasureTheory.volume 0 (1 / M) := by
  have hle : (0 : ℝ) ≤ 1 / M := by positivity
  refine intervalIntegral.intervalIntegrable_deriv_of_nonneg (g := anti b) (anti_cont b).continuousOn (fun x hx => ?_) (fun x hx => ?_)
  · rw [min_eq_left hle, max_eq_right hle] at hx
    exact anti_deriv b x (le_one_of b M x h2 hM hx.2 hx.1.le)
  · rw [min_eq_left hle, max_eq_right hle] at hx
    have := hx.1.le
    positivity

theorem piece_integral (b M : ℝ) (h2 : b ≤ M) (hM : 0 < M) : ∫ lam in (0 : ℝ)..1 / M, b ^ 2 * (lam / √(1 - lam * b)) = 4 / 3 - 2 / 3 * ((2 + 1 / M * b) * √(1 - 1 / M * b)) := by
  have hle : (0 : ℝ) ≤ 1 / M := by positivity
  rw [intervalIntegral.integral_eq_sub_of_hasDerivAt_of_le hle (anti_cont b).continuousOn (fun x hx => anti_deriv b x (le_one_of b M x h2 hM hx.2 hx.1.le)) (piece_integrable b M h2 hM)]
  unfold anti
  simp only [zero_mul, sub_zero, sqrt_one, add_zero, mul_one]
  ring

theorem piece_le (b M : ℝ) (h0 : 0 < b) (h2 : b ≤ M) : ∫ lam in (0 : ℝ)..1 / M, b ^ 2 * (lam / √(1 - lam * b)) ≤ 4 / 3 := by
  have hM : 0 < M := h0.trans_le h2
  rw [piece_integral b M h2 hM]
  have : 0 ≤ 2 / 3 * ((2 + 1 / M * b) * √(1 - 1 / M * b)) := by positivity
  linarith

/-- Chebyshev's inequality for an average. -/
theorem chebyshev (w x y : Fin n → ℝ) (hw : ∀ i, 0 ≤ w i) (h1 : ∑ i, w i = 1) (hm : ∀ i j, 0 ≤ (x i - x j) * (y i - y j)) : (∑ i, w i * x i) * (∑ i, w i * y i) ≤ ∑ i, w i * (x i * y i) := by
  have key : 0 ≤ ∑ i, ∑ j, w i * w j * ((x i - x j) * (y i - y j)) := Finset.sum_nonneg fun i _ => Finset.sum_nonneg fun j _ => mul_nonneg (mul_nonneg (hw i) (hw j)) (hm i j)
  have e : ∑ i, ∑ j, w i * w j * ((x i - x j) * (y i - y j)) = 2 * (∑ i, w i * (x i * y i)) - 2 * ((∑ i, w i * x i) * (∑ i, w i * y i)) := by
    have a1 : ∑ i, ∑ j, w i * w j * (x i * y i) = ∑ i, w i * (x i * y i) := by
      refine Finset.sum_congr rfl fun i _ => ?_
      rw [show ∑ j, w i * w j * (x i * y i) = (∑ j, w j) * (w i * (x i * y i)) by rw [Finset.sum_mul]; exact Finset.sum_congr rfl fun j _ => by ring]
      rw [h1, one_mul]
    have a2 : ∑ i, ∑ j, w i * w j * (x j * y j) = ∑ i, w i * (x i * y i) := by
      rw [Finset.sum_comm]
      refine (Finset.sum_congr rfl fun i _ => Finset.sum_congr rfl fun j _ => ?_).trans a1
      ring
    have a3 : ∑ i, ∑ j, w i * w j * (x i * y j) = (∑ i, w i * x i) * (∑ i, w i * y i) := by
      rw [Finset.sum_mul_sum]
      exact Finset.sum_congr rfl fun i _ => Finset.sum_congr rfl fun j _ => by ring
    have a4 : ∑ i, ∑ j, w i * w j * (x j * y i) = (∑ i, w i * x i) * (∑ i, w i * y i) := by
      rw [Finset.sum_comm]
      refine (Finset.sum_congr rfl fun i _ => Finset.sum_congr rfl fun j _ => ?_).trans a3
      ring
    calc _ = ∑ i, ∑ j, (w i * w j * (x i * y i) + w i * w j * (x j * y j) - w i * w j * (x i * y j) - w i * w j * (x j * y i)) :=
          Finset.sum_congr rfl fun i _ => Finset.sum_congr rfl fun j _ => by ring
      _ = _ := by
          simp only [Finset.sum_sub_distrib, Finset.sum_add_distrib]
          rw [a1, a2, a3, a4]
          ring
  linarith

theorem jensen_inv (w s : Fin n → ℝ) (hw : ∀ i, 0 ≤ w i) (h1 : ∑ i, w i = 1) (hs : ∀ i, 0 < s i) : 1 / (∑ i, w i * s i) ≤ ∑ i, w i * (1 / s i) := by
  have hp : 0 < ∑ i, w i * s i := by
    have : ∃ i, w i ≠ 0 := by
      by_contra hc
      push Not at hc
      simp [hc] at h1
    obtain ⟨i, hi⟩ := this
    exact Finset.sum_pos' (fun j _ => mul_nonneg (hw j) (hs j).le) ⟨i, Finset.mem_univ _, mul_pos (lt_of_le_of_ne (hw i) hi.symm) (hs i)⟩
  rw [div_le_iff₀ hp]
  have := chebyshev w s (fun i => -(1 / s i)) hw h1 (fun i j => by
    have e : (s i - s j) * (-(1 / s i) - -(1 / s j)) = (s i - s j) ^ 2 / (s i * s j) := by
      have := (hs i).ne'; have := (hs j).ne'
      field_simp
      ring
    rw [e]
    exact div_nonneg (sq_nonneg _) (mul_nonneg (hs i).le (hs j).le))
  have e1 : ∑ i, w i * (s i * -(1 / s i)) = -1 := by
    have e0 : ∑ i, w i * (s i * -(1 / s i)) = ∑ i, -w i := Finset.sum_congr rfl fun i _ => by
      have := (hs i).ne'
      field_simp
    rw [e0, Finset.sum_neg_distrib, h1]
  have e2 : ∑ i, w i * -(1 / s i) = -∑ i, w i * (1 / s i) := by
    rw [← Finset.sum_neg_distrib]
    exact Finset.sum_congr rfl fun i _ => by ring
  rw [e1, e2] at this
  linarith

/-- The integrand against its bound. -/
theorem integrand_le (c : ℝ) (hc : c ≠ 0) (B g : Fin n → ℝ) (hn : 0 < n) (h : OneSign g) (M : ℝ) (hB : ∀ i, 0 < B i) (h2 : ∀ i, B i ≤ M) (lam : ℝ) (hl0 : 0 ≤ lam) (hl : lam < 1 / M) :
    0 ≤ integrand c B g lam ∧ fsaB2 c B g * integrand c B g lam ≤ ∑ i, (g i / ∑ j, g j) * (B i ^ 2 * (lam / √(1 - lam * B i))) := by
  obtain ⟨w0, w1⟩ := weights g hn h
  have hM : 0 < M := (hB ⟨0, hn⟩).trans_le (h2 _)
  have hs : ∀ i, 0 < √(1 - lam * B i) := fun i => sqrt_pos.2 (by have := le_one_of (B i) M lam (h2 i) hM hl hl0; linarith)
  rw [integrand_eq c hc B g hn, (C176_averages c hc B g hn).1, average_weights, average_weights]
  generalize hw : (fun i => g i / ∑ j, g j) = w
  have hw' : ∀ i, g i / ∑ j, g j = w i := fun i => congrFun hw i
  simp only [hw'] at *
  constructor
  · exact div_nonneg hl0 (Finset.sum_nonneg fun i _ => mul_nonneg (w0 i).le (hs i).le)
  · have j := jensen_inv w (fun i => √(1 - lam * B i)) (fun i => (w0 i).le) w1 hs
    have ch := chebyshev w (fun i => B i ^ 2) (fun i => 1 / √(1 - lam * B i)) (fun i => (w0 i).le) w1 (fun i k => by
      have mono : ∀ i k, B i ≤ B k → 0 ≤ (B k ^ 2 - B i ^ 2) * (1 / √(1 - lam * B k) - 1 / √(1 - lam * B i)) := fun i k hik => by
        refine mul_nonneg (sub_nonneg.2 (pow_le_pow_left₀ (hB i).le hik 2)) (sub_nonneg.2 (one_div_le_one_div_of_le (hs k) (sqrt_le_sqrt ?_)))
        have := mul_le_mul_of_nonneg_left hik hl0
        linarith
      rcases le_total (B i) (B k) with hik | hik
      · have := mono i k hik
        nlinarith [this]
      · exact mono k i hik)
    have hB2 : 0 ≤ ∑ i, w i * B i ^ 2 := Finset.sum_nonneg fun i _ => mul_nonneg (w0 i).le (sq_nonneg _)
    calc (∑ i, w i * B i ^ 2) * (lam / ∑ i, w i * √(1 - lam * B i)) = lam * ((∑ i, w i * B i ^ 2) * (1 / ∑ i, w i * √(1 - lam * B i))) := by ring
      _ ≤ lam * ((∑ i, w i * B i ^ 2) * ∑ i, w i * (1 / √(1 - lam * B i))) := mul_le_mul_of_nonneg_left (mul_le_mul_of_nonneg_left j hB2) hl0
      _ ≤ lam * ∑ i, w i * (B i ^ 2 * (1 / √(1 - lam * B i))) := mul_le_mul_of_nonneg_left ch hl0
      _ = _ := by
          rw [Finset.mul_sum]
          exact Finset.sum_congr rfl fun i _ => by ring

/-- **C176**: the effective fraction of trapped particles lies between 0 and 1. -/
theorem C176_fraction (c : ℝ) (hc : c ≠ 0) (B g : Fin n → ℝ) (hn : 0 < n) (h : OneSign g) (M : ℝ) (hB : ∀ i, 0 < B i) (h2 : ∀ i, B i ≤ M) : 0 ≤ trapped c B g M ∧ trapped c B g M ≤ 1 := by
  obtain ⟨w0, w1⟩ := weights g hn h
  have hM : 0 < M := (hB ⟨0, hn⟩).trans_le (h2 _)
  have hle : (0 : ℝ) ≤ 1 / M := by positivity
  have hB2 : 0 ≤ fsaB2 c B g := by
    rw [(C176_averages c hc B g hn).1, average_weights]
    exact Finset.sum_nonneg fun i _ => mul_nonneg (w0 i).le (sq_nonneg _)
  have hint : ∀ i, i ∈ Finset.univ → IntervalIntegrable (fun lam => (g i / ∑ j, g j) * (B i ^ 2 * (lam / √(1 - lam * B i)))) MeasureTheory.volume 0 (1 / M) := fun i _ => (piece_integrable (B i) M (h2 i) hM).const_mul _
  have hsum : ∫ lam in (0 : ℝ)..1 / M, ∑ i, (g i / ∑ j, g j) * (B i ^ 2 * (lam / √(1 - lam * B i))) ≤ 4 / 3 := by
    rw [intervalIntegral.integral_finsetSum hint]
    calc _ = ∑ i, (g i / ∑ j, g j) * ∫ lam in (0 : ℝ)..1 / M, B i ^ 2 * (lam / √(1 - lam * B i)) := Finset.sum_congr rfl fun i _ => intervalIntegral.integral_const_mul _ _
      _ ≤ ∑ i, (g i / ∑ j, g j) * (4 / 3) := Finset.sum_le_sum fun i _ => mul_le_mul_of_nonneg_left (piece_le (B i) M (hB i) (h2 i)) (w0 i).le
      _ = 4 / 3 := by rw [← Finset.sum_mul, w1, one_mul]
  have hup : fsaB2 c B g * ∫ lam in (0 : ℝ)..1 / M, integrand c B g lam ≤ 4 / 3 := by
    rw [← intervalIntegral.integral_const_mul]
    by_cases hi : IntervalIntegrable (fun lam => fsaB2 c B g * integrand c B g lam) MeasureTheory.volume 0 (1 / M)
    · refine le_trans ?_ hsum
      refine intervalIntegral.integral_mono_on_of_le_Ioo hle hi ?_ (fun lam hl => (integrand_le c hc B g hn h M hB h2 lam hl.1.le hl.2).2)
      simpa only [Finset.sum_fn] using IntervalIntegrable.sum _ hint
    · rw [intervalIntegral.integral_undef hi]
      norm_num
  have hlow : 0 ≤ ∫ lam in (0 : ℝ)..1 / M, integrand c B g lam := by
    refine intervalIntegral.integral_nonneg hle fun lam hl => ?_
    rw [integrand_eq c hc B g hn, average_weights]
    exact div_nonneg hl.1 (Finset.sum_nonneg fun i _ => mul_nonneg (w0 i).le (sqrt_nonneg _))
  unfold trapped
  constructor
  · nlinarith [hup]
  · have := mul_nonneg hB2 hlow
    nlinarith [this]

/-- **C176**: a field of constant strength traps nothing. -/
theorem C176_constant (c : ℝ) (hc : c ≠ 0) (b : ℝ) (hb : 0 < b) (g : Fin n → ℝ) (hn : 0 < n) (h : OneSign g) : trapped c (fun _ => b) g b = 0 ∧ epsilon b b = 0 := by
  constructor
  · unfold trapped
    have e : ∀ lam, integrand c (fun _ => b) g lam = lam / √(1 - lam * b) := fun lam => by
      rw [integrand_eq c hc _ g hn, average_const g hn h]
    simp only [e]
    have hp := piece_integral b b le_rfl hb
    rw [intervalIntegral.integral_const_mul] at hp
    rw [(C176_averages c hc _ g hn).1, average_const g hn h, mul_assoc, hp]
    rw [one_div, inv_mul_cancel₀ hb.ne']
    norm_num
  · unfold epsilon
    rw [div_self hb.ne']
    norm_num

/-- **C176**: multiplying the field strength by a positive number, or the Jacobian by any number, changes neither fraction nor effective aspect ratio. -/
theorem C176_scaling (c : ℝ) (hc : c ≠ 0) (B g : Fin n → ℝ) (hn : 0 < n) (Bmin M : ℝ) (k r : ℝ) (hk : 0 < k) (hr : r ≠ 0) :
    trapped c (fun i => k * B i) (fun i => r * g i) (k * M) = trapped c B g M ∧ epsilon (k * Bmin) (k * M) = epsilon Bmin M := by
  have av : ∀ f : Fin n → ℝ, average (fun i => r * g i) f = average g f := fun f => by
    unfold average
    rw [show ∑ i, f i * (r * g i) = r * ∑ i, f i * g i by rw [Finset.mul_sum]; exact Finset.sum_congr rfl fun i _ => by ring, ← Finset.mul_sum, mul_div_mul_left _ _ hr]
  constructor
  · unfold trapped
    rw [(C176_averages c hc _ _ hn).1, (C176_averages c hc _ _ hn).1, av]
    have e1 : average g (fun i => (k * B i) ^ 2) = k ^ 2 * average g fun i => B i ^ 2 := by
      rw [average_weights, average_weights, Finset.mul_sum]
      exact Finset.sum_congr rfl fun i _ => by ring
    have e2 : ∀ lam, integrand c (fun i => k * B i) (fun i => r * g i) lam = k⁻¹ * integrand c B g (k * lam) := fun lam => by
      rw [integrand_eq c hc _ _ hn, integrand_eq c hc _ _ hn, av]
      have : (fun i => √(1 - lam * (k * B i))) = fun i => √(1 - k * lam * B i) := funext fun i => by congr 1; ring
      rw [this]
      field_simp
    simp only [e2]
    rw [intervalIntegral.integral_const_mul, intervalIntegral.integral_comp_mul_left (fun x => integrand c B g x) hk.ne', e1]
    rw [mul_zero, show k * (1 / (k * M)) = 1 / M by field_simp, smul_eq_mul]
    have := hk.ne'
    field_simp
  · unfold epsilon
    rw [mul_div_mul_left _ _ hk.ne']

/-- A field that is not constant. -/
example : 0 ≤ trapped (2 * π) (fun i : Fin 2 => if i = 0 then 1 else 2) (fun _ => -1) 2 ∧ trapped (2 * π) (fun i : Fin 2 => if i = 0 then 1 else 2) (fun _ => -1) 2 ≤ 1 :=
  C176_fraction _ (by positivity) _ _ (by norm_num) (Or.inr fun _ => by norm_num) 2 (fun i => by split <;> norm_num) (fun i => by split <;> norm_num)

end Simsopt.Bootstrap
