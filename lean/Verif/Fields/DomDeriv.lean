import Verif.Fields.DomModel
/-!
# The radial functions of the Dommaschk field: derivatives and Laplace's equation
-/
namespace Simsopt.Fields.Dom
open Finset

/-- `Z ^ e / Γ(e + 1)`, which is 0 for negative exponents. -/
noncomputable def pz (e : ℤ) (Z : ℝ) : ℝ := Z ^ e / Real.Gamma (e + 1)

theorem pz_neg {e : ℤ} (h : e < 0) (Z : ℝ) : pz e Z = 0 := by
  obtain ⟨k, hk⟩ : ∃ k : ℕ, e + 1 = -(k : ℤ) := ⟨(-(e + 1)).toNat, by omega⟩
  have : ((e : ℝ) + 1) = -(k : ℝ) := by exact_mod_cast hk
  rw [pz, this, Real.Gamma_neg_nat_eq_zero, div_zero]

theorem pz_step {e : ℤ} (h : 1 ≤ e) (Z : ℝ) : e * Z ^ (e - 1) / Real.Gamma (e + 1) = pz (e - 1) Z := by
  have h0 : (e : ℝ) ≠ 0 := by exact_mod_cast (by omega : e ≠ 0)
  rw [Real.Gamma_add_one h0, pz]
  have : ((e - 1 : ℤ) : ℝ) + 1 = e := by push_cast; ring
  rw [this]
  field_simp

theorem d_pz (e : ℤ) (Z : ℝ) : HasDerivAt (pz e) (pz (e - 1) Z) Z := by
  rcases lt_trichotomy e 0 with h | h | h
  · rw [pz_neg (by omega)]
    exact (hasDerivAt_const Z (0 : ℝ)).congr_of_eventuallyEq (Filter.Eventually.of_forall fun s => pz_neg h s)
  · subst h
    rw [pz_neg (by omega)]
    refine (hasDerivAt_const Z (1 : ℝ)).congr_of_eventuallyEq (Filter.Eventually.of_forall fun s => ?_)
    simp [pz]
  · refine ((hasDerivAt_zpow e Z (Or.inr (by omega))).div_const (Real.Gamma (e + 1))).congr_deriv ?_
    exact pz_step (by omega) Z

/-- The coefficient sequences of `Dmn` and of `Nmn`. -/
noncomputable def qD (m : ℤ) : Seqs := ⟨alphas m, fun l => gammas m l - alpha m l, betas m⟩
noncomputable def qN (m : ℤ) : Seqs := ⟨alpha m, gamma1 m, beta m⟩

theorem qD_neg (m : ℤ) : ∀ l < 0, (qD m).X l = 0 := fun l h => by simp [qD, alphas, alpha, h]
theorem qN_neg (m : ℤ) : ∀ l < 0, (qN m).X l = 0 := fun l h => by simp [qN, alpha, h]

/-- Sums over `k` with the given shift of the exponent of `Z`. -/
noncomputable def ser (n : ℤ) (sh : ℤ) (f : ℕ → ℝ) (Z : ℝ) : ℝ := ∑ k ∈ range (cnt n), pz (n - 2 * k - sh) Z * f k

theorem mem_cnt {n : ℤ} {k : ℕ} (h : k ∈ range (cnt n)) (hn : 0 ≤ n) : 0 ≤ n - 2 * (k : ℤ) := by
  have := mem_range.mp h
  unfold cnt at this
  rw [Int.tdiv_eq_ediv_of_nonneg hn] at this
  omega

theorem cast_e (n : ℤ) (k : ℕ) : ((n - 2 * (k : ℤ) : ℤ) : ℝ) = n - 2 * k := by push_cast; ring

theorem Dmn_eq (m n : ℤ) (R Z : ℝ) : Dmn m n R Z = ser n 0 (fun k => (qD m).S m k R) Z := by
  unfold Dmn ser
  refine sum_congr rfl fun k _ => ?_
  rw [sub_zero, pz, cast_e]
  congr 1
  refine sum_congr rfl fun j _ => ?_
  simp only [Seqs.term, Seqs.c, qD]
  ring

theorem dRDmn_eq (m n : ℤ) (R Z : ℝ) : dRDmn m n R Z = ser n 0 (fun k => (qD m).dS m k R) Z := by
  unfold dRDmn ser
  refine sum_congr rfl fun k _ => ?_
  rw [sub_zero, pz, cast_e]
  congr 1
  refine sum_congr rfl fun j _ => ?_
  simp only [Seqs.dterm, Seqs.c, qD]
  ring

theorem dRRDmn_eq (m n : ℤ) (R Z : ℝ) : dRRDmn m n R Z = ser n 0 (fun k => (qD m).ddS m k R) Z := by
  unfold dRRDmn ser
  refine sum_congr rfl fun k _ => ?_
  rw [sub_zero, pz, cast_e]
  congr 1
  refine sum_congr rfl fun j _ => ?_
  simp only [Seqs.ddterm, Seqs.c, qD]
  ring

theorem dZDmn_eq (m : ℤ) {n : ℤ} (hn : 0 ≤ n) (R Z : ℝ) : dZDmn m n R Z = ser n 1 (fun k => (qD m).S m k R) Z := by
  unfold dZDmn ser
  refine sum_congr rfl fun k hk => ?_
  have h0 := mem_cnt hk hn
  by_cases h : n - 2 * (k : ℤ) = 0
  · rw [if_pos h, pz_neg (by omega), zero_mul]
  · rw [if_neg h, ← cast_e, pz_step (by omega)]
    congr 1
    refine sum_congr rfl fun j _ => ?_
    simp only [Seqs.term, Seqs.c, qD]
    ring

theorem dRZDmn_eq (m : ℤ) {n : ℤ} (hn : 0 ≤ n) (R Z : ℝ) : dRZDmn m n R Z = ser n 1 (fun k => (qD m).dS m k R) Z := by
  unfold dRZDmn ser
  refine sum_congr rfl fun k hk => ?_
  have h0 := mem_cnt hk hn
  by_cases h : n - 2 * (k : ℤ) = 0
  · rw [if_pos h, pz_neg (by omega), zero_mul]
  · rw [if_neg h, pz]
    have : ((n - 2 * (k : ℤ) - 1 : ℤ) : ℝ) + 1 = n - 2 * k := by push_cast; ring
    rw [this]
    congr 1
    refine sum_congr rfl fun j _ => ?_
    simp only [Seqs.dterm, Seqs.c, qD]
    ring

theorem dZZDmn_eq (m : ℤ) {n : ℤ} (hn : 0 ≤ n) (R Z : ℝ) : dZZDmn m n R Z = ser n 2 (fun k => (qD m).S m k R) Z := by
  unfold dZZDmn ser
  refine sum_congr rfl fun k hk => ?_
  have h0 := mem_cnt hk hn
  by_cases h : n - 2 * (k : ℤ) = 0 ∨ n - 2 * (k : ℤ) - 1 = 0
  · rw [if_pos h, pz_neg (by omega), zero_mul]
  · rw [if_neg h]
    have e := pz_step (e := n - 2 * (k : ℤ) - 1) (by omega) Z
    have e1 : n - 2 * (k : ℤ) - 1 - 1 = n - 2 * (k : ℤ) - 2 := by ring
    have e2 : ((n - 2 * (k : ℤ) - 1 : ℤ) : ℝ) = n - 2 * k - 1 := by push_cast; ring
    rw [e1, e2, sub_add_cancel] at e
    rw [e]
    congr 1
    refine sum_congr rfl fun j _ => ?_
    simp only [Seqs.term, Seqs.c, qD]
    ring

theorem Nmn_eq (m n : ℤ) (R Z : ℝ) : Nmn m n R Z = -ser n 0 (fun k => (qN m).S m k R) Z := by
  unfold Nmn ser
  rw [← sum_neg_distrib]
  refine sum_congr rfl fun k _ => ?_
  rw [sub_zero, pz, cast_e, ← mul_neg]
  congr 1
  simp only [Seqs.S]
  rw [← sum_neg_distrib]
  refine sum_congr rfl fun j _ => ?_
  simp only [Seqs.term, Seqs.c, qN]
  ring

theorem dRNmn_eq (m n : ℤ) (R Z : ℝ) : dRNmn m n R Z = -ser n 0 (fun k => (qN m).dS m k R) Z := by
  unfold dRNmn ser
  rw [← sum_neg_distrib]
  refine sum_congr rfl fun k _ => ?_
  rw [sub_zero, pz, cast_e, ← mul_neg]
  congr 1
  simp only [Seqs.dS]
  rw [← sum_neg_distrib]
  refine sum_congr rfl fun j _ => ?_
  simp only [Seqs.dterm, Seqs.c, qN]
  ring

theorem dRRNmn_eq (m n : ℤ) (R Z : ℝ) : dRRNmn m n R Z = -ser n 0 (fun k => (qN m).ddS m k R) Z := by
  unfold dRRNmn ser
  rw [← sum_neg_distrib]
  refine sum_congr rfl fun k _ => ?_
  rw [sub_zero, pz, cast_e, ← mul_neg]
  congr 1
  simp only [Seqs.ddS]
  rw [← sum_neg_distrib]
  refine sum_congr rfl fun j _ => ?_
  simp only [Seqs.ddterm, Seqs.c, qN]
  ring

/-- The index of `Nmn` is one less than the harmonic; it may be -1. -/
theorem exp_cases {n : ℤ} (hn : -1 ≤ n) {k : ℕ} (h : k ∈ range (cnt n)) : (n < 0 ∧ n - 2 * (k : ℤ) < 0) ∨ (0 ≤ n ∧ 0 ≤ n - 2 * (k : ℤ)) := by
  by_cases h0 : 0 ≤ n
  · exact Or.inr ⟨h0, mem_cnt h h0⟩
  · exact Or.inl ⟨by omega, by omega⟩

theorem dZNmn_eq (m : ℤ) {n : ℤ} (hn : -1 ≤ n) (R Z : ℝ) : dZNmn m n R Z = -ser n 1 (fun k => (qN m).S m k R) Z := by
  unfold dZNmn ser
  rw [← sum_neg_distrib]
  refine sum_congr rfl fun k hk => ?_
  have h0 := exp_cases hn hk
  by_cases h : n - 2 * (k : ℤ) = 0 ∨ n < 0
  · rw [if_pos h, pz_neg (by omega), zero_mul, neg_zero]
  · rw [if_neg h, ← cast_e, pz_step (by omega), ← mul_neg]
    congr 1
    simp only [Seqs.S]
    rw [← sum_neg_distrib]
    refine sum_congr rfl fun j _ => ?_
    simp only [Seqs.term, Seqs.c, qN]
    ring

theorem dRZNmn_eq (m : ℤ) {n : ℤ} (hn : -1 ≤ n) (R Z : ℝ) : dRZNmn m n R Z = -ser n 1 (fun k => (qN m).dS m k R) Z := by
  unfold dRZNmn ser
  rw [← sum_neg_distrib]
  refine sum_congr rfl fun k hk => ?_
  have h0 := exp_cases hn hk
  by_cases h : n - 2 * (k : ℤ) = 0 ∨ n < 0
  · rw [if_pos h, pz_neg (by omega), zero_mul, neg_zero]
  · rw [if_neg h, ← cast_e, pz_step (by omega), ← mul_neg]
    congr 1
    simp only [Seqs.dS]
    rw [← sum_neg_distrib]
    refine sum_congr rfl fun j _ => ?_
    simp only [Seqs.dterm, Seqs.c, qN]
    ring

theorem dZZNmn_eq (m : ℤ) {n : ℤ} (hn : -1 ≤ n) (R Z : ℝ) : dZZNmn m n R Z = -ser n 2 (fun k => (qN m).S m k R) Z := by
  have hlast : ser n 2 (fun k => (qN m).S m k R) Z = ∑ k ∈ range (n.tdiv 2).toNat, pz (n - 2 * k - 2) Z * (qN m).S m k R := by
    unfold ser
    have hc : cnt n = (n.tdiv 2).toNat + 1 := by
      unfold cnt
      by_cases h0 : 0 ≤ n
      · rw [Int.tdiv_eq_ediv_of_nonneg h0]; omega
      · have : n = -1 := by omega
        subst this; rfl
    rw [hc, sum_range_succ, pz_neg, zero_mul, add_zero]
    by_cases h0 : 0 ≤ n
    · rw [Int.tdiv_eq_ediv_of_nonneg h0]; omega
    · omega
  rw [hlast]
  unfold dZZNmn
  rw [← sum_neg_distrib]
  refine sum_congr rfl fun k hk => ?_
  have hk' : k ∈ range (cnt n) := by
    have := mem_range.mp hk
    rw [mem_range]
    unfold cnt
    omega
  have h0 := exp_cases hn hk'
  by_cases h : n - 2 * (k : ℤ) = 0 ∨ n - 2 * (k : ℤ) - 1 = 0 ∨ n < 0
  · rw [if_pos h, pz_neg (by omega), zero_mul, neg_zero]
  · rw [if_neg h]
    have e := pz_step (e := n - 2 * (k : ℤ) - 1) (by omega) Z
    have e1 : n - 2 * (k : ℤ) - 1 - 1 = n - 2 * (k : ℤ) - 2 := by ring
    have e2 : ((n - 2 * (k : ℤ) - 1 : ℤ) : ℝ) = n - 2 * k - 1 := by push_cast; ring
    rw [e1, e2, sub_add_cancel] at e
    rw [e, ← mul_neg]
    congr 1
    simp only [Seqs.S]
    rw [← sum_neg_distrib]
    refine sum_congr rfl fun j _ => ?_
    simp only [Seqs.term, Seqs.c, qN]
    ring

/-! ## Derivatives along a curve -/

theorem d_ser (n sh : ℤ) {f : ℕ → ℝ → ℝ} {f' : ℕ → ℝ} {r z : ℝ → ℝ} {r' z' t : ℝ} (hf : ∀ k, HasDerivAt (f k) (f' k) (r t)) (hr : HasDerivAt r r' t) (hz : HasDerivAt z z' t) :
    HasDerivAt (fun s => ser n sh (fun k => f k (r s)) (z s)) (ser n sh f' (z t) * r' + ser n (sh + 1) (fun k => f k (r t)) (z t) * z') t := by
  unfold ser
  have h : HasDerivAt (fun s => ∑ k ∈ range (cnt n), pz (n - 2 * k - sh) (z s) * f k (r s)) (∑ k ∈ range (cnt n), (pz (n - 2 * k - sh - 1) (z t) * z' * f k (r t) + pz (n - 2 * k - sh) (z t) * (f' k * r'))) t :=
    HasDerivAt.fun_sum fun k _ => ((d_pz (n - 2 * k - sh) (z t)).comp t hz).fun_mul ((hf k).comp t hr)
  refine h.congr_deriv ?_
  rw [sum_mul, sum_mul, ← sum_add_distrib]
  refine sum_congr rfl fun k _ => ?_
  have : n - 2 * (k : ℤ) - (sh + 1) = n - 2 * (k : ℤ) - sh - 1 := by ring
  rw [this]
  ring

section
variable {m n : ℤ} {r z : ℝ → ℝ} {r' z' t : ℝ}

theorem d_Dmn (hm : 2 ≤ m) (hn : 0 ≤ n) (hR : r t ≠ 0) (hr : HasDerivAt r r' t) (hz : HasDerivAt z z' t) :
    HasDerivAt (fun s => Dmn m n (r s) (z s)) (dRDmn m n (r t) (z t) * r' + dZDmn m n (r t) (z t) * z') t := by
  simp only [Dmn_eq, dRDmn_eq, dZDmn_eq m hn]
  exact d_ser n 0 (fun k => (qD m).d_S (by omega) k hR) hr hz

theorem d_dRDmn (hm : 2 ≤ m) (hn : 0 ≤ n) (hR : r t ≠ 0) (hr : HasDerivAt r r' t) (hz : HasDerivAt z z' t) :
    HasDerivAt (fun s => dRDmn m n (r s) (z s)) (dRRDmn m n (r t) (z t) * r' + dRZDmn m n (r t) (z t) * z') t := by
  simp only [dRRDmn_eq, dRDmn_eq, dRZDmn_eq m hn]
  exact d_ser n 0 (fun k => (qD m).d_dS hm k hR) hr hz

theorem d_dZDmn (hm : 2 ≤ m) (hn : 0 ≤ n) (hR : r t ≠ 0) (hr : HasDerivAt r r' t) (hz : HasDerivAt z z' t) :
    HasDerivAt (fun s => dZDmn m n (r s) (z s)) (dRZDmn m n (r t) (z t) * r' + dZZDmn m n (r t) (z t) * z') t := by
  simp only [dZDmn_eq m hn, dRZDmn_eq m hn, dZZDmn_eq m hn]
  exact d_ser n 1 (fun k => (qD m).d_S (by omega) k hR) hr hz

theorem d_Nmn (hm : 2 ≤ m) (hn : -1 ≤ n) (hR : r t ≠ 0) (hr : HasDerivAt r r' t) (hz : HasDerivAt z z' t) :
    HasDerivAt (fun s => Nmn m n (r s) (z s)) (dRNmn m n (r t) (z t) * r' + dZNmn m n (r t) (z t) * z') t := by
  simp only [Nmn_eq, dRNmn_eq, dZNmn_eq m hn]
  exact (d_ser n 0 (fun k => (qN m).d_S (by omega) k hR) hr hz).fun_neg.congr_deriv (by ring_nf)

theorem d_dRNmn (hm : 2 ≤ m) (hn : -1 ≤ n) (hR : r t ≠ 0) (hr : HasDerivAt r r' t) (hz : HasDerivAt z z' t) :
    HasDerivAt (fun s => dRNmn m n (r s) (z s)) (dRRNmn m n (r t) (z t) * r' + dRZNmn m n (r t) (z t) * z') t := by
  simp only [dRRNmn_eq, dRNmn_eq, dRZNmn_eq m hn]
  exact (d_ser n 0 (fun k => (qN m).d_dS hm k hR) hr hz).fun_neg.congr_deriv (by ring_nf)

theorem d_dZNmn (hm : 2 ≤ m) (hn : -1 ≤ n) (hR : r t ≠ 0) (hr : HasDerivAt r r' t) (hz : HasDerivAt z z' t) :
    HasDerivAt (fun s => dZNmn m n (r s) (z s)) (dRZNmn m n (r t) (z t) * r' + dZZNmn m n (r t) (z t) * z') t := by
  simp only [dZNmn_eq m hn, dRZNmn_eq m hn, dZZNmn_eq m hn]
  exact (d_ser n 1 (fun k => (qN m).d_S (by omega) k hR) hr hz).fun_neg.congr_deriv (by ring_nf)
end

/-! ## Laplace's equation -/

theorem ser_laplace (q : Seqs) (hX : ∀ l < 0, q.X l = 0) {m n : ℤ} (hm : 2 ≤ m) (hn : -1 ≤ n) {R : ℝ} (hR : R ≠ 0) (Z : ℝ) :
    R ^ 2 * ser n 0 (fun k => q.ddS m k R) Z + R * ser n 0 (fun k => q.dS m k R) Z - m ^ 2 * ser n 0 (fun k => q.S m k R) Z + R ^ 2 * ser n 2 (fun k => q.S m k R) Z = 0 := by
  have h1 : R ^ 2 * ser n 0 (fun k => q.ddS m k R) Z + R * ser n 0 (fun k => q.dS m k R) Z - m ^ 2 * ser n 0 (fun k => q.S m k R) Z = ∑ k ∈ range (cnt n), pz (n - 2 * k) Z * -(R ^ 2 * match k with | 0 => 0 | k + 1 => q.S m k R) := by
    unfold ser
    rw [mul_sum, mul_sum, mul_sum, ← sum_add_distrib, ← sum_sub_distrib]
    refine sum_congr rfl fun k _ => ?_
    have hb := q.bessel hX hm k hR
    rw [sub_zero]
    cases k with
    | zero => dsimp only at hb ⊢; linear_combination pz (n - 2 * (0 : ℕ)) Z * hb
    | succ k => dsimp only at hb ⊢; linear_combination pz (n - 2 * (k + 1 : ℕ)) Z * hb
  obtain ⟨c, hc⟩ : ∃ c, cnt n = c + 1 := by
    refine ⟨(n.tdiv 2).toNat, ?_⟩
    unfold cnt
    by_cases h0 : 0 ≤ n
    · rw [Int.tdiv_eq_ediv_of_nonneg h0]; omega
    · have : n = -1 := by omega
      subst this; rfl
  have hneg : n - 2 * (c : ℤ) - 2 < 0 := by
    unfold cnt at hc
    by_cases h0 : 0 ≤ n
    · rw [Int.tdiv_eq_ediv_of_nonneg h0] at hc; omega
    · omega
  rw [h1]
  unfold ser
  rw [hc, sum_range_succ', sum_range_succ, pz_neg hneg, zero_mul, add_zero, mul_sum]
  simp only [mul_zero, neg_zero, add_zero]
  rw [← sum_add_distrib]
  refine sum_eq_zero fun k _ => ?_
  have : n - 2 * ((k + 1 : ℕ) : ℤ) = n - 2 * (k : ℤ) - 2 := by push_cast; ring
  rw [this]
  ring

theorem laplace_D {m n : ℤ} (hm : 2 ≤ m) (hn : 0 ≤ n) {R : ℝ} (hR : R ≠ 0) (Z : ℝ) : R ^ 2 * dRRDmn m n R Z + R * dRDmn m n R Z - m ^ 2 * Dmn m n R Z + R ^ 2 * dZZDmn m n R Z = 0 := by
  rw [dRRDmn_eq, dRDmn_eq, Dmn_eq, dZZDmn_eq m hn]
  exact ser_laplace (qD m) (qD_neg m) hm (by omega) hR Z

theorem laplace_N {m n : ℤ} (hm : 2 ≤ m) (hn : -1 ≤ n) {R : ℝ} (hR : R ≠ 0) (Z : ℝ) : R ^ 2 * dRRNmn m n R Z + R * dRNmn m n R Z - m ^ 2 * Nmn m n R Z + R ^ 2 * dZZNmn m n R Z = 0 := by
  rw [dRRNmn_eq, dRNmn_eq, Nmn_eq, dZZNmn_eq m hn]
  linear_combination -ser_laplace (qN m) (qN_neg m) hm hn hR Z

end Simsopt.Fields.Dom
