import Verif.NField.Ortho
/-! # C146: inverse transform after transform -/
namespace Simsopt.NField
open Simsopt Simsopt.RZSurf

/-- The weight of the mode number `m` on a grid of `K` points: one half for the Nyquist mode. -/
noncomputable def wt (K m : Nat) : ℝ := if K % 2 = 0 ∧ 2 * m = K then 1 / 2 else 1

theorem factor2_wt (g : Grid) (m : Nat) (n : Int) : g.factor2 m n = 2 / (g.ntheta * g.nphi) * (wt g.ntheta m * wt g.nphi n.natAbs) := by
  simp only [Grid.factor2, wt]
  by_cases h1 : g.ntheta % 2 = 0 ∧ 2 * m = g.ntheta <;> by_cases h2 : g.nphi % 2 = 0 ∧ 2 * n.natAbs = g.nphi
  · rw [if_pos h1, if_pos h2, if_pos h1, if_pos h2]; ring
  · rw [if_pos h1, if_neg h2, if_pos h1, if_neg h2]; ring
  · rw [if_neg h1, if_pos h2, if_neg h1, if_pos h2]; ring
  · rw [if_neg h1, if_neg h2, if_neg h1, if_neg h2]; ring

/-- The one-dimensional kernel. -/
noncomputable def kern (K : Nat) (x : ℝ) : ℝ := 1 + 2 * ∑ i ∈ Finset.range (K / 2), wt K (i + 1) * Real.cos (((i + 1 : Nat) : ℝ) * x)

theorem cos_refl (K : Nat) (hK : K ≠ 0) (d : Int) (i : Nat) (hi : i ≤ K) :
    Real.cos (((K - i : Nat) : ℝ) * (2 * Real.pi * (d / K))) = Real.cos ((i : ℝ) * (2 * Real.pi * (d / K))) := by
  have h : (K : ℝ) ≠ 0 := by exact_mod_cast hK
  rw [Nat.cast_sub hi, show ((K : ℝ) - i) * (2 * Real.pi * (d / K)) = -((i : ℝ) * (2 * Real.pi * (d / K))) + d * (2 * Real.pi) by field_simp; ring,
    Real.cos_add_int_mul_two_pi, Real.cos_neg]

theorem kern_sum (K : Nat) (hK : K ≠ 0) (d : Int) : kern K (2 * Real.pi * (d / K)) = ∑ i ∈ Finset.range K, Real.cos ((i : ℝ) * (2 * Real.pi * (d / K))) := by
  have refl : ∀ i, i ≤ K → Real.cos (((K - i : Nat) : ℝ) * (2 * Real.pi * (d / K))) = Real.cos ((i : ℝ) * (2 * Real.pi * (d / K))) := cos_refl K hK d
  generalize 2 * Real.pi * (d / K) = x at refl
  simp only [kern]
  rcases Nat.even_or_odd' K with ⟨M, hM | hM⟩
  · obtain ⟨M, rfl⟩ : ∃ M', M = M' + 1 := ⟨M - 1, by omega⟩
    have e1 : K / 2 = M + 1 := by omega
    rw [e1, Finset.sum_range_succ]
    have w0 : wt K (M + 1) = 1 / 2 := if_pos ⟨by omega, by omega⟩
    have w1 : ∀ i ∈ Finset.range M, wt K (i + 1) * Real.cos (((i + 1 : Nat) : ℝ) * x) = Real.cos (((i + 1 : Nat) : ℝ) * x) := by
      intro i hi
      have hi := Finset.mem_range.mp hi
      rw [wt, if_neg (by omega), one_mul]
    rw [w0, Finset.sum_congr rfl w1]
    have e2 : K = 1 + M + 1 + M := by omega
    conv_rhs => rw [e2]
    rw [Finset.sum_range_add, Finset.sum_range_succ, Finset.sum_range_add, Finset.sum_range_one]
    have e3 : ∑ i ∈ Finset.range M, Real.cos (((1 + M + 1 + i : Nat) : ℝ) * x) = ∑ i ∈ Finset.range M, Real.cos (((i + 1 : Nat) : ℝ) * x) := by
      rw [← Finset.sum_range_reflect]
      refine Finset.sum_congr rfl fun i hi => ?_
      have hi := Finset.mem_range.mp hi
      rw [← refl (i + 1) (by omega)]
      congr 3; omega
    rw [e3]
    have e4 : ∑ i ∈ Finset.range M, Real.cos (((1 + i : Nat) : ℝ) * x) = ∑ i ∈ Finset.range M, Real.cos (((i + 1 : Nat) : ℝ) * x) := by
      refine Finset.sum_congr rfl fun i _ => by rw [Nat.add_comm]
    rw [e4, Nat.add_comm 1 M]
    simp; ring
  · have e1 : K / 2 = M := by omega
    have w1 : ∀ i ∈ Finset.range M, wt K (i + 1) * Real.cos (((i + 1 : Nat) : ℝ) * x) = Real.cos (((i + 1 : Nat) : ℝ) * x) := by
      intro i hi
      rw [wt, if_neg (by omega), one_mul]
    rw [e1, Finset.sum_congr rfl w1]
    have e2 : K = 1 + M + M := by omega
    conv_rhs => rw [e2]
    rw [Finset.sum_range_add, Finset.sum_range_add, Finset.sum_range_one]
    have e3 : ∑ i ∈ Finset.range M, Real.cos (((1 + M + i : Nat) : ℝ) * x) = ∑ i ∈ Finset.range M, Real.cos (((i + 1 : Nat) : ℝ) * x) := by
      rw [← Finset.sum_range_reflect]
      refine Finset.sum_congr rfl fun i hi => ?_
      have hi := Finset.mem_range.mp hi
      rw [← refl (i + 1) (by omega)]
      congr 3; omega
    have e4 : ∑ i ∈ Finset.range M, Real.cos (((1 + i : Nat) : ℝ) * x) = ∑ i ∈ Finset.range M, Real.cos (((i + 1 : Nat) : ℝ) * x) := by
      refine Finset.sum_congr rfl fun i _ => by rw [Nat.add_comm]
    rw [e3, e4]
    simp; ring

theorem kern_delta (K : Nat) (hK : K ≠ 0) (a b : Nat) (ha : a < K) (hb : b < K) :
    kern K (2 * Real.pi * (((a : Int) - (b : Int) : Int) / (K : ℝ))) = if a = b then (K : ℝ) else 0 := by
  rw [kern_sum K hK]
  have := Trig.sum_cos_period K (Nat.pos_of_ne_zero hK) ((a : Int) - b) 0
  simp only [add_zero, Real.cos_zero, mul_one] at this
  rw [show ∑ i ∈ Finset.range K, Real.cos ((i : ℝ) * (2 * Real.pi * (((a : Int) - (b : Int) : Int) / (K : ℝ)))) =
      ∑ j ∈ Finset.range K, Real.cos ((((a : Int) - (b : Int) : Int) : ℝ) * (2 * Real.pi * ((j : ℝ) / K))) from
    Finset.sum_congr rfl fun i _ => by congr 1; ring]
  rw [this]
  have hd : (K : ℤ) ∣ (a : Int) - b ↔ (a : Int) - b = 0 := BField.dvd_iff_zero (by rw [abs_lt]; omega)
  by_cases h : a = b
  · rw [if_pos h, if_pos (hd.mpr (by omega))]
  · rw [if_neg h, if_neg (fun hh => h (by have := hd.mp hh; omega))]

/-- The symmetric sum over `n` of the weighted cosines. -/
theorem sym_sum (L : Nat) (hL : L ≠ 0) (x y : ℝ) :
    ∑ n ∈ Finset.Icc (-((L / 2 : Nat) : Int)) ((L / 2 : Nat) : Int), wt L n.natAbs * Real.cos (x - n * y) = Real.cos x * kern L y := by
  rw [Garab.sum_sym]
  have w0 : wt L (0 : Int).natAbs = 1 := if_neg (by simp; omega)
  rw [w0, kern, mul_add, mul_one, Finset.mul_sum, Finset.mul_sum]
  congr 1
  · simp
  · refine Finset.sum_congr rfl fun i _ => ?_
    rw [show ((i : Int) + 1).natAbs = i + 1 by omega, show (-((i : Int) + 1)).natAbs = i + 1 by omega]
    push_cast
    rw [show x - -((i : ℝ) + 1) * y = x + (i + 1) * y by ring, Real.cos_sub, Real.cos_add]
    ring

theorem pos_sum (L : Nat) (y : ℝ) :
    ∑ n ∈ Finset.Icc (1 : Int) ((L / 2 : Nat) : Int), wt L n.natAbs * Real.cos (n * y) = ∑ i ∈ Finset.range (L / 2), wt L (i + 1) * Real.cos (((i + 1 : Nat) : ℝ) * y) := by
  symm
  refine Finset.sum_nbij' (fun i => (i : Int) + 1) (fun n => (n - 1).toNat) ?_ ?_ ?_ ?_ ?_
  · intro i hi; simp only [Finset.mem_range, Finset.mem_Icc] at hi ⊢; omega
  · intro n hn; simp only [Finset.mem_range, Finset.mem_Icc] at hn ⊢; omega
  · intro i _; simp
  · intro n hn; simp only [Finset.mem_Icc] at hn; omega
  · intro i _
    rw [show ((i : Int) + 1).natAbs = i + 1 by omega]
    push_cast; rfl

/-- The two-dimensional kernel factorises. -/
theorem kern2 (K L : Nat) (hK : K ≠ 0) (hL : L ≠ 0) (x y : ℝ) :
    2 * ∑ m ∈ Finset.range (K / 2 + 1), ∑ n ∈ Finset.Icc (if m = 0 then 1 else -((L / 2 : Nat) : Int)) ((L / 2 : Nat) : Int), wt K m * wt L n.natAbs * Real.cos (m * x - n * y) + 1 =
      kern K x * kern L y := by
  rw [Finset.sum_range_succ']
  simp only [Nat.add_eq_zero_iff, one_ne_zero, and_false, if_false, if_true]
  have w0 : wt K 0 = 1 := if_neg (by omega)
  have e1 : ∀ m : Nat, ∑ n ∈ Finset.Icc (-((L / 2 : Nat) : Int)) ((L / 2 : Nat) : Int), wt K (m + 1) * wt L n.natAbs * Real.cos (((m + 1 : Nat) : ℝ) * x - n * y) =
      wt K (m + 1) * Real.cos (((m + 1 : Nat) : ℝ) * x) * kern L y := by
    intro m
    rw [mul_assoc, ← sym_sum L hL, Finset.mul_sum]
    exact Finset.sum_congr rfl fun n _ => by ring
  have e2 : ∑ n ∈ Finset.Icc (1 : Int) ((L / 2 : Nat) : Int), wt K 0 * wt L n.natAbs * Real.cos (((0 : Nat) : ℝ) * x - n * y) =
      ∑ i ∈ Finset.range (L / 2), wt L (i + 1) * Real.cos (((i + 1 : Nat) : ℝ) * y) := by
    rw [← pos_sum]
    refine Finset.sum_congr rfl fun n _ => ?_
    rw [w0, show ((0 : Nat) : ℝ) * x - n * y = -(n * y) by simp, Real.cos_neg, one_mul]
  rw [Finset.sum_congr rfl fun m _ => e1 m, e2, ← Finset.sum_mul]
  simp only [kern]
  ring

/-- **C146.** Transform followed by inverse transform is the identity on the grid of one field period: for every scalar on the grid, with `mpol = ⌊ntheta/2⌋`,
`ntor = ⌊nphi/2⌋`, `stellsym=False` and any normalization, the result agrees with the scalar at every grid point. -/
theorem C146_values (g : Grid) (h : g.FieldPeriod) (norm : Option ℝ) (hc : norm ≠ some 0) (f : Nat → Nat → ℝ) (k j : Nat) (hk : k < g.nphi) (hj : j < g.ntheta) :
    let A := g.transform (g.ntheta / 2) (g.nphi / 2) false norm f
    g.inverse (g.ntheta / 2) (g.nphi / 2) false norm A.1 A.2 k j = f k j := by
  intro A
  have hs := h.step
  have hc' : norm.getD 1 ≠ 0 := by cases norm with | none => simp | some c => simpa using hc
  have hK : (g.ntheta : ℝ) ≠ 0 := by exact_mod_cast h.2.2.1
  have hL : (g.nphi : ℝ) ≠ 0 := by exact_mod_cast h.2.1
  obtain ⟨t1, t2, t3, t4, t5, t6⟩ := transform_at g (g.ntheta / 2) (g.nphi / 2) false norm f
  rw [inverse_sum]
  simp only [Bool.false_eq_true, if_false]
  rw [show A.2 (0, g.nphi / 2) = _ from t4 rfl]
  have hterm : ∀ m ∈ Finset.range (g.ntheta / 2 + 1), ∀ n ∈ Finset.Icc (if m = 0 then 1 else -((g.nphi / 2 : Nat) : Int)) ((g.nphi / 2 : Nat) : Int),
      A.1 (m, (n + (g.nphi / 2 : Nat)).toNat) * Real.sin (g.angle m n k j) + A.2 (m, (n + (g.nphi / 2 : Nat)).toNat) * Real.cos (g.angle m n k j) =
      g.sum fun k' j' => f k' j' * (2 / (g.ntheta * g.nphi) / norm.getD 1 * (wt g.ntheta m * wt g.nphi n.natAbs * Real.cos (m * (2 * Real.pi * (((j : Int) - (j' : Int) : Int) / (g.ntheta : ℝ))) - n * (2 * Real.pi * (((k : Int) - (k' : Int) : Int) / (g.nphi : ℝ)))))) := by
    intro m hm n hn
    have hmem : (m, n) ∈ modes (g.ntheta / 2) (g.nphi / 2) := by
      rw [mem_modes]
      simp only [Finset.mem_range, Finset.mem_Icc] at hm hn
      split at hn <;> omega
    rw [show A.1 (m, (n + (g.nphi / 2 : Nat)).toNat) = _ from t1 m n hmem, show A.2 (m, (n + (g.nphi / 2 : Nat)).toNat) = _ from t3 rfl m n hmem, div_mul_eq_mul_div, div_mul_eq_mul_div,
      ← add_div, mul_comm _ (Real.sin _), mul_comm _ (Real.cos _), ← gsum_mul, ← gsum_mul, ← gsum_add, div_eq_inv_mul, ← gsum_mul]
    congr 1
    funext k' j'
    rw [factor2_wt]
    have ea : (m : ℝ) * (2 * Real.pi * (((j : Int) - (j' : Int) : Int) / (g.ntheta : ℝ))) - n * (2 * Real.pi * (((k : Int) - (k' : Int) : Int) / (g.nphi : ℝ))) =
        g.angle m n k j - g.angle m n k' j' := by
      rw [angle_ang hs, angle_ang hs]; simp only [ang]; push_cast; ring
    rw [ea, Real.cos_sub]
    ring
  rw [Finset.sum_congr rfl fun m hm => Finset.sum_congr rfl fun n hn => hterm m hm n hn]
  have swap : ∀ F : Nat → Int → Nat → Nat → ℝ, (∑ m ∈ Finset.range (g.ntheta / 2 + 1), ∑ n ∈ Finset.Icc (if m = 0 then 1 else -((g.nphi / 2 : Nat) : Int)) ((g.nphi / 2 : Nat) : Int), g.sum (F m n)) =
      g.sum fun k' j' => ∑ m ∈ Finset.range (g.ntheta / 2 + 1), ∑ n ∈ Finset.Icc (if m = 0 then 1 else -((g.nphi / 2 : Nat) : Int)) ((g.nphi / 2 : Nat) : Int), F m n k' j' := by
    intro F
    rw [gsum_sum]
    exact Finset.sum_congr rfl fun m _ => (gsum_sum _ _ _).symm
  rw [swap]
  simp only [← Finset.mul_sum]
  have e1 : g.sum (fun k j => f k j) / (g.ntheta * g.nphi) / norm.getD 1 = g.sum fun k' j' => f k' j' * (1 / (g.ntheta * g.nphi) / norm.getD 1) := by
    rw [show (fun k' j' => f k' j' * (1 / ((g.ntheta : ℝ) * g.nphi) / norm.getD 1)) = fun k' j' => (1 / ((g.ntheta : ℝ) * g.nphi) / norm.getD 1) * f k' j' from by funext k' j'; ring, gsum_mul]
    ring
  rw [e1, ← gsum_add]
  have e2 : ∀ k' ∈ Finset.range g.nphi, ∀ j' ∈ Finset.range g.ntheta, f k' j' * (2 / (g.ntheta * g.nphi) / norm.getD 1 * (∑ m ∈ Finset.range (g.ntheta / 2 + 1), ∑ n ∈ Finset.Icc (if m = 0 then 1 else -((g.nphi / 2 : Nat) : Int)) ((g.nphi / 2 : Nat) : Int),
        wt g.ntheta m * wt g.nphi n.natAbs * Real.cos (m * (2 * Real.pi * (((j : Int) - (j' : Int) : Int) / (g.ntheta : ℝ))) - n * (2 * Real.pi * (((k : Int) - (k' : Int) : Int) / (g.nphi : ℝ)))))) +
      f k' j' * (1 / (g.ntheta * g.nphi) / norm.getD 1) = if k' = k then (if j' = j then f k j / norm.getD 1 else 0) else 0 := by
    intro k' hk' j' hj'
    have := kern2 g.ntheta g.nphi h.2.2.1 h.2.1 (2 * Real.pi * (((j : Int) - (j' : Int) : Int) / (g.ntheta : ℝ))) (2 * Real.pi * (((k : Int) - (k' : Int) : Int) / (g.nphi : ℝ)))
    rw [kern_delta _ h.2.2.1 j j' hj (Finset.mem_range.mp hj'), kern_delta _ h.2.1 k k' hk (Finset.mem_range.mp hk')] at this
    rw [show ∀ X : ℝ, f k' j' * (2 / ((g.ntheta : ℝ) * g.nphi) / norm.getD 1 * X) + f k' j' * (1 / (g.ntheta * g.nphi) / norm.getD 1) =
      f k' j' * (1 / (g.ntheta * g.nphi) / norm.getD 1) * (2 * X + 1) from fun X => by ring, this]
    by_cases a : k' = k
    · by_cases b : j' = j
      · subst a; subst b; simp only [if_true]; field_simp
      · rw [if_pos a, if_neg b, if_neg (Ne.symm b)]; ring
    · rw [if_neg a, if_neg (Ne.symm a)]; ring
  simp only [Grid.sum]
  rw [Finset.sum_congr rfl fun k' hk' => Finset.sum_congr rfl fun j' hj' => e2 k' hk' j' hj']
  rw [Finset.sum_eq_single k (fun x _ hx => by simp [hx]) (fun hx => absurd (Finset.mem_range.mpr hk) hx)]
  simp only [if_true]
  rw [Finset.sum_eq_single j (fun x _ hx => by simp [hx]) (fun hx => absurd (Finset.mem_range.mpr hj) hx), if_pos rfl]
  field_simp

/-- The index of the angle `-x` on a periodic grid of `K` points. -/
def neg (K i : Nat) : Nat := (K - i) % K

theorem neg_lt (K i : Nat) (hK : K ≠ 0) : neg K i < K := Nat.mod_lt _ (Nat.pos_of_ne_zero hK)

theorem neg_eq (K i : Nat) (hi : i < K) : neg K i = if i = 0 then 0 else K - i := by
  simp only [neg]
  split
  · rename_i h; rw [h]; simp
  · exact Nat.mod_eq_of_lt (by omega)

theorem sum_neg (K : Nat) (hK : K ≠ 0) (F : Nat → ℝ) : ∑ i ∈ Finset.range K, F (neg K i) = ∑ i ∈ Finset.range K, F i := by
  refine Finset.sum_nbij' (neg K) (neg K) ?_ ?_ ?_ ?_ (fun _ _ => rfl)
  · intro i _; exact Finset.mem_range.mpr (neg_lt K i hK)
  · intro i _; exact Finset.mem_range.mpr (neg_lt K i hK)
  all_goals
    intro i hi
    have hi := Finset.mem_range.mp hi
    rw [neg_eq K _ (neg_lt K i hK), neg_eq K i hi]
    split_ifs <;> omega

theorem gsum_neg (g : Grid) (h1 : g.nphi ≠ 0) (h2 : g.ntheta ≠ 0) (F : Nat → Nat → ℝ) : g.sum (fun k j => F (neg g.nphi k) (neg g.ntheta j)) = g.sum F := by
  simp only [Grid.sum]
  rw [← sum_neg g.nphi h1 fun k => ∑ j ∈ Finset.range g.ntheta, F k j]
  exact Finset.sum_congr rfl fun k _ => sum_neg g.ntheta h2 fun j => F (neg g.nphi k) j

theorem cos_neg_index {g : Grid} {r : Nat} (h : g.Step r) (m : Nat) (n : Int) (k j : Nat) (hk : k < g.nphi) (hj : j < g.ntheta) :
    Real.cos (g.angle m n (neg g.nphi k) (neg g.ntheta j)) = Real.cos (g.angle m n k j) := by
  have hK : (g.ntheta : ℝ) ≠ 0 := by exact_mod_cast h.2.2.1
  have hL : (g.nphi : ℝ) ≠ 0 := by exact_mod_cast h.2.1
  have frac : ∀ (K i : Nat), (K : ℝ) ≠ 0 → i < K → ∃ z : Int, ((neg K i : Nat) : ℝ) / K = -((i : ℝ) / K) + z := by
    intro K i hK hi
    rw [neg_eq K i hi]
    split
    · rename_i h; exact ⟨0, by rw [h]; simp⟩
    · refine ⟨1, ?_⟩
      rw [Nat.cast_sub hi.le]; field_simp; push_cast; ring
  obtain ⟨z1, e1⟩ := frac _ k hL hk
  obtain ⟨z2, e2⟩ := frac _ j hK hj
  rw [angle_ang h, angle_ang h, ← Real.cos_neg (ang g r m n k j)]
  have : ang g r m n (neg g.nphi k) (neg g.ntheta j) = -ang g r m n k j + ((-(r * n) * z1 + m * z2 : Int) : ℝ) * (2 * Real.pi) := by
    simp only [ang]; rw [e1, e2]; push_cast; ring
  rw [this, Real.cos_add_int_mul_two_pi]

/-- **C146.** With `stellsym=True` the same holds for every scalar with the symmetry `f(-φ, -θ) = -f(φ, θ)` on the grid. -/
theorem C146_values_stellsym (g : Grid) (h : g.FieldPeriod) (norm : Option ℝ) (hc : norm ≠ some 0) (f : Nat → Nat → ℝ)
    (hodd : ∀ k j, k < g.nphi → j < g.ntheta → f ((g.nphi - k) % g.nphi) ((g.ntheta - j) % g.ntheta) = -f k j) (k j : Nat) (hk : k < g.nphi) (hj : j < g.ntheta) :
    let A := g.transform (g.ntheta / 2) (g.nphi / 2) true norm f
    g.inverse (g.ntheta / 2) (g.nphi / 2) true norm A.1 A.2 k j = f k j := by
  intro A
  rw [← C146_values g h norm hc f k j hk hj]
  obtain ⟨t1, t2, t3, t4, t5, t6⟩ := transform_at g (g.ntheta / 2) (g.nphi / 2) false norm f
  obtain ⟨s1, -, -, -, -, -⟩ := transform_at g (g.ntheta / 2) (g.nphi / 2) true norm f
  have zero : ∀ (m : Nat) (n : Int) (c : ℝ), g.sum (fun k j => f k j * Real.cos (g.angle m n k j) * c) = 0 := by
    intro m n c
    have e : g.sum (fun k j => f k j * Real.cos (g.angle m n k j) * c) = -g.sum (fun k j => f k j * Real.cos (g.angle m n k j) * c) := by
      conv_lhs => rw [← gsum_neg g h.2.1 h.2.2.1]
      rw [show ∀ x : ℝ, -x = -1 * x from fun x => by ring, ← gsum_mul]
      simp only [Grid.sum]
      refine Finset.sum_congr rfl fun k hk => Finset.sum_congr rfl fun j hj => ?_
      rw [cos_neg_index h.step m n k j (Finset.mem_range.mp hk) (Finset.mem_range.mp hj),
        show f (neg g.nphi k) (neg g.ntheta j) = -f k j from hodd k j (Finset.mem_range.mp hk) (Finset.mem_range.mp hj)]
      ring
    linarith
  have zero0 : g.sum (fun k j => f k j) = 0 := by
    have := zero 0 0 1
    simpa [Grid.angle] using this
  rw [inverse_sum, inverse_sum, t4 rfl, zero0]
  simp only [if_true, Bool.false_eq_true, if_false, zero_div, add_zero]
  congr 1
  refine Finset.sum_congr rfl fun m hm => Finset.sum_congr rfl fun n hn => ?_
  have hmem : (m, n) ∈ modes (g.ntheta / 2) (g.nphi / 2) := by
    rw [mem_modes]
    simp only [Finset.mem_range, Finset.mem_Icc] at hm hn
    split at hn <;> omega
  rw [t3 rfl m n hmem, t1 m n hmem, show A.1 (m, (n + (g.nphi / 2 : Nat)).toNat) = _ from s1 m n hmem, zero]
  simp

/-- A grid of 4 x 6 points on one of 5 field periods meets the hypotheses, for the modes up to 1 and 2. -/
example : ∃ g : Grid, g.FieldPeriod ∧ 2 * 2 < g.ntheta ∧ 2 * 1 < g.nphi ∧ g.ntheta / 2 = 3 :=
  ⟨⟨5, 4, 6, fun k => (k : ℝ) / ((5 : Nat) * (4 : Nat)), fun j => (j : ℝ) / (6 : Nat)⟩, ⟨by norm_num, by norm_num, by norm_num, fun _ => rfl, fun _ => rfl⟩, by norm_num, by norm_num, by norm_num⟩

end Simsopt.NField
