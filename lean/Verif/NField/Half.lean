import Verif.NField.Ortho
/-! # C146: the transform on the half-period grid (stellarator symmetry) -/
namespace Simsopt.NField
open Simsopt Simsopt.RZSurf

/-- The half-period grid: `phi = linspace(0, 0.5/nfp, nphi, endpoint=False)` shifted by half of its spacing (surface.py L159-170), `theta = linspace(0, 1, ntheta, endpoint=False)`. -/
def Grid.HalfPeriod (g : Grid) : Prop :=
  g.nfp ≠ 0 ∧ g.nphi ≠ 0 ∧ g.ntheta ≠ 0 ∧ (∀ k, g.phi k = ((k : ℝ) + 1 / 2) * (1 / 2 / g.nfp / g.nphi)) ∧ ∀ j, g.theta j = (j : ℝ) / g.ntheta

/-- Cosines on the midpoints of a half period. -/
theorem half_sum (K : Nat) (hK : 0 < K) (d : Int) (hd : |d| < 2 * K) :
    ∑ k ∈ Finset.range K, Real.cos (d * (Real.pi * ((k : ℝ) + 1 / 2) / K)) = if d = 0 then (K : ℝ) else 0 := by
  have hK' : (K : ℝ) ≠ 0 := by exact_mod_cast hK.ne'
  have full := Trig.sum_cos_period (2 * K) (by omega) d (d * (Real.pi / (2 * K)))
  rw [two_mul, Finset.sum_range_add] at full
  have e1 : ∑ k ∈ Finset.range K, Real.cos (d * (2 * Real.pi * ((k : ℝ) / ((K + K : Nat) : ℝ))) + d * (Real.pi / (2 * K)))
      = ∑ k ∈ Finset.range K, Real.cos (d * (Real.pi * ((k : ℝ) + 1 / 2) / K)) := by
    refine Finset.sum_congr rfl fun k _ => ?_
    congr 1; push_cast; field_simp; ring
  have e2 : ∑ k ∈ Finset.range K, Real.cos (d * (2 * Real.pi * (((K + k : Nat) : ℝ) / ((K + K : Nat) : ℝ))) + d * (Real.pi / (2 * K)))
      = ∑ k ∈ Finset.range K, Real.cos (d * (Real.pi * ((k : ℝ) + 1 / 2) / K)) := by
    rw [← Finset.sum_range_reflect]
    refine Finset.sum_congr rfl fun k hk => ?_
    have hk := Finset.mem_range.mp hk
    have hc : ((K + (K - 1 - k) : Nat) : ℝ) = 2 * K - 1 - k := by
      have : ((K - 1 - k : Nat) : ℝ) = (K : ℝ) - 1 - k := by rw [Nat.cast_sub (by omega), Nat.cast_sub (by omega)]; simp
      push_cast; rw [this]; ring
    rw [hc]
    have : (d : ℝ) * (2 * Real.pi * ((2 * K - 1 - k) / ((K + K : Nat) : ℝ))) + d * (Real.pi / (2 * K))
        = d * (2 * Real.pi) - d * (Real.pi * ((k : ℝ) + 1 / 2) / K) := by push_cast; field_simp; ring
    rw [this, Real.cos_int_mul_two_pi_sub]
  rw [e1, e2] at full
  have hdvd : (((K + K : Nat) : ℤ) ∣ d) ↔ d = 0 := BField.dvd_iff_zero (by push_cast; omega)
  simp only [hdvd] at full
  by_cases h0 : d = 0
  · rw [if_pos h0] at full ⊢
    rw [h0] at full ⊢
    simp at full ⊢
  · rw [if_neg h0] at full ⊢
    linarith

/-- Sums of cosines over the half-period grid. -/
theorem half_grid {g : Grid} (h : g.HalfPeriod) (a b : Int) (ha : |a| < g.ntheta) (hb : |b| < 2 * g.nphi) :
    g.sum (fun k j => Real.cos (a * (2 * Real.pi * g.theta j) - b * g.nfp * (2 * Real.pi * g.phi k))) =
      if a = 0 ∧ b = 0 then (g.nphi : ℝ) * g.ntheta else 0 := by
  obtain ⟨h1, h2, h3, h4, h5⟩ := h
  have hn : (g.nfp : ℝ) ≠ 0 := by exact_mod_cast h1
  have hp : (g.nphi : ℝ) ≠ 0 := by exact_mod_cast h2
  unfold Grid.sum
  have inner : ∀ k, ∑ j ∈ Finset.range g.ntheta, Real.cos (a * (2 * Real.pi * g.theta j) - b * g.nfp * (2 * Real.pi * g.phi k)) =
      if a = 0 then g.ntheta * Real.cos (b * (Real.pi * ((k : ℝ) + 1 / 2) / g.nphi)) else 0 := by
    intro k
    have := Trig.sum_cos_period g.ntheta (Nat.pos_of_ne_zero h3) a (-(b * (Real.pi * ((k : ℝ) + 1 / 2) / g.nphi)))
    simp only [BField.dvd_iff_zero ha, Real.cos_neg] at this
    rw [← this]
    refine Finset.sum_congr rfl fun j _ => ?_
    rw [h4, h5]
    congr 1
    field_simp
    ring
  simp only [inner]
  by_cases h0 : a = 0
  · simp only [if_pos h0]
    rw [← Finset.mul_sum, half_sum _ (Nat.pos_of_ne_zero h2) b hb]
    by_cases h0' : b = 0
    · rw [if_pos h0', if_pos ⟨h0, h0'⟩]; ring
    · rw [if_neg h0', if_neg (fun h => h0' h.2)]; ring
  · simp only [if_neg h0, Finset.sum_const_zero]
    rw [if_neg (fun h => h0 h.1)]

/-- Orthogonality of the sines on the half-period grid. -/
theorem half_ortho {g : Grid} (h : g.HalfPeriod) (mpol ntor : Nat) (h1 : 2 * mpol < g.ntheta) (h2 : ntor < g.nphi) (m m' : Nat) (n n' : Int)
    (hx : (m, n) ∈ S0 mpol ntor) (hy : (m', n') ∈ S0 mpol ntor) :
    g.sum (fun k j => Real.sin (g.angle m n k j) * Real.sin (g.angle m' n' k j)) =
      if (m = m' ∧ n = n') ∧ ¬ (m = 0 ∧ n = 0) then (g.nphi : ℝ) * g.ntheta / 2 else 0 := by
  rw [mem_S0] at hx hy
  have e : ∀ k j, Real.sin (g.angle m n k j) * Real.sin (g.angle m' n' k j) =
      1 / 2 * Real.cos (((m - m' : Int) : ℝ) * (2 * Real.pi * g.theta j) - ((n - n' : Int) : ℝ) * g.nfp * (2 * Real.pi * g.phi k)) +
      (-1 / 2) * Real.cos (((m + m' : Int) : ℝ) * (2 * Real.pi * g.theta j) - ((n + n' : Int) : ℝ) * g.nfp * (2 * Real.pi * g.phi k)) := by
    intro k j
    have a1 : ((m - m' : Int) : ℝ) * (2 * Real.pi * g.theta j) - ((n - n' : Int) : ℝ) * g.nfp * (2 * Real.pi * g.phi k) = g.angle m n k j - g.angle m' n' k j := by
      simp only [Grid.angle]; push_cast; ring
    have a2 : ((m + m' : Int) : ℝ) * (2 * Real.pi * g.theta j) - ((n + n' : Int) : ℝ) * g.nfp * (2 * Real.pi * g.phi k) = g.angle m n k j + g.angle m' n' k j := by
      simp only [Grid.angle]; push_cast; ring
    rw [a1, a2, Real.cos_sub, Real.cos_add]; ring
  simp only [e, gsum_add, gsum_mul]
  rw [half_grid h _ _ (by rw [abs_lt]; omega) (by rw [abs_lt]; omega), half_grid h _ _ (by rw [abs_lt]; omega) (by rw [abs_lt]; omega)]
  by_cases c1 : (m = m' ∧ n = n') ∧ ¬ (m = 0 ∧ n = 0)
  · rw [if_pos c1, if_pos (by omega), if_neg (by omega)]; ring
  · rw [if_neg c1]
    by_cases c2 : (m = m' ∧ n = n')
    · rw [if_pos (by omega), if_pos (by omega)]; ring
    · rw [if_neg (by omega), if_neg (by omega)]; ring

/-- What the transform of an odd series on the half-period grid gives. -/
theorem half_transform {g : Grid} (h : g.HalfPeriod) (mpol ntor : Nat) (h1 : 2 * mpol < g.ntheta) (h2 : ntor < g.nphi) (norm : Option ℝ) (hc : norm ≠ some 0)
    (As : Nat → Int → ℝ) (st : Bool) (m : Nat) (n : Int) (hm : m ≤ mpol) (hn1 : -(ntor : Int) ≤ n) (hn2 : n ≤ ntor) (hm0 : m = 0 → 1 ≤ n) :
    (g.transform mpol ntor st norm fun k j => norm.getD 1 * g.series mpol ntor As (fun _ _ => 0) k j).1 (m, (n + ntor).toNat) =
      As m n * (if g.nphi % 2 = 0 ∧ 2 * n.natAbs = g.nphi then 1 / 2 else 1) := by
  have hc' : norm.getD 1 ≠ 0 := by cases norm with | none => simp | some c => simpa using hc
  have hK : (g.ntheta : ℝ) ≠ 0 := by exact_mod_cast h.2.2.1
  have hL : (g.nphi : ℝ) ≠ 0 := by exact_mod_cast h.2.1
  obtain ⟨t1, _⟩ := transform_at g mpol ntor st norm fun k j => norm.getD 1 * g.series mpol ntor As (fun _ _ => 0) k j
  have hmem : (m, n) ∈ modes mpol ntor := by rw [mem_modes]; omega
  have hS : (m, n) ∈ S0 mpol ntor := by rw [mem_S0]; omega
  rw [t1 m n hmem]
  have ser : ∀ k j, g.series mpol ntor As (fun _ _ => 0) k j = ∑ x ∈ S0 mpol ntor, (As x.1 x.2 * Real.sin (g.angle x.1 x.2 k j)) := by
    intro k j
    have := sum_S0 mpol ntor fun m n => As m n * Real.sin (g.angle m n k j) + 0 * Real.cos (g.angle m n k j)
    simp only [zero_mul, add_zero] at this
    rw [← this, Grid.series]
    simp
  have sS : g.sum (fun k j => g.series mpol ntor As (fun _ _ => 0) k j * Real.sin (g.angle m n k j)) = As m n * (g.nphi * g.ntheta / 2) := by
    simp only [ser, Finset.sum_mul]
    rw [gsum_sum]
    refine pick_one _ (m, n) hS _ _ ?_ ?_
    · simp only [mul_assoc, gsum_mul]
      rw [half_ortho h mpol ntor h1 h2 m m n n hS hS, if_pos (by omega)]
    · rintro ⟨m', n'⟩ hx hne
      simp only [mul_assoc, gsum_mul]
      rw [half_ortho h mpol ntor h1 h2 m' m n' n hx hS, if_neg (fun hh => hne (by rw [hh.1.1, hh.1.2])), mul_zero]
  have e : (fun k j => norm.getD 1 * g.series mpol ntor As (fun _ _ => 0) k j * Real.sin (g.angle m n k j) * g.factor2 m n) =
      fun k j => (norm.getD 1 * g.factor2 m n) * (g.series mpol ntor As (fun _ _ => 0) k j * Real.sin (g.angle m n k j)) := by funext k j; ring
  rw [e, gsum_mul, sS]
  have hmt : ¬ (g.ntheta % 2 = 0 ∧ 2 * m = g.ntheta) := by omega
  simp only [Grid.factor2, if_neg hmt]
  by_cases hny : g.nphi % 2 = 0 ∧ 2 * n.natAbs = g.nphi
  · rw [if_pos hny, if_pos hny]; field_simp
  · rw [if_neg hny, if_neg hny]; field_simp

/-- **C146.** On the half-period grid (the one that CoilSet uses for stellarator symmetry) the transform of a sine series with `2 mpol < ntheta`, `ntor < nphi` recovers the coefficient
of every mode with `2 |n| ≠ nphi`. -/
theorem C146_half_period {g : Grid} (h : g.HalfPeriod) (mpol ntor : Nat) (h1 : 2 * mpol < g.ntheta) (h2 : ntor < g.nphi) (norm : Option ℝ) (hc : norm ≠ some 0)
    (As : Nat → Int → ℝ) (st : Bool) (m : Nat) (n : Int) (hm : m ≤ mpol) (hn1 : -(ntor : Int) ≤ n) (hn2 : n ≤ ntor) (hm0 : m = 0 → 1 ≤ n) (hny : 2 * n.natAbs ≠ g.nphi) :
    (g.transform mpol ntor st norm fun k j => norm.getD 1 * g.series mpol ntor As (fun _ _ => 0) k j).1 (m, (n + ntor).toNat) = As m n := by
  rw [half_transform h mpol ntor h1 h2 norm hc As st m n hm hn1 hn2 hm0, if_neg (fun hh => hny hh.2), mul_one]

/-- **C146 (violated).** On the half-period grid the correction for the Nyquist frequency is applied to `|n| = nphi/2`, which is not the Nyquist frequency of this grid: the coefficients of
these modes come out half as large as they are. -/
theorem C146_half_period_nyquist_violated {g : Grid} (h : g.HalfPeriod) (mpol ntor : Nat) (h1 : 2 * mpol < g.ntheta) (h2 : ntor < g.nphi) (norm : Option ℝ) (hc : norm ≠ some 0)
    (As : Nat → Int → ℝ) (st : Bool) (m : Nat) (n : Int) (hm : m ≤ mpol) (hn1 : -(ntor : Int) ≤ n) (hn2 : n ≤ ntor) (hm0 : m = 0 → 1 ≤ n) (hny : 2 * n.natAbs = g.nphi) :
    (g.transform mpol ntor st norm fun k j => norm.getD 1 * g.series mpol ntor As (fun _ _ => 0) k j).1 (m, (n + ntor).toNat) = As m n / 2 := by
  rw [half_transform h mpol ntor h1 h2 norm hc As st m n hm hn1 hn2 hm0, if_pos ⟨by omega, hny⟩]
  ring

/-- The half-period grid with 4 toroidal points, `nfp = 2`, resolves `ntor = 3`; the mode `n = 2` is affected. -/
example : ∃ g : Grid, g.HalfPeriod ∧ 2 * 1 < g.ntheta ∧ 3 < g.nphi ∧ 2 * (2 : Int).natAbs = g.nphi :=
  ⟨⟨2, 4, 3, fun k => ((k : ℝ) + 1 / 2) * (1 / 2 / 2 / 4), fun j => (j : ℝ) / 3⟩, ⟨by decide, by decide, by decide, by intro k; push_cast; rfl, by intro j; push_cast; rfl⟩,
    by decide, by decide, by decide⟩

end Simsopt.NField
