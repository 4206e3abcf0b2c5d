import Verif.NField.Transform
import Verif.BField.ComputeK
/-! # C146: the Fourier transform of a scalar on a surface and its inverse -/
namespace Simsopt.NField
open Simsopt Simsopt.RZSurf

/-- Both kinds of grids: `nfp φ_k = r k / nphi`. -/
def Grid.Step (g : Grid) (r : Nat) : Prop :=
  r ≠ 0 ∧ g.nphi ≠ 0 ∧ g.ntheta ≠ 0 ∧ (∀ k, g.nfp * g.phi k = r * ((k : ℝ) / g.nphi)) ∧ ∀ j, g.theta j = (j : ℝ) / g.ntheta

theorem Grid.FieldPeriod.step {g : Grid} (h : g.FieldPeriod) : g.Step 1 := by
  obtain ⟨h1, h2, h3, h4, h5⟩ := h
  have : (g.nfp : ℝ) ≠ 0 := by exact_mod_cast h1
  refine ⟨one_ne_zero, h2, h3, fun k => ?_, h5⟩
  rw [h4]; field_simp; simp

theorem Grid.FullTorus.step {g : Grid} (h : g.FullTorus) : g.Step g.nfp := by
  obtain ⟨h1, h2, h3, h4, h5⟩ := h
  exact ⟨h1, h2, h3, fun k => by rw [h4], h5⟩

/-- The angle on such a grid, for any pair of integers. -/
noncomputable def ang (g : Grid) (r : Nat) (a b : Int) (k j : Nat) : ℝ :=
  ((-(r * b) : Int) : ℝ) * (2 * Real.pi * (k / g.nphi)) + (a : ℝ) * (2 * Real.pi * (j / g.ntheta))

theorem angle_ang {g : Grid} {r : Nat} (h : g.Step r) (m : Nat) (n : Int) (k j : Nat) : g.angle m n k j = ang g r m n k j := by
  obtain ⟨_, _, _, h4, h5⟩ := h
  simp only [Grid.angle, ang]
  rw [h5]
  push_cast
  linear_combination (-(n : ℝ) * (2 * Real.pi)) * h4 k

theorem ang_sub (g : Grid) (r : Nat) (a b a' b' : Int) (k j : Nat) : ang g r a b k j - ang g r a' b' k j = ang g r (a - a') (b - b') k j := by
  simp only [ang]; push_cast; ring

theorem ang_add (g : Grid) (r : Nat) (a b a' b' : Int) (k j : Nat) : ang g r a b k j + ang g r a' b' k j = ang g r (a + a') (b + b') k j := by
  simp only [ang]; push_cast; ring

theorem sum_cos {g : Grid} {r : Nat} (h : g.Step r) (a b : Int) : g.sum (fun k j => Real.cos (ang g r a b k j)) =
    if (g.nphi : ℤ) ∣ r * b ∧ (g.ntheta : ℤ) ∣ a then (g.nphi : ℝ) * g.ntheta else 0 := by
  have := Trig.sum_cos_grid g.nphi g.ntheta (Nat.pos_of_ne_zero h.2.1) (Nat.pos_of_ne_zero h.2.2.1) (-(r * b)) a 0
  simp only [add_zero, Real.cos_zero, mul_one, dvd_neg] at this
  exact this

theorem sum_sin {g : Grid} {r : Nat} (h : g.Step r) (a b : Int) : g.sum (fun k j => Real.sin (ang g r a b k j)) = 0 := by
  have := Trig.sum_sin_grid g.nphi g.ntheta (Nat.pos_of_ne_zero h.2.1) (Nat.pos_of_ne_zero h.2.2.1) (-(r * b)) a 0
  simp only [add_zero, Real.sin_zero, mul_zero, ite_self] at this
  exact this

theorem gsum_add (g : Grid) (a b : Nat → Nat → ℝ) : g.sum (fun k j => a k j + b k j) = g.sum a + g.sum b := by
  simp only [Grid.sum, Finset.sum_add_distrib]

theorem gsum_mul (g : Grid) (c : ℝ) (a : Nat → Nat → ℝ) : g.sum (fun k j => c * a k j) = c * g.sum a := by
  simp only [Grid.sum, Finset.mul_sum]

theorem gsum_sum {ι : Type} (g : Grid) (S : Finset ι) (F : ι → Nat → Nat → ℝ) : g.sum (fun k j => ∑ x ∈ S, F x k j) = ∑ x ∈ S, g.sum (F x) := by
  simp only [Grid.sum]
  symm
  rw [Finset.sum_comm]
  refine Finset.sum_congr rfl fun k _ => ?_
  rw [Finset.sum_comm]

/-- Products of the basis functions, summed over the grid; `δ a b` tells whether the mode is constant on the grid. -/
theorem sum_products {g : Grid} {r : Nat} (h : g.Step r) (m m' : Nat) (n n' : Int) :
    let δ : Int → Int → ℝ := fun a b => if (g.nphi : ℤ) ∣ r * b ∧ (g.ntheta : ℤ) ∣ a then (g.nphi : ℝ) * g.ntheta else 0
    g.sum (fun k j => Real.sin (g.angle m n k j) * Real.sin (g.angle m' n' k j)) = (δ (m - m') (n - n') - δ (m + m') (n + n')) / 2 ∧
    g.sum (fun k j => Real.cos (g.angle m n k j) * Real.cos (g.angle m' n' k j)) = (δ (m - m') (n - n') + δ (m + m') (n + n')) / 2 ∧
    g.sum (fun k j => Real.cos (g.angle m n k j) * Real.sin (g.angle m' n' k j)) = 0 ∧
    g.sum (fun k j => Real.sin (g.angle m n k j) * Real.cos (g.angle m' n' k j)) = 0 ∧
    g.sum (fun k j => Real.cos (g.angle m n k j)) = δ m n ∧ g.sum (fun k j => Real.sin (g.angle m n k j)) = 0 := by
  intro δ
  simp only [angle_ang h]
  have ss : ∀ k j, Real.sin (ang g r m n k j) * Real.sin (ang g r m' n' k j) = 1 / 2 * Real.cos (ang g r (m - m') (n - n') k j) + -1 / 2 * Real.cos (ang g r (m + m') (n + n') k j) := by
    intro k j; rw [← ang_sub, ← ang_add, Real.cos_sub, Real.cos_add]; ring
  have cc : ∀ k j, Real.cos (ang g r m n k j) * Real.cos (ang g r m' n' k j) = 1 / 2 * Real.cos (ang g r (m - m') (n - n') k j) + 1 / 2 * Real.cos (ang g r (m + m') (n + n') k j) := by
    intro k j; rw [← ang_sub, ← ang_add, Real.cos_sub, Real.cos_add]; ring
  have cs : ∀ k j, Real.cos (ang g r m n k j) * Real.sin (ang g r m' n' k j) = -1 / 2 * Real.sin (ang g r (m - m') (n - n') k j) + 1 / 2 * Real.sin (ang g r (m + m') (n + n') k j) := by
    intro k j; rw [← ang_sub, ← ang_add, Real.sin_sub, Real.sin_add]; ring
  have sc : ∀ k j, Real.sin (ang g r m n k j) * Real.cos (ang g r m' n' k j) = 1 / 2 * Real.sin (ang g r (m - m') (n - n') k j) + 1 / 2 * Real.sin (ang g r (m + m') (n + n') k j) := by
    intro k j; rw [← ang_sub, ← ang_add, Real.sin_sub, Real.sin_add]; ring
  simp only [ss, cc, cs, sc, gsum_add, gsum_mul, sum_cos h, sum_sin h]
  refine ⟨?_, ?_, ?_, ?_, rfl, trivial⟩
  · simp only [δ]; ring
  · simp only [δ]; ring
  · ring
  · ring

/-- The modes of the documented series. -/
noncomputable def S0 (mpol ntor : Nat) : Finset (Nat × Int) := (Finset.range (mpol + 1) ×ˢ Finset.Icc (-(ntor : Int)) ntor).filter fun x => x.1 = 0 → 0 ≤ x.2

theorem mem_S0 (mpol ntor m : Nat) (n : Int) : (m, n) ∈ S0 mpol ntor ↔ m ≤ mpol ∧ -(ntor : Int) ≤ n ∧ n ≤ ntor ∧ (m = 0 → 0 ≤ n) := by
  simp only [S0, Finset.mem_filter, Finset.mem_product, Finset.mem_range, Finset.mem_Icc]; omega

theorem sum_S0 (mpol ntor : Nat) (F : Nat → Int → ℝ) :
    ∑ m ∈ Finset.range (mpol + 1), ∑ n ∈ Finset.Icc (if m = 0 then 0 else -(ntor : Int)) ntor, F m n = ∑ x ∈ S0 mpol ntor, F x.1 x.2 := by
  rw [S0, Finset.sum_filter, Finset.sum_product]
  refine Finset.sum_congr rfl fun m _ => ?_
  rw [← Finset.sum_filter]
  refine Finset.sum_congr ?_ fun _ _ => rfl
  ext n
  simp only [Finset.mem_filter, Finset.mem_Icc]
  split <;> omega

/-- On a grid that resolves twice the modes, `δ` is a Kronecker symbol. -/
theorem delta_small {g : Grid} {r : Nat} (h : g.Step r) (mpol ntor : Nat) (h1 : 2 * mpol < g.ntheta) (h2 : 2 * ntor * r < g.nphi) (m m' : Nat) (n n' : Int)
    (hx : (m, n) ∈ S0 mpol ntor) (hy : (m', n') ∈ S0 mpol ntor) :
    (((g.nphi : ℤ) ∣ r * (n - n') ∧ (g.ntheta : ℤ) ∣ (m : Int) - m') ↔ m = m' ∧ n = n') ∧
    (((g.nphi : ℤ) ∣ r * (n + n') ∧ (g.ntheta : ℤ) ∣ (m : Int) + m') ↔ (m = 0 ∧ n = 0) ∧ m' = 0 ∧ n' = 0) := by
  rw [mem_S0] at hx hy
  have hr : (0 : Int) < r := by have := h.1; omega
  have key : ∀ b : Int, |b| ≤ 2 * ntor → ((g.nphi : ℤ) ∣ r * b ↔ b = 0) := by
    intro b hb
    rw [BField.dvd_iff_zero (by
      rw [abs_mul, abs_of_pos hr]
      have : (r : Int) * |b| ≤ r * (2 * ntor) := mul_le_mul_of_nonneg_left hb hr.le
      have h3 : ((2 * ntor * r : Nat) : Int) < g.nphi := by exact_mod_cast h2
      push_cast at h3
      linarith)]
    constructor
    · intro hb0; rcases mul_eq_zero.mp hb0 with h | h
      · omega
      · exact h
    · rintro rfl; simp
  have k1 := key (n - n') (by rw [abs_le]; omega)
  have k2 := key (n + n') (by rw [abs_le]; omega)
  have k3 : (g.ntheta : ℤ) ∣ (m : Int) - m' ↔ (m : Int) - m' = 0 := BField.dvd_iff_zero (by rw [abs_lt]; omega)
  have k4 : (g.ntheta : ℤ) ∣ (m : Int) + m' ↔ (m : Int) + m' = 0 := BField.dvd_iff_zero (by rw [abs_lt]; omega)
  rw [k1, k2, k3, k4]
  constructor <;> omega

theorem factor2_small (g : Grid) (r : Nat) (hr : r ≠ 0) (mpol ntor : Nat) (h1 : 2 * mpol < g.ntheta) (h2 : 2 * ntor * r < g.nphi) (m : Nat) (n : Int) (hm : m ≤ mpol)
    (hn : -(ntor : Int) ≤ n ∧ n ≤ ntor) : g.factor2 m n = 2 / (g.ntheta * g.nphi) := by
  have h3 : 2 * ntor ≤ 2 * ntor * r := Nat.le_mul_of_pos_right _ (Nat.pos_of_ne_zero hr)
  simp only [Grid.factor2]
  rw [if_neg (by omega), if_neg (by omega)]

theorem pick_one {α : Type} [DecidableEq α] (S : Finset α) (a : α) (ha : a ∈ S) (F : α → ℝ) (v : ℝ) (h1 : F a = v) (h2 : ∀ x ∈ S, x ≠ a → F x = 0) : ∑ x ∈ S, F x = v := by
  rw [Finset.sum_eq_single a h2 (fun h => absurd ha h), h1]

theorem coefficients_aux {g : Grid} {r : Nat} (h : g.Step r) (mpol ntor : Nat) (h1 : 2 * mpol < g.ntheta) (h2 : 2 * ntor * r < g.nphi) (norm : Option ℝ) (hc : norm ≠ some 0)
    (As Ac : Nat → Int → ℝ) (st : Bool) (m : Nat) (n : Int) (hmn : (m, n) ∈ S0 mpol ntor) :
    let A := g.transform mpol ntor st norm fun k j => norm.getD 1 * g.series mpol ntor As Ac k j
    A.1 (m, (n + ntor).toNat) = (if m = 0 ∧ n = 0 then 0 else As m n) ∧ A.2 (m, (n + ntor).toNat) = (if st then 0 else Ac m n) := by
  intro A
  have hc' : norm.getD 1 ≠ 0 := by cases norm with | none => simp | some c => simpa using hc
  have hK : (g.ntheta : ℝ) ≠ 0 := by exact_mod_cast h.2.2.1
  have hL : (g.nphi : ℝ) ≠ 0 := by exact_mod_cast h.2.1
  obtain ⟨t1, t2, t3, t4, t5, t6⟩ := transform_at g mpol ntor st norm fun k j => norm.getD 1 * g.series mpol ntor As Ac k j
  have hm := (mem_S0 mpol ntor m n).mp hmn
  -- the three kinds of sums
  have ser : ∀ k j, g.series mpol ntor As Ac k j = ∑ x ∈ S0 mpol ntor, (As x.1 x.2 * Real.sin (g.angle x.1 x.2 k j) + Ac x.1 x.2 * Real.cos (g.angle x.1 x.2 k j)) := fun k j => sum_S0 _ _ _
  have sS : ¬ (m = 0 ∧ n = 0) → g.sum (fun k j => g.series mpol ntor As Ac k j * Real.sin (g.angle m n k j)) = As m n * (g.nphi * g.ntheta / 2) := by
    intro h0
    simp only [ser, Finset.sum_mul, add_mul]
    rw [gsum_sum]
    refine pick_one _ (m, n) hmn _ _ ?_ ?_
    · obtain ⟨p1, p2, p3, p4, _, _⟩ := sum_products h m m n n
      obtain ⟨d1, d2⟩ := delta_small h mpol ntor h1 h2 m m n n hmn hmn
      simp only [mul_assoc, gsum_add, gsum_mul, p1, p3]
      rw [if_pos (d1.mpr ⟨rfl, rfl⟩), if_neg (fun hh => h0 (d2.mp hh).1)]; ring
    · rintro ⟨m', n'⟩ hx hne
      obtain ⟨p1, p2, p3, p4, _, _⟩ := sum_products h m' m n' n
      obtain ⟨d1, d2⟩ := delta_small h mpol ntor h1 h2 m' m n' n hx hmn
      simp only [mul_assoc, gsum_add, gsum_mul, p1, p3]
      rw [if_neg (fun hh => hne (by obtain ⟨a, b⟩ := d1.mp hh; rw [a, b])), if_neg (fun hh => h0 (d2.mp hh).2)]; ring
  have sC : ¬ (m = 0 ∧ n = 0) → g.sum (fun k j => g.series mpol ntor As Ac k j * Real.cos (g.angle m n k j)) = Ac m n * (g.nphi * g.ntheta / 2) := by
    intro h0
    simp only [ser, Finset.sum_mul, add_mul]
    rw [gsum_sum]
    refine pick_one _ (m, n) hmn _ _ ?_ ?_
    · obtain ⟨p1, p2, p3, p4, _, _⟩ := sum_products h m m n n
      obtain ⟨d1, d2⟩ := delta_small h mpol ntor h1 h2 m m n n hmn hmn
      simp only [mul_assoc, gsum_add, gsum_mul, p2, p4]
      rw [if_pos (d1.mpr ⟨rfl, rfl⟩), if_neg (fun hh => h0 (d2.mp hh).1)]; ring
    · rintro ⟨m', n'⟩ hx hne
      obtain ⟨p1, p2, p3, p4, _, _⟩ := sum_products h m' m n' n
      obtain ⟨d1, d2⟩ := delta_small h mpol ntor h1 h2 m' m n' n hx hmn
      simp only [mul_assoc, gsum_add, gsum_mul, p2, p4]
      rw [if_neg (fun hh => hne (by obtain ⟨a, b⟩ := d1.mp hh; rw [a, b])), if_neg (fun hh => h0 (d2.mp hh).2)]; ring
  have s0 : (0, (0 : Int)) ∈ S0 mpol ntor := by rw [mem_S0]; omega
  have sA : g.sum (fun k j => g.series mpol ntor As Ac k j) = Ac 0 0 * (g.nphi * g.ntheta) := by
    simp only [ser]
    rw [gsum_sum]
    refine pick_one _ (0, 0) s0 _ _ ?_ ?_
    · obtain ⟨_, _, _, _, p5, p6⟩ := sum_products h 0 0 0 0
      simp only [gsum_add, gsum_mul, p5, p6]
      rw [if_pos (by simp)]; ring
    · rintro ⟨m', n'⟩ hx hne
      obtain ⟨_, _, _, _, p5, p6⟩ := sum_products h m' m n' n
      obtain ⟨d1, _⟩ := delta_small h mpol ntor h1 h2 m' 0 n' 0 hx s0
      simp only [gsum_add, gsum_mul, p5, p6]
      simp only [Nat.cast_zero, sub_zero] at d1
      rw [if_neg (fun hh => hne (by obtain ⟨a, b⟩ := d1.mp hh; rw [a, b]))]; ring
  have fac := factor2_small g r h.1 mpol ntor h1 h2 m n hm.1 ⟨hm.2.1, hm.2.2.1⟩
  by_cases h0 : m = 0 ∧ n = 0
  · obtain ⟨rfl, rfl⟩ := h0
    rw [if_pos ⟨rfl, rfl⟩]
    simp only [zero_add, Int.toNat_natCast]
    refine ⟨t2 _ ?_, ?_⟩
    · intro m' n' h' e
      rw [mem_modes] at h'
      simp only [Prod.mk.injEq] at e; omega
    · cases st with
      | true => exact t6 rfl _
      | false =>
        simp only [A]
        rw [t4 rfl, gsum_mul, sA, if_neg (by simp)]
        field_simp
  · rw [if_neg h0]
    have hmem : (m, n) ∈ modes mpol ntor := by rw [mem_modes]; omega
    refine ⟨?_, ?_⟩
    · simp only [A]
      rw [t1 m n hmem]
      have e : (fun k j => norm.getD 1 * g.series mpol ntor As Ac k j * Real.sin (g.angle m n k j) * g.factor2 m n) =
          fun k j => (norm.getD 1 * g.factor2 m n) * (g.series mpol ntor As Ac k j * Real.sin (g.angle m n k j)) := by funext k j; ring
      rw [e, gsum_mul, sS h0, fac]
      field_simp
    · cases st with
      | true => simp only [if_true]; exact t6 rfl _
      | false =>
        simp only [A]
        rw [t3 rfl m n hmem, if_neg (by simp)]
        have e : (fun k j => norm.getD 1 * g.series mpol ntor As Ac k j * Real.cos (g.angle m n k j) * g.factor2 m n) =
            fun k j => (norm.getD 1 * g.factor2 m n) * (g.series mpol ntor As Ac k j * Real.cos (g.angle m n k j)) := by funext k j; ring
        rw [e, gsum_mul, sC h0, fac]
        field_simp

/-- **C146.** `fourier_transform_scalar` recovers the coefficients: for every scalar that is `normalization` times a Fourier series of the documented form with modes
`m ≤ mpol`, `|n| ≤ ntor`, sampled on the grid of one field period with `2 mpol < ntheta`, `2 ntor < nphi`, or on the full torus with `2 ntor nfp < nphi`, entry `[m, n+ntor]` of
the two arrays is the sine and the cosine coefficient of mode `(m, n)`; with `stellsym=True` the cosine array is zero; the entries `m = 0`, `n < 0` are zero. -/
theorem C146_coefficients (g : Grid) (mpol ntor : Nat) (h1 : 2 * mpol < g.ntheta)
    (h2 : (g.FieldPeriod ∧ 2 * ntor < g.nphi) ∨ (g.FullTorus ∧ 2 * ntor * g.nfp < g.nphi)) (norm : Option ℝ) (hc : norm ≠ some 0)
    (As Ac : Nat → Int → ℝ) (hA : As 0 0 = 0) (st : Bool) :
    let A := g.transform mpol ntor st norm fun k j => norm.getD 1 * g.series mpol ntor As Ac k j
    (∀ m n, m ≤ mpol → -(ntor : Int) ≤ n → n ≤ ntor → (m = 0 → 0 ≤ n) →
      A.1 (m, (n + ntor).toNat) = As m n ∧ A.2 (m, (n + ntor).toNat) = if st then 0 else Ac m n) ∧
    (∀ i, i < ntor → A.1 (0, i) = 0 ∧ A.2 (0, i) = 0) := by
  intro A
  obtain ⟨r, hr, hr2⟩ : ∃ r, g.Step r ∧ 2 * ntor * r < g.nphi := by
    rcases h2 with ⟨h, h'⟩ | ⟨h, h'⟩
    · exact ⟨1, h.step, by omega⟩
    · exact ⟨_, h.step, h'⟩
  refine ⟨?_, ?_⟩
  · intro m n hm hn1 hn2 h0
    obtain ⟨e1, e2⟩ := coefficients_aux hr mpol ntor h1 hr2 norm hc As Ac st m n ((mem_S0 _ _ _ _).mpr ⟨hm, hn1, hn2, h0⟩)
    refine ⟨?_, e2⟩
    rw [show A.1 (m, (n + ntor).toNat) = _ from e1]
    split
    · rename_i h; rw [h.1, h.2, hA]
    · rfl
  · intro i hi
    obtain ⟨t1, t2, t3, t4, t5, t6⟩ := transform_at g mpol ntor st norm fun k j => norm.getD 1 * g.series mpol ntor As Ac k j
    have hne : ∀ m n, (m, n) ∈ modes mpol ntor → (m, (n + (ntor : Int)).toNat) ≠ (0, i) := by
      intro m n h e
      rw [mem_modes] at h
      simp only [Prod.mk.injEq] at e; omega
    exact ⟨t2 _ hne, t5 _ (by simp only [ne_eq, Prod.mk.injEq]; omega) hne⟩

/-- **C146.** `inverse_fourier_transform_scalar` evaluates `normalization` times the documented series at the quadrature points, whatever the grid; with `stellsym=True` the
cosine array is ignored.  The entries of row `m = 0` with `n < 0` and the sine entry of `(0, 0)` are not used. -/
theorem C146_inverse (g : Grid) (mpol ntor : Nat) (st : Bool) (norm : Option ℝ) (As Ac : Arr) (k j : Nat) :
    g.inverse mpol ntor st norm As Ac k j = norm.getD 1 * g.series mpol ntor (fun m n => As (m, (n + ntor).toNat)) (fun m n => if st then 0 else Ac (m, (n + ntor).toNat)) k j := by
  rw [inverse_sum, Grid.series]
  congr 1
  rw [Finset.sum_range_succ', Finset.sum_range_succ' (n := mpol)]
  simp only [Nat.add_eq_zero_iff, one_ne_zero, and_false, if_false, if_true]
  have e : Finset.Icc (0 : Int) ntor = insert 0 (Finset.Icc 1 (ntor : Int)) := by ext n; simp only [Finset.mem_Icc, Finset.mem_insert]; omega
  rw [e, Finset.sum_insert (by simp)]
  have hang : g.angle 0 0 k j = 0 := by simp [Grid.angle]
  simp only [hang, Real.sin_zero, Real.cos_zero, zero_add, Int.toNat_natCast]
  cases st <;> simp only [if_true, Bool.false_eq_true, if_false] <;> ring

end Simsopt.NField
