import Verif.Wireframe.ConsOps
import Mathlib.Algebra.Order.Floor.Semiring
import Mathlib.Tactic.FieldSimp
import Mathlib.Tactic.Linarith
import Mathlib.Tactic.Zify
import Mathlib.Algebra.Order.Archimedean.Basic
import Mathlib.Data.Rat.Floor
/-!
# Sets of planar coils on a wireframe (C190)

Model of `add_tfcoil_currents` (src/simsopt/geo/wireframe_toroidal.py L1185-1240).  Simplified: rational numbers where the code computes the positions in doubles; `n_tf` is a natural number.
-/
namespace Simsopt.Wireframe

/-- `np.ceil(np.linspace(0, n_phi, k, endpoint=False) + 0.5 * n_phi / k)` (L1211-1212; also L672-674). -/
def Grid.evenly (g : Grid) (k i : ℕ) : ℕ := ⌈(i : ℚ) * (g.N / k) + (1 / 2) * g.N / k⌉₊

/-- The segments `ind0:ind1` of a coil (L1218-1225). -/
def Grid.tfRange (g : Grid) (t : ℕ) : ℕ × ℕ :=
  if t = 0 then (g.N * g.n, g.N * g.n + g.h) else (g.N * g.n + g.h + (t - 1) * g.n, g.N * g.n + g.h + (t - 1) * g.n + g.n)

/-- `tf_currents` (L1214-1225); slices end at the end of the array. -/
def Grid.tfCurrents (g : Grid) (k : ℕ) (c : ℝ) (s : ℤ) : ℝ :=
  if (List.range k).any fun i => decide (((g.tfRange (g.evenly k i)).1 : ℤ) ≤ s ∧ s < (g.tfRange (g.evenly k i)).2) then c else 0

/-- The exceptions of `add_tfcoil_currents`: too many coils (`ValueError`), none (`ZeroDivisionError`), constraints not met (`ValueError`). -/
inductive TfErr where
  | tooMany
  | zeroDivision
  | notMet

/-- `add_tfcoil_currents` (L1185-1240): the currents afterwards. -/
noncomputable def Grid.addTf (g : Grid) (w : Wf) (atol rtol : ℝ) (k : ℕ) (c : ℝ) (x : ℤ → ℝ) : Except TfErr (ℤ → ℝ) :=
  if g.N < k then .error .tooMany
  else if k = 0 then .error .zeroDivision
  else
    let new := fun s => g.tfCurrents k c s + x s
    if g.check atol rtol new w then .ok new else .error .notMet

/-! ### Positions -/

variable (g : Grid)

theorem evenly_le {k i m : ℕ} (hk : 0 < k) : g.evenly k i ≤ m ↔ (2 * i + 1) * g.N ≤ 2 * k * m := by
  have hk' : (0 : ℚ) < k := by exact_mod_cast hk
  rw [Grid.evenly, Nat.ceil_le, show (i : ℚ) * (g.N / k) + (1 / 2) * g.N / k = ((2 * i + 1) * g.N) / (2 * k) by field_simp, div_le_iff₀ (by positivity)]
  constructor
  · intro h
    have : ((2 * i + 1) * g.N : ℚ) ≤ 2 * k * m := by linarith
    exact_mod_cast this
  · intro h
    have : ((2 * i + 1) * g.N : ℚ) ≤ 2 * k * m := by exact_mod_cast h
    linarith

/-- **C190**: the positions are as even as whole numbers can be: each is less than one grid step behind the middle of its `k`-th part of the half period, and neighbours are `n_phi / k` apart, rounded up or down. -/
theorem C190_even {k i : ℕ} (hk : 0 < k) :
    (((2 * i + 1 : ℕ) : ℚ) / 2 * (g.N / k) ≤ g.evenly k i ∧ (g.evenly k i : ℚ) < ((2 * i + 1 : ℕ) : ℚ) / 2 * (g.N / k) + 1) ∧
    |((g.evenly k (i + 1) : ℚ) - g.evenly k i) - g.N / k| < 1 := by
  have h : ∀ i, ((2 * i + 1 : ℕ) : ℚ) / 2 * (g.N / k) ≤ g.evenly k i ∧ (g.evenly k i : ℚ) < ((2 * i + 1 : ℕ) : ℚ) / 2 * (g.N / k) + 1 := by
    intro i
    have e : ((2 * i + 1 : ℕ) : ℚ) / 2 * (g.N / k) = (i : ℚ) * (g.N / k) + (1 / 2) * g.N / k := by push_cast; ring
    rw [e]
    exact ⟨Nat.le_ceil _, Nat.ceil_lt_add_one (by positivity)⟩
  refine ⟨h i, ?_⟩
  obtain ⟨a1, a2⟩ := h i
  obtain ⟨b1, b2⟩ := h (i + 1)
  push_cast at a1 a2 b1 b2
  rw [abs_lt]
  constructor <;> linarith

theorem evenly_pos {k i : ℕ} (hk : 0 < k) (hN : 0 < g.N) : 1 ≤ g.evenly k i := by
  by_contra hc
  have h := (evenly_le g (i := i) (m := 0) hk).mp (by omega)
  have : 0 < (2 * i + 1) * g.N := by positivity
  omega

theorem evenly_le_N {k i : ℕ} (hi : i < k) : g.evenly k i ≤ g.N := by
  rw [evenly_le g (by omega)]
  exact Nat.mul_le_mul_right _ (by omega)

theorem evenly_lt_N {k i : ℕ} (hi : i < k) (h2 : 2 * k ≤ g.N) : g.evenly k i ≤ g.N - 1 := by
  rw [evenly_le g (by omega)]
  obtain ⟨M, hM⟩ : ∃ M, g.N = M + 1 := ⟨g.N - 1, by omega⟩
  rw [hM] at h2 ⊢
  simp only [Nat.add_sub_cancel]
  have h3 : 2 * i + 1 ≤ 2 * k - 1 := by omega
  calc (2 * i + 1) * (M + 1) ≤ (2 * k - 1) * (M + 1) := Nat.mul_le_mul_right _ h3
    _ ≤ 2 * k * M := by
      obtain ⟨q, hq⟩ : ∃ q, 2 * k = q + 1 := ⟨2 * k - 1, by omega⟩
      rw [hq] at h2 ⊢
      simp only [Nat.add_sub_cancel]
      nlinarith

theorem evenly_last {k : ℕ} (hk : 0 < k) (h2 : g.N < 2 * k) (hN : 0 < g.N) : g.evenly k (k - 1) = g.N := by
  apply le_antisymm (evenly_le_N g (by omega))
  by_contra hc
  have h := (evenly_le g (i := k - 1) (m := g.N - 1) hk).mp (by omega)
  obtain ⟨M, hM⟩ : ∃ M, g.N = M + 1 := ⟨g.N - 1, by omega⟩
  obtain ⟨q, hq⟩ : ∃ q, k = q + 1 := ⟨k - 1, by omega⟩
  rw [hM, hq] at h
  rw [hM, hq] at h2
  simp only [Nat.add_sub_cancel] at h
  nlinarith

/-- A distance of `d` grid steps per part separates the positions by at least `d`. -/
theorem evenly_gap {k i d : ℕ} (hk : 0 < k) (hd : d * k ≤ g.N) : g.evenly k i + d ≤ g.evenly k (i + 1) := by
  by_contra hc
  by_cases hz : d ≤ g.evenly k (i + 1)
  · have h := (evenly_le g (i := i) (m := g.evenly k (i + 1) - d) hk).mpr ?_
    · omega
    · have h1 := (evenly_le g (i := i + 1) (m := g.evenly k (i + 1)) hk).mp le_rfl
      generalize g.evenly k (i + 1) = e at *
      obtain ⟨f, rfl⟩ : ∃ f, e = f + d := ⟨e - d, by omega⟩
      simp only [Nat.add_sub_cancel]
      nlinarith
  · have h1 := (evenly_le g (i := i + 1) (m := g.evenly k (i + 1)) hk).mp le_rfl
    have h2 : g.evenly k (i + 1) + 1 ≤ d := by omega
    have h3 : 2 * k * (g.evenly k (i + 1) + 1) ≤ 2 * k * d := Nat.mul_le_mul_left _ h2
    nlinarith

theorem evenly_strict {k i j d : ℕ} (hk : 0 < k) (hd : d * k ≤ g.N) (hij : i < j) : g.evenly k i + d ≤ g.evenly k j := by
  induction j, hij using Nat.le_induction with
  | base => exact evenly_gap g hk hd
  | succ j hj ih => exact ih.trans ((Nat.le_add_right _ d).trans (evenly_gap g hk hd))

/-! ### The currents on the torus -/

/-- The coils: full loops at the toroidal indices `evenly k i` and at their mirror images. -/
def Grid.coilAt (g : Grid) (k : ℕ) (I : ℤ) : Prop := ∃ i < k, (2 * (g.N : ℤ)) ∣ I - g.evenly k i ∨ (2 * (g.N : ℤ)) ∣ I + g.evenly k i

open Classical in
/-- **C190**: on the whole torus, the added currents are loops of current `c` once around the torus the short way, at the chosen toroidal indices and their mirror images, and nothing else. -/
theorem C190_loops (h2 : 2 ≤ g.N) (h1 : 1 ≤ g.h) {k : ℕ} (hk : 0 < k) (hkN : k ≤ g.N) (c : ℝ) :
    g.IsFlow (g.tfCurrents k c) (fun _ _ => 0) (fun I _ => if g.coilAt k I then c else 0) := by
  have hn : g.n = 2 * g.h := rfl
  have hval : ∀ s : ℕ, ∀ i : ℕ, g.nTor ≤ s → s < g.nSeg → (s < g.nTor + g.h → i = 0) → (g.nTor + g.h ≤ s → i = 1 + (s - g.nTor - g.h) / g.n) → (g.tfCurrents k c s = if g.coilAt k i then c else 0) ∧ i ≤ g.N := by
    intro s i hs1 hs2 hi0 hi1
    have hNn : g.nTor = g.N * g.n := by rw [Grid.nTor, Nat.mul_comm]
    have hiN : i ≤ g.N := by
      by_cases hc : s < g.nTor + g.h
      · rw [hi0 hc]; omega
      · rw [hi1 (by omega)]
        have : (s - g.nTor - g.h) / g.n < g.N := by
          rw [Nat.div_lt_iff_lt_mul (by omega)]
          have : g.nSeg = g.nTor + g.nTor := rfl
          omega
        omega
    refine ⟨?_, hiN⟩
    unfold Grid.tfCurrents
    congr 1
    rw [List.any_eq_true]
    apply propext
    constructor
    · rintro ⟨t, ht, h⟩
      rw [List.mem_range] at ht
      simp only [decide_eq_true_eq] at h
      have hp := evenly_pos g (k := k) (i := t) hk (by omega)
      have hle := evenly_le_N g ht
      rw [Grid.tfRange, if_neg (by omega)] at h
      refine ⟨t, ht, Or.inl ?_⟩
      have hh : g.nTor + g.h + (g.evenly k t - 1) * g.n ≤ s ∧ s < g.nTor + g.h + (g.evenly k t - 1) * g.n + g.n := by
        rw [hNn]
        constructor
        · exact_mod_cast h.1
        · exact_mod_cast h.2
      have hi := hi1 (by have := Nat.zero_le ((g.evenly k t - 1) * g.n); omega)
      have : (s - g.nTor - g.h) / g.n = g.evenly k t - 1 := by
        rw [Nat.div_eq_iff (by omega)]
        generalize (g.evenly k t - 1) * g.n = q at *
        omega
      rw [hi, this]
      have : ((1 + (g.evenly k t - 1) : ℕ) : ℤ) - (g.evenly k t : ℤ) = 0 := by omega
      rw [this]
      exact dvd_zero _
    · rintro ⟨t, ht, h⟩
      have hp := evenly_pos g (k := k) (i := t) hk (by omega)
      have hle := evenly_le_N g ht
      have hi : i = g.evenly k t := by
        rcases h with ⟨q, hq⟩ | ⟨q, hq⟩
        · have : q = 0 := by
            have h3 : (2 * (g.N : ℤ)) * q < 2 * g.N * 1 := by rw [← hq]; omega
            have h4 : (2 * (g.N : ℤ)) * (-1) < 2 * g.N * q := by rw [← hq]; omega
            have := lt_of_mul_lt_mul_left h3 (by omega)
            have := lt_of_mul_lt_mul_left h4 (by omega)
            omega
          rw [this] at hq
          omega
        · have : q = 1 := by
            have h3 : (2 * (g.N : ℤ)) * q < 2 * g.N * 2 := by rw [← hq]; omega
            have h4 : (2 * (g.N : ℤ)) * 0 < 2 * g.N * q := by rw [← hq]; omega
            have := lt_of_mul_lt_mul_left h3 (by omega)
            have := lt_of_mul_lt_mul_left h4 (by omega)
            omega
          rw [this] at hq
          omega
      refine ⟨t, List.mem_range.mpr ht, ?_⟩
      simp only [decide_eq_true_eq]
      rw [Grid.tfRange, if_neg (by omega), ← hi]
      have hs3 : g.nTor + g.h ≤ s := by
        by_contra hc
        have := hi0 (by omega)
        omega
      have h5 := hi1 hs3
      have h6 : (s - g.nTor - g.h) / g.n = i - 1 := by omega
      rw [Nat.div_eq_iff (by omega)] at h6
      rw [← hNn]
      have : g.nTor + g.h + (i - 1) * g.n ≤ s ∧ s < g.nTor + g.h + (i - 1) * g.n + g.n := by
        generalize (i - 1) * g.n = q at *
        omega
      exact_mod_cast this
  have hper : ∀ I, g.coilAt k (I + 2 * g.N) ↔ g.coilAt k I := by
    intro I
    refine exists_congr fun t => and_congr_right fun _ => or_congr ?_ ?_
    · rw [show I + 2 * (g.N : ℤ) - g.evenly k t = (I - g.evenly k t) + 2 * g.N by ring]; exact dvd_add_self_right
    · rw [show I + 2 * (g.N : ℤ) + g.evenly k t = (I + g.evenly k t) + 2 * g.N by ring]; exact dvd_add_self_right
  have hneg : ∀ I, g.coilAt k (-I) ↔ g.coilAt k I := by
    intro I
    refine exists_congr fun t => and_congr_right fun _ => ?_
    rw [show -I - (g.evenly k t : ℤ) = -(I + g.evenly k t) by ring, show -I + (g.evenly k t : ℤ) = -(I - g.evenly k t) by ring, dvd_neg, dvd_neg]
    exact or_comm
  refine ⟨fun I J => ⟨rfl, rfl⟩, fun I J => ⟨by simp only [hper], rfl⟩, ?_, ?_⟩
  · intro s hs i j hj hst
    have : g.tfCurrents k c s = 0 := by
      unfold Grid.tfCurrents
      rw [if_neg]
      rw [List.any_eq_true]
      rintro ⟨t, ht, h⟩
      simp only [decide_eq_true_eq] at h
      have hp := evenly_pos g (k := k) (i := t) hk (by omega)
      rw [Grid.tfRange, if_neg (by omega)] at h
      have h3 : g.N * g.n ≤ s := by
        have : g.N * g.n + g.h + (g.evenly k t - 1) * g.n ≤ s := by exact_mod_cast h.1
        omega
      rw [Grid.nTor, Nat.mul_comm] at hs
      omega
    exact ⟨this.symm, this.symm⟩
  · intro s hs hs2 i j hj hst
    have hi : (s < g.nTor + g.h → i = 0) ∧ (g.nTor + g.h ≤ s → i = 1 + (s - g.nTor - g.h) / g.n) := by
      have hdiv : ∀ a b c d : ℕ, b < g.n → d < g.n → a * g.n + b = c * g.n + d → a = c := by
        intro a b c d hb hd h
        have h3 := congrArg (· / g.n) h
        simp only [Nat.add_div_of_dvd_right (Dvd.intro_left _ rfl), Nat.mul_div_cancel _ (show 0 < g.n by omega), Nat.div_eq_of_lt hb, Nat.div_eq_of_lt hd] at h3
        simpa using h3
      unfold Grid.segStart at hst
      rw [if_neg (by omega)] at hst
      simp only [Grid.node] at hst
      constructor
      · intro hc
        rw [if_pos (by omega)] at hst
        exact (hdiv _ _ _ _ (by omega) hj hst).symm
      · intro hc
        rw [if_neg (by omega)] at hst
        have hNS : g.nSeg = g.nTor + g.nPol := rfl
        have hNP : g.nPol = g.n * g.N := rfl
        have hbig : g.n * g.N = g.n * (g.N - 1) + g.n := by
          obtain ⟨M, hM⟩ : ∃ M, g.N = M + 1 := ⟨g.N - 1, by omega⟩
          rw [hM, Nat.add_sub_cancel]; ring
        split at hst
        · exact (hdiv _ _ _ _ (Nat.mod_lt _ (by omega)) hj hst).symm
        · rename_i hc2
          have hN : i = g.N := (hdiv _ _ _ _ (by omega) hj hst).symm
          have : (s - g.nTor - g.h) / g.n = g.N - 1 := by
            rw [Nat.div_eq_iff (by omega), Nat.mul_comm (g.N - 1)]
            generalize g.n * (g.N - 1) = q at *
            omega
          omega
    have := (hval s i hs2 hs hi.1 hi.2).1
    constructor
    · rw [this]
    · rw [this]; simp only [hneg]

/-! ### Totals -/

theorem evenly_injOn {k : ℕ} (hk : 0 < k) (hkN : k ≤ g.N) : Set.InjOn (g.evenly k) (Finset.range k : Finset ℕ) := by
  intro a _ b _ hab
  by_contra hc
  rcases lt_or_gt_of_ne hc with h | h
  · have := evenly_strict g (d := 1) hk (by omega) h; omega
  · have := evenly_strict g (d := 1) hk (by omega) h; omega

theorem coilAt_iff {k : ℕ} (hk : 0 < k) (hN : 0 < g.N) {i : ℕ} (hi : i < 2 * g.N) : g.coilAt k i ↔ (∃ t < k, g.evenly k t = i) ∨ ∃ t < k, 2 * g.N - g.evenly k t = i := by
  rw [← exists_or]
  refine exists_congr fun t => ?_
  rw [← and_or_left]
  refine and_congr_right fun ht => ?_
  have hp := evenly_pos g (k := k) (i := t) hk hN
  have hle := evenly_le_N g ht
  refine or_congr ⟨?_, ?_⟩ ⟨?_, ?_⟩
  · rintro ⟨q, hq⟩
    have h3 : (2 * (g.N : ℤ)) * q < 2 * g.N * 1 := by rw [← hq]; omega
    have h4 : (2 * (g.N : ℤ)) * (-1) < 2 * g.N * q := by rw [← hq]; omega
    have := lt_of_mul_lt_mul_left h3 (by omega)
    have := lt_of_mul_lt_mul_left h4 (by omega)
    have h0 : q = 0 := by omega
    rw [h0] at hq
    omega
  · intro h
    exact ⟨0, by omega⟩
  · rintro ⟨q, hq⟩
    have h3 : (2 * (g.N : ℤ)) * q < 2 * g.N * 2 := by rw [← hq]; omega
    have h4 : (2 * (g.N : ℤ)) * 0 < 2 * g.N * q := by rw [← hq]; omega
    have := lt_of_mul_lt_mul_left h3 (by omega)
    have := lt_of_mul_lt_mul_left h4 (by omega)
    have h0 : q = 1 := by omega
    rw [h0] at hq
    omega
  · intro h
    exact ⟨1, by omega⟩

open Classical in
theorem coil_sum {k : ℕ} (hk : 0 < k) (hkN : k ≤ g.N) (c : ℝ) :
    ∑ i ∈ Finset.range (2 * g.N), (if g.coilAt k (i : ℕ) then c else 0) = (if 2 * k ≤ g.N then (2 * k : ℕ) else (2 * k - 1 : ℕ)) * c := by
  have hN : 0 < g.N := by omega
  have hset : (Finset.range (2 * g.N)).filter (fun i => g.coilAt k (i : ℕ)) = (Finset.range k).image (g.evenly k) ∪ (Finset.range k).image (fun t => 2 * g.N - g.evenly k t) := by
    ext i
    simp only [Finset.mem_filter, Finset.mem_range, Finset.mem_union, Finset.mem_image]
    constructor
    · rintro ⟨h, h'⟩
      exact (coilAt_iff g hk hN h).mp h'
    · intro h
      have hlt : i < 2 * g.N := by
        rcases h with ⟨t, ht, rfl⟩ | ⟨t, ht, rfl⟩
        · have := evenly_le_N g ht; omega
        · have := evenly_pos g (k := k) (i := t) hk hN; omega
      exact ⟨hlt, (coilAt_iff g hk hN hlt).mpr h⟩
  have hA : ((Finset.range k).image (g.evenly k)).card = k := by rw [Finset.card_image_of_injOn (evenly_injOn g hk hkN), Finset.card_range]
  have hB : ((Finset.range k).image (fun t => 2 * g.N - g.evenly k t)).card = k := by
    rw [Finset.card_image_of_injOn, Finset.card_range]
    intro a ha b hb hab
    simp only at hab
    have h1 := evenly_le_N g (Finset.mem_range.mp ha)
    have h2 := evenly_le_N g (Finset.mem_range.mp hb)
    exact evenly_injOn g hk hkN ha hb (by omega)
  have hI : ((Finset.range k).image (g.evenly k) ∩ (Finset.range k).image (fun t => 2 * g.N - g.evenly k t)).card = if 2 * k ≤ g.N then 0 else 1 := by
    split
    · rename_i h
      rw [Finset.card_eq_zero, Finset.eq_empty_iff_forall_notMem]
      intro i hi
      simp only [Finset.mem_inter, Finset.mem_image, Finset.mem_range] at hi
      obtain ⟨⟨t, ht, h3⟩, u, hu, h4⟩ := hi
      have := evenly_lt_N g ht h
      have := evenly_lt_N g hu h
      omega
    · rename_i h
      rw [Finset.card_eq_one]
      refine ⟨g.N, ?_⟩
      have hl := evenly_last g hk (by omega) hN
      ext i
      simp only [Finset.mem_inter, Finset.mem_image, Finset.mem_range, Finset.mem_singleton]
      constructor
      · rintro ⟨⟨t, ht, h3⟩, u, hu, h4⟩
        have := evenly_le_N g ht
        have := evenly_le_N g hu
        omega
      · rintro rfl
        exact ⟨⟨k - 1, by omega, hl⟩, k - 1, by omega, by omega⟩
  have hU := Finset.card_union_add_card_inter ((Finset.range k).image (g.evenly k)) ((Finset.range k).image (fun t => 2 * g.N - g.evenly k t))
  rw [hA, hB, hI] at hU
  rw [← Finset.sum_filter, Finset.sum_const, hset, nsmul_eq_mul]
  congr 1
  split at hU <;> rename_i h
  · rw [if_pos h]; exact_mod_cast (by omega)
  · rw [if_neg h]; exact_mod_cast (by omega)

theorem apply_add (r : Row) (x y : ℤ → ℝ) : g.apply r (fun s => x s + y s) = g.apply r x + g.apply r y := by
  simp only [Grid.apply, mul_add, Finset.sum_add_distrib]

/-- **C190**: with room for two grid steps per coil, the added currents have no sources, carry no net toroidal current, and the total poloidal current of a field period is `2 n_tf` times the current of a coil, as for `n_tf` coils per half
period. -/
theorem C190_totals (h2 : 2 ≤ g.N) (h1 : 1 ≤ g.h) {k : ℕ} (hk : 0 < k) (hkN : 2 * k ≤ g.N) (c : ℝ) :
    g.Continuous (g.tfCurrents k c) ∧ g.apply g.torRow (g.tfCurrents k c) = 0 ∧ g.apply g.polRow (g.tfCurrents k c) = 2 * k * c := by
  classical
  have hf := C190_loops g h2 h1 hk (by omega) c
  have hc : g.Continuous (g.tfCurrents k c) := (C83_continuity h2 h1 hf).mpr fun I J => by ring
  refine ⟨hc, ?_, ?_⟩
  · rw [C83_toroidal_current h2 h1 hf hc 0]; simp
  · rw [C83_poloidal_current h2 h1 hf hc 0, coil_sum g hk (by omega) c, if_pos hkN]
    push_cast
    ring

/-- **C190, violated**: "Number of TF coils per half-period": with less room (`n_phi / n_tf < 2`) the last coil lies on the symmetry plane and is shared with the next half period: the currents are those of `2 n_tf - 1` coils per field
period. -/
theorem C190_crowded_violated (h2 : 2 ≤ g.N) (h1 : 1 ≤ g.h) {k : ℕ} (hk : 0 < k) (hkN : k ≤ g.N) (hbig : g.N < 2 * k) (c : ℝ) :
    g.evenly k (k - 1) = g.N ∧ g.apply g.polRow (g.tfCurrents k c) = (2 * k - 1) * c := by
  classical
  have hf := C190_loops g h2 h1 hk hkN c
  have hc : g.Continuous (g.tfCurrents k c) := (C83_continuity h2 h1 hf).mpr fun I J => by ring
  refine ⟨evenly_last g hk hbig (by omega), ?_⟩
  rw [C83_poloidal_current h2 h1 hf hc 0, coil_sum g hk hkN c, if_neg (by omega), Nat.cast_sub (by omega)]
  push_cast
  ring

/-- **C190**: the call adds exactly these currents to those that are there, or raises and leaves them: `ValueError` for more coils than `n_phi` or if the sum would not meet the constraints. -/
theorem C190_call (w : Wf) (atol rtol : ℝ) (k : ℕ) (c : ℝ) (x : ℤ → ℝ) :
    (g.N < k → g.addTf w atol rtol k c x = .error .tooMany) ∧ (g.N ≥ k → k = 0 → g.addTf w atol rtol k c x = .error .zeroDivision) ∧
    (0 < k → k ≤ g.N → g.addTf w atol rtol k c x = if g.check atol rtol (fun s => g.tfCurrents k c s + x s) w then .ok (fun s => g.tfCurrents k c s + x s) else .error .notMet) := by
  refine ⟨fun h => by simp [Grid.addTf, h], fun h h0 => by simp [Grid.addTf, h0], fun h h0 => ?_⟩
  rw [Grid.addTf, if_neg (by omega), if_neg (by omega)]

/-- **C190**: for a wireframe on which nothing is constrained but the continuity and the total poloidal current, at `2 nfp n_tf` times the current of a coil, the call succeeds on zero currents, for any positive tolerances. -/
theorem C190_accepted (h2 : 2 ≤ g.N) (h1 : 1 ≤ g.h) {w : Wf} (hr : g.Reach w) {k : ℕ} (hk : 0 < k) (hkN : 2 * k ≤ g.N) (c : ℝ) {atol rtol : ℝ} (ha : 0 < atol) (hrt : 0 ≤ rtol)
    (hw : ∀ q ∈ w.cons, q.type ≠ .implicit → (∃ i ≤ g.N, ∃ j < g.n, g.hasContinuity i j = true ∧ q = g.contConstraint (i, j)) ∨ (q.row = g.polRow ∧ q.const = 2 * k * c)) :
    g.addTf w atol rtol k c (fun _ => 0) = .ok (g.tfCurrents k c) := by
  obtain ⟨hc, -, hp⟩ := C190_totals g h2 h1 hk hkN c
  have hx : (fun s => g.tfCurrents k c s + 0) = g.tfCurrents k c := funext fun s => add_zero _
  have hm : w.Meets g (g.tfCurrents k c) := by
    intro q hq ht
    rcases hw q hq ht with ⟨i, hi, j, hj, hcc, rfl⟩ | ⟨hr1, hr2⟩
    · exact hc i hi j hj hcc
    · rw [hr1, hr2, hp]
  rw [(C190_call g w atol rtol k c _).2.2 hk (by omega), hx, if_pos ((C84_check h2 h1 hr _).1 hm atol rtol ha hrt)]

/-- A wireframe and a number of coils to which `C190_totals` applies; and one for `C190_crowded_violated`. -/
example : Grid.apply ⟨4, 3⟩ (Grid.polRow ⟨4, 3⟩) (Grid.tfCurrents ⟨4, 3⟩ 2 5) = 20 ∧ Grid.apply ⟨4, 3⟩ (Grid.polRow ⟨4, 3⟩) (Grid.tfCurrents ⟨4, 3⟩ 3 5) = 25 := by
  constructor
  · rw [(C190_totals ⟨4, 3⟩ (by norm_num) (by norm_num) (by norm_num) (by norm_num) 5).2.2]; norm_num
  · rw [(C190_crowded_violated ⟨4, 3⟩ (by norm_num) (by norm_num) (by norm_num) (by norm_num) (by norm_num) 5).2]; norm_num

end Simsopt.Wireframe
