import Verif.Wireframe.Loops
/-!
# C83: segments, neighbours, and the total currents
-/
namespace Simsopt.Wireframe

variable {g : Grid} {x : Int → ℝ} {T P : Int → Int → ℝ}

/-- **C83.** Every segment connects neighbouring nodes of the grid: a toroidal segment `(i, j)` and `(i + 1, j)`, a poloidal one `(i, j)` and `(i, j + 1)` modulo `n_theta`. -/
theorem C83_segments (h2 : 2 ≤ g.N) (h1 : 1 ≤ g.h) (s : Nat) (hs : s < g.nSeg) :
    ∃ i j, i ≤ g.N ∧ j < g.n ∧ g.segStart s = g.node i j ∧ ((s < g.nTor ∧ i < g.N ∧ g.segEnd s = g.node (i + 1) j) ∨ (g.nTor ≤ s ∧ g.segEnd s = g.node i ((j + 1) % g.n))) := by
  have hn : g.n = 2 * g.h := rfl
  have hs' : g.nSeg = g.nTor + g.nPol := rfl
  have hl := Grid.last_pol h2 h1
  rcases Nat.lt_or_ge s g.nTor with h | h
  · have hd : s / g.n < g.N := by rw [Nat.div_lt_iff_lt_mul (by omega)]; rw [Nat.mul_comm]; exact h
    have hdm := Nat.div_add_mod s g.n
    have hm := Nat.mod_lt s (show 0 < g.n by omega)
    refine ⟨s / g.n, s % g.n, hd.le, hm, ?_, Or.inl ⟨h, hd, ?_⟩⟩
    · rw [Grid.segStart, if_pos h, Grid.node, Nat.mul_comm]; omega
    · rw [Grid.segEnd, if_pos h, Grid.node, Nat.add_mul, Nat.mul_comm]; omega
  · obtain ⟨i, j, hv, hp⟩ := Grid.polNo_surj h2 h1 (p := s - g.nTor) (by omega)
    have hj := hv.lt
    have e : s = g.nTor + g.polNo i j := by omega
    refine ⟨i, j, by rcases hv with ⟨_, h, _⟩ | ⟨h | h, _⟩ <;> omega, hj, by rw [e]; exact Grid.segStart_pol h2 h1 hv, Or.inr ⟨h, ?_⟩⟩
    rw [Grid.segEnd, if_neg (by omega)]
    simp only [hp]
    rcases hv with ⟨h0, hN, _⟩ | ⟨h0 | h0, hjh⟩
    · rw [show g.polNo i j = g.h + (i - 1) * g.n + j from if_neg (by omega)]
      have hlt : (i - 1) * g.n + j < (g.N - 1) * g.n := by
        have := lin_lt (i := i - 1) (N := g.N - 1) (by omega) hj
        rwa [Nat.mul_comm g.n] at this
      rw [if_neg (by omega), if_pos (by omega)]
      have e : g.h + (i - 1) * g.n + j - g.h = (i - 1) * g.n + j := by omega
      rw [e, (lin_div hj).1, (lin_div hj).2]
      split
      · rename_i h3
        rw [show j + 1 = g.n by omega, Nat.mod_self]; congr 1; omega
      · rw [Nat.mod_eq_of_lt (by omega)]; congr 1; omega
    · subst h0
      rw [show g.polNo 0 j = j from if_pos rfl, if_pos hjh, Nat.mod_eq_of_lt (by omega)]
    · subst h0
      rw [show g.polNo g.N j = g.h + (g.N - 1) * g.n + j from if_neg (by omega), if_neg (by omega), if_neg (by omega), Nat.mod_eq_of_lt (by omega)]
      congr 1; omega

/-- **C83.** The four segments listed for a node are those that carry the four currents that meet there on the torus, also at the nodes of the symmetry planes, where they can be mirror images of each other. -/
theorem C83_connected (h2 : 2 ≤ g.N) (h1 : 1 ≤ g.h) (hf : g.IsFlow x T P) (i j : Nat) (hi : i ≤ g.N) (hj : j < g.n) :
    x (g.connected i j).torIn = T (i - 1) j ∧ x (g.connected i j).polIn = P i (j - 1) ∧ x (g.connected i j).torOut = T i j ∧ x (g.connected i j).polOut = P i j := by
  have hn : g.n = 2 * g.h := rfl
  have flipT : ∀ I : Int, T I (-j) = T I (((g.n - j) % g.n : Nat)) := by
    intro I
    rcases Nat.eq_zero_or_pos j with h0 | h0
    · subst h0; simp
    · rw [Nat.mod_eq_of_lt (by omega), ← hf.shiftT I (-j) 0 1]; congr 1
      · ring
      · omega
  have hjm : (g.n - j) % g.n < g.n := Nat.mod_lt _ (by omega)
  have plane : (i = 0 ∨ i = g.N) → x (if j = 0 then g.polKey i 0 else if j < g.h then g.polKey i (j - 1) else if j = g.h then g.polKey i (j - 1) else g.polKey i (g.n - j)) = P i (j - 1) ∧
      x (if j = 0 then g.polKey i 0 else if j < g.h then g.polKey i j else if j = g.h then g.polKey i (j - 1) else g.polKey i (g.n - j - 1)) = P i j := by
    intro hp
    have mir : ∀ J : Int, P i (-J - 1) = P i J := by
      intro J
      rw [← hf.symP h2 h1 i J]
      rcases hp with h | h
      · subst h; simp
      · rw [← hf.shiftP (-i) _ 1 0]; congr 1
        · omega
        · ring
    have at' : ∀ b : Nat, b < g.h → P i b = x (g.polKey i b) := fun b hb => (hf.atPol h2 h1 (Or.inr ⟨hp, hb⟩)).1
    by_cases h0 : j = 0
    · subst h0
      rw [if_pos rfl, if_pos rfl]
      refine ⟨?_, (at' 0 (by omega)).symm⟩
      rw [← at' 0 (by omega), ← mir]; simp
    · rw [if_neg h0, if_neg h0]
      by_cases h3 : j < g.h
      · rw [if_pos h3, if_pos h3]
        refine ⟨?_, (at' j h3).symm⟩
        rw [← at' (j - 1) (by omega)]; congr 1; omega
      · rw [if_neg h3, if_neg h3]
        by_cases h4 : j = g.h
        · rw [if_pos h4, if_pos h4, ← at' (j - 1) (by omega)]
          refine ⟨by congr 1; omega, ?_⟩
          rw [← mir j, ← hf.shiftP i (-j - 1) 0 1]; congr 1
          · ring
          · omega
        · rw [if_neg h4, if_neg h4, ← at' (g.n - j) (by omega), ← at' (g.n - j - 1) (by omega), ← mir (j - 1), ← mir j, ← hf.shiftP i (-j - 1) 0 1, ← hf.shiftP i (-(j - 1) - 1) 0 1]
          constructor
          · congr 1
            · ring
            · omega
          · congr 1
            · ring
            · omega
  rcases Nat.eq_zero_or_pos i with h0 | h0
  · have pl := plane (Or.inl h0)
    subst h0
    simp only [Grid.connected, if_true]
    have e : (if j = 0 then g.polKey 0 j else if j < g.h then g.polKey 0 (j - 1) else if j = g.h then g.polKey 0 (j - 1) else g.polKey 0 (g.n - j)) =
        (if j = 0 then g.polKey 0 0 else if j < g.h then g.polKey 0 (j - 1) else if j = g.h then g.polKey 0 (j - 1) else g.polKey 0 (g.n - j)) := by
      by_cases h : j = 0
      · rw [if_pos h, if_pos h, h]
      · rw [if_neg h, if_neg h]
    have e' : (if j = 0 then g.polKey 0 j else if j < g.h then g.polKey 0 j else if j = g.h then g.polKey 0 (j - 1) else g.polKey 0 (g.n - j - 1)) =
        (if j = 0 then g.polKey 0 0 else if j < g.h then g.polKey 0 j else if j = g.h then g.polKey 0 (j - 1) else g.polKey 0 (g.n - j - 1)) := by
      by_cases h : j = 0
      · rw [if_pos h, if_pos h, h]
      · rw [if_neg h, if_neg h]
    rw [e, e']
    refine ⟨?_, pl.1, ((hf.atTor (i := 0) (by omega) hj).1).symm, pl.2⟩
    rw [← (hf.atTor (i := 0) (by omega) hjm).1, ← flipT, ← hf.symT h2 h1]; simp
  · rcases Nat.lt_or_ge i g.N with hiN | hiN
    · simp only [Grid.connected, if_neg (show ¬ i = 0 by omega), if_pos hiN]
      have v2 : g.HasPol i j := Or.inl ⟨h0, hiN, hj⟩
      refine ⟨?_, ?_, ((hf.atTor hiN hj).1).symm, ((hf.atPol h2 h1 v2).1).symm⟩
      · rw [← (hf.atTor (i := i - 1) (by omega) hj).1]; congr 1; omega
      · by_cases hj0 : j = 0
        · rw [if_pos hj0, ← (hf.atPol h2 h1 (Or.inl ⟨h0, hiN, (show g.n - 1 < g.n by omega)⟩)).1, ← hf.shiftP i (j - 1) 0 1]; congr 1
          · ring
          · omega
        · rw [if_neg hj0, ← (hf.atPol h2 h1 (Or.inl ⟨h0, hiN, (show j - 1 < g.n by omega)⟩)).1]; congr 1; omega
    · have hiN' : i = g.N := by omega
      have pl := plane (Or.inr hiN')
      simp only [Grid.connected, if_neg (show ¬ i = 0 by omega), if_neg (show ¬ i < g.N by omega)]
      refine ⟨?_, pl.1, ?_, pl.2⟩
      · rw [← (hf.atTor (i := i - 1) (by omega) hj).1]; congr 1; omega
      · rw [← (hf.atTor (i := i - 1) (by omega) hjm).1, ← flipT, ← hf.symT h2 h1 i, ← hf.shiftT (-i - 1) _ 1 0]; congr 1
        · omega
        · ring

/-- **C83.** The neighbours listed for a cell are (the representatives in the half period of) the four cells next to it on the torus. -/
theorem C83_neighbors (h2 : 2 ≤ g.N) (h1 : 1 ≤ g.h) (i j : Nat) (hi : i < g.N) (hj : j < g.n) :
    let nb := g.neighbors i j
    (nb.1.1 < g.N ∧ nb.1.2 < g.n ∧ g.images nb.1.1 nb.1.2 i (j - 1) ≠ 0) ∧ (nb.2.1.1 < g.N ∧ nb.2.1.2 < g.n ∧ g.images nb.2.1.1 nb.2.1.2 (i + 1) j ≠ 0) ∧
    (nb.2.2.1.1 < g.N ∧ nb.2.2.1.2 < g.n ∧ g.images nb.2.2.1.1 nb.2.2.1.2 i (j + 1) ≠ 0) ∧ (nb.2.2.2.1 < g.N ∧ nb.2.2.2.2 < g.n ∧ g.images nb.2.2.2.1 nb.2.2.2.2 (i - 1) j ≠ 0) := by
  have hn : g.n = 2 * g.h := rfl
  have plain : ∀ (a b : Nat) (I J : Int), I = a → J ≡ b [ZMOD g.n] → g.images a b I J ≠ 0 := by
    intro a b I J e1 e2
    rw [Grid.images, if_pos ⟨by rw [e1], e2⟩]; norm_num
  have mirror : ∀ (a b : Nat) (I J : Int), a < g.N → I ≡ -a - 1 [ZMOD 2 * g.N] → J ≡ -b - 1 [ZMOD g.n] → g.images a b I J ≠ 0 := by
    intro a b I J _ e1 e2
    rw [Grid.images]
    split
    · norm_num
    · rw [if_pos ⟨e1, e2⟩]; norm_num
  have m1 : (j + g.n - 1) % g.n < g.n := Nat.mod_lt _ (by omega)
  have m2 : (j + 1) % g.n < g.n := Nat.mod_lt _ (by omega)
  have q1 : ((j : Int) - 1) ≡ (((j + g.n - 1) % g.n : Nat) : Int) [ZMOD g.n] := by
    rw [Int.natCast_mod]
    refine Int.ModEq.trans ?_ (Int.mod_modEq _ _).symm
    rw [show ((j + g.n - 1 : Nat) : Int) = (j - 1) + 1 * g.n by omega, modEq_shift]
  have q2 : ((j : Int) + 1) ≡ (((j + 1) % g.n : Nat) : Int) [ZMOD g.n] := by
    rw [Int.natCast_mod]
    refine Int.ModEq.trans ?_ (Int.mod_modEq _ _).symm
    rw [show ((j + 1 : Nat) : Int) = (j + 1) by omega]
  have q3 : (j : Int) ≡ -((g.n - j - 1 : Nat) : Int) - 1 [ZMOD g.n] := by
    rw [show -((g.n - j - 1 : Nat) : Int) - 1 = j + (-1) * g.n by omega, modEq_shift]
  rcases Nat.eq_zero_or_pos i with h0 | h0
  · subst h0
    simp only [Grid.neighbors, if_true]
    refine ⟨⟨by omega, m1, plain _ _ _ _ rfl q1⟩, ⟨by omega, hj, plain _ _ _ _ (by simp) rfl⟩, ⟨by omega, m2, plain _ _ _ _ rfl q2⟩, ⟨by omega, by omega, mirror _ _ _ _ (by omega) (by simp) q3⟩⟩
  · by_cases h3 : i < g.N - 1
    · simp only [Grid.neighbors, if_neg (show ¬ i = 0 by omega), if_pos h3]
      exact ⟨⟨by omega, m1, plain _ _ _ _ rfl q1⟩, ⟨by omega, hj, plain _ _ _ _ (by simp) rfl⟩, ⟨by omega, m2, plain _ _ _ _ rfl q2⟩, ⟨by omega, hj, plain _ _ _ _ (by omega) rfl⟩⟩
    · simp only [Grid.neighbors, if_neg (show ¬ i = 0 by omega), if_neg h3]
      refine ⟨⟨by omega, m1, plain _ _ _ _ rfl q1⟩, ⟨by omega, by omega, mirror _ _ _ _ (by omega) ?_ q3⟩, ⟨by omega, m2, plain _ _ _ _ rfl q2⟩, ⟨by omega, hj, plain _ _ _ _ (by omega) rfl⟩⟩
      rw [show (-(i : Int) - 1) = (i + 1) + (-1) * (2 * g.N) by omega, modEq_shift]

/-! ### Total currents -/

theorem sum_shift (f : Int → ℝ) (m : Nat) (hper : ∀ I, f (I + m) = f I) : ∑ k ∈ Finset.range m, f ((k : Int) - 1) = ∑ k ∈ Finset.range m, f k := by
  rcases Nat.eq_zero_or_pos m with h | h
  · subst h; simp
  · obtain ⟨q, rfl⟩ : ∃ q, m = q + 1 := ⟨m - 1, by omega⟩
    rw [Finset.sum_range_succ', Finset.sum_range_succ]
    have : f (((0 : Nat) : Int) - 1) = f q := by
      rw [← hper]; congr 1; push_cast; ring
    rw [this]
    congr 1
    refine Finset.sum_congr rfl fun k _ => ?_
    congr 1; push_cast; ring

/-- **C83.** With the continuity constraints, the left hand side of the toroidal current constraint is the total toroidal current through every cross section of the torus. -/
theorem C83_toroidal_current (h2 : 2 ≤ g.N) (h1 : 1 ≤ g.h) (hf : g.IsFlow x T P) (hx : g.Continuous x) (I : Int) : g.apply g.torRow x = ∑ j ∈ Finset.range g.n, T I j := by
  have hn : g.n = 2 * g.h := rfl
  have hd := (C83_continuity h2 h1 hf).mp hx
  have step : ∀ I : Int, ∑ j ∈ Finset.range g.n, T (I - 1) j = ∑ j ∈ Finset.range g.n, T I j := by
    intro I
    have h3 := sum_shift (fun J => P I J) g.n (fun J => (hf.perP I J).2)
    have h4 : ∑ j ∈ Finset.range g.n, (T (I - 1) j + P I ((j : Int) - 1)) = ∑ j ∈ Finset.range g.n, (T I j + P I j) := Finset.sum_congr rfl fun j _ => hd I j
    rw [Finset.sum_add_distrib, Finset.sum_add_distrib] at h4
    linarith
  have all : ∀ k : Nat, (∑ j ∈ Finset.range g.n, T k j = ∑ j ∈ Finset.range g.n, T 0 j) ∧ (∑ j ∈ Finset.range g.n, T (-(k : Int)) j = ∑ j ∈ Finset.range g.n, T 0 j) := by
    intro k
    induction k with
    | zero => simp
    | succ k ih =>
      constructor
      · rw [← ih.1, ← step ((k + 1 : Nat) : Int)]
        refine Finset.sum_congr rfl fun j _ => ?_
        congr 1; push_cast; ring
      · rw [← ih.2, ← step (-(k : Int))]
        refine Finset.sum_congr rfl fun j _ => ?_
        congr 1; push_cast; ring
  have h0 : ∑ j ∈ Finset.range g.n, T I j = ∑ j ∈ Finset.range g.n, T 0 j := by
    rcases Int.eq_nat_or_neg I with ⟨k, rfl | rfl⟩
    · exact (all k).1
    · exact (all k).2
  have hle : g.n ≤ g.nSeg := by
    have : g.n * 1 ≤ g.n * g.N := Nat.mul_le_mul_left _ (by omega)
    simp only [Grid.nSeg, Grid.nTor]; omega
  rw [h0, Grid.apply, ← Finset.sum_subset (Finset.range_subset_range.mpr hle)]
  · refine Finset.sum_congr rfl fun j hj => ?_
    have hj := Finset.mem_range.mp hj
    rw [Grid.torRow, if_pos ⟨by omega, by omega⟩, one_mul]
    have := (hf.atTor (i := 0) (by omega) hj).1
    rw [Grid.torKey_eq (by omega)] at this
    simpa using this.symm
  · intro s _ hs
    have hs := Finset.mem_range.not.mp hs
    rw [Grid.torRow, if_neg (by omega), zero_mul]

theorem Grid.polRow_eq (h2 : 2 ≤ g.N) (h1 : 1 ≤ g.h) (s : Nat) (hs : s < g.nSeg) :
    g.polRow s = if ∃ i < 2 * g.N, (s : Int) = g.polKey (if i ≤ g.N then i else 2 * g.N - i) (if i ≤ g.N then g.h - 1 else g.h) then 1 else 0 := by
  have hn : g.n = 2 * g.h := rfl
  have hl := Grid.last_pol h2 h1
  have hsg : g.nSeg = g.nTor + g.nPol := rfl
  have key1 : ∀ i, 0 < i → i ≤ g.N → g.polKey i (g.h - 1) = (g.nTor : Int) + g.h - 1 + g.h + (i - 1 : Nat) * g.n := by
    intro i h0 hi
    have hv : g.HasPol i (g.h - 1) := by
      rcases Nat.lt_or_ge i g.N with h | h
      · exact Or.inl ⟨h0, h, by omega⟩
      · exact Or.inr ⟨Or.inr (by omega), by omega⟩
    rw [Grid.polKey_eq h2 h1 hv, show g.polNo i (g.h - 1) = g.h + (i - 1) * g.n + (g.h - 1) from if_neg (by omega)]
    push_cast [Nat.cast_sub h1]
    ring
  have key2 : ∀ i, 0 < i → i < g.N → g.polKey i g.h = (g.nTor : Int) + g.h - 1 + g.h + 1 + (i - 1 : Nat) * g.n := by
    intro i h0 hi
    rw [Grid.polKey_eq h2 h1 (Or.inl ⟨h0, hi, by omega⟩), show g.polNo i g.h = g.h + (i - 1) * g.n + g.h from if_neg (by omega)]
    push_cast
    ring
  have key0 : g.polKey 0 (g.h - 1) = (g.nTor : Int) + g.h - 1 := by
    rw [Grid.polKey_eq h2 h1 (Or.inr ⟨Or.inl rfl, by omega⟩), show g.polNo 0 (g.h - 1) = g.h - 1 from if_pos rfl]
    push_cast [Nat.cast_sub h1]
    ring
  have last : (g.nSeg : Int) = g.nTor + g.h + (g.N - 1 : Nat) * g.n + g.h := by
    have : g.nPol = g.h + (g.N - 1) * g.n + g.h := by
      have h5 : g.h ≤ g.nPol := by
        have : g.n * 1 ≤ g.n * g.N := Nat.mul_le_mul_left _ (by omega)
        simp only [Grid.nPol]; omega
      omega
    rw [hsg, this]; push_cast; ring
  have stride : ∀ (a b : Int), a ≤ b → (b - a) % g.n = 0 → ∃ q : Nat, b = a + q * g.n := by
    intro a b hab hm
    obtain ⟨q, hq⟩ := Int.dvd_of_emod_eq_zero hm
    have hq0 : 0 ≤ q := by
      by_contra hc
      have : (g.n : Int) * q ≤ (g.n : Int) * (-1) := mul_le_mul_of_nonneg_left (by omega) (by omega)
      omega
    refine ⟨q.toNat, ?_⟩
    rw [Int.toNat_of_nonneg hq0]; linarith [mul_comm (g.n : Int) q]
  have mono : ∀ p q : Nat, (p : Int) * g.n < q * g.n + g.n → p ≤ q := by
    intro p q h
    by_contra hc
    have : ((q + 1 : Nat) : Int) * g.n ≤ p * g.n := mul_le_mul_of_nonneg_right (by omega) (by omega)
    push_cast at this
    linarith
  simp only [Grid.polRow]
  refine if_congr ⟨?_, ?_⟩ rfl rfl
  · rintro (h | ⟨h3, h4, h5⟩ | ⟨h3, h4, h5⟩)
    · exact ⟨0, by omega, by rw [if_pos (by omega), if_pos (by omega), key0]; exact h⟩
    · obtain ⟨q, hq⟩ := stride _ _ h3 h5
      have hqN : q ≤ g.N - 1 := mono _ _ (by omega)
      refine ⟨q + 1, by omega, ?_⟩
      rw [if_pos (by omega), if_pos (by omega), key1 (q + 1) (by omega) (by omega), Nat.add_sub_cancel]
      exact hq
    · obtain ⟨q, hq⟩ := stride _ _ h3 h5
      have e4 : ((g.N - 1 : Nat) : Int) * g.n = ((g.N - 2 : Nat) : Int) * g.n + g.n := by
        rw [show g.N - 1 = (g.N - 2) + 1 by omega]; push_cast; ring
      have hqN : q ≤ g.N - 2 := mono _ _ (by omega)
      refine ⟨2 * g.N - (q + 1), by omega, ?_⟩
      rw [if_neg (by omega), if_neg (by omega), show 2 * g.N - (2 * g.N - (q + 1)) = q + 1 by omega, key2 (q + 1) (by omega) (by omega), Nat.add_sub_cancel]
      exact hq
  · rintro ⟨i, hi, e⟩
    by_cases h3 : i ≤ g.N
    · rw [if_pos h3, if_pos h3] at e
      rcases Nat.eq_zero_or_pos i with h0 | h0
      · subst h0; left; rw [e, key0]
      · right; left
        rw [key1 i h0 h3] at e
        have : (0 : Int) ≤ (i - 1 : Nat) * g.n := by positivity
        refine ⟨by omega, by omega, ?_⟩
        rw [e, add_sub_cancel_left, Int.mul_emod_left]
    · right; right
      rw [if_neg h3, if_neg h3, key2 _ (by omega) (by omega)] at e
      have e4 : ((g.N - 1 : Nat) : Int) * g.n = ((g.N - 2 : Nat) : Int) * g.n + g.n := by
        rw [show g.N - 1 = (g.N - 2) + 1 by omega]; push_cast; ring
      have h5 : (0 : Int) ≤ (2 * g.N - i - 1 : Nat) * g.n := by positivity
      have h6 : ((2 * g.N - i - 1 : Nat) : Int) * g.n ≤ (g.N - 2 : Nat) * g.n := mul_le_mul_of_nonneg_right (by omega) (by omega)
      refine ⟨by omega, by omega, ?_⟩
      rw [e, add_sub_cancel_left, Int.mul_emod_left]

/-- **C83.** With the continuity constraints, the left hand side of the poloidal current constraint is the total poloidal current of a field period through every toroidal loop of the grid (the constraint demands `current / nfp`: the
total is `current`). -/
theorem C83_poloidal_current (h2 : 2 ≤ g.N) (h1 : 1 ≤ g.h) (hf : g.IsFlow x T P) (hx : g.Continuous x) (J : Int) : g.apply g.polRow x = ∑ i ∈ Finset.range (2 * g.N), P i J := by
  have hn : g.n = 2 * g.h := rfl
  have hd := (C83_continuity h2 h1 hf).mp hx
  have step : ∀ J : Int, ∑ i ∈ Finset.range (2 * g.N), P i (J - 1) = ∑ i ∈ Finset.range (2 * g.N), P i J := by
    intro J
    have h3 := sum_shift (fun I => T I J) (2 * g.N) (fun I => by have := (hf.perT I J).1; push_cast; exact this)
    have h4 : ∑ i ∈ Finset.range (2 * g.N), (T ((i : Int) - 1) J + P i (J - 1)) = ∑ i ∈ Finset.range (2 * g.N), (T i J + P i J) := Finset.sum_congr rfl fun i _ => hd i J
    rw [Finset.sum_add_distrib, Finset.sum_add_distrib] at h4
    linarith
  have all : ∀ k : Nat, (∑ i ∈ Finset.range (2 * g.N), P i (((g.h - 1 : Nat) : Int) + k) = ∑ i ∈ Finset.range (2 * g.N), P i ((g.h - 1 : Nat) : Int)) ∧
      (∑ i ∈ Finset.range (2 * g.N), P i (((g.h - 1 : Nat) : Int) + -(k : Int)) = ∑ i ∈ Finset.range (2 * g.N), P i ((g.h - 1 : Nat) : Int)) := by
    intro k
    induction k with
    | zero => simp
    | succ k ih =>
      constructor
      · rw [← ih.1, ← step (((g.h - 1 : Nat) : Int) + (k + 1 : Nat))]
        refine Finset.sum_congr rfl fun j _ => ?_
        congr 1; push_cast; ring
      · rw [← ih.2, ← step (((g.h - 1 : Nat) : Int) + -(k : Int))]
        refine Finset.sum_congr rfl fun j _ => ?_
        congr 1; push_cast; ring
  have h0 : ∑ i ∈ Finset.range (2 * g.N), P i J = ∑ i ∈ Finset.range (2 * g.N), P i ((g.h - 1 : Nat) : Int) := by
    rcases Int.eq_nat_or_neg (J - ((g.h - 1 : Nat) : Int)) with ⟨k, e | e⟩
    · rw [← (all k).1, ← e]; simp
    · rw [← (all k).2, ← e]; simp
  -- the segment of each toroidal index
  let a := fun i : Nat => if i ≤ g.N then i else 2 * g.N - i
  let b := fun i : Nat => if i ≤ g.N then g.h - 1 else g.h
  have hv : ∀ i < 2 * g.N, g.HasPol (a i) (b i) := by
    intro i hi
    simp only [a, b]
    by_cases h3 : i ≤ g.N
    · rw [if_pos h3, if_pos h3]
      by_cases h4 : i = 0 ∨ i = g.N
      · exact Or.inr ⟨h4, by omega⟩
      · exact Or.inl ⟨by omega, by omega, by omega⟩
    · rw [if_neg h3, if_neg h3]; exact Or.inl ⟨by omega, by omega, by omega⟩
  have hP : ∀ i < 2 * g.N, P i ((g.h - 1 : Nat) : Int) = x (g.polKey (a i) (b i)) := by
    intro i hi
    rw [← (hf.atPol h2 h1 (hv i hi)).1]
    simp only [a, b]
    by_cases h3 : i ≤ g.N
    · rw [if_pos h3, if_pos h3]
    · rw [if_neg h3, if_neg h3, ← hf.symP h2 h1 i, ← hf.shiftP (-i) _ 1 1]
      congr 1
      · omega
      · omega
  rw [h0, Grid.apply, Finset.sum_congr rfl (fun i hi => hP i (Finset.mem_range.mp hi))]
  have hk : ∀ i < 2 * g.N, g.polKey (a i) (b i) = ((g.nTor + g.polNo (a i) (b i) : Nat) : Int) := fun i hi => Grid.polKey_eq h2 h1 (hv i hi)
  have hlt : ∀ i < 2 * g.N, g.nTor + g.polNo (a i) (b i) < g.nSeg := fun i hi => by
    have := Grid.polNo_lt h2 h1 (hv i hi)
    simp only [Grid.nSeg]; omega
  have hinj : ∀ i < 2 * g.N, ∀ i' < 2 * g.N, g.nTor + g.polNo (a i) (b i) = g.nTor + g.polNo (a i') (b i') → i = i' := by
    intro i hi i' hi' e
    obtain ⟨e1, e2⟩ := Grid.polNo_inj h2 h1 (hv i hi) (hv i' hi') (by omega)
    simp only [a, b] at e1 e2
    by_cases h3 : i ≤ g.N <;> by_cases h4 : i' ≤ g.N
    · rw [if_pos h3, if_pos h4] at e1; exact e1
    · rw [if_pos h3, if_neg h4] at e2; omega
    · rw [if_neg h3, if_pos h4] at e2; omega
    · rw [if_neg h3, if_neg h4] at e1; omega
  have hsum : ∑ i ∈ Finset.range (2 * g.N), x (g.polKey (a i) (b i)) = ∑ s ∈ (Finset.range (2 * g.N)).image (fun i => g.nTor + g.polNo (a i) (b i)), x (s : Int) := by
    rw [Finset.sum_image]
    · exact Finset.sum_congr rfl fun i hi => by rw [hk i (Finset.mem_range.mp hi)]
    · intro i hi i' hi' e
      exact hinj i (by simpa using hi) i' (by simpa using hi') e
  rw [hsum]
  have hsub : (Finset.range (2 * g.N)).image (fun i => g.nTor + g.polNo (a i) (b i)) ⊆ Finset.range g.nSeg := by
    intro s hs
    obtain ⟨i, hi, rfl⟩ := Finset.mem_image.mp hs
    exact Finset.mem_range.mpr (hlt i (Finset.mem_range.mp hi))
  rw [← Finset.sum_subset hsub]
  · refine Finset.sum_congr rfl fun s hs => ?_
    have hs' := Finset.mem_range.mp (hsub hs)
    obtain ⟨i, hi, e⟩ := Finset.mem_image.mp hs
    have hi := Finset.mem_range.mp hi
    rw [Grid.polRow_eq h2 h1 s hs', if_pos ⟨i, hi, by rw [← e]; exact (hk i hi).symm⟩, one_mul]
  · intro s hs hns
    rw [Grid.polRow_eq h2 h1 s (Finset.mem_range.mp hs), if_neg, zero_mul]
    rintro ⟨i, hi, e⟩
    refine hns (Finset.mem_image.mpr ⟨i, Finset.mem_range.mpr hi, ?_⟩)
    have := hk i hi
    simp only [a, b] at this
    rw [← e] at this
    exact_mod_cast this.symm

end Simsopt.Wireframe
