import Verif.Magnets.Greedy
/-!
# C79: which dipoles are adjacent

Model of `connectivity_matrix` (src/simsoptpp/permanent_magnet_optimization.cpp L352-378).  Simplifications: real numbers instead of doubles; the OpenMP loop over `j` writes disjoint rows and is modelled row by row.
-/
namespace Simsopt.Magnets

/-- The distance of dipoles `i` and `j` (L362-364). -/
noncomputable def gridDist (xyz : Nat → Nat → ℝ) (j i : Nat) : ℝ :=
  Real.sqrt ((xyz i 0 - xyz j 0) * (xyz i 0 - xyz j 0) + (xyz i 1 - xyz j 1) * (xyz i 1 - xyz j 1) + (xyz i 2 - xyz j 2) * (xyz i 2 - xyz j 2))

/-- `dist_ij` after `k` eliminations (L366-372). -/
noncomputable def eliminate (d : Nat → ℝ) (N : Nat) : Nat → Nat → ℝ
  | 0 => d
  | k + 1 => fun i => if i = minElement (eliminate d N k) N then 1e10 else eliminate d N k i

/-- Entry `(j, k)` of the matrix (`k < 2000`, L366-370). -/
noncomputable def connect (xyz : Nat → Nat → ℝ) (N j k : Nat) : Nat := minElement (eliminate (gridDist xyz j) N k) N

theorem eliminate_eq (d : Nat → ℝ) (N k i : Nat) : eliminate d N k i = d i ∨ (eliminate d N k i = 1e10 ∧ ∃ k' < k, i = minElement (eliminate d N k') N) := by
  induction k with
  | zero => exact Or.inl rfl
  | succ k ih =>
    simp only [eliminate]
    split
    · rename_i h
      exact Or.inr ⟨rfl, k, by omega, h⟩
    · rcases ih with h | ⟨h, k', hk', e⟩
      · exact Or.inl h
      · exact Or.inr ⟨h, k', by omega, e⟩

theorem eliminate_gone (d : Nat → ℝ) (N k k' : Nat) (hk : k' < k) : eliminate d N k (minElement (eliminate d N k') N) = 1e10 := by
  induction k with
  | zero => omega
  | succ k ih =>
    simp only [eliminate]
    split
    · rfl
    · rcases Nat.lt_succ_iff_lt_or_eq.mp hk with h | h
      · exact ih h
      · subst h; rename_i hn; exact absurd rfl hn

/-- After `k < N` eliminations an index is left, and the minimum is such an index. -/
theorem eliminate_min (d : Nat → ℝ) (N k : Nat) (hk : k < N) (hd : ∀ i < N, d i < 1e10) :
    minElement (eliminate d N k) N < N ∧ (∀ k' < k, minElement (eliminate d N k) N ≠ minElement (eliminate d N k') N) ∧ eliminate d N k (minElement (eliminate d N k) N) = d (minElement (eliminate d N k) N) := by
  obtain ⟨h1, h2⟩ := minElement_spec (eliminate d N k) N (by omega)
  have hex : ∃ i < N, ∀ k' < k, i ≠ minElement (eliminate d N k') N := by
    by_contra hcon
    push Not at hcon
    have : Finset.range N ⊆ (Finset.range k).image fun k' => minElement (eliminate d N k') N := by
      intro i hi
      obtain ⟨k', hk', e⟩ := hcon i (Finset.mem_range.mp hi)
      exact Finset.mem_image.mpr ⟨k', Finset.mem_range.mpr hk', e.symm⟩
    have := (Finset.card_le_card this).trans Finset.card_image_le
    simp at this
    omega
  obtain ⟨i, hi, hne⟩ := hex
  have hv : eliminate d N k i = d i := by
    rcases eliminate_eq d N k i with h | ⟨_, k', hk', e⟩
    · exact h
    · exact absurd e (hne k' hk')
  have hlt : eliminate d N k (minElement (eliminate d N k) N) < 1e10 := lt_of_le_of_lt (h2 i hi) (by rw [hv]; exact hd i hi)
  refine ⟨h1, fun k' hk' e => ?_, ?_⟩
  · rw [e, eliminate_gone d N k k' hk'] at hlt; exact lt_irrefl _ hlt
  · rcases eliminate_eq d N k (minElement (eliminate d N k) N) with h | ⟨h, _⟩
    · exact h
    · rw [h] at hlt; exact absurd hlt (lt_irrefl _)

/-- **C79.** The first `n` entries of row `j` of the connectivity matrix are `n` different dipoles, sorted by their distance from `j`, and every dipole that is not among them is at least as far as all of them: they are `n` nearest dipoles
(`n` up to the number of dipoles and the 2000 columns, all distances below `1e10`). -/
theorem C79_nearest (xyz : Nat → Nat → ℝ) (N j n : Nat) (hn : n ≤ N) (hd : ∀ i < N, gridDist xyz j i < 1e10) :
    (∀ k < n, connect xyz N j k < N) ∧ (∀ k < n, ∀ k' < n, connect xyz N j k = connect xyz N j k' → k = k') ∧
    (∀ k < n, ∀ k' ≤ k, gridDist xyz j (connect xyz N j k') ≤ gridDist xyz j (connect xyz N j k)) ∧
    (∀ i < N, (∀ k < n, i ≠ connect xyz N j k) → ∀ k < n, gridDist xyz j (connect xyz N j k) ≤ gridDist xyz j i) := by
  have left : ∀ i < N, ∀ k < N, (∀ k' < k, i ≠ connect xyz N j k') → gridDist xyz j (connect xyz N j k) ≤ gridDist xyz j i := by
    intro i hi k hk hne
    obtain ⟨_, _, h3⟩ := eliminate_min _ N k hk hd
    have h2 := (minElement_spec (eliminate (gridDist xyz j) N k) N (by omega)).2 i hi
    rw [h3] at h2
    rcases eliminate_eq (gridDist xyz j) N k i with h | ⟨_, k', hk', e⟩
    · rw [h] at h2; exact h2
    · exact absurd e (hne k' hk')
  refine ⟨fun k hk => (eliminate_min _ N k (by omega) hd).1, fun k hk k' hk' e => ?_, fun k hk k' hk' => ?_, fun i hi hne k hk => left i hi k (by omega) fun k' hk' => hne k' (by omega)⟩
  · rcases lt_trichotomy k k' with h | h | h
    · exact absurd e.symm ((eliminate_min _ N k' (by omega) hd).2.1 k h)
    · exact h
    · exact absurd e ((eliminate_min _ N k (by omega) hd).2.1 k' h)
  · refine left _ (eliminate_min _ N k (by omega) hd).1 k' (by omega) fun k'' hk'' e => ?_
    exact (eliminate_min _ N k (by omega) hd).2.1 k'' (by omega) e

/-- **C79.** The first entry is the dipole itself if no other dipole is at the same place: a dipole counts among its own `Nadjacent` neighbours. -/
theorem C79_self (xyz : Nat → Nat → ℝ) (N j : Nat) (hj : j < N) (hd : ∀ i < N, gridDist xyz j i < 1e10) (hne : ∀ i < N, i ≠ j → ∃ l < 3, xyz i l ≠ xyz j l) : connect xyz N j 0 = j := by
  have h := (C79_nearest xyz N j 1 (by omega) hd).2.2.2 j hj
  by_contra hcon
  have h1 : gridDist xyz j (connect xyz N j 0) ≤ gridDist xyz j j := by
    refine h (fun k hk => ?_) 0 (by omega)
    have : k = 0 := by omega
    rw [this]; exact fun e => hcon e.symm
  have h0 : gridDist xyz j j = 0 := by simp [gridDist]
  obtain ⟨l, hl, hx⟩ := hne _ ((C79_nearest xyz N j 1 (by omega) hd).1 0 (by omega)) hcon
  rw [h0] at h1
  have h2 := Real.sqrt_eq_zero'.mp (le_antisymm h1 (Real.sqrt_nonneg _))
  set i := connect xyz N j 0
  have e0 := mul_self_nonneg (xyz i 0 - xyz j 0)
  have e1 := mul_self_nonneg (xyz i 1 - xyz j 1)
  have e2 := mul_self_nonneg (xyz i 2 - xyz j 2)
  have z0 : xyz i 0 - xyz j 0 = 0 := mul_self_eq_zero.mp (by linarith)
  have z1 : xyz i 1 - xyz j 1 = 0 := mul_self_eq_zero.mp (by linarith)
  have z2 : xyz i 2 - xyz j 2 = 0 := mul_self_eq_zero.mp (by linarith)
  apply hx
  rcases (show l = 0 ∨ l = 1 ∨ l = 2 by omega) with rfl | rfl | rfl
  · linarith
  · linarith
  · linarith

/-- **C79, violated.** Beyond the number of dipoles every entry is dipole 0: with `Nadjacent` larger than the grid, dipole 0 counts as adjacent to all the others, however far it is. -/
theorem C79_beyond_violated (xyz : Nat → Nat → ℝ) (N j k : Nat) (hk : N ≤ k) (hd : ∀ i < N, gridDist xyz j i < 1e10) : connect xyz N j k = 0 := by
  apply minElement_all_eq
where
  minElement_all_eq : minElement (eliminate (gridDist xyz j) N k) N = 0 := by
    have hall : ∀ i < N, eliminate (gridDist xyz j) N k i = 1e10 := by
      intro i hi
      have : ∃ k' < N, i = connect xyz N j k' := by
        by_contra hcon
        push Not at hcon
        have hinj : ((Finset.range N).image fun k' => connect xyz N j k').card = N := by
          rw [Finset.card_image_of_injOn, Finset.card_range]
          intro a ha b hb e
          exact (C79_nearest xyz N j N le_rfl hd).2.1 a (by simpa using ha) b (by simpa using hb) e
        have hsub : (Finset.range N).image (fun k' => connect xyz N j k') ⊆ (Finset.range N).erase i := by
          intro a ha
          obtain ⟨k', hk', rfl⟩ := Finset.mem_image.mp ha
          exact Finset.mem_erase.mpr ⟨fun e => hcon k' (Finset.mem_range.mp hk') e.symm, Finset.mem_range.mpr ((C79_nearest xyz N j N le_rfl hd).1 k' (Finset.mem_range.mp hk'))⟩
        have := Finset.card_le_card hsub
        rw [hinj, Finset.card_erase_of_mem (Finset.mem_range.mpr hi), Finset.card_range] at this
        omega
      obtain ⟨k', hk', rfl⟩ := this
      exact eliminate_gone _ N k k' (by omega)
    exact minElement_const _ _ _ hall

/-- A line of dipoles at unit distances meets the hypotheses. -/
example : ∀ i < 4, gridDist (fun i l => if l = 0 then (i : ℝ) else 0) 1 i < 1e10 := by
  intro i hi
  rw [gridDist, Real.sqrt_lt' (by norm_num)]
  have : (i : ℝ) ≤ 4 := by exact_mod_cast hi.le
  have h0 : (0 : ℝ) ≤ i := Nat.cast_nonneg i
  norm_num
  nlinarith

end Simsopt.Magnets
