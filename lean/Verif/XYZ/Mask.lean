import Verif.XYZ.Tensor
/-! # C145: SurfaceXYZTensorFourier.get_stellsym_mask -/
namespace Simsopt.XYZ
open Simsopt Simsopt.Coils Simsopt.RZSurf

/-- `np.linspace(0, stop, n, endpoint=False)`. -/
noncomputable def linspace (stop : ℝ) (n : Nat) : List ℝ := (List.range n).map fun (i : Nat) => stop * i / n

open Classical in
/-- `get_stellsym_mask` (surfacexyztensorfourier.py L115-170); `none` is the exception.  The mask is a function of the two indices, meaningful for `i < len(phis)`,
`j < len(thetas)`; `mask[a:, b] = False` sets the entries `i ≥ a`, `j = b`.  Simplification: `np.allclose` is equality. -/
noncomputable def TF.stellsymMask (s : TF) (phis thetas : List ℝ) : Option (Nat → Nat → Bool) :=
  let mask : Nat → Nat → Bool := fun _ _ => true
  if !s.stellsym then some mask
  else if phis = linspace (1 / s.nfp) (2 * s.ntor + 1) ∧ thetas = linspace 1 (2 * s.mpol + 1) then
    let mask := fun i j => if j ≥ s.mpol + 1 then false else mask i j
    let mask := fun i j => if i ≥ s.ntor + 1 ∧ j = 0 then false else mask i j
    some mask
  else if phis = linspace (1 / s.nfp) (2 * s.ntor + 1) ∧ thetas = linspace 0.5 (s.mpol + 1) then
    some fun i j => if i ≥ s.ntor + 1 ∧ j = 0 then false else mask i j
  else if phis = linspace (1 / (2 * s.nfp)) (s.ntor + 1) ∧ thetas = linspace 1 (2 * s.mpol + 1) then
    some fun i j => if i = 0 ∧ j ≥ s.mpol + 1 then false else mask i j
  else none

/-! ### Specification -/

/-- Two pairs of angles (in units of `2π`) whose points determine each other on every stellarator-symmetric surface with `nfp` field periods. -/
def Same (nfp : Nat) (p q p' q' : ℝ) : Prop :=
  (∃ a b : ℤ, p = p' + (a : ℝ) / nfp ∧ q = q' + b) ∨ (∃ a b : ℤ, p = -p' + (a : ℝ) / nfp ∧ q = -q' + b)

/-- The three grids of the code. -/
def KnownGrid (s : TF) (phis thetas : List ℝ) : Prop :=
  (phis = linspace (1 / s.nfp) (2 * s.ntor + 1) ∧ thetas = linspace 1 (2 * s.mpol + 1)) ∨
  (phis = linspace (1 / s.nfp) (2 * s.ntor + 1) ∧ thetas = linspace 0.5 (s.mpol + 1)) ∨
  (phis = linspace (1 / (2 * s.nfp)) (s.ntor + 1) ∧ thetas = linspace 1 (2 * s.mpol + 1))

/-- Number of entries that are `True`. -/
def countTrue (mask : Nat → Nat → Bool) (nphi ntheta : Nat) : Nat :=
  ((Finset.range nphi ×ˢ Finset.range ntheta).filter fun ij => mask ij.1 ij.2 = true).card

/-- The four shapes of the mask. -/
def TF.maskA (s : TF) (i j : Nat) : Bool := decide (j ≤ s.mpol) && !(decide (s.ntor < i) && decide (j = 0))
def TF.maskB (s : TF) (i j : Nat) : Bool := !(decide (s.ntor < i) && decide (j = 0))
def TF.maskC (s : TF) (i j : Nat) : Bool := !(decide (i = 0) && decide (s.mpol < j))

theorem linspace_length (a : ℝ) (n : Nat) : (linspace a n).length = n := by simp [linspace]

theorem linspace_get (a : ℝ) (n i : Nat) (h : i < n) : (linspace a n)[i]'(by rw [linspace_length]; exact h) = a * i / n := by simp [linspace]

/-- Integer form of the equivalence on the grid `(i / (nfp P), j / Q)`. -/
theorem same_int (nfp P Q i j i' j' : Nat) (hf : nfp ≠ 0) (hP : P ≠ 0) (hQ : Q ≠ 0) :
    Same nfp (1 / nfp * i / P) (1 * j / Q) (1 / nfp * i' / P) (1 * j' / Q) ↔
      ((∃ a b : ℤ, (i : ℤ) = i' + a * P ∧ (j : ℤ) = j' + b * Q) ∨ (∃ a b : ℤ, (i : ℤ) = -i' + a * P ∧ (j : ℤ) = -j' + b * Q)) := by
  have hf' : (nfp : ℝ) ≠ 0 := by exact_mod_cast hf
  have hP' : (P : ℝ) ≠ 0 := by exact_mod_cast hP
  have hQ' : (Q : ℝ) ≠ 0 := by exact_mod_cast hQ
  have k1 : ∀ (a : ℤ) (e : ℤ), ((1 / nfp * i / P : ℝ) = e * (1 / nfp * i' / P) + (a : ℝ) / nfp ↔ (i : ℤ) = e * i' + a * P) := by
    intro a e
    rw [show ((i : ℤ) = e * i' + a * P) ↔ ((i : ℝ) = e * i' + a * P) by exact_mod_cast Iff.rfl]
    field_simp
  have k2 : ∀ (b : ℤ) (e : ℤ), ((1 * j / Q : ℝ) = e * (1 * j' / Q) + (b : ℝ) ↔ (j : ℤ) = e * j' + b * Q) := by
    intro b e
    rw [show ((j : ℤ) = e * j' + b * Q) ↔ ((j : ℝ) = e * j' + b * Q) by exact_mod_cast Iff.rfl]
    field_simp
  have p1 := fun a => k1 a 1
  have m1 := fun a => k1 a (-1)
  have p2 := fun a => k2 a 1
  have m2 := fun a => k2 a (-1)
  simp only [Int.cast_one, one_mul, Int.cast_neg, neg_mul] at p1 m1 p2 m2
  simp only [Same, one_mul, p1, p2, m1, m2]

theorem mult_same (P i i' : Nat) (h : i < P) (h' : i' < P) : (∃ a : ℤ, (i : ℤ) = i' + a * P) ↔ i = i' := by
  constructor
  · rintro ⟨a, ha⟩
    have : a = 0 := by
      by_contra hc
      rcases lt_or_gt_of_ne hc with h1 | h1 <;> nlinarith
    subst this; omega
  · rintro rfl; exact ⟨0, by simp⟩

theorem mult_opp (P i i' : Nat) (h : i < P) (h' : i' < P) : (∃ a : ℤ, (i : ℤ) = -i' + a * P) ↔ i + i' = 0 ∨ i + i' = P := by
  constructor
  · rintro ⟨a, ha⟩
    have h0 : 0 ≤ a := by by_contra hc; nlinarith
    have h2 : a < 2 := by by_contra hc; nlinarith
    have : a = 0 ∨ a = 1 := by omega
    rcases this with rfl | rfl <;> omega
  · rintro (h0 | h0)
    · exact ⟨0, by omega⟩
    · exact ⟨1, by omega⟩

theorem same_nat (nfp P Q i j i' j' : Nat) (hf : nfp ≠ 0) (hi : i < P) (hi' : i' < P) (hj : j < Q) (hj' : j' < Q) :
    Same nfp (1 / nfp * i / P) (1 * j / Q) (1 / nfp * i' / P) (1 * j' / Q) ↔
      (i = i' ∧ j = j') ∨ ((i + i' = 0 ∨ i + i' = P) ∧ (j + j' = 0 ∨ j + j' = Q)) := by
  rw [same_int nfp P Q i j i' j' hf (by omega) (by omega), ← mult_same P i i' hi hi', ← mult_same Q j j' hj hj', ← mult_opp P i i' hi hi', ← mult_opp Q j j' hj hj']
  simp only [exists_and_left, exists_and_right]

theorem half_theta (M j : Nat) : (0.5 : ℝ) * j / ((M + 1 : Nat) : ℝ) = 1 * j / ((2 * (M + 1) : Nat) : ℝ) := by push_cast; rw [show (0.5 : ℝ) = 1 / 2 by norm_num]; field_simp

theorem half_phi (nfp N i : Nat) : (1 / (2 * nfp) : ℝ) * i / ((N + 1 : Nat) : ℝ) = 1 / nfp * i / ((2 * (N + 1) : Nat) : ℝ) := by push_cast; field_simp

/-- The equivalence on grid indices. -/
def Rel (P Q i j i' j' : Nat) : Prop := (i = i' ∧ j = j') ∨ ((i + i' = 0 ∨ i + i' = P) ∧ (j + j' = 0 ∨ j + j' = Q))

theorem pick (nfp P Q A B : Nat) (hf : nfp ≠ 0) (hA : A ≤ P) (hB : B ≤ Q) (phis thetas : List ℝ) (hp : phis.length = A) (ht : thetas.length = B)
    (gp : ∀ i (h : i < phis.length), phis[i] = 1 / nfp * i / P) (gt : ∀ j (h : j < thetas.length), thetas[j] = 1 * j / Q) (mask : Nat → Nat → Bool)
    (hex : ∀ i j, i < A → j < B → ∃ i' j', i' < A ∧ j' < B ∧ mask i' j' = true ∧ Rel P Q i j i' j')
    (hun : ∀ i j i' j' i'' j'', i < A → j < B → i' < A → j' < B → i'' < A → j'' < B → mask i' j' = true → mask i'' j'' = true →
      Rel P Q i j i' j' → Rel P Q i j i'' j'' → i' = i'' ∧ j' = j'')
    (i j : Nat) (hi : i < phis.length) (hj : j < thetas.length) :
    ∃! ij : Fin phis.length × Fin thetas.length, mask ij.1 ij.2 = true ∧ Same nfp phis[i] thetas[j] phis[ij.1] thetas[ij.2] := by
  have hrel : ∀ ij : Fin phis.length × Fin thetas.length, Same nfp phis[i] thetas[j] phis[ij.1] thetas[ij.2] ↔ Rel P Q i j ij.1 ij.2 := by
    rintro ⟨⟨i', hi'⟩, ⟨j', hj'⟩⟩
    simp only [Fin.getElem_fin, gp, gt]
    exact same_nat nfp P Q i j i' j' hf (by omega) (by omega) (by omega) (by omega)
  simp only [hrel]
  obtain ⟨i', j', hi', hj', hm, hr⟩ := hex i j (by omega) (by omega)
  refine ⟨(⟨i', by omega⟩, ⟨j', by omega⟩), ⟨hm, hr⟩, ?_⟩
  rintro ⟨⟨i'', hi''⟩, ⟨j'', hj''⟩⟩ ⟨hm', hr'⟩
  obtain ⟨e1, e2⟩ := hun i j i'' j'' i' j' (by omega) (by omega) (by omega) (by omega) hi' hj' hm' hm hr' hr
  simp only [Prod.mk.injEq, Fin.mk.injEq]
  exact ⟨e1, e2⟩

/-- **C145.** On the three grids of the code the mask of a stellarator-symmetric surface selects exactly one point out of each class of grid points that determine each other, and
the number of selected points is the number of the x dofs, `(ntor+1)(mpol+1) + ntor mpol`; on any other pair of arrays of quadrature points the method raises.  Without
stellarator symmetry every point is selected. -/
theorem C145_mask (s : TF) (hn : s.nfp ≠ 0) (phis thetas : List ℝ) :
    (s.stellsym = false → ∃ mask, s.stellsymMask phis thetas = some mask ∧ ∀ i j, mask i j = true) ∧
    (s.stellsym = true → ¬ KnownGrid s phis thetas → s.stellsymMask phis thetas = none) ∧
    (s.stellsym = true → KnownGrid s phis thetas → ∃ mask, s.stellsymMask phis thetas = some mask ∧
      countTrue mask phis.length thetas.length = (s.ntor + 1) * (s.mpol + 1) + s.ntor * s.mpol ∧
      ∀ (i j : Nat) (hi : i < phis.length) (hj : j < thetas.length), ∃! ij : Fin phis.length × Fin thetas.length,
        mask ij.1 ij.2 = true ∧ Same s.nfp phis[i] thetas[j] phis[ij.1] thetas[ij.2]) := by
  classical
  refine ⟨fun h => ⟨fun _ _ => true, by simp [TF.stellsymMask, h], fun _ _ => rfl⟩, ?_, ?_⟩
  · intro h hk
    simp only [KnownGrid, not_or] at hk
    obtain ⟨k1, k2, k3⟩ := hk
    simp only [TF.stellsymMask, h, Bool.not_true, Bool.false_eq_true, if_false]
    rw [if_neg k1, if_neg k2, if_neg k3]
  · intro h hk
    -- the grid and the mask in use
    have key : ∃ mask, s.stellsymMask phis thetas = some mask ∧
        ((phis = linspace (1 / s.nfp) (2 * s.ntor + 1) ∧ thetas = linspace 1 (2 * s.mpol + 1) ∧ mask = s.maskA) ∨
         (phis = linspace (1 / s.nfp) (2 * s.ntor + 1) ∧ thetas = linspace 0.5 (s.mpol + 1) ∧ mask = s.maskB) ∨
         (phis = linspace (1 / (2 * s.nfp)) (s.ntor + 1) ∧ thetas = linspace 1 (2 * s.mpol + 1) ∧ mask = s.maskC)) := by
      simp only [TF.stellsymMask, h, Bool.not_true, Bool.false_eq_true, if_false]
      by_cases k1 : phis = linspace (1 / s.nfp) (2 * s.ntor + 1) ∧ thetas = linspace 1 (2 * s.mpol + 1)
      · rw [if_pos k1]
        refine ⟨_, rfl, Or.inl ⟨k1.1, k1.2, ?_⟩⟩
        funext i j
        by_cases a : s.ntor < i <;> by_cases b : j = 0 <;> by_cases c : j ≤ s.mpol <;> simp [TF.maskA, a, b, c, Nat.succ_le_iff] <;> omega
      rw [if_neg k1]
      by_cases k2 : phis = linspace (1 / s.nfp) (2 * s.ntor + 1) ∧ thetas = linspace 0.5 (s.mpol + 1)
      · rw [if_pos k2]
        refine ⟨_, rfl, Or.inr (Or.inl ⟨k2.1, k2.2, ?_⟩)⟩
        funext i j
        by_cases a : s.ntor < i <;> by_cases b : j = 0 <;> simp [TF.maskB, a, b, Nat.succ_le_iff]
      rw [if_neg k2]
      have k3 := (hk.resolve_left k1).resolve_left k2
      rw [if_pos k3]
      refine ⟨_, rfl, Or.inr (Or.inr ⟨k3.1, k3.2, ?_⟩)⟩
      funext i j
      by_cases a : i = 0 <;> by_cases b : s.mpol < j <;> simp [TF.maskC, a, b, Nat.succ_le_iff]
    obtain ⟨mask, hm, hcase⟩ := key
    refine ⟨mask, hm, ?_⟩
    rcases hcase with ⟨rfl, rfl, rfl⟩ | ⟨rfl, rfl, rfl⟩ | ⟨rfl, rfl, rfl⟩
    · refine ⟨?_, ?_⟩
      · simp only [linspace_length, countTrue]
        have e : ((Finset.range (2 * s.ntor + 1) ×ˢ Finset.range (2 * s.mpol + 1)).filter fun ij => s.maskA ij.1 ij.2 = true) =
            (Finset.range (s.ntor + 1) ×ˢ Finset.range 1) ∪ (Finset.range (2 * s.ntor + 1) ×ˢ Finset.Ico 1 (s.mpol + 1)) := by
          ext ⟨i, j⟩
          simp only [TF.maskA, Finset.mem_filter, Finset.mem_product, Finset.mem_range, Finset.mem_union, Finset.mem_Ico, Bool.and_eq_true, decide_eq_true_eq,
            Bool.not_eq_true', Bool.and_eq_false_iff, decide_eq_false_iff_not]
          omega
        rw [e, Finset.card_union_of_disjoint]
        · simp only [Finset.card_product, Finset.card_range, Nat.card_Ico, Nat.add_sub_cancel]; ring
        · rw [Finset.disjoint_left]; rintro ⟨i, j⟩; simp only [Finset.mem_product, Finset.mem_range, Finset.mem_Ico]; omega
      · refine pick s.nfp (2 * s.ntor + 1) (2 * s.mpol + 1) (2 * s.ntor + 1) (2 * s.mpol + 1) hn le_rfl le_rfl _ _ (linspace_length _ _) (linspace_length _ _)
          (fun i h => linspace_get _ _ _ (by rw [linspace_length] at h; exact h)) (fun i h => linspace_get _ _ _ (by rw [linspace_length] at h; exact h)) s.maskA ?_ ?_
        · intro i j hi hj
          by_cases c : j ≤ s.mpol ∧ ¬ (s.ntor < i ∧ j = 0)
          · refine ⟨i, j, hi, hj, ?_, Or.inl ⟨rfl, rfl⟩⟩
            simp only [TF.maskA, Bool.and_eq_true, decide_eq_true_eq, Bool.not_eq_true', Bool.and_eq_false_iff, decide_eq_false_iff_not]; omega
          · refine ⟨if i = 0 then 0 else 2 * s.ntor + 1 - i, if j = 0 then 0 else 2 * s.mpol + 1 - j, by split <;> omega, by split <;> omega, ?_, ?_⟩
            · simp only [TF.maskA, Bool.and_eq_true, decide_eq_true_eq, Bool.not_eq_true', Bool.and_eq_false_iff, decide_eq_false_iff_not]
              split <;> split <;> omega
            · simp only [Rel]; split <;> split <;> omega
        · intro i j i' j' i'' j''
          simp only [TF.maskA, Rel, Bool.and_eq_true, decide_eq_true_eq, Bool.not_eq_true', Bool.and_eq_false_iff, decide_eq_false_iff_not]
          intros
          omega
    · refine ⟨?_, ?_⟩
      · simp only [linspace_length, countTrue]
        have e : ((Finset.range (2 * s.ntor + 1) ×ˢ Finset.range (s.mpol + 1)).filter fun ij => s.maskB ij.1 ij.2 = true) =
            (Finset.range (s.ntor + 1) ×ˢ Finset.range 1) ∪ (Finset.range (2 * s.ntor + 1) ×ˢ Finset.Ico 1 (s.mpol + 1)) := by
          ext ⟨i, j⟩
          simp only [TF.maskB, Finset.mem_filter, Finset.mem_product, Finset.mem_range, Finset.mem_union, Finset.mem_Ico,
            Bool.not_eq_true', Bool.and_eq_false_iff, decide_eq_false_iff_not]
          omega
        rw [e, Finset.card_union_of_disjoint]
        · simp only [Finset.card_product, Finset.card_range, Nat.card_Ico, Nat.add_sub_cancel]; ring
        · rw [Finset.disjoint_left]; rintro ⟨i, j⟩; simp only [Finset.mem_product, Finset.mem_range, Finset.mem_Ico]; omega
      · refine pick s.nfp (2 * s.ntor + 1) (2 * (s.mpol + 1)) (2 * s.ntor + 1) (s.mpol + 1) hn le_rfl (by omega) _ _ (linspace_length _ _) (linspace_length _ _)
          (fun i h => linspace_get _ _ _ (by rw [linspace_length] at h; exact h))
          (fun i h => by rw [linspace_get _ _ _ (by rw [linspace_length] at h; exact h), half_theta]) s.maskB ?_ ?_
        · intro i j hi hj
          by_cases c : ¬ (s.ntor < i ∧ j = 0)
          · refine ⟨i, j, hi, hj, ?_, Or.inl ⟨rfl, rfl⟩⟩
            simp only [TF.maskB, Bool.not_eq_true', Bool.and_eq_false_iff, decide_eq_false_iff_not]; omega
          · refine ⟨2 * s.ntor + 1 - i, 0, by omega, by omega, ?_, ?_⟩
            · simp only [TF.maskB, Bool.not_eq_true', Bool.and_eq_false_iff, decide_eq_false_iff_not]
              omega
            · simp only [Rel]; omega
        · intro i j i' j' i'' j''
          simp only [TF.maskB, Rel, Bool.not_eq_true', Bool.and_eq_false_iff, decide_eq_false_iff_not]
          intros
          omega
    · refine ⟨?_, ?_⟩
      · simp only [linspace_length, countTrue]
        have e : ((Finset.range (s.ntor + 1) ×ˢ Finset.range (2 * s.mpol + 1)).filter fun ij => s.maskC ij.1 ij.2 = true) =
            (Finset.range 1 ×ˢ Finset.range (s.mpol + 1)) ∪ (Finset.Ico 1 (s.ntor + 1) ×ˢ Finset.range (2 * s.mpol + 1)) := by
          ext ⟨i, j⟩
          simp only [TF.maskC, Finset.mem_filter, Finset.mem_product, Finset.mem_range, Finset.mem_union, Finset.mem_Ico,
            Bool.not_eq_true', Bool.and_eq_false_iff, decide_eq_false_iff_not]
          omega
        rw [e, Finset.card_union_of_disjoint]
        · simp only [Finset.card_product, Finset.card_range, Nat.card_Ico, Nat.add_sub_cancel]; ring
        · rw [Finset.disjoint_left]; rintro ⟨i, j⟩; simp only [Finset.mem_product, Finset.mem_range, Finset.mem_Ico]; omega
      · refine pick s.nfp (2 * (s.ntor + 1)) (2 * s.mpol + 1) (s.ntor + 1) (2 * s.mpol + 1) hn (by omega) le_rfl _ _ (linspace_length _ _) (linspace_length _ _)
          (fun i h => by rw [linspace_get _ _ _ (by rw [linspace_length] at h; exact h), half_phi])
          (fun i h => linspace_get _ _ _ (by rw [linspace_length] at h; exact h)) s.maskC ?_ ?_
        · intro i j hi hj
          by_cases c : ¬ (i = 0 ∧ s.mpol < j)
          · refine ⟨i, j, hi, hj, ?_, Or.inl ⟨rfl, rfl⟩⟩
            simp only [TF.maskC, Bool.not_eq_true', Bool.and_eq_false_iff, decide_eq_false_iff_not]; omega
          · refine ⟨0, 2 * s.mpol + 1 - j, by omega, by omega, ?_, ?_⟩
            · simp only [TF.maskC, Bool.not_eq_true', Bool.and_eq_false_iff, decide_eq_false_iff_not]
              omega
            · simp only [Rel]; omega
        · intro i j i' j' i'' j''
          simp only [TF.maskC, Rel, Bool.not_eq_true', Bool.and_eq_false_iff, decide_eq_false_iff_not]
          intros
          omega

/-- **C145.** The selected points carry all the information: on a stellarator-symmetric surface the position at every grid point is obtained from the position at a selected grid
point by a rotation about the z axis by a multiple of the field period, possibly after reversing y and z. -/
theorem C145_redundant (s : TF) (hn : s.nfp ≠ 0) (hs : s.stellsym = true) (phis thetas : List ℝ) (mask : Nat → Nat → Bool) (hm : s.stellsymMask phis thetas = some mask)
    (i j : Nat) (hi : i < phis.length) (hj : j < thetas.length) :
    ∃ (i' j' : Nat) (hi' : i' < phis.length) (hj' : j' < thetas.length), mask i' j' = true ∧ ∃ a : ℤ,
      s.gamma phis[i] thetas[j] = rotZ (2 * Real.pi * a / s.nfp) (s.gamma phis[i'] thetas[j']) ∨
      s.gamma phis[i] thetas[j] = rotZ (2 * Real.pi * a / s.nfp) (mirror (s.gamma phis[i'] thetas[j'])) := by
  obtain ⟨_, h2, h3⟩ := C145_mask s hn phis thetas
  have hk : KnownGrid s phis thetas := by by_contra hc; rw [h2 hs hc] at hm; cases hm
  obtain ⟨mask', hm', _, hex⟩ := h3 hs hk
  obtain rfl : mask' = mask := Option.some.inj (hm'.symm.trans hm)
  obtain ⟨⟨⟨i', hi'⟩, ⟨j', hj'⟩⟩, ⟨hmask, hsame⟩, _⟩ := hex i j hi hj
  refine ⟨i', j', hi', hj', hmask, ?_⟩
  simp only [Fin.getElem_fin] at hsame
  rcases hsame with ⟨a, b, e1, e2⟩ | ⟨a, b, e1, e2⟩
  · refine ⟨a, Or.inl ?_⟩
    have := TF.C144_field_period s hn .g phis[i'] thetas[j'] a b
    simp only [TF.value] at this
    rw [e1, e2, this]
  · refine ⟨a, Or.inr ?_⟩
    have h1 := TF.C144_field_period s hn .g (-phis[i']) (-thetas[j']) a b
    have h2 := TF.C144_stellsym s hs .g phis[i'] thetas[j']
    simp only [TF.value, Fam.order, pow_zero, one_smul] at h1 h2
    rw [e1, e2, h1, h2]

/-- **C145, disagreement.** The second grid which the docstring names, `thetas = np.linspace(0, 0.5, 2*mpol, endpoint=False)`, makes the method raise for every `mpol > 1`. -/
theorem C145_documented_grid_violated (s : TF) (hs : s.stellsym = true) (hm : 1 < s.mpol) :
    s.stellsymMask (linspace (1 / s.nfp) (2 * s.ntor + 1)) (linspace 0.5 (2 * s.mpol)) = none := by
  classical
  have h1 : linspace 0.5 (2 * s.mpol) ≠ linspace 1 (2 * s.mpol + 1) := fun h => by have := congrArg List.length h; simp [linspace_length] at this
  have h2 : linspace 0.5 (2 * s.mpol) ≠ linspace 0.5 (s.mpol + 1) := fun h => by have := congrArg List.length h; simp only [linspace_length] at this; omega
  simp [TF.stellsymMask, hs, h1, h2]

/-- A surface with `mpol = ntor = 2` on the half-period grid: the method returns a mask that selects 13 points. -/
example : ∃ s phis thetas, TF.construct 2 2 3 true (fun _ => false) = some s ∧ s.nfp ≠ 0 ∧ s.stellsym = true ∧ KnownGrid s phis thetas ∧ ∃ mask, s.stellsymMask phis thetas = some mask ∧
    countTrue mask phis.length thetas.length = 13 := by
  obtain ⟨s, hs⟩ : ∃ s, TF.construct 2 2 3 true (fun _ => false) = some s := ⟨_, rfl⟩
  have e := Option.some.inj hs
  have h1 : s.nfp = 3 := by rw [← e]
  have h2 : s.stellsym = true := by rw [← e]
  have h3 : s.ntor = 2 := by rw [← e]
  have h4 : s.mpol = 2 := by rw [← e]
  have hk : KnownGrid s (linspace (1 / (2 * s.nfp)) (s.ntor + 1)) (linspace 1 (2 * s.mpol + 1)) := Or.inr (Or.inr ⟨rfl, rfl⟩)
  obtain ⟨mask, hm, hc, _⟩ := (C145_mask s (by omega) _ _).2.2 h2 hk
  refine ⟨s, _, _, hs, by omega, h2, hk, mask, hm, ?_⟩
  rw [hc, h3, h4]

end Simsopt.XYZ
