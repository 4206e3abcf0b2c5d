import Verif.Magnets.MwPGP
/-!
# C77: proximal operators, feasibility check and history arrays of the permanent-magnet solvers

Model of `prox_l0`, `prox_l1`, `projection_L2_balls`, `setup_initial_condition` (src/simsopt/solve/permanent_magnet_optimization.py L13-115) and of the indices at which the solvers record their history
(src/simsoptpp/permanent_magnet_optimization.cpp L171-173, L306-310; L345-347, L388, L607-608 and the same in the other variants).

Simplification: real numbers; the array functions are applied entry by entry (`m` is one entry, `mmax` the maximum of its dipole).
-/
namespace Simsopt.Magnets

open Classical in
/-- `prox_l0` for one entry (permanent_magnet_optimization.py L36-40). -/
noncomputable def proxL0 (m mmax regL0 nu : ℝ) : ℝ := m * (if |m| / mmax > 2 * regL0 * nu then 1 else 0)

/-- `prox_l1` for one entry (permanent_magnet_optimization.py L61-64). -/
noncomputable def proxL1 (m mmax regL1 nu : ℝ) : ℝ := (SignType.sign m : ℝ) * max (|(|m| / mmax)| - regL1 * nu) 0 * mmax

/-! ### Specification -/

/-- The functional a proximal operator of the L1 norm minimizes, in units of the maximum. -/
noncomputable def objL1 (m mmax t w : ℝ) : ℝ := (w / mmax - m / mmax) ^ 2 / 2 + t * |w / mmax|

open Classical in
/-- The functional a proximal operator of the "L0 norm" minimizes, in units of the maximum, with hard threshold `h`. -/
noncomputable def objL0 (m mmax h w : ℝ) : ℝ := (w / mmax - m / mmax) ^ 2 / 2 + h ^ 2 / 2 * (if w = 0 then 0 else 1)

/-- **C77.** `prox_l1` is the proximal operator of `reg_l1 * nu * |·|` on moments normalized by their maxima: it minimizes, and it is the only minimizer. -/
theorem C77_prox_l1 (m mmax regL1 nu : ℝ) (hm : 0 < mmax) (hr : 0 ≤ regL1 * nu) (w : ℝ) (hne : w ≠ proxL1 m mmax regL1 nu) :
    objL1 m mmax (regL1 * nu) (proxL1 m mmax regL1 nu) < objL1 m mmax (regL1 * nu) w := by
  set t := regL1 * nu
  set v := m / mmax with hv
  set u := w / mmax with hu
  have hab : |(|m| / mmax)| = |v| := by rw [hv, abs_div, abs_div, abs_abs]
  have hsg : (SignType.sign m : ℝ) = (SignType.sign v : ℝ) := by
    rcases lt_trichotomy m 0 with h | h | h
    · rw [sign_neg h, sign_neg (div_neg_of_neg_of_pos h hm)]
    · have : v = 0 := by rw [hv, h, zero_div]
      rw [h, this]
    · rw [sign_pos h, sign_pos (div_pos h hm)]
  set q := (SignType.sign v : ℝ) * max (|v| - t) 0 with hq
  have hp : proxL1 m mmax regL1 nu = q * mmax := by rw [proxL1, hab, hsg]
  have e1 : objL1 m mmax t (proxL1 m mmax regL1 nu) = (q - v) ^ 2 / 2 + t * |q| := by
    rw [objL1, hp, mul_div_assoc, div_self hm.ne', mul_one]
  have e2 : objL1 m mmax t w = (u - v) ^ 2 / 2 + t * |u| := rfl
  have hne' : u ≠ q := by
    intro h
    apply hne
    rw [hp, ← h, hu]; field_simp
  rw [e1, e2]
  have hpos : 0 < (u - q) ^ 2 := by have := sub_ne_zero.mpr hne'; positivity
  have hau := abs_le.mp (le_refl |u|)
  have hau1 := le_abs_self u
  have hau2 := neg_abs_le u
  rcases le_total |v| t with h | h
  · have hq0 : q = 0 := by rw [hq, max_eq_right (by linarith), mul_zero]
    rw [hq0] at hpos ⊢
    simp only [abs_zero, mul_zero, add_zero]
    have huv : u * v ≤ |u| * t := (le_abs_self _).trans (by rw [abs_mul]; exact mul_le_mul_of_nonneg_left h (abs_nonneg u))
    nlinarith
  · rcases lt_trichotomy v 0 with hv0 | hv0 | hv0
    · rw [abs_of_neg hv0] at h
      have hq0 : q = v + t := by rw [hq, sign_neg hv0, abs_of_neg hv0, max_eq_left (by linarith)]; simp; ring
      rw [hq0] at hpos ⊢
      have : |v + t| = -(v + t) := abs_of_nonpos (by linarith)
      rw [this]
      nlinarith [mul_nonneg hr (by linarith : (0 : ℝ) ≤ |u| + u)]
    · rw [hv0, abs_zero] at h
      have ht : t = 0 := le_antisymm h hr
      have hq0 : q = 0 := by rw [hq, hv0]; simp
      rw [hq0] at hpos ⊢
      rw [ht, hv0]; simp; simpa using hpos
    · rw [abs_of_pos hv0] at h
      have hq0 : q = v - t := by rw [hq, sign_pos hv0, abs_of_pos hv0, max_eq_left (by linarith)]; simp
      rw [hq0] at hpos ⊢
      have : |v - t| = v - t := abs_of_nonneg (by linarith)
      rw [this]
      nlinarith [mul_nonneg hr (by linarith : (0 : ℝ) ≤ |u| - u)]

/-- **C77.** `prox_l0` keeps an entry or zeroes it, and is a proximal operator of the L0 norm on normalized moments with hard threshold `2 * reg_l0 * nu` (the rescaled one of the docstring). -/
theorem C77_prox_l0 (m mmax regL0 nu : ℝ) (hm : 0 < mmax) (hr : 0 ≤ 2 * regL0 * nu) (w : ℝ) :
    (proxL0 m mmax regL0 nu = m ∨ proxL0 m mmax regL0 nu = 0) ∧ objL0 m mmax (2 * regL0 * nu) (proxL0 m mmax regL0 nu) ≤ objL0 m mmax (2 * regL0 * nu) w := by
  set t := 2 * regL0 * nu
  have hab : |m| / mmax = |m / mmax| := by rw [abs_div, abs_of_pos hm]
  set v := m / mmax with hv
  by_cases h : |m| / mmax > t
  · have hp : proxL0 m mmax regL0 nu = m := by rw [proxL0, if_pos h, mul_one]
    refine ⟨Or.inl hp, ?_⟩
    rw [hp, objL0, objL0]
    rw [hab] at h
    have hm0 : m ≠ 0 := by
      rintro rfl
      rw [hv, zero_div, abs_zero] at h
      linarith
    rw [if_neg hm0, sub_self]
    have ht2 : t ^ 2 < v ^ 2 := by rw [← sq_abs v]; nlinarith [abs_nonneg v]
    split
    · rename_i hw
      rw [hw]; simp only [zero_div, zero_sub, mul_zero, add_zero, mul_one]
      nlinarith
    · nlinarith [sq_nonneg (w / mmax - v)]
  · have hp : proxL0 m mmax regL0 nu = 0 := by rw [proxL0, if_neg h, mul_zero]
    refine ⟨Or.inr hp, ?_⟩
    rw [hp, objL0, objL0, if_pos rfl]
    push Not at h
    rw [hab] at h
    have ht2 : v ^ 2 ≤ t ^ 2 := by rw [← sq_abs v]; nlinarith [abs_nonneg v]
    split
    · rename_i hw
      rw [hw]
    · simp only [zero_div, zero_sub, mul_zero, add_zero, mul_one]
      nlinarith [sq_nonneg (w / mmax - v)]

/-- **C77.** Neither operator makes a moment larger or turns it around, so `m_proxy` is feasible if `m` is. -/
theorem C77_prox_shrinks (m mmax reg nu : ℝ) (hm : 0 < mmax) (hr : 0 ≤ reg * nu) :
    |proxL0 m mmax reg nu| ≤ |m| ∧ |proxL1 m mmax reg nu| ≤ |m| ∧ 0 ≤ proxL0 m mmax reg nu * m ∧ 0 ≤ proxL1 m mmax reg nu * m := by
  have h0 := (C77_prox_l0 m mmax reg nu hm (by nlinarith) 0).1
  have hab : |(|m| / mmax)| = |m| / mmax := abs_of_nonneg (by positivity)
  have hq : (0 : ℝ) ≤ max (|m| / mmax - reg * nu) 0 := le_max_right _ _
  have hq2 : max (|m| / mmax - reg * nu) 0 * mmax ≤ |m| := by
    rcases le_total (|m| / mmax - reg * nu) 0 with h | h
    · rw [max_eq_right h, zero_mul]; exact abs_nonneg m
    · rw [max_eq_left h, sub_mul, div_mul_cancel₀ _ hm.ne']; nlinarith
  have hs : |((SignType.sign m : SignType) : ℝ)| ≤ 1 ∧ 0 ≤ ((SignType.sign m : SignType) : ℝ) * m := by
    rcases lt_trichotomy m 0 with h | h | h
    · rw [sign_neg h]; simp; exact h.le
    · rw [h]; simp
    · rw [sign_pos h]; simp; exact h.le
  refine ⟨?_, ?_, ?_, ?_⟩
  · rcases h0 with h | h <;> rw [h]; simp
  · rw [proxL1, hab, abs_mul, abs_mul, abs_of_nonneg hq, abs_of_pos hm]
    calc |((SignType.sign m : SignType) : ℝ)| * max (|m| / mmax - reg * nu) 0 * mmax ≤ 1 * max (|m| / mmax - reg * nu) 0 * mmax := by
          apply mul_le_mul_of_nonneg_right _ hm.le
          exact mul_le_mul_of_nonneg_right hs.1 hq
      _ ≤ |m| := by rw [one_mul]; exact hq2
  · rcases h0 with h | h <;> rw [h]
    · exact mul_self_nonneg m
    · simp
  · rw [proxL1, hab]
    have := mul_nonneg (mul_nonneg hs.2 hq) hm.le
    linarith [this, show (SignType.sign m : ℝ) * max (|m| / mmax - reg * nu) 0 * mmax * m = (SignType.sign m : ℝ) * m * max (|m| / mmax - reg * nu) 0 * mmax by ring]

example : proxL1 3 2 1 (1 / 2) = 2 ∧ proxL1 (-1) 2 1 (1 / 2) = 0 ∧ proxL0 3 2 1 (1 / 2) = 3 ∧ proxL0 1 2 1 (1 / 2) = 0 := by
  refine ⟨?_, ?_, ?_, ?_⟩
  · rw [proxL1, sign_pos (by norm_num)]; norm_num
  · rw [proxL1, sign_neg (by norm_num)]; norm_num
  · rw [proxL0, if_pos (by norm_num)]; norm_num
  · rw [proxL0, if_neg (by norm_num)]; norm_num

/-! ### The recorded history -/

/-- The iterations at which a GPMO variant calls `print_GPMO` inside the loop with `verbose` (`(k % int(K / nhistory)) == 0 || k == 0 || k == K - 1`); the `n`-th of them writes at index `n` of arrays with `nhistory + 1` entries. -/
def recorded (K nhistory : Nat) : List Nat := (List.range K).filter fun k => k % (K / nhistory) == 0 || k == 0 || k == K - 1

/-- The iterations at which MwPGP records (`(k % (int(max_iter / 5.0)) == 0) || k == 0 || k == max_iter - 1`), in arrays with 21 entries. -/
def recordedMwPGP (maxIter : Nat) : List Nat := (List.range maxIter).filter fun k => k % (maxIter / 5) == 0 || k == 0 || k == maxIter - 1

theorem count_multiples (q n : Nat) (hq : 0 < q) : ((List.range (n * q)).filter fun k => k % q == 0).length = n := by
  induction n with
  | zero => simp
  | succ n ih =>
    have e : (n + 1) * q = n * q + q := by ring
    rw [e, List.range_add, List.filter_append, List.length_append, ih, List.filter_map, List.length_map]
    congr 1
    have h1 : ((List.range q).filter ((fun k => k % q == 0) ∘ fun x => n * q + x)) = (List.range q).filter (fun k => k == 0) := by
      apply List.filter_congr
      intro k hk
      have hk' := List.mem_range.mp hk
      simp only [Function.comp, Nat.mul_add_mod_self_right, Nat.mod_eq_of_lt hk']
    rw [h1]
    obtain ⟨p, rfl⟩ : ∃ p, q = p + 1 := ⟨q - 1, by omega⟩
    rw [List.range_succ_eq_map]
    simp

theorem count_recorded (q n K : Nat) (hq : 0 < q) (hK : K ≤ n * q) : ((List.range K).filter fun k => k % q == 0 || k == 0 || k == K - 1).length ≤ n + 1 := by
  have h1 : ((List.range K).filter fun k => k % q == 0 || k == 0 || k == K - 1).length ≤ ((List.range K).filter fun k => k % q == 0).length + ((List.range K).filter fun k => k == K - 1).length := by
    rw [← List.countP_eq_length_filter, ← List.countP_eq_length_filter, ← List.countP_eq_length_filter]
    induction List.range K with
    | nil => simp
    | cons a l ih =>
      simp only [List.countP_cons]
      have hz : (a % q == 0 || a == 0 || a == K - 1) = (a % q == 0 || a == K - 1) := by
        by_cases ha : a = 0
        · subst ha; simp
        · have : (a == 0) = false := by simp [ha]
          rw [this, Bool.or_false]
      rw [hz]
      cases (a % q == 0) <;> cases (a == K - 1) <;> simp <;> omega
  have h2 : ((List.range K).filter fun k => k % q == 0).length ≤ n := by
    obtain ⟨d, hd⟩ := Nat.exists_eq_add_of_le hK
    have h3 := count_multiples q n hq
    rw [hd, List.range_add, List.filter_append, List.length_append] at h3
    omega
  have h3 : ((List.range K).filter fun k => k == K - 1).length ≤ 1 := by
    rw [← List.countP_eq_length_filter]
    have := List.nodup_iff_count_le_one.mp (List.nodup_range (n := K)) (K - 1)
    simpa [List.count] using this
  omega

/-- **C77.** If `nhistory` divides `K` (and is not 0), a GPMO run without a magnet limit records at most `nhistory + 1` times, so all the writes to the history arrays are inside them. -/
theorem C77_history_fits (K nhistory : Nat) (hn : 0 < nhistory) (hK : 0 < K) (hd : nhistory ∣ K) : (recorded K nhistory).length ≤ nhistory + 1 := by
  obtain ⟨q, rfl⟩ := hd
  have hq : 0 < q := Nat.pos_of_mul_pos_left hK |> fun _ => by
    rcases Nat.eq_zero_or_pos q with h | h
    · rw [h] at hK; simp at hK
    · exact h
  simp only [recorded]
  rw [Nat.mul_div_cancel_left q hn]
  exact count_recorded q nhistory _ hq le_rfl

/-- **C77, violated.** For other `nhistory ≤ K`, which pass the check of `GPMO` (permanent_magnet_optimization.py L401-403), the loop records more often than the arrays have entries: writes out of bounds.  With `nhistory = n` and
`K = 2n - 1` there are `2n - 1` records for `n + 1` entries. -/
theorem C77_history_overflow_violated (n : Nat) (hn : 3 ≤ n) : n ≤ 2 * n - 1 ∧ (recorded (2 * n - 1) n).length = 2 * n - 1 ∧ n + 1 < (recorded (2 * n - 1) n).length := by
  have h : (2 * n - 1) / n = 1 := by
    rw [Nat.div_eq_iff (by omega)]; constructor <;> omega
  have h2 : (recorded (2 * n - 1) n).length = 2 * n - 1 := by
    simp only [recorded, h, Nat.mod_one]
    simp
  refine ⟨by omega, h2, by omega⟩

/-- **C77.** MwPGP with at least 5 iterations records at most 10 times, inside its 21 entries. -/
theorem C77_history_mwpgp (maxIter : Nat) (h : 5 ≤ maxIter) : (recordedMwPGP maxIter).length ≤ 10 := by
  have hq : 0 < maxIter / 5 := Nat.div_pos h (by norm_num)
  refine (count_recorded (maxIter / 5) 9 maxIter hq ?_).trans (by norm_num)
  omega

/-- **C77, violated.** With `verbose` and fewer than 5 iterations MwPGP computes `k % 0`. -/
theorem C77_modulo_zero_violated (maxIter : Nat) (h : maxIter < 5) : maxIter / 5 = 0 := Nat.div_eq_of_lt h

example : (recorded 100 10).length = 11 := by decide

/-! ### The initial guess -/

/-- `np.allclose(a, b)` with the default tolerances. -/
def Close (a b : ℝ) : Prop := |a - b| ≤ 1e-8 + 1e-5 * |b|

/-- `setup_initial_condition` accepts the guess (permanent_magnet_optimization.py L101-115). -/
def accepts {N : Nat} (mmax : Fin N → ℝ) (m0 : X N) : Prop := ∀ j c, Close (m0 j c) (proj (m0 j) (mmax j) c)

/-- **C77.** Every feasible guess is accepted. -/
theorem C77_feasible_accepted {N G : Nat} (P : Prob N G) (hm : ∀ j, 0 < P.mmax j) (m0 : X N) (h : P.Feasible m0) : accepts P.mmax m0 := by
  intro j c
  have e : proj (m0 j) (P.mmax j) c = m0 j c := by
    have : Real.sqrt (dot3 (m0 j) (m0 j)) / P.mmax j ≤ 1 := by rw [div_le_one (hm j), ← sqrt_form]; exact h j
    simp only [proj, max_eq_left this, div_one]
  rw [Close, e, sub_self, abs_zero]; positivity

/-- **C77.** An accepted guess exceeds no maximum by more than the tolerances of `np.allclose`: each component is within `1e-8 + 1e-5 * mmax` of a feasible moment. -/
theorem C77_accepted_nearly_feasible {N G : Nat} (P : Prob N G) (hm : ∀ j, 0 < P.mmax j) (m0 : X N) (h : accepts P.mmax m0) :
    ∃ m : X N, P.Feasible m ∧ ∀ j c, |m0 j c - m j c| ≤ 1e-8 + 1e-5 * P.mmax j := by
  refine ⟨fun j => proj (m0 j) (P.mmax j), fun j => (feas_iff _ _ (hm j)).mpr (proj_feasible _ _ (hm j)), fun j c => (h j c).trans ?_⟩
  have hf := proj_feasible (m0 j) (P.mmax j) (hm j)
  have : |proj (m0 j) (P.mmax j) c| ≤ P.mmax j := by
    apply abs_le_of_sq_le_sq _ (hm j).le
    refine le_trans ?_ (hf.trans (le_of_eq (sq _).symm))
    simp only [dot3]
    have h0 := mul_self_nonneg (proj (m0 j) (P.mmax j) 0); have h1 := mul_self_nonneg (proj (m0 j) (P.mmax j) 1); have h2 := mul_self_nonneg (proj (m0 j) (P.mmax j) 2)
    match c with
    | 0 => nlinarith
    | 1 => nlinarith
    | 2 => nlinarith
  nlinarith

/-- **C77, violated.** The check lets infeasible guesses through: with maximum 1 it accepts a moment of length `1 + 1e-6`. -/
theorem C77_infeasible_accepted_violated : ∃ (P : Prob 1 1) (m0 : X 1), (∀ j, 0 < P.mmax j) ∧ accepts P.mmax m0 ∧ ¬ P.Feasible m0 := by
  refine ⟨one 1 1 0 1 0, ex (1 + 1e-6), fun _ => one_pos, ?_, ?_⟩
  · intro j c
    have e : Real.sqrt (dot3 (ex (1 + 1e-6) j) (ex (1 + 1e-6) j)) = 1 + 1e-6 := by
      have : dot3 (ex (1 + 1e-6) j) (ex (1 + 1e-6) j) = (1 + 1e-6) * (1 + 1e-6) := by simp only [dot3, ex]; norm_num [f2]
      rw [this, Real.sqrt_mul_self (by norm_num)]
    have hmax : max (1 : ℝ) ((1 + 1e-6) / 1) = 1 + 1e-6 := by norm_num
    simp only [Close, proj, e, one, hmax]
    simp only [ex]
    split
    · rw [div_self (by norm_num)]; norm_num
    · simp; norm_num
  · intro h
    have := h 0
    rw [sqrt_form] at this
    have e : Real.sqrt (dot3 (ex (1 + 1e-6) 0) (ex (1 + 1e-6) 0)) = 1 + 1e-6 := by
      have : dot3 (ex (1 + 1e-6) 0) (ex (1 + 1e-6) 0) = (1 + 1e-6) * (1 + 1e-6) := by simp only [dot3, ex]; norm_num [f2]
      rw [this, Real.sqrt_mul_self (by norm_num)]
    rw [e] at this
    simp only [one] at this
    norm_num at this

end Simsopt.Magnets
