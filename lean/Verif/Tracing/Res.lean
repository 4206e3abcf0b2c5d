import Verif.Tracing.Stop
/-!
# `compute_resonances` in flux coordinates (C128)
-/
namespace Simsopt.Tracing

/-- A row `[s0, theta0, zeta0, vpar0, t, mpol, ntor]`. -/
structure Resonance where
  s0 : ℝ
  theta0 : ℝ
  zeta0 : ℝ
  vpar0 : ℝ
  t : ℝ
  mpol : ℤ
  ntor : ℤ

/-- The distance in the poloidal plane (tracing.py L477-478, L500-502). -/
noncomputable def polDist (s0 θ0 s θ : ℝ) : ℝ :=
  √((s * Real.cos θ - s0 * Real.cos θ0) ^ 2 + (s * Real.sin θ - s0 * Real.sin θ0) ^ 2)

/-- `compute_resonances(..., ma=None)` for one particle (tracing.py L466-518, the flux branch): `first` is the first row of `res_tys` (`s, θ, ζ, v_par`), the states of the hits are
`(s, θ, ζ)`.  The loop starts with the second hit: `for it in range(1, nhits)`. -/
noncomputable def resonances (first : ℝ × ℝ × ℝ × ℝ) (hits : List (Hit (ℝ × ℝ × ℝ))) (delta : ℝ) : List Resonance :=
  (hits.drop 1).filterMap fun h =>
    if 0 ≤ h.idx then
      if polDist first.1 first.2.1 h.state.1 h.state.2.1 < delta then
        some ⟨first.1, first.2.1, first.2.2.1, first.2.2.2, h.time, npRound ((h.state.2.1 - first.2.1) / (2 * Real.pi)), npRound ((h.state.2.2 - first.2.2.1) / (2 * Real.pi))⟩
      else none
    else none

/-- **C128.** Every reported resonance is a plane hit (not the row of a criterion) of the particle at the reported time, within `delta` of the initial position in the poloidal plane, with its
initial conditions, and `mpol`, `ntor` are its numbers of poloidal and toroidal turns (nearest integers); and every such hit but the first is reported. -/
theorem C128_resonances (first : ℝ × ℝ × ℝ × ℝ) (hits : List (Hit (ℝ × ℝ × ℝ))) (delta : ℝ) (r : Resonance) :
    r ∈ resonances first hits delta ↔ ∃ j h, 1 ≤ j ∧ hits[j]? = some h ∧ 0 ≤ h.idx ∧ polDist first.1 first.2.1 h.state.1 h.state.2.1 < delta ∧
      (r.s0, r.theta0, r.zeta0, r.vpar0) = first ∧ r.t = h.time ∧ r.mpol = npRound ((h.state.2.1 - first.2.1) / (2 * Real.pi)) ∧
      r.ntor = npRound ((h.state.2.2 - first.2.2.1) / (2 * Real.pi)) := by
  rw [resonances, List.mem_filterMap]
  constructor
  · rintro ⟨h, hm, hr⟩
    obtain ⟨i, hi⟩ := List.mem_iff_getElem?.mp hm
    rw [List.getElem?_drop] at hi
    by_cases h1 : 0 ≤ h.idx
    · rw [if_pos h1] at hr
      by_cases h2 : polDist first.1 first.2.1 h.state.1 h.state.2.1 < delta
      · rw [if_pos h2] at hr
        cases hr
        exact ⟨1 + i, h, by omega, hi, h1, h2, rfl, rfl, rfl, rfl⟩
      · rw [if_neg h2] at hr; cases hr
    · rw [if_neg h1] at hr; cases hr
  · rintro ⟨j, h, hj, hh, h1, h2, h3, h4, h5, h6⟩
    refine ⟨h, List.mem_iff_getElem?.mpr ⟨j - 1, by rw [List.getElem?_drop, show 1 + (j - 1) = j by omega]; exact hh⟩, ?_⟩
    rw [if_pos h1, if_pos h2, ← h3]
    cases r
    simp only [Option.some.injEq, Resonance.mk.injEq, true_and] at *
    subst h3
    exact ⟨h4.symm, h5.symm, h6.symm⟩

/-- **C128.** The reported turns: if the particle has returned up to less than half a turn in the angle, `ntor` is the number of turns. -/
theorem C128_turns (a b : ℝ) (n : ℤ) (h : |b - a - n * (2 * Real.pi)| < Real.pi) : npRound ((b - a) / (2 * Real.pi)) = n := by
  have hp := Real.pi_pos
  apply npRound_eq
  rw [show (b - a) / (2 * Real.pi) - n = (b - a - n * (2 * Real.pi)) / (2 * Real.pi) by field_simp, abs_div, abs_of_pos (by positivity : 0 < 2 * Real.pi),
    div_lt_iff₀ (by positivity)]
  linarith

/-- **C128, violated.** The first hit is not examined, although for a particle that starts in the plane and moves forward it is the first return (the start itself is not recorded): an orbit that
is closed after one toroidal turn is not reported. -/
theorem C128_first_return_violated : ∃ R H, solve xyz (line 1 4) true 8 [0] [] 2 [] = some (R, H) ∧ H = [⟨2 * Real.pi, 0, (0, 0, 2 * Real.pi)⟩] ∧
    (∀ delta, resonances (0, 0, 0, 1) H delta = []) ∧ ∀ h ∈ H, polDist 0 0 h.state.1 h.state.2.1 = 0 := by
  have hp := Real.pi_gt_three
  have hp4 := Real.pi_lt_four
  have h2 : (0 : ℝ) < 2 * Real.pi := by linarith
  have f0 : ⌊((0 : ℝ) - 0) / (2 * Real.pi)⌋ = 0 := by simp
  have f1 : ⌊((4 : ℝ) - 0) / (2 * Real.pi)⌋ = 0 := by
    rw [Int.floor_eq_iff]
    constructor
    · rw [le_div_iff₀ h2]; push_cast; linarith
    · rw [div_lt_iff₀ h2]; push_cast; linarith
  have f2 : ⌊((8 : ℝ) - 0) / (2 * Real.pi)⌋ = 1 := by
    rw [Int.floor_eq_iff]
    constructor
    · rw [le_div_iff₀ h2]; push_cast; linarith
    · rw [div_lt_iff₀ h2]; push_cast; linarith
  have f3 : cround (((4 + 8 : ℝ) / 2 - 0) / (2 * Real.pi)) = 1 := by
    apply cround_eq
    rw [abs_lt]
    push_cast
    constructor
    · rw [lt_sub_iff_add_lt, lt_div_iff₀ h2]; linarith
    · rw [sub_lt_iff_lt_add, div_lt_iff₀ h2]; linarith
  refine ⟨[(0, (0, 0, 0)), (4, (0, 0, 4)), (8, (0, 0, 8))], _, ?_, rfl, fun delta => rfl, ?_⟩
  · have e0 : phiOf xyz true ((line 1 4).y 0) Real.pi = 0 := by simp [phiOf, xyz, line]
    have e1 : phiOf xyz true ((line 1 4).y 1) 0 = 4 := by simp [phiOf, xyz, line]
    have e2 : phiOf xyz true ((line 1 4).y (1 + 1)) 4 = 8 := by simp [phiOf, xyz, line]; norm_num
    simp only [solve, loop, callAll, e0, Nat.zero_add, e1, e2, planeHits, f0, f1, f2, f3]
    rw [if_pos (by simp [line]; norm_num)]
    rw [if_neg (by simp [line]; norm_num)]
    simp [line]
  · intro h hh
    rw [List.mem_singleton] at hh
    subst hh
    simp [polDist]

/-! ### A particle on a circle, for the theorems about Cartesian tracing -/

/-- A particle on the unit circle, one radian per step. -/
noncomputable def circle : Integrator (ℝ × ℝ × ℝ) :=
  ⟨fun k => k, fun k => (Real.cos k, Real.sin k, 0), fun _ s => (Real.cos s, Real.sin s, 0), fun _ _ target => target⟩

theorem circle_angle (k : ℕ) : angleFrom xyz circle false 0 k = k := by
  have hne : ∀ a : ℝ, ¬(Real.cos a = 0 ∧ Real.sin a = 0) := by
    rintro a ⟨h1, h2⟩
    have := Real.sin_sq_add_cos_sq a
    rw [h1, h2] at this; norm_num at this
  have hp := Real.pi_gt_three
  induction k with
  | zero =>
    show getPhi (Real.cos ((0 : ℕ) : ℝ)) (Real.sin ((0 : ℕ) : ℝ)) Real.pi = _
    rw [C123_initial]
    simp [atan2pos, Fields.arctan2]
    exact Complex.arg_one
  | succ k ih =>
    show getPhi (Real.cos ((0 + k + 1 : ℕ) : ℝ)) (Real.sin ((0 + k + 1 : ℕ) : ℝ)) (angleFrom xyz circle false 0 k) = _
    rw [ih, Nat.zero_add]
    refine C123_continues _ _ _ _ (hne _) ⟨1, by norm_num, by simp, by simp⟩ ?_
    push_cast
    rw [show (k : ℝ) + 1 - k = 1 by ring, abs_one]
    linarith

/-- The plane 1/2 is hit twice within 7 radians, and the premises of `C124_count` hold. -/
example : (∀ k < 7, angleFrom xyz circle false 0 k ≤ angleFrom xyz circle false 0 (k + 1)) ∧
    (hitsUpTo xyz circle false [0, 1 / 2] 7).countP (fun h => h.idx == ((1 : ℕ) : ℤ)) = 2 := by
  have hp := Real.pi_gt_three
  have hp4 := Real.pi_lt_d2
  have hm : ∀ k < 7, angleFrom xyz circle false 0 k ≤ angleFrom xyz circle false 0 (k + 1) := by
    intro k _; rw [circle_angle, circle_angle]; push_cast; linarith
  refine ⟨hm, ?_⟩
  have h := C124_count xyz circle [0, 1 / 2] 7 1 (1 / 2) rfl hm
  have h2 : (0 : ℝ) < 2 * Real.pi := by linarith
  have f1 : ⌊(angleFrom xyz circle false 0 7 - 1 / 2) / (2 * Real.pi)⌋ = 1 := by
    rw [circle_angle, Int.floor_eq_iff]
    constructor
    · rw [le_div_iff₀ h2]; push_cast; linarith
    · rw [div_lt_iff₀ h2]; push_cast; linarith
  have f0 : ⌊(angleFrom xyz circle false 0 0 - 1 / 2) / (2 * Real.pi)⌋ = -1 := by
    rw [circle_angle, Int.floor_eq_iff]
    constructor
    · rw [le_div_iff₀ h2]; push_cast; linarith
    · rw [div_lt_iff₀ h2]; push_cast; linarith
  rw [f1, f0] at h
  omega

end Simsopt.Tracing
