import Verif.Tracing.Model
import Mathlib.Analysis.SpecialFunctions.Trigonometric.Angle
import Mathlib.Tactic.LinearCombination
/-!
# Angles (C123) and counting of transits (C126)
-/
namespace Simsopt.Tracing
open Fields

/-- Specification: `φ` is a toroidal angle of the point `(x, y)` of the plane. -/
def IsAngle (x y φ : ℝ) : Prop := ∃ r : ℝ, 0 ≤ r ∧ x = r * Real.cos φ ∧ y = r * Real.sin φ

theorem abs_cround_sub_le (x : ℝ) : |(cround x : ℝ) - x| ≤ 1 / 2 := by
  unfold cround
  split
  · rw [abs_le]
    have h1 := Int.floor_le (x + 1 / 2)
    have h2 := Int.lt_floor_add_one (x + 1 / 2)
    constructor <;> linarith
  · rw [abs_le]
    have h1 := Int.le_ceil (x - 1 / 2)
    have h2 := Int.ceil_lt_add_one (x - 1 / 2)
    constructor <;> linarith

theorem cround_eq {x : ℝ} {k : ℤ} (h : |x - k| < 1 / 2) : cround x = k := by
  have h1 := abs_cround_sub_le x
  rw [abs_lt] at h; rw [abs_le] at h1
  have h2 : (cround x : ℝ) < k + 1 := by linarith
  have h3 : (k : ℝ) < cround x + 1 := by linarith
  have h4 : cround x < k + 1 := by exact_mod_cast h2
  have h5 : k < cround x + 1 := by exact_mod_cast h3
  omega

theorem abs_npRound_sub_le (x : ℝ) : |(npRound x : ℝ) - x| ≤ 1 / 2 := by
  have h0 := Int.fract_add_floor x
  have h1 := Int.fract_nonneg x
  have h2 := Int.fract_lt_one x
  unfold npRound
  rw [abs_le]
  split_ifs <;> push_cast <;> constructor <;> linarith

theorem npRound_eq {x : ℝ} {k : ℤ} (h : |x - k| < 1 / 2) : npRound x = k := by
  have h1 := abs_npRound_sub_le x
  rw [abs_lt] at h; rw [abs_le] at h1
  have h2 : (npRound x : ℝ) < k + 1 := by linarith
  have h3 : (k : ℝ) < npRound x + 1 := by linarith
  have h4 : npRound x < k + 1 := by exact_mod_cast h2
  have h5 : k < npRound x + 1 := by exact_mod_cast h3
  omega

theorem atan2pos_range (y x : ℝ) : 0 ≤ atan2pos y x ∧ atan2pos y x < 2 * Real.pi := by
  have h1 := Complex.neg_pi_lt_arg ⟨x, y⟩
  have h2 := Complex.arg_le_pi ⟨x, y⟩
  have hp := Real.pi_pos
  unfold atan2pos arctan2
  split
  · constructor <;> linarith
  · constructor <;> linarith

theorem isAngle_arctan2 (x y : ℝ) : IsAngle x y (arctan2 y x) := by
  refine ⟨‖(⟨x, y⟩ : ℂ)‖, norm_nonneg _, ?_, ?_⟩
  · exact (Complex.norm_mul_cos_arg ⟨x, y⟩).symm
  · exact (Complex.norm_mul_sin_arg ⟨x, y⟩).symm

theorem IsAngle.add {x y φ : ℝ} (h : IsAngle x y φ) (k : ℤ) : IsAngle x y (φ + k * (2 * Real.pi)) := by
  obtain ⟨r, hr, hx, hy⟩ := h
  exact ⟨r, hr, by rw [Real.cos_add_int_mul_two_pi]; exact hx, by rw [Real.sin_add_int_mul_two_pi]; exact hy⟩

theorem IsAngle.unique {x y φ ψ : ℝ} (h : IsAngle x y φ) (h' : IsAngle x y ψ) (hne : ¬(x = 0 ∧ y = 0)) : ∃ k : ℤ, ψ = φ + k * (2 * Real.pi) := by
  obtain ⟨r, hr, hx, hy⟩ := h
  obtain ⟨s, hs, hx', hy'⟩ := h'
  have hr2 : x ^ 2 + y ^ 2 = r ^ 2 := by rw [hx, hy]; nlinarith [Real.sin_sq_add_cos_sq φ]
  have hs2 : x ^ 2 + y ^ 2 = s ^ 2 := by rw [hx', hy']; nlinarith [Real.sin_sq_add_cos_sq ψ]
  have hrs : r = s := by
    have : r ^ 2 = s ^ 2 := by rw [← hr2, hs2]
    exact (pow_left_inj₀ hr hs two_ne_zero).1 this
  have hr0 : r ≠ 0 := by
    rintro rfl
    exact hne ⟨by simpa using hx, by simpa using hy⟩
  have hc : Real.cos φ = Real.cos ψ := by
    have := hx.symm.trans hx'; rw [hrs] at this hr0; exact mul_left_cancel₀ hr0 this
  have hsn : Real.sin φ = Real.sin ψ := by
    have := hy.symm.trans hy'; rw [hrs] at this hr0; exact mul_left_cancel₀ hr0 this
  have := Real.Angle.cos_sin_inj hc hsn
  rw [Real.Angle.angle_eq_iff_two_pi_dvd_sub] at this
  obtain ⟨k, hk⟩ := this
  exact ⟨-k, by push_cast; linarith⟩

theorem isAngle_atan2pos (x y : ℝ) : IsAngle x y (atan2pos y x) := by
  unfold atan2pos
  split
  · simpa using (isAngle_arctan2 x y).add 1
  · exact isAngle_arctan2 x y

/-- **C123.** `get_phi(x, y, phi_near)` is an angle of the point `(x, y)`, at most `π` away from `phi_near`, for all points and all `phi_near`. -/
theorem C123_get_phi (x y near : ℝ) : IsAngle x y (getPhi x y near) ∧ |getPhi x y near - near| ≤ Real.pi := by
  have hp := Real.pi_pos
  obtain ⟨h0, h1⟩ := atan2pos_range y x
  have ha := isAngle_atan2pos x y
  have hc := abs_cround_sub_le (near / (2 * Real.pi))
  set c := cround (near / (2 * Real.pi)) with hcdef
  set φ := atan2pos y x with hφ
  have hc' : |(c : ℝ) * 2 * Real.pi - near| ≤ Real.pi := by
    have : (c : ℝ) * 2 * Real.pi - near = ((c : ℝ) - near / (2 * Real.pi)) * (2 * Real.pi) := by field_simp
    rw [this, abs_mul, abs_of_pos (by positivity : 0 < 2 * Real.pi)]
    nlinarith
  rw [abs_le] at hc'
  unfold getPhi
  rw [← hcdef, ← hφ]
  simp only
  split
  · rename_i hle
    refine ⟨?_, ?_⟩
    · have := ha.add (c - 1); push_cast at this
      convert this using 1; ring
    · have h2 := hle.trans (min_le_left _ _)
      rcases abs_cases ((c : ℝ) * 2 * Real.pi - 2 * Real.pi + φ - near) with ⟨e, _⟩ | ⟨e, _⟩ <;>
      rcases abs_cases ((c : ℝ) * 2 * Real.pi + φ - near) with ⟨e', _⟩ | ⟨e', _⟩ <;> rw [e] at h2 ⊢ <;> rw [e'] at h2 <;> linarith
  · rename_i h3
    split
    · rename_i hle
      refine ⟨?_, ?_⟩
      · have := ha.add c
        convert this using 1; ring
      · have h2 := hle.trans (min_le_left _ _)
        rcases abs_cases ((c : ℝ) * 2 * Real.pi - 2 * Real.pi + φ - near) with ⟨e, _⟩ | ⟨e, _⟩ <;>
        rcases abs_cases ((c : ℝ) * 2 * Real.pi + φ - near) with ⟨e', _⟩ | ⟨e', _⟩ <;> rw [e] at h2 <;> rw [e'] at h2 ⊢ <;> linarith
    · rename_i h4
      refine ⟨?_, ?_⟩
      · have := ha.add (c + 1); push_cast at this
        convert this using 1; ring
      · exfalso
        have e3 : |(c : ℝ) * 2 * Real.pi + 2 * Real.pi + φ - near| = (c : ℝ) * 2 * Real.pi + 2 * Real.pi + φ - near := abs_of_nonneg (by linarith)
        rw [e3] at h3 h4
        rw [le_min_iff, not_and_or] at h3 h4
        rcases abs_cases ((c : ℝ) * 2 * Real.pi - 2 * Real.pi + φ - near) with ⟨e, _⟩ | ⟨e, _⟩ <;>
        rcases abs_cases ((c : ℝ) * 2 * Real.pi + φ - near) with ⟨e', _⟩ | ⟨e', _⟩ <;> rw [e, e'] at h3 h4 <;> rcases h3 with h3 | h3 <;> rcases h4 with h4 | h4 <;> push Not at h3 h4 <;> linarith

/-- **C123.** It is the angle nearest to `phi_near`: no other angle of the point is nearer. -/
theorem C123_nearest (x y near φ : ℝ) (hne : ¬(x = 0 ∧ y = 0)) (h : IsAngle x y φ) : |getPhi x y near - near| ≤ |φ - near| := by
  obtain ⟨ha, hle⟩ := C123_get_phi x y near
  obtain ⟨k, rfl⟩ := ha.unique h hne
  by_cases hk : k = 0
  · simp [hk]
  · have h1 : (1 : ℝ) ≤ |(k : ℝ)| := by exact_mod_cast Int.one_le_abs hk
    have hp := Real.pi_pos
    have h2 : |(k : ℝ) * (2 * Real.pi)| ≤ |getPhi x y near + k * (2 * Real.pi) - near| + |getPhi x y near - near| := by
      have := abs_sub (getPhi x y near + k * (2 * Real.pi) - near) (getPhi x y near - near)
      have e : getPhi x y near + k * (2 * Real.pi) - near - (getPhi x y near - near) = k * (2 * Real.pi) := by ring
      rw [e] at this; exact this
    rw [abs_mul, abs_of_pos (by positivity : 0 < 2 * Real.pi)] at h2
    nlinarith

/-- **C123.** If the angle really changed by less than half a turn, `get_phi` returns the continued angle. -/
theorem C123_continues (x y near φ : ℝ) (hne : ¬(x = 0 ∧ y = 0)) (h : IsAngle x y φ) (hd : |φ - near| < Real.pi) : getPhi x y near = φ := by
  obtain ⟨ha, hle⟩ := C123_get_phi x y near
  obtain ⟨k, rfl⟩ := ha.unique h hne
  by_cases hk : k = 0
  · simp [hk]
  · exfalso
    have h1 : (1 : ℝ) ≤ |(k : ℝ)| := by exact_mod_cast Int.one_le_abs hk
    have hp := Real.pi_pos
    have := abs_sub (getPhi x y near + k * (2 * Real.pi) - near) (getPhi x y near - near)
    have e : getPhi x y near + k * (2 * Real.pi) - near - (getPhi x y near - near) = k * (2 * Real.pi) := by ring
    rw [e, abs_mul, abs_of_pos (by positivity : 0 < 2 * Real.pi)] at this
    nlinarith

/-- **C123.** The first angle of every trajectory, `get_phi(x, y, π)`, is the one in `[0, 2π)`. -/
theorem C123_initial (x y : ℝ) : getPhi x y Real.pi = atan2pos y x := by
  have hp := Real.pi_pos
  obtain ⟨h0, h1⟩ := atan2pos_range y x
  have hc : cround (Real.pi / (2 * Real.pi)) = 1 := by
    have : Real.pi / (2 * Real.pi) = 1 / 2 := by field_simp
    rw [this, cround, if_pos (by norm_num)]; norm_num
  unfold getPhi
  rw [hc]
  simp only [Int.cast_one, one_mul]
  rw [if_pos]
  · ring
  · have e1 : |2 * Real.pi - 2 * Real.pi + atan2pos y x - Real.pi| ≤ Real.pi := by rw [abs_le]; constructor <;> linarith
    refine le_min (e1.trans ?_) (e1.trans ?_)
    · exact (by linarith : Real.pi ≤ 2 * Real.pi + atan2pos y x - Real.pi).trans (le_abs_self _)
    · exact (by linarith : Real.pi ≤ 2 * Real.pi + 2 * Real.pi + atan2pos y x - Real.pi).trans (le_abs_self _)

/-- **C123.** The cylindrical point `(r, φ, z)` at which the right-hand sides evaluate the field is the point `(x, y, z)`, with `φ` in `[0, 2π)`. -/
theorem C123_cylindrical (x y : ℝ) :
    √(x * x + y * y) * Real.cos (atan2pos y x) = x ∧ √(x * x + y * y) * Real.sin (atan2pos y x) = y ∧ 0 ≤ atan2pos y x ∧ atan2pos y x < 2 * Real.pi := by
  obtain ⟨r, hr, hx, hy⟩ := isAngle_atan2pos x y
  have : √(x * x + y * y) = r := by
    rw [show x * x + y * y = r ^ 2 by
      have h1 : x * x = r * Real.cos (atan2pos y x) * (r * Real.cos (atan2pos y x)) := congrArg₂ (· * ·) hx hx
      have h2 : y * y = r * Real.sin (atan2pos y x) * (r * Real.sin (atan2pos y x)) := congrArg₂ (· * ·) hy hy
      rw [h1, h2]
      linear_combination r ^ 2 * Real.sin_sq_add_cos_sq (atan2pos y x)]
    exact Real.sqrt_sq hr
  rw [this]
  exact ⟨hx.symm, hy.symm, atan2pos_range y x⟩

example : IsAngle 0 2 (Real.pi / 2) ∧ getPhi 0 2 (7 * Real.pi) = 13 * Real.pi / 2 := by
  have hp := Real.pi_pos
  refine ⟨⟨2, by norm_num, by simp, by simp⟩, ?_⟩
  refine C123_continues _ _ _ _ (by norm_num) ⟨2, by norm_num, ?_, ?_⟩ ?_
  · rw [show 13 * Real.pi / 2 = Real.pi / 2 + (3 : ℤ) * (2 * Real.pi) by push_cast; ring, Real.cos_add_int_mul_two_pi]; simp
  · rw [show 13 * Real.pi / 2 = Real.pi / 2 + (3 : ℤ) * (2 * Real.pi) by push_cast; ring, Real.sin_add_int_mul_two_pi]; simp
  · rw [abs_lt]; constructor <;> linarith

/-! ### Counting of transits -/

/-- Specification: `φ` is a continuous choice of the angle along the points: an angle of each, changing by less than half a turn from point to point, and no point is
the origin. -/
def Unwrapped : List (ℝ × ℝ) → List ℝ → Prop
  | [], [] => True
  | [p], [φ] => IsAngle p.1 p.2 φ ∧ ¬(p.1 = 0 ∧ p.2 = 0)
  | p :: q :: ps, φ :: ψ :: φs => (IsAngle p.1 p.2 φ ∧ ¬(p.1 = 0 ∧ p.2 = 0)) ∧ |ψ - φ| < Real.pi ∧ Unwrapped (q :: ps) (ψ :: φs)
  | _, _ => False

theorem Unwrapped.head {p : ℝ × ℝ} {ps : List (ℝ × ℝ)} {φ : ℝ} {φs : List ℝ} (h : Unwrapped (p :: ps) (φ :: φs)) :
    IsAngle p.1 p.2 φ ∧ ¬(p.1 = 0 ∧ p.2 = 0) := by
  cases ps with
  | nil => cases φs with
    | nil => exact h
    | cons => exact h.elim
  | cons q qs => cases φs with
    | nil => exact h.elim
    | cons => exact h.1

theorem follow_eq (p : ℝ × ℝ) (ps : List (ℝ × ℝ)) (φ : ℝ) (φs : List ℝ) (h : Unwrapped (p :: ps) (φ :: φs)) (k : ℤ) :
    follow (φ + k * (2 * Real.pi)) ps = φs.getLastD φ + k * (2 * Real.pi) := by
  induction ps generalizing p φ φs with
  | nil => cases φs with
    | nil => rfl
    | cons => exact h.elim
  | cons q qs ih => cases φs with
    | nil => exact h.elim
    | cons ψ φs =>
      have hq := h.2.2.head
      have e : getPhi q.1 q.2 (φ + k * (2 * Real.pi)) = ψ + k * (2 * Real.pi) := by
        refine C123_continues _ _ _ _ hq.2 (hq.1.add k) ?_
        rw [show ψ + k * (2 * Real.pi) - (φ + k * (2 * Real.pi)) = ψ - φ by ring]
        exact h.2.1
      show follow (getPhi q.1 q.2 (φ + k * (2 * Real.pi))) qs = _
      rw [e, ih q ψ φs h.2.2]
      simp [List.getLastD]
      cases φs <;> simp

/-- **C126.** `compute_toroidal_transits` and `compute_poloidal_transits` without flux coordinates: the result is the (rounded) total change, in turns, of any continuous
choice of the angle along the trajectory, whatever its branch. -/
theorem C126_transits (p : ℝ × ℝ) (ps : List (ℝ × ℝ)) (φ : ℝ) (φs : List ℝ) (h : Unwrapped (p :: ps) (φ :: φs)) :
    transits (p :: ps) = npRound ((φs.getLastD φ - φ) / (2 * Real.pi)) := by
  have hh := h.head
  obtain ⟨a, b⟩ := p
  obtain ⟨k, hk⟩ := hh.1.unique (isAngle_atan2pos a b) hh.2
  have h0 : getPhi a b Real.pi = φ + k * (2 * Real.pi) := by rw [C123_initial, hk]
  show (if ps.length + 1 > 1 then npRound ((follow (getPhi a b Real.pi) ps - getPhi a b Real.pi) / (2 * Real.pi)) else 0) = _
  rw [h0, follow_eq (a, b) ps φ φs h]
  split
  · congr 1; ring
  · have : ps = [] := by cases ps with | nil => rfl | cons => simp at *
    subst this
    cases φs with
    | nil =>
      have : npRound 0 = 0 := npRound_eq (by norm_num)
      simp [List.getLastD, this]
    | cons => exact h.elim

/-- **C126.** In particular a trajectory whose angle has changed by `n` turns, up to less than half a turn, is counted as `n` transits, with the sign of its direction. -/
theorem C126_whole_turns (p : ℝ × ℝ) (ps : List (ℝ × ℝ)) (φ : ℝ) (φs : List ℝ) (h : Unwrapped (p :: ps) (φ :: φs)) (n : ℤ)
    (hn : |φs.getLastD φ - φ - n * (2 * Real.pi)| < Real.pi) : transits (p :: ps) = n := by
  rw [C126_transits p ps φ φs h]
  apply npRound_eq
  have hp := Real.pi_pos
  have : (φs.getLastD φ - φ) / (2 * Real.pi) - n = (φs.getLastD φ - φ - n * (2 * Real.pi)) / (2 * Real.pi) := by field_simp
  rw [this, abs_div, abs_of_pos (by positivity : 0 < 2 * Real.pi), div_lt_iff₀ (by positivity)]
  linarith

/-- **C126.** With flux coordinates the count is the rounded change of the angle column. -/
theorem C126_flux (a : ℝ) (as : List ℝ) : transitsFlux (a :: as) = npRound ((as.getLastD a - a) / (2 * Real.pi)) := by
  show (if as.length + 1 > 1 then _ else _) = _
  split
  · rfl
  · have : as = [] := by cases as with | nil => rfl | cons => simp at *
    subst this
    have : npRound 0 = 0 := npRound_eq (by norm_num)
    simp [List.getLastD, this]

/-- Three points on the circle, a third of a turn apart, and back: one transit backwards. -/
example : ∃ φs : List ℝ, Unwrapped [(1, 0), (0, -1), (-1, 0), (0, 1), (1, 0)] (0 :: φs) ∧ transits [(1, 0), (0, -1), (-1, 0), (0, 1), (1, 0)] = -1 := by
  have hp := Real.pi_pos
  have h : Unwrapped [(1, 0), (0, -1), (-1, 0), (0, 1), (1, 0)] [0, -(Real.pi / 2), -Real.pi, -(3 * Real.pi / 2), -(2 * Real.pi)] := by
    have e : Real.cos (3 * Real.pi / 2) = 0 := by
      rw [show 3 * Real.pi / 2 = Real.pi / 2 + Real.pi by ring, Real.cos_add_pi]; simp
    have e' : Real.sin (3 * Real.pi / 2) = -1 := by
      rw [show 3 * Real.pi / 2 = Real.pi / 2 + Real.pi by ring, Real.sin_add_pi]; simp
    refine ⟨⟨⟨1, by simp, by simp, by simp⟩, by simp⟩, ?_, ⟨⟨1, by simp, by simp, by simp⟩, by simp⟩, ?_, ⟨⟨1, by simp, by simp, by simp⟩, by simp⟩, ?_,
      ⟨⟨1, by simp, by simp [e], by simp [e']⟩, by simp⟩, ?_, ⟨1, by simp, by simp, by simp⟩, by simp⟩ <;> rw [abs_lt] <;> constructor <;> linarith
  refine ⟨_, h, ?_⟩
  refine C126_whole_turns _ _ _ _ h (-1) ?_
  simp [List.getLastD]
  exact hp

end Simsopt.Tracing
