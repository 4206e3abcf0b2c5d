import Verif.Fields.Lemmas
import Mathlib.Analysis.SpecialFunctions.Trigonometric.Deriv
import Mathlib.Analysis.Calculus.FDeriv.Pi
import Mathlib.Analysis.Calculus.FDeriv.Comp
import Mathlib.Analysis.Calculus.Deriv.Comp
import Mathlib.Analysis.Calculus.Deriv.Prod
import Mathlib.Algebra.Order.Floor.Ring
import Mathlib.Tactic.LinearCombination
/-!
# Evaluation points and derived quantities of a magnetic field

Model of the non-virtual part of `MagneticField` (src/simsoptpp/magneticfield.h L44-143, L152-215): setting the evaluation points in Cartesian or cylindrical coordinates, reading them back in either, and `AbsB`, `GradAbsB`, `B_cyl`, `A_cyl`, `GradAbsB_cyl`.
The caches are the subject of Caches/ (C39, C40): here every quantity is computed from the points last set.  Floating-point numbers are real numbers.
-/
namespace Simsopt.Fields.Derived
open Simsopt.Fields

/-- `std::fmod(x, y)`: the quotient is rounded towards zero, so the result has the sign of `x`. -/
noncomputable def fmod (x y : ℝ) : ℝ := x - y * (if 0 ≤ x / y then (⌊x / y⌋ : ℝ) else (⌈x / y⌉ : ℝ))

/-- The points a field holds: those of the last `set_points_cart` or `set_points_cyl` (L173-201).  The cache of the other coordinates is filled from them. -/
inductive Points where
  | cart (ps : List P3)
  | cyl (ps : List P3)

/-- `get_points_cyl_impl` (L49-58), one point. -/
noncomputable def toCyl (p : P3) : P3 :=
  let x := p 0
  let y := p 1
  let z := p 2
  let phi := arctan2 y x
  ![√(x * x + y * y), if phi < 0 then phi + 2 * Real.pi else phi, z]

/-- `get_points_cart_impl` (L66-73), one point. -/
noncomputable def toCart (q : P3) : P3 :=
  let r := q 0
  let phi := q 1
  let z := q 2
  ![r * Real.cos phi, r * Real.sin phi, z]

/-- `set_points_cart` (L188-197), `set_points` (L199-201). -/
def setCart (ps : List P3) : Points := .cart ps

/-- `set_points_cyl` (L173-186). -/
noncomputable def setCyl (ps : List P3) : Points := .cyl (ps.map fun q => ![q 0, fmod (q 1) (2 * Real.pi), q 2])

/-- The constructor (L152-155): one point at the origin. -/
def fresh : Points := setCart [![0, 0, 0]]

/-- `get_points_cart` (L211-217). -/
noncomputable def getCart : Points → List P3
  | .cart ps => ps
  | .cyl qs => qs.map toCart

/-- `get_points_cyl` (L203-209). -/
noncomputable def getCyl : Points → List P3
  | .cart ps => ps.map toCyl
  | .cyl qs => qs

/-- `_AbsB_impl` (L79-85), one point. -/
noncomputable def absB (b : P3) : ℝ := √(b 0 * b 0 + b 1 * b 1 + b 2 * b 2)

/-- `_GradAbsB_impl` (L87-97), one point: `g` is that point's part of `dB_by_dX`. -/
noncomputable def gradAbsB (b : P3) (g : T2) : P3 :=
  let a := √(b 0 * b 0 + b 1 * b 1 + b 2 * b 2)
  ![(b 0 * g 0 0 + b 1 * g 0 1 + b 2 * g 0 2) / a,
    (b 0 * g 1 0 + b 1 * g 1 1 + b 2 * g 1 2) / a,
    (b 0 * g 2 0 + b 1 * g 2 1 + b 2 * g 2 2) / a]

/-- The loop body of `_B_cyl_impl`, `_A_cyl_impl` and `_GradAbsB_cyl_impl` (L99-133), which are the same: `rphiz` is the point, `v` the Cartesian vector there. -/
noncomputable def comps (rphiz v : P3) : P3 :=
  let phi := rphiz 1
  ![Real.cos phi * v 0 + Real.sin phi * v 1, Real.cos phi * v 1 - Real.sin phi * v 0, v 2]

/-- What a concrete field class supplies: its `_B_impl`, `_dB_by_dX_impl` and `_A_impl`, which act on each Cartesian point separately. -/
structure Field where
  B : P3 → P3
  dB : P3 → T2
  A : P3 → P3

/-- `B()`: `_B_impl` fills one row for each Cartesian point. -/
noncomputable def Field.getB (f : Field) (s : Points) : List P3 := (getCart s).map f.B
/-- `AbsB()`. -/
noncomputable def Field.getAbsB (f : Field) (s : Points) : List ℝ := (f.getB s).map absB
/-- `GradAbsB()`. -/
noncomputable def Field.getGradAbsB (f : Field) (s : Points) : List P3 :=
  List.zipWith gradAbsB (f.getB s) ((getCart s).map f.dB)
/-- `B_cyl()`. -/
noncomputable def Field.getBcyl (f : Field) (s : Points) : List P3 := List.zipWith comps (getCyl s) (f.getB s)
/-- `A_cyl()`. -/
noncomputable def Field.getAcyl (f : Field) (s : Points) : List P3 := List.zipWith comps (getCyl s) ((getCart s).map f.A)
/-- `GradAbsB_cyl()`. -/
noncomputable def Field.getGradAbsBcyl (f : Field) (s : Points) : List P3 := List.zipWith comps (getCyl s) (f.getGradAbsB s)

/-! ## Points -/

theorem fmod_period (x : ℝ) : ∃ k : ℤ, fmod x (2 * Real.pi) = x - k * (2 * Real.pi) := by
  unfold fmod
  split
  · exact ⟨⌊x / (2 * Real.pi)⌋, by ring⟩
  · exact ⟨⌈x / (2 * Real.pi)⌉, by ring⟩

theorem fmod_range (x : ℝ) : |fmod x (2 * Real.pi)| < 2 * Real.pi ∧ 0 ≤ x * fmod x (2 * Real.pi) := by
  have hp : (0 : ℝ) < 2 * Real.pi := by positivity
  have hx : x / (2 * Real.pi) * (2 * Real.pi) = x := div_mul_cancel₀ _ hp.ne'
  unfold fmod
  split
  · rename_i h
    have h1 := Int.floor_le (x / (2 * Real.pi))
    have h2 := Int.lt_floor_add_one (x / (2 * Real.pi))
    have h0 : 0 ≤ x := by rw [← hx]; positivity
    generalize (⌊x / (2 * Real.pi)⌋ : ℝ) = k at h1 h2
    have e : x - 2 * Real.pi * k = (x / (2 * Real.pi) - k) * (2 * Real.pi) := by linear_combination -hx
    have h3 : 0 ≤ x - 2 * Real.pi * k := by
      rw [e]; exact mul_nonneg (by linarith) hp.le
    refine ⟨?_, mul_nonneg h0 h3⟩
    rw [abs_of_nonneg h3, e]
    nlinarith
  · rename_i h
    have h1 := Int.le_ceil (x / (2 * Real.pi))
    have h2 := Int.ceil_lt_add_one (x / (2 * Real.pi))
    have h0 : x ≤ 0 := by
      rw [← hx]; exact mul_nonpos_of_nonpos_of_nonneg (not_le.mp h).le hp.le
    generalize (⌈x / (2 * Real.pi)⌉ : ℝ) = k at h1 h2
    have e : x - 2 * Real.pi * k = (x / (2 * Real.pi) - k) * (2 * Real.pi) := by linear_combination -hx
    have h3 : x - 2 * Real.pi * k ≤ 0 := by
      rw [e]; exact mul_nonpos_of_nonpos_of_nonneg (by linarith) hp.le
    refine ⟨?_, mul_nonneg_of_nonpos_of_nonpos h0 h3⟩
    rw [abs_of_nonpos h3, e]
    nlinarith

theorem toCyl_angle (p : P3) : ∃ k : ℤ, toCyl p 1 = arctan2 (p 1) (p 0) + k * (2 * Real.pi) := by
  show ∃ k : ℤ, (if arctan2 (p 1) (p 0) < 0 then _ else _) = _
  split
  · exact ⟨1, by push_cast; ring⟩
  · exact ⟨0, by push_cast; ring⟩

theorem cos_toCyl (p : P3) : Real.cos (toCyl p 1) = Real.cos (arctan2 (p 1) (p 0)) := by
  obtain ⟨k, hk⟩ := toCyl_angle p
  rw [hk, Real.cos_add_int_mul_two_pi]

theorem sin_toCyl (p : P3) : Real.sin (toCyl p 1) = Real.sin (arctan2 (p 1) (p 0)) := by
  obtain ⟨k, hk⟩ := toCyl_angle p
  rw [hk, Real.sin_add_int_mul_two_pi]

theorem toCyl_zero (p : P3) : toCyl p 0 = √(p 0 ^ 2 + p 1 ^ 2) := by
  show √(p 0 * p 0 + p 1 * p 1) = _
  rw [sq, sq]

theorem toCart_toCyl (p : P3) : toCart (toCyl p) = p := by
  funext i
  fin_cases i
  · show toCyl p 0 * Real.cos (toCyl p 1) = p 0
    rw [cos_toCyl, toCyl_zero, r_mul_cos]
  · show toCyl p 0 * Real.sin (toCyl p 1) = p 1
    rw [sin_toCyl, toCyl_zero, r_mul_sin]
  · rfl

/-- **C106.** Points set in Cartesian coordinates and read in cylindrical ones have a non-negative radius and an angle in [0, 2π), and describe the points that were set: `x = R cos φ`, `y = R sin φ`, `z = Z`. -/
theorem C106_cartesian_to_cylindrical (ps : List P3) :
    (getCyl (setCart ps)).length = ps.length ∧ ∀ (i : ℕ) (h : i < (getCyl (setCart ps)).length) (h' : i < ps.length),
      let q := (getCyl (setCart ps))[i]
      0 ≤ q 0 ∧ 0 ≤ q 1 ∧ q 1 < 2 * Real.pi ∧ ps[i] 0 = q 0 * Real.cos (q 1) ∧ ps[i] 1 = q 0 * Real.sin (q 1) ∧ ps[i] 2 = q 2 := by
  refine ⟨by simp [getCyl, setCart], ?_⟩
  intro i h h' q
  have hq : q = toCyl ps[i] := by simp [q, getCyl, setCart]
  rw [hq]
  have e := toCart_toCyl ps[i]
  have h1 := Complex.neg_pi_lt_arg ⟨ps[i] 0, ps[i] 1⟩
  have h2 := Complex.arg_le_pi ⟨ps[i] 0, ps[i] 1⟩
  have h3 := Real.pi_pos
  refine ⟨Real.sqrt_nonneg _, ?_, ?_, (congrFun e 0).symm, (congrFun e 1).symm, (congrFun e 2).symm⟩
  · show 0 ≤ if arctan2 (ps[i] 1) (ps[i] 0) < 0 then _ else _
    unfold arctan2
    split <;> linarith
  · show (if arctan2 (ps[i] 1) (ps[i] 0) < 0 then arctan2 (ps[i] 1) (ps[i] 0) + 2 * Real.pi else arctan2 (ps[i] 1) (ps[i] 0)) < _
    unfold arctan2
    split <;> linarith

/-- **C106.** Points set in cylindrical coordinates, with any angles, are at `(R cos φ, R sin φ, Z)`. -/
theorem C106_cylindrical_to_cartesian (qs : List P3) :
    getCart (setCyl qs) = qs.map fun q => ![q 0 * Real.cos (q 1), q 0 * Real.sin (q 1), q 2] := by
  show ((qs.map fun q => ![q 0, fmod (q 1) (2 * Real.pi), q 2]).map toCart) = _
  rw [List.map_map]
  refine List.map_congr_left fun q _ => ?_
  obtain ⟨k, hk⟩ := fmod_period (q 1)
  show ![q 0 * Real.cos (fmod (q 1) (2 * Real.pi)), q 0 * Real.sin (fmod (q 1) (2 * Real.pi)), q 2] = _
  rw [hk, Real.cos_sub_int_mul_two_pi, Real.sin_sub_int_mul_two_pi]

/-- **C106.** Points set in cylindrical coordinates are read back with the same radius and height, and an angle that differs by full turns, is less than 2π in modulus and never has the opposite sign: an angle already within one turn comes back unchanged. -/
theorem C106_cylindrical_readback (qs : List P3) :
    (getCyl (setCyl qs)).length = qs.length ∧ ∀ (i : ℕ) (h : i < (getCyl (setCyl qs)).length) (h' : i < qs.length),
      let q := (getCyl (setCyl qs))[i]
      q 0 = qs[i] 0 ∧ q 2 = qs[i] 2 ∧ (∃ k : ℤ, q 1 = qs[i] 1 - k * (2 * Real.pi)) ∧ |q 1| < 2 * Real.pi ∧ 0 ≤ qs[i] 1 * q 1 ∧
        (|qs[i] 1| < 2 * Real.pi → q 1 = qs[i] 1) := by
  refine ⟨by simp [getCyl, setCyl], ?_⟩
  intro i h h' q
  have hq : q = ![qs[i] 0, fmod (qs[i] 1) (2 * Real.pi), qs[i] 2] := by simp [q, getCyl, setCyl]
  rw [hq]
  refine ⟨rfl, rfl, fmod_period _, (fmod_range _).1, (fmod_range _).2, fun hs => ?_⟩
  show fmod (qs[i] 1) (2 * Real.pi) = qs[i] 1
  generalize qs[i] 1 = x at hs
  have hp : (0 : ℝ) < 2 * Real.pi := by positivity
  have hl := abs_lt.mp hs
  unfold fmod
  split
  · rename_i hx
    have : ⌊x / (2 * Real.pi)⌋ = 0 := by
      rw [Int.floor_eq_zero_iff]
      exact ⟨hx, by rw [div_lt_one hp]; exact hl.2⟩
    rw [this]; simp
  · rename_i hx
    have : ⌈x / (2 * Real.pi)⌉ = 0 := by
      rw [Int.ceil_eq_zero_iff]
      refine ⟨?_, (not_le.mp hx).le⟩
      rw [lt_div_iff₀ hp]; linarith
    rw [this]; simp

/-- **C106.** Points set in cylindrical coordinates with a positive radius and read through the Cartesian coordinates come back with the same radius and height and the angle reduced to [0, 2π), whatever the angle was. -/
theorem C106_cylindrical_reduced (q : P3) (hr : 0 < q 0) :
    getCyl (setCart (getCart (setCyl [q]))) = [![q 0, q 1 - 2 * Real.pi * ⌊q 1 / (2 * Real.pi)⌋, q 2]] := by
  rw [C106_cylindrical_to_cartesian]
  show [toCyl ![q 0 * Real.cos (q 1), q 0 * Real.sin (q 1), q 2]] = _
  congr 1
  obtain ⟨r, x, z, rfl⟩ : ∃ r x z, q = ![r, x, z] := ⟨q 0, q 1, q 2, by funext i; fin_cases i <;> rfl⟩
  replace hr : 0 < r := hr
  show toCyl ![r * Real.cos x, r * Real.sin x, z] = ![r, x - 2 * Real.pi * ⌊x / (2 * Real.pi)⌋, z]
  have hp : (0 : ℝ) < 2 * Real.pi := by positivity
  have hR : √(r * Real.cos x * (r * Real.cos x) + r * Real.sin x * (r * Real.sin x)) = r := by
    rw [Real.sqrt_eq_iff_mul_self_eq (by nlinarith [sq_nonneg (r * Real.cos x), sq_nonneg (r * Real.sin x)]) hr.le]
    nlinarith [Real.sin_sq_add_cos_sq x]
  obtain ⟨k, hk⟩ := toCyl_angle ![r * Real.cos x, r * Real.sin x, z]
  have hrange := (C106_cartesian_to_cylindrical [![r * Real.cos x, r * Real.sin x, z]]).2 0 (by simp [getCyl, setCart]) (by simp)
  simp only at hrange
  have hc : (getCyl (setCart [![r * Real.cos x, r * Real.sin x, z]]))[0]'(by simp [getCyl, setCart]) = toCyl ![r * Real.cos x, r * Real.sin x, z] := rfl
  rw [hc] at hrange
  obtain ⟨-, h0, h2, hx, hy, -⟩ := hrange
  replace hx : r * Real.cos x = √(r * Real.cos x * (r * Real.cos x) + r * Real.sin x * (r * Real.sin x)) * Real.cos (toCyl ![r * Real.cos x, r * Real.sin x, z] 1) := hx
  replace hy : r * Real.sin x = √(r * Real.cos x * (r * Real.cos x) + r * Real.sin x * (r * Real.sin x)) * Real.sin (toCyl ![r * Real.cos x, r * Real.sin x, z] 1) := hy
  rw [hR] at hx hy
  have h0r : toCyl ![r * Real.cos x, r * Real.sin x, z] 0 = r := hR
  obtain ⟨a, ha⟩ : ∃ a, toCyl ![r * Real.cos x, r * Real.sin x, z] 1 = a := ⟨_, rfl⟩
  rw [ha] at hx hy h0 h2
  have hcos : Real.cos x = Real.cos a := mul_left_cancel₀ hr.ne' hx
  have hsin : Real.sin x = Real.sin a := mul_left_cancel₀ hr.ne' hy
  have hone : Real.cos (x - a) = 1 := by
    rw [Real.cos_sub, hcos, hsin]; nlinarith [Real.sin_sq_add_cos_sq a]
  obtain ⟨n, hn⟩ := (Real.cos_eq_one_iff _).mp hone
  have hfl : ⌊x / (2 * Real.pi)⌋ = n := by
    rw [Int.floor_eq_iff]
    constructor
    · rw [le_div_iff₀ hp]; linarith
    · rw [div_lt_iff₀ hp]; linarith
  funext i
  fin_cases i
  · exact h0r
  · show toCyl ![r * Real.cos x, r * Real.sin x, z] 1 = x - 2 * Real.pi * ⌊x / (2 * Real.pi)⌋
    rw [ha, hfl]
    linarith
  · rfl

/-- The two ways to set one and the same point do not agree on the angle `get_points_cyl` returns: an angle of -π/2 stays negative when it was set as such, and is 3π/2 when the point was set in Cartesian coordinates.  The documentation names no range; the theorems above say what holds in either case. -/
theorem C106_angle_depends_on_setter :
    getCart (setCyl [![1, -(Real.pi / 2), 0]]) = getCart (setCart [![0, -1, 0]]) ∧
    getCyl (setCyl [![1, -(Real.pi / 2), 0]]) = [![1, -(Real.pi / 2), 0]] ∧
    getCyl (setCart [![0, -1, 0]]) = [![1, 3 * Real.pi / 2, 0]] := by
  have hpi := Real.pi_pos
  refine ⟨?_, ?_, ?_⟩
  · rw [C106_cylindrical_to_cartesian]
    show [![1 * Real.cos (-(Real.pi / 2)), 1 * Real.sin (-(Real.pi / 2)), 0]] = [![0, -1, 0]]
    rw [Real.cos_neg, Real.sin_neg, Real.cos_pi_div_two, Real.sin_pi_div_two]
    norm_num
  · have h := (C106_cylindrical_readback [![1, -(Real.pi / 2), 0]]).2 0 (by simp [getCyl, setCyl]) (by simp)
    have e := h.2.2.2.2.2 (by
      show |-(Real.pi / 2)| < _
      rw [abs_neg, abs_of_pos (by positivity)]; linarith)
    replace e : fmod (-(Real.pi / 2)) (2 * Real.pi) = -(Real.pi / 2) := e
    show [![(1 : ℝ), fmod (-(Real.pi / 2)) (2 * Real.pi), 0]] = _
    rw [e]
  · have h := C106_cylindrical_reduced ![1, -(Real.pi / 2), 0] (by show (0 : ℝ) < 1; norm_num)
    rw [C106_cylindrical_to_cartesian] at h
    replace h : getCyl (setCart [![1 * Real.cos (-(Real.pi / 2)), 1 * Real.sin (-(Real.pi / 2)), 0]]) = [![1, -(Real.pi / 2) - 2 * Real.pi * ⌊-(Real.pi / 2) / (2 * Real.pi)⌋, 0]] := h
    have hf : ⌊-(Real.pi / 2) / (2 * Real.pi)⌋ = -1 := by
      rw [Int.floor_eq_iff]
      have : -(Real.pi / 2) / (2 * Real.pi) = -(1 / 4) := by field_simp; norm_num
      rw [this]; norm_num
    rw [hf, Real.cos_neg, Real.sin_neg, Real.cos_pi_div_two, Real.sin_pi_div_two] at h
    have e1 : (![1 * 0, 1 * -1, 0] : P3) = ![0, -1, 0] := by norm_num
    rw [e1] at h
    rw [h]
    have e2 : -(Real.pi / 2) - 2 * Real.pi * ((-1 : ℤ) : ℝ) = 3 * Real.pi / 2 := by push_cast; ring
    rw [e2]

/-! ## Cylindrical components -/

theorem getCyl_length (s : Points) : (getCyl s).length = (getCart s).length := by
  cases s <;> simp [getCyl, getCart]

/-- The cylindrical and the Cartesian reading of the points are the same points, for every way of setting them. -/
theorem getCart_eq (s : Points) : getCart s = (getCyl s).map toCart := by
  cases s with
  | cart ps =>
    show ps = (ps.map toCyl).map toCart
    rw [List.map_map]
    conv_lhs => rw [← List.map_id ps]
    exact List.map_congr_left fun p _ => (toCart_toCyl p).symm
  | cyl qs => rfl

/-- The cylindrical unit vectors at angle `φ`. -/
noncomputable def eR (phi : ℝ) : P3 := ![Real.cos phi, Real.sin phi, 0]
noncomputable def ePhi (phi : ℝ) : P3 := ![-Real.sin phi, Real.cos phi, 0]
def eZ : P3 := ![0, 0, 1]

theorem comps_expand (q v : P3) (l : Fin 3) : v l = comps q v 0 * eR (q 1) l + comps q v 1 * ePhi (q 1) l + comps q v 2 * eZ l := by
  have h := Real.sin_sq_add_cos_sq (q 1)
  have d0 : comps q v 0 = Real.cos (q 1) * v 0 + Real.sin (q 1) * v 1 := rfl
  have d1 : comps q v 1 = Real.cos (q 1) * v 1 - Real.sin (q 1) * v 0 := rfl
  have d2 : comps q v 2 = v 2 := rfl
  rw [d0, d1, d2]
  fin_cases l
  · show v 0 = _ * Real.cos (q 1) + _ * -Real.sin (q 1) + _ * 0
    linear_combination -(v 0) * h
  · show v 1 = _ * Real.sin (q 1) + _ * Real.cos (q 1) + _ * 0
    linear_combination -(v 1) * h
  · show v 2 = _ * 0 + _ * 0 + _ * 1
    ring

theorem comps_norm (q v : P3) : comps q v 0 ^ 2 + comps q v 1 ^ 2 + comps q v 2 ^ 2 = v 0 ^ 2 + v 1 ^ 2 + v 2 ^ 2 := by
  have h := Real.sin_sq_add_cos_sq (q 1)
  have d0 : comps q v 0 = Real.cos (q 1) * v 0 + Real.sin (q 1) * v 1 := rfl
  have d1 : comps q v 1 = Real.cos (q 1) * v 1 - Real.sin (q 1) * v 0 := rfl
  have d2 : comps q v 2 = v 2 := rfl
  rw [d0, d1, d2]
  linear_combination (v 0 ^ 2 + v 1 ^ 2) * h

/-- **C106.** `B_cyl()` and `A_cyl()` are the components of `B()` and `A()` along the cylindrical unit vectors at the angles `get_points_cyl()` returns, for every way of setting the points; so they have the same modulus. -/
theorem C106_cylindrical_components (f : Field) (s : Points) (i : ℕ) (h : i < (getCart s).length)
    (hB : i < (f.getB s).length) (hq : i < (getCyl s).length) (hb : i < (f.getBcyl s).length) (ha : i < (f.getAcyl s).length) :
    let phi := (getCyl s)[i] 1
    let b := (f.getBcyl s)[i]
    let a := (f.getAcyl s)[i]
    (∀ l, (f.getB s)[i] l = b 0 * eR phi l + b 1 * ePhi phi l + b 2 * eZ l) ∧
    (∀ l, f.A (getCart s)[i] l = a 0 * eR phi l + a 1 * ePhi phi l + a 2 * eZ l) ∧
    b 0 ^ 2 + b 1 ^ 2 + b 2 ^ 2 = (f.getB s)[i] 0 ^ 2 + (f.getB s)[i] 1 ^ 2 + (f.getB s)[i] 2 ^ 2 := by
  intro phi b a
  have e1 : b = comps (getCyl s)[i] (f.getB s)[i] := by simp [b, Field.getBcyl]
  have e2 : a = comps (getCyl s)[i] (f.A (getCart s)[i]) := by simp [a, Field.getAcyl]
  rw [e1, e2]
  exact ⟨fun l => comps_expand _ _ l, fun l => comps_expand _ _ l, comps_norm _ _⟩

/-- The list of the cylindrical components of a vector field at points of non-negative radius off the axis, from the Cartesian points alone. -/
theorem comps_cart (s : Points) (V : P3 → P3) (hr : ∀ q ∈ getCyl s, 0 < q 0) :
    List.zipWith comps (getCyl s) ((getCart s).map V) = (getCart s).map fun p =>
      ![(p 0 * V p 0 + p 1 * V p 1) / √(p 0 ^ 2 + p 1 ^ 2), (p 0 * V p 1 - p 1 * V p 0) / √(p 0 ^ 2 + p 1 ^ 2), V p 2] := by
  rw [getCart_eq]
  revert hr
  induction getCyl s with
  | nil => intro _; rfl
  | cons q qs ih =>
    intro hr
    rw [List.map_cons, List.map_cons, List.zipWith_cons_cons, List.map_cons, ih fun x hx => hr x (List.mem_cons_of_mem _ hx)]
    congr 1
    have h0 := hr q List.mem_cons_self
    have hR : √(toCart q 0 ^ 2 + toCart q 1 ^ 2) = q 0 := by
      show √((q 0 * Real.cos (q 1)) ^ 2 + (q 0 * Real.sin (q 1)) ^ 2) = _
      rw [show (q 0 * Real.cos (q 1)) ^ 2 + (q 0 * Real.sin (q 1)) ^ 2 = q 0 ^ 2 from by
        linear_combination q 0 ^ 2 * Real.sin_sq_add_cos_sq (q 1), Real.sqrt_sq h0.le]
    rw [hR]
    have c0 : toCart q 0 = q 0 * Real.cos (q 1) := rfl
    have c1 : toCart q 1 = q 0 * Real.sin (q 1) := rfl
    rw [c0, c1]
    unfold comps
    funext l
    fin_cases l
    · show _ + _ = _ / _
      field_simp
    · show _ - _ = _ / _
      field_simp
    · rfl

/-- **C106.** Off the axis the cylindrical components do not depend on how the points were set: two settings with the same Cartesian points, of positive radius, give the same `B_cyl()` and `A_cyl()`, namely the radial component `(x B_x + y B_y)/R`, the toroidal one `(x B_y - y B_x)/R` and `B_z`; and `B()`, `AbsB()` and `GradAbsB()` agree too. -/
theorem C106_setter_independent (f : Field) (s s' : Points) (hr : ∀ q ∈ getCyl s, 0 < q 0) (hr' : ∀ q ∈ getCyl s', 0 < q 0)
    (h : getCart s = getCart s') :
    f.getBcyl s = f.getBcyl s' ∧ f.getAcyl s = f.getAcyl s' ∧ f.getB s = f.getB s' ∧ f.getAbsB s = f.getAbsB s' ∧ f.getGradAbsB s = f.getGradAbsB s' ∧
    f.getBcyl s = (getCart s).map fun p =>
      ![(p 0 * f.B p 0 + p 1 * f.B p 1) / √(p 0 ^ 2 + p 1 ^ 2), (p 0 * f.B p 1 - p 1 * f.B p 0) / √(p 0 ^ 2 + p 1 ^ 2), f.B p 2] := by
  have hb := comps_cart s f.B hr
  refine ⟨?_, ?_, ?_, ?_, ?_, hb⟩
  · exact hb.trans ((by rw [h]) : _ = _) |>.trans (comps_cart s' f.B hr').symm
  · exact (comps_cart s f.A hr).trans ((by rw [h]) : _ = _) |>.trans (comps_cart s' f.A hr').symm
  · unfold Field.getB; rw [h]
  · unfold Field.getAbsB Field.getB; rw [h]
  · unfold Field.getGradAbsB Field.getB; rw [h]

/-! ## The modulus and its gradient -/

theorem absB_pos {b : P3} (h : b ≠ 0) : 0 < b 0 * b 0 + b 1 * b 1 + b 2 * b 2 := by
  by_contra hn
  apply h
  have h0 := mul_self_nonneg (b 0)
  have h1 := mul_self_nonneg (b 1)
  have h2 := mul_self_nonneg (b 2)
  funext l
  fin_cases l
  · exact mul_self_eq_zero.mp (show b 0 * b 0 = 0 by linarith)
  · exact mul_self_eq_zero.mp (show b 1 * b 1 = 0 by linarith)
  · exact mul_self_eq_zero.mp (show b 2 * b 2 = 0 by linarith)

/-- The derivative of `|B|` along a curve. -/
theorem d_absB {b : ℝ → P3} {v : P3} {t : ℝ} (hb : ∀ l, HasDerivAt (fun u => b u l) (v l) t) (h : b t ≠ 0) :
    HasDerivAt (fun u => absB (b u)) ((b t 0 * v 0 + b t 1 * v 1 + b t 2 * v 2) / absB (b t)) t := by
  have hp := absB_pos h
  have hs := Real.sqrt_pos.mpr hp
  unfold absB
  refine ((((hb 0).fun_mul (hb 0)).fun_add ((hb 1).fun_mul (hb 1))).fun_add ((hb 2).fun_mul (hb 2))).sqrt hp.ne' |>.congr_deriv ?_
  field_simp
  ring

/-- **C106.** `AbsB()` is the Euclidean norm of `B()`, and where `B` does not vanish and `dB_by_dX()` holds its derivatives, `GradAbsB()` is the gradient of `|B|`. -/
theorem C106_gradient_of_modulus (f : Field) (s : Points) (i : ℕ) (h : i < (getCart s).length) (ha : i < (f.getAbsB s).length) (hg : i < (f.getGradAbsB s).length)
    (hne : f.B (getCart s)[i] ≠ 0) (hd : IsJacobian f.B (getCart s)[i] (f.dB (getCart s)[i])) :
    let p := (getCart s)[i]
    (f.getAbsB s)[i] ^ 2 = f.B p 0 ^ 2 + f.B p 1 ^ 2 + f.B p 2 ^ 2 ∧ 0 < (f.getAbsB s)[i] ∧
    ∀ j, HasDerivAt (fun t => √(f.B (Function.update p j t) 0 ^ 2 + f.B (Function.update p j t) 1 ^ 2 + f.B (Function.update p j t) 2 ^ 2))
      ((f.getGradAbsB s)[i] j) (p j) := by
  intro p
  have ea : (f.getAbsB s)[i] = absB (f.B p) := by simp [p, Field.getAbsB, Field.getB]
  have eg : (f.getGradAbsB s)[i] = gradAbsB (f.B p) (f.dB p) := by simp [p, Field.getGradAbsB, Field.getB]
  have hp := absB_pos hne
  refine ⟨?_, ?_, ?_⟩
  · rw [ea]; unfold absB; rw [Real.sq_sqrt hp.le]; ring
  · rw [ea]; exact Real.sqrt_pos.mpr hp
  · intro j
    rw [eg]
    have hu : Function.update p j (p j) = p := Function.update_eq_self _ _
    have := d_absB (b := fun t => f.B (Function.update p j t)) (v := f.dB p j) (t := p j) (fun l => hd j l) (by rw [hu]; exact hne)
    rw [hu] at this
    have e : (fun t => √(f.B (Function.update p j t) 0 ^ 2 + f.B (Function.update p j t) 1 ^ 2 + f.B (Function.update p j t) 2 ^ 2)) = fun t => absB (f.B (Function.update p j t)) := by
      funext t; unfold absB; rw [sq, sq, sq]
    rw [e]
    refine this.congr_deriv ?_
    fin_cases j <;> rfl

/-- **C106.** Where `B` is differentiable, with the derivative `dB_by_dX()` holds, and does not vanish, `GradAbsB_cyl()` holds the derivatives of `|B|` in cylindrical coordinates: `∂|B|/∂R`, `(1/R) ∂|B|/∂φ` and `∂|B|/∂Z`. -/
theorem C106_gradient_cylindrical (f : Field) (s : Points) (i : ℕ) (h : i < (getCart s).length) (hq : i < (getCyl s).length) (hg : i < (f.getGradAbsBcyl s).length)
    (hne : f.B (getCart s)[i] ≠ 0) (L : P3 →L[ℝ] P3) (hd : HasFDerivAt f.B L (getCart s)[i]) (hL : ∀ j l, L (Pi.single j 1) l = f.dB (getCart s)[i] j l) :
    let q := (getCyl s)[i]
    let g := (f.getGradAbsBcyl s)[i]
    let m := fun p => √(f.B p 0 ^ 2 + f.B p 1 ^ 2 + f.B p 2 ^ 2)
    HasDerivAt (fun t => m ![t * Real.cos (q 1), t * Real.sin (q 1), q 2]) (g 0) (q 0) ∧
    HasDerivAt (fun t => m ![q 0 * Real.cos t, q 0 * Real.sin t, q 2]) (q 0 * g 1) (q 1) ∧
    HasDerivAt (fun t => m ![q 0 * Real.cos (q 1), q 0 * Real.sin (q 1), t]) (g 2) (q 2) := by
  intro q g m
  have hp : (getCart s)[i] = toCart q := by
    have := getCart_eq s
    simp [q, this]
  have eg : g = comps q (gradAbsB (f.B (toCart q)) (f.dB (toCart q))) := by
    rw [← hp]
    simp [g, q, Field.getGradAbsBcyl, Field.getGradAbsB, Field.getB]
  rw [hp] at hne hd hL
  have em : m = fun p => absB (f.B p) := by
    funext t; unfold m absB; rw [sq, sq, sq]
  rw [em, eg]
  have key : ∀ (c : ℝ → P3) (v : P3) (t : ℝ), c t = toCart q → (∀ l, HasDerivAt (fun u => c u l) (v l) t) →
      HasDerivAt (fun u => absB (f.B (c u))) (gradAbsB (f.B (toCart q)) (f.dB (toCart q)) 0 * v 0 + gradAbsB (f.B (toCart q)) (f.dB (toCart q)) 1 * v 1
        + gradAbsB (f.B (toCart q)) (f.dB (toCart q)) 2 * v 2) t := by
    intro c v t hc hv
    have hv' : HasDerivAt c v t := hasDerivAt_pi.mpr hv
    have hB := (hc ▸ hd : HasFDerivAt f.B L (c t)).comp_hasDerivAt t hv'
    have := d_absB (b := fun u => f.B (c u)) (v := L v) (t := t) (fun l => (hasDerivAt_pi.mp hB) l) (by rw [hc]; exact hne)
    refine this.congr_deriv ?_
    have hLv : ∀ l, L v l = v 0 * f.dB (toCart q) 0 l + v 1 * f.dB (toCart q) 1 l + v 2 * f.dB (toCart q) 2 l := by
      intro l
      have ev : v = v 0 • Pi.single 0 1 + v 1 • Pi.single 1 1 + v 2 • Pi.single 2 1 := by
        funext k; fin_cases k <;> simp
      conv_lhs => rw [ev]
      rw [map_add, map_add, map_smul, map_smul, map_smul]
      simp only [Pi.add_apply, Pi.smul_apply, smul_eq_mul, hL]
    rw [hLv, hLv, hLv]
    rw [hc]
    have d0 : gradAbsB (f.B (toCart q)) (f.dB (toCart q)) 0 = (f.B (toCart q) 0 * f.dB (toCart q) 0 0 + f.B (toCart q) 1 * f.dB (toCart q) 0 1 + f.B (toCart q) 2 * f.dB (toCart q) 0 2) / absB (f.B (toCart q)) := rfl
    have d1 : gradAbsB (f.B (toCart q)) (f.dB (toCart q)) 1 = (f.B (toCart q) 0 * f.dB (toCart q) 1 0 + f.B (toCart q) 1 * f.dB (toCart q) 1 1 + f.B (toCart q) 2 * f.dB (toCart q) 1 2) / absB (f.B (toCart q)) := rfl
    have d2 : gradAbsB (f.B (toCart q)) (f.dB (toCart q)) 2 = (f.B (toCart q) 0 * f.dB (toCart q) 2 0 + f.B (toCart q) 1 * f.dB (toCart q) 2 1 + f.B (toCart q) 2 * f.dB (toCart q) 2 2) / absB (f.B (toCart q)) := rfl
    rw [d0, d1, d2]
    have : absB (f.B (toCart q)) ≠ 0 := (Real.sqrt_pos.mpr (absB_pos hne)).ne'
    field_simp
    ring
  generalize gradAbsB (f.B (toCart q)) (f.dB (toCart q)) = w at key
  have d0 : comps q w 0 = Real.cos (q 1) * w 0 + Real.sin (q 1) * w 1 := rfl
  have d1 : comps q w 1 = Real.cos (q 1) * w 1 - Real.sin (q 1) * w 0 := rfl
  have d2 : comps q w 2 = w 2 := rfl
  rw [d0, d1, d2]
  refine ⟨?_, ?_, ?_⟩
  · refine (key (fun t => ![t * Real.cos (q 1), t * Real.sin (q 1), q 2]) ![Real.cos (q 1), Real.sin (q 1), 0] (q 0) rfl ?_).congr_deriv ?_
    · intro l
      fin_cases l
      · exact ((hasDerivAt_id' (q 0)).mul_const _).congr_deriv (one_mul _)
      · exact ((hasDerivAt_id' (q 0)).mul_const _).congr_deriv (one_mul _)
      · exact hasDerivAt_const _ _
    · show w 0 * Real.cos (q 1) + w 1 * Real.sin (q 1) + w 2 * 0 = _
      ring
  · refine (key (fun t => ![q 0 * Real.cos t, q 0 * Real.sin t, q 2]) ![q 0 * -Real.sin (q 1), q 0 * Real.cos (q 1), 0] (q 1) rfl ?_).congr_deriv ?_
    · intro l
      fin_cases l
      · exact (Real.hasDerivAt_cos (q 1)).const_mul _
      · exact (Real.hasDerivAt_sin (q 1)).const_mul _
      · exact hasDerivAt_const _ _
    · show w 0 * (q 0 * -Real.sin (q 1)) + w 1 * (q 0 * Real.cos (q 1)) + w 2 * 0 = _
      ring
  · refine (key (fun t => ![q 0 * Real.cos (q 1), q 0 * Real.sin (q 1), t]) ![0, 0, 1] (q 2) rfl ?_).congr_deriv ?_
    · intro l
      fin_cases l
      · exact hasDerivAt_const _ _
      · exact hasDerivAt_const _ _
      · exact hasDerivAt_id' _
    · show w 0 * 0 + w 1 * 0 + w 2 * 1 = _
      ring

/-- The hypotheses hold of a field with a gradient, at points set in either way: `B = (1 + y, 0, 0)`. -/
example : let f : Field := ⟨fun p => ![1 + p 1, 0, 0], fun _ => ![![0, 0, 0], ![1, 0, 0], ![0, 0, 0]], fun p => p⟩
    f.B (getCart (setCyl [![1, 0, 5]]))[0] ≠ 0 ∧ IsJacobian f.B (getCart (setCyl [![1, 0, 5]]))[0] (f.dB (getCart (setCyl [![1, 0, 5]]))[0]) ∧
    (∀ q ∈ getCyl (setCyl [![1, 0, 5]]), 0 < q 0) ∧ (∀ q ∈ getCyl (setCart [![1, 0, 5]]), 0 < q 0) ∧ getCart (setCyl [![1, 0, 5]]) = getCart (setCart [![1, 0, 5]]) := by
  intro f
  have e : getCart (setCyl [![1, 0, 5]]) = getCart (setCart [![1, 0, 5]]) := by
    rw [C106_cylindrical_to_cartesian]
    show [![1 * Real.cos 0, 1 * Real.sin 0, 5]] = [![1, 0, 5]]
    simp
  refine ⟨?_, ?_, ?_, ?_, e⟩
  · simp only [e]
    intro hz
    have : (1 : ℝ) + 0 = 0 := congrFun hz 0
    norm_num at this
  · simp only [e]
    intro j l
    fin_cases l
    · fin_cases j
      · exact (hasDerivAt_const (1 : ℝ) ((1 : ℝ) + 0)).congr_deriv rfl
      · exact ((hasDerivAt_id' (0 : ℝ)).const_add 1)
      · exact (hasDerivAt_const (5 : ℝ) ((1 : ℝ) + 0)).congr_deriv rfl
    · fin_cases j <;> exact hasDerivAt_const _ _
    · fin_cases j <;> exact hasDerivAt_const _ _
  · intro q hq
    have : q = ![1, fmod 0 (2 * Real.pi), 5] := by simpa [getCyl, setCyl] using hq
    rw [this]; show (0 : ℝ) < 1; norm_num
  · intro q hq
    have : q = toCyl ![1, 0, 5] := by simpa [getCyl, setCart] using hq
    rw [this, toCyl_zero]
    show 0 < √((1 : ℝ) ^ 2 + 0 ^ 2)
    positivity

end Simsopt.Fields.Derived
