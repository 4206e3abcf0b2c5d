import Verif.Curves.RZ
import Mathlib.Tactic.NormNum
/-!
# The magnetic axes of the configurations in the zoo (C195)

Model of the lines that make the axis in `get_ncsx_data`, `get_hsx_data`, `get_giuliani_data`, `get_w7x_data` (src/simsopt/configs/zoo.py L44-48, L82-86, L115-119, L184-188).  The tables are arguments; real numbers instead of doubles.
-/
namespace Simsopt.Zoo
open Simsopt Simsopt.RZ

/-- `a[:] = l` for a numpy array of length `n`: lists of length `n` and 1 are accepted. -/
def assign (n : ℕ) (l : List ℝ) : Except Err (List ℝ) :=
  if l.length = n then .ok l else if l.length = 1 then .ok (List.replicate n (l.headD 0)) else .error .valueError

/-- `numpoints` (L44, L82, L115, L184). -/
def numpoints (Nt ppp : ℕ) : ℕ := if (Nt * ppp) % 2 = 0 then Nt * ppp + 1 else Nt * ppp

/-- The dofs of `ma` (L45-48 and the same lines of the other functions): `ma.rc[:] = cR[0:(Nt_ma+1)]`, `ma.zs[:] = sZ[0:Nt_ma]`, `ma.x = ma.get_dofs()`. -/
def axis (cR sZ : List ℝ) (Nt : ℕ) : Except Err (List ℝ) := do
  let rc ← assign (Nt + 1) (cR.take (Nt + 1))
  let zs ← assign Nt (sZ.take Nt)
  .ok (RZ.getDofs Nt true ⟨fun i => rc[i]?.getD 0, fun _ => 0, fun _ => 0, fun i => zs[i]?.getD 0⟩)

/-- `cR` and `sZ` of W7-X (L169-182). -/
noncomputable def w7xR : List ℝ := [5.56069066955626, 0.370739830964738, 0.0161526928867275, 0.0011820724983052, 3.43773868380292e-06, -4.71423775536881e-05, -6.23133271265022e-05, 2.06622580616597e-06, -0.000113256675159501, 5.0296895894932e-07,
  7.02308687052046e-05, 5.13479338167885e-05, 1.90731007856885e-05]
noncomputable def w7xZ : List ℝ := [0, -0.308156954586225, -0.0186374002410851, -0.000261743895528833, 5.78207516751575e-05, -0.000129121205314107, 3.08849630026052e-05, 1.95450172782866e-05, -8.32136392792337e-05, 6.19785500011441e-05,
  1.36521157246782e-05, -1.46281683516623e-05, -1.5142136543872e-06]

/-! ### Specification -/

/-- The axis with the radial coefficients `R n` and the vertical coefficients `Z n` of mode `n`, up to mode `N`, at the angle `phi`. -/
noncomputable def axisR (nfp N : ℕ) (R : ℕ → ℝ) (phi : ℝ) : ℝ := ∑ n ∈ Finset.range (N + 1), R n * Real.cos (nfp * n * phi)
noncomputable def axisZ (nfp N : ℕ) (Z : ℕ → ℝ) (phi : ℝ) : ℝ := ∑ n ∈ Finset.range (N + 1), Z n * Real.sin (nfp * n * phi)

/-! ### Theorems -/

theorem assign_ok (n : ℕ) (l : List ℝ) (h : n ≤ l.length) : assign n (l.take n) = .ok (l.take n) := by
  rw [assign, if_pos (by rw [List.length_take]; omega)]

theorem axis_ok (cR sZ : List ℝ) (N : ℕ) (hR : N < cR.length) (hZ : N ≤ sZ.length) :
    axis cR sZ N = .ok (cR.take (N + 1) ++ sZ.take N) := by
  rw [axis, assign_ok _ _ hR, assign_ok _ _ hZ]
  show Except.ok _ = _
  congr 1
  simp only [RZ.getDofs, if_true]
  congr 1
  · apply List.ext_getElem?
    intro i
    by_cases hi : i < N + 1
    · rw [List.getElem?_map, List.getElem?_range hi, Option.map_some, List.getElem?_eq_getElem (by rw [List.length_take]; omega)]; rfl
    · rw [List.getElem?_eq_none (by simp; omega), List.getElem?_eq_none (by simp; omega)]
  · apply List.ext_getElem?
    intro i
    by_cases hi : i < N
    · rw [List.getElem?_map, List.getElem?_range hi, Option.map_some, List.getElem?_eq_getElem (by rw [List.length_take]; omega)]; rfl
    · rw [List.getElem?_eq_none (by simp; omega), List.getElem?_eq_none (by simp; omega)]

theorem get_R (cR sZ : List ℝ) (N : ℕ) (hR : N < cR.length) (m : ℕ) (hm : m ≤ N) : (cR.take (N + 1) ++ sZ.take N)[0 + m]?.getD 0 = cR[m]?.getD 0 := by
  rw [zero_add, List.getElem?_append_left (by rw [List.length_take]; omega), List.getElem?_take, if_pos (by omega)]

theorem get_Z (cR sZ : List ℝ) (N : ℕ) (hR : N < cR.length) (m : ℕ) (hm : m < N) : (cR.take (N + 1) ++ sZ.take N)[N + 1 + m]?.getD 0 = sZ[m]?.getD 0 := by
  rw [List.getElem?_append_right (by rw [List.length_take]; omega), List.length_take, List.getElem?_take, show N + 1 + m - min (N + 1) cR.length = m by omega, if_pos hm]

/-- **C195**: the axis returned is the curve whose radial coefficients are the table `cR`, counted from mode 0, and whose vertical coefficients are the table `sZ`, counted from mode 1, up to the order asked for. -/
theorem C195_axis (nfp : ℕ) (cR sZ : List ℝ) (N : ℕ) (hR : N < cR.length) (hZ : N ≤ sZ.length) :
    ∃ d, axis cR sZ N = .ok d ∧ ∀ t, let phi := 2 * Real.pi * t
      let r := axisR nfp N (fun n => cR[n]?.getD 0) phi
      curve 0 N nfp true (setDofs N true d) t = (r * Real.cos phi, r * Real.sin phi, axisZ nfp N (fun n => if n = 0 then 0 else sZ[n - 1]?.getD 0) phi) := by
  refine ⟨_, axis_ok cR sZ N hR hZ, fun t => ?_⟩
  have h := (C55_series N nfp (cR.take (N + 1) ++ sZ.take N) t).1
  simp only at h ⊢
  rw [h]
  have e1 : series N nfp (cR.take (N + 1) ++ sZ.take N) (some 0) none (2 * Real.pi * t) = axisR nfp N (fun n => cR[n]?.getD 0) (2 * Real.pi * t) := by
    rw [series, axisR]
    simp only [add_zero]
    refine Finset.sum_congr rfl fun m hm => ?_
    have hm := Finset.mem_range.mp hm
    rw [get_R cR sZ N hR m (by omega)]
  have e2 : series N nfp (cR.take (N + 1) ++ sZ.take N) none (some (N + 1)) (2 * Real.pi * t) = axisZ nfp N (fun n => if n = 0 then 0 else sZ[n - 1]?.getD 0) (2 * Real.pi * t) := by
    rw [series, axisZ, Finset.sum_range_succ']
    simp only [zero_add, if_true, zero_mul, add_zero]
    refine Finset.sum_congr rfl fun m hm => ?_
    have hm := Finset.mem_range.mp hm
    rw [get_Z cR sZ N hR m hm, if_neg (by omega), Nat.add_sub_cancel]
    push_cast
    rfl
  rw [e1, e2]

/-- **C195**: an order beyond the table is refused. -/
theorem C195_refused (cR sZ : List ℝ) (N : ℕ) (h2 : 2 ≤ cR.length) (hR : cR.length ≤ N) : axis cR sZ N = .error .valueError := by
  have : assign (N + 1) (cR.take (N + 1)) = .error .valueError := by
    rw [assign, if_neg (by rw [List.length_take]; omega), if_neg (by rw [List.length_take]; omega)]
  rw [axis, this]
  rfl

/-- **C195**: the number of quadrature points is odd, and at most one more than asked for. -/
theorem C195_points (N ppp : ℕ) : numpoints N ppp % 2 = 1 ∧ N * ppp ≤ numpoints N ppp ∧ numpoints N ppp ≤ N * ppp + 1 := by
  unfold numpoints
  generalize N * ppp = k
  split <;> omega

/-- **C195 (exception)**: the table of W7-X begins with the coefficient of mode 0, as in VMEC, but is used as if it began with mode 1: for every order the vertical coefficient of mode `n` is that of mode `n - 1`, and with `Nt_ma = 1` the axis is
planar instead of reaching `|z| = 0.308`. -/
theorem C195_w7x_violated :
    (∀ N ≤ 12, ∃ d, axis w7xR w7xZ N = .ok d ∧ ∀ n, 1 ≤ n → n ≤ N → d[N + n]?.getD 0 = w7xZ[n - 1]?.getD 0) ∧
    (∃ d, axis w7xR w7xZ 1 = .ok d ∧ ∀ t, (curve 0 1 5 true (setDofs 1 true d) t).2.2 = 0) ∧
    axisZ 5 1 (fun n => w7xZ[n]?.getD 0) (Real.pi / 10) = -0.308156954586225 := by
  have hR : w7xR.length = 13 := rfl
  have hZ : w7xZ.length = 13 := rfl
  refine ⟨fun N hN => ⟨_, axis_ok w7xR w7xZ N (by omega) (by omega), fun n h1 hn => ?_⟩, ?_, ?_⟩
  · have := get_Z w7xR w7xZ N (by omega) (n - 1) (by omega)
    rwa [show N + 1 + (n - 1) = N + n by omega] at this
  · obtain ⟨d, hd, h⟩ := C195_axis 5 w7xR w7xZ 1 (by omega) (by omega)
    refine ⟨d, hd, fun t => ?_⟩
    rw [h t]
    simp [axisZ, Finset.sum_range_succ, w7xZ]
  · simp only [axisZ, Finset.sum_range_succ, Finset.sum_range_zero]
    rw [show ((5 : ℕ) : ℝ) * ((1 : ℕ) : ℝ) * (Real.pi / 10) = Real.pi / 2 by push_cast; ring, Real.sin_pi_div_two]
    simp [w7xZ]

end Simsopt.Zoo
